import Verif.Proofs.Entropy
/-!
# Noise with many zero slots, counted
-/
namespace Raccoon
attribute [-instance] Monoid.toNPow
open Finset

theorem signedWord_pos {u : Nat} (hu : 0 < u) (w : Fin (2 ^ u)) : 0 ≤ signedWord u w + 2 ^ (u - 1) ∧ signedWord u w + 2 ^ (u - 1) < 2 ^ u := by
  have hp : 2 ^ u = 2 * 2 ^ (u - 1) := by rw [← pow_succ']; congr 1; omega
  have hpi : (2 : Int) ^ u = 2 * 2 ^ (u - 1) := by exact_mod_cast hp
  have hw : w.val < 2 * 2 ^ (u - 1) := by have := w.isLt; omega
  unfold signedWord
  have hc : (((2 : Nat) ^ (u - 1) : Nat) : Int) = 2 ^ (u - 1) := by push_cast; rfl
  rw [hpi, ← hc]
  generalize (2 : Nat) ^ (u - 1) = y at *
  split <;> omega

theorem signedWord_inj {u : Nat} (hu : 0 < u) (w w' : Fin (2 ^ u)) (h : signedWord u w = signedWord u w') : w = w' := by
  have hp : 2 ^ u = 2 * 2 ^ (u - 1) := by rw [← pow_succ']; congr 1; omega
  have hpi : (2 : Int) ^ u = 2 * 2 ^ (u - 1) := by exact_mod_cast hp
  have hw : w.val < 2 * 2 ^ (u - 1) := by have := w.isLt; omega
  have hw' : w'.val < 2 * 2 ^ (u - 1) := by have := w'.isLt; omega
  unfold signedWord at h
  have hc : (((2 : Nat) ^ (u - 1) : Nat) : Int) = 2 ^ (u - 1) := by push_cast; rfl
  rw [hpi, ← hc] at h
  refine Fin.ext ?_
  generalize (2 : Nat) ^ (u - 1) = y at *
  split at h <;> split at h <;> omega

theorem count_special {I : Type} [Fintype I] [DecidableEq I] {n m K L : Nat} (g : Fin m → I) (hg : Function.Injective g) (S : (I → Fin n) → Prop) [DecidablePred S]
    (code : Fin n → Nat) (hcode : ∀ w, code w < K) (hK : K * L ≤ n)
    (hinj : ∀ V V', S V → S V' → (∀ i, (¬ ∃ t, g t = i) → V i = V' i) → (∀ t, code (V (g t)) = code (V' (g t))) → V = V') :
    (univ.filter S).card * L ^ m ≤ Fintype.card (I → Fin n) := by
  classical
  have h1 : (univ.filter S).card ≤ Fintype.card ({i : I // ¬ ∃ t, g t = i} → Fin n) * (Finset.range K).card ^ Fintype.card (Fin m) := by
    refine card_le_of_inj _ (Finset.range K) (fun V i => V i.1) (fun V t => code (V (g t))) (fun V _ t => Finset.mem_range.2 (hcode _)) ?_
    intro V V' hV hV' e1 e2
    exact hinj V V' hV hV' (fun i h => congrFun e1 ⟨i, h⟩) (fun t => congrFun e2 t)
  have e : Fintype.card {i : I // ∃ t, g t = i} = m := by
    have h := Nat.card_congr (Equiv.ofInjective g hg)
    rw [Nat.card_eq_fintype_card, Fintype.card_fin] at h
    rw [← Nat.card_eq_fintype_card]
    exact h.symm
  have h2 : Fintype.card (I → Fin n) = n ^ m * Fintype.card ({i : I // ¬ ∃ t, g t = i} → Fin n) := by
    rw [Fintype.card_congr (Equiv.piEquivPiSubtypeProd (fun i => ∃ t, g t = i) (fun _ => Fin n)), Fintype.card_prod, Fintype.card_fun (α := {i : I // ∃ t, g t = i}), e, Fintype.card_fin]
  rw [Finset.card_range, Fintype.card_fin] at h1
  rw [h2]
  calc _ ≤ Fintype.card ({i : I // ¬ ∃ t, g t = i} → Fin n) * K ^ m * L ^ m := Nat.mul_le_mul_right _ h1
    _ = (K * L) ^ m * Fintype.card ({i : I // ¬ ∃ t, g t = i} → Fin n) := by rw [mul_pow]; ring
    _ ≤ _ := Nat.mul_le_mul_right _ (Nat.pow_le_pow_left hK _)

theorem card_filter_equiv {A B : Type} [Fintype A] [Fintype B] (e : A ≃ B) (p : B → Prop) [DecidablePred p] : (univ.filter p).card = (univ.filter fun a => p (e a)).card := by
  rw [Finset.card_filter, Finset.card_filter, ← Equiv.sum_comp e]

/-- The place of a word: row `j0` of the response mask, coefficient `512 − m + t`, word `κ0`. -/
def highWord {l k : Nat} {κ : Type} (j0 : Fin l) (κ0 : κ) {m : Nat} (hm : m ≤ 512) (t : Fin m) : (Fin 1 × (Fin l ⊕ Fin k) × Fin 512) × κ :=
  ((0, Sum.inl j0, ⟨512 - m + t.val, by omega⟩), κ0)

theorem zero_slots_count {p : Nat} [Fact p.Prime] (hp : p ∣ q) {l k u : Nat} {κ : Type} [Fintype κ] [DecidableEq κ] (κ0 : κ) (j0 : Fin l) (hu : 0 < u)
    {L : Nat} (hpow : (2 ^ u / p + 1) * L ≤ 2 ^ u) (Z : Finset (Fin 512)) (ρ : RPoly) [DecidablePred fun W : NoiseTable 1 l k u κ => ∀ i ∈ Z, red hp (nttR (vecR (maskOf W 0) j0 - ρ) i) = 0] :
    (univ.filter fun W : NoiseTable 1 l k u κ => ∀ i ∈ Z, red hp (nttR (vecR (maskOf W 0) j0 - ρ) i) = 0).card * L ^ Z.card ≤ Fintype.card (NoiseTable 1 l k u κ) := by
  classical
  have hm : Z.card ≤ 512 := by simpa using Finset.card_le_univ Z
  have hp0 : 0 < p := (Fact.out : p.Prime).pos
  let g : Fin Z.card → (Fin 1 × (Fin l ⊕ Fin k) × Fin 512) × κ := highWord j0 κ0 hm
  have hg : Function.Injective g := by
    intro t t' h
    have h1 := congrArg (fun x => x.1.2.2.val) h
    have h2 : 512 - Z.card + t.val = 512 - Z.card + t'.val := h1
    exact Fin.ext (by omega)
  rw [card_filter_equiv (Equiv.curry (Fin 1 × (Fin l ⊕ Fin k) × Fin 512) κ (Fin (2 ^ u))), ← Fintype.card_congr (Equiv.curry (Fin 1 × (Fin l ⊕ Fin k) × Fin 512) κ (Fin (2 ^ u)))]
  refine count_special (K := 2 ^ u / p + 1) g hg _ (fun w => ((signedWord u w + 2 ^ (u - 1)) / (p : Int)).toNat) (fun w => ?_) hpow ?_
  · obtain ⟨b1, b2⟩ := signedWord_pos hu w
    generalize signedWord u w + 2 ^ (u - 1) = y at *
    have hy : y.toNat < 2 ^ u := by
      have : ((2 ^ u : Nat) : Int) = 2 ^ u := by push_cast; rfl
      omega
    have e : (y / (p : Int)).toNat = y.toNat / p := by
      conv_lhs => rw [← Int.toNat_of_nonneg b1]
      rw [← Int.natCast_div, Int.toNat_natCast]
    rw [e]
    exact Nat.lt_succ_of_le (Nat.div_le_div_right hy.le)
  · intro V V' hW hW' hoff0 e2
    obtain ⟨W, rfl⟩ := (Equiv.curry (Fin 1 × (Fin l ⊕ Fin k) × Fin 512) κ (Fin (2 ^ u))).symm.surjective V
    obtain ⟨W', rfl⟩ := (Equiv.curry (Fin 1 × (Fin l ⊕ Fin k) × Fin 512) κ (Fin (2 ^ u))).symm.surjective V'
    rw [Equiv.apply_symm_apply] at hW hW'
    congr 1
    have e2 : ∀ t, ((signedWord u (W (g t).1 (g t).2) + 2 ^ (u - 1)) / (p : Int)).toNat = ((signedWord u (W' (g t).1 (g t).2) + 2 ^ (u - 1)) / (p : Int)).toNat := e2
    have hoff : ∀ i c, (¬ ∃ t, g t = (i, c)) → W i c = W' i c := fun i c h => hoff0 (i, c) h
    have hlow : ∀ x : Fin 512, x.val < 512 - Z.card → maskOf W 0 j0 x = maskOf W' 0 j0 x := by
      intro x hx
      unfold maskOf
      congr 1
      funext c
      refine hoff _ _ ?_
      rintro ⟨t, ht⟩
      have h2 := congrArg (fun x => x.1.2.2.val) ht
      have h3 : 512 - Z.card + t.val = x.val := h2
      omega
    have hcoef : ∀ c, red hp ((vecR (maskOf W 0) j0 - vecR (maskOf W' 0) j0) c) = 0 := by
      refine zeros_low_red hp _ Z (fun i hi => ?_) (fun c hc => ?_)
      · have k1 := hW i hi
        have k2 := hW' i hi
        rw [nttR_sub, Pi.sub_apply, map_sub, sub_eq_zero] at k1 k2 ⊢
        rw [k1, k2]
      · rw [Pi.sub_apply, map_sub, sub_eq_zero]
        unfold vecR toR
        rw [hlow c hc]
    have hhigh : ∀ t, W (g t).1 (g t).2 = W' (g t).1 (g t).2 := by
      intro t
      have h1 := hcoef (g t).1.2.2
      rw [Pi.sub_apply, map_sub] at h1
      unfold vecR toR at h1
      rw [map_intCast, map_intCast, ← Int.cast_sub, ZMod.intCast_zmod_eq_zero_iff_dvd] at h1
      have h2 : maskOf W 0 j0 (g t).1.2.2 - maskOf W' 0 j0 (g t).1.2.2 = signedWord u (W (g t).1 (g t).2) - signedWord u (W' (g t).1 (g t).2) := by
        unfold maskOf signedSum
        rw [← Finset.sum_sub_distrib, Finset.sum_eq_single κ0]
        · rfl
        · intro c _ hc
          rw [sub_eq_zero]
          congr 1
          refine hoff _ _ ?_
          rintro ⟨t', ht'⟩
          have : κ0 = c := congrArg (fun x => x.2) ht'
          exact hc this.symm
        · intro h; exact absurd (Finset.mem_univ _) h
      rw [h2] at h1
      have h3 := e2 t
      obtain ⟨b1, -⟩ := signedWord_pos hu (W (g t).1 (g t).2)
      obtain ⟨b2, -⟩ := signedWord_pos hu (W' (g t).1 (g t).2)
      refine signedWord_inj hu _ _ ?_
      generalize signedWord u (W (g t).1 (g t).2) = y at *
      generalize signedWord u (W' (g t).1 (g t).2) = y' at *
      generalize (2 : Int) ^ (u - 1) = z at *
      have p0 : (0 : Int) < p := by exact_mod_cast hp0
      have d1 : 0 ≤ (y + z) / (p : Int) := Int.ediv_nonneg b1 p0.le
      have d2 : 0 ≤ (y' + z) / (p : Int) := Int.ediv_nonneg b2 p0.le
      have d3 : (y + z) / (p : Int) = (y' + z) / (p : Int) := by omega
      have d4 : (y + z) % (p : Int) = (y' + z) % (p : Int) := by
        refine Int.emod_eq_emod_iff_emod_sub_eq_zero.2 ?_
        rw [show y + z - (y' + z) = y - y' by ring]
        exact Int.emod_eq_zero_of_dvd h1
      have := Int.mul_ediv_add_emod (y + z) p
      have := Int.mul_ediv_add_emod (y' + z) p
      rw [d3, d4] at *
      omega
    funext i c
    by_cases h : ∃ t, g t = (i, c)
    · obtain ⟨t, ht⟩ := h
      have := hhigh t
      rw [ht] at this
      exact this
    · exact hoff i c h

end Raccoon
