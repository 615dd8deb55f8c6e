import Verif.Spec.Flood
import Verif.Proofs.Extreme
/-!
# Counting tables of noise words with a shifted sum
-/
namespace Raccoon
attribute [-instance] Monoid.toNPow
open Finset

/-- Adding `t` to a word, modulo 2^u. -/
def wordAdd {u : Nat} (w : Fin (2 ^ u)) (t : Int) : Fin (2 ^ u) :=
  ⟨(((w.val : Int) + t) % ((2 ^ u : Nat) : Int)).toNat, by
    have hp : 0 < 2 ^ u := Nat.pow_pos (by omega)
    generalize 2 ^ u = N at *
    have h1 := Int.emod_nonneg ((w.val : Int) + t) (b := (N : Int)) (by omega)
    have h2 := Int.emod_lt_of_pos ((w.val : Int) + t) (b := (N : Int)) (by omega)
    omega⟩

theorem wordAdd_inj {u : Nat} (w w' : Fin (2 ^ u)) (t : Int) (h : wordAdd w t = wordAdd w' t) : w = w' := by
  have hp : 0 < 2 ^ u := Nat.pow_pos (by omega)
  have h1 : (((w.val : Int) + t) % ((2 ^ u : Nat) : Int)).toNat = (((w'.val : Int) + t) % ((2 ^ u : Nat) : Int)).toNat := congrArg Fin.val h
  have l1 := w.isLt
  have l2 := w'.isLt
  apply Fin.ext
  generalize w.val = a at *
  generalize w'.val = b at *
  clear h
  generalize 2 ^ u = N at *
  have n1 := Int.emod_nonneg ((a : Int) + t) (b := (N : Int)) (by omega)
  have n2 := Int.emod_nonneg ((b : Int) + t) (b := (N : Int)) (by omega)
  have e : ((a : Int) + t) % (N : Int) = ((b : Int) + t) % (N : Int) := by omega
  have h3 : ((a : Int)) % (N : Int) = (b : Int) % (N : Int) := by
    have := Int.emod_sub_cancel_right (m := (a : Int) + t) (k := (b : Int) + t) (n := (N : Int)) t
    have h := this.2 e
    rwa [add_sub_cancel_right, add_sub_cancel_right] at h
  rw [Int.emod_eq_of_lt (by omega) (by omega), Int.emod_eq_of_lt (by omega) (by omega)] at h3
  omega

/-- Unless the sum leaves the range, adding to the word is adding to the number. -/
theorem wordAdd_signed {u : Nat} (hu : 0 < u) (w : Fin (2 ^ u)) (t : Int) (h1 : -2 ^ (u - 1) ≤ signedWord u w + t) (h2 : signedWord u w + t < 2 ^ (u - 1)) :
    signedWord u (wordAdd w t) = signedWord u w + t := by
  obtain ⟨v, rfl⟩ : ∃ v, u = v + 1 := ⟨u - 1, by omega⟩
  have e : (2 : Nat) ^ (v + 1) = 2 * 2 ^ v := by rw [Nat.pow_succ, Nat.mul_comm]
  have e' : (2 : Int) ^ (v + 1) = 2 * ((2 ^ v : Nat) : Int) := by rw [pow_succ, Nat.cast_pow]; ring
  have e2 : (2 : Int) ^ v = ((2 ^ v : Nat) : Int) := by rw [Nat.cast_pow]; rfl
  have hp : 0 < 2 ^ v := Nat.pow_pos (by omega)
  have hw := Nat.lt_of_lt_of_eq w.isLt e
  unfold wordAdd
  unfold signedWord at h1 h2 ⊢
  dsimp only
  simp only [Nat.add_sub_cancel] at h1 h2 ⊢
  rw [e'] at h1 h2 ⊢
  rw [e2] at h1 h2
  generalize w.val = a at *
  rw [e]
  clear e e' e2 hu
  generalize 2 ^ v = M at *
  have key : ∃ k : Int, ((a : Int) + t) % ((2 * M : Nat) : Int) = (a : Int) + t - (2 * M : Nat) * k ∧ (k = -1 ∨ k = 0 ∨ k = 1) := by
    refine ⟨((a : Int) + t) / ((2 * M : Nat) : Int), ?_, ?_⟩
    · rw [Int.emod_def]
    · have hM : (0 : Int) < ((2 * M : Nat) : Int) := by omega
      have q1 : -1 ≤ ((a : Int) + t) / ((2 * M : Nat) : Int) := by
        rw [Int.le_ediv_iff_mul_le hM]
        split at h1 <;> omega
      have q2 : ((a : Int) + t) / ((2 * M : Nat) : Int) < 2 := by
        rw [Int.ediv_lt_iff_lt_mul hM]
        split at h2 <;> omega
      omega
  have n1 := Int.emod_nonneg ((a : Int) + t) (b := ((2 * M : Nat) : Int)) (by omega)
  have n2 := Int.emod_lt_of_pos ((a : Int) + t) (b := ((2 * M : Nat) : Int)) (by omega)
  obtain ⟨k, hk, hk3⟩ := key
  rw [hk] at n1 n2 ⊢
  rcases hk3 with rfl | rfl | rfl <;> split at h1 <;> split <;> omega

/-- Few words leave the range. -/
theorem wordAdd_bad {u : Nat} (hu : 0 < u) (t : Int) :
    (univ.filter fun w : Fin (2 ^ u) => ¬ (-2 ^ (u - 1) ≤ signedWord u w + t ∧ signedWord u w + t < 2 ^ (u - 1))).card ≤ t.natAbs := by
  obtain ⟨v, rfl⟩ : ∃ v, u = v + 1 := ⟨u - 1, by omega⟩
  have e : (2 : Nat) ^ (v + 1) = 2 * 2 ^ v := by rw [Nat.pow_succ, Nat.mul_comm]
  have e2 : (2 : Int) ^ v = ((2 ^ v : Nat) : Int) := by rw [Nat.cast_pow]; rfl
  by_cases ht : 0 ≤ t
  · have : (Finset.Ico (2 * 2 ^ v - t.natAbs) (2 * 2 ^ v)).card ≤ t.natAbs := by rw [Nat.card_Ico]; omega
    refine Nat.le_trans (Finset.card_le_card_of_injOn (lift (v + 1)) ?_ ?_) this
    · intro w hw
      have h := (Finset.mem_filter.1 (Finset.mem_coe.1 hw)).2
      have hl := lift_spec (u := v + 1) (by omega) w
      simp only [Nat.add_sub_cancel] at h hl
      rw [e2] at h hl
      replace hl := And.intro hl.1 (Nat.lt_of_lt_of_eq hl.2 e)
      refine Finset.mem_coe.2 (Finset.mem_Ico.2 ?_)
      generalize lift (v + 1) w = a at *
      generalize signedWord (v + 1) w = b at *
      generalize 2 ^ v = M at *
      clear e e2 hw
      omega
    · intro w _ w' _ h
      exact lift_inj (u := v + 1) (by omega) w w' h
  · have : (Finset.range t.natAbs).card ≤ t.natAbs := by rw [Finset.card_range]
    refine Nat.le_trans (Finset.card_le_card_of_injOn (lift (v + 1)) ?_ ?_) this
    · intro w hw
      have h := (Finset.mem_filter.1 (Finset.mem_coe.1 hw)).2
      have hl := lift_spec (u := v + 1) (by omega) w
      simp only [Nat.add_sub_cancel] at h hl
      rw [e2] at h hl
      replace hl := And.intro hl.1 (Nat.lt_of_lt_of_eq hl.2 e)
      refine Finset.mem_coe.2 (Finset.mem_range.2 ?_)
      generalize lift (v + 1) w = a at *
      generalize signedWord (v + 1) w = b at *
      generalize 2 ^ v = M at *
      clear e e2 hw
      omega
    · intro w _ w' _ h
      exact lift_inj (u := v + 1) (by omega) w w' h

/-- Functions with a condition on one value. -/
theorem card_coord {α β : Type} [Fintype α] [DecidableEq α] [Fintype β] (a : α) (p : β → Prop) [DecidablePred p] :
    (univ.filter fun f : α → β => p (f a)).card * Fintype.card β = (univ.filter p).card * Fintype.card (α → β) := by
  have e : (univ.filter fun f : α → β => p (f a)) = Fintype.piFinset fun x => if x = a then univ.filter p else univ := by
    ext f
    rw [Finset.mem_filter, Fintype.mem_piFinset]
    constructor
    · rintro ⟨-, h⟩ x
      by_cases hx : x = a
      · subst hx; rw [if_pos rfl]; exact Finset.mem_filter.2 ⟨Finset.mem_univ _, h⟩
      · rw [if_neg hx]; exact Finset.mem_univ _
    · intro h
      have := h a
      rw [if_pos rfl] at this
      exact ⟨Finset.mem_univ _, (Finset.mem_filter.1 this).2⟩
  rw [e, Fintype.card_piFinset, ← Finset.mul_prod_erase univ _ (Finset.mem_univ a), if_pos rfl, Fintype.card_fun, ← Finset.card_univ (α := α), ← Finset.prod_const, ← Finset.card_univ (α := β),
    ← Finset.mul_prod_erase univ (fun _ : α => (univ : Finset β).card) (Finset.mem_univ a)]
  rw [Finset.prod_congr rfl (g := fun _ => (univ : Finset β).card) fun x hx => by rw [if_neg (Finset.ne_of_mem_erase hx)]]
  ring

section
variable {ι κ : Type} [Fintype ι] [DecidableEq ι] [Fintype κ] [DecidableEq κ]

/-- Shift one word of each family. -/
def tableAdd {u : Nat} (k0 : κ) (δ : ι → Int) (W : ι → κ → Fin (2 ^ u)) : ι → κ → Fin (2 ^ u) := fun i k => if k = k0 then wordAdd (W i k) (δ i) else W i k

theorem tableAdd_inj {u : Nat} (k0 : κ) (δ : ι → Int) (W W' : ι → κ → Fin (2 ^ u)) (h : tableAdd k0 δ W = tableAdd k0 δ W') : W = W' := by
  funext i k
  have h1 := congrFun (congrFun h i) k
  unfold tableAdd at h1
  by_cases hk : k = k0
  · rw [if_pos hk, if_pos hk] at h1
    exact wordAdd_inj _ _ _ h1
  · rwa [if_neg hk, if_neg hk] at h1

theorem tableAdd_sum {u : Nat} (hu : 0 < u) (k0 : κ) (δ : ι → Int) (W : ι → κ → Fin (2 ^ u))
    (h : ∀ i, -2 ^ (u - 1) ≤ signedWord u (W i k0) + δ i ∧ signedWord u (W i k0) + δ i < 2 ^ (u - 1)) : tableSum u (tableAdd k0 δ W) = δ + tableSum u W := by
  funext i
  show signedSum u _ = δ i + signedSum u (W i)
  unfold signedSum tableAdd
  rw [← Finset.add_sum_erase _ _ (Finset.mem_univ k0), ← Finset.add_sum_erase univ (fun k => signedWord u (W i k)) (Finset.mem_univ k0), if_pos rfl,
    wordAdd_signed hu _ _ (h i).1 (h i).2, Finset.sum_congr rfl fun k hk => by rw [if_neg (Finset.ne_of_mem_erase hk)]]
  ring

/-- Tables in which the shift leaves the range. -/
def badTables (u : Nat) (k0 : κ) (δ : ι → Int) : Finset (ι → κ → Fin (2 ^ u)) :=
  univ.filter fun W => ¬ ∀ i, -2 ^ (u - 1) ≤ signedWord u (W i k0) + δ i ∧ signedWord u (W i k0) + δ i < 2 ^ (u - 1)

theorem badTables_card {u : Nat} (hu : 0 < u) (k0 : κ) (δ : ι → Int) :
    (badTables u k0 δ).card * 2 ^ u ≤ (∑ i, (δ i).natAbs) * Fintype.card (ι → κ → Fin (2 ^ u)) := by
  let B (i : ι) : Finset (ι → κ → Fin (2 ^ u)) := univ.filter fun W => ¬ (-2 ^ (u - 1) ≤ signedWord u (W i k0) + δ i ∧ signedWord u (W i k0) + δ i < 2 ^ (u - 1))
  have h1 : badTables u k0 δ ⊆ univ.biUnion B := by
    intro W hW
    have h := (Finset.mem_filter.1 hW).2
    rw [not_forall] at h
    obtain ⟨i, hi⟩ := h
    exact Finset.mem_biUnion.2 ⟨i, Finset.mem_univ _, Finset.mem_filter.2 ⟨Finset.mem_univ _, hi⟩⟩
  have h2 : ∀ i, (B i).card * 2 ^ u ≤ (δ i).natAbs * Fintype.card (ι → κ → Fin (2 ^ u)) := by
    intro i
    have c1 := card_coord (α := ι) (β := κ → Fin (2 ^ u)) i
      (fun r => ¬ (-2 ^ (u - 1) ≤ signedWord u (r k0) + δ i ∧ signedWord u (r k0) + δ i < 2 ^ (u - 1)))
    have c2 := card_coord (α := κ) (β := Fin (2 ^ u)) k0
      (fun w => ¬ (-2 ^ (u - 1) ≤ signedWord u w + δ i ∧ signedWord u w + δ i < 2 ^ (u - 1)))
    have c3 := wordAdd_bad hu (δ i)
    rw [Fintype.card_fin] at c2
    have hpos : 0 < Fintype.card (κ → Fin (2 ^ u)) := by
      rw [Fintype.card_fun, Fintype.card_fin]
      exact Nat.pow_pos (Nat.pow_pos (by omega))
    change (B i).card * _ = _ at c1
    generalize (B i).card = b at *
    generalize (univ.filter fun r : κ → Fin (2 ^ u) => ¬ (-2 ^ (u - 1) ≤ signedWord u (r k0) + δ i ∧ signedWord u (r k0) + δ i < 2 ^ (u - 1))).card = b1 at *
    generalize (univ.filter fun w : Fin (2 ^ u) => ¬ (-2 ^ (u - 1) ≤ signedWord u w + δ i ∧ signedWord u w + δ i < 2 ^ (u - 1))).card = b2 at *
    generalize Fintype.card (κ → Fin (2 ^ u)) = R at *
    generalize Fintype.card (ι → κ → Fin (2 ^ u)) = X at *
    refine Nat.le_of_mul_le_mul_right (c := R) ?_ hpos
    calc b * 2 ^ u * R = b * R * 2 ^ u := by ring
      _ = b1 * 2 ^ u * X := by rw [c1]; ring
      _ = b2 * R * X := by rw [c2]
      _ ≤ (δ i).natAbs * R * X := Nat.mul_le_mul_right _ (Nat.mul_le_mul_right _ c3)
      _ = _ := by ring
  calc (badTables u k0 δ).card * 2 ^ u ≤ (∑ i, (B i).card) * 2 ^ u := Nat.mul_le_mul_right _ (Nat.le_trans (Finset.card_le_card h1) Finset.card_biUnion_le)
    _ = ∑ i, (B i).card * 2 ^ u := by rw [Finset.sum_mul]
    _ ≤ ∑ i, (δ i).natAbs * Fintype.card (ι → κ → Fin (2 ^ u)) := Finset.sum_le_sum fun i _ => h2 i
    _ = _ := by rw [Finset.sum_mul]

theorem respCount_shift {u : Nat} (hu : 0 < u) (k0 : κ) (δ ε : ι → Int) (T : Set (ι → Int)) :
    respCount (κ := κ) u (δ + ε) T ≤ respCount (κ := κ) u ε T + (badTables (κ := κ) u k0 δ).card := by
  classical
  unfold respCount
  rw [Nat.card_eq_fintype_card, Nat.card_eq_fintype_card, Fintype.card_subtype, Fintype.card_subtype]
  have h1 : (univ.filter fun W : ι → κ → Fin (2 ^ u) => δ + ε + tableSum u W ∈ T) ⊆
      ((univ.filter fun W : ι → κ → Fin (2 ^ u) => δ + ε + tableSum u W ∈ T) \ badTables u k0 δ) ∪ badTables u k0 δ := by
    intro W hW
    by_cases hb : W ∈ badTables u k0 δ
    · exact Finset.mem_union_right _ hb
    · exact Finset.mem_union_left _ (Finset.mem_sdiff.2 ⟨hW, hb⟩)
  refine Nat.le_trans (Finset.card_le_card h1) (Nat.le_trans (Finset.card_union_le _ _) (Nat.add_le_add_right ?_ _))
  refine Finset.card_le_card_of_injOn (tableAdd k0 δ) ?_ fun W _ W' _ h => tableAdd_inj k0 δ W W' h
  intro W hW
  obtain ⟨h2, h3⟩ := Finset.mem_sdiff.1 (Finset.mem_coe.1 hW)
  refine Finset.mem_coe.2 (Finset.mem_filter.2 ⟨Finset.mem_univ _, ?_⟩)
  have h4 : ∀ i, -2 ^ (u - 1) ≤ signedWord u (W i k0) + δ i ∧ signedWord u (W i k0) + δ i < 2 ^ (u - 1) := by
    by_contra h
    exact h3 (Finset.mem_filter.2 ⟨Finset.mem_univ _, h⟩)
  rw [tableAdd_sum hu k0 δ W h4, ← add_assoc, add_comm ε δ]
  exact (Finset.mem_filter.1 h2).2

/-- Responses for two contributions δ, δ' of the secret differ in frequency by at most Σ |δ − δ'| / 2^u. -/
theorem respCount_close {u : Nat} (hu : 0 < u) (k0 : κ) (δ δ' : ι → Int) (T : Set (ι → Int)) :
    |((respCount (κ := κ) u δ T : Nat) : Int) - (respCount (κ := κ) u δ' T : Nat)| * 2 ^ u ≤ (∑ i, |δ i - δ' i|) * Fintype.card (ι → κ → Fin (2 ^ u)) := by
  have key : ∀ δ δ' : ι → Int, (((respCount (κ := κ) u δ T : Nat) : Int) - (respCount (κ := κ) u δ' T : Nat)) * 2 ^ u ≤
      (∑ i, |δ i - δ' i|) * Fintype.card (ι → κ → Fin (2 ^ u)) := by
    intro δ δ'
    have h1 := respCount_shift hu k0 (δ - δ') δ' T
    rw [sub_add_cancel] at h1
    have h2 := badTables_card hu k0 (δ - δ')
    have h3 : (((badTables u k0 (δ - δ')).card * 2 ^ u : Nat) : Int) ≤ (((∑ i, ((δ - δ') i).natAbs) * Fintype.card (ι → κ → Fin (2 ^ u)) : Nat) : Int) := by exact_mod_cast h2
    rw [Nat.cast_mul, Nat.cast_mul, Nat.cast_sum, Nat.cast_pow] at h3
    simp only [Int.natCast_natAbs, Pi.sub_apply] at h3
    refine le_trans ?_ h3
    have hp : (0 : Int) ≤ 2 ^ u := by positivity
    refine mul_le_mul_of_nonneg_right ?_ hp
    have h1' : ((respCount (κ := κ) u δ T : Nat) : Int) ≤ (respCount (κ := κ) u δ' T : Nat) + ((badTables u k0 (δ - δ')).card : Nat) := by exact_mod_cast h1
    linarith
  have hp : (0 : Int) ≤ 2 ^ u := by positivity
  rcases abs_cases (((respCount (κ := κ) u δ T : Nat) : Int) - (respCount (κ := κ) u δ' T : Nat)) with ⟨h, -⟩ | ⟨h, -⟩
  · rw [h]; exact key δ δ'
  · rw [h, neg_sub]
    have := key δ' δ
    simp only [abs_sub_comm (δ' _)] at this
    exact this
end

end Raccoon
