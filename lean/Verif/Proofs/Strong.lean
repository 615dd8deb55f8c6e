import Verif.Spec.Strong
import Verif.Proofs.Anytime
import Verif.Proofs.HintSize
import Verif.Props.Binding
import Verif.Props.Entropy
/-!
# Two responses for one commitment
-/
namespace Raccoon
attribute [-instance] Monoid.toNPow
open Finset

section
variable {k l u ν M N : Nat} {κ C D : Type} [Fintype κ]

/-- A strong win is a win or a second answer. -/
theorem strong_split (A : FreeAttacker k l ν C D) (hν : 0 < q / 2 ^ ν) (νt Binf B22 : Nat) (a : Fin k → Fin l → RPoly) (t : Fin k → RPoly) (s : Fin l → Fin 512 → Int)
    (ch : C → Fin 512 → Int) (H : D × Commitment k ν → C) (out : List (Outcome k l ν C) → Forgery C D) (W : NoiseTable N l k u κ)
    (h : FreeWinsStrongly A νt Binf B22 a t ch H out (freeGame A M N hν a s ch H W)) :
    FreeWins A νt Binf B22 a t ch H out (freeGame A M N hν a s ch H W) ∨ Reanswers νt Binf B22 a t ch out (freeGame A M N hν a s ch H W) := by
  obtain ⟨h1, h2, w, w1, w2, w3⟩ := h
  obtain ⟨hl, hp⟩ := freeGame_spec (M := M) A hν a s ch H W
  generalize freeGame A M N hν a s ch H W = v at *
  by_cases hx : ∃ m, ∃ hm : m < v.length, v[m].2.2.isSome = true ∧ (A.digest (v.take m), v[m].1) = ((out v).1, w)
  · right
    obtain ⟨m, hm, hs, e⟩ := hx
    obtain ⟨e1, e2⟩ := Prod.mk.inj e
    have hc : v[m].2.1 = (out v).2.1 := by
      rw [← w2, ← e1, ← e2]
      cases hk : A.asksToSign N (v.take m) with
      | true => obtain ⟨_, g⟩ := (hp m (by omega) hm).1 hk; rw [g]
      | false => rw [(hp m (by omega) hm).2 hk]
    obtain ⟨z, hz⟩ := Option.isSome_iff_exists.1 hs
    refine ⟨h1, h2, v[m], List.getElem_mem hm, z, hz, hc, fun ez => w3 m hm hs ?_, fun r i => ?_⟩
    · refine Prod.ext e1 (Prod.ext e2 (Prod.ext hc ?_))
      rw [hz, ez]
    · rw [e2]; exact w1 r i
  · exact Or.inl ⟨h1, h2, w, w1, w2, fun m hm hs e => hx ⟨m, hm, hs, e⟩⟩

theorem seen_sub (A : FreeAttacker k l ν C D) (v : List (Outcome k l ν C)) : ∀ o ∈ A.seen M N v, o ∈ v := by
  induction v using List.reverseRecOn with
  | nil => exact fun o h => h
  | append_singleton v o ih =>
    rw [seen_snoc]
    intro o' h
    split at h
    · rcases List.mem_append.1 h with h | h
      · exact List.mem_append_left _ (ih _ h)
      · exact List.mem_append_right _ h
    · exact List.mem_append_left _ (ih _ h)

theorem scheduled_reanswers [Nontrivial D] (A : FreeAttacker k l ν C D) (hν : 0 < q / 2 ^ ν) (νt Binf B22 : Nat) (a : Fin k → Fin l → RPoly) (t : Fin k → RPoly) (s : Fin l → Fin 512 → Int)
    (ch : C → Fin 512 → Int) (H : D × Commitment k ν → C) (out : List (Outcome k l ν C) → Forgery C D) (W : NoiseTable (N * (M + 1) + M) l k u κ)
    (h : Reanswers νt Binf B22 a t ch out (freeGame A M N hν a s ch H (signRows W))) :
    Reanswers νt Binf B22 a t ch (fun v => out (A.seen M N v)) (realGame (A.scheduled M N out) hν a s ch H W) := by
  have hall := scheduled_view_all A hν a s ch H out W
  obtain ⟨h1, h2, o, ho, h3⟩ := h
  refine ⟨by rw [hall]; exact h1, by rw [hall]; exact h2, o, ?_, by rw [hall]; exact h3⟩
  rw [← hall] at ho
  exact seen_sub A _ o ho

variable [DecidableEq D]

theorem memory_sub (A : Attacker k l ν C D) (v : List (Outcome k l ν C)) : ∀ o ∈ (A.memory v).view, o.2.2.isSome = true → o ∈ v := by
  induction v using List.reverseRecOn with
  | nil => exact fun o h => absurd h List.not_mem_nil
  | append_singleton v o ih =>
    rw [memory_snoc]
    unfold Attacker.learn
    intro o' h hs
    rcases List.mem_append.1 h with h | h
    · exact List.mem_append_left _ (ih _ h hs)
    · refine List.mem_append_right _ ?_
      rw [List.mem_singleton] at h ⊢
      subst h
      revert hs
      split
      · exact fun _ => rfl
      · split
        · exact fun h => absurd h Bool.false_ne_true
        · exact fun _ => rfl

theorem careful_reanswers (A : Attacker k l ν C D) (hν : 0 < q / 2 ^ ν) (νt Binf B22 : Nat) (a : Fin k → Fin l → RPoly) (t : Fin k → RPoly) (s : Fin l → Fin 512 → Int)
    (ch : C → Fin 512 → Int) (H : D × Commitment k ν → C) (out : List (Outcome k l ν C) → Forgery C D) (W : NoiseTable M l k u κ)
    (h : Reanswers νt Binf B22 a t ch out (realGame A hν a s ch H W)) :
    Reanswers νt Binf B22 a t ch (fun v => out (A.memory v).view) (realGame A.careful hν a s ch H W) := by
  have hall := careful_view_all A hν a s ch H W
  obtain ⟨h1, h2, o, ho, z, hz, h3⟩ := h
  refine ⟨by rw [hall]; exact h1, by rw [hall]; exact h2, o, ?_, z, hz, by rw [hall]; exact h3⟩
  rw [← hall] at ho
  exact memory_sub A _ o ho (by rw [hz]; rfl)

end

theorem shortR_of {x : RPoly} {T : Nat} (h : ∀ i, ∃ D : Int, (D : ZMod q) = x i ∧ D.natAbs ≤ T) : ShortR T x := fun i => by
  obtain ⟨D, h1, h2⟩ := h i
  rw [← h1]
  refine Nat.le_trans ?_ h2
  exact ZMod.natAbs_min_of_le_div_two q _ _ (by simp) (ZMod.natAbs_valMinAbs_le (n := q) (x := ((D : Int) : ZMod q)))

/-- A response of the simulator and another valid answer to the same challenge, for the same commitment. -/
theorem answers_short {k l : Nat} (a : Fin k → Fin l → RPoly) (t b : Fin k → RPoly) (ht : ∀ r i, t r i = (roundZ 42 (b r i) : ZMod q)) (γ : Fin 512 → Int) (ω : Nat) (hγ : ∑ i, |γ i| = ω)
    (m : Fin l → Fin 512 → Int) (e : Fin k → Fin 512 → Int) (G : Nat) (he : ∀ r i, |e r i| ≤ G) (h z : List Int) (hl : h.length = k * 512) (hb : ∀ x ∈ h, x.natAbs ≤ 2) (r : Fin k)
    (hw : ∀ i, roundZ 44 ((ringMatVec a (vecR m) r - negacyclic (b r) (toR γ) + vecR e r) i) = recomputed 44 42 a t (toR γ) h z r i) :
    ShortR (4 * 2 ^ 44 + G + ω * (2 ^ 41 + (q - 125 * 2 ^ 42))) (ringMatVec a (vecR fun j i => m j i - unflatten l z j i) r) := by
  choose δ hδ1 hδ2 using fun (y : Fin 512) => round_t (b r y)
  have hs : (2 ^ 42 : ZMod q) • t r = b r + toR δ := by
    funext y
    rw [Pi.smul_apply, smul_eq_mul, ht r y, hδ2 y, Pi.add_apply]
    rfl
  refine shortR_of fun i => ?_
  obtain ⟨x, hx⟩ : ∃ x, x = (ringMatVec a (vecR m) r - negacyclic (b r) (toR γ) + vecR e r) i := exists_eq
  obtain ⟨y, hy⟩ : ∃ y, y = (ringMatVec a (vecR (unflatten l z)) r - (2 ^ 42 : ZMod q) • negacyclic (t r) (toR γ)) i := exists_eq
  have b1 := hb _ (mem_unflatten r i hl)
  have hw' := hw i
  unfold recomputed commitY at hw'
  rw [← hx, ← hy, q44'] at hw'
  have e2 : (((roundZ 44 x : Nat) : Int) + 0) % (31 : Nat) = (((roundZ 44 y : Nat) : Int) + unflatten k h r i) % (31 : Nat) := by
    generalize ((roundZ 44 y : Nat) : Int) + unflatten k h r i = Y at *
    omega
  have hclose := round_close_mod x y 0 (unflatten k h r i) (by decide) b1 e2
  refine ⟨(x - y).valMinAbs + -(negacyclicZ δ γ i) + -(e r i), ?_, ?_⟩
  · have hn : (2 ^ 42 : ZMod q) • negacyclic (t r) (toR γ) = negacyclic (b r) (toR γ) + negacyclic (toR δ) (toR γ) := by
      have h1 := negacyclic_smul (2 ^ 42 : ZMod q) (t r) (toR γ)
      have h2 : (fun i => (2 ^ 42 : ZMod q) * t r i) = b r + toR δ := hs
      rw [← h1, h2]
      exact nttR_inj (by rw [nttR_add, nttR_negacyclic, nttR_negacyclic, nttR_negacyclic, nttR_add, add_mul])
    rw [← toR_negacyclicZ] at hn
    have hd : ringMatVec a (vecR fun j i => m j i - unflatten l z j i) r = ringMatVec a (vecR m) r - ringMatVec a (vecR (unflatten l z)) r := by
      rw [← vecR_sub]
      exact ringMatVec_sub a _ _ r
    rw [hd, Int.cast_add, Int.cast_add, Int.cast_neg, Int.cast_neg, ZMod.coe_valMinAbs, hx, hy, hn]
    simp only [Pi.sub_apply, Pi.add_apply]
    show _ + -(((negacyclicZ δ γ i : Int)) : ZMod q) + -((e r i : Int) : ZMod q) = _
    have e1 : vecR e r i = ((e r i : Int) : ZMod q) := rfl
    have e2 : toR (negacyclicZ δ γ) i = ((negacyclicZ δ γ i : Int) : ZMod q) := rfl
    rw [e1, e2]
    ring
  · have h1 := negacyclicZ_bound (g := γ) hδ1 i
    rw [hγ] at h1
    have h2 := he r i
    have h3 : (2 : Int) ^ 41 + ((q : Int) - 125 * 2 ^ 42) = ((2 ^ 41 + (q - 125 * 2 ^ 42) : Nat) : Int) := by
      have hq : q = 549824583172097 := rfl
      have e41 : (2 : Nat) ^ 41 = 2199023255552 := by norm_num
      have e42 : (2 : Nat) ^ 42 = 4398046511104 := by norm_num
      have i41 : (2 : Int) ^ 41 = 2199023255552 := by norm_num
      have i42 : (2 : Int) ^ 42 = 4398046511104 := by norm_num
      rw [hq, e41, e42, i41, i42]
      norm_num
    rw [h3] at h1
    generalize 2 ^ 41 + (q - 125 * 2 ^ 42) = Q at *
    have p44 : (2 : Nat) ^ 44 = 17592186044416 := by norm_num
    rw [p44] at hclose ⊢
    have h4 : (((Q : Int) * (ω : Int))) = ((ω * Q : Nat) : Int) := by push_cast; ring
    rw [h4] at h1
    generalize ω * Q = Q' at *
    generalize (x - y).valMinAbs = X at *
    generalize negacyclicZ δ γ i = Y at *
    generalize e r i = Z at *
    rw [abs_le] at h1 h2
    omega

end Raccoon
