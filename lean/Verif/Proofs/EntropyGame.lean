import Verif.Proofs.Forking
import Verif.Proofs.EntropyColl
/-!
# Games in which a signing attempt hits a pair hashed before
-/
namespace Raccoon
attribute [-instance] Monoid.toNPow
open Finset

theorem hit_bound {X A B C : Type} [Fintype X] [Fintype A] [Fintype B] (e : X ≃ A × B) (p : X → Prop) [DecidablePred p] (f : A → C) (g : B → C) (L : Nat)
    (hp : ∀ a b, p (e.symm (a, b)) → f a = g b) (hf : ∀ c, Nat.card {a // f a = c} * L ≤ Fintype.card A) : (univ.filter p).card * L ≤ Fintype.card X := by
  classical
  rw [card_split e, Finset.sum_mul, Fintype.card_congr e, Fintype.card_prod, Nat.mul_comm, ← smul_eq_mul, ← Finset.card_univ, ← Finset.sum_const]
  refine Finset.sum_le_sum fun b _ => ?_
  refine le_trans (Nat.mul_le_mul_right _ (card_filter_mono _ (fun a => f a = g b) fun a h => hp a b h)) ?_
  have := hf (g b)
  rwa [Nat.card_eq_fintype_card, Fintype.card_subtype] at this

section
variable {k l u ν M : Nat} {κ C D : Type} [Fintype κ]

/-- The words of attempt `n`, and the others. -/
def splitRow (n : Fin M) : NoiseTable M l k u κ ≃ NoiseTable 1 l k u κ × ({i : Fin M × (Fin l ⊕ Fin k) × Fin 512 // i.1 ≠ n} → κ → Fin (2 ^ u)) where
  toFun W := (fun i => W (n, i.2), fun i => W i.1)
  invFun p := fun i => if h : i.1 = n then p.1 (0, i.2) else p.2 ⟨i, h⟩
  left_inv W := by
    funext i
    dsimp only
    split
    · next h => rw [← h]
    · rfl
  right_inv p := by
    refine Prod.ext ?_ ?_
    · funext ⟨z, i⟩
      dsimp only
      rw [dif_pos rfl, Subsingleton.elim z 0]
    · funext i
      dsimp only
      rw [dif_neg i.2]

theorem maskOf_split (n : Fin M) (R : NoiseTable 1 l k u κ) (V : {i : Fin M × (Fin l ⊕ Fin k) × Fin 512 // i.1 ≠ n} → κ → Fin (2 ^ u)) :
    maskOf ((splitRow n).symm (R, V)) n = maskOf R 0 ∧ errorOf ((splitRow n).symm (R, V)) n = errorOf R 0 := by
  constructor
  · funext j x
    unfold maskOf
    exact congrArg (signedSum u) (dif_pos rfl)
  · funext j x
    unfold errorOf
    exact congrArg (signedSum u) (dif_pos rfl)

theorem splitRow_ne (n : Fin M) (R : NoiseTable 1 l k u κ) (V : {i : Fin M × (Fin l ⊕ Fin k) × Fin 512 // i.1 ≠ n} → κ → Fin (2 ^ u)) (i : Fin M × (Fin l ⊕ Fin k) × Fin 512) (h : i.1 ≠ n) :
    (splitRow n).symm (R, V) i = V ⟨i, h⟩ := dif_neg h

theorem maskOf_split_ne (n m : Fin M) (h : m ≠ n) (R R' : NoiseTable 1 l k u κ) (V : {i : Fin M × (Fin l ⊕ Fin k) × Fin 512 // i.1 ≠ n} → κ → Fin (2 ^ u)) :
    maskOf ((splitRow n).symm (R, V)) m = maskOf ((splitRow n).symm (R', V)) m ∧ errorOf ((splitRow n).symm (R, V)) m = errorOf ((splitRow n).symm (R', V)) m := by
  constructor
  · funext j x
    unfold maskOf
    exact congrArg (signedSum u) ((splitRow_ne n R V (m, Sum.inl j, x) h).trans (splitRow_ne n R' V (m, Sum.inl j, x) h).symm)
  · funext j x
    unfold errorOf
    exact congrArg (signedSum u) ((splitRow_ne n R V (m, Sum.inr j, x) h).trans (splitRow_ne n R' V (m, Sum.inr j, x) h).symm)

theorem realGame_prefix (A : Attacker k l ν C D) (hν : 0 < q / 2 ^ ν) (a : Fin k → Fin l → RPoly) (s : Fin l → Fin 512 → Int) (ch : C → Fin 512 → Int)
    (H : D × Commitment k ν → C) (n : Fin M) (R R' : NoiseTable 1 l k u κ) (V : {i : Fin M × (Fin l ⊕ Fin k) × Fin 512 // i.1 ≠ n} → κ → Fin (2 ^ u)) :
    (realGame A hν a s ch H ((splitRow n).symm (R, V))).take n = (realGame A hν a s ch H ((splitRow n).symm (R', V))).take n := by
  unfold realGame
  refine play_prefix _ _ n (by omega) fun m hm => ?_
  obtain ⟨e1, e2⟩ := maskOf_split_ne n m (Fin.ne_of_lt hm) R R' V
  rw [e1, e2]

/-- The commitment of attempt `n` was seen before, in step `m`. -/
def Hits (A : Attacker k l ν C D) (hν : 0 < q / 2 ^ ν) (a : Fin k → Fin l → RPoly) (s : Fin l → Fin 512 → Int) (ch : C → Fin 512 → Int)
    (n m : Fin M) (x : NoiseTable M l k u κ × (D × Commitment k ν → C)) : Prop :=
  some (signerW ν hν a (maskOf x.1 n) (errorOf x.1 n)) = ((realGame A hν a s ch x.2 x.1).take n)[m.val]?.map Prod.fst

theorem hits_count [Fintype C] [DecidableEq C] [Fintype D] [DecidableEq D] [DecidableEq κ] (A : Attacker k l ν C D) (hν : 0 < q / 2 ^ ν) (a : Fin k → Fin l → RPoly) (s : Fin l → Fin 512 → Int)
    (ch : C → Fin 512 → Int) (b : Nat) (ha : Unpredictable ν u κ hν b a) (n m : Fin M) [DecidablePred (Hits (u := u) (κ := κ) A hν a s ch n m)] :
    (univ.filter (Hits (u := u) (κ := κ) A hν a s ch n m)).card * 2 ^ b ≤ Fintype.card (NoiseTable M l k u κ × (D × Commitment k ν → C)) := by
  classical
  let R0 : NoiseTable 1 l k u κ := fun _ _ => ⟨0, Nat.two_pow_pos u⟩
  refine hit_bound (((splitRow n).prodCongr (Equiv.refl (D × Commitment k ν → C))).trans (Equiv.prodAssoc _ _ _)) _
    (fun R => some (signerW ν hν a (maskOf R 0) (errorOf R 0))) (fun VH => ((realGame A hν a s ch VH.2 ((splitRow n).symm (R0, VH.1))).take n)[m.val]?.map Prod.fst) _ ?_ ?_
  · rintro R ⟨V, H⟩ h
    replace h : some (signerW ν hν a (maskOf ((splitRow n).symm (R, V)) n) (errorOf ((splitRow n).symm (R, V)) n)) =
      ((realGame A hν a s ch H ((splitRow n).symm (R, V))).take n)[m.val]?.map Prod.fst := h
    rw [(maskOf_split n R V).1, (maskOf_split n R V).2, realGame_prefix A hν a s ch H n R R0 V] at h
    exact h
  · intro c
    cases c with
    | none =>
      have : IsEmpty {R : NoiseTable 1 l k u κ // some (signerW ν hν a (maskOf R 0) (errorOf R 0)) = none} := ⟨fun x => by cases x.2⟩
      rw [Nat.card_of_isEmpty, Nat.zero_mul]
      exact Nat.zero_le _
    | some w =>
      have := ha w
      rw [Nat.mul_comm, Nat.card_eq_fintype_card (α := NoiseTable 1 l k u κ)] at this
      simp only [Option.some.injEq]
      exact this

theorem not_fresh_hits (A : Attacker k l ν C D) (hA : NeverAsksTwice A M) (hν : 0 < q / 2 ^ ν) (a : Fin k → Fin l → RPoly) (s : Fin l → Fin 512 → Int)
    (ch : C → Fin 512 → Int) (x : NoiseTable M l k u κ × (D × Commitment k ν → C)) (h : ¬ Fresh A (realGame A hν a s ch x.2 x.1)) :
    ∃ n m : Fin M, A.signs n = true ∧ Hits A hν a s ch n m x := by
  obtain ⟨v, hv⟩ : ∃ v, v = realGame A hν a s ch x.2 x.1 := ⟨_, rfl⟩
  obtain ⟨hl, hg⟩ := (realGame_spec A hν a s ch x.2 x.1 v).1 hv
  unfold Hits
  rw [← hv] at h ⊢
  unfold Fresh at h
  push Not at h
  obtain ⟨m, n, hm, hn, hmn, e⟩ := h
  have e3 := hg n (by omega) hn
  by_cases hs : A.signs n = true
  · refine ⟨⟨n, by omega⟩, ⟨m, by omega⟩, hs, ?_⟩
    have e1 : v[m].1 = v[n].1 := (Prod.mk.inj e).2
    rw [if_pos hs] at e3
    dsimp only
    rw [List.getElem?_take_of_lt hmn, List.getElem?_eq_getElem hm]
    exact congrArg some ((congrArg Prod.fst e3).symm.trans e1.symm)
  · exfalso
    have hs' : A.signs n = false := by simpa using hs
    have hl' : (v.take n).length = n := List.length_take_of_le (by omega)
    have h1 := hA (v.take n) (by rw [hl']; omega) (by rw [hl']; exact hs') m (by omega)
    rw [List.take_take, min_eq_left hmn.le] at h1
    rw [if_neg hs] at e3
    have e4 : v[n].1 = A.commitment (v.take n) := congrArg Prod.fst e3
    rw [e4] at e
    exact h1 (by rw [List.getElem_take]; exact e)

end

end Raccoon
