import Verif.Proofs.Roots
import Verif.Spec.Entropy
import Verif.Proofs.Adaptive
import Verif.Props.Binding
/-!
# Collisions between commitments, counted over noise and matrix
-/
namespace Raccoon
attribute [-instance] Monoid.toNPow
open Finset

theorem card_split {A B C : Type} [Fintype A] [Fintype B] [Fintype C] (e : A ≃ B × C) (p : A → Prop) [DecidablePred p] :
    (univ.filter p).card = ∑ c, (univ.filter fun b => p (e.symm (b, c))).card := by
  rw [Finset.card_filter, ← Equiv.sum_comp e.symm, Fintype.sum_prod_type_right]
  exact Finset.sum_congr rfl fun c _ => (Finset.card_filter _ _).symm

theorem card_le_of_inj {A B C X : Type} [Fintype A] [Fintype B] [Fintype X] [DecidableEq X] (S : A → Prop) [DecidablePred S] (Box : Finset C) (f : A → B) (g : A → X → C)
    (hg : ∀ a, S a → ∀ x, g a x ∈ Box) (hinj : ∀ a a', S a → S a' → f a = f a' → g a = g a' → a = a') :
    (univ.filter S).card ≤ Fintype.card B * Box.card ^ Fintype.card X := by
  have h1 : (univ.filter S).card ≤ ((univ : Finset B) ×ˢ Fintype.piFinset (fun _ : X => Box)).card := by
    refine Finset.card_le_card_of_injOn (fun a => (f a, g a)) ?_ ?_
    · intro a ha
      exact Finset.mem_coe.2 (Finset.mem_product.2 ⟨Finset.mem_univ _, Fintype.mem_piFinset.2 (hg a (Finset.mem_filter.1 (Finset.mem_coe.1 ha)).2)⟩)
    · intro a ha a' ha' h
      obtain ⟨e1, e2⟩ := Prod.mk.inj h
      exact hinj a a' (Finset.mem_filter.1 (Finset.mem_coe.1 ha)).2 (Finset.mem_filter.1 (Finset.mem_coe.1 ha')).2 e1 e2
  rwa [Finset.card_product, Fintype.card_piFinset, Finset.prod_const, Finset.card_univ, Finset.card_univ] at h1

theorem card_filter_mono {A : Type} [Fintype A] (p p' : A → Prop) [DecidablePred p] [DecidablePred p'] (h : ∀ a, p a → p' a) : (univ.filter p).card ≤ (univ.filter p').card :=
  Finset.card_le_card fun a ha => Finset.mem_filter.2 ⟨Finset.mem_univ _, h a (Finset.mem_filter.1 ha).2⟩

theorem filter_pi {k : Nat} {A : Type} [Fintype A] (p : Fin k → A → Prop) [∀ i, DecidablePred (p i)] :
    (univ.filter fun a : Fin k → A => ∀ i, p i (a i)).card = ∏ i, (univ.filter (p i)).card := by
  rw [← Fintype.card_piFinset]
  congr 1
  ext a
  rw [Finset.mem_filter, Fintype.mem_piFinset]
  exact ⟨fun h i => Finset.mem_filter.2 ⟨Finset.mem_univ _, h.2 i⟩, fun h => ⟨Finset.mem_univ _, fun i => (Finset.mem_filter.1 (h i)).2⟩⟩

/-- All coefficients are in a given set. -/
def InBox (Box : Finset (ZMod q)) (f : RPoly) : Prop := ∀ x, f x ∈ Box

noncomputable instance (Box : Finset (ZMod q)) (f : RPoly) : Decidable (InBox Box f) := Classical.propDecidable _

/-- Products a δ + c in a box: few, if δ is a unit in many slots. -/
theorem mul_count (δ : RPoly) (N : Finset (Fin 512)) (hN : ∀ i ∈ N, red prime1_dvd (nttR δ i) ≠ 0 ∧ red prime2_dvd (nttR δ i) ≠ 0) (Box : Finset (ZMod q))
    {L : Nat} (hBox : L * Box.card ≤ q) (c : RPoly) :
    (univ.filter fun a : RPoly => InBox Box (negacyclic a δ + c)).card * L ^ N.card ≤ Fintype.card RPoly := by
  have hle : N.card ≤ 512 := by simpa using Finset.card_le_univ N
  have h1 : (univ.filter fun a : RPoly => InBox Box (negacyclic a δ + c)).card ≤
      Fintype.card ({i : Fin 512 // ¬ i ∈ N} → ZMod q) * Box.card ^ Fintype.card {x : Fin 512 // x.val < N.card} := by
    refine card_le_of_inj _ Box (fun a i => nttR a i.1) (fun a x => (negacyclic a δ + c) x.1) (fun a h x => h x.1) ?_
    · intro a a' _ _ e1 e2
      have hz : negacyclic (a - a') δ = 0 := by
        refine zeros_low_q _ Nᶜ (fun i hi => ?_) (fun x hx => ?_)
        · have := congrFun e1 ⟨i, Finset.mem_compl.1 hi⟩
          dsimp only at this
          rw [nttR_negacyclic, nttR_sub, Pi.mul_apply, Pi.sub_apply, this, sub_self, zero_mul]
        · rw [Finset.card_compl, Fintype.card_fin] at hx
          have := congrFun e2 ⟨x, by omega⟩
          dsimp only [Pi.add_apply] at this
          have e3 : negacyclic (a - a') δ = negacyclic a δ - negacyclic a' δ := by
            apply nttR_inj
            rw [nttR_negacyclic, nttR_sub, nttR_sub, nttR_negacyclic, nttR_negacyclic, sub_mul]
          rw [e3, Pi.sub_apply, add_right_cancel this, sub_self]
      apply nttR_inj
      funext i
      by_cases hi : i ∈ N
      · have h2 := congrFun (congrArg nttR hz) i
        rw [nttR_negacyclic, nttR_zero, Pi.mul_apply, nttR_sub, Pi.sub_apply, Pi.zero_apply, mul_comm] at h2
        exact sub_eq_zero.1 (red_unit _ (hN i hi).1 (hN i hi).2 _ h2)
      · exact congrFun e1 ⟨i, hi⟩
  rw [Fintype.card_fin_lt_of_le hle] at h1
  have h2 : Fintype.card RPoly = Fintype.card ({i : Fin 512 // i ∈ N} → ZMod q) * Fintype.card ({i : Fin 512 // ¬ i ∈ N} → ZMod q) := by
    rw [← Fintype.card_prod]
    exact Fintype.card_congr (Equiv.piEquivPiSubtypeProd (fun i => i ∈ N) _)
  have h3 : Fintype.card ({i : Fin 512 // i ∈ N} → ZMod q) = q ^ N.card := by
    rw [Fintype.card_fun, ZMod.card, Fintype.card_coe]
  rw [h2, h3]
  calc _ ≤ Fintype.card ({i : Fin 512 // ¬ i ∈ N} → ZMod q) * Box.card ^ N.card * L ^ N.card := Nat.mul_le_mul_right _ h1
    _ = (L * Box.card) ^ N.card * Fintype.card ({i : Fin 512 // ¬ i ∈ N} → ZMod q) := by rw [mul_pow]; ring
    _ ≤ _ := Nat.mul_le_mul_right _ (Nat.pow_le_pow_left hBox _)

theorem row_count {l : Nat} (δ : Fin l → RPoly) (j0 : Fin l) (N : Finset (Fin 512)) (hN : ∀ i ∈ N, red prime1_dvd (nttR (δ j0) i) ≠ 0 ∧ red prime2_dvd (nttR (δ j0) i) ≠ 0)
    (Box : Finset (ZMod q)) {L : Nat} (hBox : L * Box.card ≤ q) (c : RPoly) :
    (univ.filter fun a : Fin l → RPoly => InBox Box ((∑ j, negacyclic (a j) (δ j)) + c)).card * L ^ N.card ≤ Fintype.card (Fin l → RPoly) := by
  have e := Equiv.funSplitAt j0 RPoly
  rw [card_split (Equiv.funSplitAt j0 RPoly), Finset.sum_mul, Fintype.card_congr (Equiv.funSplitAt j0 RPoly), Fintype.card_prod, Nat.mul_comm, ← smul_eq_mul, ← Finset.card_univ, ← Finset.sum_const]
  refine Finset.sum_le_sum fun rest _ => ?_
  refine le_trans (Nat.mul_le_mul_right _ (card_filter_mono _ _ ?_)) (mul_count (δ j0) N hN Box hBox ((∑ j : {j // j ≠ j0}, negacyclic (rest j) (δ j)) + c))
  intro a this
  rw [Fintype.sum_eq_add_sum_subtype_ne _ j0] at this
  have e1 : (Equiv.funSplitAt j0 RPoly).symm (a, rest) j0 = a := by simp [Equiv.funSplitAt]
  have e2 : ∀ j : {j // j ≠ j0}, (Equiv.funSplitAt j0 RPoly).symm (a, rest) j.1 = rest j := by
    intro j
    have := j.2
    simp [Equiv.funSplitAt, this]
  rw [e1, Finset.sum_congr rfl fun j _ => by rw [e2 j], add_assoc] at this
  exact this

theorem mat_count {k l : Nat} (δ : Fin l → RPoly) (j0 : Fin l) (N : Finset (Fin 512)) (hN : ∀ i ∈ N, red prime1_dvd (nttR (δ j0) i) ≠ 0 ∧ red prime2_dvd (nttR (δ j0) i) ≠ 0)
    (Box : Finset (ZMod q)) {L : Nat} (hBox : L * Box.card ≤ q) (c : Fin k → RPoly) :
    (univ.filter fun a : Fin k → Fin l → RPoly => ∀ i, InBox Box (ringMatVec a δ i + c i)).card * L ^ (N.card * k) ≤ Fintype.card (Fin k → Fin l → RPoly) := by
  have e := filter_pi (k := k) fun i (b : Fin l → RPoly) => InBox Box ((∑ j, negacyclic (b j) (δ j)) + c i)
  refine le_trans (Nat.mul_le_mul_right _ (le_of_eq e)) ?_
  rw [pow_mul]
  have e2 : (L ^ N.card) ^ k = ∏ _i : Fin k, L ^ N.card := by rw [Finset.prod_const, Finset.card_univ, Fintype.card_fin]
  have e3 : Fintype.card (Fin k → Fin l → RPoly) = ∏ _i : Fin k, Fintype.card (Fin l → RPoly) := by
    rw [Finset.prod_const, Finset.card_univ, Fintype.card_fin, Fintype.card_fun, Fintype.card_fin]
  rw [e2, e3, ← Finset.prod_mul_distrib]
  exact Finset.prod_le_prod' fun i _ => row_count δ j0 N hN Box hBox (c i)

end Raccoon
