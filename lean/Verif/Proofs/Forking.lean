import Verif.Spec.Forking
import Verif.Proofs.Adaptive
import Mathlib.Algebra.Order.Chebyshev
import Mathlib.Data.Finset.Powerset
/-!
# The forking lemma, counted
-/
namespace Raccoon
attribute [-instance] Monoid.toNPow
open Finset

/-- Pairs that share the first component. -/
theorem pairs_sq {U V : Type} [Fintype U] [Fintype V] [DecidableEq U] [DecidableEq V] (A : Finset (U × V)) :
    A.card * A.card ≤ (univ.filter fun p : (U × V) × (U × V) => p.1 ∈ A ∧ (p.1.1, p.2.2) ∈ A).card := by
  have e1 : A.card = ∑ u, (univ.filter fun v => (u, v) ∈ A).card := by
    have : A = univ.filter fun p => p ∈ A := by ext; simp
    conv_lhs => rw [this]
    rw [Finset.card_filter, Fintype.sum_prod_type]
    exact Finset.sum_congr rfl fun u _ => (Finset.card_filter _ _).symm
  have e2 : (univ.filter fun p : (U × V) × (U × V) => p.1 ∈ A ∧ (p.1.1, p.2.2) ∈ A).card =
      Fintype.card U * ∑ u, (univ.filter fun v => (u, v) ∈ A).card * (univ.filter fun v => (u, v) ∈ A).card := by
    rw [Finset.card_filter, Fintype.sum_prod_type, Fintype.sum_prod_type, Finset.mul_sum]
    refine Finset.sum_congr rfl fun u _ => ?_
    have : ∀ v : V, (∑ y : U × V, if (u, v) ∈ A ∧ (u, y.2) ∈ A then 1 else 0) = Fintype.card U * ((if (u, v) ∈ A then 1 else 0) * (univ.filter fun v => (u, v) ∈ A).card) := by
      intro v
      rw [Fintype.sum_prod_type, ← smul_eq_mul, ← Finset.card_univ, ← Finset.sum_const]
      refine Finset.sum_congr rfl fun x _ => ?_
      rw [Finset.card_filter, Finset.mul_sum]
      refine Finset.sum_congr rfl fun v' _ => ?_
      by_cases h : (u, v) ∈ A <;> by_cases h' : (u, v') ∈ A <;> simp [h, h']
    rw [Finset.sum_congr rfl fun v _ => this v, ← Finset.mul_sum, ← Finset.sum_mul, ← Finset.card_filter]
  rw [e1, e2]
  have := sq_sum_le_card_mul_sum_sq (s := (univ : Finset U)) (f := fun u => (univ.filter fun v => (u, v) ∈ A).card)
  rw [Finset.card_univ] at this
  simpa [pow_two] using this

/-- Repeating from step `n` on, counted. -/
theorem splice_sq {M : Nat} {C : Type} [Fintype C] [DecidableEq C] (n : Fin M) (A : Finset (Fin M → C)) :
    A.card * A.card ≤ (univ.filter fun p : (Fin M → C) × (Fin M → C) => p.1 ∈ A ∧ splice n p.1 p.2 ∈ A).card := by
  let e := Equiv.piEquivPiSubtypeProd (fun m : Fin M => m < n) (fun _ => C)
  have he : ∀ c c', splice n c c' = e.symm ((e c).1, (e c').2) := by
    intro c c'
    funext m
    show (if m < n then c m else c' m) = if h : m < n then c m else c' m
    split <;> rfl
  have h := pairs_sq (A.map e.toEmbedding)
  rw [Finset.card_map] at h
  refine le_trans h (le_of_eq ?_)
  refine (Finset.card_bij' (fun p _ => (e p.1, e p.2)) (fun p _ => (e.symm p.1, e.symm p.2)) ?_ ?_ ?_ ?_).symm
  · rintro ⟨c, c'⟩ hp
    obtain ⟨-, h1, h2⟩ := Finset.mem_filter.1 hp
    refine Finset.mem_filter.2 ⟨Finset.mem_univ _, Finset.mem_map_equiv.2 (by rw [Equiv.symm_apply_apply]; exact h1), Finset.mem_map_equiv.2 ?_⟩
    have := he c c'
    rw [← this]; exact h2
  · rintro ⟨x, y⟩ hp
    obtain ⟨-, h1, h2⟩ := Finset.mem_filter.1 hp
    refine Finset.mem_filter.2 ⟨Finset.mem_univ _, Finset.mem_map_equiv.1 h1, ?_⟩
    show splice n (e.symm x) (e.symm y) ∈ A
    rw [he, Equiv.apply_symm_apply, Equiv.apply_symm_apply]
    exact Finset.mem_map_equiv.1 h2
  · rintro ⟨c, c'⟩ _
    exact Prod.ext (e.symm_apply_apply _) (e.symm_apply_apply _)
  · rintro ⟨c, c'⟩ _
    exact Prod.ext (e.apply_symm_apply _) (e.apply_symm_apply _)

/-- Value tuples with a given property at place `n`. -/
theorem card_at {M : Nat} {C : Type} [Fintype C] [DecidableEq C] (n : Fin M) (p : C → Prop) [DecidablePred p] (B : Nat) (hB : B * (univ.filter p).card ≤ Fintype.card C) :
    B * (univ.filter fun c : Fin M → C => p (c n)).card ≤ Fintype.card (Fin M → C) := by
  have e1 : (univ.filter fun c : Fin M → C => p (c n)).card = (univ.filter p).card * Fintype.card ({j : Fin M // j ≠ n} → C) := by
    rw [← Finset.card_univ (α := {j : Fin M // j ≠ n} → C), ← Finset.card_product]
    refine Finset.card_bij' (fun c _ => Equiv.funSplitAt n C c) (fun x _ => (Equiv.funSplitAt n C).symm x) ?_ ?_ ?_ ?_
    · intro c hc
      exact Finset.mem_product.2 ⟨Finset.mem_filter.2 ⟨Finset.mem_univ _, (Finset.mem_filter.1 hc).2⟩, Finset.mem_univ _⟩
    · intro x hx
      refine Finset.mem_filter.2 ⟨Finset.mem_univ _, ?_⟩
      have := (Finset.mem_filter.1 (Finset.mem_product.1 hx).1).2
      have e : (Equiv.funSplitAt n C ((Equiv.funSplitAt n C).symm x)).1 = x.1 := by rw [Equiv.apply_symm_apply]
      rw [← e] at this
      exact this
    · intro c _; exact Equiv.symm_apply_apply _ _
    · intro x _; exact Equiv.apply_symm_apply _ _
  have e2 : Fintype.card (Fin M → C) = Fintype.card C * Fintype.card ({j : Fin M // j ≠ n} → C) := by
    rw [← Fintype.card_prod]
    exact Fintype.card_congr (Equiv.funSplitAt n C)
  rw [e1, e2, ← Nat.mul_assoc]
  exact Nat.mul_le_mul_right _ hB

/-- The forking lemma: `f` says whether, and with which of its steps, a run with coins `x` and answers `c` succeeds. Counted are the successful runs, and the pairs of runs that succeed
with the same step `n`, where the second run has the same coins and the same answers before `n`, and other answers at `n` and (perhaps) later. -/
theorem forking {X C K : Type} [Fintype X] [DecidableEq X] [Fintype C] [DecidableEq C] [DecidableEq K] {M : Nat} (f : X → (Fin M → C) → Option (Fin M)) (S : Finset (Fin M))
    (hS : ∀ x c n, f x c = some n → n ∈ S) (ch : C → K) (B : Nat) (hB : ∀ γ, B * (univ.filter fun c => ch c = γ).card ≤ Fintype.card C) :
    B * ((univ.filter fun p : X × (Fin M → C) => (f p.1 p.2).isSome = true).card * (univ.filter fun p : X × (Fin M → C) => (f p.1 p.2).isSome = true).card) ≤
      Fintype.card X * S.card * (B * (univ.filter fun p : X × (Fin M → C) × (Fin M → C) =>
        ∃ n, f p.1 p.2.1 = some n ∧ f p.1 (splice n p.2.1 p.2.2) = some n ∧ ch (p.2.1 n) ≠ ch (p.2.2 n)).card +
        (univ.filter fun p : X × (Fin M → C) => (f p.1 p.2).isSome = true).card * Fintype.card (Fin M → C)) := by
  let A : X × Fin M → Finset (Fin M → C) := fun y => univ.filter fun c => f y.1 c = some y.2
  let G : X × Fin M → Finset ((Fin M → C) × (Fin M → C)) := fun y => univ.filter fun p => f y.1 p.1 = some y.2 ∧ f y.1 (splice y.2 p.1 p.2) = some y.2 ∧ ch (p.1 y.2) ≠ ch (p.2 y.2)
  have hacc : (univ.filter fun p : X × (Fin M → C) => (f p.1 p.2).isSome = true).card = ∑ y ∈ univ ×ˢ S, (A y).card := by
    rw [← Finset.card_sigma]
    refine Finset.card_bij' (fun p hp => ⟨(p.1, (f p.1 p.2).get (Finset.mem_filter.1 hp).2), p.2⟩) (fun y _ => (y.1.1, y.2)) ?_ ?_ ?_ ?_
    · intro p hp
      have e : f p.1 p.2 = some ((f p.1 p.2).get (Finset.mem_filter.1 hp).2) := (Option.some_get _).symm
      refine Finset.mem_sigma.2 ⟨Finset.mem_product.2 ⟨Finset.mem_univ _, hS _ _ _ e⟩, Finset.mem_filter.2 ⟨Finset.mem_univ _, e⟩⟩
    · rintro ⟨⟨x, n⟩, c⟩ hy
      have e : f x c = some n := (Finset.mem_filter.1 (Finset.mem_sigma.1 hy).2).2
      exact Finset.mem_filter.2 ⟨Finset.mem_univ _, by show (f x c).isSome = true; rw [e]; rfl⟩
    · intro p _; rfl
    · rintro ⟨⟨x, n⟩, c⟩ hy
      have e : f x c = some n := (Finset.mem_filter.1 (Finset.mem_sigma.1 hy).2).2
      refine Sigma.ext ?_ (heq_of_eq rfl)
      exact Prod.ext rfl (by show (f x c).get _ = n; simp [e])
  have hF : ∑ y ∈ univ ×ˢ S, (G y).card ≤ (univ.filter fun p : X × (Fin M → C) × (Fin M → C) =>
        ∃ n, f p.1 p.2.1 = some n ∧ f p.1 (splice n p.2.1 p.2.2) = some n ∧ ch (p.2.1 n) ≠ ch (p.2.2 n)).card := by
    rw [← Finset.card_sigma]
    refine Finset.card_le_card_of_injOn (fun y => (y.1.1, y.2.1, y.2.2)) ?_ ?_
    · rintro ⟨⟨x, n⟩, c, c'⟩ hy
      have e := (Finset.mem_filter.1 (Finset.mem_sigma.1 (Finset.mem_coe.1 hy)).2).2
      exact Finset.mem_coe.2 (Finset.mem_filter.2 ⟨Finset.mem_univ _, n, e⟩)
    · rintro ⟨⟨x, n⟩, c, c'⟩ hy ⟨⟨x2, n2⟩, c2, c2'⟩ hy2 h
      have e := (Finset.mem_filter.1 (Finset.mem_sigma.1 (Finset.mem_coe.1 hy)).2).2.1
      have e2 := (Finset.mem_filter.1 (Finset.mem_sigma.1 (Finset.mem_coe.1 hy2)).2).2.1
      obtain ⟨h1, h2⟩ := Prod.mk.inj h
      obtain ⟨h4, h3⟩ := Prod.mk.inj h2
      dsimp only at h1 h3 h4 e e2
      clear h h2
      subst h1 h3 h4
      rw [e] at e2
      cases Option.some.inj e2
      rfl
  have hone : ∀ y : X × Fin M, B * ((A y).card * (A y).card) ≤ B * (G y).card + (A y).card * Fintype.card (Fin M → C) := by
    rintro ⟨x, n⟩
    have h1 := splice_sq n (A (x, n))
    have h2 : (univ.filter fun p : (Fin M → C) × (Fin M → C) => p.1 ∈ A (x, n) ∧ splice n p.1 p.2 ∈ A (x, n)).card ≤
        (G (x, n)).card + ((A (x, n)).sigma fun c => univ.filter fun c' : Fin M → C => ch (c' n) = ch (c n)).card := by
      rw [← Finset.card_map (⟨fun y => (y.1, y.2), fun y z h => by
        obtain ⟨y1, y2⟩ := y; obtain ⟨z1, z2⟩ := z
        obtain ⟨h1, h2⟩ := Prod.mk.inj h
        dsimp only at h1 h2
        subst h1 h2; rfl⟩ : (Σ _ : Fin M → C, Fin M → C) ↪ (Fin M → C) × (Fin M → C))]
      refine le_trans (Finset.card_le_card ?_) (Finset.card_union_le _ _)
      rintro ⟨c, c'⟩ hp
      obtain ⟨-, h1, h2⟩ := Finset.mem_filter.1 hp
      by_cases h : ch (c' n) = ch (c n)
      · exact Finset.mem_union_right _ (Finset.mem_map.2 ⟨⟨c, c'⟩, Finset.mem_sigma.2 ⟨h1, Finset.mem_filter.2 ⟨Finset.mem_univ _, h⟩⟩, rfl⟩)
      · exact Finset.mem_union_left _ (Finset.mem_filter.2 ⟨Finset.mem_univ _, (Finset.mem_filter.1 h1).2, (Finset.mem_filter.1 h2).2, fun e => h e.symm⟩)
    rw [Finset.card_sigma] at h2
    have h3 : B * ∑ c ∈ A (x, n), (univ.filter fun c' : Fin M → C => ch (c' n) = ch (c n)).card ≤ (A (x, n)).card * Fintype.card (Fin M → C) := by
      rw [Finset.mul_sum, ← smul_eq_mul (a := (A (x, n)).card), ← Finset.sum_const]
      exact Finset.sum_le_sum fun c _ => card_at n (fun e => ch e = ch (c n)) B (hB _)
    calc B * ((A (x, n)).card * (A (x, n)).card) ≤ B * ((G (x, n)).card + ∑ c ∈ A (x, n), (univ.filter fun c' : Fin M → C => ch (c' n) = ch (c n)).card) :=
          Nat.mul_le_mul_left _ (le_trans h1 h2)
      _ ≤ _ := by rw [Nat.mul_add]; exact Nat.add_le_add_left h3 _
  have hcs := sq_sum_le_card_mul_sum_sq (s := (univ : Finset X) ×ˢ S) (f := fun y => (A y).card)
  rw [Finset.card_product, Finset.card_univ] at hcs
  rw [hacc]
  have hsum : B * ∑ y ∈ (univ : Finset X) ×ˢ S, (A y).card * (A y).card ≤
      B * ∑ y ∈ (univ : Finset X) ×ˢ S, (G y).card + (∑ y ∈ (univ : Finset X) ×ˢ S, (A y).card) * Fintype.card (Fin M → C) := by
    rw [Finset.mul_sum, Finset.mul_sum, Finset.sum_mul, ← Finset.sum_add_distrib]
    exact Finset.sum_le_sum fun y _ => hone y
  simp only [pow_two] at hcs
  generalize ∑ y ∈ (univ : Finset X) ×ˢ S, (A y).card * (A y).card = Z at *
  generalize ∑ y ∈ (univ : Finset X) ×ˢ S, (A y).card = Y at *
  calc B * (Y * Y) ≤ B * (Fintype.card X * S.card * Z) := Nat.mul_le_mul_left _ hcs
    _ = Fintype.card X * S.card * (B * Z) := by ring
    _ ≤ _ := Nat.mul_le_mul_left _ (le_trans hsum (Nat.add_le_add_right (Nat.mul_le_mul_left _ hF) _))

/-- Two games whose steps agree before `n` show the same before `n`. -/
theorem play_prefix {O : Type} {M : Nat} (step step' : Fin M → List O → O) (n : Nat) (hn : n ≤ M) (h : ∀ m : Fin M, m.val < n → step m = step' m) :
    (play step).take n = (play step').take n := by
  obtain ⟨hl, hp⟩ := play_spec step
  obtain ⟨hl', hp'⟩ := play_spec step'
  induction n with
  | zero => rfl
  | succ n ih =>
    have e := ih (by omega) (fun m hm => h m (by omega))
    rw [List.take_succ_eq_append_getElem (by omega), List.take_succ_eq_append_getElem (by omega), e, hp n (by omega) (by omega), hp' n (by omega) (by omega), e,
      h ⟨n, by omega⟩ (Nat.lt_succ_self n)]

/-! ### The number of challenges -/

/-- Challenge vectors are a support and the part of it where the sign is negative. -/
def chalEquiv (ω : Nat) : {γ : Fin 512 → Int // IsChallengeVec ω γ} ≃ ↥((powersetCard ω (univ : Finset (Fin 512))).sigma fun s => s.powerset) where
  toFun γ := ⟨⟨univ.filter fun i => γ.1 i ≠ 0, univ.filter fun i => γ.1 i = -1⟩, by
    obtain ⟨γ, h1, h2⟩ := γ
    refine Finset.mem_sigma.2 ⟨Finset.mem_powersetCard.2 ⟨Finset.subset_univ _, ?_⟩, Finset.mem_powerset.2 fun i hi => ?_⟩
    · have : ∀ i, |γ i| = if γ i ≠ 0 then 1 else 0 := by
        intro i
        have := h1 i
        rw [abs_le] at this
        rcases (by omega : γ i = -1 ∨ γ i = 0 ∨ γ i = 1) with e | e | e <;> rw [e] <;> decide
      rw [Finset.sum_congr rfl fun i _ => this i, ← Finset.sum_filter, Finset.sum_const, nsmul_eq_mul, mul_one] at h2
      exact_mod_cast h2
    · have := (Finset.mem_filter.1 hi).2
      exact Finset.mem_filter.2 ⟨Finset.mem_univ _, by
        have e : γ i = -1 := this
        show γ i ≠ 0
        rw [e]; decide⟩⟩
  invFun y := ⟨fun i => if i ∈ y.1.2 then -1 else if i ∈ y.1.1 then 1 else 0, by
    obtain ⟨⟨s, r⟩, hy⟩ := y
    obtain ⟨h1, h2⟩ := Finset.mem_sigma.1 hy
    have h3 : r ⊆ s := Finset.mem_powerset.1 h2
    refine ⟨fun i => by dsimp only; split <;> [decide; (split <;> decide)], ?_⟩
    have : ∀ i, |if i ∈ r then (-1 : Int) else if i ∈ s then 1 else 0| = if i ∈ s then 1 else 0 := by
      intro i
      by_cases hr : i ∈ r
      · rw [if_pos hr, if_pos (h3 hr)]; rfl
      · rw [if_neg hr]; split <;> rfl
    dsimp only
    rw [Finset.sum_congr rfl fun i _ => this i, ← Finset.sum_filter, Finset.sum_const, nsmul_eq_mul, mul_one, Finset.filter_mem_eq_inter, Finset.univ_inter]
    exact_mod_cast (Finset.mem_powersetCard.1 h1).2⟩
  left_inv γ := by
    obtain ⟨γ, h1, h2⟩ := γ
    refine Subtype.ext (funext fun i => ?_)
    have := h1 i
    rw [abs_le] at this
    dsimp only
    simp only [Finset.mem_filter, Finset.mem_univ, true_and]
    rcases (by omega : γ i = -1 ∨ γ i = 0 ∨ γ i = 1) with e | e | e <;> simp [e]
  right_inv y := by
    obtain ⟨⟨s, r⟩, hy⟩ := y
    obtain ⟨h1, h2⟩ := Finset.mem_sigma.1 hy
    have h3 : r ⊆ s := Finset.mem_powerset.1 h2
    refine Subtype.ext (Sigma.ext ?_ (heq_of_eq ?_))
    · ext i
      simp only [Finset.mem_filter, Finset.mem_univ, true_and]
      by_cases hr : i ∈ r
      · simp [hr, h3 hr]
      · by_cases hs : i ∈ s <;> simp [hr, hs]
    · ext i
      simp only [Finset.mem_filter, Finset.mem_univ, true_and]
      by_cases hr : i ∈ r
      · simp [hr]
      · by_cases hs : i ∈ s <;> simp [hr, hs]

theorem card_challenges (ω : Nat) : Nat.card {γ : Fin 512 → Int // IsChallengeVec ω γ} = Nat.choose 512 ω * 2 ^ ω := by
  rw [Nat.card_congr (chalEquiv ω), Nat.card_eq_fintype_card, Fintype.card_coe, Finset.card_sigma,
    Finset.sum_congr rfl (g := fun _ => 2 ^ ω) fun s hs => by rw [Finset.card_powerset, (Finset.mem_powersetCard.1 hs).2], Finset.sum_const,
    Finset.card_powersetCard, Finset.card_univ, Fintype.card_fin, smul_eq_mul]

end Raccoon
