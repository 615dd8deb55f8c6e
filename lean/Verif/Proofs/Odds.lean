import Verif.Proofs.Extreme
import Verif.Spec.Flood
/-!
# Sums of words near each other are about equally frequent
-/
namespace Raccoon
attribute [-instance] Monoid.toNPow
open Finset

/-- Families of numbers below N with sum exactly x. -/
def sumCount (κ : Type) [Fintype κ] [DecidableEq κ] (N x : Nat) : Nat := (univ.filter fun y : κ → Fin N => ∑ k, (y k).val = x).card

theorem sumCount_step {κ : Type} [Fintype κ] [DecidableEq κ] (N x : Nat) : (x + 1) * sumCount κ N (x + 1) ≤ (x + Fintype.card κ) * sumCount κ N x := by
  classical
  unfold sumCount
  generalize hA : (univ.filter fun y : κ → Fin N => ∑ k, (y k).val = x + 1) = A
  generalize hB : (univ.filter fun y : κ → Fin N => ∑ k, (y k).val = x) = B
  have mA : ∀ y, y ∈ A ↔ ∑ k, (y k).val = x + 1 := by intro y; rw [← hA]; simp
  have mB : ∀ y, y ∈ B ↔ ∑ k, (y k).val = x := by intro y; rw [← hB]; simp
  have e1 : (x + 1) * A.card = ∑ k, ∑ y ∈ A, (y k).val := by
    rw [Finset.sum_comm, Finset.sum_congr rfl fun y hy => (mA y).1 hy, Finset.sum_const, smul_eq_mul, Nat.mul_comm]
  have e2 : (x + Fintype.card κ) * B.card = ∑ k, ∑ y ∈ B, ((y k).val + 1) := by
    rw [Finset.sum_comm, Finset.sum_congr rfl (g := fun _ => x + Fintype.card κ) fun y hy => ?_, Finset.sum_const, smul_eq_mul, Nat.mul_comm]
    rw [Finset.sum_add_distrib, (mB y).1 hy, Finset.sum_const, Finset.card_univ, smul_eq_mul, Nat.mul_one]
  rw [e1, e2]
  refine Finset.sum_le_sum fun k _ => ?_
  let dec : (κ → Fin N) → κ → Fin N := fun y => Function.update y k ⟨(y k).val - 1, by have := (y k).isLt; omega⟩
  have hne : ∑ y ∈ A, (y k).val = ∑ y ∈ A.filter (fun y => (y k).val ≠ 0), (y k).val := by
    rw [Finset.sum_filter]
    refine Finset.sum_congr rfl fun y _ => ?_
    split
    · rfl
    · omega
  have hdk : ∀ y, (dec y k).val = (y k).val - 1 := fun y => by simp [dec]
  have hdo : ∀ y k', k' ≠ k → dec y k' = y k' := fun y k' h => by simp [dec, h]
  rw [hne, Finset.sum_congr rfl (g := fun y => (dec y k).val + 1) fun y hy => by
    have := (Finset.mem_filter.1 hy).2
    rw [hdk]; omega]
  have inj : Set.InjOn dec (A.filter (fun y => (y k).val ≠ 0) : Finset (κ → Fin N)) := by
    intro y hy y' hy' e
    have h1 := (Finset.mem_filter.1 (Finset.mem_coe.1 hy)).2
    have h2 := (Finset.mem_filter.1 (Finset.mem_coe.1 hy')).2
    funext k'
    by_cases hk : k' = k
    · subst hk
      apply Fin.ext
      have := hdk y
      rw [e, hdk y'] at this
      omega
    · rw [← hdo y k' hk, e, hdo y' k' hk]
  rw [← Finset.sum_image (f := fun z : κ → Fin N => (z k).val + 1) inj]
  refine Finset.sum_le_sum_of_subset fun z hz => ?_
  obtain ⟨y, hy, rfl⟩ := Finset.mem_image.1 hz
  obtain ⟨hy1, hy2⟩ := Finset.mem_filter.1 hy
  rw [mB]
  have h1 := (mA y).1 hy1
  rw [← Finset.add_sum_erase _ _ (Finset.mem_univ k)] at h1 ⊢
  rw [hdk, Finset.sum_congr rfl (g := fun k' => (y k').val) fun k' hk' => by rw [hdo y k' (Finset.ne_of_mem_erase hk')]]
  omega

theorem sumCount_flip {κ : Type} [Fintype κ] [DecidableEq κ] (N x : Nat) (hx : x ≤ Fintype.card κ * (N - 1)) :
    sumCount κ N (Fintype.card κ * (N - 1) - x) = sumCount κ N x := by
  have hs : ∀ y : κ → Fin N, ∑ k, (Fin.rev (y k)).val + ∑ k, (y k).val = Fintype.card κ * (N - 1) := by
    intro y
    rw [← Finset.sum_add_distrib, Finset.sum_congr rfl (g := fun _ => N - 1) fun k _ => ?_, Finset.sum_const, Finset.card_univ, smul_eq_mul]
    rw [Fin.val_rev]
    have := (y k).isLt
    omega
  unfold sumCount
  refine Finset.card_bij' (fun y _ k => Fin.rev (y k)) (fun y _ k => Fin.rev (y k)) ?_ ?_ ?_ ?_
  · intro y hy
    have h := (Finset.mem_filter.1 hy).2
    have := hs y
    refine Finset.mem_filter.2 ⟨Finset.mem_univ _, ?_⟩
    show ∑ k, (Fin.rev (y k)).val = _
    omega
  · intro y hy
    have h := (Finset.mem_filter.1 hy).2
    have := hs y
    refine Finset.mem_filter.2 ⟨Finset.mem_univ _, ?_⟩
    show ∑ k, (Fin.rev (y k)).val = _
    omega
  · intro y _; funext k; exact Fin.rev_rev _
  · intro y _; funext k; exact Fin.rev_rev _

theorem sumCount_up {κ : Type} [Fintype κ] [DecidableEq κ] (N D x : Nat) (hD : D ≤ x + 1) : D * sumCount κ N (x + 1) ≤ (D + Fintype.card κ) * sumCount κ N x := by
  have h := sumCount_step (κ := κ) N x
  generalize Fintype.card κ = τ at *
  generalize sumCount κ N (x + 1) = a at *
  generalize sumCount κ N x = b at *
  refine Nat.le_of_mul_le_mul_left ?_ (Nat.succ_pos x)
  have h1 : D * ((x + 1) * a) ≤ D * ((x + τ) * b) := Nat.mul_le_mul_left _ h
  have h2 : D * (x + τ) ≤ (D + τ) * (x + 1) := by nlinarith
  show (x + 1) * (D * a) ≤ (x + 1) * ((D + τ) * b)
  calc (x + 1) * (D * a) = D * ((x + 1) * a) := by ring
    _ ≤ D * (x + τ) * b := by rw [Nat.mul_assoc]; exact h1
    _ ≤ (D + τ) * (x + 1) * b := Nat.mul_le_mul_right _ h2
    _ = (x + 1) * ((D + τ) * b) := by ring

theorem sumCount_walk {κ : Type} [Fintype κ] [DecidableEq κ] (N D m x : Nat) (hD : D ≤ x + 1) :
    D ^ m * sumCount κ N (x + m) ≤ (D + Fintype.card κ) ^ m * sumCount κ N x := by
  induction m with
  | zero => simp
  | succ m ih =>
    have h := sumCount_up (κ := κ) N D (x + m) (by omega)
    rw [Nat.pow_succ, Nat.pow_succ]
    calc D ^ m * D * sumCount κ N (x + (m + 1)) = D ^ m * (D * sumCount κ N (x + m + 1)) := by rw [Nat.mul_assoc, Nat.add_assoc]
      _ ≤ D ^ m * ((D + Fintype.card κ) * sumCount κ N (x + m)) := Nat.mul_le_mul_left _ h
      _ = (D + Fintype.card κ) * (D ^ m * sumCount κ N (x + m)) := by ring
      _ ≤ (D + Fintype.card κ) * ((D + Fintype.card κ) ^ m * sumCount κ N x) := Nat.mul_le_mul_left _ ih
      _ = _ := by ring

theorem sumCount_close {κ : Type} [Fintype κ] [DecidableEq κ] (N D c x x' : Nat) (h1 : D + c ≤ x) (h2 : x + (D + c) ≤ Fintype.card κ * (N - 1)) (hx : x ≤ x' + c) (hx' : x' ≤ x + c) :
    D ^ c * sumCount κ N x ≤ (D + Fintype.card κ) ^ c * sumCount κ N x' := by
  have key : ∀ m ≤ c, D ^ m * sumCount κ N x ≤ (D + Fintype.card κ) ^ m * sumCount κ N x' → D ^ c * sumCount κ N x ≤ (D + Fintype.card κ) ^ c * sumCount κ N x' := by
    intro m hm h
    obtain ⟨r, rfl⟩ := Nat.exists_eq_add_of_le hm
    rw [Nat.pow_add, Nat.pow_add]
    calc D ^ m * D ^ r * sumCount κ N x = D ^ r * (D ^ m * sumCount κ N x) := by ring
      _ ≤ (D + Fintype.card κ) ^ r * ((D + Fintype.card κ) ^ m * sumCount κ N x') := Nat.mul_le_mul (Nat.pow_le_pow_left (by omega) _) h
      _ = _ := by ring
  rcases Nat.le_total x' x with hle | hle
  · obtain ⟨m, rfl⟩ := Nat.exists_eq_add_of_le hle
    exact key m (by omega) (sumCount_walk N D m x' (by omega))
  · obtain ⟨m, rfl⟩ := Nat.exists_eq_add_of_le hle
    refine key m (by omega) ?_
    have h := sumCount_walk (κ := κ) N D m (Fintype.card κ * (N - 1) - (x + m)) (by omega)
    rw [show Fintype.card κ * (N - 1) - (x + m) + m = Fintype.card κ * (N - 1) - x by omega, sumCount_flip N _ (by omega), sumCount_flip N _ (by omega)] at h
    exact h

theorem signedSum_lift {κ : Type} [Fintype κ] {u : Nat} (hu : 0 < u) (w : κ → Fin (2 ^ u)) :
    ((∑ k, lift u (w k) : Nat) : Int) = signedSum u w + Fintype.card κ * 2 ^ (u - 1) := by
  unfold signedSum
  rw [Nat.cast_sum, Finset.sum_congr rfl fun k _ => (lift_spec hu (w k)).1, Finset.sum_add_distrib, Finset.sum_const, Finset.card_univ, nsmul_eq_mul]

theorem liftCount {κ : Type} [Fintype κ] [DecidableEq κ] {u : Nat} (hu : 0 < u) (x : Nat) :
    (univ.filter fun w : κ → Fin (2 ^ u) => ∑ k, lift u (w k) = x).card = sumCount κ (2 ^ u) x := by
  let f : Fin (2 ^ u) → Fin (2 ^ u) := fun w => ⟨lift u w, (lift_spec hu w).2⟩
  have hf : Function.Injective f := fun a b e => lift_inj hu a b (congrArg Fin.val e)
  have hs : Function.Surjective f := Finite.injective_iff_surjective.1 hf
  unfold sumCount
  refine Finset.card_bij (fun w _ k => f (w k)) ?_ ?_ ?_
  · intro w hw
    exact Finset.mem_filter.2 ⟨Finset.mem_univ _, (Finset.mem_filter.1 hw).2⟩
  · intro w _ w' _ e
    funext k
    exact hf (congrFun e k)
  · intro y hy
    choose g hg using hs
    refine ⟨fun k => g (y k), Finset.mem_filter.2 ⟨Finset.mem_univ _, ?_⟩, ?_⟩
    · rw [← (Finset.mem_filter.1 hy).2]
      refine Finset.sum_congr rfl fun k _ => ?_
      exact congrArg Fin.val (hg (y k))
    · funext k
      exact hg (y k)

/-- How many tables have a row of J whose sum is within K of the least or the greatest possible. -/
def edgeCount {ι : Type} (κ : Type) [Fintype ι] [DecidableEq ι] [Fintype κ] [DecidableEq κ] (J : Finset ι) (u K : Nat) : Nat :=
  (univ.filter fun W : ι → κ → Fin (2 ^ u) => ∃ i ∈ J, ∑ k, lift u (W i k) < K ∨ Fintype.card κ * (2 ^ u - 1) < ∑ k, lift u (W i k) + K).card

theorem rowCount_close {κ : Type} [Fintype κ] [DecidableEq κ] {u : Nat} (hu : 0 < u) (D c : Nat) (v v' : Int) (h : |v - v'| ≤ c)
    (h1 : ((D + c : Nat) : Int) ≤ v + Fintype.card κ * 2 ^ (u - 1)) (h2 : v + Fintype.card κ * 2 ^ (u - 1) + (D + c : Nat) ≤ ((Fintype.card κ * (2 ^ u - 1) : Nat) : Int)) :
    D ^ c * (univ.filter fun w : κ → Fin (2 ^ u) => signedSum u w = v).card ≤ (D + Fintype.card κ) ^ c * (univ.filter fun w : κ → Fin (2 ^ u) => signedSum u w = v').card := by
  have e : ∀ (z : Int) (x : Nat), z + Fintype.card κ * 2 ^ (u - 1) = (x : Int) → (univ.filter fun w : κ → Fin (2 ^ u) => signedSum u w = z).card = sumCount κ (2 ^ u) x := by
    intro z x hz
    rw [← liftCount hu]
    congr 1
    refine Finset.filter_congr fun w _ => ?_
    have hl := signedSum_lift hu w
    generalize (Fintype.card κ : Int) * 2 ^ (u - 1) = S at *
    generalize ∑ k, lift u (w k) = L at *
    constructor <;> intro <;> omega
  have hab := abs_le.1 h
  obtain ⟨x, hx⟩ : ∃ x : Nat, v + Fintype.card κ * 2 ^ (u - 1) = (x : Int) := ⟨(v + Fintype.card κ * 2 ^ (u - 1)).toNat, by
    generalize (Fintype.card κ : Int) * 2 ^ (u - 1) = S at *; omega⟩
  obtain ⟨x', hx'⟩ : ∃ x : Nat, v' + Fintype.card κ * 2 ^ (u - 1) = (x : Int) := ⟨(v' + Fintype.card κ * 2 ^ (u - 1)).toNat, by
    generalize (Fintype.card κ : Int) * 2 ^ (u - 1) = S at *; omega⟩
  rw [e v x hx, e v' x' hx']
  rw [hx] at h1 h2
  generalize (Fintype.card κ : Int) * 2 ^ (u - 1) = S at *
  refine sumCount_close (2 ^ u) D c x x' (by omega) ?_ (by omega) (by omega)
  generalize Fintype.card κ * (2 ^ u - 1) = X at *
  omega

theorem respCount_odds {ι κ : Type} [Fintype ι] [DecidableEq ι] [Fintype κ] [DecidableEq κ] {u : Nat} (hu : 0 < u) (D c : Nat) (J : Finset ι) (δ δ' : ι → Int) (hδ : ∀ i ∈ J, |δ i - δ' i| ≤ c)
    (hJ : ∀ i, i ∉ J → δ i = δ' i) (T : Set (ι → Int)) :
    (D ^ c) ^ J.card * respCount (κ := κ) u δ T ≤
      ((D + Fintype.card κ) ^ c) ^ J.card * respCount (κ := κ) u δ' T + (D ^ c) ^ J.card * edgeCount κ J u (D + c) := by
  classical
  have hcard : ∀ δ : ι → Int, respCount (κ := κ) u δ T = (univ.filter fun W : ι → κ → Fin (2 ^ u) => δ + tableSum u W ∈ T).card := by
    intro δ
    unfold respCount
    rw [Nat.card_eq_fintype_card, Fintype.card_subtype]
  rw [hcard, hcard]
  let good : (ι → κ → Fin (2 ^ u)) → Prop := fun W => ∀ i ∈ J, D + c ≤ ∑ k, lift u (W i k) ∧ ∑ k, lift u (W i k) + (D + c) ≤ Fintype.card κ * (2 ^ u - 1)
  let fiber : (ι → Int) → Finset (ι → κ → Fin (2 ^ u)) := fun v => univ.filter fun W => tableSum u W = v
  let G : Finset (ι → κ → Fin (2 ^ u)) := univ.filter fun W => δ + tableSum u W ∈ T ∧ good W
  have hsplit : (univ.filter fun W : ι → κ → Fin (2 ^ u) => δ + tableSum u W ∈ T).card ≤ G.card + edgeCount κ J u (D + c) := by
    refine le_trans (Finset.card_le_card (t := G ∪ univ.filter fun W : ι → κ → Fin (2 ^ u) => ∃ i ∈ J, ∑ k, lift u (W i k) < D + c ∨
      Fintype.card κ * (2 ^ u - 1) < ∑ k, lift u (W i k) + (D + c)) ?_) (Finset.card_union_le _ _)
    intro W hW
    have h := (Finset.mem_filter.1 hW).2
    rw [Finset.mem_union]
    by_cases hg : good W
    · exact Or.inl (Finset.mem_filter.2 ⟨Finset.mem_univ _, h, hg⟩)
    · refine Or.inr (Finset.mem_filter.2 ⟨Finset.mem_univ _, ?_⟩)
      by_contra hn
      refine hg fun i hi => ?_
      have : ¬(_ ∨ _) := fun hh => hn ⟨i, hi, hh⟩
      rw [not_or, Nat.not_lt, Nat.not_lt] at this
      exact this
  have hfib : ∀ v, (fiber v).card = ∏ i, (univ.filter fun w : κ → Fin (2 ^ u) => signedSum u w = v i).card := by
    intro v
    rw [← Fintype.card_piFinset]
    congr 1
    ext W
    rw [Finset.mem_filter, Fintype.mem_piFinset]
    constructor
    · rintro ⟨-, h⟩ i
      exact Finset.mem_filter.2 ⟨Finset.mem_univ _, congrFun h i⟩
    · intro h
      exact ⟨Finset.mem_univ _, funext fun i => (Finset.mem_filter.1 (h i)).2⟩
  have hG : G.card ≤ ∑ v ∈ G.image (tableSum u), (fiber v).card := by
    rw [Finset.card_eq_sum_card_image (tableSum u) G]
    refine Finset.sum_le_sum fun v _ => Finset.card_le_card fun W hW => ?_
    exact Finset.mem_filter.2 ⟨Finset.mem_univ _, (Finset.mem_filter.1 hW).2⟩
  have hclose : ∀ v ∈ G.image (tableSum u), (D ^ c) ^ J.card * (fiber v).card ≤ ((D + Fintype.card κ) ^ c) ^ J.card * (fiber (δ + v - δ')).card := by
    intro v hv
    obtain ⟨W, hW, rfl⟩ := Finset.mem_image.1 hv
    have hg := (Finset.mem_filter.1 hW).2.2
    have hw : ∀ x : Nat, x ^ J.card = ∏ i : ι, if i ∈ J then x else 1 := fun x => by
      rw [Finset.prod_ite_mem, Finset.univ_inter, Finset.prod_const]
    rw [hfib, hfib, hw, hw, ← Finset.prod_mul_distrib, ← Finset.prod_mul_distrib]
    refine Finset.prod_le_prod' fun i _ => ?_
    by_cases hi : i ∈ J
    swap
    · have e : (δ + tableSum u W - δ') i = tableSum u W i := by
        show δ i + tableSum u W i - δ' i = _
        rw [hJ i hi]
        ring
      rw [if_neg hi, if_neg hi, e]
    rw [if_pos hi, if_pos hi]
    have hl := signedSum_lift hu (W i)
    obtain ⟨g1, g2⟩ := hg i hi
    refine rowCount_close hu D c _ _ ?_ ?_ ?_
    · have : tableSum u W i - (δ + tableSum u W - δ') i = -(δ i - δ' i) := by
        show tableSum u W i - (δ i + tableSum u W i - δ' i) = _
        ring
      rw [this, abs_neg]
      exact hδ i hi
    · show _ ≤ signedSum u (W i) + _
      rw [← hl]
      exact_mod_cast g1
    · show signedSum u (W i) + _ + _ ≤ _
      rw [← hl]
      exact_mod_cast g2
  have hdown : ∑ v ∈ G.image (tableSum u), (fiber (δ + v - δ')).card ≤ (univ.filter fun W : ι → κ → Fin (2 ^ u) => δ' + tableSum u W ∈ T).card := by
    rw [← Finset.card_biUnion]
    · refine Finset.card_le_card fun W hW => ?_
      obtain ⟨v, hv, hW⟩ := Finset.mem_biUnion.1 hW
      obtain ⟨W0, hW0, rfl⟩ := Finset.mem_image.1 hv
      refine Finset.mem_filter.2 ⟨Finset.mem_univ _, ?_⟩
      rw [(Finset.mem_filter.1 hW).2, add_sub_cancel]
      exact (Finset.mem_filter.1 hW0).2.1
    · intro v _ v' _ hne
      refine Finset.disjoint_left.2 fun W h1 h2 => hne ?_
      have e := (Finset.mem_filter.1 h1).2.symm.trans (Finset.mem_filter.1 h2).2
      funext i
      have := congrFun e i
      simp only [Pi.sub_apply, Pi.add_apply] at this
      omega
  calc (D ^ c) ^ J.card * (univ.filter fun W : ι → κ → Fin (2 ^ u) => δ + tableSum u W ∈ T).card
      ≤ (D ^ c) ^ J.card * (G.card + edgeCount κ J u (D + c)) := Nat.mul_le_mul_left _ hsplit
    _ = (D ^ c) ^ J.card * G.card + (D ^ c) ^ J.card * edgeCount κ J u (D + c) := Nat.mul_add _ _ _
    _ ≤ _ := Nat.add_le_add_right ?_ _
  calc (D ^ c) ^ J.card * G.card ≤ (D ^ c) ^ J.card * ∑ v ∈ G.image (tableSum u), (fiber v).card := Nat.mul_le_mul_left _ hG
    _ = ∑ v ∈ G.image (tableSum u), (D ^ c) ^ J.card * (fiber v).card := Finset.mul_sum _ _ _
    _ ≤ ∑ v ∈ G.image (tableSum u), ((D + Fintype.card κ) ^ c) ^ J.card * (fiber (δ + v - δ')).card := Finset.sum_le_sum hclose
    _ = ((D + Fintype.card κ) ^ c) ^ J.card * ∑ v ∈ G.image (tableSum u), (fiber (δ + v - δ')).card := (Finset.mul_sum _ _ _).symm
    _ ≤ _ := Nat.mul_le_mul_left _ hdown

/-- Tables with a row near an end are few. -/
theorem edgeCount_le {ι : Type} (κ : Type) [Fintype ι] [DecidableEq ι] [Fintype κ] [DecidableEq κ] (J : Finset ι) {u : Nat} (hu : 0 < u) (K : Nat) :
    edgeCount κ J u K * (2 ^ u) ^ Fintype.card κ ≤ J.card * (2 * K ^ Fintype.card κ) * Fintype.card (ι → κ → Fin (2 ^ u)) := by
  classical
  let R : Finset (κ → Fin (2 ^ u)) := univ.filter fun w => ∑ k, lift u (w k) < K ∨ Fintype.card κ * (2 ^ u - 1) < ∑ k, lift u (w k) + K
  have hKc : K ^ Fintype.card κ = (univ : Finset (κ → Fin K)).card := by rw [Finset.card_univ, Fintype.card_fun, Fintype.card_fin]
  have hR : R.card ≤ 2 * K ^ Fintype.card κ := by
    have h1 : (univ.filter fun w : κ → Fin (2 ^ u) => ∑ k, lift u (w k) < K).card ≤ K ^ Fintype.card κ := by
      rw [hKc]
      rcases Nat.eq_zero_or_pos K with rfl | hK
      · rw [Finset.filter_false_of_mem fun w _ => Nat.not_lt_zero _]
        simp
      refine Finset.card_le_card_of_injOn (fun w k => ⟨lift u (w k) % K, Nat.mod_lt _ hK⟩) (fun _ _ => Finset.mem_coe.2 (Finset.mem_univ _)) ?_
      intro w hw w' hw' e
      have b : ∀ w : κ → Fin (2 ^ u), ∑ k, lift u (w k) < K → ∀ k, lift u (w k) < K := fun w h k =>
        Nat.lt_of_le_of_lt (Finset.single_le_sum (f := fun k => lift u (w k)) (fun _ _ => Nat.zero_le _) (Finset.mem_univ k)) h
      have hw := b w (Finset.mem_filter.1 (Finset.mem_coe.1 hw)).2
      have hw' := b w' (Finset.mem_filter.1 (Finset.mem_coe.1 hw')).2
      funext k
      have e' : lift u (w k) % K = lift u (w' k) % K := congrArg Fin.val (congrFun e k)
      rw [Nat.mod_eq_of_lt (hw k), Nat.mod_eq_of_lt (hw' k)] at e'
      exact lift_inj hu _ _ e'
    have h2 : (univ.filter fun w : κ → Fin (2 ^ u) => Fintype.card κ * (2 ^ u - 1) < ∑ k, lift u (w k) + K).card ≤ K ^ Fintype.card κ := by
      rw [hKc]
      have hs : ∀ w : κ → Fin (2 ^ u), ∑ k, (2 ^ u - 1 - lift u (w k)) + ∑ k, lift u (w k) = Fintype.card κ * (2 ^ u - 1) := by
        intro w
        rw [← Finset.sum_add_distrib, Finset.sum_congr rfl (g := fun _ => 2 ^ u - 1) fun k _ => ?_, Finset.sum_const, Finset.card_univ, smul_eq_mul]
        have := (lift_spec hu (w k)).2
        omega
      rcases Nat.eq_zero_or_pos K with rfl | hK
      · rw [Finset.filter_false_of_mem fun w _ => by have := hs w; omega]
        simp
      refine Finset.card_le_card_of_injOn (fun w k => ⟨(2 ^ u - 1 - lift u (w k)) % K, Nat.mod_lt _ hK⟩) (fun _ _ => Finset.mem_coe.2 (Finset.mem_univ _)) ?_
      intro w hw w' hw' e
      have b : ∀ w : κ → Fin (2 ^ u), Fintype.card κ * (2 ^ u - 1) < ∑ k, lift u (w k) + K → ∀ k, 2 ^ u - 1 - lift u (w k) < K := fun w h k =>
        Nat.lt_of_le_of_lt (Finset.single_le_sum (f := fun k => 2 ^ u - 1 - lift u (w k)) (fun _ _ => Nat.zero_le _) (Finset.mem_univ k)) (by have := hs w; omega)
      have hw := b w (Finset.mem_filter.1 (Finset.mem_coe.1 hw)).2
      have hw' := b w' (Finset.mem_filter.1 (Finset.mem_coe.1 hw')).2
      funext k
      have e' : (2 ^ u - 1 - lift u (w k)) % K = (2 ^ u - 1 - lift u (w' k)) % K := congrArg Fin.val (congrFun e k)
      rw [Nat.mod_eq_of_lt (hw k), Nat.mod_eq_of_lt (hw' k)] at e'
      have a1 := (lift_spec hu (w k)).2
      have a2 := (lift_spec hu (w' k)).2
      exact lift_inj hu _ _ (by omega)
    refine le_trans (le_trans (Finset.card_le_card (t := _ ∪ _) fun w hw => ?_) (Finset.card_union_le _ _)) (le_trans (Nat.add_le_add h1 h2) (by omega))
    rcases (Finset.mem_filter.1 hw).2 with h | h
    · exact Finset.mem_union.2 (Or.inl (Finset.mem_filter.2 ⟨Finset.mem_univ _, h⟩))
    · exact Finset.mem_union.2 (Or.inr (Finset.mem_filter.2 ⟨Finset.mem_univ _, h⟩))
  have hrow : ∀ i : ι, (univ.filter fun W : ι → κ → Fin (2 ^ u) => W i ∈ R).card * (2 ^ u) ^ Fintype.card κ = R.card * Fintype.card (ι → κ → Fin (2 ^ u)) := by
    intro i
    have e : (univ.filter fun W : ι → κ → Fin (2 ^ u) => W i ∈ R) = Fintype.piFinset fun j => if j = i then R else univ := by
      ext W
      rw [Finset.mem_filter, Fintype.mem_piFinset]
      constructor
      · rintro ⟨-, h⟩ j
        by_cases hj : j = i
        · subst hj; rw [if_pos rfl]; exact h
        · rw [if_neg hj]; exact Finset.mem_univ _
      · intro h
        have := h i
        rw [if_pos rfl] at this
        exact ⟨Finset.mem_univ _, this⟩
    have hc : (2 ^ u) ^ Fintype.card κ = Fintype.card (κ → Fin (2 ^ u)) := by rw [Fintype.card_fun, Fintype.card_fin]
    rw [e, Fintype.card_piFinset, ← Finset.mul_prod_erase _ _ (Finset.mem_univ i), if_pos rfl, hc, Fintype.card_fun (α := ι), ← Finset.card_univ (α := ι), ← Finset.prod_const,
      ← Finset.mul_prod_erase univ (fun _ : ι => Fintype.card (κ → Fin (2 ^ u))) (Finset.mem_univ i),
      Finset.prod_congr rfl (g := fun _ => Fintype.card (κ → Fin (2 ^ u))) fun j hj => by rw [if_neg (Finset.ne_of_mem_erase hj), Finset.card_univ]]
    ring
  have hsub : edgeCount κ J u K ≤ ∑ i ∈ J, (univ.filter fun W : ι → κ → Fin (2 ^ u) => W i ∈ R).card := by
    refine le_trans (Finset.card_le_card (t := J.biUnion fun i => univ.filter fun W : ι → κ → Fin (2 ^ u) => W i ∈ R) fun W hW => ?_) Finset.card_biUnion_le
    obtain ⟨i, hJ, hi⟩ := (Finset.mem_filter.1 hW).2
    exact Finset.mem_biUnion.2 ⟨i, hJ, Finset.mem_filter.2 ⟨Finset.mem_univ _, Finset.mem_filter.2 ⟨Finset.mem_univ _, hi⟩⟩⟩
  calc edgeCount κ J u K * (2 ^ u) ^ Fintype.card κ ≤ (∑ i ∈ J, (univ.filter fun W : ι → κ → Fin (2 ^ u) => W i ∈ R).card) * (2 ^ u) ^ Fintype.card κ := Nat.mul_le_mul_right _ hsub
    _ = ∑ _i ∈ J, R.card * Fintype.card (ι → κ → Fin (2 ^ u)) := by rw [Finset.sum_mul]; exact Finset.sum_congr rfl fun i _ => hrow i
    _ = J.card * R.card * Fintype.card (ι → κ → Fin (2 ^ u)) := by rw [Finset.sum_const, smul_eq_mul, Nat.mul_assoc]
    _ ≤ _ := Nat.mul_le_mul_right _ (Nat.mul_le_mul_left _ hR)

end Raccoon
