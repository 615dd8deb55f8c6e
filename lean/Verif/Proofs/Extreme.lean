import Verif.Spec.Extreme
import Verif.Proofs.Noise
import Mathlib.Algebra.BigOperators.Ring.Finset
import Mathlib.Data.Fintype.BigOperators
import Mathlib.Algebra.Order.BigOperators.Group.Finset
/-!
# Counting word families with extreme sums
-/
namespace Raccoon
attribute [-instance] Monoid.toNPow
open Finset

theorem signedWord_bmod {u : Nat} (hu : 0 < u) (w : Nat) : signedWord u ⟨w % 2 ^ u, Nat.mod_lt _ (Nat.pow_pos (by omega))⟩ = ((w : Nat) : Int).bmod (2 ^ u) := by
  obtain ⟨v, rfl⟩ : ∃ v, u = v + 1 := ⟨u - 1, by omega⟩
  unfold signedWord
  simp only [Nat.add_sub_cancel]
  have e : (2 : Nat) ^ (v + 1) = 2 * 2 ^ v := by rw [Nat.pow_succ, Nat.mul_comm]
  have e' : (2 : Int) ^ (v + 1) = 2 * ((2 ^ v : Nat) : Int) := by rw [pow_succ, Nat.cast_pow]; ring
  have hp : 0 < 2 ^ v := Nat.pow_pos (by omega)
  rw [e', e, bmod_split w _ hp]
  generalize 2 ^ v = M at *
  have h1 : w % (2 * M) = w % M + w / M % 2 * M := by
    rw [Nat.mul_comm 2 M, Nat.mod_mul, Nat.mul_comm M]
  have h2 : w % M < M := Nat.mod_lt _ hp
  rcases Nat.mod_two_eq_zero_or_one (w / M) with h | h
  · rw [h, Nat.zero_mul, Nat.add_zero] at h1
    rw [h1, if_pos h2, h]; simp
  · rw [h, Nat.one_mul] at h1
    rw [h1, if_neg (by omega), h]
    push_cast; ring

/-- A word moved to the range from 0 on. -/
def lift (u : Nat) (w : Fin (2 ^ u)) : Nat := (signedWord u w + 2 ^ (u - 1)).toNat

theorem lift_spec {u : Nat} (hu : 0 < u) (w : Fin (2 ^ u)) : ((lift u w : Nat) : Int) = signedWord u w + 2 ^ (u - 1) ∧ lift u w < 2 ^ u := by
  obtain ⟨v, rfl⟩ : ∃ v, u = v + 1 := ⟨u - 1, by omega⟩
  unfold lift signedWord
  simp only [Nat.add_sub_cancel]
  have e : (2 : Nat) ^ (v + 1) = 2 * 2 ^ v := by rw [Nat.pow_succ, Nat.mul_comm]
  have hw := Nat.lt_of_lt_of_eq w.isLt e
  have e' : (2 : Int) ^ (v + 1) = 2 * ((2 ^ v : Nat) : Int) := by rw [pow_succ, Nat.cast_pow]; ring
  have e2 : (2 : Int) ^ v = ((2 ^ v : Nat) : Int) := by rw [Nat.cast_pow]; rfl
  rw [e', e2]
  generalize w.val = w' at *
  rw [e]
  clear e e' e2 hu
  generalize 2 ^ v = M at *
  split <;> omega

theorem lift_inj {u : Nat} (hu : 0 < u) (w w' : Fin (2 ^ u)) (h : lift u w = lift u w') : w = w' := by
  have h1 := (lift_spec hu w).1
  have h2 := (lift_spec hu w').1
  rw [h] at h1
  have h3 : signedWord u w = signedWord u w' := by omega
  obtain ⟨v, rfl⟩ : ∃ v, u = v + 1 := ⟨u - 1, by omega⟩
  unfold signedWord at h3
  simp only [Nat.add_sub_cancel] at h3
  have e : (2 : Nat) ^ (v + 1) = 2 * 2 ^ v := by rw [Nat.pow_succ, Nat.mul_comm]
  have e' : (2 : Int) ^ (v + 1) = 2 * ((2 ^ v : Nat) : Int) := by rw [pow_succ, Nat.cast_pow]; ring
  have hw := Nat.lt_of_lt_of_eq w.isLt e
  have hw' := Nat.lt_of_lt_of_eq w'.isLt e
  rw [e'] at h3
  apply Fin.ext
  clear h h1 h2 e e'
  generalize w.val = w at *
  generalize w'.val = w' at *
  generalize 2 ^ v = M at *
  split at h3 <;> split at h3 <;> omega

/-- Families of numbers below N with sum at least t. -/
def topCount (ι : Type) [Fintype ι] [DecidableEq ι] (N t : Nat) : Nat := (univ.filter fun y : ι → Fin N => t ≤ ∑ i, (y i).val).card

theorem rare_of_topCount {ι : Type} [Fintype ι] [DecidableEq ι] {u : Nat} (hu : 0 < u) (T e : Nat)
    (h : 2 ^ (e + 1) * topCount ι (2 ^ u) (T + Fintype.card ι * 2 ^ (u - 1) - Fintype.card ι) ≤ (2 ^ u) ^ Fintype.card ι) : RareSum ι u T e := by
  classical
  unfold RareSum
  rw [Fintype.card_fun, Fintype.card_fin]
  refine Nat.le_trans ?_ h
  rw [Nat.pow_succ, Nat.mul_assoc]
  apply Nat.mul_le_mul_left
  rw [Fintype.card_subtype]
  have hsum : ∀ x : ι → Fin (2 ^ u), ((∑ i, lift u (x i) : Nat) : Int) = signedSum u x + Fintype.card ι * 2 ^ (u - 1) := by
    intro x
    unfold signedSum
    rw [Nat.cast_sum, Finset.sum_congr rfl fun i _ => (lift_spec hu (x i)).1, Finset.sum_add_distrib, Finset.sum_const, Finset.card_univ, nsmul_eq_mul]
  have hp2 : (2 : Int) ^ (u - 1) = ((2 ^ (u - 1) : Nat) : Int) := by rw [Nat.cast_pow]; rfl
  have hpu : 2 ^ u = 2 * 2 ^ (u - 1) := by
    obtain ⟨v, rfl⟩ : ∃ v, u = v + 1 := ⟨u - 1, by omega⟩
    rw [Nat.pow_succ, Nat.mul_comm, Nat.add_sub_cancel]
  have hpos : 0 < 2 ^ (u - 1) := Nat.pow_pos (by omega)
  have hsplit : (univ.filter fun x : ι → Fin (2 ^ u) => (T : Int) ≤ |signedSum u x|) ⊆
      (univ.filter fun x : ι → Fin (2 ^ u) => (T : Int) ≤ signedSum u x) ∪ (univ.filter fun x : ι → Fin (2 ^ u) => (T : Int) ≤ -signedSum u x) := by
    intro x hx
    rw [Finset.mem_filter] at hx
    rw [Finset.mem_union, Finset.mem_filter, Finset.mem_filter]
    rcases le_abs.1 hx.2 with h | h
    · exact Or.inl ⟨Finset.mem_univ _, h⟩
    · exact Or.inr ⟨Finset.mem_univ _, h⟩
  have c1 : (univ.filter fun x : ι → Fin (2 ^ u) => (T : Int) ≤ signedSum u x).card ≤
      topCount ι (2 ^ u) (T + Fintype.card ι * 2 ^ (u - 1) - Fintype.card ι) := by
    refine Finset.card_le_card_of_injOn (fun x i => ⟨lift u (x i), (lift_spec hu (x i)).2⟩) ?_ ?_
    · intro x hx
      have hx' := (Finset.mem_filter.1 (Finset.mem_coe.1 hx)).2
      refine Finset.mem_coe.2 (Finset.mem_filter.2 ⟨Finset.mem_univ _, ?_⟩)
      have := hsum x
      rw [hp2] at this
      show _ ≤ ∑ i, lift u (x i)
      have : ((T + Fintype.card ι * 2 ^ (u - 1) : Nat) : Int) ≤ ((∑ i, lift u (x i) : Nat) : Int) := by
        rw [this, Nat.cast_add, Nat.cast_mul]; omega
      omega
    · intro x _ y _ e
      funext i
      exact lift_inj hu _ _ (congrArg (fun f : ι → Fin (2 ^ u) => (f i).val) e)
  have c2 : (univ.filter fun x : ι → Fin (2 ^ u) => (T : Int) ≤ -signedSum u x).card ≤
      topCount ι (2 ^ u) (T + Fintype.card ι * 2 ^ (u - 1) - Fintype.card ι) := by
    refine Finset.card_le_card_of_injOn (fun x i => ⟨2 ^ u - 1 - lift u (x i), by have := (lift_spec hu (x i)).2; omega⟩) ?_ ?_
    · intro x hx
      have hx' := (Finset.mem_filter.1 (Finset.mem_coe.1 hx)).2
      refine Finset.mem_coe.2 (Finset.mem_filter.2 ⟨Finset.mem_univ _, ?_⟩)
      have h1 := hsum x
      rw [hp2] at h1
      show _ ≤ ∑ i, (2 ^ u - 1 - lift u (x i))
      have h2 : ∑ i, (2 ^ u - 1 - lift u (x i)) + ∑ i, lift u (x i) + Fintype.card ι = Fintype.card ι * 2 ^ u := by
        rw [← Finset.sum_add_distrib, Finset.sum_congr rfl (g := fun _ => 2 ^ u - 1) fun i _ => ?_, Finset.sum_const, Finset.card_univ, smul_eq_mul]
        · rw [Nat.mul_sub_one]
          have : Fintype.card ι * 1 ≤ Fintype.card ι * 2 ^ u := Nat.mul_le_mul_left _ (Nat.pow_pos (by omega))
          omega
        · have := (lift_spec hu (x i)).2
          omega
      rw [hpu] at h2
      generalize 2 ^ (u - 1) = M at *
      rw [← Nat.mul_assoc, Nat.mul_comm _ 2, Nat.mul_assoc] at h2
      rw [← Nat.cast_mul] at h1
      generalize Fintype.card ι * M = X at *
      rw [hpu] at *
      generalize ∑ i, (2 * M - 1 - lift u (x i)) = S at *
      omega
    · intro x _ y _ e
      funext i
      have := congrArg (fun f : ι → Fin (2 ^ u) => (f i).val) e
      replace this : 2 ^ u - 1 - lift u (x i) = 2 ^ u - 1 - lift u (y i) := this
      have h1 := (lift_spec hu (x i)).2
      have h2 := (lift_spec hu (y i)).2
      exact lift_inj hu _ _ (by omega)
  have := Finset.card_le_card hsplit
  have := Finset.card_union_le (univ.filter fun x : ι → Fin (2 ^ u) => (T : Int) ≤ signedSum u x) (univ.filter fun x : ι → Fin (2 ^ u) => (T : Int) ≤ -signedSum u x)
  omega

/-- Families whose sum misses the greatest possible sum by at most δ. -/
theorem topCount_near {ι : Type} [Fintype ι] [DecidableEq ι] (N t δ : Nat) (h : Fintype.card ι * (N - 1) ≤ t + δ) : topCount ι N t ≤ (δ + 1) ^ Fintype.card ι := by
  have key : ∀ y : ι → Fin N, t ≤ ∑ i, (y i).val → ∀ i, N - 1 - (y i).val ≤ δ := by
    intro y hy i
    have h2 : ∑ i, (N - 1 - (y i).val) + ∑ i, (y i).val = Fintype.card ι * (N - 1) := by
      rw [← Finset.sum_add_distrib, Finset.sum_congr rfl (g := fun _ => N - 1) fun i _ => ?_, Finset.sum_const, Finset.card_univ, smul_eq_mul]
      have := (y i).isLt; omega
    have h3 := Finset.single_le_sum (f := fun i => N - 1 - (y i).val) (fun _ _ => Nat.zero_le _) (Finset.mem_univ i)
    omega
  have hc : (δ + 1) ^ Fintype.card ι = Fintype.card (ι → Fin (δ + 1)) := by rw [Fintype.card_fun, Fintype.card_fin]
  rw [hc, ← Finset.card_univ]
  unfold topCount
  refine Finset.card_le_card_of_injOn (fun y i => ⟨(N - 1 - (y i).val) % (δ + 1), Nat.mod_lt _ (by omega)⟩) (fun y _ => Finset.mem_coe.2 (Finset.mem_univ _)) ?_
  intro y hy y' hy' e
  have k := key y (Finset.mem_filter.1 (Finset.mem_coe.1 hy)).2
  have k' := key y' (Finset.mem_filter.1 (Finset.mem_coe.1 hy')).2
  funext i
  have e1 := congrArg (fun f : ι → Fin (δ + 1) => (f i).val) e
  replace e1 : (N - 1 - (y i).val) % (δ + 1) = (N - 1 - (y' i).val) % (δ + 1) := e1
  have := k i
  have := k' i
  rw [Nat.mod_eq_of_lt (by omega), Nat.mod_eq_of_lt (by omega)] at e1
  have := (y i).isLt
  have := (y' i).isLt
  apply Fin.ext
  omega

/-- The sum of `n` words is at most `n` times the greatest word in absolute value. -/
theorem signedSum_le {ι : Type} [Fintype ι] {u : Nat} (hu : 0 < u) (x : ι → Fin (2 ^ u)) : |signedSum u x| ≤ Fintype.card ι * 2 ^ (u - 1) := by
  unfold signedSum
  refine le_trans (Finset.abs_sum_le_sum_abs _ _) ?_
  rw [← nsmul_eq_mul, ← Finset.card_univ, ← Finset.sum_const]
  refine Finset.sum_le_sum fun i _ => ?_
  have h := lift_spec hu (x i)
  have hpu : 2 ^ u = 2 * 2 ^ (u - 1) := by
    obtain ⟨v, rfl⟩ : ∃ v, u = v + 1 := ⟨u - 1, by omega⟩
    rw [Nat.pow_succ, Nat.mul_comm, Nat.add_sub_cancel]
  have e2 : (2 : Int) ^ (u - 1) = ((2 ^ (u - 1) : Nat) : Int) := by rw [Nat.cast_pow]; rfl
  rw [e2] at h ⊢
  rw [abs_le]
  generalize lift u (x i) = a at *
  generalize signedWord u (x i) = b at *
  rw [hpu] at h
  generalize 2 ^ (u - 1) = M at *
  omega

theorem signedWord_range {u : Nat} (hu : 0 < u) (w : Fin (2 ^ u)) : -2 ^ (u - 1) ≤ signedWord u w ∧ signedWord u w ≤ 2 ^ (u - 1) := by
  have h := signedSum_le hu (fun _ : Fin 1 => w)
  unfold signedSum at h
  simp only [Finset.univ_unique, Finset.sum_const, Finset.card_singleton, one_smul, Fintype.card_unique, Nat.cast_one, one_mul] at h
  exact abs_le.1 h

/-- If the sum of `n` words is within δ of the extreme `n·2^(u−1)`, so is every word of its own extreme, on the same side. -/
theorem near_extreme {ι : Type} [Fintype ι] [DecidableEq ι] {u : Nat} (hu : 0 < u) (x : ι → Fin (2 ^ u)) (δ : Int) (h : Fintype.card ι * 2 ^ (u - 1) - δ ≤ |signedSum u x|) :
    (∀ i, 2 ^ (u - 1) - δ ≤ signedWord u (x i)) ∨ ∀ i, signedWord u (x i) ≤ -(2 ^ (u - 1) - δ) := by
  have key : ∀ f : ι → Int, (∀ i, f i ≤ 2 ^ (u - 1)) → Fintype.card ι * 2 ^ (u - 1) - δ ≤ ∑ i, f i → ∀ i, 2 ^ (u - 1) - δ ≤ f i := by
    intro f hf hs i
    have h1 := Finset.single_le_sum (f := fun i => 2 ^ (u - 1) - f i) (fun i _ => sub_nonneg.2 (hf i)) (Finset.mem_univ i)
    rw [Finset.sum_sub_distrib, Finset.sum_const, Finset.card_univ, nsmul_eq_mul] at h1
    linarith
  rcases le_abs.1 h with h | h
  · exact Or.inl (key (fun i => signedWord u (x i)) (fun i => (signedWord_range hu _).2) h)
  · refine Or.inr fun i => ?_
    have := key (fun i => -signedWord u (x i)) (fun i => by have := (signedWord_range hu (x i)).1; linarith) (by rw [Finset.sum_neg_distrib]; exact h) i
    linarith

/-- The exponential bound (Chernoff), in natural numbers. -/
theorem chernoff {ι : Type} [Fintype ι] [DecidableEq ι] (M t a c : Nat) (hac : c ≤ a) (ht : t ≤ Fintype.card ι * M) :
    topCount ι (M + 1) t * (a ^ t * c ^ (Fintype.card ι * M - t)) ≤ (∑ b : Fin (M + 1), a ^ b.val * c ^ (M - b.val)) ^ Fintype.card ι := by
  have e : (∑ b : Fin (M + 1), a ^ b.val * c ^ (M - b.val)) ^ Fintype.card ι = ∑ x : ι → Fin (M + 1), ∏ i, (a ^ (x i).val * c ^ (M - (x i).val)) := by
    rw [← Finset.card_univ, ← Finset.prod_const, Finset.prod_univ_sum, Fintype.piFinset_univ]
  rw [e]
  unfold topCount
  rw [← smul_eq_mul, ← Finset.sum_const]
  refine Nat.le_trans (Finset.sum_le_sum fun x hx => ?_) (Finset.sum_le_sum_of_subset (Finset.subset_univ _))
  have hx' := (Finset.mem_filter.1 hx).2
  rw [Finset.prod_mul_distrib, Finset.prod_pow_eq_pow_sum, Finset.prod_pow_eq_pow_sum]
  have h2 : ∑ i, (M - (x i).val) + ∑ i, (x i).val = Fintype.card ι * M := by
    rw [← Finset.sum_add_distrib, Finset.sum_congr rfl (g := fun _ => M) fun i _ => ?_, Finset.sum_const, Finset.card_univ, smul_eq_mul]
    have := (x i).isLt; omega
  obtain ⟨δ, hδ⟩ : ∃ δ, ∑ i, (x i).val = t + δ := ⟨_, (Nat.add_sub_cancel' hx').symm⟩
  have h3 : Fintype.card ι * M - t = ∑ i, (M - (x i).val) + δ := by omega
  rw [h3, hδ, pow_add, pow_add]
  calc a ^ t * (c ^ (∑ i, (M - (x i).val)) * c ^ δ) = a ^ t * c ^ (∑ i, (M - (x i).val)) * c ^ δ := by ring
    _ ≤ a ^ t * c ^ (∑ i, (M - (x i).val)) * a ^ δ := Nat.mul_le_mul_left _ (Nat.pow_le_pow_left hac _)
    _ = _ := by ring

/-- Only the leading part of each number counts, up to a shift of the threshold. -/
theorem topCount_trunc {ι : Type} [Fintype ι] [DecidableEq ι] (N S T t : Nat) (hS : 0 < S) (ht : S * t + Fintype.card ι * (S - 1) < T + S) :
    topCount ι (N * S) T ≤ S ^ Fintype.card ι * topCount ι N t := by
  unfold topCount
  have h : (univ.filter fun y : ι → Fin (N * S) => T ≤ ∑ i, (y i).val).card ≤
      ((univ : Finset (ι → Fin S)) ×ˢ (univ.filter fun y : ι → Fin N => t ≤ ∑ i, (y i).val)).card := by
    refine Finset.card_le_card_of_injOn (fun y => (fun i => ⟨(y i).val % S, Nat.mod_lt _ hS⟩,
      fun i => ⟨(y i).val / S, Nat.div_lt_of_lt_mul (Nat.lt_of_lt_of_eq (y i).isLt (Nat.mul_comm _ _))⟩)) ?_ ?_
    · intro y hy
      have hy' := (Finset.mem_filter.1 (Finset.mem_coe.1 hy)).2
      refine Finset.mem_coe.2 (Finset.mem_product.2 ⟨Finset.mem_univ _, Finset.mem_filter.2 ⟨Finset.mem_univ _, ?_⟩⟩)
      show t ≤ ∑ i, (y i).val / S
      have h1 : ∑ i, (y i).val ≤ S * ∑ i, (y i).val / S + Fintype.card ι * (S - 1) := by
        rw [Finset.mul_sum, ← smul_eq_mul (Fintype.card ι), ← Finset.card_univ, ← Finset.sum_const, ← Finset.sum_add_distrib]
        refine Finset.sum_le_sum fun i _ => ?_
        have h2 := Nat.div_add_mod (y i).val S
        have h3 := Nat.mod_lt (y i).val hS
        omega
      by_contra hlt
      have h4 : S * (∑ i, (y i).val / S) + S ≤ S * t := by
        rw [← Nat.mul_succ]
        exact Nat.mul_le_mul_left _ (by omega)
      omega
    · intro y _ y' _ e
      funext i
      have e1 := congrArg (fun f : (ι → Fin S) × (ι → Fin N) => (f.1 i).val) e
      have e2 := congrArg (fun f : (ι → Fin S) × (ι → Fin N) => (f.2 i).val) e
      replace e1 : (y i).val % S = (y' i).val % S := e1
      replace e2 : (y i).val / S = (y' i).val / S := e2
      apply Fin.ext
      rw [← Nat.div_add_mod (y i).val S, ← Nat.div_add_mod (y' i).val S, e1, e2]
  refine Nat.le_trans h ?_
  rw [Finset.card_product, Finset.card_univ, Fintype.card_fun, Fintype.card_fin]

/-- All together: words of `m + r` bits, of which the leading `m` are looked at. -/
theorem rare_chernoff {ι : Type} [Fintype ι] [DecidableEq ι] (n m r T e t a c : Nat) (hn : Fintype.card ι = n) (hm : 0 < m) (hac : c ≤ a) (hc : 0 < c)
    (ht : t ≤ n * (2 ^ m - 1)) (hT : 2 ^ r * t + n * (2 ^ r - 1) < T + n * 2 ^ (m + r - 1) - n + 2 ^ r)
    (hnum : 2 ^ (e + 1) * (∑ b : Fin (2 ^ m - 1 + 1), a ^ b.val * c ^ (2 ^ m - 1 - b.val)) ^ n ≤ (2 ^ m) ^ n * (a ^ t * c ^ (n * (2 ^ m - 1) - t))) :
    RareSum ι (m + r) T e := by
  subst hn
  apply rare_of_topCount (by omega)
  have hS : 0 < 2 ^ r := Nat.pow_pos (by omega)
  have hm1 : 2 ^ m - 1 + 1 = 2 ^ m := Nat.sub_add_cancel (Nat.pow_pos (by omega))
  have h1 := chernoff (ι := ι) (2 ^ m - 1) t a c hac ht
  have h2 := topCount_trunc (ι := ι) (2 ^ m) (2 ^ r) (T + Fintype.card ι * 2 ^ (m + r - 1) - Fintype.card ι) t hS hT
  rw [← Nat.pow_add] at h2
  have hpos : 0 < a ^ t * c ^ (Fintype.card ι * (2 ^ m - 1) - t) := Nat.mul_pos (Nat.pow_pos (by omega)) (Nat.pow_pos hc)
  rw [hm1] at h1 hnum
  generalize a ^ t * c ^ (Fintype.card ι * (2 ^ m - 1) - t) = D at *
  generalize (∑ b : Fin (2 ^ m), a ^ b.val * c ^ (2 ^ m - 1 - b.val)) ^ Fintype.card ι = W at *
  refine Nat.le_of_mul_le_mul_right (c := D) ?_ hpos
  calc 2 ^ (e + 1) * topCount ι (2 ^ (m + r)) (T + Fintype.card ι * 2 ^ (m + r - 1) - Fintype.card ι) * D
      ≤ 2 ^ (e + 1) * ((2 ^ r) ^ Fintype.card ι * topCount ι (2 ^ m) t) * D := Nat.mul_le_mul_right _ (Nat.mul_le_mul_left _ h2)
    _ = (2 ^ r) ^ Fintype.card ι * (2 ^ (e + 1) * (topCount ι (2 ^ m) t * D)) := by ring
    _ ≤ (2 ^ r) ^ Fintype.card ι * (2 ^ (e + 1) * W) := Nat.mul_le_mul_left _ (Nat.mul_le_mul_left _ h1)
    _ ≤ (2 ^ r) ^ Fintype.card ι * ((2 ^ m) ^ Fintype.card ι * D) := Nat.mul_le_mul_left _ hnum
    _ = (2 ^ (m + r)) ^ Fintype.card ι * D := by rw [Nat.pow_add, Nat.mul_pow]; ring

end Raccoon
