import Verif.Spec.Simulate
import Verif.Proofs.Flood
import Verif.Proofs.IntResp
import Verif.Proofs.ProbingLife
/-!
# Simulating signing attempts
-/
namespace Raccoon
attribute [-instance] Monoid.toNPow
open Finset

/-- The signer's commitment, computed from the response. -/
theorem signerW_eq {k l ν : Nat} (hν : 0 < q / 2 ^ ν) (a : Fin k → Fin l → RPoly) (s : Fin l → Fin 512 → Int) (e₀ : Fin k → Fin 512 → Int) (c : Fin 512 → Int)
    (r : Fin l → Fin 512 → Int) (e : Fin k → Fin 512 → Int) :
    signerW ν hν a r e = simulatorW ν hν a (publicB a s e₀) c (fun j x => negacyclicZ (s j) c x + r j x) (fun i x => negacyclicZ (e₀ i) c x + e i x) := by
  funext i x
  refine Fin.ext ?_
  show roundZ ν ((ringMatVec a (vecR r) i + vecR e i) x) = roundZ ν _
  refine congrArg (fun f : RPoly => roundZ ν (f x)) ?_
  have hz : vecR (fun j x => negacyclicZ (s j) c x + r j x) = fun j => negacyclic (toR (s j)) (toR c) + toR (r j) := by
    funext j
    rw [← toR_negacyclicZ, ← toR_add]; rfl
  have he : vecR (fun i x => negacyclicZ (e₀ i) c x + e i x) i = negacyclic (toR (e₀ i)) (toR c) + toR (e i) := by
    rw [← toR_negacyclicZ, ← toR_add]; rfl
  rw [hz, he]
  refine nttR_inj ?_
  unfold publicB ringMatVec
  simp only [nttR_add, nttR_sub, nttR_sum, nttR_negacyclic, mul_add, Finset.sum_add_distrib, add_mul, Finset.sum_mul, mul_assoc, vecR]
  ring

section
variable {N k l u ν : Nat} {κ C : Type} [Fintype κ] [DecidableEq κ]

/-- The transcript as a function of responses and errors. -/
def runOf (hν : 0 < q / 2 ^ ν) (a : Fin k → Fin l → RPoly) (b : Fin k → RPoly) (ch : C → Fin 512 → Int) (c : Fin N → C) (y : Fin N × (Fin l ⊕ Fin k) × Fin 512 → Int) :
    Fin N → Commitment k ν × C × (Fin l → Fin 512 → Int) :=
  fun n => (simulatorW ν hν a b (ch (c n)) (fun j x => y (n, Sum.inl j, x)) (fun i x => y (n, Sum.inr i, x)), c n, fun j x => y (n, Sum.inl j, x))

/-- What secret and error contribute. -/
def shiftOf (s : Fin l → Fin 512 → Int) (e₀ : Fin k → Fin 512 → Int) (ch : C → Fin 512 → Int) (c : Fin N → C) : Fin N × (Fin l ⊕ Fin k) × Fin 512 → Int :=
  fun i => match i.2.1 with
    | Sum.inl j => negacyclicZ (s j) (ch (c i.1)) i.2.2
    | Sum.inr j => negacyclicZ (e₀ j) (ch (c i.1)) i.2.2

theorem simulatorRun_eq (hν : 0 < q / 2 ^ ν) (a : Fin k → Fin l → RPoly) (b : Fin k → RPoly) (ch : C → Fin 512 → Int) (c : Fin N → C) (W : NoiseTable N l k u κ) :
    simulatorRun hν a b ch c W = runOf hν a b ch c (0 + tableSum u W) := by
  rw [zero_add]; rfl

theorem signerRun_eq (hν : 0 < q / 2 ^ ν) (a : Fin k → Fin l → RPoly) (s : Fin l → Fin 512 → Int) (e₀ : Fin k → Fin 512 → Int) (ch : C → Fin 512 → Int) (c : Fin N → C)
    (W : NoiseTable N l k u κ) : signerRun hν a s ch c W = runOf hν a (publicB a s e₀) ch c (shiftOf s e₀ ch c + tableSum u W) := by
  funext n
  show (signerW ν hν a (maskOf W n) (errorOf W n), _, _) = _
  rw [signerW_eq hν a s e₀ (ch (c n))]
  rfl

/-- The distance for given challenges. -/
theorem run_close (hu : 0 < u) (k0 : κ) (hν : 0 < q / 2 ^ ν) (a : Fin k → Fin l → RPoly) (s : Fin l → Fin 512 → Int) (e₀ : Fin k → Fin 512 → Int) (ω B : Nat)
    (ch : C → Fin 512 → Int) (hch : ∀ c, ∑ i, |ch c i| = ω) (hs : ∀ j x, |s j x| ≤ B) (he : ∀ j x, |e₀ j x| ≤ B) (c : Fin N → C)
    (T : Set (Fin N → Commitment k ν × C × (Fin l → Fin 512 → Int))) :
    |((Nat.card {W : NoiseTable N l k u κ // signerRun hν a s ch c W ∈ T} : Nat) : Int) - (Nat.card {W : NoiseTable N l k u κ // simulatorRun hν a (publicB a s e₀) ch c W ∈ T} : Nat)| * 2 ^ u ≤
      (N * ((l + k) * 512) * (ω * B) : Nat) * (Fintype.card (NoiseTable N l k u κ) : Nat) := by
  have h1 : Nat.card {W : NoiseTable N l k u κ // signerRun hν a s ch c W ∈ T} = respCount (κ := κ) u (shiftOf s e₀ ch c) (runOf hν a (publicB a s e₀) ch c ⁻¹' T) := by
    unfold respCount
    simp only [signerRun_eq hν a s e₀ ch c, Set.mem_preimage]
  have h2 : Nat.card {W : NoiseTable N l k u κ // simulatorRun hν a (publicB a s e₀) ch c W ∈ T} = respCount (κ := κ) u 0 (runOf hν a (publicB a s e₀) ch c ⁻¹' T) := by
    unfold respCount
    simp only [simulatorRun_eq hν a (publicB a s e₀) ch c, Set.mem_preimage]
  rw [h1, h2]
  refine le_trans (respCount_close hu k0 _ _ _) (mul_le_mul_of_nonneg_right ?_ (Int.natCast_nonneg _))
  have key : ∀ i, |shiftOf s e₀ ch c i - (0 : Fin N × (Fin l ⊕ Fin k) × Fin 512 → Int) i| ≤ ((ω * B : Nat) : Int) := by
    rintro ⟨n, j | j, x⟩
    · have h := negacyclicZ_bound (g := ch (c n)) (hs j) x
      rw [hch] at h
      rw [Pi.zero_apply, sub_zero]
      push_cast
      rw [mul_comm]; exact h
    · have h := negacyclicZ_bound (g := ch (c n)) (he j) x
      rw [hch] at h
      rw [Pi.zero_apply, sub_zero]
      push_cast
      rw [mul_comm]; exact h
  refine le_trans (Finset.sum_le_sum fun i _ => key i) ?_
  rw [Finset.sum_const, Finset.card_univ, Fintype.card_prod, Fintype.card_prod, Fintype.card_sum, Fintype.card_fin, Fintype.card_fin, Fintype.card_fin, Fintype.card_fin, nsmul_eq_mul]
  push_cast
  exact le_refl _

end

/-- Functions with given values at `N` different points. -/
theorem card_points {A C : Type} [Fintype A] [DecidableEq A] [Fintype C] [DecidableEq C] {N : Nat} (p : Fin N → A) (hp : Function.Injective p) (c : Fin N → C) :
    (univ.filter fun H : A → C => ∀ n, H (p n) = c n).card * Fintype.card C ^ N = Fintype.card (A → C) := by
  have e : (univ.filter fun H : A → C => ∀ n, H (p n) = c n) = Fintype.piFinset fun x => univ.filter fun y => ∀ n, p n = x → y = c n := by
    ext H
    rw [Finset.mem_filter, Fintype.mem_piFinset]
    constructor
    · rintro ⟨-, h⟩ x
      exact Finset.mem_filter.2 ⟨Finset.mem_univ _, fun n hn => by rw [← hn]; exact h n⟩
    · intro h
      exact ⟨Finset.mem_univ _, fun n => (Finset.mem_filter.1 (h (p n))).2 n rfl⟩
  have e2 : ∀ x, (univ.filter fun y : C => ∀ n, p n = x → y = c n).card * (if x ∈ univ.image p then Fintype.card C else 1) = Fintype.card C := by
    intro x
    by_cases hx : x ∈ univ.image p
    · rw [if_pos hx]
      obtain ⟨n, -, rfl⟩ := Finset.mem_image.1 hx
      have : (univ.filter fun y : C => ∀ m, p m = p n → y = c m) = {c n} := by
        ext y
        rw [Finset.mem_filter, Finset.mem_singleton]
        constructor
        · rintro ⟨-, h⟩; exact h n rfl
        · rintro rfl
          exact ⟨Finset.mem_univ _, fun m hm => by rw [hp hm]⟩
      rw [this, Finset.card_singleton, one_mul]
    · rw [if_neg hx, mul_one]
      rw [Finset.filter_true_of_mem fun y _ n hn => absurd (Finset.mem_image.2 ⟨n, Finset.mem_univ _, hn⟩) hx]
      rfl
  have e3 : Fintype.card C ^ N = ∏ x : A, if x ∈ univ.image p then Fintype.card C else 1 := by
    rw [Finset.prod_ite, Finset.prod_const_one, mul_one, Finset.prod_const]
    congr 1
    rw [Finset.filter_mem_eq_inter, Finset.univ_inter, Finset.card_image_of_injective _ hp, Finset.card_univ, Fintype.card_fin]
  rw [e, Fintype.card_piFinset, e3, ← Finset.prod_mul_distrib, Finset.prod_congr rfl fun x _ => e2 x, Finset.prod_const, Finset.card_univ, Fintype.card_fun]

/-- Oracle answers at different points are independent uniform values. -/
theorem oracle_count {Ω A C : Type} [Fintype Ω] [Fintype A] [DecidableEq A] [Fintype C] [DecidableEq C] {N : Nat} (p : Ω → Fin N → A) (hp : ∀ w, Function.Injective (p w))
    (Q : Ω → (Fin N → C) → Prop) :
    Nat.card {x : Ω × (A → C) // Q x.1 (fun n => x.2 (p x.1 n))} * Fintype.card C ^ N = Nat.card {x : Ω × (Fin N → C) // Q x.1 x.2} * Fintype.card (A → C) := by
  classical
  have h1 : Nat.card {x : Ω × (A → C) // Q x.1 (fun n => x.2 (p x.1 n))} = ∑ x : Ω × (Fin N → C), if Q x.1 x.2 then (univ.filter fun H : A → C => ∀ n, H (p x.1 n) = x.2 n).card else 0 := by
    rw [Nat.card_eq_fintype_card, Fintype.card_subtype, ← Finset.sum_filter]
    rw [Finset.card_eq_sum_card_fiberwise (f := fun x : Ω × (A → C) => (x.1, fun n => x.2 (p x.1 n))) (t := univ.filter fun x : Ω × (Fin N → C) => Q x.1 x.2)]
    · refine Finset.sum_congr rfl fun y hy => ?_
      obtain ⟨w, c⟩ := y
      refine Finset.card_bij' (fun x _ => x.2) (fun H _ => (w, H)) ?_ ?_ ?_ ?_
      · rintro ⟨w', H⟩ hx
        obtain ⟨-, hx⟩ := Finset.mem_filter.1 hx
        obtain ⟨rfl, h2⟩ := Prod.mk.inj hx
        exact Finset.mem_filter.2 ⟨Finset.mem_univ _, fun n => by have := congrFun h2 n; exact this⟩
      · intro H hH
        obtain ⟨-, hH⟩ := Finset.mem_filter.1 hH
        have e : (fun n => H (p w n)) = c := funext hH
        refine Finset.mem_filter.2 ⟨Finset.mem_filter.2 ⟨Finset.mem_univ _, ?_⟩, ?_⟩
        · show Q w (fun n => H (p w n))
          rw [e]; exact (Finset.mem_filter.1 hy).2
        · show (w, fun n => H (p w n)) = (w, c)
          rw [e]
      · rintro ⟨w', H⟩ hx
        obtain ⟨-, hx⟩ := Finset.mem_filter.1 hx
        obtain ⟨rfl, hx⟩ := Prod.mk.inj hx
        rfl
      · intro H _; rfl
    · intro x hx
      exact Finset.mem_coe.2 (Finset.mem_filter.2 ⟨Finset.mem_univ _, (Finset.mem_filter.1 (Finset.mem_coe.1 hx)).2⟩)
  rw [h1, Finset.sum_mul, Nat.card_eq_fintype_card, Fintype.card_subtype, Finset.card_filter, Finset.sum_mul]
  refine Finset.sum_congr rfl fun x _ => ?_
  split
  · rw [card_points (p x.1) (hp x.1), one_mul]
  · rw [zero_mul, zero_mul]

/-- Counting pairs by their second component. -/
theorem card_pairs {Ω C : Type} [Fintype Ω] [Fintype C] (Q : Ω → C → Prop) : (Nat.card {x : Ω × C // Q x.1 x.2} : Int) = ∑ c, (Nat.card {w // Q w c} : Int) := by
  classical
  rw [← Nat.cast_sum]
  refine congrArg _ ?_
  rw [Nat.card_eq_fintype_card, Fintype.card_subtype, Finset.card_eq_sum_card_fiberwise (f := fun x : Ω × C => x.2) (t := univ) fun x _ => Finset.mem_coe.2 (Finset.mem_univ _)]
  refine Finset.sum_congr rfl fun c _ => ?_
  rw [Nat.card_eq_fintype_card, Fintype.card_subtype]
  refine Finset.card_bij' (fun x _ => x.1) (fun w _ => (w, c)) ?_ ?_ ?_ ?_
  · rintro ⟨w, c'⟩ hx
    obtain ⟨h1, h2⟩ := Finset.mem_filter.1 hx
    cases h2
    exact Finset.mem_filter.2 ⟨Finset.mem_univ _, (Finset.mem_filter.1 h1).2⟩
  · intro w hw
    exact Finset.mem_filter.2 ⟨Finset.mem_filter.2 ⟨Finset.mem_univ _, (Finset.mem_filter.1 hw).2⟩, rfl⟩
  · rintro ⟨w, c'⟩ hx
    obtain ⟨h1, h2⟩ := Finset.mem_filter.1 hx
    cases h2; rfl
  · intro w _; rfl

end Raccoon
