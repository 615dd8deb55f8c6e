import Verif.Spec.Scheme
import Mathlib.RingTheory.Polynomial.Cyclotomic.Roots
import Mathlib.RingTheory.Polynomial.UniqueFactorization
import Mathlib.Tactic.Ring
/-!
# Integer polynomials modulo x^512 + 1 have no zero divisors
-/
namespace Raccoon
attribute [-instance] Monoid.toNPow
open Polynomial Finset

/-- Evaluating the negacyclic product at a point with x^512 = −1. -/
theorem negacyclicZ_eval {S : Type} [CommRing S] (x : S) (hx : x ^ 512 = -1) (f g : Fin 512 → Int) :
    ∑ k : Fin 512, ((negacyclicZ f g k : Int) : S) * x ^ k.val = (∑ i : Fin 512, (f i : S) * x ^ i.val) * ∑ j : Fin 512, (g j : S) * x ^ j.val := by
  have h1 : ∀ k : Fin 512, ((negacyclicZ f g k : Int) : S) * x ^ k.val = ∑ i : Fin 512, ∑ j : Fin 512,
      (if i.val + j.val = k.val then (f i : S) * g j else if i.val + j.val = k.val + 512 then -((f i : S) * g j) else 0) * x ^ k.val := by
    intro k
    unfold negacyclicZ
    rw [Int.cast_sum, Finset.sum_mul]
    refine Finset.sum_congr rfl fun i _ => ?_
    rw [Int.cast_sum, Finset.sum_mul]
    refine Finset.sum_congr rfl fun j _ => ?_
    congr 1
    split
    · rw [Int.cast_mul]
    · split
      · rw [Int.cast_neg, Int.cast_mul]
      · rw [Int.cast_zero]
  rw [Finset.sum_congr rfl fun k _ => h1 k, Finset.sum_comm, Finset.sum_mul]
  refine Finset.sum_congr rfl fun i _ => ?_
  rw [Finset.sum_comm, Finset.mul_sum]
  refine Finset.sum_congr rfl fun j _ => ?_
  by_cases hij : i.val + j.val < 512
  · rw [Finset.sum_eq_single (⟨i.val + j.val, hij⟩ : Fin 512)]
    · rw [if_pos rfl, pow_add]; ring
    · intro b _ hb
      rw [if_neg (fun h => hb (Fin.ext h.symm)), if_neg (by omega), zero_mul]
    · intro h; exact absurd (Finset.mem_univ _) h
  · have hlt : i.val + j.val - 512 < 512 := by omega
    rw [Finset.sum_eq_single (⟨i.val + j.val - 512, hlt⟩ : Fin 512)]
    · rw [if_neg (by show ¬ (i.val + j.val = i.val + j.val - 512); omega), if_pos (by show i.val + j.val = i.val + j.val - 512 + 512; omega)]
      have : x ^ i.val * x ^ j.val = - x ^ (i.val + j.val - 512) := by
        rw [← pow_add]
        conv_lhs => rw [show i.val + j.val = (i.val + j.val - 512) + 512 by omega, pow_add, hx]
        ring
      show -((f i : S) * (g j : S)) * x ^ (i.val + j.val - 512) = _
      linear_combination (-((f i : S) * g j)) * this
    · intro b _ hb
      rw [if_neg (by omega), if_neg (fun h => hb (Fin.ext (by show b.val = i.val + j.val - 512; omega))), zero_mul]
    · intro h; exact absurd (Finset.mem_univ _) h

/-- The integer polynomial with the given coefficients. -/
noncomputable def intPoly (f : Fin 512 → Int) : ℤ[X] := ∑ i : Fin 512, C (f i) * X ^ i.val

theorem intPoly_coeff (f : Fin 512 → Int) (i : Fin 512) : (intPoly f).coeff i.val = f i := by
  unfold intPoly
  rw [finset_sum_coeff, Finset.sum_eq_single i]
  · rw [coeff_C_mul, coeff_X_pow, if_pos rfl, mul_one]
  · intro b _ hb
    rw [coeff_C_mul, coeff_X_pow, if_neg (fun h => hb (Fin.ext h.symm)), mul_zero]
  · intro h; exact absurd (Finset.mem_univ _) h

theorem intPoly_degree (f : Fin 512 → Int) : (intPoly f).degree < 512 := by
  unfold intPoly
  refine lt_of_le_of_lt (degree_sum_le _ _) ((Finset.sup_lt_iff (by decide)).2 fun i _ => ?_)
  refine lt_of_le_of_lt (degree_C_mul_X_pow_le _ _) ?_
  exact_mod_cast i.isLt

theorem cyclo1024 : cyclotomic 1024 ℤ = X ^ 512 + 1 := by
  have h := cyclotomic_prime_pow_eq_geom_sum (R := ℤ) (p := 2) (n := 9) Nat.prime_two
  rw [show 2 ^ (9 + 1) = 1024 by norm_num] at h
  rw [h, Finset.sum_range_succ, Finset.sum_range_one, pow_zero, pow_one, show 2 ^ 9 = 512 by norm_num, add_comm]

/-- The modulus x^512 + 1. -/
noncomputable def Φ : ℤ[X] := cyclotomic 1024 ℤ

theorem cyclo_prime : Prime Φ := by
  exact (cyclotomic.irreducible (by norm_num)).prime

/-- A product of integer polynomials modulo x^512 + 1 is zero only if a factor is zero. -/
theorem negacyclicZ_eq_zero {f g : Fin 512 → Int} (h : ∀ k, negacyclicZ f g k = 0) : (∀ k, f k = 0) ∨ ∀ k, g k = 0 := by
  have key : Φ ∣ intPoly f * intPoly g := by
    rw [← Ideal.mem_span_singleton, ← Ideal.Quotient.eq_zero_iff_mem]
    have hx : (Ideal.Quotient.mk (Ideal.span {Φ}) X) ^ 512 = -1 := by
      have e : (X ^ 512 : ℤ[X]) + 1 = Φ := by unfold Φ; rw [cyclo1024]
      rw [← map_pow, eq_neg_iff_add_eq_zero, ← map_one (Ideal.Quotient.mk (Ideal.span {Φ})), ← map_add, Ideal.Quotient.eq_zero_iff_mem, e]
      exact Ideal.mem_span_singleton_self _
    have he := negacyclicZ_eval _ hx f g
    rw [Finset.sum_eq_zero (fun k _ => by rw [h k, Int.cast_zero, zero_mul])] at he
    rw [map_mul]
    unfold intPoly
    rw [map_sum, map_sum]
    simp only [map_mul, map_pow]
    have hC : ∀ a : Int, (Ideal.Quotient.mk (Ideal.span {Φ})) (C a) = (a : ℤ[X] ⧸ Ideal.span {Φ}) := by
      intro a
      rw [show (C a : ℤ[X]) = (a : ℤ[X]) from eq_intCast C a, map_intCast]
    simp only [hC]
    exact he.symm
  have zero : ∀ f : Fin 512 → Int, Φ ∣ intPoly f → ∀ k, f k = 0 := by
    intro f hd k
    have hz : intPoly f = 0 := by
      refine Polynomial.eq_zero_of_dvd_of_degree_lt hd ?_
      have hd : Φ.degree = 512 := by
        unfold Φ
        rw [degree_cyclotomic]
        rw [show Nat.totient 1024 = 512 by decide +kernel]
        rfl
      rw [hd]
      exact intPoly_degree f
    rw [← intPoly_coeff f k, hz, coeff_zero]
  rcases cyclo_prime.dvd_or_dvd key with h1 | h1
  · exact Or.inl (zero f h1)
  · exact Or.inr (zero g h1)

/-- Multiplication by a non-zero integer polynomial is injective. -/
theorem negacyclicZ_cancel {f f' g : Fin 512 → Int} (hg : ∃ i, g i ≠ 0) (h : ∀ k, negacyclicZ f g k = negacyclicZ f' g k) : f = f' := by
  have h2 : ∀ k, negacyclicZ (fun i => f i - f' i) g k = 0 := by
    intro k
    have : negacyclicZ (fun i => f i - f' i) g k = negacyclicZ f g k - negacyclicZ f' g k := by
      unfold negacyclicZ
      rw [← Finset.sum_sub_distrib]
      refine Finset.sum_congr rfl fun i _ => ?_
      rw [← Finset.sum_sub_distrib]
      refine Finset.sum_congr rfl fun j _ => ?_
      split
      · ring
      · split <;> ring
    rw [this, h k, sub_self]
  rcases negacyclicZ_eq_zero h2 with h3 | h3
  · funext i; exact sub_eq_zero.1 (h3 i)
  · obtain ⟨i, hi⟩ := hg; exact absurd (h3 i) hi

end Raccoon
