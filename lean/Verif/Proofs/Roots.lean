import Verif.Proofs.PolyOps
import Mathlib.LinearAlgebra.Lagrange
import Mathlib.Algebra.Field.ZMod
import Mathlib.Tactic.NormNum.Prime
/-!
# Ring elements with many zero slots
-/
namespace Raccoon
attribute [-instance] Monoid.toNPow
open Finset Polynomial

/-- A polynomial with zeros at `Z` and no low coefficients is 0. -/
theorem zeros_low {K : Type} [Field K] (r : Fin 512 → K) (hr : Function.Injective r) (h0 : ∀ i, r i ≠ 0) (f : Fin 512 → K) (Z : Finset (Fin 512))
    (hz : ∀ i ∈ Z, ∑ c, f c * r i ^ c.val = 0) (hc : ∀ c : Fin 512, c.val < 512 - Z.card → f c = 0) : f = 0 := by
  have hZ : Z.card ≤ 512 := by simpa using Finset.card_le_univ Z
  let g : K[X] := ∑ c : Fin 512, if 512 - Z.card ≤ c.val then C (f c) * X ^ (c.val - (512 - Z.card)) else 0
  have hdeg : g.degree < Z.card := by
    refine lt_of_le_of_lt (degree_sum_le _ _) ?_
    rw [Finset.sup_lt_iff (WithBot.bot_lt_coe _)]
    intro c _
    split
    · refine lt_of_le_of_lt (degree_C_mul_X_pow_le _ _) ?_
      have : c.val - (512 - Z.card) < Z.card := by have := c.isLt; omega
      exact_mod_cast this
    · rw [degree_zero]; exact WithBot.bot_lt_coe _
  have hev : ∀ i ∈ Z, g.eval (r i) = 0 := by
    intro i hi
    have e : g.eval (r i) * r i ^ (512 - Z.card) = ∑ c, f c * r i ^ c.val := by
      rw [eval_finsetSum, Finset.sum_mul]
      refine Finset.sum_congr rfl fun c _ => ?_
      split
      · rename_i h
        rw [eval_mul, eval_C, eval_pow, eval_X, mul_assoc, ← pow_add, Nat.sub_add_cancel h]
      · rename_i h
        rw [eval_zero, zero_mul, hc c (by omega), zero_mul]
    rw [hz i hi] at e
    exact (mul_eq_zero.1 e).resolve_right (pow_ne_zero _ (h0 i))
  have hg : g = 0 := eq_zero_of_degree_lt_of_eval_index_eq_zero Z (v := r) (fun i _ j _ h => hr h) hdeg hev
  funext c
  by_cases h : c.val < 512 - Z.card
  · exact hc c h
  · have := congrArg (fun p => p.coeff (c.val - (512 - Z.card))) hg
    dsimp only [g] at this
    rw [finsetSum_coeff, coeff_zero, Finset.sum_eq_single c] at this
    · rw [if_pos (by omega), coeff_C_mul, coeff_X_pow, if_pos rfl, mul_one] at this
      exact this
    · intro b _ hb
      split
      · rw [coeff_C_mul, coeff_X_pow, if_neg, mul_zero]
        intro e
        exact hb (Fin.ext (by omega))
      · exact coeff_zero _
    · intro h; exact absurd (Finset.mem_univ _) h

/-- The two prime factors of q. -/
def prime1 : Nat := 16515073
def prime2 : Nat := 33292289

theorem q_factors : q = prime1 * prime2 := rfl
instance : Fact prime1.Prime := ⟨by unfold prime1; norm_num⟩
instance : Fact prime2.Prime := ⟨by unfold prime2; norm_num⟩

/-- Reduction modulo a divisor of q. -/
def red {p : Nat} (h : p ∣ q) : ZMod q →+* ZMod p := ZMod.castHom h (ZMod p)

theorem prime1_dvd : prime1 ∣ q := ⟨prime2, rfl⟩
theorem prime2_dvd : prime2 ∣ q := ⟨prime1, by rw [q_factors, Nat.mul_comm]⟩

theorem red_both (x : ZMod q) (h1 : red prime1_dvd x = 0) (h2 : red prime2_dvd x = 0) : x = 0 := by
  rw [← ZMod.natCast_zmod_val x] at h1 h2 ⊢
  rw [map_natCast, ZMod.natCast_eq_zero_iff] at h1 h2
  rw [ZMod.natCast_eq_zero_iff]
  show prime1 * prime2 ∣ x.val
  refine Nat.Coprime.mul_dvd_of_dvd_of_dvd ?_ h1 h2
  unfold prime1 prime2; norm_num

theorem red_unit (x : ZMod q) (h1 : red prime1_dvd x ≠ 0) (h2 : red prime2_dvd x ≠ 0) (y : ZMod q) (h : x * y = 0) : y = 0 := by
  refine red_both y ?_ ?_
  · have := congrArg (red prime1_dvd) h
    rw [map_mul, map_zero] at this
    exact (mul_eq_zero.1 this).resolve_left h1
  · have := congrArg (red prime2_dvd) h
    rw [map_mul, map_zero] at this
    exact (mul_eq_zero.1 this).resolve_left h2

/-- The point of slot `i`. -/
def slotPoint (i : Fin 512) : ZMod q := zetaZ ^ (2 * bitrev9 i.val + 1)

theorem slotPoint_512 (i : Fin 512) : slotPoint i ^ 512 = -1 := by
  unfold slotPoint
  rw [bitrev9_eq]
  exact Poly.rho_512

theorem red_nttR {p : Nat} (h : p ∣ q) (f : RPoly) (i : Fin 512) : red h (nttR f i) = ∑ c, red h (f c) * red h (slotPoint i) ^ c.val := by
  unfold nttR evalR
  rw [map_sum]
  refine Finset.sum_congr rfl fun c _ => ?_
  rw [map_mul, map_pow]
  rfl

/-- Reduced modulo a prime factor: many zero slots and no low coefficients. -/
theorem zeros_low_red {p : Nat} [Fact p.Prime] (h : p ∣ q) (f : RPoly) (Z : Finset (Fin 512)) (hz : ∀ i ∈ Z, red h (nttR f i) = 0)
    (hc : ∀ c : Fin 512, c.val < 512 - Z.card → red h (f c) = 0) (c : Fin 512) : red h (f c) = 0 := by
  have := zeros_low (fun i => red h (slotPoint i)) (fun i j hij => ?_) (fun i e => ?_) (fun c => red h (f c)) Z (fun i hi => (red_nttR h f i).symm.trans (hz i hi)) hc
  · exact congrFun this c
  · by_contra hne
    dsimp only at hij
    have h1 := red_nttR h (inttR (Pi.single i 1)) i
    have h2 := red_nttR h (inttR (Pi.single i 1)) j
    rw [hij, ← h2, nttR_inttR, Pi.single_eq_same, Pi.single_eq_of_ne (Ne.symm hne), map_one, map_zero] at h1
    exact one_ne_zero h1
  · have h1 := congrArg (red h) (slotPoint_512 i)
    rw [map_pow, e, map_neg, map_one, zero_pow (by norm_num)] at h1
    exact one_ne_zero (neg_eq_zero.1 h1.symm)

theorem zeros_low_q (f : RPoly) (Z : Finset (Fin 512)) (hz : ∀ i ∈ Z, nttR f i = 0) (hc : ∀ c : Fin 512, c.val < 512 - Z.card → f c = 0) : f = 0 := by
  funext c
  exact red_both _ (zeros_low_red prime1_dvd f Z (fun i hi => by rw [hz i hi, map_zero]) (fun c h => by rw [hc c h, map_zero]) c)
    (zeros_low_red prime2_dvd f Z (fun i hi => by rw [hz i hi, map_zero]) (fun c h => by rw [hc c h, map_zero]) c)

end Raccoon
