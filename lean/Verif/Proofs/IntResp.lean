import Verif.Proofs.SignExact
import Verif.Proofs.KeyGen
import Verif.Props.Sampling
import Verif.Props.Masked
/-!
# Responses over the integers
-/
namespace Raccoon
attribute [-instance] Monoid.toNPow
open Finset

theorem toR_negacyclicZ (f g : Fin 512 → Int) : toR (negacyclicZ f g) = negacyclic (toR f) (toR g) := by
  funext k
  unfold toR negacyclicZ negacyclic
  rw [Int.cast_sum]
  refine Finset.sum_congr rfl fun i _ => ?_
  rw [Int.cast_sum]
  refine Finset.sum_congr rfl fun j _ => ?_
  split
  · rw [Int.cast_mul]
  · split
    · rw [Int.cast_neg, Int.cast_mul]
    · rw [Int.cast_zero]

theorem negacyclicZ_bound {f g : Fin 512 → Int} {B : Int} (hf : ∀ i, |f i| ≤ B) (k : Fin 512) : |negacyclicZ f g k| ≤ B * ∑ j, |g j| := by
  have hB : 0 ≤ B := le_trans (abs_nonneg _) (hf 0)
  unfold negacyclicZ
  rw [Finset.sum_comm, Finset.mul_sum]
  refine le_trans (Finset.abs_sum_le_sum_abs _ _) (Finset.sum_le_sum fun j _ => ?_)
  refine le_trans (Finset.abs_sum_le_sum_abs _ _) ?_
  have hk := k.isLt
  have hj := j.isLt
  have h0 : (k.val + 512 - j.val) % 512 < 512 := Nat.mod_lt _ (by omega)
  refine le_trans (Finset.sum_le_sum (g := fun i : Fin 512 => if i = ⟨(k.val + 512 - j.val) % 512, h0⟩ then B * |g j| else 0) fun i _ => ?_) ?_
  · have hi := i.isLt
    have hfg : |f i * g j| ≤ B * |g j| := by rw [abs_mul]; exact mul_le_mul_of_nonneg_right (hf i) (abs_nonneg _)
    by_cases h1 : i.val + j.val = k.val
    · rw [if_pos h1, if_pos (Fin.ext (by show i.val = (k.val + 512 - j.val) % 512; omega))]; exact hfg
    · rw [if_neg h1]
      by_cases h2 : i.val + j.val = k.val + 512
      · rw [if_pos h2, if_pos (Fin.ext (by show i.val = (k.val + 512 - j.val) % 512; omega)), abs_neg]; exact hfg
      · rw [if_neg h2, abs_zero]
        split
        · exact mul_nonneg hB (abs_nonneg _)
        · exact le_refl _
  · rw [Finset.sum_ite_eq' Finset.univ, if_pos (Finset.mem_univ _)]

theorem centered_toR (p : Poly) : toR (Poly.centered p) = Poly.toZ p := by
  funext i
  unfold toR Poly.centered Poly.toZ Zq.toZ
  have h := (ZMod.intCast_eq_intCast_iff (((p[i.val]).raw.toNat : Int).bmod q) ((p[i.val]).raw.toNat : Int) q).2 Int.bmod_emod
  rw [h, Int.cast_natCast]

/-- The challenge has weight ω over the integers. -/
theorem chal_weight {E : Ext} {fuel ω : Nat} {cHash : List U8} {c : Poly} (h : Poly.chalPoly E fuel ω cHash = .ok c) : ∑ i, |Poly.centered c i| = ω := by
  obtain ⟨h1, h2⟩ := C18_weight E fuel ω cHash c h
  rw [← h1, Finset.card_filter, Nat.cast_sum]
  refine Finset.sum_congr rfl fun i _ => ?_
  unfold Poly.centered
  rcases h2 i.val i.isLt with e | e | e <;> rw [e]
  · rfl
  · rfl
  · rfl

theorem totalNoise_bound (E : Ext) (u κ d rep n : Nat) (hu : 0 < u) (stream : Nat → U8) (pos : Nat) (i : Fin n) (c : Fin 512) :
    |noiseVec E u κ d rep n stream pos i c| ≤ rep * d * 2 ^ (u - 1) :=
  (C22_noise_bound E u rep κ d i.val hu stream _ c).2

theorem mem_unflatten {n : Nat} {x : List Int} (r : Fin n) (i : Fin 512) (hx : x.length = n * 512) : unflatten n x r i ∈ x := by
  have hr : r.val * 512 + i.val < x.length := by have := r.isLt; have := i.isLt; omega
  unfold unflatten
  rw [List.getD_eq_getElem?_getD, List.getElem?_eq_getElem hr]
  exact List.getElem_mem hr

theorem int_eq_of_emod {x y : Int} {m : Nat} (hx : 2 * x.natAbs < m) (hy : 2 * y.natAbs < m) (h : (x - y) % (m : Int) = 0) : x = y := by
  have h1 : (m : Int) ∣ x - y := Int.dvd_of_emod_eq_zero h
  have h2 : |x - y| < m := by rw [abs_lt]; omega
  have := Int.eq_zero_of_abs_lt_dvd h1 h2
  omega

theorem int_eq_of_cast {x y : Int} (hx : 2 * x.natAbs < q) (hy : 2 * y.natAbs < q) (h : (x : ZMod q) = y) : x = y := by
  refine int_eq_of_emod hx hy ?_
  have h2 := (ZMod.intCast_eq_intCast_iff_dvd_sub _ _ _).1 h
  rw [← dvd_neg, neg_sub] at h2
  exact Int.emod_eq_zero_of_dvd h2

/-- With a short secret and short noise the response equation holds over the integers. -/
theorem IsSigOf.integer {E : Ext} {κ νw νt : Nat} {a : Fin k → Fin l → RPoly} {t : Fin k → RPoly} {f g : Fin l → Fin 512 → Int} {c : Poly} {μ : List U8}
    {e : Fin k → RPoly} {cHash : List U8} {h z : List Int} (i : IsSigOf E κ νw νt a t (vecR f) c.toZ μ (vecR g) e cHash h z)
    {B G : Int} {ω : Nat} (hf : ∀ j x, |f j x| ≤ B) (hg : ∀ j x, |g j x| ≤ G) (hc : ∑ x, |Poly.centered c x| = ω) (hq : 2 * (B * ω + G) < q) :
    unflatten l z = fun j x => negacyclicZ (f j) (Poly.centered c) x + g j x := by
  funext j x
  have hb : |negacyclicZ (f j) (Poly.centered c) x + g j x| ≤ B * ω + G := by
    refine le_trans (abs_add_le _ _) (add_le_add ?_ (hg j x))
    rw [← hc]
    exact negacyclicZ_bound (hf j) x
  refine int_eq_of_cast (i.zcent _ (mem_unflatten j x i.zlen)) (by rw [abs_le] at hb; omega) ?_
  have := congrFun (congrFun i.resp j) x
  unfold vecR at this
  rw [← centered_toR, ← toR_negacyclicZ] at this
  rw [Int.cast_add]
  exact this

end Raccoon
