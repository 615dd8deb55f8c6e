import Verif.Proofs.Ntt
/-!
# Polynomial operations on residues; the transform as an injective ring map
-/
namespace Raccoon
attribute [-instance] Monoid.toNPow
open Finset

/-- The canonical representative of a class. -/
def Zq.ofZ (c : ZMod q) : Zq := ⟨BitVec.ofNat 64 c.val⟩

theorem Zq.ofZ_raw (c : ZMod q) : (Zq.ofZ c).raw.toNat = c.val := by
  have hlt : c.val < q := ZMod.val_lt c
  have hq : q < 2 ^ 64 := by decide
  show (BitVec.ofNat 64 c.val).toNat = _
  rw [BitVec.toNat_ofNat, Nat.mod_eq_of_lt (by omega)]
theorem Zq.ofZ_can (c : ZMod q) : (Zq.ofZ c).Can := by unfold Zq.Can; rw [Zq.ofZ_raw]; exact ZMod.val_lt c
@[simp] theorem Zq.ofZ_toZ (c : ZMod q) : (Zq.ofZ c).toZ = c := by
  unfold Zq.toZ; rw [Zq.ofZ_raw, ZMod.natCast_val, ZMod.cast_id]
theorem Zq.toZ_ofZ {a : Zq} (h : a.Can) : Zq.ofZ a.toZ = a :=
  (Zq.toZ_inj (Zq.ofZ_can _) h).1 (by rw [Zq.ofZ_toZ])

namespace Poly

/-- The canonical polynomial with given residues. -/
def ofZ (f : RPoly) : Poly := Vector.ofFn fun i => Zq.ofZ (f i)

theorem ofZ_can (f : RPoly) : (ofZ f).Can := by
  intro i hi; unfold ofZ; rw [Vector.getElem_ofFn]; exact Zq.ofZ_can _
@[simp] theorem ofZ_toZ (f : RPoly) : (ofZ f).toZ = f := by
  funext i; unfold toZ ofZ; rw [Vector.getElem_ofFn, Zq.ofZ_toZ]

theorem toZ_inj {a b : Poly} (ha : a.Can) (hb : b.Can) : a.toZ = b.toZ ↔ a = b := by
  constructor
  · intro h
    apply Vector.ext
    intro i hi
    exact (Zq.toZ_inj (ha i hi) (hb i hi)).1 (congrFun h ⟨i, hi⟩)
  · rintro rfl; rfl

theorem toZ_ofZ {a : Poly} (h : a.Can) : ofZ a.toZ = a := (toZ_inj (ofZ_can _) h).1 (ofZ_toZ _)

theorem zero_can : zero.Can := by intro i hi; unfold zero; rw [Vector.getElem_replicate]; exact Zq.zero_can
@[simp] theorem zero_toZ : zero.toZ = 0 := by
  funext i; unfold toZ zero; rw [Vector.getElem_replicate]; exact Zq.zero_toZ

theorem add_can {a b : Poly} (ha : a.Can) (hb : b.Can) : (add a b).Can := by
  intro i hi; unfold add; rw [Vector.getElem_zipWith]; exact Zq.add_can (ha i hi) (hb i hi)
theorem sub_can {a b : Poly} (ha : a.Can) (hb : b.Can) : (sub a b).Can := by
  intro i hi; unfold sub; rw [Vector.getElem_zipWith]; exact Zq.sub_can (ha i hi) (hb i hi)
theorem mul_can {a b : Poly} (ha : a.Can) (hb : b.Can) : (mul a b).Can := by
  intro i hi; unfold mul; rw [Vector.getElem_zipWith]; exact Zq.mul_can (ha i hi) (hb i hi)
theorem add_toZ {a b : Poly} (ha : a.Can) (hb : b.Can) : (add a b).toZ = a.toZ + b.toZ := by
  funext i; unfold toZ add; rw [Vector.getElem_zipWith]; exact Zq.add_toZ (ha i i.isLt) (hb i i.isLt)
theorem sub_toZ {a b : Poly} (ha : a.Can) (hb : b.Can) : (sub a b).toZ = a.toZ - b.toZ := by
  funext i; unfold toZ sub; rw [Vector.getElem_zipWith]; exact Zq.sub_toZ (ha i i.isLt) (hb i i.isLt)
/-- Pointwise product. -/
theorem mul_toZ {a b : Poly} (ha : a.Can) (hb : b.Can) : (mul a b).toZ = a.toZ * b.toZ := by
  funext i; unfold toZ mul; rw [Vector.getElem_zipWith]; exact Zq.mul_toZ (ha i i.isLt) (hb i i.isLt)

end Poly


theorem ntt_toZ {f r : Poly} (hf : f.Can) (h : Poly.ntt f = .ok r) : r.toZ = nttR f.toZ := by
  funext i
  have h1 := Poly.ntt_eval hf h i.isLt
  unfold nttR evalR
  unfold Poly.cz at h1
  rw [Poly.at0_lt i.isLt] at h1
  show (r[i.val]).toZ = _
  rw [h1, Finset.sum_range]
  apply Finset.sum_congr rfl
  intro j _
  rw [Poly.at0_lt j.isLt, bitrev9_eq]
  rfl

theorem ntt_spec {f : Poly} (hf : f.Can) : (Poly.ntt f).Ok (fun r => r.Can ∧ r.toZ = nttR f.toZ) := by
  obtain ⟨r, h1, h2⟩ := Poly.ntt_can hf
  exact ⟨r, h1, h2, ntt_toZ hf h1⟩

theorem intt_spec {f : Poly} (hf : f.Can) : (Poly.intt f).Ok (fun r => r.Can ∧ nttR r.toZ = f.toZ) := by
  obtain ⟨r, h1, h2, -⟩ := Poly.intt_spec hf
  refine ⟨r, h1, h2, ?_⟩
  have h3 := Poly.ntt_intt hf
  rw [h1, Res.ok_bind] at h3
  exact (ntt_toZ h2 h3).symm

theorem nttR_inj {f g : RPoly} (h : nttR f = nttR g) : f = g := by
  obtain ⟨r, h1, h2, h3⟩ := ntt_spec (Poly.ofZ_can f)
  obtain ⟨s, h4, h5, h6⟩ := ntt_spec (Poly.ofZ_can g)
  rw [Poly.ofZ_toZ] at h3 h6
  have hrs : r = s := (Poly.toZ_inj h2 h5).1 (by rw [h3, h6, h])
  subst hrs
  have e1 := Poly.intt_ntt (Poly.ofZ_can f)
  have e2 := Poly.intt_ntt (Poly.ofZ_can g)
  rw [h1, Res.ok_bind] at e1
  rw [h4, Res.ok_bind, e1] at e2
  simp only [Res.ok.injEq] at e2
  have := congrArg Poly.toZ e2
  rwa [Poly.ofZ_toZ, Poly.ofZ_toZ] at this

theorem nttR_surj (g : RPoly) : ∃ f, nttR f = g := by
  obtain ⟨r, -, -, h3⟩ := intt_spec (Poly.ofZ_can g)
  exact ⟨r.toZ, by rw [h3, Poly.ofZ_toZ]⟩

/-- Inverse of `nttR`. -/
noncomputable def inttR (g : RPoly) : RPoly := (nttR_surj g).choose
@[simp] theorem nttR_inttR (g : RPoly) : nttR (inttR g) = g := (nttR_surj g).choose_spec
@[simp] theorem inttR_nttR (f : RPoly) : inttR (nttR f) = f := nttR_inj (nttR_inttR _)

theorem intt_toZ {f : Poly} (hf : f.Can) : (Poly.intt f).Ok (fun r => r.Can ∧ r.toZ = inttR f.toZ) := by
  obtain ⟨r, h1, h2, h3⟩ := intt_spec hf
  exact ⟨r, h1, h2, by rw [← h3, inttR_nttR]⟩

theorem nttR_add (f g : RPoly) : nttR (f + g) = nttR f + nttR g := by
  funext i; simp only [nttR, evalR, Pi.add_apply, add_mul, sum_add_distrib]
theorem nttR_sub (f g : RPoly) : nttR (f - g) = nttR f - nttR g := by
  funext i; simp only [nttR, evalR, Pi.sub_apply, sub_mul, sum_sub_distrib]
theorem nttR_zero : nttR 0 = 0 := by
  funext i; simp [nttR, evalR]
theorem inttR_add (f g : RPoly) : inttR (f + g) = inttR f + inttR g :=
  nttR_inj (by rw [nttR_add, nttR_inttR, nttR_inttR, nttR_inttR])
theorem inttR_sub (f g : RPoly) : inttR (f - g) = inttR f - inttR g :=
  nttR_inj (by rw [nttR_sub, nttR_inttR, nttR_inttR, nttR_inttR])
theorem inttR_zero : inttR 0 = 0 := nttR_inj (by rw [nttR_inttR, nttR_zero])

/-- x^(i+j) reduced modulo x^512 + 1 and evaluated at a 512-th root of -1. -/
theorem pow_fold {x : ZMod q} (hx : x ^ 512 = -1) (c : ZMod q) {i j : Nat} (hi : i < 512) (hj : j < 512) :
    ∑ k : Fin 512, (if i + j = k.val then c else if i + j = k.val + 512 then -c else 0) * x ^ k.val = c * x ^ (i + j) := by
  by_cases h : i + j < 512
  · rw [Finset.sum_eq_single ⟨i + j, h⟩]
    · simp
    · intro b _ hb
      have h1 : i + j ≠ b.val := fun hh => hb (Fin.ext hh.symm)
      rw [if_neg h1, if_neg (by omega), zero_mul]
    · intro hh; exact absurd (Finset.mem_univ _) hh
  · have hlt : i + j - 512 < 512 := by omega
    rw [Finset.sum_eq_single ⟨i + j - 512, hlt⟩]
    · simp only
      rw [if_neg (by omega), if_pos (by omega)]
      have e : x ^ (i + j) = x ^ (i + j - 512) * x ^ 512 := by rw [← pow_add, Nat.sub_add_cancel (by omega)]
      rw [e, hx]; ring
    · intro b _ hb
      have hb' := b.isLt
      have h1 : i + j - 512 ≠ b.val := fun hh => hb (Fin.ext hh.symm)
      rw [if_neg (by omega), if_neg (by omega), zero_mul]
    · intro hh; exact absurd (Finset.mem_univ _) hh

theorem evalR_negacyclic {x : ZMod q} (hx : x ^ 512 = -1) (f g : RPoly) :
    evalR (negacyclic f g) x = evalR f x * evalR g x := by
  unfold evalR negacyclic
  rw [Finset.sum_mul_sum]
  simp only [Finset.sum_mul]
  rw [Finset.sum_comm]
  apply Finset.sum_congr rfl
  intro i _
  rw [Finset.sum_comm]
  apply Finset.sum_congr rfl
  intro j _
  rw [pow_fold hx _ i.isLt j.isLt, pow_add]
  ring

theorem nttR_negacyclic (f g : RPoly) : nttR (negacyclic f g) = nttR f * nttR g := by
  funext i
  show evalR _ _ = evalR _ _ * evalR _ _
  apply evalR_negacyclic
  rw [bitrev9_eq]
  exact Poly.rho_512

theorem inttR_mul (f g : RPoly) : inttR (f * g) = negacyclic (inttR f) (inttR g) :=
  nttR_inj (by rw [nttR_negacyclic, nttR_inttR, nttR_inttR, nttR_inttR])

end Raccoon
