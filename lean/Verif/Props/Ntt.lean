import Verif.Proofs.PolyOps
/-!
# C11–C13, C47: number-theoretic transform, bit reversal, twiddle tables (`polynomial/poly.hpp`)
-/
namespace Raccoon
attribute [-instance] Monoid.toNPow
open Finset

/-- C11: on canonical input both transforms are defined (all table and array indices in range), canonical, and
mutually inverse. -/
theorem C11_ntt_inverse (f : Poly) (hf : f.Can) :
    (∃ g, Poly.ntt f = .ok g ∧ g.Can ∧ Poly.intt g = .ok f) ∧
    (∃ g, Poly.intt f = .ok g ∧ g.Can ∧ Poly.ntt g = .ok f) := by
  constructor
  · obtain ⟨g, h1, h2⟩ := Poly.ntt_can hf
    have := Poly.intt_ntt hf
    rw [h1, Res.ok_bind] at this
    exact ⟨g, h1, h2, this⟩
  · obtain ⟨g, h1, h2, -⟩ := Poly.intt_spec hf
    have := Poly.ntt_intt hf
    rw [h1, Res.ok_bind] at this
    exact ⟨g, h1, h2, this⟩

/-- C12: slot `i` of the transform is the value of the polynomial at ζ^(2·bitrev9(i)+1), and ζ^512 = -1. -/
theorem C12_ntt_evaluates (f : Poly) (hf : f.Can) :
    zetaZ ^ 512 = -1 ∧
    ∃ g, Poly.ntt f = .ok g ∧ ∀ i : Fin 512, g.toZ i = ∑ j : Fin 512, f.toZ j * (zetaZ ^ (2 * bitrev9 i.val + 1)) ^ j.val := by
  obtain ⟨g, h1, -, h3⟩ := ntt_spec hf
  exact ⟨zeta_512, g, h1, fun i => by rw [h3]; rfl⟩

/-- C13: transforming, multiplying pointwise, transforming back is multiplication modulo x^512 + 1. -/
theorem C13_negacyclic (f g : Poly) (hf : f.Can) (hg : g.Can) :
    ∃ f' g' r, Poly.ntt f = .ok f' ∧ Poly.ntt g = .ok g' ∧ Poly.intt (Poly.mul f' g') = .ok r ∧ r.Can ∧
      r.toZ = negacyclic f.toZ g.toZ := by
  obtain ⟨f', h1, h2, h3⟩ := ntt_spec hf
  obtain ⟨g', h4, h5, h6⟩ := ntt_spec hg
  obtain ⟨r, h7, h8, h9⟩ := intt_toZ (Poly.mul_can h2 h5)
  refine ⟨f', g', r, h1, h4, h7, h8, ?_⟩
  rw [h9, Poly.mul_toZ h2 h5, h3, h6, inttR_mul, inttR_nttR, inttR_nttR]

/-- C13: the transform is a bijection between canonical coefficient vectors, additive in both directions. -/
theorem C13_ntt_linear (f g : Poly) (hf : f.Can) (hg : g.Can) :
    ∃ f' g', Poly.ntt f = .ok f' ∧ Poly.ntt g = .ok g' ∧ Poly.ntt (Poly.add f g) = .ok (Poly.add f' g') := by
  obtain ⟨f', h1, h2, h3⟩ := ntt_spec hf
  obtain ⟨g', h4, h5, h6⟩ := ntt_spec hg
  obtain ⟨r, h7, h8, h9⟩ := ntt_spec (Poly.add_can hf hg)
  refine ⟨f', g', h1, h4, ?_⟩
  rw [h7]
  refine congrArg Res.ok ((Poly.toZ_inj h8 (Poly.add_can h2 h5)).1 ?_)
  rw [h9, Poly.add_toZ hf hg, nttR_add, Poly.add_toZ h2 h5, h3, h6]

theorem br9_invol : ∀ i, i < 512 → br9 (br9 i) = i := by decide +kernel

/-- C47: `bit_rev` reverses nine bits (bit `j` of the result is bit `8-j` of the argument) and is an involution of
[0,512). -/
theorem C47_bit_rev (i : Nat) (hi : i < 512) :
    (bitRev (BitVec.ofNat 64 i)).toNat = bitrev9 i ∧ bitrev9 i < 512 ∧ bitrev9 (bitrev9 i) = i := by
  rw [bitRev_toNat i hi, bitrev9_eq, bitrev9_eq]
  exact ⟨rfl, br9_lt i hi, br9_invol i hi⟩

/-- C47: the two tables. -/
theorem C47_tables (i : Nat) (hi : i < 512) :
    (POWERS[i]).Can ∧ (POWERS[i]).toZ = zetaZ ^ bitrev9 i ∧
    (NEG_POWERS[i]).Can ∧ (NEG_POWERS[i]).toZ = -zetaZ ^ bitrev9 i := by
  rw [bitrev9_eq]
  exact ⟨(POWERS_spec hi).1, (POWERS_spec hi).2, (NEG_POWERS_spec hi).1, (NEG_POWERS_spec hi).2⟩

/-- ζ is the constant of the source, a primitive 1024-th root of unity (its 512-th power is -1 ≠ 1). -/
theorem C47_zeta : zeta.toZ = zetaZ ∧ zetaZ ^ 512 = -1 ∧ zetaZ ^ 512 ≠ 1 := by
  refine ⟨zeta_toZ, zeta_512, ?_⟩
  rw [zeta_512]
  intro h
  have h2 : ((2 : ℕ) : ZMod q) = 0 := by
    push_cast
    linear_combination -h
  rw [ZMod.natCast_eq_zero_iff] at h2
  exact absurd h2 (by decide)

/-! ### Non-vacuity: a canonical polynomial with non-zero coefficients exists and negacyclic wrap-around happens. -/
example : (Poly.fillWith (⟨549824583172096⟩ : Zq)).Can := by
  intro i hi; unfold Poly.fillWith; rw [Vector.getElem_replicate]; unfold Zq.Can; decide
/-- x^511 · x = -1. -/
example : negacyclic (Pi.single 511 1) (Pi.single 1 1) = -Pi.single 0 1 := by
  funext k
  unfold negacyclic
  rw [Finset.sum_eq_single 511, Finset.sum_eq_single 1]
  · by_cases h : k = 0
    · subst h; simp
    · have hk : k.val ≠ 0 := fun hh => h (Fin.ext hh)
      have h2 := k.isLt
      have e1 : (511 : Fin 512).val = 511 := rfl
      have e2 : (1 : Fin 512).val = 1 := rfl
      rw [e1, e2, if_neg (by omega), if_neg (by omega)]
      simp [h]
  · intro b _ hb; simp [hb]
  · simp
  · intro b _ hb; simp [hb]
  · simp

end Raccoon
