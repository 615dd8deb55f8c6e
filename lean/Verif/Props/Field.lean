import Verif.Proofs.FieldInv
import Verif.Model.Rng
/-!
# C05–C10: the ring Z/qZ (`math/field.hpp`)

`Zq.Can a` says the stored word is below `q`; `Zq.toZ a : ZMod q` is the residue class (Spec/Field.lean).
-/
namespace Raccoon
attribute [-instance] Monoid.toNPow

/-- The modulus is the product of the two primes' formulas given in the source comment. -/
theorem C05_modulus : q = (2 ^ 24 - 2 ^ 18 + 1) * (2 ^ 25 - 2 ^ 18 + 1) ∧ Q.toNat = q := by decide

/-- C05: addition, subtraction and multiplication of canonical residues are canonical and are the operations of
Z/qZ. -/
theorem C05_ring_ops (a b : Zq) (ha : a.Can) (hb : b.Can) :
    (a + b).Can ∧ (a + b).toZ = a.toZ + b.toZ ∧
    (a - b).Can ∧ (a - b).toZ = a.toZ - b.toZ ∧
    (a * b).Can ∧ (a * b).toZ = a.toZ * b.toZ :=
  ⟨Zq.add_can ha hb, Zq.add_toZ ha hb, Zq.sub_can ha hb, Zq.sub_toZ ha hb, Zq.mul_can ha hb, Zq.mul_toZ ha hb⟩

/-- C05, as integers: the stored words are the remainders of the integer sum, difference and product. -/
theorem C05_raw_values (a b : Zq) (ha : a.Can) (hb : b.Can) :
    (a + b).raw.toNat = (a.raw.toNat + b.raw.toNat) % q ∧
    ((a - b).raw.toNat : Int) = ((a.raw.toNat : Int) - b.raw.toNat) % q ∧
    (a * b).raw.toNat = (a.raw.toNat * b.raw.toNat) % q := by
  have ha' := ha; have hb' := hb
  unfold Zq.Can at ha' hb'
  refine ⟨Zq.add_raw (by omega), ?_, Zq.mul_raw ha hb⟩
  rw [Zq.sub_raw ha (by omega)]
  generalize a.raw.toNat = x at *
  generalize b.raw.toNat = y at *
  unfold q at *
  omega

/-- C05: canonical words represent every class exactly once, so the canonical elements with these operations are
the commutative ring Z/qZ. -/
theorem C05_canonical_repr (c : ZMod q) : ∃ a : Zq, (a.Can ∧ a.toZ = c) ∧ ∀ b : Zq, b.Can ∧ b.toZ = c → b = a := by
  have hlt : c.val < q := ZMod.val_lt c
  have hq : q < 2 ^ 64 := by decide
  have e : (BitVec.ofNat 64 c.val).toNat = c.val := by rw [BitVec.toNat_ofNat, Nat.mod_eq_of_lt (by omega)]
  have hc : Zq.Can ⟨BitVec.ofNat 64 c.val⟩ := by unfold Zq.Can; rw [e]; exact hlt
  have hz : Zq.toZ ⟨BitVec.ofNat 64 c.val⟩ = c := by unfold Zq.toZ; rw [e, ZMod.natCast_val, ZMod.cast_id]
  exact ⟨⟨BitVec.ofNat 64 c.val⟩, ⟨hc, hz⟩, fun b hb => (Zq.toZ_inj hb.1 hc).1 (by rw [hb.2, hz])⟩

/-- C06: negation. The class is always right; the word is canonical iff the argument is not zero; the negation of
zero is the word `q`, different from `zero()`. -/
theorem C06_neg (a : Zq) (ha : a.Can) :
    (-a).toZ = -a.toZ ∧ ((-a).Can ↔ a ≠ Zq.zero) ∧ (a = Zq.zero → (-a).raw.toNat = q) ∧ -Zq.zero ≠ Zq.zero := by
  have ha' := ha; unfold Zq.Can at ha'
  have h0 : (Zq.zero).raw.toNat = 0 := rfl
  refine ⟨Zq.neg_toZ ha, ?_, ?_, ?_⟩
  · unfold Zq.Can
    rw [Zq.neg_raw (by omega)]
    constructor
    · rintro h rfl; rw [h0] at h; omega
    · intro h
      have : a.raw.toNat ≠ 0 := fun hh => h (Zq.ext_nat hh)
      omega
  · rintro rfl; rw [Zq.neg_raw (by omega), h0]; rfl
  · intro h
    have h1 := Zq.neg_raw (a := Zq.zero) (by rw [h0]; omega)
    rw [h, h0] at h1; exact absurd h1 (by decide)

/-- C06: `a + (-b)` is nevertheless canonical and correct, whatever `b`. -/
theorem C06_add_neg (a b : Zq) (ha : a.Can) (hb : b.Can) : (a + -b).Can ∧ (a + -b).toZ = a.toZ - b.toZ :=
  ⟨Zq.sub_can ha hb, Zq.sub_toZ ha hb⟩

/-- C07: Barrett reduction returns the remainder on the whole 98-bit range; the compile-time constant `R` is
floor(2^98 / q). -/
theorem C07_barrett (v : U128) (h : v.val < 2 ^ 98) : (barrettReduce v).toNat = v.val % q ∧ R.toNat = 2 ^ 98 / q :=
  ⟨barrettReduce_toNat v h, by rw [R_toNat]; decide⟩

/-- C07: a random element is canonical, and is the next eight PRNG bytes, read little-endian, reduced mod q. -/
theorem C07_random (p : Prng) :
    (Zq.random p).1.Can ∧ (Zq.random p).1.raw.toNat = (fromLeBytes 64 (p.read 8).1).toNat % q ∧
    (Zq.random p).2 = (p.read 8).2 := by
  have h : (barrettReduce (U128.from (fromLeBytes 64 (p.read 8).1))).toNat = (fromLeBytes 64 (p.read 8).1).toNat % q := by
    rw [barrettReduce_toNat, U128.val_from]
    rw [U128.val_from]
    exact Nat.lt_of_lt_of_le (BitVec.isLt _) (by norm_num)
  refine ⟨?_, h, rfl⟩
  exact Nat.lt_of_le_of_lt (Nat.le_of_eq h) (Nat.mod_lt _ q_pos)

/-- C08: inversion never overflows and terminates (`ok`); it reports invertibility correctly and returns the
canonical inverse, or zero. -/
theorem C08_inv (a : Zq) (ha : a.Can) :
    ∃ r f, a.inv = .ok (r, f) ∧ (f = true ↔ Nat.Coprime a.raw.toNat q) ∧ (f = true ↔ IsUnit a.toZ) ∧ r.Can ∧
      (f = true → (a * r).raw = 1) ∧ (f = false → r = Zq.zero) := by
  obtain ⟨r, f, h1, h2, h3, h4, h5⟩ := Zq.inv_spec ha
  refine ⟨r, f, h1, h2, ?_, h3, ?_, h5⟩
  · rw [h2]; exact (ZMod.isUnit_iff_coprime _ _).symm
  · intro hf
    have : (a * r) = Zq.one := by
      rw [← Zq.toZ_inj (Zq.mul_can ha h3) Zq.one_can, Zq.mul_toZ ha h3, mul_comm, h4 hf, Zq.one_toZ]
    rw [this]; rfl

/-- C08: division is multiplication by the inverse, with the flag of the divisor; for an invertible divisor the
quotient times the divisor gives the dividend back. -/
theorem C08_div (a b : Zq) (ha : a.Can) (hb : b.Can) :
    ∃ r f, a.div b = .ok (r, f) ∧ (f = true ↔ Nat.Coprime b.raw.toNat q) ∧ r.Can ∧
      (f = true → r * b = a) ∧ (f = false → r = Zq.zero) := by
  obtain ⟨r, f, h1, h2, h3, h4, h5⟩ := Zq.inv_spec hb
  refine ⟨a * r, f, ?_, h2, Zq.mul_can ha h3, ?_, ?_⟩
  · unfold Zq.div; rw [h1]; rfl
  · intro hf
    rw [← Zq.toZ_inj (Zq.mul_can (Zq.mul_can ha h3) hb) ha, Zq.mul_toZ (Zq.mul_can ha h3) hb, Zq.mul_toZ ha h3,
      mul_assoc, h4 hf, mul_one]
  · intro hf
    rw [h5 hf, ← Zq.toZ_inj (Zq.mul_can ha Zq.zero_can) Zq.zero_can, Zq.mul_toZ ha Zq.zero_can, Zq.zero_toZ, mul_zero]

/-- C08: `xgcd` itself is safe and returns Bézout coefficients for all arguments below 2^63. -/
theorem C08_xgcd (x y : U64) (hx : x.toNat < 2 ^ 63) (hy : y.toNat < 2 ^ 63) :
    ∃ a b : Int, xgcd x y = .ok (a, b, (Nat.gcd x.toNat y.toNat : Int)) ∧
      x.toNat * a + y.toNat * b = (Nat.gcd x.toNat y.toNat : Int) := by
  obtain ⟨a, b, h1, h2, -⟩ := xgcd_spec hx hy
  exact ⟨a, b, h1, h2⟩

/-- C09: exponentiation, every base and every 64-bit exponent. -/
theorem C09_pow (a : Zq) (ha : a.Can) (n : U64) : (a.pow n).Can ∧ (a.pow n).toZ = a.toZ ^ n.toNat :=
  Zq.pow_spec ha n

/-- C10: left shift is exact as long as the shifted word still fits in 64 bits. -/
theorem C10_shl (x : Zq) (off : Nat) (ho : off < 64) (hfit : x.raw.toNat * 2 ^ off < 2 ^ 64) :
    ∃ r, x.shl off = .ok r ∧ r.Can ∧ r.toZ = x.toZ * 2 ^ off ∧ r.raw.toNat = x.raw.toNat * 2 ^ off % q := by
  obtain ⟨h1, h2⟩ := Zq.shl_spec (x := x) ho
  rw [Nat.mod_eq_of_lt hfit] at h2
  refine ⟨_, h1, ?_, ?_, h2⟩
  · unfold Zq.Can; rw [h2]; exact Nat.mod_lt _ q_pos
  · unfold Zq.toZ; rw [h2, ZMod.natCast_mod]; push_cast; rfl

/-- C10: what the shift does in general (bits above 2^64 are dropped *before* the reduction), and where it is
undefined. -/
theorem C10_shl_general (x : Zq) (off : Nat) :
    (off < 64 → ∃ r, x.shl off = .ok r ∧ r.raw.toNat = (x.raw.toNat * 2 ^ off % 2 ^ 64) % q) ∧
    (64 ≤ off → x.shl off = .ub) := by
  constructor
  · intro h; exact ⟨_, (Zq.shl_spec h).1, (Zq.shl_spec h).2⟩
  · intro h
    unfold Zq.shl shl64; rw [if_neg (by omega)]; rfl

/-- C10: the documented contract `x << off = x * 2^off mod q` fails for canonical inputs: for every offset from 16 to
63 there is a canonical `x` on which it is wrong. -/
theorem C10_shl_loses_bits (off : Nat) (h1 : 16 ≤ off) (h2 : off < 64) :
    ∃ x r : Zq, x.Can ∧ x.shl off = .ok r ∧ r.toZ ≠ x.toZ * 2 ^ off := by
  have hlt : (2 : Nat) ^ (64 - off) < q := by
    refine Nat.lt_of_le_of_lt (Nat.pow_le_pow_right (by norm_num) (by omega : 64 - off ≤ 48)) (by decide)
  have hq : q < 2 ^ 64 := by decide
  have e : (BitVec.ofNat 64 (2 ^ (64 - off))).toNat = 2 ^ (64 - off) := by
    rw [BitVec.toNat_ofNat, Nat.mod_eq_of_lt (by omega)]
  refine ⟨⟨BitVec.ofNat 64 (2 ^ (64 - off))⟩, _, ?_, (Zq.shl_spec h2).1, ?_⟩
  · unfold Zq.Can; rw [e]; exact hlt
  · have h3 := (Zq.shl_spec (x := ⟨BitVec.ofNat 64 (2 ^ (64 - off))⟩) h2).2
    rw [e, ← Nat.pow_add, Nat.sub_add_cancel (by omega), Nat.mod_self, Nat.zero_mod] at h3
    unfold Zq.toZ
    rw [h3, e]
    intro hh
    have h4 : ((2 ^ 64 : ℕ) : ZMod q) = 0 := by
      have e64 : (2 : Nat) ^ 64 = 2 ^ (64 - off) * 2 ^ off := by rw [← Nat.pow_add, Nat.sub_add_cancel (by omega)]
      rw [e64]; push_cast; push_cast at hh; exact hh.symm
    rw [ZMod.natCast_eq_zero_iff] at h4
    exact absurd h4 (by decide)

/-! ### Non-vacuity -/

/-- Canonical, non-trivial elements; the Barrett correction branch is taken for q-1 times q-1. -/
example : Zq.Can ⟨549824583172096⟩ ∧ ((⟨549824583172096⟩ : Zq) * ⟨549824583172096⟩).raw = 1 := by
  refine ⟨by unfold Zq.Can; decide, by decide +kernel⟩
/-- q is composite: a non-unit that is not zero. -/
example : Zq.Can ⟨16515073⟩ ∧ Zq.inv ⟨16515073⟩ = .ok (⟨0⟩, false) := by
  refine ⟨by unfold Zq.Can; decide, by decide +kernel⟩
example : Zq.Can ⟨512⟩ ∧ (Zq.inv ⟨512⟩).Ok (fun r => r.2 = true) := by
  refine ⟨by unfold Zq.Can; decide, ⟨(⟨548750707033089⟩, true), by decide +kernel, rfl⟩⟩
example : (⟨2 ^ 40, 0⟩ : U128).val < 2 ^ 98 → False := by decide
example : (⟨2 ^ 33, 7⟩ : U128).val < 2 ^ 98 := by decide
example : (16 : Nat) ≤ 42 ∧ 42 < 64 := by decide
/-- The shift used by `verify` (`t << 42` with 7-bit coefficients) satisfies the hypothesis of `C10_shl`. -/
example : (⟨127⟩ : Zq).raw.toNat * 2 ^ 42 < 2 ^ 64 := by decide

end Raccoon
