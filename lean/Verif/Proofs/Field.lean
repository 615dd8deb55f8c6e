import Verif.Spec.Field
import Verif.Model.Poly
import Verif.Proofs.U128
import Mathlib.Tactic.LinearCombination
/-!
# Lemmas about `Zq`
-/
namespace Raccoon
attribute [-instance] Monoid.toNPow

theorem Q_toNat : Q.toNat = q := by decide
theorem Q_eq : Q = 549824583172097#64 := by decide
theorem QBW : Q_BIT_WIDTH = 49 := by decide
theorem R_toNat : R.toNat = 576388651501714 := by decide +kernel

theorem pow63 : (2 : Nat) ^ 63 = 9223372036854775808 := by norm_num
theorem pow98 : (2 : Nat) ^ 98 = 316912650057057350374175801344 := by norm_num

theorem sign_mask (t : U64) : -(t >>> 63) = if 2 ^ 63 ≤ t.toNat then BitVec.allOnes 64 else 0 := by
  have ht := t.isLt
  apply BitVec.eq_of_toNat_eq
  have h1 : (t >>> 63).toNat = t.toNat / 2 ^ 63 := by
    rw [BitVec.toNat_ushiftRight, Nat.shiftRight_eq_div_pow]
  rw [BitVec.toNat_neg, h1]
  split
  · next h =>
    have e : t.toNat / 2 ^ 63 = 1 := by rw [pow63, pow64] at *; omega
    rw [e, BitVec.toNat_allOnes]
  · next h =>
    have e : t.toNat / 2 ^ 63 = 0 := by rw [pow63, pow64] at *; omega
    rw [e]; simp

theorem reduceOnceMod_toNat {m v : U64} (hm : m.toNat < 2 ^ 63) (hv : v.toNat < m.toNat + 2 ^ 63) :
    (Poly.reduceOnceMod m v).toNat = if m.toNat ≤ v.toNat then v.toNat - m.toNat else v.toNat := by
  have hv64 := v.isLt
  unfold Poly.reduceOnceMod
  have ht : (v - m).toNat = if m.toNat ≤ v.toNat then v.toNat - m.toNat else v.toNat + 2 ^ 64 - m.toNat := by
    rw [BitVec.toNat_sub]
    rw [pow63, pow64] at *
    split <;> omega
  simp only [sign_mask, BitVec.toNat_add]
  rw [ht]
  split
  · next h =>
    rw [if_neg (by rw [pow63] at *; omega)]
    have : (m &&& 0).toNat = 0 := by show (m &&& 0#64).toNat = 0; rw [BitVec.and_zero]; rfl
    rw [this]
    rw [pow63, pow64] at *; omega
  · next h =>
    rw [if_pos (by rw [pow63, pow64] at *; omega), BitVec.and_allOnes]
    rw [pow63, pow64] at *; omega

theorem reduceOnceMod_mod {m v : U64} (h0 : 0 < m.toNat) (hm : m.toNat < 2 ^ 63) (hv : v.toNat < 2 * m.toNat) :
    (Poly.reduceOnceMod m v).toNat = v.toNat % m.toNat := by
  rw [reduceOnceMod_toNat hm (by omega)]
  split
  · rw [Nat.mod_eq_sub_mod (by omega), Nat.mod_eq_of_lt (by omega)]
  · rw [Nat.mod_eq_of_lt (by omega)]

theorem q_lt : q < 2 ^ 63 := by decide
theorem q_pos : 0 < q := by decide

theorem reduceOnce_eq (v : U64) : reduceOnce v = Poly.reduceOnceMod Q v := rfl

theorem reduceOnce_mod {v : U64} (hv : v.toNat < 2 * q) : (reduceOnce v).toNat = v.toNat % q := by
  rw [reduceOnce_eq, reduceOnceMod_mod (by rw [Q_toNat]; exact q_pos) (by rw [Q_toNat]; exact q_lt) (by rw [Q_toNat]; exact hv),
    Q_toNat]

/-- The quotient estimate is off by less than two. -/
theorem barrett_est {v r R' q' M : Nat} (hM : 0 < M) (hR1 : R' * q' ≤ M) (hR2 : M < R' * q' + q') (hv : v < M)
    (hr : r = v * R' / M) : r * q' ≤ v ∧ v < (r + 2) * q' := by
  have h1 : r * M ≤ v * R' := by rw [hr]; exact Nat.div_mul_le_self _ _
  have h2 : v * R' < (r + 1) * M := by
    rw [hr, Nat.add_mul, Nat.one_mul]
    exact Nat.lt_div_mul_add hM
  constructor
  · apply Nat.le_of_mul_le_mul_right _ hM
    calc r * q' * M = (r * M) * q' := by ring
      _ ≤ v * R' * q' := Nat.mul_le_mul_right _ h1
      _ = v * (R' * q') := by ring
      _ ≤ v * M := Nat.mul_le_mul_left _ hR1
  · apply Nat.lt_of_mul_lt_mul_right (a := M)
    have hq : 0 < q' := by omega
    calc v * M ≤ v * (R' * q' + q') := Nat.mul_le_mul_left _ (by omega)
      _ = v * R' * q' + v * q' := by ring
      _ < (r + 1) * M * q' + M * q' :=
          Nat.add_lt_add (Nat.mul_lt_mul_of_pos_right h2 hq) (Nat.mul_lt_mul_of_pos_right hv hq)
      _ = (r + 2) * q' * M := by ring

theorem and_max64 (x : U128) : (x.and (U128.from (BitVec.allOnes 64))).val = x.val % 2 ^ 64 := by
  rw [U128.and_val, U128.val_from, BitVec.toNat_allOnes, Nat.and_two_pow_sub_one_eq_mod]

theorem and_fffff (x : U128) : (x.and (U128.from 0xfffff)).val = x.val % 2 ^ 20 := by
  rw [U128.and_val, U128.val_from]
  have : (0xfffff : U64).toNat = 2 ^ 20 - 1 := by decide
  rw [this, Nat.and_two_pow_sub_one_eq_mod]

theorem barrettReduce_toNat (v : U128) (h : v.val < 2 ^ 98) : (barrettReduce v).toNat = v.val % q := by
  have hR := R_toNat
  unfold barrettReduce
  simp only [QBW]
  -- names
  generalize hVH : v.shr 64 = vh
  generalize hVL : v.and (U128.from (BitVec.allOnes 64)) = vl
  have evh : vh.val = v.val / 2 ^ 64 := by rw [← hVH, U128.shr_val _ _ (by omega)]
  have evl : vl.val = v.val % 2 ^ 64 := by rw [← hVL, and_max64]
  have eR : (U128.from R).val = 576388651501714 := by rw [U128.val_from, hR]
  generalize hHI : vh.mul U128.zero = hi
  have ehi : hi.val = 0 := by rw [← hHI, U128.mul_val, U128.val_zero, Nat.mul_zero, Nat.zero_mod]
  generalize hMID : (vh.mul (U128.from R)).add (U128.zero.mul vl) = mid
  have emid : mid.val = vh.val * 576388651501714 := by
    rw [← hMID, U128.add_val, U128.mul_val, U128.mul_val, eR, U128.val_zero, Nat.zero_mul, Nat.zero_mod, Nat.add_zero, Nat.mod_mod]
    rw [pow128, pow64, pow98] at *; omega
  generalize hLO : vl.mul (U128.from R) = lo
  have elo : lo.val = vl.val * 576388651501714 := by
    rw [← hLO, U128.mul_val, eR]
    rw [pow128, pow64, pow98] at *; omega
  generalize hMH : mid.shr 64 = mh
  have emh : mh.val = mid.val / 2 ^ 64 := by rw [← hMH, U128.shr_val _ _ (by omega)]
  generalize hML : mid.and (U128.from (BitVec.allOnes 64)) = ml
  have eml : ml.val = mid.val % 2 ^ 64 := by rw [← hML, and_max64]
  generalize hT0 : lo.shr 64 = t0
  have et0 : t0.val = lo.val / 2 ^ 64 := by rw [← hT0, U128.shr_val _ _ (by omega)]
  generalize hT1 : t0.add ml = t1
  have et1 : t1.val = t0.val + ml.val := by
    rw [← hT1, U128.add_val]
    rw [pow128, pow64, pow98] at *; omega
  generalize hC : t1.shr 64 = c
  have ec : c.val = t1.val / 2 ^ 64 := by rw [← hC, U128.shr_val _ _ (by omega)]
  generalize hRH : (hi.add mh).add c = rh
  have erh : rh.val = mh.val + c.val := by
    rw [← hRH, U128.add_val, U128.add_val, ehi]
    rw [pow128, pow64, pow98] at *; omega
  generalize hML64 : ml.shl 64 = ml64
  have eml64 : ml64.val = ml.val * 2 ^ 64 := by
    rw [← hML64, U128.shl_val _ _ (by omega)]
    rw [pow128, pow64, pow98] at *; omega
  generalize hRL : lo.add ml64 = rl
  have erl : rl.val = (lo.val + ml.val * 2 ^ 64) % 2 ^ 128 := by
    rw [← hRL, U128.add_val, eml64]
  have prod : rh.val * 2 ^ 128 + rl.val = v.val * 576388651501714 := by
    rw [pow128, pow64, pow98] at *; omega
  have hrh : rh.val < 2 ^ 20 := by
    have : (2 : Nat) ^ 20 = 1048576 := by norm_num
    rw [this]
    rw [pow128, pow64, pow98] at *; omega
  generalize hA : (rh.and (U128.from 0xfffff)).shl 30 = ra
  have era : ra.val = rh.val * 2 ^ 30 := by
    rw [← hA, U128.shl_val _ _ (by omega), and_fffff, Nat.mod_eq_of_lt hrh, Nat.mod_eq_of_lt]
    calc rh.val * 2 ^ 30 < 2 ^ 20 * 2 ^ 30 := Nat.mul_lt_mul_of_pos_right hrh (by norm_num)
      _ ≤ 2 ^ 128 := by norm_num
  generalize hB : rl.shr (2 * 49) = rb
  have erb : rb.val = rl.val / 2 ^ 98 := by rw [← hB, U128.shr_val _ _ (by omega)]
  have hrb : rb.val < 2 ^ 30 := by
    have h1 := U128.val_lt rl
    have : (2 : Nat) ^ 30 = 1073741824 := by norm_num
    rw [erb, this]
    rw [pow128, pow98] at *; omega
  generalize hRES : ra.or rb = res
  have eres : res.val = v.val * 576388651501714 / 2 ^ 98 := by
    rw [← hRES, U128.or_val, era, Nat.mul_comm, ← Nat.two_pow_add_eq_or_of_lt hrb, ← prod, erb]
    have : (2 : Nat) ^ 30 = 1073741824 := by norm_num
    rw [this]
    rw [pow128, pow98] at *; omega
  have est := barrett_est (v := v.val) (r := res.val) (R' := 576388651501714) (q' := q) (M := 2 ^ 98) (by norm_num)
    (by decide) (by decide) h eres
  generalize hT2 : res.mul (U128.from Q) = t2
  have et2 : t2.val = res.val * q := by
    rw [← hT2, U128.mul_val, U128.val_from, Q_toNat, Nat.mod_eq_of_lt]
    refine Nat.lt_of_le_of_lt est.1 (Nat.lt_of_lt_of_le h (by norm_num))
  have ht3 : (v.sub t2).val = v.val - res.val * q := by
    rw [U128.sub_val_of_le (by rw [et2]; exact est.1), et2]
  have hlt : v.val - res.val * q < 2 * q := by
    have := est.2
    rw [Nat.add_mul] at this
    omega
  have et3 : (v.sub t2).to64.toNat = v.val - res.val * q := by
    rw [U128.to64_toNat, ht3, Nat.mod_eq_of_lt]
    have : 2 * q < 2 ^ 64 := by decide
    omega
  rw [reduceOnce_mod (by rw [et3]; exact hlt), et3]
  have hsplit : v.val = (v.val - res.val * q) + q * res.val := by
    have := est.1; rw [Nat.mul_comm q res.val]; omega
  conv_rhs => rw [hsplit, Nat.add_mul_mod_self_left]

namespace Zq

theorem ext_nat {a b : Zq} (h : a.raw.toNat = b.raw.toNat) : a = b := by
  cases a; cases b; congr 1; exact BitVec.eq_of_toNat_eq h

/-- Canonical elements are determined by their class. -/
theorem toZ_inj {a b : Zq} (ha : a.Can) (hb : b.Can) : a.toZ = b.toZ ↔ a = b := by
  constructor
  · intro h
    unfold toZ at h
    rw [ZMod.natCast_eq_natCast_iff'] at h
    rw [Nat.mod_eq_of_lt ha, Nat.mod_eq_of_lt hb] at h
    exact ext_nat h
  · rintro rfl; rfl

theorem toZ_val {a : Zq} (ha : a.Can) : a.toZ.val = a.raw.toNat := by
  unfold toZ; rw [ZMod.val_natCast, Nat.mod_eq_of_lt ha]

theorem zero_can : zero.Can := by unfold Can zero; decide
theorem one_can : one.Can := by unfold Can one; decide
@[simp] theorem zero_toZ : zero.toZ = 0 := by simp [toZ, zero]
@[simp] theorem one_toZ : one.toZ = 1 := by simp [toZ, one]

theorem add_raw {a b : Zq} (h : a.raw.toNat + b.raw.toNat < 2 * q) :
    (a + b).raw.toNat = (a.raw.toNat + b.raw.toNat) % q := by
  have h2 : 2 * q < 2 ^ 64 := by decide
  have e : (a.raw + b.raw).toNat = a.raw.toNat + b.raw.toNat := by
    rw [BitVec.toNat_add, Nat.mod_eq_of_lt (by omega)]
  show (reduceOnce (a.raw + b.raw)).toNat = _
  rw [reduceOnce_mod (by rw [e]; exact h), e]

theorem neg_raw {a : Zq} (h : a.raw.toNat ≤ q) : (-a).raw.toNat = q - a.raw.toNat := by
  have h2 : q < 2 ^ 64 := by decide
  show (Q - a.raw).toNat = _
  rw [BitVec.toNat_sub, Q_toNat]
  generalize a.raw.toNat = x at *
  unfold q at *
  rw [pow64] at *; omega

theorem sub_raw {a b : Zq} (ha : a.Can) (hb : b.raw.toNat ≤ q) :
    (a - b).raw.toNat = (a.raw.toNat + (q - b.raw.toNat)) % q := by
  unfold Can at *
  show (a + (-b)).raw.toNat = _
  rw [add_raw (by rw [neg_raw hb]; omega), neg_raw hb]

theorem mul_raw {a b : Zq} (ha : a.Can) (hb : b.Can) : (a * b).raw.toNat = a.raw.toNat * b.raw.toNat % q := by
  unfold Can at *
  have h1 : a.raw.toNat * b.raw.toNat < q * q := Nat.mul_lt_mul'' ha hb
  have h2 : q * q < 2 ^ 98 := by decide
  show (barrettReduce _).toNat = _
  have e : ((U128.from a.raw).mul (U128.from b.raw)).val = a.raw.toNat * b.raw.toNat := by
    rw [U128.mul_val, U128.val_from, U128.val_from, Nat.mod_eq_of_lt]
    exact Nat.lt_of_lt_of_le h1 (Nat.le_trans (Nat.le_of_lt h2) (by norm_num))
  rw [barrettReduce_toNat _ (by rw [e]; omega), e]

theorem add_can {a b : Zq} (ha : a.Can) (hb : b.Can) : (a + b).Can := by
  unfold Can at *; rw [add_raw (by omega)]; exact Nat.mod_lt _ q_pos
theorem sub_can {a b : Zq} (ha : a.Can) (hb : b.Can) : (a - b).Can := by
  unfold Can at *; rw [sub_raw ha (by omega)]; exact Nat.mod_lt _ q_pos
theorem mul_can {a b : Zq} (ha : a.Can) (hb : b.Can) : (a * b).Can := by
  unfold Can at *; rw [mul_raw ha hb]; exact Nat.mod_lt _ q_pos

theorem add_toZ {a b : Zq} (ha : a.Can) (hb : b.Can) : (a + b).toZ = a.toZ + b.toZ := by
  unfold Can toZ at *; rw [add_raw (by omega), ZMod.natCast_mod]; push_cast; rfl
theorem neg_toZ {a : Zq} (ha : a.Can) : (-a).toZ = -a.toZ := by
  unfold Can toZ at *
  rw [neg_raw (by omega), Nat.cast_sub (by omega), ZMod.natCast_self, zero_sub]
theorem sub_toZ {a b : Zq} (ha : a.Can) (hb : b.Can) : (a - b).toZ = a.toZ - b.toZ := by
  unfold Can toZ at *
  rw [sub_raw ha (by omega), ZMod.natCast_mod, Nat.cast_add, Nat.cast_sub (by omega), ZMod.natCast_self, zero_sub, sub_eq_add_neg]
theorem mul_toZ {a b : Zq} (ha : a.Can) (hb : b.Can) : (a * b).toZ = a.toZ * b.toZ := by
  unfold toZ; rw [mul_raw ha hb, ZMod.natCast_mod, Nat.cast_mul]

end Zq
end Raccoon
