import Verif.Spec.Word
import Verif.Proofs.Loops
import Mathlib.Tactic.Ring
import Mathlib.Tactic.Linarith
/-!
# Lemmas about the two-limb arithmetic
-/
namespace Raccoon
attribute [-instance] Monoid.toNPow

theorem pow32 : (2 : Nat) ^ 32 = 4294967296 := by norm_num
theorem pow64 : (2 : Nat) ^ 64 = 18446744073709551616 := by norm_num
theorem pow128 : (2 : Nat) ^ 128 = 340282366920938463463374607431768211456 := by norm_num

theorem and_mask_toNat {w : Nat} (x : BitVec w) (n : Nat) (hn : n < w) :
    (x &&& ((1 : BitVec w) <<< n - 1)).toNat = x.toNat % 2 ^ n := by
  have h1 : ((1 : BitVec w) <<< n - 1).toNat = 2 ^ n - 1 := by
    have hpow : 2 ^ n < 2 ^ w := Nat.pow_lt_pow_right (by omega) hn
    have hp : 0 < 2 ^ n := Nat.two_pow_pos n
    have hw : 1 < 2 ^ w := by
      have : 2 ^ n ≥ 1 := hp
      omega
    have h1' : (1 : BitVec w).toNat = 1 := by
      simp [BitVec.toNat_ofNat]; omega
    have h2 : ((1 : BitVec w) <<< n).toNat = 2 ^ n := by
      rw [BitVec.toNat_shiftLeft, h1', Nat.shiftLeft_eq, Nat.one_mul, Nat.mod_eq_of_lt hpow]
    rw [BitVec.toNat_sub, h2, h1']
    have : 2 ^ w - 1 + 2 ^ n = (2 ^ n - 1) + 2 ^ w := by omega
    rw [this, Nat.add_mod_right, Nat.mod_eq_of_lt (by omega)]
  rw [BitVec.toNat_and, h1, Nat.and_two_pow_sub_one_eq_mod]

/-- `mul_full_u64` is the exact product. -/
theorem mulFullU64_toNat (a b : U64) :
    (mulFullU64 a b).1.toNat * 2 ^ 64 + (mulFullU64 a b).2.toNat = a.toNat * b.toNat := by
  have m32 := fun x : U64 => and_mask_toNat x 32 (by omega)
  have e32 : (2 : Nat) ^ 32 = 4294967296 := rfl
  have e64 : (2 : Nat) ^ 64 = 18446744073709551616 := rfl
  simp only [mulFullU64, BitVec.toNat_add, BitVec.toNat_mul, BitVec.toNat_ushiftRight, m32,
    BitVec.toNat_shiftLeft, Nat.shiftRight_eq_div_pow, Nat.shiftLeft_eq]
  have ha := a.isLt
  have hb := b.isLt
  generalize a.toNat = X at *
  generalize b.toNat = Y at *
  rw [e32, e64] at *
  obtain ⟨x1, x0, hx0, hx1, rfl⟩ : ∃ x1 x0, x0 < 4294967296 ∧ x1 < 4294967296 ∧ X = 4294967296 * x1 + x0 :=
    ⟨X / 4294967296, X % 4294967296, by omega, by omega, by omega⟩
  obtain ⟨y1, y0, hy0, hy1, rfl⟩ : ∃ y1 y0, y0 < 4294967296 ∧ y1 < 4294967296 ∧ Y = 4294967296 * y1 + y0 :=
    ⟨Y / 4294967296, Y % 4294967296, by omega, by omega, by omega⟩
  have d1 : (4294967296 * x1 + x0) / 4294967296 = x1 := by omega
  have d2 : (4294967296 * x1 + x0) % 4294967296 = x0 := by omega
  have d3 : (4294967296 * y1 + y0) / 4294967296 = y1 := by omega
  have d4 : (4294967296 * y1 + y0) % 4294967296 = y0 := by omega
  rw [d1, d2, d3, d4]
  have b11 : x1 * y1 ≤ 4294967295 * 4294967295 := Nat.mul_le_mul (by omega) (by omega)
  have b10 : x1 * y0 ≤ 4294967295 * 4294967295 := Nat.mul_le_mul (by omega) (by omega)
  have b01 : x0 * y1 ≤ 4294967295 * 4294967295 := Nat.mul_le_mul (by omega) (by omega)
  have b00 : x0 * y0 ≤ 4294967295 * 4294967295 := Nat.mul_le_mul (by omega) (by omega)
  have key : (4294967296 * x1 + x0) * (4294967296 * y1 + y0) =
      18446744073709551616 * (x1 * y1) + 4294967296 * (x1 * y0) + 4294967296 * (x0 * y1) + x0 * y0 := by ring
  rw [key]
  generalize x1 * y1 = p11 at *
  generalize x1 * y0 = p10 at *
  generalize x0 * y1 = p01 at *
  generalize x0 * y0 = p00 at *
  omega

namespace U128

theorem val_lt (x : U128) : x.val < 2 ^ 128 := by
  have h1 := x.hi.isLt; have h2 := x.lo.isLt
  unfold val
  generalize x.hi.toNat = a at *
  generalize x.lo.toNat = b at *
  rw [pow64] at *; rw [pow128]; omega

theorem val_inj {x y : U128} : x.val = y.val ↔ x = y := by
  constructor
  · intro h
    have h1 := x.lo.isLt; have h2 := y.lo.isLt
    unfold val at h
    rw [pow64] at *
    have h1 : x.hi = y.hi := BitVec.eq_of_toNat_eq (by omega)
    have h2 : x.lo = y.lo := BitVec.eq_of_toNat_eq (by omega)
    cases x; cases y; simp_all
  · rintro rfl; rfl

@[simp] theorem val_zero : zero.val = 0 := by simp [val, zero]
@[simp] theorem val_from (v : U64) : («from» v).val = v.toNat := by simp [val, «from»]
theorem to64_toNat (x : U128) : x.to64.toNat = x.val % 2 ^ 64 := by
  have := x.lo.isLt
  unfold to64 val
  rw [pow64] at *; omega

theorem carry_toNat {p : Prop} [Decidable p] : (if p then (1 : U64) else 0).toNat = if p then 1 else 0 := by
  split <;> simp

theorem add_val (a b : U128) : (add a b).val = (a.val + b.val) % 2 ^ 128 := by
  have h1 := a.hi.isLt; have h2 := a.lo.isLt; have h3 := b.hi.isLt; have h4 := b.lo.isLt
  have hc : (BitVec.allOnes 64 - b.lo).toNat = 2 ^ 64 - 1 - b.lo.toNat := by
    rw [BitVec.toNat_sub, BitVec.toNat_allOnes]
    rw [pow64] at *; omega
  have hlt : (a.lo > BitVec.allOnes 64 - b.lo) ↔ 2 ^ 64 ≤ a.lo.toNat + b.lo.toNat := by
    rw [GT.gt, BitVec.lt_def, hc]
    rw [pow64] at *; omega
  unfold add val
  simp only [BitVec.toNat_add, carry_toNat, hlt]
  generalize a.hi.toNat = ah at *
  generalize a.lo.toNat = al at *
  generalize b.hi.toNat = bh at *
  generalize b.lo.toNat = bl at *
  clear hc hlt
  rw [pow64] at *
  rw [pow128]
  split <;> omega

theorem neg_val (a : U128) : (neg a).val = (2 ^ 128 - a.val) % 2 ^ 128 := by
  have h1 := a.hi.isLt; have h2 := a.lo.isLt
  have hlt : ((0 : U64) < a.lo) ↔ 0 < a.lo.toNat := by rw [BitVec.lt_def]; simp
  unfold neg val
  simp only [BitVec.toNat_add, BitVec.toNat_neg, carry_toNat, hlt]
  generalize a.hi.toNat = ah at *
  generalize a.lo.toNat = al at *
  clear hlt
  rw [pow64] at *
  rw [pow128]
  split <;> omega

theorem sub_val (a b : U128) : (sub a b).val = (a.val + (2 ^ 128 - b.val)) % 2 ^ 128 := by
  unfold sub
  rw [add_val, neg_val, Nat.add_mod_mod]

theorem sub_val_of_le {a b : U128} (h : b.val ≤ a.val) : (sub a b).val = a.val - b.val := by
  have h1 := val_lt a
  rw [sub_val]
  rw [pow128] at *; omega

theorem mul_val (a b : U128) : (mul a b).val = (a.val * b.val) % 2 ^ 128 := by
  have key := mulFullU64_toNat a.lo b.lo
  unfold mul val
  simp only [BitVec.toNat_add, BitVec.toNat_mul]
  generalize hH : (mulFullU64 a.lo b.lo).1 = H at *
  generalize hL : (mulFullU64 a.lo b.lo).2 = L at *
  have hl := L.isLt
  have e : (a.hi.toNat * 2 ^ 64 + a.lo.toNat) * (b.hi.toNat * 2 ^ 64 + b.lo.toNat) =
      2 ^ 128 * (a.hi.toNat * b.hi.toNat) + 2 ^ 64 * (a.lo.toNat * b.hi.toNat + a.hi.toNat * b.lo.toNat) +
        a.lo.toNat * b.lo.toNat := by ring
  rw [e, ← key]
  generalize a.lo.toNat * b.hi.toNat = p
  generalize a.hi.toNat * b.lo.toNat = q
  generalize a.hi.toNat * b.hi.toNat = r
  generalize H.toNat = h at *
  generalize L.toNat = l at *
  clear hH hL e key
  rw [Nat.add_assoc, Nat.mul_add_mod]
  rw [pow64] at *
  rw [pow128]
  omega

theorem gt_iff (a b : U128) : gt a b = true ↔ a.val > b.val := by
  have h2 := a.lo.isLt; have h4 := b.lo.isLt
  unfold gt val
  simp only [Bool.or_eq_true, Bool.and_eq_true, decide_eq_true_eq, Bool.not_eq_true', decide_eq_false_iff_not,
    GT.gt, BitVec.lt_def, ← BitVec.toNat_inj]
  generalize a.hi.toNat = ah at *
  generalize a.lo.toNat = al at *
  generalize b.hi.toNat = bh at *
  generalize b.lo.toNat = bl at *
  rw [pow64] at *
  omega

theorem lt_iff (a b : U128) : lt a b = true ↔ a.val < b.val := gt_iff b a
theorem eq_iff (a b : U128) : eq a b = true ↔ a.val = b.val := by
  rw [val_inj]; cases a; cases b; simp [eq]
theorem ge_iff (a b : U128) : ge a b = true ↔ a.val ≥ b.val := by
  unfold ge; rw [Bool.or_eq_true, gt_iff, eq_iff]; omega
theorem le_iff (a b : U128) : le a b = true ↔ a.val ≤ b.val := by
  unfold le; rw [Bool.or_eq_true, lt_iff, eq_iff]; omega

/-- The limbs glued together. -/
theorem val_bv (x : U128) : x.val = (x.hi ++ x.lo).toNat := by
  unfold val
  rw [BitVec.toNat_append, Nat.shiftLeft_eq, Nat.mul_comm, ← Nat.two_pow_add_eq_or_of_lt x.lo.isLt]

theorem or_val (a b : U128) : (or a b).val = a.val ||| b.val := by
  rw [val_bv, val_bv, val_bv, ← BitVec.toNat_or, BitVec.or_append]
  rfl

theorem and_val (a b : U128) : (and a b).val = a.val &&& b.val := by
  rw [val_bv, val_bv, val_bv, ← BitVec.toNat_and, BitVec.and_append]
  rfl

theorem or_of_lt_toNat {w : Nat} {x y : BitVec w} {n : Nat} (hx : 2 ^ n ∣ x.toNat) (hy : y.toNat < 2 ^ n) :
    (x ||| y).toNat = x.toNat + y.toNat := by
  rw [BitVec.toNat_or]
  obtain ⟨c, hc⟩ := hx
  rw [hc, Nat.two_pow_add_eq_or_of_lt hy]

theorem shl_val (x : U128) (n : Nat) (hn : n ≤ 128) : (shl x n).val = (x.val * 2 ^ n) % 2 ^ 128 := by
  have hlo := x.lo.isLt
  have hhi := x.hi.isLt
  unfold shl
  split
  · next h => subst h; simpa using (Nat.mod_eq_of_lt (val_lt x)).symm
  split
  · next h => subst h; simp [val]
  split
  · next h1 h2 h =>
    have hp : 2 ^ 64 = 2 ^ n * 2 ^ (64 - n) := by rw [← Nat.pow_add]; congr 1; omega
    have hp128 : (2 : Nat) ^ 128 = 2 ^ 64 * 2 ^ 64 := rfl
    have h0 : 0 < 2 ^ n := Nat.two_pow_pos n
    have h0' : 0 < 2 ^ (64 - n) := Nat.two_pow_pos _
    have hmv : (x.lo >>> (64 - n)).toNat < 2 ^ n := by
      rw [BitVec.toNat_ushiftRight, Nat.shiftRight_eq_div_pow]
      apply Nat.div_lt_of_lt_mul
      rw [Nat.mul_comm, ← hp]; exact hlo
    have hdv : 2 ^ n ∣ (x.hi <<< n).toNat := by
      rw [BitVec.toNat_shiftLeft, Nat.shiftLeft_eq, hp, Nat.mul_comm x.hi.toNat, Nat.mul_mod_mul_left]
      exact Nat.dvd_mul_right _ _
    unfold val
    simp only
    rw [or_of_lt_toNat hdv hmv]
    rw [BitVec.toNat_shiftLeft, BitVec.toNat_shiftLeft, BitVec.toNat_ushiftRight, Nat.shiftLeft_eq, Nat.shiftLeft_eq,
      Nat.shiftRight_eq_div_pow]
    generalize x.lo.toNat = L at *
    generalize x.hi.toNat = H at *
    generalize 2 ^ n = A at *
    generalize 2 ^ (64 - n) = B at *
    have e1 : H * A % 2 ^ 64 = A * (H % B) := by rw [hp, Nat.mul_comm H, Nat.mul_mod_mul_left]
    have e2 : L * A % 2 ^ 64 = A * (L % B) := by rw [hp, Nat.mul_comm L, Nat.mul_mod_mul_left]
    rw [e1, e2]
    have hL : L = B * (L / B) + L % B := (Nat.div_add_mod L B).symm
    have hH : H = B * (H / B) + H % B := (Nat.div_add_mod H B).symm
    have hlb : L % B < B := Nat.mod_lt _ h0'
    have hhb : H % B < B := Nat.mod_lt _ h0'
    have e3 : (H * 2 ^ 64 + L) * A = 2 ^ 128 * (H / B) + ((A * (H % B) + L / B) * 2 ^ 64 + A * (L % B)) := by
      rw [hp128]
      conv_lhs => rw [hH, hL]
      conv_rhs => rw [hp]
      rw [hp]
      ring
    rw [e3, Nat.mul_add_mod]
    refine (Nat.mod_eq_of_lt ?_).symm
    have f1 : A * (L % B) < 2 ^ 64 := by rw [hp]; exact Nat.mul_lt_mul_of_pos_left hlb h0
    have f2 : A * (H % B) + L / B < 2 ^ 64 := by
      have : A * (H % B) + A ≤ A * B := by
        rw [← Nat.mul_succ]; exact Nat.mul_le_mul_left _ hhb
      have hLB : L / B < A := by
        apply Nat.div_lt_of_lt_mul; rw [Nat.mul_comm, ← hp]; exact hlo
      omega
    omega
  split
  · next h1 h2 h3 h => subst h; unfold val; simp only [BitVec.ofNat_eq_ofNat, BitVec.toNat_ofNat, Nat.zero_mod]; rw [pow64] at *; rw [pow128]; omega
  · next h1 h2 h3 h =>
    unfold val
    simp only [BitVec.toNat_shiftLeft, Nat.shiftLeft_eq]
    have hp : 2 ^ n = 2 ^ (n - 64) * 2 ^ 64 := by rw [← Nat.pow_add]; congr 1; omega
    have hp128 : (2 : Nat) ^ 128 = 2 ^ 64 * 2 ^ 64 := rfl
    rw [hp, ← Nat.mul_assoc, hp128, Nat.mul_mod_mul_right]
    have : (x.hi.toNat * 2 ^ 64 + x.lo.toNat) * 2 ^ (n - 64) =
        2 ^ 64 * (x.hi.toNat * 2 ^ (n - 64)) + x.lo.toNat * 2 ^ (n - 64) := by ring
    rw [this, Nat.mul_add_mod]
    simp

theorem shr_val (x : U128) (n : Nat) (hn : n ≤ 128) : (shr x n).val = x.val / 2 ^ n := by
  have hlo := x.lo.isLt
  have hhi := x.hi.isLt
  unfold shr
  split
  · next h => subst h; simp
  split
  · next h => subst h; rw [Nat.div_eq_of_lt (val_lt x)]; rfl
  split
  · next h1 h2 h =>
    have hp : 2 ^ 64 = 2 ^ n * 2 ^ (64 - n) := by rw [← Nat.pow_add]; congr 1; omega
    have h0 : 0 < 2 ^ n := Nat.two_pow_pos n
    have h0' : 0 < 2 ^ (64 - n) := Nat.two_pow_pos _
    have hm := and_mask_toNat x.hi n h
    have hlt : (x.lo >>> n).toNat < 2 ^ (64 - n) := by
      rw [BitVec.toNat_ushiftRight, Nat.shiftRight_eq_div_pow]
      apply Nat.div_lt_of_lt_mul
      rw [← hp]; exact hlo
    have hdv : 2 ^ (64 - n) ∣ ((x.hi &&& ((1 : U64) <<< n - 1)) <<< (64 - n)).toNat := by
      rw [BitVec.toNat_shiftLeft, Nat.shiftLeft_eq, hp, Nat.mul_mod_mul_right]
      exact Nat.dvd_mul_left _ _
    unfold val
    simp only
    rw [BitVec.or_comm, or_of_lt_toNat hdv hlt]
    rw [BitVec.toNat_shiftLeft, hm, BitVec.toNat_ushiftRight, BitVec.toNat_ushiftRight, Nat.shiftLeft_eq,
      Nat.shiftRight_eq_div_pow, Nat.shiftRight_eq_div_pow]
    generalize x.lo.toNat = L at *
    generalize x.hi.toNat = H at *
    generalize 2 ^ n = A at *
    generalize 2 ^ (64 - n) = B at *
    have e1 : H % A * B % 2 ^ 64 = H % A * B := by
      rw [hp, Nat.mul_mod_mul_right, Nat.mod_mod]
    rw [e1]
    have hH : H = A * (H / A) + H % A := (Nat.div_add_mod H A).symm
    have e2 : H * 2 ^ 64 + L = L + A * (H / A * 2 ^ 64 + H % A * B) := by
      conv_lhs => rw [hH]
      have : (A * (H / A) + H % A) * 2 ^ 64 = A * (H / A) * 2 ^ 64 + H % A * (A * B) := by rw [← hp]; ring
      rw [this]; ring
    rw [e2, Nat.add_mul_div_left _ _ h0]
    ring
  split
  · next h1 h2 h3 h => subst h; unfold val; simp only [BitVec.ofNat_eq_ofNat, BitVec.toNat_ofNat, Nat.zero_mod]; rw [pow64] at *; omega
  · next h1 h2 h3 h =>
    unfold val
    simp only [BitVec.toNat_ushiftRight, Nat.shiftRight_eq_div_pow]
    have hp : 2 ^ n = 2 ^ 64 * 2 ^ (n - 64) := by rw [← Nat.pow_add]; congr 1; omega
    rw [hp, ← Nat.div_div_eq_div_mul]
    have : (x.hi.toNat * 2 ^ 64 + x.lo.toNat) / 2 ^ 64 = x.hi.toNat := by omega
    rw [this]; simp

theorem countlZero_lt {x : U64} (h : x ≠ 0) : 63 - countlZero x = Nat.log2 x.toNat := by
  have h0 : x.toNat ≠ 0 := by
    intro hh; exact h (BitVec.eq_of_toNat_eq (by simpa using hh))
  have : Nat.log2 x.toNat < 64 := (Nat.log2_lt h0).2 x.isLt
  simp only [countlZero, h, if_false]
  omega

theorem msbIdx_eq (x : U128) (h : x.val ≠ 0) : msbIdx x = Nat.log2 x.val := by
  unfold msbIdx
  have hl := x.lo.isLt
  split
  · next hh =>
    have hne : x.hi ≠ 0 := by rintro h0; rw [h0] at hh; exact absurd hh (by simp)
    have h1 := countlZero_lt hne
    have h2 : x.hi.toNat ≠ 0 := by
      intro h0; exact hne (BitVec.eq_of_toNat_eq (by simpa using h0))
    have h3 : Nat.log2 x.hi.toNat < 64 := (Nat.log2_lt h2).2 x.hi.isLt
    have hc : countlZero x.hi = 63 - Nat.log2 x.hi.toNat := by
      unfold countlZero; rw [if_neg hne]
    rw [hc]
    symm
    rw [Nat.log2_eq_iff h]
    have h4 := Nat.log2_self_le h2
    have h5 : x.hi.toNat < 2 ^ (Nat.log2 x.hi.toNat + 1) := Nat.lt_log2_self
    unfold val
    generalize Nat.log2 x.hi.toNat = L at *
    have e1 : 2 ^ (127 - (63 - L)) = 2 ^ L * 2 ^ 64 := by rw [← Nat.pow_add]; congr 1; omega
    have e2 : 2 ^ (127 - (63 - L) + 1) = 2 ^ (L + 1) * 2 ^ 64 := by rw [← Nat.pow_add]; congr 1; omega
    rw [e1, e2]
    constructor
    · exact Nat.le_trans (Nat.mul_le_mul_right _ h4) (Nat.le_add_right _ _)
    · have : (x.hi.toNat + 1) * 2 ^ 64 ≤ 2 ^ (L + 1) * 2 ^ 64 := Nat.mul_le_mul_right _ h5
      rw [Nat.add_mul, Nat.one_mul] at this
      exact Nat.lt_of_lt_of_le (Nat.add_lt_add_left hl _) this
  · next hh =>
    have h0 : x.hi.toNat = 0 := by
      simp only [GT.gt, BitVec.lt_def] at hh
      simpa using hh
    have hv : x.val = x.lo.toNat := by unfold val; rw [h0]; simp
    rw [hv] at h ⊢
    have hne : x.lo ≠ 0 := by rintro h1; rw [h1] at h; simp at h
    rw [if_pos]
    · exact countlZero_lt hne
    · simp only [GT.gt, BitVec.lt_def]
      simpa using Nat.pos_of_ne_zero h

theorem or_one_val {x : U128} (h : x.val % 2 = 0) : (or x («from» 1)).val = x.val + 1 := by
  rw [or_val, val_from]
  have : (1 : U64).toNat = 1 := by simp
  rw [this]
  obtain ⟨c, hc⟩ : ∃ c, x.val = 2 ^ 1 * c := ⟨x.val / 2, by omega⟩
  rw [hc, ← Nat.two_pow_add_eq_or_of_lt (by omega)]

theorem divmod_spec (n m : U128) (hm : m.val ≠ 0) :
    ∃ q r, divmod n m = .ok (q, r) ∧ q.val = n.val / m.val ∧ r.val = n.val % m.val := by
  unfold divmod
  by_cases h1 : gt m n = true
  · rw [if_pos h1]
    rw [gt_iff] at h1
    exact ⟨_, _, rfl, by simp [Nat.div_eq_of_lt h1], by rw [Nat.mod_eq_of_lt h1]⟩
  rw [if_neg h1]
  by_cases h2 : eq m n = true
  · rw [if_pos h2]
    rw [eq_iff] at h2
    refine ⟨_, _, rfl, ?_, ?_⟩
    · rw [← h2, Nat.div_self (by omega)]; simp
    · rw [← h2, Nat.mod_self]; simp
  rw [if_neg h2]
  rw [gt_iff] at h1
  rw [eq_iff] at h2
  have hnm : m.val < n.val := by omega
  have hn : n.val ≠ 0 := by omega
  have hN := val_lt n
  rw [msbIdx_eq n hn, msbIdx_eq m hm]
  have a1 := Nat.log2_self_le hn
  have a2 : n.val < 2 ^ (Nat.log2 n.val + 1) := Nat.lt_log2_self
  have b1 := Nat.log2_self_le hm
  have b2 : m.val < 2 ^ (Nat.log2 m.val + 1) := Nat.lt_log2_self
  have hlog : Nat.log2 m.val ≤ Nat.log2 n.val := by
    by_contra hc
    have : 2 ^ (Nat.log2 n.val + 1) ≤ 2 ^ Nat.log2 m.val := Nat.pow_le_pow_right (by omega) (by omega)
    omega
  have hL : Nat.log2 n.val < 128 := (Nat.log2_lt hn).2 hN
  obtain ⟨sh, hsh⟩ : ∃ sh, Nat.log2 n.val = Nat.log2 m.val + sh := ⟨_, (Nat.add_sub_cancel' hlog).symm⟩
  have hsub : Nat.log2 n.val - Nat.log2 m.val = sh := by omega
  rw [hsub]
  have hshl : sh ≤ 127 := by omega
  have hub : n.val < m.val * 2 ^ (sh + 1) := by
    calc n.val < 2 ^ (Nat.log2 n.val + 1) := a2
      _ = 2 ^ Nat.log2 m.val * 2 ^ (sh + 1) := by rw [hsh, ← Nat.pow_add, Nat.add_assoc]
      _ ≤ _ := Nat.mul_le_mul_right _ b1
  have hD : m.val * 2 ^ sh < 2 ^ 128 := by
    calc m.val * 2 ^ sh < 2 ^ (Nat.log2 m.val + 1) * 2 ^ sh := Nat.mul_lt_mul_of_pos_right b2 (Nat.two_pow_pos _)
      _ = 2 ^ (Nat.log2 n.val + 1) := by rw [hsh, ← Nat.pow_add]; congr 1; omega
      _ ≤ 2 ^ 128 := Nat.pow_le_pow_right (by omega) (by omega)
  have hsv : (shl m sh).val = m.val * 2 ^ sh := by rw [shl_val _ _ (by omega), Nat.mod_eq_of_lt hD]
  simp only [shlChk, if_pos (show sh ≤ 128 by omega), Res.ok_bind]
  have loop := forLoop_Ok1 (lo := 0) (hi := sh + 1) (by omega) (body := fun _ s => divStep s) (s := (zero, n, shl m sh))
    (fun j s => s.1.val * (m.val * 2 ^ (sh + 1 - j)) + s.2.1.val = n.val ∧ s.2.1.val < m.val * 2 ^ (sh + 1 - j) ∧
      s.1.val < 2 ^ j ∧ s.2.2.val = m.val * 2 ^ sh / 2 ^ j)
    ⟨by simp, by simpa using hub, by simp, by simpa using hsv⟩ ?_
  · obtain ⟨⟨q, r, dd⟩, e, i1, i2, -, -⟩ := loop
    rw [e]
    simp only [Nat.sub_self, Nat.pow_zero, Nat.mul_one] at i1 i2
    refine ⟨q, r, rfl, ?_, ?_⟩
    · rw [← i1, Nat.mul_comm, Nat.mul_add_div (by omega), Nat.div_eq_of_lt i2, Nat.add_zero]
    · rw [← i1, Nat.mul_comm, Nat.mul_add_mod, Nat.mod_eq_of_lt i2]
  · rintro j ⟨q, r, dd⟩ - hj ⟨i1, i2, i3, i4⟩
    simp only at i1 i2 i3 i4
    have hexp : sh + 1 - j = (sh - j) + 1 := by omega
    have hexp' : sh + 1 - (j + 1) = sh - j := by omega
    have hdd : dd.val = m.val * 2 ^ (sh - j) := by
      rw [i4]
      have : 2 ^ sh = 2 ^ (sh - j) * 2 ^ j := by rw [← Nat.pow_add]; congr 1; omega
      rw [this, ← Nat.mul_assoc, Nat.mul_div_cancel _ (Nat.two_pow_pos j)]
    have hq2 : (shl q 1).val = q.val * 2 := by
      rw [shl_val _ _ (by omega), Nat.pow_one, Nat.mod_eq_of_lt]
      calc q.val * 2 < 2 ^ j * 2 := by omega
        _ = 2 ^ (j + 1) := by rw [Nat.pow_succ]
        _ ≤ 2 ^ 128 := Nat.pow_le_pow_right (by omega) (by omega)
    have hd2 : (shr dd 1).val = m.val * 2 ^ sh / 2 ^ (j + 1) := by
      rw [shr_val _ _ (by omega), i4, Nat.div_div_eq_div_mul, Nat.pow_one, Nat.pow_succ]
    simp only [divStep, shlChk, shrChk, if_pos (show 1 ≤ 128 by omega), Res.ok_bind]
    rw [hexp, Nat.pow_succ, ← Nat.mul_assoc m.val, ← hdd] at i1 i2
    by_cases hge : ge r dd = true
    · rw [if_pos hge]
      rw [ge_iff] at hge
      simp only [Res.ok_ok]
      rw [hexp', or_one_val (by rw [hq2]; omega), hq2, sub_val_of_le hge, hd2, ← hdd]
      refine ⟨?_, by omega, ?_, rfl⟩
      · have : (q.val * 2 + 1) * dd.val = q.val * (dd.val * 2) + dd.val := by ring
        omega
      · rw [Nat.pow_succ]; omega
    · rw [if_neg hge]
      rw [ge_iff] at hge
      simp only [Res.ok_ok]
      rw [hexp', hq2, hd2, ← hdd]
      refine ⟨?_, by omega, ?_, rfl⟩
      · have : (q.val * 2) * dd.val = q.val * (dd.val * 2) := by ring
        omega
      · rw [Nat.pow_succ]; omega

end U128
end Raccoon
