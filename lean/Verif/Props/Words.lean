import Verif.Proofs.U128
/-!
# C01–C04: 128-bit arithmetic (`u64.hpp`, `u128.hpp`)

`U128.val` (Spec/Word.lean) is the natural number denoted by the two limbs.
-/
namespace Raccoon
attribute [-instance] Monoid.toNPow
open U128

/-- C01: `+ - * unary-` are arithmetic modulo 2^128 and the 64×64 product is exact. -/
theorem C01_arith_mod_2_128 (a b : U128) :
    (U128.add a b).val = (a.val + b.val) % 2 ^ 128 ∧
    (U128.mul a b).val = (a.val * b.val) % 2 ^ 128 ∧
    ((U128.sub a b).val : Int) = ((a.val : Int) - b.val) % 2 ^ 128 ∧
    ((U128.neg a).val : Int) = (-(a.val : Int)) % 2 ^ 128 := by
  refine ⟨add_val a b, mul_val a b, ?_, ?_⟩
  · have h1 := val_lt a; have h2 := val_lt b
    rw [sub_val]
    generalize a.val = x at *
    generalize b.val = y at *
    rw [pow128] at *
    have : (2 : Int) ^ 128 = 340282366920938463463374607431768211456 := by norm_num
    rw [this]; omega
  · have h1 := val_lt a
    rw [neg_val]
    generalize a.val = x at *
    rw [pow128] at *
    have : (2 : Int) ^ 128 = 340282366920938463463374607431768211456 := by norm_num
    rw [this]; omega

/-- C01: full 64-bit multiplication returns the exact product (high word, low word). -/
theorem C01_mul_full_u64 (a b : U64) :
    (mulFullU64 a b).1.toNat * 2 ^ 64 + (mulFullU64 a b).2.toNat = a.toNat * b.toNat :=
  mulFullU64_toNat a b

/-- C02: for a non-zero divisor, `/` and `%` are Euclidean quotient and remainder and no shift is out of range
(the outcome is `ok`). -/
theorem C02_divmod (n m : U128) (hm : m.val ≠ 0) :
    ∃ q r, U128.div n m = .ok q ∧ U128.mod n m = .ok r ∧ q.val = n.val / m.val ∧ r.val = n.val % m.val := by
  obtain ⟨q, r, h, hq, hr⟩ := divmod_spec n m hm
  exact ⟨q, r, by simp [U128.div, h], by simp [U128.mod, h], hq, hr⟩

/-- Non-vacuity of C02. -/
example : (⟨0, 3⟩ : U128).val ≠ 0 := by decide

theorem val_testBit (x : U128) (i : Nat) : x.val.testBit i = (x.hi ++ x.lo).getLsbD i := by
  rw [val_bv, BitVec.getLsbD]

/-- C03: shifts by `n ≤ 128` are multiplication by 2^n mod 2^128 and floor division by 2^n. -/
theorem C03_shifts (x : U128) (n : Nat) (hn : n ≤ 128) :
    (∃ y, U128.shlChk x n = .ok y ∧ y.val = x.val * 2 ^ n % 2 ^ 128) ∧
    (∃ y, U128.shrChk x n = .ok y ∧ y.val = x.val / 2 ^ n) := by
  simp only [shlChk, shrChk, if_pos hn]
  exact ⟨⟨_, rfl, shl_val x n hn⟩, ⟨_, rfl, shr_val x n hn⟩⟩

/-- C03: comparisons are comparisons of the values. -/
theorem C03_compare (a b : U128) :
    (U128.gt a b = true ↔ a.val > b.val) ∧ (U128.lt a b = true ↔ a.val < b.val) ∧
    (U128.ge a b = true ↔ a.val ≥ b.val) ∧ (U128.le a b = true ↔ a.val ≤ b.val) ∧
    (U128.eq a b = true ↔ a.val = b.val) ∧ (a.val = b.val ↔ a = b) :=
  ⟨gt_iff a b, lt_iff a b, ge_iff a b, le_iff a b, eq_iff a b, val_inj⟩

/-- C03: `|` and `&` are bitwise. -/
theorem C03_bitwise (a b : U128) :
    (U128.or a b).val = a.val ||| b.val ∧ (U128.and a b).val = a.val &&& b.val :=
  ⟨or_val a b, and_val a b⟩

theorem testBit_ge {x i : Nat} (h : x < 2 ^ 128) (hi : 128 ≤ i) : x.testBit i = false :=
  Nat.testBit_lt_two_pow (Nat.lt_of_lt_of_le h (Nat.pow_le_pow_right (by omega) hi))

/-- C03: `rotl n` moves bit `j` to bit `(j + n) mod 128`. -/
theorem C03_rotl (x : U128) (n : Nat) (hn : n ≤ 128) :
    ∃ y, U128.rotl x n = .ok y ∧ ∀ j < 128, y.val.testBit ((j + n) % 128) = x.val.testBit j := by
  have hx := val_lt x
  simp only [rotl, shlChk, shrChk, if_pos hn, if_pos (show 128 - n ≤ 128 by omega), Res.ok_bind]
  refine ⟨_, rfl, fun j hj => ?_⟩
  rw [or_val, Nat.testBit_or, shl_val _ _ hn, shr_val _ _ (by omega), Nat.testBit_mod_two_pow,
    ← Nat.shiftLeft_eq, Nat.testBit_shiftLeft, ← Nat.shiftRight_eq_div_pow, Nat.testBit_shiftRight]
  have hlt : (j + n) % 128 < 128 := Nat.mod_lt _ (by omega)
  rcases Nat.lt_or_ge (j + n) 128 with h | h
  · have e : (j + n) % 128 = j + n := Nat.mod_eq_of_lt h
    rw [e, testBit_ge hx (show 128 ≤ 128 - n + (j + n) by omega), Bool.or_false]
    simp [h]
  · have hle : j + n < 256 := by omega
    have e : (j + n) % 128 = j + n - 128 := by omega
    rw [e]
    have e2 : 128 - n + (j + n - 128) = j := by omega
    rw [e2]
    rcases Nat.lt_or_ge (j + n - 128) n with h' | h'
    · have : ¬ n ≤ j + n - 128 := by omega
      simp [this]
    · omega

/-- C03: `rotr n` moves bit `(j + n) mod 128` to bit `j`. -/
theorem C03_rotr (x : U128) (n : Nat) (hn : n ≤ 128) :
    ∃ y, U128.rotr x n = .ok y ∧ ∀ j < 128, y.val.testBit j = x.val.testBit ((j + n) % 128) := by
  have hx := val_lt x
  simp only [rotr, shlChk, shrChk, if_pos hn, if_pos (show 128 - n ≤ 128 by omega), Res.ok_bind]
  refine ⟨_, rfl, fun j hj => ?_⟩
  rw [or_val, Nat.testBit_or, shl_val _ _ (by omega), shr_val _ _ hn, Nat.testBit_mod_two_pow,
    ← Nat.shiftLeft_eq, Nat.testBit_shiftLeft, ← Nat.shiftRight_eq_div_pow, Nat.testBit_shiftRight]
  rcases Nat.lt_or_ge (j + n) 128 with h | h
  · have e : (j + n) % 128 = j + n := Nat.mod_eq_of_lt h
    have : ¬ 128 - n ≤ j := by omega
    rw [e, Nat.add_comm n j]
    simp [this]
  · have e : (j + n) % 128 = j + n - 128 ∨ (j + n) % 128 = 0 ∧ j + n = 256 := by omega
    rw [testBit_ge hx (show 128 ≤ n + j by omega), Bool.false_or]
    have h1 : 128 - n ≤ j := by omega
    have e1 : (j + n) % 128 = j - (128 - n) := by omega
    rw [e1]; simp [hj, h1]

/-- C03: `rotr n` undoes `rotl n`. -/
theorem C03_rot_inverse (x : U128) (n : Nat) (hn : n ≤ 128) :
    ∃ y, U128.rotl x n = .ok y ∧ U128.rotr y n = .ok x := by
  obtain ⟨y, h1, h2⟩ := C03_rotl x n hn
  obtain ⟨w, h3, h4⟩ := C03_rotr y n hn
  refine ⟨y, h1, ?_⟩
  rw [h3]
  congr 1
  apply val_inj.1
  apply Nat.eq_of_testBit_eq
  intro i
  rcases Nat.lt_or_ge i 128 with h | h
  · rw [h4 i h, h2 i h]
  · rw [testBit_ge (val_lt _) h, testBit_ge (val_lt _) h]

/-- Non-vacuity of C03: a rotation crossing the limb boundary. -/
example : U128.rotl ⟨0x8000000000000000, 1⟩ 68 = .ok ⟨0x18, 0⟩ := by decide

/-! ### C04: the `__int128` back-end -/

/-- The compiler's 128-bit word with the same value as the two limbs. -/
def U128.bv (x : U128) : I128.W := BitVec.ofNat 128 x.val

theorem bv_toNat (x : U128) : x.bv.toNat = x.val := by
  rw [U128.bv, BitVec.toNat_ofNat, Nat.mod_eq_of_lt (val_lt x)]

theorem bv_ext {w : I128.W} {x : U128} (h : w.toNat = x.val) : w = x.bv :=
  BitVec.eq_of_toNat_eq (by rw [bv_toNat, h])

theorem bv_add (a b : U128) : I128.add a.bv b.bv = (U128.add a b).bv :=
  bv_ext (by rw [I128.add, BitVec.toNat_add, bv_toNat, bv_toNat, add_val])
theorem bv_neg (a : U128) : I128.neg a.bv = (U128.neg a).bv :=
  bv_ext (by rw [I128.neg, BitVec.toNat_neg, bv_toNat, neg_val])
theorem bv_sub (a b : U128) : I128.sub a.bv b.bv = (U128.sub a b).bv := by
  rw [I128.sub, bv_neg, bv_add]; rfl
theorem bv_mul (a b : U128) : I128.mul a.bv b.bv = (U128.mul a b).bv :=
  bv_ext (by rw [I128.mul, BitVec.toNat_mul, bv_toNat, bv_toNat, mul_val])
theorem bv_or (a b : U128) : I128.or a.bv b.bv = (U128.or a b).bv :=
  bv_ext (by rw [I128.or, BitVec.toNat_or, bv_toNat, bv_toNat, or_val])
theorem bv_and (a b : U128) : I128.and a.bv b.bv = (U128.and a b).bv :=
  bv_ext (by rw [I128.and, BitVec.toNat_and, bv_toNat, bv_toNat, and_val])
theorem bv_gt (a b : U128) : I128.gt a.bv b.bv = U128.gt a b := by
  rw [Bool.eq_iff_iff, gt_iff]; simp [I128.gt, BitVec.lt_def, bv_toNat]
theorem bv_eq (a b : U128) : I128.eq a.bv b.bv = U128.eq a b := by
  rw [Bool.eq_iff_iff, eq_iff]; simp [I128.eq, ← BitVec.toNat_inj, bv_toNat]
theorem bv_from (v : U64) : I128.from v = (U128.from v).bv :=
  bv_ext (by
    rw [val_from, I128.from, BitVec.toNat_setWidth, Nat.mod_eq_of_lt]
    exact Nat.lt_of_lt_of_le v.isLt (Nat.pow_le_pow_right (by omega) (by omega)))
theorem bv_to64 (a : U128) : I128.to64 a.bv = a.to64 :=
  BitVec.eq_of_toNat_eq (by rw [to64_toNat, I128.to64, BitVec.toNat_setWidth, bv_toNat])
theorem bv_shl (a : U128) (n : Nat) (hn : n < 128) : I128.shl a.bv n = .ok (U128.shl a n).bv := by
  rw [I128.shl, if_pos hn]; congr 1
  exact bv_ext (by rw [BitVec.toNat_shiftLeft, bv_toNat, Nat.shiftLeft_eq, shl_val _ _ (by omega)])
theorem bv_shr (a : U128) (n : Nat) (hn : n < 128) : I128.shr a.bv n = .ok (U128.shr a n).bv := by
  rw [I128.shr, if_pos hn]; congr 1
  exact bv_ext (by rw [BitVec.toNat_ushiftRight, bv_toNat, Nat.shiftRight_eq_div_pow, shr_val _ _ (by omega)])
theorem bv_ge (a b : U128) : I128.ge a.bv b.bv = U128.ge a b := by
  rw [I128.ge, bv_gt, bv_eq]; rfl
theorem bv_le (a b : U128) : I128.le a.bv b.bv = U128.le a b := by
  rw [I128.le, I128.lt, bv_gt, bv_eq]; rfl

theorem hi_of_val {h l : Nat} (hh : h < 2 ^ 64) (hl : l < 2 ^ 64) : (h * 2 ^ 64 + l) / 2 ^ 64 % 2 ^ 64 = h := by
  rw [pow64] at *; omega
theorem lo_of_val {h l : Nat} (hl : l < 2 ^ 64) : (h * 2 ^ 64 + l) % 2 ^ 64 = l := by
  rw [pow64] at *; omega

theorem bv_msbIdx (a : U128) : I128.msbIdx a.bv = U128.msbIdx a := by
  have hl := a.lo.isLt
  have hh := a.hi.isLt
  have e1 : ((a.bv >>> 64).setWidth 64 : U64) = a.hi := by
    apply BitVec.eq_of_toNat_eq
    rw [BitVec.toNat_setWidth, BitVec.toNat_ushiftRight, bv_toNat, Nat.shiftRight_eq_div_pow]
    exact hi_of_val hh hl
  have e2 : ((a.bv >>> 0).setWidth 64 : U64) = a.lo := by
    apply BitVec.eq_of_toNat_eq
    rw [BitVec.toNat_setWidth, BitVec.toNat_ushiftRight, bv_toNat, Nat.shiftRight_zero]
    exact lo_of_val hl
  simp only [I128.msbIdx, e1, e2, U128.msbIdx]

theorem msbIdx_le (a : U128) : U128.msbIdx a ≤ 127 := by
  unfold U128.msbIdx; split
  · omega
  · split <;> omega

theorem I128_divStep_eq {q r d q' d' : I128.W} (hq : I128.shl q 1 = .ok q') (hd : I128.shr d 1 = .ok d') :
    I128.divStep (q, r, d) =
      .ok (bif I128.ge r d then (I128.or q' (I128.from 1), I128.sub r d, d') else (q', r, d')) := by
  simp only [I128.divStep, hq, hd, Res.ok_bind]
  cases I128.ge r d <;> rfl

theorem U128_divStep_eq {q r d q' d' : U128} (hq : U128.shlChk q 1 = .ok q') (hd : U128.shrChk d 1 = .ok d') :
    U128.divStep (q, r, d) =
      .ok (bif U128.ge r d then (U128.or q' (U128.from 1), U128.sub r d, d') else (q', r, d')) := by
  simp only [U128.divStep, hq, hd, Res.ok_bind]
  cases U128.ge r d <;> rfl

/-- The triple of machine words of a triple of two-limb words. -/
def bv3 (t : U128 × U128 × U128) : I128.W × I128.W × I128.W := (t.1.bv, t.2.1.bv, t.2.2.bv)

theorem bv3_mk (a b c : U128) : bv3 (a, b, c) = (a.bv, b.bv, c.bv) := rfl

theorem bv_divStep (s : U128 × U128 × U128) :
    I128.divStep (bv3 s) = bv3 <$> U128.divStep s := by
  obtain ⟨q, r, dd⟩ := s
  have h1 : U128.shlChk q 1 = .ok (U128.shl q 1) := by rw [shlChk, if_pos (by omega)]
  have h2 : U128.shrChk dd 1 = .ok (U128.shr dd 1) := by rw [shrChk, if_pos (by omega)]
  rw [bv3_mk, I128_divStep_eq (bv_shl q 1 (by omega)) (bv_shr dd 1 (by omega)), U128_divStep_eq h1 h2, Res.ok_map, bv_ge,
    bv_sub, bv_from, bv_or]
  cases U128.ge r dd
  · rw [cond_false, cond_false, bv3_mk]
  · rw [cond_true, cond_true, bv3_mk]

theorem foldlM_map {σ τ ι : Type} (g : σ → τ) {b1 : σ → ι → Res σ} {b2 : τ → ι → Res τ}
    (h : ∀ s i, b2 (g s) i = g <$> b1 s i) (L : List ι) (s : σ) :
    L.foldlM b2 (g s) = g <$> L.foldlM b1 s := by
  induction L generalizing s with
  | nil => rfl
  | cons i L ih =>
    rw [List.foldlM_cons, List.foldlM_cons, h]
    cases b1 s i with
    | ok a => exact ih a
    | ub => rfl
    | nofuel => rfl

theorem I128_divmod_eq {n m m' : I128.W} (hm : I128.shl m (I128.msbIdx n - I128.msbIdx m) = .ok m') :
    I128.divmod n m = bif I128.gt m n then .ok (0, n) else bif I128.eq m n then .ok (I128.from 1, 0) else
      (fun t => (t.1, t.2.1)) <$>
        forLoop 0 (I128.msbIdx n - I128.msbIdx m + 1) 1 (fun _ s => I128.divStep s) (0, n, m') := by
  simp only [I128.divmod, hm, Res.ok_bind]
  cases I128.gt m n
  · cases I128.eq m n
    · simp only [cond_false, Bool.false_eq_true, if_false]
      cases forLoop 0 (I128.msbIdx n - I128.msbIdx m + 1) 1 (fun _ s => I128.divStep s) (0, n, m') <;> rfl
    · rfl
  · rfl

theorem U128_divmod_eq {n m m' : U128} (hm : U128.shlChk m (U128.msbIdx n - U128.msbIdx m) = .ok m') :
    U128.divmod n m = bif U128.gt m n then .ok (zero, n) else bif U128.eq m n then .ok (U128.from 1, zero) else
      (fun t => (t.1, t.2.1)) <$>
        forLoop 0 (U128.msbIdx n - U128.msbIdx m + 1) 1 (fun _ s => U128.divStep s) (zero, n, m') := by
  simp only [U128.divmod, hm, Res.ok_bind]
  cases U128.gt m n
  · cases U128.eq m n
    · simp only [cond_false, Bool.false_eq_true, if_false]
      cases forLoop 0 (U128.msbIdx n - U128.msbIdx m + 1) 1 (fun _ s => U128.divStep s) (zero, n, m') <;> rfl
    · rfl
  · rfl

theorem bv_zero : (zero).bv = (0 : I128.W) := by
  apply BitVec.eq_of_toNat_eq; rw [bv_toNat, val_zero]; rfl

/-- The pair of machine words of a pair of two-limb words. -/
def bv2 (t : U128 × U128) : I128.W × I128.W := (t.1.bv, t.2.bv)

theorem bv2_mk (a b : U128) : bv2 (a, b) = (a.bv, b.bv) := rfl

theorem forLoop_map {σ τ : Type} (g : σ → τ) {b1 : σ → Res σ} {b2 : τ → Res τ}
    (h : ∀ s, b2 (g s) = g <$> b1 s) (n : Nat) (s : σ) :
    forLoop 0 n 1 (fun _ s => b2 s) (g s) = g <$> forLoop 0 n 1 (fun _ s => b1 s) s := by
  unfold forLoop
  exact foldlM_map g (b1 := fun s _ => b1 s) (b2 := fun s _ => b2 s) (fun s _ => h s) _ s

theorem bv_divmod (n m : U128) : I128.divmod n.bv m.bv = bv2 <$> U128.divmod n m := by
  have h1 := msbIdx_le n
  have hs : U128.shlChk m (U128.msbIdx n - U128.msbIdx m) = .ok (U128.shl m (U128.msbIdx n - U128.msbIdx m)) := by
    rw [shlChk, if_pos (by omega)]
  have hs' : I128.shl m.bv (I128.msbIdx n.bv - I128.msbIdx m.bv) = .ok (U128.shl m (U128.msbIdx n - U128.msbIdx m)).bv := by
    rw [bv_msbIdx, bv_msbIdx, bv_shl _ _ (by omega)]
  rw [I128_divmod_eq hs', U128_divmod_eq hs, bv_gt, bv_eq]
  cases U128.gt m n
  · cases U128.eq m n
    · rw [cond_false, cond_false, cond_false, cond_false, ← bv_zero, ← bv3_mk, forLoop_map bv3 bv_divStep,
        bv_msbIdx, bv_msbIdx]
      generalize forLoop 0 (U128.msbIdx n - U128.msbIdx m + 1) 1 (fun _ s => U128.divStep s) _ = r
      cases r <;> rfl
    · rw [cond_false, cond_true, cond_false, cond_true, bv_from, ← bv_zero, Res.ok_map, bv2_mk]
  · rw [cond_true, cond_true, Res.ok_map, bv2_mk, ← bv_zero]

/-- C04: the `__int128` build computes the same value as the two-limb build, for every operation
that is defined in it: arithmetic, comparison, conversion and bit operations always, division (for every pair of
arguments), shifts for `n < 128`, rotations for `0 < n < 128`. -/
theorem C04_backends_agree (a b : U128) (v : U64) (x y : U64) (n : Nat) :
    I128.add a.bv b.bv = (U128.add a b).bv ∧ I128.sub a.bv b.bv = (U128.sub a b).bv ∧
    I128.neg a.bv = (U128.neg a).bv ∧ I128.mul a.bv b.bv = (U128.mul a b).bv ∧
    I128.or a.bv b.bv = (U128.or a b).bv ∧ I128.and a.bv b.bv = (U128.and a b).bv ∧
    I128.gt a.bv b.bv = U128.gt a b ∧ I128.lt a.bv b.bv = U128.lt a b ∧ I128.ge a.bv b.bv = U128.ge a b ∧
    I128.le a.bv b.bv = U128.le a b ∧ I128.eq a.bv b.bv = U128.eq a b ∧
    I128.from v = (U128.from v).bv ∧ I128.to64 a.bv = U128.to64 a ∧
    I128.mulFullU64 x y = mulFullU64 x y ∧
    I128.divmod a.bv b.bv = bv2 <$> U128.divmod a b ∧
    (∀ w, I128.shl a.bv n = .ok w → ∃ u, U128.shlChk a n = .ok u ∧ w = u.bv) ∧
    (∀ w, I128.shr a.bv n = .ok w → ∃ u, U128.shrChk a n = .ok u ∧ w = u.bv) ∧
    (∀ w, I128.rotl a.bv n = .ok w → ∃ u, U128.rotl a n = .ok u ∧ w = u.bv) ∧
    (∀ w, I128.rotr a.bv n = .ok w → ∃ u, U128.rotr a n = .ok u ∧ w = u.bv) := by
  refine ⟨bv_add a b, bv_sub a b, bv_neg a, bv_mul a b, bv_or a b, bv_and a b, bv_gt a b, bv_gt b a, bv_ge a b, bv_le a b,
    bv_eq a b, bv_from v, bv_to64 a, ?_, bv_divmod a b, ?_, ?_, ?_, ?_⟩
  · have key := mulFullU64_toNat x y
    have hx := x.isLt
    have hy := y.isLt
    have hl := (mulFullU64 x y).2.isLt
    have hlt : x.toNat * y.toNat < 2 ^ 128 := by
      calc x.toNat * y.toNat < 2 ^ 64 * 2 ^ 64 := Nat.mul_lt_mul'' hx hy
        _ = 2 ^ 128 := by norm_num
    have e : (x.setWidth 128 * y.setWidth 128 : I128.W).toNat = x.toNat * y.toNat := by
      rw [BitVec.toNat_mul, BitVec.toNat_setWidth, BitVec.toNat_setWidth,
        Nat.mod_eq_of_lt (Nat.lt_of_lt_of_le hx (Nat.pow_le_pow_right (by omega) (by omega))),
        Nat.mod_eq_of_lt (Nat.lt_of_lt_of_le hy (Nat.pow_le_pow_right (by omega) (by omega))), Nat.mod_eq_of_lt hlt]
    have hH := (mulFullU64 x y).1.isLt
    apply Prod.ext
    · apply BitVec.eq_of_toNat_eq
      simp only [I128.mulFullU64]
      rw [BitVec.toNat_setWidth, BitVec.toNat_ushiftRight, e, Nat.shiftRight_eq_div_pow, ← key]
      exact hi_of_val hH hl
    · apply BitVec.eq_of_toNat_eq
      simp only [I128.mulFullU64]
      rw [BitVec.toNat_setWidth, e, ← key]
      exact lo_of_val hl
  · intro w h
    rcases Nat.lt_or_ge n 128 with hn | hn
    · rw [bv_shl _ _ hn] at h
      exact ⟨_, by rw [shlChk, if_pos (by omega)], by cases h; rfl⟩
    · rw [I128.shl, if_neg (by omega)] at h; cases h
  · intro w h
    rcases Nat.lt_or_ge n 128 with hn | hn
    · rw [bv_shr _ _ hn] at h
      exact ⟨_, by rw [shrChk, if_pos (by omega)], by cases h; rfl⟩
    · rw [I128.shr, if_neg (by omega)] at h; cases h
  · intro w h
    unfold I128.rotl at h
    split at h
    · next hn =>
      rcases Nat.lt_or_ge n 128 with h1 | h1
      · rcases Nat.lt_or_ge (128 - n) 128 with h2 | h2
        · rw [bv_shl _ _ h1, bv_shr _ _ h2] at h
          simp only [Res.ok_bind, bv_or] at h
          refine ⟨U128.or (shl a n) (shr a (128 - n)), ?_, by cases h; rfl⟩
          simp only [rotl, if_pos hn, shlChk, shrChk, if_pos (show 128 - n ≤ 128 by omega), Res.ok_bind]
        · rw [bv_shl _ _ h1, I128.shr, if_neg (by omega)] at h; cases h
      · rw [I128.shl, if_neg (by omega)] at h; cases h
    · cases h
  · intro w h
    unfold I128.rotr at h
    split at h
    · next hn =>
      rcases Nat.lt_or_ge n 128 with h1 | h1
      · rcases Nat.lt_or_ge (128 - n) 128 with h2 | h2
        · rw [bv_shr _ _ h1, bv_shl _ _ h2] at h
          simp only [Res.ok_bind, bv_or] at h
          refine ⟨U128.or (shr a n) (shl a (128 - n)), ?_, by cases h; rfl⟩
          simp only [rotr, if_pos hn, shlChk, shrChk, if_pos (show 128 - n ≤ 128 by omega), Res.ok_bind]
        · rw [bv_shr _ _ h1, I128.shl, if_neg (by omega)] at h; cases h
      · rw [I128.shr, if_neg (by omega)] at h; cases h
    · cases h

/-- C04, the exception: rotating by 0 (and by 128), documented as allowed, is undefined in the `__int128` build and defined
in the two-limb build, for every value. -/
theorem C04_rot_zero_undefined (a : U128) :
    I128.rotl a.bv 0 = .ub ∧ I128.rotr a.bv 0 = .ub ∧ I128.rotl a.bv 128 = .ub ∧ I128.rotr a.bv 128 = .ub ∧
    U128.rotl a 0 = .ok a ∧ U128.rotr a 0 = .ok a := by
  refine ⟨rfl, rfl, rfl, rfl, ?_, ?_⟩
  · simp [rotl, shlChk, shrChk, shl, shr, U128.or]
  · simp [rotr, shlChk, shrChk, shl, shr, U128.or]

/-- Non-vacuity of C04: the shift hypotheses are met. -/
example : ∃ w, I128.rotl (U128.bv ⟨1, 2⟩) 7 = .ok w := ⟨_, rfl⟩

end Raccoon
