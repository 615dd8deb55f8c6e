import Verif.Model.Basic
/-!
# `include/raccoon/internals/math/u64.hpp` and `u128.hpp`

Two-limb emulation (the default build) and the `unsigned __int128` build.
-/
namespace Raccoon

/-- u64.hpp:20-64 `u64::mul_full_u64`, portable branch (lines 35-61): (high word, low word). -/
def mulFullU64 (lhs rhs : U64) : U64 × U64 :=
  let MASK32 : U64 := ((1 : U64) <<< 32) - 1
  let lhs_hi32 := lhs >>> 32
  let lhs_lo32 := lhs &&& MASK32
  let rhs_hi32 := rhs >>> 32
  let rhs_lo32 := rhs &&& MASK32
  let hi := lhs_hi32 * rhs_hi32
  let lo := lhs_lo32 * rhs_lo32
  let loxhi := lhs_lo32 * rhs_hi32
  let hixlo := lhs_hi32 * rhs_lo32
  let loxhi_hi32 := loxhi >>> 32
  let loxhi_lo32 := loxhi &&& MASK32
  let hixlo_hi32 := hixlo >>> 32
  let hixlo_lo32 := hixlo &&& MASK32
  let lo_hi32 := lo >>> 32
  let carry := (lo_hi32 + loxhi_lo32 + hixlo_lo32) >>> 32
  let res_hi := hi + loxhi_hi32 + hixlo_hi32 + carry
  let res_lo := lo + (loxhi_lo32 <<< 32) + (hixlo_lo32 <<< 32)
  (res_hi, res_lo)

/-- u128.hpp:25-33 `u128_t`, portable branch: two 64-bit limbs. -/
structure U128 where
  hi : U64
  lo : U64
  deriving DecidableEq, Repr, Inhabited

namespace U128

/-- u128.hpp:98 default constructor: all bits 0. -/
def zero : U128 := ⟨0, 0⟩

/-- u128.hpp:111-126 `from` (8/16/32/64-bit unsigned value, already widened to 64 bits). -/
def «from» (v : U64) : U128 := ⟨0, v⟩

/-- u128.hpp:129-138 `to<uint64_t>` (narrower types truncate further; only `uint64_t` is used). -/
def to64 (x : U128) : U64 := x.lo

/-- u128.hpp:141-157 `operator+`. -/
def add (a b : U128) : U128 :=
  let u64_max : U64 := BitVec.allOnes 64
  let lo := a.lo + b.lo
  let tmp := u64_max - b.lo
  let carry : U64 := if a.lo > tmp then 1 else 0
  let hi := a.hi + b.hi + carry
  ⟨hi, lo⟩

/-- u128.hpp:163-174 unary `operator-`. -/
def neg (a : U128) : U128 :=
  let lo := -a.lo
  let borrow : U64 := if (0 : U64) < a.lo then 1 else 0
  let hi := -(a.hi + borrow)
  ⟨hi, lo⟩

/-- u128.hpp:177 binary `operator-`. -/
def sub (a b : U128) : U128 := add a (neg b)

/-- u128.hpp:183-195 `operator*`. -/
def mul (a b : U128) : U128 :=
  let (loxlo_hi64, loxlo_lo64) := mulFullU64 a.lo b.lo
  let lo := loxlo_lo64
  let hi := (a.lo * b.hi) + (a.hi * b.lo) + loxlo_hi64
  ⟨hi, lo⟩

/-- u128.hpp:221-246 `operator<<` (portable branch) for `n <= 128`.  This total function is what the
branches compute; the C++ is undefined for `n > 128` (inner shift by `>= 64`), see `shlChk`. -/
def shl (x : U128) (n : Nat) : U128 :=
  if n = 0 then x
  else if n = 128 then ⟨0, 0⟩
  else if n < 64 then
    let moved_bits := x.lo >>> (64 - n)
    let hi := (x.hi <<< n) ||| moved_bits
    let lo := x.lo <<< n
    ⟨hi, lo⟩
  else if n = 64 then ⟨x.lo, 0⟩
  else
    let moved_bits := x.lo <<< (n - 64)
    ⟨moved_bits, 0⟩

/-- u128.hpp:221-246 with the undefined case `n > 128` explicit. -/
def shlChk (x : U128) (n : Nat) : Res U128 := if n ≤ 128 then .ok (shl x n) else .ub

/-- u128.hpp:252-279 `operator>>` (portable branch) for `n <= 128`; see `shl`. -/
def shr (x : U128) (n : Nat) : U128 :=
  if n = 0 then x
  else if n = 128 then ⟨0, 0⟩
  else if n < 64 then
    let mask : U64 := ((1 : U64) <<< n) - 1
    let moved_bits := x.hi &&& mask
    let hi := x.hi >>> n
    let lo := (x.lo >>> n) ||| (moved_bits <<< (64 - n))
    ⟨hi, lo⟩
  else if n = 64 then ⟨0, x.hi⟩
  else
    let moved_bits := x.hi >>> (n - 64)
    ⟨0, moved_bits⟩

/-- u128.hpp:252-279 with the undefined case `n > 128` explicit. -/
def shrChk (x : U128) (n : Nat) : Res U128 := if n ≤ 128 then .ok (shr x n) else .ub

/-- u128.hpp:326-333 `operator|`. -/
def or (a b : U128) : U128 := ⟨a.hi ||| b.hi, a.lo ||| b.lo⟩

/-- u128.hpp:339-346 `operator&`. -/
def and (a b : U128) : U128 := ⟨a.hi &&& b.hi, a.lo &&& b.lo⟩

/-- u128.hpp:285 `rotl` (documented for `n <= 128`; `128 - n` is `size_t` arithmetic, so `n > 128`
wraps to a huge shift amount, which is UB). -/
def rotl (x : U128) (n : Nat) : Res U128 :=
  if n ≤ 128 then do
    let a ← shlChk x n
    let b ← shrChk x (128 - n)
    .ok (or a b)
  else .ub

/-- u128.hpp:288 `rotr`. -/
def rotr (x : U128) (n : Nat) : Res U128 :=
  if n ≤ 128 then do
    let a ← shrChk x n
    let b ← shlChk x (128 - n)
    .ok (or a b)
  else .ub

/-- u128.hpp:291-304 `operator>`. -/
def gt (a b : U128) : Bool :=
  let flg0 := decide (a.hi > b.hi)
  let flg1 := decide (a.hi = b.hi)
  let flg2 := decide (a.hi < b.hi)
  let flg3 := decide (a.lo > b.lo)
  flg0 || (flg1 && flg3) || (!flg2 && !flg1)

/-- u128.hpp:307 `operator<`. -/
def lt (a b : U128) : Bool := gt b a

/-- u128.hpp:310-317 `operator==`. -/
def eq (a b : U128) : Bool := decide (a.hi = b.hi) && decide (a.lo = b.lo)

/-- u128.hpp:320 `operator>=`. -/
def ge (a b : U128) : Bool := gt a b || eq a b

/-- u128.hpp:323 `operator<=`. -/
def le (a b : U128) : Bool := lt a b || eq a b

/-- u128.hpp:40-62 `get_bit_index_of_set_msb` (portable branch, lines 54-60). -/
def msbIdx (x : U128) : Nat :=
  if x.hi > 0 then 127 - countlZero x.hi
  else if x.lo > 0 then 63 - countlZero x.lo
  else 0

/-- u128.hpp:82-91: one iteration of the shift-subtract loop on (quotient, dividend, divisor). -/
def divStep (s : U128 × U128 × U128) : Res (U128 × U128 × U128) := do
  let (quotient, dividend, divisor) := s
  let quotient ← shlChk quotient 1
  let (dividend, quotient) :=
    if ge dividend divisor then (sub dividend divisor, or quotient («from» 1)) else (dividend, quotient)
  let divisor ← shrChk divisor 1
  .ok (quotient, dividend, divisor)

/-- u128.hpp:67-94 `divmod`.  (`shift` is a `size_t` difference; it does not wrap because the
dividend is larger than the divisor at that point.) -/
def divmod (dividend divisor : U128) : Res (U128 × U128) :=
  if gt divisor dividend then .ok (zero, dividend)
  else if eq divisor dividend then .ok («from» 1, zero)
  else do
    let shift := msbIdx dividend - msbIdx divisor
    let divisor ← shlChk divisor shift
    let (quotient, dividend, _) ← forLoop 0 (shift + 1) 1 (fun _ s => divStep s) (zero, dividend, divisor)
    .ok (quotient, dividend)

/-- u128.hpp:201-205 `operator/`. -/
def div (a b : U128) : Res U128 := do
  let r ← divmod a b
  .ok r.1

/-- u128.hpp:211-215 `operator%`. -/
def mod (a b : U128) : Res U128 := do
  let r ← divmod a b
  .ok r.2

end U128

/-! ### The `USE_INT128_TYPE` branch: a compiler-provided 128-bit word.
`unsigned __int128` arithmetic is modulo 2^128; a shift amount `>= 128` is UB. -/
namespace I128

/-- u128.hpp:29-30: `unsigned __int128 data`. -/
abbrev W := BitVec 128

/-- u128.hpp:111-126, 128-137 `from`/`to<uint64_t>`. -/
def «from» (v : U64) : W := v.setWidth 128
def to64 (x : W) : U64 := x.setWidth 64
/-- u128.hpp:143-144. -/
def add (a b : W) : W := a + b
/-- u128.hpp:165-166. -/
def neg (a : W) : W := -a
/-- u128.hpp:177. -/
def sub (a b : W) : W := add a (neg b)
/-- u128.hpp:185-186. -/
def mul (a b : W) : W := a * b
/-- u128.hpp:223-224. -/
def shl (a : W) (n : Nat) : Res W := if n < 128 then .ok (a <<< n) else .ub
/-- u128.hpp:254-255. -/
def shr (a : W) (n : Nat) : Res W := if n < 128 then .ok (a >>> n) else .ub
/-- u128.hpp:328-329, 341-342. -/
def or (a b : W) : W := a ||| b
def and (a b : W) : W := a &&& b
/-- u128.hpp:285, 288 (`128 - n` wraps for `n > 128`, giving a huge, undefined, shift amount). -/
def rotl (x : W) (n : Nat) : Res W :=
  if n ≤ 128 then do
    let a ← shl x n
    let b ← shr x (128 - n)
    .ok (or a b)
  else .ub
def rotr (x : W) (n : Nat) : Res W :=
  if n ≤ 128 then do
    let a ← shr x n
    let b ← shl x (128 - n)
    .ok (or a b)
  else .ub
/-- u128.hpp:293-294. -/
def gt (a b : W) : Bool := decide (a > b)
/-- u128.hpp:307. -/
def lt (a b : W) : Bool := gt b a
/-- u128.hpp:312-313. -/
def eq (a b : W) : Bool := decide (a = b)
/-- u128.hpp:320, 323. -/
def ge (a b : W) : Bool := gt a b || eq a b
def le (a b : W) : Bool := lt a b || eq a b
/-- u128.hpp:42-52. -/
def msbIdx (x : W) : Nat :=
  let hi : U64 := (x >>> 64).setWidth 64
  let lo : U64 := (x >>> 0).setWidth 64
  if hi > 0 then 127 - countlZero hi
  else if lo > 0 then 63 - countlZero lo
  else 0
/-- u128.hpp:82-91. -/
def divStep (s : W × W × W) : Res (W × W × W) := do
  let (quotient, dividend, divisor) := s
  let quotient ← shl quotient 1
  let (dividend, quotient) :=
    if ge dividend divisor then (sub dividend divisor, or quotient («from» 1)) else (dividend, quotient)
  let divisor ← shr divisor 1
  .ok (quotient, dividend, divisor)
/-- u128.hpp:67-94. -/
def divmod (dividend divisor : W) : Res (W × W) :=
  if gt divisor dividend then .ok (0, dividend)
  else if eq divisor dividend then .ok («from» 1, 0)
  else do
    let shift := msbIdx dividend - msbIdx divisor
    let divisor ← shl divisor shift
    let (quotient, dividend, _) ← forLoop 0 (shift + 1) 1 (fun _ s => divStep s) (0, dividend, divisor)
    .ok (quotient, dividend)

/-- u64.hpp:23-31 `mul_full_u64`, `__int128` branch. -/
def mulFullU64 (lhs rhs : U64) : U64 × U64 :=
  let res : W := lhs.setWidth 128 * rhs.setWidth 128
  ((res >>> 64).setWidth 64, res.setWidth 64)

end I128
end Raccoon
