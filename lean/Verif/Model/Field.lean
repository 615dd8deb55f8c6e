import Verif.Model.U128
/-!
# `include/raccoon/internals/math/field.hpp`
-/
namespace Raccoon

/-- field.hpp:11-12. -/
def Q1 : U32 := ((1 : U32) <<< 24) - ((1 : U32) <<< 18) + 1
def Q2 : U32 := ((1 : U32) <<< 25) - ((1 : U32) <<< 18) + 1
/-- field.hpp:15 the modulus. -/
def Q : U64 := Q1.setWidth 64 * Q2.setWidth 64
/-- field.hpp:17. -/
def Q_BIT_WIDTH : Nat := bitWidth Q

/-- field.hpp:20 the Barrett constant, `((1 << 2*Q_BIT_WIDTH) / Q).to<uint64_t>()`, computed with the
emulated 128-bit division (a failing constant evaluation would not compile; the `_` branch is never
taken, see `Props`). -/
def R : U64 :=
  match (do
    let p ← U128.shlChk (U128.from 1) (2 * Q_BIT_WIDTH)
    U128.div p (U128.from Q) : Res U128) with
  | .ok v => v.to64
  | _ => 0

/-- field.hpp:30-33 `zq_t`: a wrapper around a `uint64_t`. The public constructor (line 119) does not reduce. -/
structure Zq where
  raw : U64
  deriving DecidableEq, Repr, Inhabited

/-- field.hpp:38-46 `reduce_once`. -/
def reduceOnce (v : U64) : U64 :=
  let t := v - Q
  let mask := -(t >>> 63)
  let q_masked := Q &&& mask
  t + q_masked

/-- field.hpp:54-86 `barrett_reduce`. -/
def barrettReduce (v : U128) : U64 :=
  let max64 : U128 := U128.from (BitVec.allOnes 64)
  let op0_hi := v.shr 64
  let op0_lo := v.and max64
  let op1_hi := U128.zero
  let op1_lo := U128.from R
  let hi := op0_hi.mul op1_hi
  let mid := (op0_hi.mul op1_lo).add (op1_hi.mul op0_lo)
  let lo := op0_lo.mul op1_lo
  let mid_hi := mid.shr 64
  let mid_lo := mid.and max64
  let t0 := lo.shr 64
  let t1 := t0.add mid_lo
  let carry := t1.shr 64
  let res_hi := (hi.add mid_hi).add carry
  let res_lo := lo.add (mid_lo.shl 64)
  let res := ((res_hi.and (U128.from 0xfffff)).shl 30).or (res_lo.shr (2 * Q_BIT_WIDTH))
  let t2 := res.mul (U128.from Q)
  let t3 := (v.sub t2).to64
  reduceOnce t3

/-- The six loop variables of `xgcd` (field.hpp:93-95). -/
structure XgcdSt where
  old_a : Int
  a : Int
  old_b : Int
  b : Int
  old_g : Int
  g : Int
  deriving DecidableEq, Repr

/-- field.hpp:97-112: body of the `while (g != 0)` loop; `int64_t` overflow is UB, `/` truncates.
(`g /= 0` here, so the division itself can only overflow for INT64_MIN / -1.) -/
def xgcdStep (s : XgcdSt) : Res XgcdSt := do
  let quotient ← i64 (s.old_g.tdiv s.g)
  let qa ← i64 (quotient * s.a)
  let a ← i64 (s.old_a - qa)
  let qb ← i64 (quotient * s.b)
  let b ← i64 (s.old_b - qb)
  let qg ← i64 (quotient * s.g)
  let g ← i64 (s.old_g - qg)
  .ok { old_a := s.a, a := a, old_b := s.b, b := b, old_g := s.g, g := g }

/-- field.hpp:97-113 the loop. -/
def xgcdLoop : Nat → XgcdSt → Res XgcdSt
  | 0, _ => .nofuel
  | n + 1, s => if s.g ≠ 0 then do let s ← xgcdStep s; xgcdLoop n s else .ok s

/-- field.hpp:91-114 `xgcd`: returns (a, b, g).  The iteration budget `y + 2` only makes the definition
total; it is never exhausted for inputs below 2^63 (proved). Conversion `uint64_t → int64_t` is modular (C++20). -/
def xgcd (x y : U64) : Res (Int × Int × Int) := do
  let s ← xgcdLoop (y.toNat + 2) { old_a := 1, a := 0, old_b := 0, b := 1, old_g := x.toInt, g := y.toInt }
  .ok (s.old_a, s.old_b, s.old_g)

namespace Zq

/-- field.hpp:121-122. -/
def zero : Zq := ⟨0⟩
def one : Zq := ⟨1⟩

/-- field.hpp:125 `operator+`. -/
def add (a b : Zq) : Zq := ⟨reduceOnce (a.raw + b.raw)⟩
/-- field.hpp:129 unary `operator-`. -/
def neg (a : Zq) : Zq := ⟨Q - a.raw⟩
/-- field.hpp:130 binary `operator-`. -/
def sub (a b : Zq) : Zq := add a (neg b)
/-- field.hpp:134 `operator*`. -/
def mul (a b : Zq) : Zq := ⟨barrettReduce ((U128.from a.raw).mul (U128.from b.raw))⟩
/-- field.hpp:138 `operator>>` (UB for offset >= 64). -/
def shr (a : Zq) (off : Nat) : Res Zq := do let v ← shr64 a.raw off; .ok ⟨v⟩
/-- field.hpp:142 `operator<<`: the shift happens in 64 bits, before widening (UB for offset >= 64). -/
def shl (a : Zq) (off : Nat) : Res Zq := do let v ← shl64 a.raw off; .ok ⟨barrettReduce (U128.from v)⟩

instance : Add Zq := ⟨add⟩
instance : Neg Zq := ⟨neg⟩
instance : Sub Zq := ⟨sub⟩
instance : Mul Zq := ⟨mul⟩

/-- field.hpp:145-163 `inv`: value and invertibility flag (`is_invertible_t`). -/
def inv (x : Zq) : Res (Zq × Bool) :=
  if x.raw = 0 then .ok (⟨0⟩, false)
  else do
    let (a, _b, g) ← xgcd x.raw Q
    if g ≠ 1 then .ok (⟨0⟩, false)
    else do
      let a ← i64 (a + (if a < 0 then (Q.toInt : Int) else 0))
      let a ← i64 (a - (if a ≥ Q.toInt then (Q.toInt : Int) else 0))
      .ok (⟨BitVec.ofInt 64 a⟩, true)

/-- field.hpp:164-168 `operator/`. -/
def div (x y : Zq) : Res (Zq × Bool) := do
  let (i, f) ← inv y
  .ok (x * i, f)

/-- field.hpp:181-186 loop body: (base, res). -/
def powStep (n : U64) (i : Nat) (s : Zq × Zq) : Zq × Zq :=
  let base := s.1 * s.1
  let bit := (n >>> i) &&& 1
  (base, s.2 * (if bit = 0 then one else base))

/-- field.hpp:171-189 `operator^` (`br[..]` table lookups by the bit become `if`). -/
def pow (x : Zq) (n : U64) : Zq :=
  let res := if n &&& 1 = 0 then one else x
  let till := 64 - countlZero n
  ((List.range' 1 (till - 1)).foldl (fun s i => powStep n i s) (x, res)).2

/-- field.hpp:192 defaulted `<=>`: comparison of raw values. -/
def gt (a b : Zq) : Bool := decide (a.raw > b.raw)
def max (a b : Zq) : Zq := if a.raw < b.raw then b else a

end Zq
end Raccoon
