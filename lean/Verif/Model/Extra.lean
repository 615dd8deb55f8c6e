import Verif.Model.Api
/-!
# Functions of the headers that the scheme itself does not call, and the field on top of the `__int128` build
-/
namespace Raccoon

/-- u128.hpp:129-138 `to<T>` for the unsigned type of `w` bits (8, 16, 32, 64), portable branch. -/
def U128.toW (w : Nat) (x : U128) : BitVec w := x.lo.setWidth w
/-- u128.hpp:129-138 `to<T>`, `__int128` branch. -/
def I128.toW (w : Nat) (x : I128.W) : BitVec w := x.setWidth w
/-- u128.hpp:201-205 and 211-215 `operator/`, `operator%`, `__int128` build (they call `divmod` in both builds). -/
def I128.div (a b : I128.W) : Res I128.W := do
  let r ← I128.divmod a b
  .ok r.1
def I128.mod (a b : I128.W) : Res I128.W := do
  let r ← I128.divmod a b
  .ok r.2

namespace I128

/-- field.hpp:20 the Barrett constant, computed in the `__int128` build. -/
def R : U64 :=
  match (do
    let p ← I128.shl (I128.from 1) (2 * Q_BIT_WIDTH)
    I128.div p (I128.from Q) : Res I128.W) with
  | .ok v => I128.to64 v
  | _ => 0

/-- field.hpp:54-86 `barrett_reduce` in the `__int128` build (a shift by 128 or more would be undefined). -/
def barrettReduce (v : W) : Res U64 := do
  let max64 : W := I128.from (BitVec.allOnes 64)
  let op0_hi ← shr v 64
  let op0_lo := and v max64
  let op1_hi : W := 0
  let op1_lo := I128.from R
  let hi := mul op0_hi op1_hi
  let mid := add (mul op0_hi op1_lo) (mul op1_hi op0_lo)
  let lo := mul op0_lo op1_lo
  let mid_hi ← shr mid 64
  let mid_lo := and mid max64
  let t0 ← shr lo 64
  let t1 := add t0 mid_lo
  let carry ← shr t1 64
  let res_hi := add (add hi mid_hi) carry
  let mid_lo_shl ← shl mid_lo 64
  let res_lo := add lo mid_lo_shl
  let r1 ← shl (and res_hi (I128.from 0xfffff)) 30
  let r2 ← shr res_lo (2 * Q_BIT_WIDTH)
  let res := or r1 r2
  let t2 := mul res (I128.from Q)
  let t3 := to64 (sub v t2)
  .ok (reduceOnce t3)

/-- field.hpp:134 `operator*` in the `__int128` build. -/
def zqMul (a b : Zq) : Res Zq := do
  let r ← barrettReduce (mul (I128.from a.raw) (I128.from b.raw))
  .ok ⟨r⟩
/-- field.hpp:142 `operator<<` in the `__int128` build. -/
def zqShl (a : Zq) (off : Nat) : Res Zq := do
  let v ← shl64 a.raw off
  let r ← barrettReduce (I128.from v)
  .ok ⟨r⟩
/-- field.hpp:195-201 `zq_t::random` in the `__int128` build. -/
def zqRandom (p : Prng) : Res (Zq × Prng) := do
  let r := p.read 8
  let v ← barrettReduce (I128.from (fromLeBytes 64 r.1))
  .ok (⟨v⟩, r.2)

end I128

/-- poly.hpp:500-509 `random`: 512 calls of `zq_t::random` on the same generator, in index order. -/
def Poly.random (p : Prng) : Res (Poly × Prng) :=
  forLoop 0 512 1 (fun i (s : Poly × Prng) => do
    let r := Zq.random s.2
    let f ← s.1.wr i r.1
    .ok (f, r.2)) (Poly.zero, p)

/-- masked_poly.hpp:198-203 `masked_poly_t<1>::sampleQ`: a static member function called on share 0, result discarded. -/
def MPoly.sampleQ (E : Ext) (fuel : Nat) (v : MPoly 1) (hdr seed : List U8) : Res (MPoly 1) := do
  let _share ← v.rd 0
  let _discarded ← Poly.sampleQ E fuel hdr seed
  .ok v

/-- prng.hpp:32-51 `prng_t()`: while fewer than 32 bytes are written, the next 32-bit word of `std::random_device` (`rd i` is the `i`-th one it returns) is copied
(little-endian host) to the 32-byte seed; then the seed is absorbed. -/
def Prng.newDefault (E : Ext) (rd : Nat → U32) : Res Prng := do
  let r ← forLoop 0 32 4 (fun off (s : List U8 × Nat) => do
    let v := rd s.2
    let seed ← writeSpan s.1 off ((List.range 4).map fun i => (v >>> (i * 8)).setWidth 8)
    .ok (seed, s.2 + 1)) (List.replicate 32 0, 0)
  .ok (Prng.new E r.1)

end Raccoon
