import Verif.Model.Rng
/-!
# `include/raccoon/internals/polynomial/poly.hpp`
-/
namespace Raccoon

/-- poly.hpp:16-17. -/
def LOG2N : Nat := 9
abbrev N : Nat := 512

/-- poly.hpp:22. -/
def zeta : Zq := ⟨358453792785495⟩

/-- poly.hpp:25-30 `INV_N` (the `static_assert` rules out the other branches). -/
def INV_N : Zq :=
  match Zq.inv ⟨512⟩ with
  | .ok (v, true) => v
  | _ => ⟨0⟩

/-- poly.hpp:36-49 `bit_rev<LOG2N>`. -/
def bitRev (v : U64) : U64 :=
  (List.range 9).foldl (fun (v_rev : U64) (i : Nat) => v_rev ^^^ (((v >>> i) &&& 1) <<< (9 - 1 - i))) (0 : U64)

/-- poly.hpp:51-63 `gen_powers_of_ζ<n>(begin_at)`: slot `n - (till - i)` for `i = begin_at + j` is slot `j`. -/
def genPowers (n beginAt : Nat) : Vector Zq n :=
  Vector.ofFn fun j => Zq.pow zeta (bitRev (BitVec.ofNat 64 (beginAt + j.val)))

/-- poly.hpp:65-86 `POWERS_OF_ζ`: the four quarters, in order. -/
def POWERS : Vector Zq 512 :=
  genPowers 128 0 ++ genPowers 128 128 ++ genPowers 128 256 ++ genPowers 128 384

/-- poly.hpp:89-97 `NEG_POWERS_OF_ζ`. -/
def NEG_POWERS : Vector Zq 512 := POWERS.map (fun x => -x)

/-- poly.hpp:100-103 `poly_t`. -/
abbrev Poly := Vector Zq 512

namespace Poly

/-- poly.hpp:103, 119 default constructor: all coefficients 0. -/
def zero : Poly := Vector.replicate 512 Zq.zero

/-- poly.hpp:129 `fill_with`. -/
def fillWith (v : Zq) : Poly := Vector.replicate 512 v

/-- poly.hpp:106-115 `reduce_once_mod<q>`. -/
def reduceOnceMod (q x : U64) : U64 :=
  let t := x - q
  let mask := -(t >>> 63)
  let q_masked := q &&& mask
  t + q_masked

/-- poly.hpp:132-147 `operator+`. -/
def add (a b : Poly) : Poly := Vector.zipWith (fun x y => x + y) a b
/-- poly.hpp:171-186 `operator-`. -/
def sub (a b : Poly) : Poly := Vector.zipWith (fun x y => x - y) a b
/-- poly.hpp:208-223 `operator*` (pointwise, NTT domain). -/
def mul (a b : Poly) : Poly := Vector.zipWith (fun x y => x * y) a b

/-- poly.hpp:152-168 `add_mod<Q_prime>`. -/
def addMod (q' : U64) (a b : Poly) : Poly :=
  Vector.zipWith (fun x y => ⟨reduceOnceMod q' (x.raw + y.raw)⟩) a b

/-- poly.hpp:191-205 `sub_mod<Q_prime>`. -/
def subMod (q' : U64) (a b : Poly) : Poly :=
  Vector.zipWith (fun x y => ⟨reduceOnceMod q' (x.raw + (q' - y.raw))⟩) a b

/-- poly.hpp:226-240 `rounding_shr<bit_offset>` (template constant `0 < bit_offset < 64`). -/
def roundingShr (bitOffset : Nat) (a : Poly) : Poly :=
  let q' : U64 := Q >>> bitOffset
  let rounding : U64 := (1 : U64) <<< (bitOffset - 1)
  a.map fun c => ⟨reduceOnceMod q' ((c.raw + rounding) >>> bitOffset)⟩

/-- poly.hpp:243-256 `operator<<`. -/
def shl (a : Poly) (off : Nat) : Res Poly := a.mapR fun c => c.shl off

/-- poly.hpp:259-267 `operator==`. -/
def eq (a b : Poly) : Bool :=
  (List.finRange 512).foldl (fun res i => res && decide (a[i] = b[i])) true

/-- poly.hpp:284-292: centering of one coefficient. -/
def centerCoeff (q' : U64) (x : U64) : Res Int :=
  let q'By2 := q' / 2
  let y := x + q'By2
  let t := y - q'
  let mask := -(t >>> 63)
  let res := t + (mask &&& q')
  i64 (res.toInt - q'By2.toInt)

/-- poly.hpp:271-296 `center<Q_prime>`. -/
def center (q' : U64) (a : Poly) : Res (Vector Int 512) := a.mapR fun c => centerCoeff q' c.raw

/-- poly.hpp:306-308: un-centering of one coefficient (`x >> 63` on a negative `int64_t` is all ones). -/
def fromCenteredCoeff (q' : U64) (x : Int) : Res Zq := do
  let mask : U64 := if x < 0 then BitVec.allOnes 64 else 0
  let u ← i64 (x + (mask &&& q').toInt)
  .ok ⟨BitVec.ofInt 64 u⟩

/-- poly.hpp:300-314 `from_centered<Q_prime>`. -/
def fromCentered (q' : U64) (v : Vector Int 512) : Res Poly := v.mapR fun x => fromCenteredCoeff q' x

/-- poly.hpp:338-343: one butterfly of the forward transform. -/
def nttButterfly (len : Nat) (z : Zq) (i : Nat) (f : Poly) : Res Poly := do
  let hi ← f.rd (i + len)
  let tmp := z * hi
  let lo ← f.rd i
  let f ← f.wr (i + len) (lo - tmp)
  let lo ← f.rd i
  f.wr i (lo + tmp)

/-- poly.hpp:326-346: layer `l` of the forward transform. -/
def nttLayer (l : Nat) (f : Poly) : Res Poly :=
  let len := 1 <<< l
  let lenx2 := len <<< 1
  let k_beg := 512 >>> (l + 1)
  forLoop 0 512 lenx2 (fun start f => do
    let k_now := k_beg + (start >>> (l + 1))
    let z ← POWERS.rd k_now
    forLoop start (start + len) 1 (nttButterfly len z) f) f

/-- poly.hpp:320-347 `ntt`: layers l = 8, 7, …, 0. -/
def ntt (f : Poly) : Res Poly := forLoop 0 9 1 (fun j f => nttLayer (8 - j) f) f

/-- poly.hpp:371-377: one butterfly of the inverse transform. -/
def inttButterfly (len : Nat) (z : Zq) (i : Nat) (f : Poly) : Res Poly := do
  let tmp ← f.rd i
  let lo ← f.rd i
  let hi ← f.rd (i + len)
  let f ← f.wr i (lo + hi)
  let hi ← f.rd (i + len)
  let f ← f.wr (i + len) (tmp - hi)
  let hi ← f.rd (i + len)
  f.wr (i + len) (hi * z)

/-- poly.hpp:357-379: layer `l` of the inverse transform. -/
def inttLayer (l : Nat) (f : Poly) : Res Poly :=
  let len := 1 <<< l
  let lenx2 := len <<< 1
  let k_beg := (512 >>> l) - 1
  forLoop 0 512 lenx2 (fun start f => do
    let k_now := k_beg - (start >>> (l + 1))
    let z ← NEG_POWERS.rd k_now
    forLoop start (start + len) 1 (inttButterfly len z) f) f

/-- poly.hpp:352-388 `intt`: layers l = 0, …, 8, then scaling by `INV_N`. -/
def intt (f : Poly) : Res Poly := do
  let f ← forLoop 0 9 1 (fun l f => inttLayer l f) f
  .ok (f.map fun c => c * INV_N)

/-- Loop variables of `sampleQ` (poly.hpp:401-408). -/
structure SampleQSt where
  xof : Xof
  buf : List U8
  bufOff : Nat
  res : Poly
  coeffIdx : Nat

/-- poly.hpp:410-432: body of the `while (coeff_idx < N)` loop. `copy_n` copies the (non-overlapping) tail to the front. -/
def sampleQStep (s : SampleQSt) : Res SampleQSt := do
  let needed := (Q_BIT_WIDTH + 7) / 8
  let s ←
    if s.bufOff + needed > s.buf.length then do
      let rem := s.buf.length - s.bufOff
      let tail ← subspan s.buf s.bufOff rem
      let buf ← writeSpan s.buf 0 tail
      let (bytes, xof) := s.xof.squeeze (buf.length - rem)
      let buf ← writeSpan buf rem bytes
      Res.ok { s with buf := buf, xof := xof, bufOff := 0 }
    else Res.ok s
  let mask49 : U64 := ((1 : U64) <<< Q_BIT_WIDTH) - 1
  let w ← subspan s.buf s.bufOff needed
  let coeff := fromLeBytes 64 w &&& mask49
  let s := { s with bufOff := s.bufOff + needed }
  if coeff ≥ Q then .ok s
  else do
    let res ← s.res.wr s.coeffIdx ⟨coeff⟩
    .ok { s with res := res, coeffIdx := s.coeffIdx + 1 }

/-- poly.hpp:410 the loop, with an iteration budget. -/
def sampleQLoop : Nat → SampleQSt → Res Poly
  | 0, s => if s.coeffIdx < 512 then .nofuel else .ok s.res
  | n + 1, s => if s.coeffIdx < 512 then do let s ← sampleQStep s; sampleQLoop n s else .ok s.res

/-- poly.hpp:394-435 `sampleQ<𝜅>`. `shake256::RATE / 8 = 136`. -/
def sampleQ (E : Ext) (fuel : Nat) (hdr seed : List U8) : Res Poly :=
  let xof := (((Xof.new E.shake256).absorb hdr).absorb seed).finalize
  let (buf, xof) := xof.squeeze 136
  sampleQLoop fuel { xof := xof, buf := buf, bufOff := 0, res := zero, coeffIdx := 0 }

/-- poly.hpp:451-459 the loop of `sample_polynomial`, with an iteration budget. -/
def samplePolyLoop (E : Ext) (idx : Nat) : Nat → Mrng d → Poly → Nat → Res (Poly × Mrng d)
  | 0, m, res, ci => if ci < 512 then .nofuel else .ok (res, m)
  | n + 1, m, res, ci =>
    if ci < 512 then
      let mask49 : U64 := ((1 : U64) <<< Q_BIT_WIDTH) - 1
      let (v, m) := m.get E idx
      let coeff := v &&& mask49
      if coeff < Q then do
        let res ← res.wr ci ⟨coeff⟩
        samplePolyLoop E idx n m res (ci + 1)
      else samplePolyLoop E idx n m res ci
    else .ok (res, m)

/-- poly.hpp:438-462 `sample_polynomial<d>`. -/
def samplePolynomial (E : Ext) (fuel : Nat) (idx : Nat) (m : Mrng d) : Res (Poly × Mrng d) :=
  if idx ≥ d - 1 then .ok (zero, m)
  else samplePolyLoop E idx fuel m zero 0

/-- poly.hpp:481-494 body of the loop of `chal_poly` on (xof, polynomial, count). -/
def chalStep (s : Xof × Poly × Nat) : Res (Xof × Poly × Nat) := do
  let (xof, c, cnt) := s
  let (b, xof) := xof.squeeze 2
  let b_word : BitVec 16 := fromLeBytes 16 b
  let b_0 : U32 := b_word.setWidth 32 &&& 1
  let mask : BitVec 16 := ((1 : BitVec 16) <<< LOG2N) - 1
  let i : BitVec 16 := (b_word >>> 1) &&& mask
  let ci ← c.rd i.toNat
  let cond := decide (ci = ⟨0⟩)
  let v := if cond then Zq.one - ⟨(2 * b_0).setWidth 64⟩ else ci
  let c ← c.wr i.toNat v
  .ok (xof, c, cnt + (if cond then 1 else 0))

/-- poly.hpp:481 the loop, with an iteration budget. -/
def chalLoop (ω : Nat) : Nat → Xof × Poly × Nat → Res Poly
  | 0, s => if s.2.2 < ω then .nofuel else .ok s.2.1
  | n + 1, s => if s.2.2 < ω then do let s ← chalStep s; chalLoop ω n s else .ok s.2.1

/-- poly.hpp:466-497 `chal_poly<𝜅, 𝜔>`. -/
def chalPoly (E : Ext) (fuel ω : Nat) (cHash : List U8) : Res Poly :=
  let hdr : List U8 := [0x63, BitVec.ofNat 8 ω, 0, 0, 0, 0, 0, 0]
  let xof := (((Xof.new E.shake256).absorb hdr).absorb cHash).finalize
  chalLoop ω fuel (xof, zero, 0)

end Poly
end Raccoon
