import Verif.Model.Masked
/-!
# What an observer of control flow and addresses sees

A second model of the code that handles secrets, instrumented with the *source-level* observations of the usual constant-time
model: the outcome of every branch and loop condition, the index of every array access, the length of every buffer handed to a
hash or copied.  Straight-line arithmetic (`+ - * & | >>` by a constant, comparisons used as values) shows nothing.
Each function is the function of the same name (without `L`) of the other model files plus these observations; `Proofs/LeakErase`
proves that dropping the observations gives exactly that function.

Simplification: what happens inside SHAKE, the Ascon permutation and `subtle` is not observed (only lengths are); the library
functions `std::max`, `std::abs`, `std::min` on run-time data are taken to branch (the pessimistic choice).
-/
namespace Raccoon

/-- One observation. -/
inductive Ev where
  /-- outcome of a branch or loop condition -/
  | br (b : Bool)
  /-- index of an array or span access -/
  | ix (i : Nat)
  /-- length of a copied / absorbed / squeezed buffer -/
  | len (n : Nat)
  deriving DecidableEq, Repr

/-- A computation with its observations. -/
structure Lk (α : Type u) where
  tr : List Ev
  val : Res α

namespace Lk

/-- Sequencing: an undefined or unfinished first part ends the observation. -/
def bind (p : Lk α) (f : α → Lk β) : Lk β :=
  match p.val with
  | .ok a => ⟨p.tr ++ (f a).tr, (f a).val⟩
  | .ub => ⟨p.tr, .ub⟩
  | .nofuel => ⟨p.tr, .nofuel⟩

instance : Monad Lk where
  pure a := ⟨[], .ok a⟩
  bind := Lk.bind

/-- Show `e`, then go on. -/
def tick (e : Ev) (p : Lk α) : Lk α := ⟨e :: p.tr, p.val⟩
/-- A silent computation. -/
def lift (r : Res α) : Lk α := ⟨[], r⟩
/-- `if (c) t else e`. -/
def branch (c : Prop) [Decidable c] (t e : Lk α) : Lk α := tick (.br (decide c)) (if c then t else e)

end Lk
open Lk

/-- Array read. -/
def rdL {α : Type u} {n : Nat} (v : Vector α n) (i : Nat) : Lk α := ⟨[.ix i], v.rd i⟩
/-- Array write. -/
def wrL {α : Type u} {n : Nat} (v : Vector α n) (i : Nat) (x : α) : Lk (Vector α n) := ⟨[.ix i], v.wr i x⟩

/-- `for (size_t i = lo; i < hi; i += step) body(i)`: the condition is observed before every iteration and at the end. -/
def forL {σ : Type u} (lo hi step : Nat) (body : Nat → σ → Lk σ) (s : σ) : Lk σ := do
  let s ← (List.range' lo ((hi - lo + step - 1) / step) step).foldlM (fun s i => tick (.br true) (body i s)) s
  tick (.br false) (pure s)

/-- `for (size_t i = 0; i < n; i++) res[i] = g(i)`. -/
def genL {β : Type u} {n : Nat} (init : Vector β n) (g : Nat → Lk β) : Lk (Vector β n) :=
  forL 0 n 1 (fun i v => do
    let y ← g i
    wrL v i y) init

/-- `span.subspan(off, cnt)`. -/
def subspanL {α : Type} (buf : List α) (off cnt : Nat) : Lk (List α) := ⟨[.ix off, .len cnt], subspan buf off cnt⟩
/-- copy the bytes `bs` to offset `off`. -/
def writeSpanL (buf : List U8) (off : Nat) (bs : List U8) : Lk (List U8) := ⟨[.ix off, .len bs.length], writeSpan buf off bs⟩

/-- The accesses of a loop over the first `n` bytes. -/
def byteLoop (n : Nat) : List Ev := (List.range n).flatMap (fun i => [.br true, .ix i]) ++ [.br false]

/-- utils.hpp:17-30 `from_le_bytes<T>`: the loop over `min(sizeof(T), size)` bytes. -/
def fromLeBytesL (w : Nat) (bytes : List U8) : Lk (BitVec w) :=
  ⟨.br (decide (bytes.length < w / 8)) :: byteLoop (min (w / 8) bytes.length), .ok (fromLeBytes w bytes)⟩
/-- utils.hpp:34-42 `to_le_bytes(v, buf.subspan(off, cnt))`. -/
def putLeL (buf : List U8) (off cnt : Nat) (v : U64) : Lk (List U8) :=
  ⟨[.ix off, .len cnt, .br (decide (cnt < 8))] ++ byteLoop (min 8 cnt), putLe buf off cnt v⟩
/-- utils.hpp:82-91 `ct_eq_byte_array`. -/
def ctEqByteArrayL (a b : List U8) : Lk U32 :=
  ⟨(List.range a.length).flatMap (fun i => [.br true, .ix i, .ix i]) ++ [.br false], .ok (ctEqByteArray a b)⟩

/-- Sponge operations: the lengths show. -/
def Xof.absorbL (x : Xof) (bs : List U8) : Lk Xof := ⟨[.len bs.length], .ok (x.absorb bs)⟩
def Xof.squeezeL (x : Xof) (n : Nat) : Lk (List U8 × Xof) := ⟨[.len n], .ok (x.squeeze n)⟩
/-- prng.hpp:59 `read`. -/
def Prng.readL (p : Prng) (n : Nat) : Lk (List U8 × Prng) := ⟨[.len n], .ok (p.read n)⟩

/-- mrng.hpp:72-82 `get`. -/
def Mrng.getL (E : Ext) (m : Mrng d) (idx : Nat) : Lk (U64 × Mrng d) :=
  branch (idx ≥ d - 1) (pure (0, m))
    (⟨[.ix idx, .ix 0, .ix idx], .ok (m.get E idx)⟩)

/-! ### Field -/

/-- u128.hpp:221-246 `operator<<`: branches on the shift amount. -/
def U128.shlL (x : U128) (n : Nat) : Lk U128 :=
  branch (n = 0) (pure x) <|
  branch (n = 128) (pure ⟨0, 0⟩) <|
  branch (n < 64) (pure ⟨(x.hi <<< n) ||| (x.lo >>> (64 - n)), x.lo <<< n⟩) <|
  branch (n = 64) (pure ⟨x.lo, 0⟩) (pure ⟨x.lo <<< (n - 64), 0⟩)

/-- u128.hpp:252-279 `operator>>`: branches on the shift amount. -/
def U128.shrL (x : U128) (n : Nat) : Lk U128 :=
  branch (n = 0) (pure x) <|
  branch (n = 128) (pure ⟨0, 0⟩) <|
  branch (n < 64) (pure ⟨x.hi >>> n, (x.lo >>> n) ||| ((x.hi &&& (((1 : U64) <<< n) - 1)) <<< (64 - n))⟩) <|
  branch (n = 64) (pure ⟨0, x.hi⟩) (pure ⟨0, x.hi >>> (n - 64)⟩)

/-- field.hpp:54-86 `barrett_reduce`. -/
def barrettReduceL (v : U128) : Lk U64 := do
  let max64 : U128 := U128.from (BitVec.allOnes 64)
  let op0_hi ← v.shrL 64
  let op0_lo := v.and max64
  let op1_hi := U128.zero
  let op1_lo := U128.from R
  let hi := op0_hi.mul op1_hi
  let mid := (op0_hi.mul op1_lo).add (op1_hi.mul op0_lo)
  let lo := op0_lo.mul op1_lo
  let mid_hi ← mid.shrL 64
  let mid_lo := mid.and max64
  let t0 ← lo.shrL 64
  let t1 := t0.add mid_lo
  let carry ← t1.shrL 64
  let res_hi := (hi.add mid_hi).add carry
  let mid_lo_shl ← mid_lo.shlL 64
  let res_lo := lo.add mid_lo_shl
  let a ← (res_hi.and (U128.from 0xfffff)).shlL 30
  let b ← res_lo.shrL (2 * Q_BIT_WIDTH)
  let res := a.or b
  let t2 := res.mul (U128.from Q)
  let t3 := (v.sub t2).to64
  pure (reduceOnce t3)

/-- field.hpp:134 `operator*`. (`+`, `-` are straight-line: field.hpp:38-46, 125-131.) -/
def Zq.mulL (a b : Zq) : Lk Zq := do
  let r ← barrettReduceL ((U128.from a.raw).mul (U128.from b.raw))
  pure ⟨r⟩
/-- field.hpp:142 `operator<<`. -/
def Zq.shlL (a : Zq) (off : Nat) : Lk Zq := do
  let v ← lift (shl64 a.raw off)
  let r ← barrettReduceL (U128.from v)
  pure ⟨r⟩

/-- field.hpp:97-113 the loop of `xgcd`. -/
def xgcdLoopL : Nat → XgcdSt → Lk XgcdSt
  | 0, _ => lift .nofuel
  | n + 1, s => branch (s.g ≠ 0) (do let s ← lift (xgcdStep s); xgcdLoopL n s) (pure s)

/-- field.hpp:145-163 `inv` (not used on secrets; its observations do depend on the value). -/
def Zq.invL (x : Zq) : Lk (Zq × Bool) :=
  branch (x.raw = 0) (pure (⟨0⟩, false)) (do
    let s ← xgcdLoopL (Q.toNat + 2) { old_a := 1, a := 0, old_b := 0, b := 1, old_g := x.raw.toInt, g := Q.toInt }
    branch (s.old_g ≠ 1) (pure (⟨0⟩, false)) (do
      let a ← branch (s.old_a < 0) (lift (i64 (s.old_a + Q.toInt))) (lift (i64 (s.old_a + 0)))
      let a ← branch (a ≥ Q.toInt) (lift (i64 (a - Q.toInt))) (lift (i64 (a - 0)))
      pure (⟨BitVec.ofInt 64 a⟩, true)))

namespace Poly

/-- poly.hpp:132-147 `operator+`. -/
def addL (a b : Poly) : Lk Poly := genL zero fun i => do
  let x ← rdL a i
  let y ← rdL b i
  pure (x + y)
/-- poly.hpp:171-186 `operator-`. -/
def subL (a b : Poly) : Lk Poly := genL zero fun i => do
  let x ← rdL a i
  let y ← rdL b i
  pure (x - y)
/-- poly.hpp:208-223 `operator*`. -/
def mulL (a b : Poly) : Lk Poly := genL zero fun i => do
  let x ← rdL a i
  let y ← rdL b i
  x.mulL y
/-- poly.hpp:191-205 `sub_mod`. -/
def subModL (q' : U64) (a b : Poly) : Lk Poly := genL zero fun i => do
  let y ← rdL b i
  let x ← rdL a i
  pure ⟨reduceOnceMod q' (x.raw + (q' - y.raw))⟩
/-- poly.hpp:152-168 `add_mod`. -/
def addModL (q' : U64) (a b : Poly) : Lk Poly := genL zero fun i => do
  let x ← rdL a i
  let y ← rdL b i
  pure ⟨reduceOnceMod q' (x.raw + y.raw)⟩
/-- poly.hpp:226-240 `rounding_shr` (in place). -/
def roundingShrL (bitOffset : Nat) (a : Poly) : Lk Poly := genL zero fun i => do
  let c ← rdL a i
  pure ⟨reduceOnceMod (Q >>> bitOffset) ((c.raw + ((1 : U64) <<< (bitOffset - 1))) >>> bitOffset)⟩
/-- poly.hpp:243-256 `operator<<`. -/
def shlL (a : Poly) (off : Nat) : Lk Poly := genL zero fun i => do
  let c ← rdL a i
  c.shlL off
/-- poly.hpp:259-267 `operator==`. -/
def eqL (a b : Poly) : Lk Bool := forL 0 512 1 (fun i res => do
  let x ← rdL a i
  let y ← rdL b i
  pure (res && decide (x = y))) true
/-- poly.hpp:271-296 `center`. -/
def centerL (q' : U64) (a : Poly) : Lk (Vector Int 512) := genL (Vector.replicate 512 0) fun i => do
  let c ← rdL a i
  lift (centerCoeff q' c.raw)

/-- poly.hpp:338-343. -/
def nttButterflyL (len : Nat) (z : Zq) (i : Nat) (f : Poly) : Lk Poly := do
  let hi ← rdL f (i + len)
  let tmp ← z.mulL hi
  let lo ← rdL f i
  let f ← wrL f (i + len) (lo - tmp)
  let lo ← rdL f i
  wrL f i (lo + tmp)

/-- poly.hpp:326-346. -/
def nttLayerL (l : Nat) (f : Poly) : Lk Poly :=
  let len := 1 <<< l
  let lenx2 := len <<< 1
  let k_beg := 512 >>> (l + 1)
  forL 0 512 lenx2 (fun start f => do
    let k_now := k_beg + (start >>> (l + 1))
    let z ← rdL POWERS k_now
    forL start (start + len) 1 (nttButterflyL len z) f) f

/-- poly.hpp:320-347 `ntt`. -/
def nttLk (f : Poly) : Lk Poly := forL 0 9 1 (fun j f => nttLayerL (8 - j) f) f

/-- poly.hpp:371-377. -/
def inttButterflyL (len : Nat) (z : Zq) (i : Nat) (f : Poly) : Lk Poly := do
  let tmp ← rdL f i
  let lo ← rdL f i
  let hi ← rdL f (i + len)
  let f ← wrL f i (lo + hi)
  let hi ← rdL f (i + len)
  let f ← wrL f (i + len) (tmp - hi)
  let hi ← rdL f (i + len)
  let p ← hi.mulL z
  wrL f (i + len) p

/-- poly.hpp:357-379. -/
def inttLayerL (l : Nat) (f : Poly) : Lk Poly :=
  let len := 1 <<< l
  let lenx2 := len <<< 1
  let k_beg := (512 >>> l) - 1
  forL 0 512 lenx2 (fun start f => do
    let k_now := k_beg - (start >>> (l + 1))
    let z ← rdL NEG_POWERS k_now
    forL start (start + len) 1 (inttButterflyL len z) f) f

/-- poly.hpp:352-388 `intt`. -/
def inttLk (f : Poly) : Lk Poly := do
  let f ← forL 0 9 1 (fun l f => inttLayerL l f) f
  genL zero fun i => do
    let c ← rdL f i
    c.mulL INV_N

/-- poly.hpp:410-432. -/
def sampleQStepL (s : SampleQSt) : Lk SampleQSt := do
  let needed := (Q_BIT_WIDTH + 7) / 8
  let s ← branch (s.bufOff + needed > s.buf.length) (do
      let rem := s.buf.length - s.bufOff
      let tail ← subspanL s.buf s.bufOff rem
      let buf ← writeSpanL s.buf 0 tail
      let (bytes, xof) ← s.xof.squeezeL (buf.length - rem)
      let buf ← writeSpanL buf rem bytes
      pure { s with buf := buf, xof := xof, bufOff := 0 })
    (pure s)
  let mask49 : U64 := ((1 : U64) <<< Q_BIT_WIDTH) - 1
  let w ← subspanL s.buf s.bufOff needed
  let word ← fromLeBytesL 64 w
  let coeff := word &&& mask49
  let s := { s with bufOff := s.bufOff + needed }
  branch (coeff ≥ Q) (pure s) (do
    let res ← wrL s.res s.coeffIdx ⟨coeff⟩
    pure { s with res := res, coeffIdx := s.coeffIdx + 1 })

/-- poly.hpp:410. -/
def sampleQLoopL : Nat → SampleQSt → Lk Poly
  | 0, s => branch (s.coeffIdx < 512) (lift .nofuel) (pure s.res)
  | n + 1, s => branch (s.coeffIdx < 512) (do let s ← sampleQStepL s; sampleQLoopL n s) (pure s.res)

/-- poly.hpp:394-435 `sampleQ`. -/
def sampleQL (E : Ext) (fuel : Nat) (hdr seed : List U8) : Lk Poly := do
  let xof ← (Xof.new E.shake256).absorbL hdr
  let xof ← xof.absorbL seed
  let (buf, xof) ← xof.finalize.squeezeL 136
  sampleQLoopL fuel { xof := xof, buf := buf, bufOff := 0, res := zero, coeffIdx := 0 }

/-- poly.hpp:451-459. -/
def samplePolyLoopL (E : Ext) (idx : Nat) : Nat → Mrng d → Poly → Nat → Lk (Poly × Mrng d)
  | 0, m, res, ci => branch (ci < 512) (lift .nofuel) (pure (res, m))
  | n + 1, m, res, ci => branch (ci < 512) (do
      let mask49 : U64 := ((1 : U64) <<< Q_BIT_WIDTH) - 1
      let (v, m) ← m.getL E idx
      let coeff := v &&& mask49
      branch (coeff < Q) (do
        let res ← wrL res ci ⟨coeff⟩
        samplePolyLoopL E idx n m res (ci + 1))
        (samplePolyLoopL E idx n m res ci))
    (pure (res, m))

/-- poly.hpp:438-462 `sample_polynomial`. -/
def samplePolynomialL (E : Ext) (fuel : Nat) (idx : Nat) (m : Mrng d) : Lk (Poly × Mrng d) :=
  branch (idx ≥ d - 1) (pure (zero, m)) (samplePolyLoopL E idx fuel m zero 0)

/-- poly.hpp:481-494. -/
def chalStepL (s : Xof × Poly × Nat) : Lk (Xof × Poly × Nat) := do
  let (xof, c, cnt) := s
  let (b, xof) ← xof.squeezeL 2
  let b_word ← fromLeBytesL 16 b
  let b_0 : U32 := b_word.setWidth 32 &&& 1
  let mask : BitVec 16 := ((1 : BitVec 16) <<< LOG2N) - 1
  let i : BitVec 16 := (b_word >>> 1) &&& mask
  let ci ← rdL c i.toNat
  let cond := decide (ci = ⟨0⟩)
  let _ ← rdL c i.toNat
  -- `branch[cond]`: a table of two entries, indexed by the condition
  let v ← rdL #v[ci, Zq.one - ⟨(2 * b_0).setWidth 64⟩] (if cond then 1 else 0)
  let c ← wrL c i.toNat v
  pure (xof, c, cnt + (if cond then 1 else 0))

/-- poly.hpp:481. -/
def chalLoopL (ω : Nat) : Nat → Xof × Poly × Nat → Lk Poly
  | 0, s => branch (s.2.2 < ω) (lift .nofuel) (pure s.2.1)
  | n + 1, s => branch (s.2.2 < ω) (do let s ← chalStepL s; chalLoopL ω n s) (pure s.2.1)

/-- poly.hpp:466-497 `chal_poly`. -/
def chalPolyL (E : Ext) (fuel ω : Nat) (cHash : List U8) : Lk Poly := do
  let hdr : List U8 := [0x63, BitVec.ofNat 8 ω, 0, 0, 0, 0, 0, 0]
  let xof ← (Xof.new E.shake256).absorbL hdr
  let xof ← xof.absorbL cHash
  chalLoopL ω fuel (xof.finalize, zero, 0)

end Poly
end Raccoon
