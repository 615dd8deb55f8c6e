import Verif.Model.Leak
/-!
# Instrumented `masked_poly.hpp`, `poly_vec.hpp`, `poly_mat.hpp`, `challenge.hpp`
See `Model/Leak`.
-/
namespace Raccoon
open Lk

namespace MPoly

/-- masked_poly.hpp:79-88 `operator+`. -/
def addL (a b : MPoly d) : Lk (MPoly d) := genL (zero d) fun i => do
  let x ← rdL a i
  let y ← rdL b i
  Poly.addL x y
/-- masked_poly.hpp:107-116 `operator-`. -/
def subL (a b : MPoly d) : Lk (MPoly d) := genL (zero d) fun i => do
  let x ← rdL a i
  let y ← rdL b i
  Poly.subL x y
/-- masked_poly.hpp:122-132 `sub_mod`. -/
def subModL (q' : U64) (a b : MPoly d) : Lk (MPoly d) := genL (zero d) fun i => do
  let x ← rdL a i
  let y ← rdL b i
  Poly.subModL q' x y
/-- masked_poly.hpp:147-153 `rounding_shr`. -/
def roundingShrL (bitOffset : Nat) (a : MPoly d) : Lk (MPoly d) := genL (zero d) fun i => do
  let x ← rdL a i
  Poly.roundingShrL bitOffset x
/-- masked_poly.hpp:156-165 `operator<<`. -/
def shlL (a : MPoly d) (off : Nat) : Lk (MPoly d) := genL (zero d) fun i => do
  let x ← rdL a i
  x.shlL off
/-- masked_poly.hpp:168-176 `operator==`. -/
def eqL (a b : MPoly d) : Lk Bool := forL 0 d 1 (fun i res => do
  let x ← rdL a i
  let y ← rdL b i
  let e ← Poly.eqL x y
  pure (res && e)) true
/-- masked_poly.hpp:179-184 `ntt`. -/
def nttLk (a : MPoly d) : Lk (MPoly d) := genL (zero d) fun i => do
  let x ← rdL a i
  x.nttLk
/-- masked_poly.hpp:187-192 `intt`. -/
def inttLk (a : MPoly d) : Lk (MPoly d) := genL (zero d) fun i => do
  let x ← rdL a i
  x.inttLk

/-- masked_poly.hpp:217-222 and 228-233. -/
def maskPairL (E : Ext) (fuel : Nat) (sidx off : Nat) (s : MPoly d × Mrng d) : Lk (MPoly d × Mrng d) := do
  let (r, m) ← Poly.samplePolynomialL E fuel sidx s.2
  let x ← rdL s.1 sidx
  let x ← Poly.addL x r
  let v ← wrL s.1 sidx x
  let y ← rdL v (sidx + off)
  let y ← Poly.subL y r
  let v ← wrL v (sidx + off) y
  pure (v, m)

/-- masked_poly.hpp:224-237. -/
def zeroEncLoopL (E : Ext) (fuel : Nat) : Nat → Nat → MPoly d × Mrng d → Lk (MPoly d × Mrng d)
  | 0, dIdx, s => branch (dIdx < d) (lift .nofuel) (pure s)
  | n + 1, dIdx, s => branch (dIdx < d) (do
      let s ← forL 0 d (2 * dIdx) (fun i s =>
        forL i (i + dIdx) 1 (fun sidx s => maskPairL E fuel sidx dIdx s) s) s
      zeroEncLoopL E fuel n (dIdx <<< 1) s)
    (pure s)

/-- masked_poly.hpp:211-237 `zero_encoding` (`if constexpr (d > 1)` is no run-time branch). -/
def zeroEncodingL (E : Ext) (fuel : Nat) (m : Mrng d) : Lk (MPoly d × Mrng d) :=
  let v := fillWith d Zq.zero
  if d > 1 then do
    let s ← forL 0 d 2 (fun sidx s => maskPairL E fuel sidx 1 s) (v, m)
    zeroEncLoopL E fuel d 2 s
  else pure (v, m)

/-- masked_poly.hpp:242-248 `refresh`. -/
def refreshL (E : Ext) (fuel : Nat) (a : MPoly d) (m : Mrng d) : Lk (MPoly d × Mrng d) := do
  let (z, m) ← zeroEncodingL E fuel m
  let r ← addL a z
  pure (r, m)

/-- masked_poly.hpp:253-262 `decode`: `collapsed_poly[0] += (*this)[sidx]`. -/
def decodeL (a : MPoly d) : Lk (MPoly 1) :=
  forL 0 d 1 (fun i (acc : MPoly 1) => do
    let p ← rdL acc 0
    let x ← rdL a i
    let p ← Poly.addL p x
    wrL acc 0 p) (zero 1)

/-- masked_poly.hpp:17-57 `sampleU`. -/
def sampleUL (E : Ext) (u : Nat) (hdr seed : List U8) : Lk (Vector Int 512) := do
  let n := (u + 7) / 8
  let xof ← (Xof.new E.shake256).absorbL hdr
  let xof ← xof.absorbL seed
  let (bytes, _) ← xof.finalize.squeezeL (n * 512)
  let (f, _) ← forL 0 (n * 512) n (fun offset (s : Vector Int 512 × Nat) => do
    let b ← subspanL bytes offset n
    let _ ← fromLeBytesL 64 b
    let c ← lift (sampleUCoeff u b)
    let f ← wrL s.1 s.2 c
    pure (f, s.2 + 1)) (Vector.replicate 512 0, 0)
  pure f

/-- masked_poly.hpp:280-289. -/
def addNoisePolyL (p : Poly) (n : Vector Int 512) : Lk Poly := genL Poly.zero fun i => do
  let x ← rdL p i
  let y ← rdL n i
  lift (addNoiseCoeff x y)

/-- masked_poly.hpp:274-290. -/
def noiseShareL (E : Ext) (u κ iRep idx sidx : Nat) (s : MPoly d × Prng) : Lk (MPoly d × Prng) := do
  let (σ, prng) ← s.2.readL (κ / 8)
  let hdr : List U8 := [0x75, BitVec.ofNat 8 iRep, BitVec.ofNat 8 idx, BitVec.ofNat 8 sidx, 0, 0, 0, 0]
  let pu ← sampleUL E u hdr σ
  let x ← rdL s.1 sidx
  let x ← addNoisePolyL x pu
  let v ← wrL s.1 sidx x
  pure (v, prng)

/-- masked_poly.hpp:273-293. -/
def noiseRepL (E : Ext) (fuel u κ idx iRep : Nat) (s : MPoly d × Prng × Mrng d) : Lk (MPoly d × Prng × Mrng d) := do
  let (v, prng) ← forL 0 d 1 (fun sidx s => noiseShareL E u κ iRep idx sidx s) (s.1, s.2.1)
  let (v, m) ← refreshL E fuel v s.2.2
  pure (v, prng, m)

/-- masked_poly.hpp:268-294 `add_rep_noise`. -/
def addRepNoiseL (E : Ext) (fuel u rep κ idx : Nat) (a : MPoly d) (prng : Prng) (m : Mrng d) :
    Lk (MPoly d × Prng × Mrng d) :=
  forL 0 rep 1 (fun iRep s => noiseRepL E fuel u κ idx iRep s) (a, prng, m)

end MPoly

namespace PVec

/-- poly_vec.hpp:28-37 `operator+`. -/
def addL (a b : PVec rows d) : Lk (PVec rows d) := genL (zero rows d) fun i => do
  let x ← rdL a i
  let y ← rdL b i
  MPoly.addL x y
/-- poly_vec.hpp:54-63 `operator-`. -/
def subL (a b : PVec rows d) : Lk (PVec rows d) := genL (zero rows d) fun i => do
  let x ← rdL a i
  let y ← rdL b i
  MPoly.subL x y
/-- poly_vec.hpp:67-77 `sub_mod`. -/
def subModL (q' : U64) (a b : PVec rows d) : Lk (PVec rows d) := genL (zero rows d) fun i => do
  let x ← rdL a i
  let y ← rdL b i
  MPoly.subModL q' x y
/-- poly_vec.hpp:80-91 `operator*` by a polynomial: two nested loops. -/
def mulPolyL (a : PVec rows d) (c : Poly) : Lk (PVec rows d) := genL (zero rows d) fun r =>
  genL (MPoly.zero d) fun s => do
    let x ← rdL a r
    let p ← rdL x s
    Poly.mulL p c
/-- poly_vec.hpp:94-101 `rounding_shr`. -/
def roundingShrL (bitOffset : Nat) (a : PVec rows d) : Lk (PVec rows d) := genL (zero rows d) fun i => do
  let x ← rdL a i
  MPoly.roundingShrL bitOffset x
/-- poly_vec.hpp:104-113 `operator<<`. -/
def shlL (a : PVec rows d) (off : Nat) : Lk (PVec rows d) := genL (zero rows d) fun i => do
  let x ← rdL a i
  x.shlL off
/-- poly_vec.hpp:116-124 `operator==`. -/
def eqL (a b : PVec rows d) : Lk Bool := forL 0 rows 1 (fun i res => do
  let x ← rdL a i
  let y ← rdL b i
  let e ← MPoly.eqL x y
  pure (res && e)) true
/-- poly_vec.hpp:127-132, 135-140 `ntt`, `intt`. -/
def nttLk (a : PVec rows d) : Lk (PVec rows d) := genL (zero rows d) fun i => do
  let x ← rdL a i
  x.nttLk
def inttLk (a : PVec rows d) : Lk (PVec rows d) := genL (zero rows d) fun i => do
  let x ← rdL a i
  x.inttLk

/-- poly_vec.hpp:144-153 `zero_encoding`. -/
def zeroEncodingL (E : Ext) (fuel rows : Nat) (m : Mrng d) : Lk (PVec rows d × Mrng d) :=
  forL 0 rows 1 (fun ridx s => do
    let (z, m) ← MPoly.zeroEncodingL E fuel s.2
    let v ← wrL s.1 ridx z
    pure (v, m)) (zero rows d, m)

/-- poly_vec.hpp:158-163 `refresh`. -/
def refreshL (E : Ext) (fuel : Nat) (a : PVec rows d) (m : Mrng d) : Lk (PVec rows d × Mrng d) :=
  forL 0 rows 1 (fun ridx s => do
    let x ← rdL s.1 ridx
    let (x, m) ← MPoly.refreshL E fuel x s.2
    let v ← wrL s.1 ridx x
    pure (v, m)) (a, m)

/-- poly_vec.hpp:168-177 `decode`. -/
def decodeL (a : PVec rows d) : Lk (PVec rows 1) := genL (zero rows 1) fun i => do
  let x ← rdL a i
  x.decodeL

/-- poly_vec.hpp:181-187 `add_rep_noise`. -/
def addRepNoiseL (E : Ext) (fuel u rep κ : Nat) (a : PVec rows d) (prng : Prng) (m : Mrng d) :
    Lk (PVec rows d × Prng × Mrng d) :=
  forL 0 rows 1 (fun ridx s => do
    let x ← rdL s.1 ridx
    let (x, prng, m) ← MPoly.addRepNoiseL E fuel u rep κ ridx x s.2.1 s.2.2
    let v ← wrL s.1 ridx x
    pure (v, prng, m)) (a, prng, m)

end PVec

namespace PMat

/-- poly_mat.hpp:27-40 `operator*`: `res[row][shr] += A[row, col] * rhs[col][shr]` in the three nested loops of the code. -/
def mulVecL (A : PMat rows cols) (v : PVec cols d) : Lk (PVec rows d) :=
  forL 0 rows 1 (fun r res =>
    forL 0 cols 1 (fun c res =>
      forL 0 d 1 (fun s (res : PVec rows d) => do
        let a ← rdL A (r * cols + c)
        let x ← rdL v c
        let p ← rdL x s
        let prod ← Poly.mulL a p
        let row ← rdL res r
        let acc ← rdL row s
        let acc ← Poly.addL acc prod
        let row ← wrL row s acc
        wrL res r row) res) res) (PVec.zero rows d)

/-- poly_mat.hpp:45-57 `expandA`. -/
def expandAL (E : Ext) (fuel k l : Nat) (seed : List U8) : Lk (PMat k l) :=
  forL 0 k 1 (fun ridx A =>
    forL 0 l 1 (fun cidx A => do
      let hdr : List U8 := [0x41, BitVec.ofNat 8 ridx, BitVec.ofNat 8 cidx, 0, 0, 0, 0, 0]
      let p ← Poly.sampleQL E fuel hdr seed
      wrL A (ridx * l + cidx) p) A) (Vector.replicate (k * l) Poly.zero)

end PMat

/-- challenge.hpp:31-45. -/
def chalHashStepL (w : PVec k 1) (wIdx : Nat) (s : Xof × Vector U8 136 × Nat) : Lk (Xof × Vector U8 136 × Nat) := do
  let (xof, buf, off) := s
  let (xof, off) ← branch (off = 136) (do let xof ← xof.absorbL buf.toList; pure (xof, 0)) (pure (xof, off))
  let row ← rdL w (wIdx / 512)
  let p ← rdL row 0
  let c ← rdL p (wIdx % 512)
  let buf ← wrL buf off (c.raw.setWidth 8)
  pure (xof, buf, off + 1)

/-- challenge.hpp:10-56 `chal_hash`. -/
def chalHashL (E : Ext) (κ : Nat) (w : PVec k 1) (μ : List U8) : Lk (List U8) := do
  let xof := Xof.new E.shake256
  let hdr : Vector U8 8 := #v[0x68, BitVec.ofNat 8 k, 0, 0, 0, 0, 0, 0]
  let buf0 : Vector U8 136 := hdr ++ (Vector.replicate 128 0 : Vector U8 128)
  let (xof, buf, off) ← forL 0 (k * 512) 1 (fun i s => chalHashStepL w i s) (xof, buf0, 8)
  let xof ← branch (off > 0) (do
      let part ← subspanL buf.toList 0 off
      xof.absorbL part)
    (pure xof)
  let xof ← xof.absorbL μ
  let r ← xof.finalize.squeezeL (2 * κ / 8)
  pure r.1

end Raccoon
