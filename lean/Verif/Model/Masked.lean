import Verif.Model.Poly
/-!
# `polynomial/masked_poly.hpp`, `poly_vec.hpp`, `poly_mat.hpp`, `challenge.hpp`
-/
namespace Raccoon

/-- masked_poly.hpp:8-13 `masked_poly_t<d>`: `d` shares. -/
abbrev MPoly (d : Nat) := Vector Poly d

namespace MPoly

/-- masked_poly.hpp:13, 61 default constructor. -/
def zero (d : Nat) : MPoly d := Vector.replicate d Poly.zero
/-- masked_poly.hpp:71-76 `fill_with`. -/
def fillWith (d : Nat) (v : Zq) : MPoly d := Vector.replicate d (Poly.fillWith v)
/-- masked_poly.hpp:79-88 `operator+`. -/
def add (a b : MPoly d) : MPoly d := Vector.zipWith Poly.add a b
/-- masked_poly.hpp:94-104 `add_mod`. -/
def addMod (q' : U64) (a b : MPoly d) : MPoly d := Vector.zipWith (Poly.addMod q') a b
/-- masked_poly.hpp:107-116 `operator-`. -/
def sub (a b : MPoly d) : MPoly d := Vector.zipWith Poly.sub a b
/-- masked_poly.hpp:122-132 `sub_mod`. -/
def subMod (q' : U64) (a b : MPoly d) : MPoly d := Vector.zipWith (Poly.subMod q') a b
/-- masked_poly.hpp:135-144 `operator*`. -/
def mul (a b : MPoly d) : MPoly d := Vector.zipWith Poly.mul a b
/-- masked_poly.hpp:147-153 `rounding_shr`. -/
def roundingShr (bitOffset : Nat) (a : MPoly d) : MPoly d := a.map (Poly.roundingShr bitOffset)
/-- masked_poly.hpp:156-165 `operator<<`. -/
def shl (a : MPoly d) (off : Nat) : Res (MPoly d) := a.mapR fun p => p.shl off
/-- masked_poly.hpp:168-176 `operator==`. -/
def eq (a b : MPoly d) : Bool :=
  (List.finRange d).foldl (fun res i => res && Poly.eq a[i] b[i]) true
/-- masked_poly.hpp:179-184 `ntt`. -/
def ntt (a : MPoly d) : Res (MPoly d) := a.mapR Poly.ntt
/-- masked_poly.hpp:187-192 `intt`. -/
def intt (a : MPoly d) : Res (MPoly d) := a.mapR Poly.intt

/-- masked_poly.hpp:217-222 and 228-233: draw a mask `r` from generator `sidx`, add it to share `sidx`,
subtract it from share `sidx + off`. -/
def maskPair (E : Ext) (fuel : Nat) (sidx off : Nat) (s : MPoly d × Mrng d) : Res (MPoly d × Mrng d) := do
  let (r, m) ← Poly.samplePolynomial E fuel sidx s.2
  let x ← s.1.rd sidx
  let v ← s.1.wr sidx (Poly.add x r)
  let y ← v.rd (sidx + off)
  let v ← v.wr (sidx + off) (Poly.sub y r)
  .ok (v, m)

/-- masked_poly.hpp:224-237: the `while (d_idx < d)` loop (`d_idx` doubles, so `d` iterations are enough;
the counter only makes the definition total). -/
def zeroEncLoop (E : Ext) (fuel : Nat) : Nat → Nat → MPoly d × Mrng d → Res (MPoly d × Mrng d)
  | 0, dIdx, s => if dIdx < d then .nofuel else .ok s
  | n + 1, dIdx, s =>
    if dIdx < d then do
      let s ← forLoop 0 d (2 * dIdx) (fun i s =>
        forLoop i (i + dIdx) 1 (fun sidx s => maskPair E fuel sidx dIdx s) s) s
      zeroEncLoop E fuel n (dIdx <<< 1) s
    else .ok s

/-- masked_poly.hpp:211-237 `zero_encoding`. -/
def zeroEncoding (E : Ext) (fuel : Nat) (m : Mrng d) : Res (MPoly d × Mrng d) :=
  let v := fillWith d Zq.zero
  if d > 1 then do
    let s ← forLoop 0 d 2 (fun sidx s => maskPair E fuel sidx 1 s) (v, m)
    zeroEncLoop E fuel d 2 s
  else .ok (v, m)

/-- masked_poly.hpp:242-248 `refresh`. -/
def refresh (E : Ext) (fuel : Nat) (a : MPoly d) (m : Mrng d) : Res (MPoly d × Mrng d) := do
  let (z, m) ← zeroEncoding E fuel m
  .ok (add a z, m)

/-- masked_poly.hpp:253-262 `decode`. -/
def decode (a : MPoly d) : MPoly 1 :=
  #v[(List.finRange d).foldl (fun acc i => Poly.add acc a[i]) Poly.zero]

/-- masked_poly.hpp:45-51: one coefficient of `sampleU<u>` (template constant `0 < u < 64`). -/
def sampleUCoeff (u : Nat) (b : List U8) : Res Int :=
  let mask_msb : U64 := (1 : U64) <<< (u - 1)
  let mask_lsb : U64 := mask_msb - 1
  let b_word := fromLeBytes 64 b
  let msb := (b_word &&& mask_msb).toInt
  let lsb := (b_word &&& mask_lsb).toInt
  i64 (lsb - msb)

/-- masked_poly.hpp:17-57 `sampleU<u, 𝜅>`; the `while (offset < total)` loop of lines 42-55 advances `offset` by
`n = (u+7)/8` and `coeff_idx` (second component of the loop state) by one. -/
def sampleU (E : Ext) (u : Nat) (hdr seed : List U8) : Res (Vector Int 512) := do
  let n := (u + 7) / 8
  let xof := (((Xof.new E.shake256).absorb hdr).absorb seed).finalize
  let bytes := (xof.squeeze (n * 512)).1
  let (f, _) ← forLoop 0 (n * 512) n (fun offset (s : Vector Int 512 × Nat) => do
    let b ← subspan bytes offset n
    let c ← sampleUCoeff u b
    let f ← s.1.wr s.2 c
    .ok (f, s.2 + 1)) (Vector.replicate 512 0, 0)
  .ok f

/-- masked_poly.hpp:281-288: add one noise coefficient. -/
def addNoiseCoeff (x : Zq) (n : Int) : Res Zq := do
  let coeff ← i64 (x.raw.toInt + n)
  let coeffU : U64 := BitVec.ofInt 64 coeff
  let is_lt_zero : U64 := -(coeffU >>> 63)
  let is_ge_q : U64 := ctGe64 (coeffU &&& ~~~is_lt_zero) Q
  let s ← i64 ((Q &&& is_lt_zero).toInt + coeff)
  let r ← i64 (s - (Q &&& is_ge_q).toInt)
  .ok ⟨BitVec.ofInt 64 r⟩

/-- masked_poly.hpp:280-289: add a noise polynomial to a share. -/
def addNoisePoly (p : Poly) (n : Vector Int 512) : Res Poly :=
  (Vector.zipWith (fun x y => (x, y)) p n).mapR fun xy => addNoiseCoeff xy.1 xy.2

/-- masked_poly.hpp:274-290: noise for share `sidx` in repetition `iRep`. -/
def noiseShare (E : Ext) (u κ iRep idx sidx : Nat) (s : MPoly d × Prng) : Res (MPoly d × Prng) := do
  let (σ, prng) := s.2.read (κ / 8)
  let hdr : List U8 := [0x75, BitVec.ofNat 8 iRep, BitVec.ofNat 8 idx, BitVec.ofNat 8 sidx, 0, 0, 0, 0]
  let pu ← sampleU E u hdr σ
  let x ← s.1.rd sidx
  let x ← addNoisePoly x pu
  let v ← s.1.wr sidx x
  .ok (v, prng)

/-- masked_poly.hpp:273-293: one repetition: noise on every share, then `refresh`. -/
def noiseRep (E : Ext) (fuel u κ idx iRep : Nat) (s : MPoly d × Prng × Mrng d) : Res (MPoly d × Prng × Mrng d) := do
  let (v, prng) ← forLoop 0 d 1 (fun sidx s => noiseShare E u κ iRep idx sidx s) (s.1, s.2.1)
  let (v, m) ← refresh E fuel v s.2.2
  .ok (v, prng, m)

/-- masked_poly.hpp:268-294 `add_rep_noise<u, rep, 𝜅>`. -/
def addRepNoise (E : Ext) (fuel u rep κ idx : Nat) (a : MPoly d) (prng : Prng) (m : Mrng d) :
    Res (MPoly d × Prng × Mrng d) :=
  forLoop 0 rep 1 (fun iRep s => noiseRep E fuel u κ idx iRep s) (a, prng, m)

end MPoly

/-- poly_vec.hpp:9-14 `poly_vec_t<rows, d>`. -/
abbrev PVec (rows d : Nat) := Vector (MPoly d) rows

namespace PVec

/-- poly_vec.hpp:14, 18. -/
def zero (rows d : Nat) : PVec rows d := Vector.replicate rows (MPoly.zero d)
/-- poly_vec.hpp:28-37 `operator+`. -/
def add (a b : PVec rows d) : PVec rows d := Vector.zipWith MPoly.add a b
/-- poly_vec.hpp:41-51 `add_mod`. -/
def addMod (q' : U64) (a b : PVec rows d) : PVec rows d := Vector.zipWith (MPoly.addMod q') a b
/-- poly_vec.hpp:54-63 `operator-`. -/
def sub (a b : PVec rows d) : PVec rows d := Vector.zipWith MPoly.sub a b
/-- poly_vec.hpp:67-77 `sub_mod`. -/
def subMod (q' : U64) (a b : PVec rows d) : PVec rows d := Vector.zipWith (MPoly.subMod q') a b
/-- poly_vec.hpp:80-91 `operator*` by a polynomial. -/
def mulPoly (a : PVec rows d) (c : Poly) : PVec rows d := a.map fun mp => mp.map fun p => Poly.mul p c
/-- poly_vec.hpp:94-101 `rounding_shr`. -/
def roundingShr (bitOffset : Nat) (a : PVec rows d) : PVec rows d := a.map (MPoly.roundingShr bitOffset)
/-- poly_vec.hpp:104-113 `operator<<`. -/
def shl (a : PVec rows d) (off : Nat) : Res (PVec rows d) := a.mapR fun mp => mp.shl off
/-- poly_vec.hpp:116-124 `operator==`. -/
def eq (a b : PVec rows d) : Bool :=
  (List.finRange rows).foldl (fun res i => res && MPoly.eq a[i] b[i]) true
/-- poly_vec.hpp:127-132, 135-140 `ntt`, `intt`. -/
def ntt (a : PVec rows d) : Res (PVec rows d) := a.mapR MPoly.ntt
def intt (a : PVec rows d) : Res (PVec rows d) := a.mapR MPoly.intt

/-- poly_vec.hpp:144-153 `zero_encoding`. -/
def zeroEncoding (E : Ext) (fuel rows : Nat) (m : Mrng d) : Res (PVec rows d × Mrng d) :=
  forLoop 0 rows 1 (fun ridx s => do
    let (z, m) ← MPoly.zeroEncoding E fuel s.2
    let v ← s.1.wr ridx z
    .ok (v, m)) (zero rows d, m)

/-- poly_vec.hpp:158-163 `refresh`. -/
def refresh (E : Ext) (fuel : Nat) (a : PVec rows d) (m : Mrng d) : Res (PVec rows d × Mrng d) :=
  forLoop 0 rows 1 (fun ridx s => do
    let x ← s.1.rd ridx
    let (x, m) ← MPoly.refresh E fuel x s.2
    let v ← s.1.wr ridx x
    .ok (v, m)) (a, m)

/-- poly_vec.hpp:168-177 `decode`. -/
def decode (a : PVec rows d) : PVec rows 1 := a.map MPoly.decode

/-- poly_vec.hpp:181-187 `add_rep_noise`. -/
def addRepNoise (E : Ext) (fuel u rep κ : Nat) (a : PVec rows d) (prng : Prng) (m : Mrng d) :
    Res (PVec rows d × Prng × Mrng d) :=
  forLoop 0 rows 1 (fun ridx s => do
    let x ← s.1.rd ridx
    let (x, prng, m) ← MPoly.addRepNoise E fuel u rep κ ridx x s.2.1 s.2.2
    let v ← s.1.wr ridx x
    .ok (v, prng, m)) (a, prng, m)

end PVec

/-- poly_mat.hpp:8-13 `poly_mat_t<rows, cols>` (row-major). -/
abbrev PMat (rows cols : Nat) := Vector Poly (rows * cols)

namespace PMat

theorem idx_lt {rows cols r c : Nat} (hr : r < rows) (hc : c < cols) : r * cols + c < rows * cols := by
  calc r * cols + c < r * cols + cols := by omega
    _ = (r + 1) * cols := by rw [Nat.add_mul, Nat.one_mul]
    _ ≤ rows * cols := Nat.mul_le_mul_right _ hr

/-- poly_mat.hpp:20-21 `operator[]`. -/
def at' (A : PMat rows cols) (r : Fin rows) (c : Fin cols) : Poly :=
  A[r.val * cols + c.val]'(idx_lt r.isLt c.isLt)

/-- poly_mat.hpp:27-40 `operator*`: every `res[row][shr]` accumulates the products over the columns in order. -/
def mulVec (A : PMat rows cols) (v : PVec cols d) : PVec rows d :=
  Vector.ofFn fun r => Vector.ofFn fun s : Fin d =>
    (List.finRange cols).foldl (fun acc c => Poly.add acc (Poly.mul (A.at' r c) v[c][s])) Poly.zero

/-- poly_mat.hpp:45-57 `expandA<k, l, 𝜅>`. -/
def expandA (E : Ext) (fuel k l : Nat) (seed : List U8) : Res (PMat k l) :=
  forLoop 0 k 1 (fun ridx A =>
    forLoop 0 l 1 (fun cidx A => do
      let hdr : List U8 := [0x41, BitVec.ofNat 8 ridx, BitVec.ofNat 8 cidx, 0, 0, 0, 0, 0]
      let p ← Poly.sampleQ E fuel hdr seed
      A.wr (ridx * l + cidx) p) A) (Vector.replicate (k * l) Poly.zero)

end PMat

/-- challenge.hpp:31-45 loop variables (xof, block buffer, offset) and one iteration for coefficient `wIdx`. -/
def chalHashStep (w : PVec k 1) (wIdx : Nat) (s : Xof × Vector U8 136 × Nat) : Res (Xof × Vector U8 136 × Nat) := do
  let (xof, buf, off) := s
  let (xof, off) := if off = 136 then (xof.absorb buf.toList, 0) else (xof, off)
  let row ← w.rd (wIdx / 512)
  let p ← row.rd 0
  let c ← p.rd (wIdx % 512)
  let buf ← buf.wr off (c.raw.setWidth 8)
  .ok (xof, buf, off + 1)

/-- challenge.hpp:10-56 `chal_hash<k, 𝜅>`; the result is the `2𝜅/8`-byte digest. -/
def chalHash (E : Ext) (κ : Nat) (w : PVec k 1) (μ : List U8) : Res (List U8) := do
  let xof := Xof.new E.shake256
  let hdr : Vector U8 8 := #v[0x68, BitVec.ofNat 8 k, 0, 0, 0, 0, 0, 0]
  let buf0 : Vector U8 136 := hdr ++ (Vector.replicate 128 0 : Vector U8 128)
  let (xof, buf, off) ← forLoop 0 (k * 512) 1 (fun i s => chalHashStep w i s) (xof, buf0, 8)
  let xof ← (if off > 0 then do
      let part ← subspan buf.toList 0 off
      Res.ok (xof.absorb part)
    else Res.ok xof)
  let xof := (xof.absorb μ).finalize
  .ok (xof.squeeze (2 * κ / 8)).1

end Raccoon
