import Verif.Model.LeakMasked
import Verif.Model.Api
/-!
# Instrumented serialisation and key operations
See `Model/Leak`.
-/
namespace Raccoon
open Lk

/-! ### serialization.hpp -/

/-- serialization.hpp:37-43 and 52-58. -/
def pkFlushL (νt : Nat) (s : PkEncSt) : Lk PkEncSt :=
  let maxBits := Nat.lcm (Q_BIT_WIDTH - νt) 8
  let maxBytes := maxBits / 8
  branch (s.bitcnt = maxBits) (do
    let pkey ← putLeL s.pkey s.idx maxBytes s.buffer
    pure ⟨pkey, s.idx + maxBytes, 0, 0⟩)
  (pure s)

/-- serialization.hpp:36-47. -/
def pkEncCoeffL (νt : Nat) (x : Zq) (s : PkEncSt) : Lk PkEncSt := do
  let cbits := Q_BIT_WIDTH - νt
  let mask : U64 := ((1 : U64) <<< cbits) - 1
  let s ← pkFlushL νt s
  let v ← lift (shl64 (x.raw &&& mask) s.bitcnt)
  pure { s with buffer := s.buffer ||| v, bitcnt := s.bitcnt + cbits }

/-- serialization.hpp:11-59 `encode_public_key`. -/
def encodePublicKeyL (νt : Nat) (seed : List U8) (t : PVec k 1) (pkey : List U8) : Lk (List U8) := do
  let pkey ← writeSpanL pkey 0 seed
  let s ← forL 0 k 1 (fun r s =>
    forL 0 512 1 (fun c s => do
      let row ← rdL t r
      let p ← rdL row 0
      let x ← rdL p c
      pkEncCoeffL νt x s) s) (⟨pkey, seed.length, 0, 0⟩ : PkEncSt)
  let s ← pkFlushL νt s
  pure s.pkey

/-- serialization.hpp:88-96. -/
def pkDecCoeffL (νt : Nat) (s : PVec k 1 × Nat × U64) : Lk (PVec k 1 × Nat × U64) := do
  let (t, tIdx, buffer) := s
  let cbits := Q_BIT_WIDTH - νt
  let mask : U64 := ((1 : U64) <<< cbits) - 1
  let ridx := tIdx >>> LOG2N
  let cidx := tIdx &&& (512 - 1)
  let row ← rdL t ridx
  let p ← rdL row 0
  let p ← wrL p cidx ⟨buffer &&& mask⟩
  let row ← wrL row 0 p
  let t ← wrL t ridx row
  let buffer ← lift (shr64 buffer cbits)
  pure (t, tIdx + 1, buffer)

/-- serialization.hpp:62-98 `decode_public_key`. -/
def decodePublicKeyL (νt seedLen k : Nat) (pkey : List U8) : Lk (List U8 × PVec k 1) := do
  let seed ← subspanL pkey 0 seedLen
  let cbits := Q_BIT_WIDTH - νt
  let maxBits := Nat.lcm cbits 8
  let maxBytes := maxBits / 8
  let perRound := maxBits / cbits
  let (t, _) ← forL seedLen pkey.length maxBytes (fun off s => do
    let w ← subspanL pkey off maxBytes
    let word ← fromLeBytesL 64 w
    let (t, tIdx, _) ← forL 0 perRound 1 (fun _ s => pkDecCoeffL νt s) (s.1, s.2, word)
    pure (t, tIdx)) (PVec.zero k 1, 0)
  pure (seed, t)

/-- serialization.hpp:113-132. -/
def compressShareL (E : Ext) (fuel κ : Nat) (s : PVec l d) (sidx : Nat) (st : PVec l 1 × List U8 × Prng) :
    Lk (PVec l 1 × List U8 × Prng) := do
  let (x, sc, prng) := st
  let r : Poly := Poly.zero
  let (z, prng) ← prng.readL (κ / 8)
  let sc ← writeSpanL sc ((sidx - 1) * z.length) z
  let x ← forL 0 l 1 (fun ridx x => do
    let hdr : List U8 := [0x4b, BitVec.ofNat 8 sidx, BitVec.ofNat 8 ridx, 0, 0, 0, 0, 0]
    let _discarded ← Poly.sampleQL E fuel hdr z
    let row ← rdL x ridx
    let p ← rdL row 0
    let p ← Poly.subL p r
    let row ← wrL row 0 p
    wrL x ridx row) x
  let x ← forL 0 l 1 (fun ridx x => do
    let srow ← rdL s ridx
    let sp ← rdL srow sidx
    let row ← rdL x ridx
    let p ← rdL row 0
    let p ← Poly.addL p sp
    let row ← wrL row 0 p
    wrL x ridx row) x
  pure (x, sc, prng)

/-- serialization.hpp:143-155. -/
def packCoeffL (x : Zq) (st : List U8 × Nat × U64 × Nat) : Lk (List U8 × Nat × U64 × Nat) := do
  let (sc, scOff, buffer, bitOff) := st
  let mask49 : U64 := ((1 : U64) <<< Q_BIT_WIDTH) - 1
  let v ← lift (shl64 (x.raw &&& mask49) bitOff)
  let buffer := buffer ||| v
  let bitOff := bitOff + Q_BIT_WIDTH
  let wb := and8 bitOff
  let wbytes := wb / 8
  let sc ← putLeL sc scOff wbytes buffer
  let buffer ← lift (shr64 buffer wb)
  pure (sc, scOff + wbytes, buffer, bitOff - wb)

/-- serialization.hpp:135-157. -/
def packRowL (p : Poly) (st : List U8 × Nat) : Lk (List U8 × Nat) := do
  let (sc, scOff, _, _) ← forL 0 512 1 (fun i s => do
    let x ← rdL p i
    packCoeffL x s) (st.1, st.2, (0 : U64), 0)
  pure (sc, scOff)

/-- serialization.hpp:101-158 `mask_compress`. -/
def maskCompressL (E : Ext) (fuel κ : Nat) (s : PVec l d) (sc : List U8) (prng : Prng) : Lk (List U8 × Prng) := do
  let x ← forL 0 l 1 (fun ridx x => do
    let srow ← rdL s ridx
    let p ← rdL srow 0
    let row ← rdL x ridx
    let row ← wrL row 0 p
    wrL x ridx row) (PVec.zero l 1)
  let (x, sc, prng) ← forL 1 d 1 (fun sidx st => compressShareL E fuel κ s sidx st) (x, sc, prng)
  let (sc, _) ← forL 0 l 1 (fun ridx st => do
    let row ← rdL x ridx
    let p ← rdL row 0
    packRowL p st) (sc, ((d - 1) * κ) / 8)
  pure (sc, prng)

/-- serialization.hpp:176-189. -/
def unpackCoeffL (sc : List U8) (st : Nat × U64 × Nat) : Lk (Zq × Nat × U64 × Nat) := do
  let (scOff, buffer, bitOff) := st
  let mask49 : U64 := ((1 : U64) <<< Q_BIT_WIDTH) - 1
  let needed := Q_BIT_WIDTH - bitOff
  let toRead := and8 (needed + 7)
  let bytes := toRead / 8
  let w ← subspanL sc scOff bytes
  let word ← fromLeBytesL 64 w
  let v ← lift (shl64 word bitOff)
  let buffer := buffer ||| v
  let bitOff := bitOff + toRead
  let coeff : Zq := ⟨buffer &&& mask49⟩
  let buffer ← lift (shr64 buffer Q_BIT_WIDTH)
  pure (coeff, scOff + bytes, buffer, bitOff - Q_BIT_WIDTH)

/-- serialization.hpp:168-191. -/
def unpackRowL (sc : List U8) (scOff : Nat) : Lk (Poly × Nat) := do
  let (p, scOff, _, _) ← forL 0 512 1 (fun i s => do
    let (x, st) ← unpackCoeffL sc s.2
    let p ← wrL s.1 i x
    pure (p, st)) (Poly.zero, scOff, (0 : U64), 0)
  pure (p, scOff)

/-- serialization.hpp:161-203 `mask_decompress`. -/
def maskDecompressL (E : Ext) (fuel κ l d : Nat) (sc : List U8) : Lk (PVec l d) := do
  let (s, _) ← forL 0 l 1 (fun ridx st => do
    let (p, off) ← unpackRowL sc st.2
    let row ← rdL st.1 ridx
    let row ← wrL row 0 p
    let s ← wrL st.1 ridx row
    pure (s, off)) (PVec.zero l d, ((d - 1) * κ) / 8)
  forL 1 d 1 (fun sidx s =>
    forL 0 l 1 (fun ridx s => do
      let hdr : List U8 := [0x4b, BitVec.ofNat 8 sidx, BitVec.ofNat 8 ridx, 0, 0, 0, 0, 0]
      let seed ← subspanL sc ((sidx - 1) * (κ / 8)) (κ / 8)
      let _discarded ← Poly.sampleQL E fuel hdr seed
      pure s) s) s

/-- serialization.hpp:229-243 and 275-289. -/
def encFlushL (sigLen : Nat) (s : EncSt) : Lk (Bool × EncSt) :=
  branch (s.bitOff ≥ 8) (
    let wb := and8 s.bitOff
    let wbytes := wb / 8
    branch (s.off + wbytes > sigLen) (pure (false, s)) (do
      let sig ← putLeL s.sig s.off wbytes s.buffer
      let buffer ← lift (shr64 s.buffer wb)
      pure (true, ⟨sig, s.off + wbytes, buffer, s.bitOff - wb⟩)))
  (pure (true, s))

/-- serialization.hpp:245-259 (`std::abs` branches on the sign). -/
def encHintL (x : Int) (s : EncSt) : Lk EncSt := do
  let ax ← branch (x < 0) (lift (i64 x.natAbs)) (lift (i64 x.natAbs))
  let ax := ax.toNat
  let one ← lift (shl64 1 ax)
  let ones := one - 1
  branch (x > 0) (do
    let z ← lift (shl64 0b00 ax)
    let v ← lift (shl64 (z ||| ones) s.bitOff)
    pure { s with buffer := s.buffer ||| v, bitOff := s.bitOff + (ax + 2) })
    (branch (x < 0) (do
    let z ← lift (shl64 0b10 ax)
    let v ← lift (shl64 (z ||| ones) s.bitOff)
    pure { s with buffer := s.buffer ||| v, bitOff := s.bitOff + (ax + 2) })
    (do
    let v ← lift (shl64 0b0 s.bitOff)
    pure { s with buffer := s.buffer ||| v, bitOff := s.bitOff + 1 }))

/-- serialization.hpp:291-310. -/
def encRespL (x : Int) (s : EncSt) : Lk EncSt := do
  let ax ← branch (x < 0) (lift (i64 x.natAbs)) (lift (i64 x.natAbs))
  let ax := ax.toNat
  let a := ax % 2 ^ 40
  let b := ax / 2 ^ 40
  let v ← lift (shl64 (BitVec.ofNat 64 a) s.bitOff)
  let s := { s with buffer := s.buffer ||| v, bitOff := s.bitOff + 40 }
  let one ← lift (shl64 1 b)
  let ones := one - 1
  branch (x > 0) (do
    let z ← lift (shl64 0b00 b)
    let v ← lift (shl64 (z ||| ones) s.bitOff)
    pure { s with buffer := s.buffer ||| v, bitOff := s.bitOff + (b + 2) })
    (branch (x < 0) (do
    let z ← lift (shl64 0b10 b)
    let v ← lift (shl64 (z ||| ones) s.bitOff)
    pure { s with buffer := s.buffer ||| v, bitOff := s.bitOff + (b + 2) })
    (pure { s with bitOff := s.bitOff + 1 }))

/-- serialization.hpp:225-265 and 271-316, from coefficient `i` on (the two nested loops are one loop here; the row boundaries are
determined by `i`). -/
def encLoopL (sigLen : Nat) (enc : Int → EncSt → Lk EncSt) : Nat → List Int → EncSt → Lk (Bool × EncSt)
  | _, [], s => tick (.br false) (pure (true, s))
  | i, x :: xs, s => tick (.br true) (do
    let (fits, s) ← encFlushL sigLen s
    branch (fits = true) (tick (.ix i) (do
      let s ← enc x s
      encLoopL sigLen enc (i + 1) xs s))
      (pure (false, s)))

/-- serialization.hpp:322-336. -/
def encFinishL (sigLen : Nat) (s : EncSt) : Lk (Bool × EncSt) :=
  branch (s.bitOff > 0) (
    let wb := and8 (s.bitOff + 7)
    let wbytes := wb / 8
    branch (s.off + wbytes > sigLen) (pure (false, s)) (do
      let sig ← putLeL s.sig s.off wbytes s.buffer
      let buffer ← lift (shr64 s.buffer wb)
      pure (true, ⟨sig, s.off + wbytes, buffer, 0⟩)))
  (pure (true, s))

/-- serialization.hpp:209-340 `encode_sig`. -/
def encodeSigL (cHash : List U8) (h z : List Int) (sig : List U8) : Lk (Bool × List U8) := do
  let sigLen := sig.length
  let sig ← writeSpanL sig 0 cHash
  let (ok, s) ← encLoopL sigLen encHintL 0 h ⟨sig, cHash.length, 0, 0⟩
  branch ((!ok) = true) (pure (false, s.sig)) (do
    let (ok, s) ← encLoopL sigLen encRespL 0 z s
    branch ((!ok) = true) (pure (false, s.sig)) (do
      let (ok, s) ← encFinishL sigLen s
      branch ((!ok) = true) (pure (false, s.sig)) (do
        let sig ← writeSpanL s.sig s.off (List.replicate (sigLen - s.off) 0)
        pure (true, sig))))

/-! ### signature.hpp -/

/-- signature.hpp:31-45. -/
def centerVecL (q' : U64) (v : PVec k 1) : Lk (List Int) :=
  forL 0 k 1 (fun r (acc : List Int) => do
    let row ← rdL v r
    let p ← rdL row 0
    let c ← Poly.centerL q' p
    tick (.ix (r * 512)) (tick (.len 512) (pure (acc ++ c.toList)))) []

/-- signature.hpp:24-46. -/
def Sig.mkL (νw : Nat) (cHash : List U8) (h : PVec k 1) (z : PVec l 1) : Lk Sig := tick (.len cHash.length) (do
  let hs ← centerVecL (Q >>> νw) h
  let zs ← centerVecL Q z
  pure ⟨cHash, hs, zs⟩)

/-- signature.hpp:95-103 (`std::abs`, `std::max` branch). -/
def hNormStepL (s : U64 × U64) (x : Int) : Lk (U64 × U64) := do
  let ax ← branch (x < 0) (lift (i64 x.natAbs)) (lift (i64 x.natAbs))
  let ax : U64 := BitVec.ofInt 64 ax
  let mx ← branch (s.1 < ax) (pure ax) (pure s.1)
  pure (mx, s.2 + ax * ax)

/-- signature.hpp:120-130 (`? :` and `std::max` branch; `from_centered_to_Zq` does not). -/
def zNormStepL (s : Zq × Zq) (x : Int) : Lk (Zq × Zq) := do
  let Qby2 : Zq := ⟨Q / 2⟩
  let x ← lift (fromCenteredToZq x)
  let ax ← branch (x.gt Qby2 = true) (pure (-x)) (pure x)
  let inf ← branch (s.1.raw < ax.raw) (pure ax) (pure s.1)
  let sh ← lift (ax.shr 32)
  let sq ← sh.mulL sh
  pure (inf, s.2 + sq)

/-- A loop over the elements of a list, from index `i` on. -/
def eachL {α σ : Type} (f : σ → α → Lk σ) : Nat → List α → σ → Lk σ
  | _, [], s => tick (.br false) (pure s)
  | i, x :: xs, s => tick (.br true) (tick (.ix i) (do
    let s ← f s x
    eachL f (i + 1) xs s))

/-- signature.hpp:88-147 `check_bounds`. -/
def Sig.checkBoundsL (νw : Nat) (Binf B22 : U64) (s : Sig) : Lk Bool := do
  let (hInf, hSqr) ← eachL hNormStepL 0 s.h ((0 : U64), (0 : U64))
  let (zInf, zSqr) ← eachL zNormStepL 0 s.z (Zq.zero, Zq.zero)
  branch (hInf > Binf >>> νw) (pure false)
    (branch (zInf.gt ⟨Binf⟩ = true) (pure false) (
      let scaled := hSqr * ((1 : U64) <<< (2 * νw - 64))
      branch (((⟨scaled⟩ : Zq) + zSqr).gt ⟨B22⟩ = true) (pure false) (pure true)))

/-! ### secret_key.hpp, raccoon*.hpp -/

/-- public_key.hpp:135 `to_bytes`. -/
def PKey.toBytesL (νt : Nat) (pk : PKey k) (bytes : List U8) : Lk (List U8) := encodePublicKeyL νt pk.seed pk.t bytes

/-- secret_key.hpp:53-57 `refresh`. -/
def SKey.refreshL (E : Ext) (fuel : Nat) (sk : SKey k l d) : Lk (SKey k l d) := do
  let (s, _) ← sk.s.refreshL E fuel (Mrng.new E d)
  pure { sk with s := s }

/-- secret_key.hpp:62-96 `generate`. -/
def SKey.generateL (P : Par) (E : Ext) (fuel d ut rep : Nat) (entropy seed : List U8) : Lk (SKey P.k P.l d) := do
  let prng := Prng.new E entropy
  let m := Mrng.new E d
  let A ← PMat.expandAL E fuel P.k P.l seed
  let (s, m) ← PVec.zeroEncodingL E fuel P.l m
  let (s, prng, m) ← s.addRepNoiseL E fuel ut rep P.κ prng m
  let s ← s.nttLk
  let t ← A.mulVecL s
  let t ← t.inttLk
  let (t, _, _) ← t.addRepNoiseL E fuel ut rep P.κ prng m
  let t' ← t.decodeL
  let t' ← t'.roundingShrL P.νt
  pure ⟨⟨seed, t'⟩, s⟩

/-- secret_key.hpp:136-207: one iteration. The third component is the signature object of the iteration (line 183), for
reference. -/
def signAttemptL (P : Par) (E : Ext) (fuel d uw rep : Nat) (A : PMat P.k P.l) (t : PVec P.k 1) (μ : List U8)
    (st : SignSt P.l d) : Lk (Bool × SignSt P.l d × Sig) := do
  let (r, m) ← PVec.zeroEncodingL E fuel P.l st.m
  let (r, prng, m) ← r.addRepNoiseL E fuel uw rep P.κ st.prng m
  let r ← r.nttLk
  let w ← A.mulVecL r
  let w ← w.inttLk
  let (w, prng, m) ← w.addRepNoiseL E fuel uw rep P.κ prng m
  let w' ← w.decodeL
  let w' ← w'.roundingShrL P.νw
  let cHash ← chalHashL E P.κ w' μ
  let c ← Poly.chalPolyL E fuel P.ω cHash
  let c ← c.nttLk
  let (s, m) ← st.s.refreshL E fuel m
  let (r, m) ← r.refreshL E fuel m
  let sc ← s.mulPolyL c
  let z ← sc.addL r
  let (z, m) ← z.refreshL E fuel m
  let z' ← z.decodeL
  let Az ← A.mulVecL z'
  let tc ← t.mulPolyL c
  let y ← Az.subL tc
  let y ← y.inttLk
  let z' ← z'.inttLk
  let y ← y.roundingShrL P.νw
  let h ← w'.subModL (Q >>> P.νw) y
  let sig ← Sig.mkL P.νw cHash h z'
  let (isEncoded, sigBytes) ← encodeSigL sig.cHash sig.h sig.z st.sigBytes
  branch ((!isEncoded) = true) (pure (false, ⟨s, prng, m, sigBytes⟩, sig)) (do
    let inBounds ← sig.checkBoundsL P.νw P.Binf P.B22
    branch ((!inBounds) = true) (pure (false, ⟨s, prng, m, sigBytes⟩, sig)) (pure (true, ⟨s, prng, m, sigBytes⟩, sig)))

/-- secret_key.hpp:135-207: the loop. Second component: the signature objects of the iterations, in order, for reference. -/
def signLoopL (P : Par) (E : Ext) (fuel d uw rep : Nat) (A : PMat P.k P.l) (t : PVec P.k 1) (μ : List U8) :
    Nat → SignSt P.l d → Lk (List U8 × List Sig)
  | 0, _ => lift .nofuel
  | n + 1, st => do
    let (done, st, sig) ← signAttemptL P E fuel d uw rep A t μ st
    if done then pure (st.sigBytes, [sig])
    else do
      let (b, sigs) ← signLoopL P E fuel d uw rep A t μ n st
      pure (b, sig :: sigs)

/-- secret_key.hpp:112-127. -/
def SKey.bindMsgL (E : Ext) (κ : Nat) (pkBytes msg : List U8) : Lk (List U8) := do
  let hasher ← (Xof.new E.shake256).absorbL pkBytes
  let (μ, hasher) ← hasher.finalize.squeezeL (2 * κ / 8)
  let hasher := hasher.reset
  let hasher ← hasher.absorbL μ
  let hasher ← hasher.absorbL msg
  let r ← hasher.finalize.squeezeL (2 * κ / 8)
  pure r.1

/-- secret_key.hpp:98-208 `sign`. -/
def SKey.signL (P : Par) (E : Ext) (fuel d uw rep : Nat) (sk : SKey P.k P.l d) (entropy msg sigBytes : List U8) :
    Lk (List U8 × List Sig) := do
  let t ← sk.pkey.t.shlL P.νt
  let t ← t.nttLk
  let pkBytes ← sk.pkey.toBytesL P.νt (List.replicate (PKey.byteLen P.κ P.k P.νt) 0)
  let μ ← SKey.bindMsgL E P.κ pkBytes msg
  let A ← PMat.expandAL E fuel P.k P.l sk.pkey.seed
  signLoopL P E fuel d uw rep A t μ fuel ⟨sk.s, Prng.new E entropy, Mrng.new E d, sigBytes⟩

/-- secret_key.hpp:211-220 `to_bytes`. -/
def SKey.toBytesL (E : Ext) (fuel κ νt : Nat) (sk : SKey k l d) (bytes : List U8) (prng : Prng) : Lk (List U8 × Prng) := do
  let pklen := pkeyByteLen κ k 512 νt
  let b0 ← subspanL bytes 0 pklen
  let b0 ← sk.pkey.toBytesL νt b0
  let bytes ← lift (writeSpan bytes 0 b0)
  let b1 ← subspanL bytes pklen (bytes.length - pklen)
  let (b1, prng) ← maskCompressL E fuel κ sk.s b1 prng
  let bytes ← lift (writeSpan bytes pklen b1)
  pure (bytes, prng)

/-- secret_key.hpp:223-236 `from_bytes`, public_key.hpp:138-143. -/
def SKey.fromBytesL (E : Ext) (fuel κ k l d νt : Nat) (bytes : List U8) : Lk (SKey k l d) := do
  let pklen := PKey.byteLen κ k νt
  let b0 ← subspanL bytes 0 pklen
  let (seed, t) ← decodePublicKeyL νt (κ / 8) k b0
  let b1 ← subspanL bytes pklen (bytes.length - pklen)
  let s ← maskDecompressL E fuel κ l d b1
  pure ⟨⟨seed, t⟩, s⟩

/-- raccoon128.hpp:84-87 `generate` and the analogous lines. -/
def Api.generateL (P : Par) (uts : List Nat) (E : Ext) (fuel d : Nat) (entropy seed : List U8) : Lk (SKey P.k P.l d) := do
  let ut ← lift (tab uts (BitVec.ofNat 64 d))
  let rep ← lift (tab repTable (BitVec.ofNat 64 d))
  SKey.generateL P E fuel d ut rep entropy seed
/-- raccoon128.hpp:93-96 `sign`. -/
def Api.signL (P : Par) (E : Ext) (fuel d : Nat) (sk : SKey P.k P.l d) (entropy msg sigBytes : List U8) :
    Lk (List U8 × List Sig) := do
  let uw ← lift (tab uwTable (BitVec.ofNat 64 d))
  let rep ← lift (tab repTable (BitVec.ofNat 64 d))
  sk.signL P E fuel d uw rep entropy msg sigBytes
/-- raccoon128.hpp:99 `refresh`. -/
def Api.refreshL (P : Par) (E : Ext) (fuel : Nat) (sk : SKey P.k P.l d) : Lk (SKey P.k P.l d) := sk.refreshL E fuel
/-- raccoon128.hpp:74-78 `as_bytes`. -/
def Api.skAsBytesL (P : Par) (E : Ext) (fuel : Nat) (sk : SKey P.k P.l d) (entropy bytes : List U8) : Lk (List U8) := do
  let r ← sk.toBytesL E fuel P.κ P.νt bytes (Prng.new E entropy)
  pure r.1
/-- raccoon128.hpp:71 the constructor from bytes. -/
def Api.skFromBytesL (P : Par) (E : Ext) (fuel d : Nat) (bytes : List U8) : Lk (SKey P.k P.l d) :=
  SKey.fromBytesL E fuel P.κ P.k P.l d P.νt bytes

end Raccoon
