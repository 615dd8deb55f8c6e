import Verif.Model.Masked
/-!
# `include/raccoon/internals/utility/serialization.hpp`

Output spans are byte lists updated in place (`writeSpan`); the previous content is an argument.
-/
namespace Raccoon

/-- Variables of the `encode_public_key` loop (serialization.hpp:27-31). -/
structure PkEncSt where
  pkey : List U8
  idx : Nat
  bitcnt : Nat
  buffer : U64

/-- serialization.hpp:37-43 and 52-58: write out a full buffer. -/
def pkFlush (νt : Nat) (s : PkEncSt) : Res PkEncSt :=
  let maxBits := Nat.lcm (Q_BIT_WIDTH - νt) 8
  let maxBytes := maxBits / 8
  if s.bitcnt = maxBits then do
    let pkey ← putLe s.pkey s.idx maxBytes s.buffer
    .ok ⟨pkey, s.idx + maxBytes, 0, 0⟩
  else .ok s

/-- serialization.hpp:36-47: one coefficient. -/
def pkEncCoeff (νt : Nat) (x : Zq) (s : PkEncSt) : Res PkEncSt := do
  let cbits := Q_BIT_WIDTH - νt
  let mask : U64 := ((1 : U64) <<< cbits) - 1
  let s ← pkFlush νt s
  let v ← shl64 (x.raw &&& mask) s.bitcnt
  .ok { s with buffer := s.buffer ||| v, bitcnt := s.bitcnt + cbits }

/-- serialization.hpp:11-59 `encode_public_key<𝜅, k, 𝜈t>`. -/
def encodePublicKey (νt : Nat) (seed : List U8) (t : PVec k 1) (pkey : List U8) : Res (List U8) := do
  let pkey ← writeSpan pkey 0 seed
  let s ← forLoop 0 k 1 (fun r s =>
    forLoop 0 512 1 (fun c s => do
      let row ← t.rd r
      let p ← row.rd 0
      let x ← p.rd c
      pkEncCoeff νt x s) s) (⟨pkey, seed.length, 0, 0⟩ : PkEncSt)
  let s ← pkFlush νt s
  .ok s.pkey

/-- serialization.hpp:88-96: store one decoded coefficient. -/
def pkDecCoeff (νt : Nat) (s : PVec k 1 × Nat × U64) : Res (PVec k 1 × Nat × U64) := do
  let (t, tIdx, buffer) := s
  let cbits := Q_BIT_WIDTH - νt
  let mask : U64 := ((1 : U64) <<< cbits) - 1
  let ridx := tIdx >>> LOG2N
  let cidx := tIdx &&& (512 - 1)
  let row ← t.rd ridx
  let p ← row.rd 0
  let p ← p.wr cidx ⟨buffer &&& mask⟩
  let row ← row.wr 0 p
  let t ← t.wr ridx row
  let buffer ← shr64 buffer cbits
  .ok (t, tIdx + 1, buffer)

/-- serialization.hpp:62-98 `decode_public_key<𝜅, k, 𝜈t>` into a zero-initialised `t`
(the only caller passes a fresh `pkey_t`): (seed, t). -/
def decodePublicKey (νt seedLen k : Nat) (pkey : List U8) : Res (List U8 × PVec k 1) := do
  let seed ← subspan pkey 0 seedLen
  let cbits := Q_BIT_WIDTH - νt
  let maxBits := Nat.lcm cbits 8
  let maxBytes := maxBits / 8
  let perRound := maxBits / cbits
  let (t, _) ← forLoop seedLen pkey.length maxBytes (fun off s => do
    let w ← subspan pkey off maxBytes
    let (t, tIdx, _) ← forLoop 0 perRound 1 (fun _ s => pkDecCoeff νt s) (s.1, s.2, fromLeBytes 64 w)
    Res.ok (t, tIdx)) (PVec.zero k 1, 0)
  .ok (seed, t)

/-- serialization.hpp:113-132: share `sidx` of `mask_compress`.  `r.sampleQ<𝜅>(hdr, z)` is a static member
function whose result is discarded: `r` stays the zero polynomial. -/
def compressShare (E : Ext) (fuel κ : Nat) (s : PVec l d) (sidx : Nat) (st : PVec l 1 × List U8 × Prng) :
    Res (PVec l 1 × List U8 × Prng) := do
  let (x, sc, prng) := st
  let r : Poly := Poly.zero
  let (z, prng) := prng.read (κ / 8)
  let sc ← writeSpan sc ((sidx - 1) * z.length) z
  let x ← forLoop 0 l 1 (fun ridx x => do
    let hdr : List U8 := [0x4b, BitVec.ofNat 8 sidx, BitVec.ofNat 8 ridx, 0, 0, 0, 0, 0]
    let _discarded ← Poly.sampleQ E fuel hdr z
    let row ← Vector.rd x ridx
    let p ← row.rd 0
    let row ← row.wr 0 (Poly.sub p r)
    x.wr ridx row) x
  let x ← forLoop 0 l 1 (fun ridx x => do
    let srow ← s.rd ridx
    let sp ← srow.rd sidx
    let row ← Vector.rd x ridx
    let p ← row.rd 0
    let row ← row.wr 0 (Poly.add p sp)
    x.wr ridx row) x
  .ok (x, sc, prng)

/-- serialization.hpp:143-155: pack one 49-bit coefficient; state (s_c, s_c_off, buffer, buf_bit_off). -/
def packCoeff (x : Zq) (st : List U8 × Nat × U64 × Nat) : Res (List U8 × Nat × U64 × Nat) := do
  let (sc, scOff, buffer, bitOff) := st
  let mask49 : U64 := ((1 : U64) <<< Q_BIT_WIDTH) - 1
  let v ← shl64 (x.raw &&& mask49) bitOff
  let buffer := buffer ||| v
  let bitOff := bitOff + Q_BIT_WIDTH
  let wb := and8 bitOff
  let wbytes := wb / 8
  let sc ← putLe sc scOff wbytes buffer
  let buffer ← shr64 buffer wb
  .ok (sc, scOff + wbytes, buffer, bitOff - wb)

/-- serialization.hpp:135-157: pack one row; state (s_c, s_c_off). -/
def packRow (p : Poly) (st : List U8 × Nat) : Res (List U8 × Nat) := do
  let (sc, scOff, _, _) ← forLoop 0 512 1 (fun i s => do
    let x ← p.rd i
    packCoeff x s) (st.1, st.2, (0 : U64), 0)
  .ok (sc, scOff)

/-- serialization.hpp:101-158 `mask_compress<𝜅, l, d>`: (bytes, prng). -/
def maskCompress (E : Ext) (fuel κ : Nat) (s : PVec l d) (sc : List U8) (prng : Prng) : Res (List U8 × Prng) := do
  let x ← forLoop 0 l 1 (fun ridx x => do
    let srow ← s.rd ridx
    let p ← srow.rd 0
    let row ← Vector.rd x ridx
    let row ← row.wr 0 p
    x.wr ridx row) (PVec.zero l 1)
  let (x, sc, prng) ← forLoop 1 d 1 (fun sidx st => compressShare E fuel κ s sidx st) (x, sc, prng)
  let (sc, _) ← forLoop 0 l 1 (fun ridx st => do
    let row ← Vector.rd x ridx
    let p ← row.rd 0
    packRow p st) (sc, ((d - 1) * κ) / 8)
  .ok (sc, prng)

/-- serialization.hpp:176-189: unpack one 49-bit coefficient; state (s_c_off, buffer, buf_bit_off); returns the coefficient too. -/
def unpackCoeff (sc : List U8) (st : Nat × U64 × Nat) : Res (Zq × Nat × U64 × Nat) := do
  let (scOff, buffer, bitOff) := st
  let mask49 : U64 := ((1 : U64) <<< Q_BIT_WIDTH) - 1
  let needed := Q_BIT_WIDTH - bitOff
  let toRead := and8 (needed + 7)
  let bytes := toRead / 8
  let w ← subspan sc scOff bytes
  let v ← shl64 (fromLeBytes 64 w) bitOff
  let buffer := buffer ||| v
  let bitOff := bitOff + toRead
  let coeff : Zq := ⟨buffer &&& mask49⟩
  let buffer ← shr64 buffer Q_BIT_WIDTH
  .ok (coeff, scOff + bytes, buffer, bitOff - Q_BIT_WIDTH)

/-- serialization.hpp:168-191: unpack one row; (row, s_c_off). -/
def unpackRow (sc : List U8) (scOff : Nat) : Res (Poly × Nat) := do
  let (p, scOff, _, _) ← forLoop 0 512 1 (fun i s => do
    let (x, st) ← unpackCoeff sc s.2
    let p ← Vector.wr s.1 i x
    Res.ok (p, st)) (Poly.zero, scOff, (0 : U64), 0)
  .ok (p, scOff)

/-- serialization.hpp:161-203 `mask_decompress<𝜅, l, d>`.  `s[ridx][sidx].template sampleQ<𝜅>(…)` (line 198) is a call of
a static member function whose result is discarded: shares 1.. stay zero. -/
def maskDecompress (E : Ext) (fuel κ l d : Nat) (sc : List U8) : Res (PVec l d) := do
  let (s, _) ← forLoop 0 l 1 (fun ridx st => do
    let (p, off) ← unpackRow sc st.2
    let row ← Vector.rd st.1 ridx
    let row ← row.wr 0 p
    let s ← Vector.wr st.1 ridx row
    Res.ok (s, off)) (PVec.zero l d, ((d - 1) * κ) / 8)
  forLoop 1 d 1 (fun sidx s =>
    forLoop 0 l 1 (fun ridx s => do
      let hdr : List U8 := [0x4b, BitVec.ofNat 8 sidx, BitVec.ofNat 8 ridx, 0, 0, 0, 0, 0]
      let seed ← subspan sc ((sidx - 1) * (κ / 8)) (κ / 8)
      let _discarded ← Poly.sampleQ E fuel hdr seed
      Res.ok s) s) s

/-! ### Signature encoding -/

/-- Variables of `encode_sig` (serialization.hpp:216-223). -/
structure EncSt where
  sig : List U8
  off : Nat
  buffer : U64
  bitOff : Nat

/-- serialization.hpp:229-243 and 275-289: write out the whole bytes of the buffer.
`false` = they do not fit (`encodable = false; break`). -/
def encFlush (sigLen : Nat) (s : EncSt) : Res (Bool × EncSt) :=
  if s.bitOff ≥ 8 then
    let wb := and8 s.bitOff
    let wbytes := wb / 8
    if s.off + wbytes > sigLen then .ok (false, s)
    else do
      let sig ← putLe s.sig s.off wbytes s.buffer
      let buffer ← shr64 s.buffer wb
      .ok (true, ⟨sig, s.off + wbytes, buffer, s.bitOff - wb⟩)
  else .ok (true, s)

/-- serialization.hpp:245-259: append a hint coefficient to the bit buffer. -/
def encHint (x : Int) (s : EncSt) : Res EncSt := do
  let ax ← i64 x.natAbs
  let ax := ax.toNat
  let one ← shl64 1 ax
  let ones := one - 1
  if x > 0 then do
    let z ← shl64 0b00 ax
    let v ← shl64 (z ||| ones) s.bitOff
    .ok { s with buffer := s.buffer ||| v, bitOff := s.bitOff + (ax + 2) }
  else if x < 0 then do
    let z ← shl64 0b10 ax
    let v ← shl64 (z ||| ones) s.bitOff
    .ok { s with buffer := s.buffer ||| v, bitOff := s.bitOff + (ax + 2) }
  else do
    let v ← shl64 0b0 s.bitOff
    .ok { s with buffer := s.buffer ||| v, bitOff := s.bitOff + 1 }

/-- serialization.hpp:291-310: append a response coefficient to the bit buffer. -/
def encResp (x : Int) (s : EncSt) : Res EncSt := do
  let ax ← i64 x.natAbs
  let ax := ax.toNat
  let a := ax % 2 ^ 40
  let b := ax / 2 ^ 40
  let v ← shl64 (BitVec.ofNat 64 a) s.bitOff
  let s := { s with buffer := s.buffer ||| v, bitOff := s.bitOff + 40 }
  let one ← shl64 1 b
  let ones := one - 1
  if x > 0 then do
    let z ← shl64 0b00 b
    let v ← shl64 (z ||| ones) s.bitOff
    .ok { s with buffer := s.buffer ||| v, bitOff := s.bitOff + (b + 2) }
  else if x < 0 then do
    let z ← shl64 0b10 b
    let v ← shl64 (z ||| ones) s.bitOff
    .ok { s with buffer := s.buffer ||| v, bitOff := s.bitOff + (b + 2) }
  else .ok { s with bitOff := s.bitOff + 1 }

/-- serialization.hpp:225-265 (with `encHint`) and 271-316 (with `encResp`): the two nested loops visit the coefficients
in order and leave both loops as soon as a flush does not fit. -/
def encLoop (sigLen : Nat) (enc : Int → EncSt → Res EncSt) : List Int → EncSt → Res (Bool × EncSt)
  | [], s => .ok (true, s)
  | x :: xs, s => do
    let (fits, s) ← encFlush sigLen s
    if fits then do
      let s ← enc x s
      encLoop sigLen enc xs s
    else .ok (false, s)

/-- serialization.hpp:322-336: final flush. `false` = does not fit. -/
def encFinish (sigLen : Nat) (s : EncSt) : Res (Bool × EncSt) :=
  if s.bitOff > 0 then
    let wb := and8 (s.bitOff + 7)
    let wbytes := wb / 8
    if s.off + wbytes > sigLen then .ok (false, s)
    else do
      let sig ← putLe s.sig s.off wbytes s.buffer
      let buffer ← shr64 s.buffer wb
      -- `buf_bit_off -= writeable_bitcnt` wraps (unsigned) and is not used any more
      .ok (true, ⟨sig, s.off + wbytes, buffer, 0⟩)
  else .ok (true, s)

/-- serialization.hpp:209-340 `encode_sig<𝜅, k, l, sig_byte_len>` into the span `sig`: (encodable, new content of `sig`). -/
def encodeSig (cHash : List U8) (h z : List Int) (sig : List U8) : Res (Bool × List U8) := do
  let sigLen := sig.length
  let sig ← writeSpan sig 0 cHash
  let (ok, s) ← encLoop sigLen encHint h ⟨sig, cHash.length, 0, 0⟩
  if !ok then .ok (false, s.sig)
  else do
    let (ok, s) ← encLoop sigLen encResp z s
    if !ok then .ok (false, s.sig)
    else do
      let (ok, s) ← encFinish sigLen s
      if !ok then .ok (false, s.sig)
      else do
        let sig ← writeSpan s.sig s.off (List.replicate (sigLen - s.off) 0)
        .ok (true, sig)

/-! ### Signature decoding -/

/-- serialization.hpp:343-347 `get_bit_at` (UB for `idx >= 64`). -/
def getBitAt (word : U64) (idx : Nat) : Res U64 := do
  let v ← shr64 word idx
  .ok (v &&& 1)

/-- serialization.hpp:358-361, 392-395: count ones from bit `idx` on, below `bitOff`. The counter `n` only makes the
definition total (started with 65, and bit 64 is already UB). -/
def scanOnes (buffer : U64) (bitOff : Nat) : Nat → Nat → Res Nat
  | 0, _ => .nofuel
  | n + 1, idx =>
    if idx < bitOff then do
      let b ← getBitAt buffer idx
      if b = 1 then scanOnes buffer bitOff n (idx + 1) else .ok idx
    else .ok idx

/-- serialization.hpp:352-380 `decode_bits_as_hint_coeff`: (coefficient, bits consumed). -/
def decodeHintCoeff (buffer : U64) (bitOff : Nat) : Res (Int × Nat) := do
  let idx ← scanOnes buffer bitOff 65 0
  let res : Int := idx
  if idx = bitOff then .ok (0, 0)
  else
    let idx := idx + 1
    if res > 0 then do
      let b ← getBitAt buffer idx
      .ok (if b = 1 then -res else res, idx + 1)
    else .ok (res, idx)

/-- serialization.hpp:386-415 `decode_bits_as_response_coeff`. (`b <= 64`, so `(b << 40) | a` stays far below 2^63.) -/
def decodeRespCoeff (buffer : U64) (bitOff : Nat) (a : Nat) : Res (Int × Nat) := do
  let idx ← scanOnes buffer bitOff 65 0
  let b := idx
  if idx = bitOff then .ok ((a : Int), 0)
  else
    let idx := idx + 1
    let res : Int := ((b <<< 40) ||| a : Nat)
    if res > 0 then do
      let s ← getBitAt buffer idx
      .ok (if s = 1 then -res else res, idx + 1)
    else .ok (res, idx)

/-- Variables of `decode_sig` (serialization.hpp:428-436): offset into the bytes, the bit window, its length `buf_bit_off`
(a `size_t` that can wrap, hence a 64-bit word), and the coefficients written so far, in order. -/
structure DecSt where
  off : Nat
  buffer : U64
  bitOff : U64
  out : List Int

/-- serialization.hpp:438-445 and 476-483: refill the window. Returns `to_be_buffered_num_bytes` and the new state;
`sig_off` itself is advanced at the end of the loop body (lines 462, 508). -/
def decRefill (sig : List U8) (s : DecSt) : Res (Nat × DecSt) := do
  let bufferable : U64 := 64 - s.bitOff
  let readable := bufferable &&& (-8)
  let readableBytes := (readable / 8).toNat
  let toBuf := min readableBytes (sig.length - s.off)
  let bytes ← subspan sig s.off toBuf
  let word := fromLeBytes 64 bytes
  let v ← shl64 word s.bitOff.toNat
  .ok (toBuf, { s with buffer := s.buffer ||| v, bitOff := s.bitOff + BitVec.ofNat 64 (toBuf * 8) })

/-- serialization.hpp:437-463: the hint loop; `n` is the number of coefficients still to be read
(`h_coeff_idx = h.size() - n`). `none` = not decodable. -/
def decHLoop (sig : List U8) : Nat → DecSt → Res (Option (Nat × DecSt))
  | 0, s => .ok (some (0, s))
  | n + 1, s =>
    if s.off < sig.length then do
      let (toBuf, s) ← decRefill sig s
      let (coeff, consumed) ← decodeHintCoeff s.buffer s.bitOff.toNat
      if consumed > 0 then do
        let bitOff := s.bitOff - BitVec.ofNat 64 consumed
        let buffer ← shr64 s.buffer consumed
        decHLoop sig n ⟨s.off + toBuf, buffer, bitOff, s.out ++ [coeff]⟩
      else .ok none
    else .ok (some (n + 1, s))

/-- serialization.hpp:475-509: the response loop; `n` coefficients still to be read. The first argument is an iteration
budget that only makes the definition total. -/
def decZLoop (sig : List U8) : Nat → Nat → DecSt → Res (Option (Nat × DecSt))
  | 0, _, _ => .nofuel
  | fuel + 1, n, s =>
    if s.off < sig.length ∧ 0 < n then do
      let (toBuf, s) ← decRefill sig s
      if s.bitOff > 40 then do
        let a := (s.buffer &&& (((1 : U64) <<< 40) - 1)).toNat
        let buffer ← shr64 s.buffer 40
        let bitOff := s.bitOff - 40
        let (coeff, consumed) ← decodeRespCoeff buffer bitOff.toNat a
        if consumed > 0 then do
          let bitOff := bitOff - BitVec.ofNat 64 consumed
          let buffer ← shr64 buffer consumed
          decZLoop sig fuel (n - 1) ⟨s.off + toBuf, buffer, bitOff, s.out ++ [coeff]⟩
        else .ok none
      else decZLoop sig fuel n { s with off := s.off + toBuf }
    else .ok (some (n, s))

/-- serialization.hpp:420-538 `decode_sig<𝜅, k, l, sig_byte_len>`: `none` is the return value `false`; on `true` the three
output spans. (On `false` the spans are left partially written; the only caller, `sig_t::from_bytes`, drops them.) -/
def decodeSig (hashLen hLen zLen : Nat) (sig : List U8) : Res (Option (List U8 × List Int × List Int)) := do
  let cHash ← subspan sig 0 hashLen
  match ← decHLoop sig hLen ⟨hashLen, 0, 0, []⟩ with
  | none => .ok none
  | some (nh, sh) =>
    if sh.off = sig.length ∨ nh ≠ 0 then .ok none
    else do
      match ← decZLoop sig (zLen + sig.length + 1) zLen { sh with out := [] } with
      | none => .ok none
      | some (nz, sz) =>
        if nz ≠ 0 then .ok none
        else do
          let decodable ← (if sz.bitOff > 0 then do
              let one ← shl64 1 sz.bitOff.toNat
              let mask := one - 1
              let _ ← shr64 sz.buffer sz.bitOff.toNat
              Res.ok (decide (sz.buffer &&& mask = 0))
            else Res.ok true)
          if !decodable then .ok none
          else do
            let rest ← subspan sig sz.off (sig.length - sz.off)
            if rest.foldl (fun acc byte => acc && decide (byte = 0)) true then .ok (some (cHash, sh.out, sz.out))
            else .ok none

end Raccoon
