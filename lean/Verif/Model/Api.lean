import Verif.Model.Serialization
import Verif.Model.Params
/-!
# `signature.hpp`, `public_key.hpp`, `secret_key.hpp`, `raccoon{128,192,256}.hpp`
-/
namespace Raccoon

/-- The template arguments fixed by a security level (raccoon128.hpp:9-29 and the analogous lines of
raccoon192.hpp, raccoon256.hpp). -/
structure Par where
  κ : Nat
  k : Nat
  l : Nat
  νw : Nat
  νt : Nat
  ω : Nat
  sigLen : Nat
  Binf : U64
  B22 : U64

/-- raccoon128.hpp:9-29. -/
def raccoon128 : Par := ⟨128, 5, 4, 44, 42, 19, 11524, 41954689765971, 14656575897⟩
/-- raccoon192.hpp:9-29. -/
def raccoon192 : Par := ⟨192, 7, 5, 44, 42, 31, 14544, 47419426657048, 24964497408⟩
/-- raccoon256.hpp:9-29. -/
def raccoon256 : Par := ⟨256, 9, 7, 44, 42, 44, 20330, 50958538642039, 38439957299⟩

/-- raccoon128.hpp:18, raccoon192.hpp:18, raccoon256.hpp:18: `rep[log2<d>()]` (same table in all levels). -/
def repTable : List Nat := [8, 4, 2, 4, 2, 4]
/-- raccoon128.hpp:19, raccoon256.hpp:19 (first table) and raccoon192.hpp:19 (second). -/
def utTable : List Nat := [6, 6, 6, 5, 5, 4]
def utTable192 : List Nat := [7, 7, 7, 6, 6, 5]
/-- raccoon128.hpp:20, raccoon192.hpp:20, raccoon256.hpp:20. -/
def uwTable : List Nat := [41, 41, 41, 40, 40, 39]

/-- The 𝑢t table of a level (raccoon128.hpp:19, raccoon192.hpp:19, raccoon256.hpp:19). -/
def utTableOf (P : Par) : List Nat := if P.κ = 192 then utTable192 else utTable

/-- Table lookup `tab[log2<d>()]` (std::array::operator[] with constant index). -/
def tab (t : List Nat) (d : U64) : Res Nat :=
  match t[log2v d]? with
  | some v => .ok v
  | none => .ub

/-! ### signature.hpp -/

/-- signature.hpp:17-19 members of `sig_t`. -/
structure Sig where
  cHash : List U8
  h : List Int
  z : List Int
  deriving DecidableEq

/-- signature.hpp:31-45: flatten the centered rows of a vector. -/
def centerVec (q' : U64) (v : PVec k 1) : Res (List Int) :=
  forLoop 0 k 1 (fun r (acc : List Int) => do
    let row ← v.rd r
    let p ← row.rd 0
    let c ← Poly.center q' p
    .ok (acc ++ c.toList)) []

/-- signature.hpp:24-46 constructor. -/
def Sig.mk' (νw : Nat) (cHash : List U8) (h : PVec k 1) (z : PVec l 1) : Res Sig := do
  let hs ← centerVec (Q >>> νw) h
  let zs ← centerVec Q z
  .ok ⟨cHash, hs, zs⟩

/-- A dynamic span of 512 elements viewed as a fixed-size one (undefined for another size). -/
def toVec512 (l : List Int) : Res (Vector Int 512) :=
  if h : l.length = 512 then .ok ⟨l.toArray, by simpa using h⟩ else .ub

/-- signature.hpp:52-65 / 67-78: rebuild the rows from centered coefficients. -/
def uncenterVec (q' : U64) (rows : Nat) (x : List Int) : Res (PVec rows 1) :=
  forLoop 0 rows 1 (fun r (acc : PVec rows 1) => do
    let sl ← subspan x (r * 512) 512
    let v ← toVec512 sl
    let p ← Poly.fromCentered q' v
    let row ← acc.rd r
    let row ← row.wr 0 p
    acc.wr r row) (PVec.zero rows 1)

/-- signature.hpp:52-65 `get_h`. -/
def Sig.getH (νw k : Nat) (s : Sig) : Res (PVec k 1) := uncenterVec (Q >>> νw) k s.h
/-- signature.hpp:67-78 `get_z`. -/
def Sig.getZ (l : Nat) (s : Sig) : Res (PVec l 1) := uncenterVec Q l s.z

/-- signature.hpp:95-103: state (h_inf_norm, h_sqr_norm). -/
def hNormStep (s : U64 × U64) (x : Int) : Res (U64 × U64) := do
  let ax ← i64 x.natAbs
  let ax : U64 := BitVec.ofInt 64 ax
  .ok (if s.1 < ax then ax else s.1, s.2 + ax * ax)

/-- signature.hpp:111-117 the lambda `from_centered_to_Zq`. -/
def fromCenteredToZq (x : Int) : Res Zq := do
  let mask : U64 := if x < 0 then BitVec.allOnes 64 else 0
  let u ← i64 (x + (Q &&& mask).toInt)
  .ok ⟨BitVec.ofInt 64 u⟩

/-- signature.hpp:120-130: state (z_inf_norm, z_sqr_norm). -/
def zNormStep (s : Zq × Zq) (x : Int) : Res (Zq × Zq) := do
  let Qby2 : Zq := ⟨Q / 2⟩
  let x ← fromCenteredToZq x
  let ax := if x.gt Qby2 then -x else x
  let inf := Zq.max s.1 ax
  let sh ← ax.shr 32
  .ok (inf, s.2 + sh * sh)

/-- signature.hpp:88-147 `check_bounds<Binf, B22>`. -/
def Sig.checkBounds (νw : Nat) (Binf B22 : U64) (s : Sig) : Res Bool := do
  let (hInf, hSqr) ← s.h.foldlM hNormStep ((0 : U64), (0 : U64))
  let (zInf, zSqr) ← s.z.foldlM zNormStep (Zq.zero, Zq.zero)
  if hInf > Binf >>> νw then .ok false
  else if zInf.gt ⟨Binf⟩ then .ok false
  else
    let scaled := hSqr * ((1 : U64) <<< (2 * νw - 64))
    if ((⟨scaled⟩ : Zq) + zSqr).gt ⟨B22⟩ then .ok false
    else .ok true

/-- signature.hpp:150-153 `to_bytes`. -/
def Sig.toBytes (s : Sig) (bytes : List U8) : Res (Bool × List U8) := encodeSig s.cHash s.h s.z bytes

/-- signature.hpp:156-166 `from_bytes`. -/
def Sig.fromBytes (κ k l : Nat) (bytes : List U8) : Res (Option Sig) := do
  match ← decodeSig (2 * κ / 8) (k * 512) (l * 512) bytes with
  | some (c, h, z) => .ok (some ⟨c, h, z⟩)
  | none => .ok none

/-! ### public_key.hpp -/

/-- public_key.hpp:20-21 members of `pkey_t`. -/
structure PKey (k : Nat) where
  seed : List U8
  t : PVec k 1

/-- public_key.hpp:40 `get_byte_len`. -/
def PKey.byteLen (κ k νt : Nat) : Nat := pkeyByteLen κ k 512 νt

/-- public_key.hpp:135 `to_bytes`. -/
def PKey.toBytes (νt : Nat) (pk : PKey k) (bytes : List U8) : Res (List U8) := encodePublicKey νt pk.seed pk.t bytes

/-- public_key.hpp:138-143 `from_bytes`. -/
def PKey.fromBytes (κ k νt : Nat) (bytes : List U8) : Res (PKey k) := do
  let (seed, t) ← decodePublicKey νt (κ / 8) k bytes
  .ok ⟨seed, t⟩

/-- public_key.hpp:81-94: the verifier's 𝜇 (with the serialised key as argument). -/
def PKey.bindMsg (E : Ext) (κ : Nat) (pkBytes msg : List U8) : List U8 :=
  let hasher := ((Xof.new E.shake256).absorb pkBytes).finalize
  let (μ, hasher) := hasher.squeeze (2 * κ / 8)
  let hasher := hasher.reset
  let hasher := ((hasher.absorb μ).absorb msg).finalize
  (hasher.squeeze (2 * κ / 8)).1

/-- public_key.hpp:58-132 `verify`. -/
def PKey.verify (P : Par) (E : Ext) (fuel : Nat) (pk : PKey P.k) (msg sig : List U8) : Res Bool := do
  match ← Sig.fromBytes P.κ P.k P.l sig with
  | none => .ok false
  | some sigObj =>
    if !(← sigObj.checkBounds P.νw P.Binf P.B22) then .ok false
    else do
      let pkBytes ← pk.toBytes P.νt (List.replicate (PKey.byteLen P.κ P.k P.νt) 0)
      let μ := PKey.bindMsg E P.κ pkBytes msg
      let A ← PMat.expandA E fuel P.k P.l pk.seed
      let h ← sigObj.getH P.νw P.k
      let z ← sigObj.getZ P.l
      let z ← z.ntt
      let c ← Poly.chalPoly E fuel P.ω sigObj.cHash
      let c ← c.ntt
      let t ← pk.t.shl P.νt
      let t ← t.ntt
      let y := (A.mulVec z).sub (t.mulPoly c)
      let y ← y.intt
      let y := y.roundingShr P.νw
      let w := y.addMod (Q >>> P.νw) h
      let cHash' ← chalHash E P.κ w μ
      let isEqual := ctEqByteArray sigObj.cHash cHash'
      .ok (decide (isEqual >>> 31 ≠ 0))

/-! ### secret_key.hpp -/

/-- secret_key.hpp:19-20 members of `skey_t`. -/
structure SKey (k l d : Nat) where
  pkey : PKey k
  s : PVec l d

/-- secret_key.hpp:39 `get_byte_len`. -/
def SKey.byteLen (κ k l d νt : Nat) : Nat := skeyByteLen κ k l d 512 νt

/-- secret_key.hpp:53-57 `refresh`. -/
def SKey.refresh (E : Ext) (fuel : Nat) (sk : SKey k l d) : Res (SKey k l d) := do
  let (s, _) ← sk.s.refresh E fuel (Mrng.new E d)
  .ok { sk with s := s }

/-- secret_key.hpp:62-96 `generate<𝑢t, rep>`; `entropy` is what `std::random_device` delivers to the PRNG. -/
def SKey.generate (P : Par) (E : Ext) (fuel d ut rep : Nat) (entropy seed : List U8) : Res (SKey P.k P.l d) := do
  let prng := Prng.new E entropy
  let m := Mrng.new E d
  let A ← PMat.expandA E fuel P.k P.l seed
  let (s, m) ← PVec.zeroEncoding E fuel P.l m
  let (s, prng, m) ← s.addRepNoise E fuel ut rep P.κ prng m
  let s ← s.ntt
  let t := A.mulVec s
  let t ← t.intt
  let (t, _, _) ← t.addRepNoise E fuel ut rep P.κ prng m
  let t' := t.decode
  let t' := t'.roundingShr P.νt
  .ok ⟨⟨seed, t'⟩, s⟩

/-- What the signing loop carries from one iteration to the next (secret_key.hpp:105, 132-133, 102). -/
structure SignSt (l d : Nat) where
  s : PVec l d
  prng : Prng
  m : Mrng d
  sigBytes : List U8

/-- secret_key.hpp:136-207: one iteration of the `while (true)` loop of `sign`; `true` = `break`. -/
def signAttempt (P : Par) (E : Ext) (fuel d uw rep : Nat) (A : PMat P.k P.l) (t : PVec P.k 1) (μ : List U8)
    (st : SignSt P.l d) : Res (Bool × SignSt P.l d) := do
  let (r, m) ← PVec.zeroEncoding E fuel P.l st.m
  let (r, prng, m) ← r.addRepNoise E fuel uw rep P.κ st.prng m
  let r ← r.ntt
  let w := A.mulVec r
  let w ← w.intt
  let (w, prng, m) ← w.addRepNoise E fuel uw rep P.κ prng m
  let w' := w.decode
  let w' := w'.roundingShr P.νw
  let cHash ← chalHash E P.κ w' μ
  let c ← Poly.chalPoly E fuel P.ω cHash
  let c ← c.ntt
  let (s, m) ← st.s.refresh E fuel m
  let (r, m) ← r.refresh E fuel m
  let z := (s.mulPoly c).add r
  let (z, m) ← z.refresh E fuel m
  let z' := z.decode
  let y := (A.mulVec z').sub (t.mulPoly c)
  let y ← y.intt
  let z' ← z'.intt
  let y := y.roundingShr P.νw
  let h := w'.subMod (Q >>> P.νw) y
  let sig ← Sig.mk' P.νw cHash h z'
  let (isEncoded, sigBytes) ← sig.toBytes st.sigBytes
  if !isEncoded then .ok (false, ⟨s, prng, m, sigBytes⟩)
  else do
    let inBounds ← sig.checkBounds P.νw P.Binf P.B22
    if !inBounds then .ok (false, ⟨s, prng, m, sigBytes⟩)
    else .ok (true, ⟨s, prng, m, sigBytes⟩)

/-- secret_key.hpp:135-207: the `while (true)` loop, with a budget of attempts. -/
def signLoop (P : Par) (E : Ext) (fuel d uw rep : Nat) (A : PMat P.k P.l) (t : PVec P.k 1) (μ : List U8) :
    Nat → SignSt P.l d → Res (List U8)
  | 0, _ => .nofuel
  | n + 1, st => do
    let (done, st) ← signAttempt P E fuel d uw rep A t μ st
    if done then .ok st.sigBytes else signLoop P E fuel d uw rep A t μ n st

/-- secret_key.hpp:112-127: the signer's 𝜇 (a second copy of the code of public_key.hpp:81-94). -/
def SKey.bindMsg (E : Ext) (κ : Nat) (pkBytes msg : List U8) : List U8 :=
  let hasher := ((Xof.new E.shake256).absorb pkBytes).finalize
  let (μ, hasher) := hasher.squeeze (2 * κ / 8)
  let hasher := hasher.reset
  let hasher := ((hasher.absorb μ).absorb msg).finalize
  (hasher.squeeze (2 * κ / 8)).1

/-- secret_key.hpp:98-208 `sign<𝑢w, 𝜈w, rep, 𝜔, sig_byte_len, Binf, B22>` into the span `sigBytes`. -/
def SKey.sign (P : Par) (E : Ext) (fuel d uw rep : Nat) (sk : SKey P.k P.l d) (entropy msg sigBytes : List U8) :
    Res (List U8) := do
  let t ← sk.pkey.t.shl P.νt
  let t ← t.ntt
  let pkBytes ← sk.pkey.toBytes P.νt (List.replicate (PKey.byteLen P.κ P.k P.νt) 0)
  let μ := SKey.bindMsg E P.κ pkBytes msg
  let A ← PMat.expandA E fuel P.k P.l sk.pkey.seed
  signLoop P E fuel d uw rep A t μ fuel ⟨sk.s, Prng.new E entropy, Mrng.new E d, sigBytes⟩

/-- secret_key.hpp:211-220 `to_bytes`: the two subspans partition the buffer. -/
def SKey.toBytes (E : Ext) (fuel κ νt : Nat) (sk : SKey k l d) (bytes : List U8) (prng : Prng) : Res (List U8 × Prng) := do
  let pklen := pkeyByteLen κ k 512 νt
  let b0 ← subspan bytes 0 pklen
  let b0 ← sk.pkey.toBytes νt b0
  let bytes ← writeSpan bytes 0 b0
  let b1 ← subspan bytes pklen (bytes.length - pklen)
  let (b1, prng) ← maskCompress E fuel κ sk.s b1 prng
  let bytes ← writeSpan bytes pklen b1
  .ok (bytes, prng)

/-- secret_key.hpp:223-236 `from_bytes`. -/
def SKey.fromBytes (E : Ext) (fuel κ k l d νt : Nat) (bytes : List U8) : Res (SKey k l d) := do
  let pklen := PKey.byteLen κ k νt
  let b0 ← subspan bytes 0 pklen
  let pkey ← PKey.fromBytes κ k νt b0
  let b1 ← subspan bytes pklen (bytes.length - pklen)
  let s ← maskDecompress E fuel κ l d b1
  .ok ⟨pkey, s⟩

/-! ### raccoon128.hpp / raccoon192.hpp / raccoon256.hpp: the public API -/

/-- `raccoonXXX_skey_t<d>::generate` (raccoon128.hpp:84-87 and the analogous lines); `uts` is the level's `𝑢t` table. -/
def Api.generate (P : Par) (uts : List Nat) (E : Ext) (fuel d : Nat) (entropy seed : List U8) : Res (SKey P.k P.l d) := do
  let ut ← tab uts (BitVec.ofNat 64 d)
  let rep ← tab repTable (BitVec.ofNat 64 d)
  SKey.generate P E fuel d ut rep entropy seed

/-- `raccoonXXX_skey_t<d>::sign` (raccoon128.hpp:93-96). -/
def Api.sign (P : Par) (E : Ext) (fuel d : Nat) (sk : SKey P.k P.l d) (entropy msg sigBytes : List U8) : Res (List U8) := do
  let uw ← tab uwTable (BitVec.ofNat 64 d)
  let rep ← tab repTable (BitVec.ofNat 64 d)
  sk.sign P E fuel d uw rep entropy msg sigBytes

/-- `raccoonXXX_pkey_t::verify` (raccoon128.hpp:52-55). -/
def Api.verify (P : Par) (E : Ext) (fuel : Nat) (pk : PKey P.k) (msg sig : List U8) : Res Bool :=
  pk.verify P E fuel msg sig

/-- `raccoonXXX_pkey_t::as_bytes` (raccoon128.hpp:46). -/
def Api.pkAsBytes (P : Par) (pk : PKey P.k) (bytes : List U8) : Res (List U8) := pk.toBytes P.νt bytes
/-- `raccoonXXX_pkey_t(bytes)` (raccoon128.hpp:43). -/
def Api.pkFromBytes (P : Par) (bytes : List U8) : Res (PKey P.k) := PKey.fromBytes P.κ P.k P.νt bytes
/-- `raccoonXXX_skey_t<d>::as_bytes` (raccoon128.hpp:74-78): a fresh PRNG seeded with `entropy`. -/
def Api.skAsBytes (P : Par) (E : Ext) (fuel : Nat) (sk : SKey P.k P.l d) (entropy bytes : List U8) : Res (List U8) := do
  let r ← sk.toBytes E fuel P.κ P.νt bytes (Prng.new E entropy)
  .ok r.1
/-- `raccoonXXX_skey_t<d>(bytes)` (raccoon128.hpp:71). -/
def Api.skFromBytes (P : Par) (E : Ext) (fuel d : Nat) (bytes : List U8) : Res (SKey P.k P.l d) :=
  SKey.fromBytes E fuel P.κ P.k P.l d P.νt bytes
/-- `raccoonXXX_skey_t<d>::refresh` (raccoon128.hpp:99), `get_pkey` (line 90). -/
def Api.refresh (P : Par) (E : Ext) (fuel : Nat) (sk : SKey P.k P.l d) : Res (SKey P.k P.l d) := sk.refresh E fuel
def Api.getPkey (P : Par) (sk : SKey P.k P.l d) : PKey P.k := sk.pkey

end Raccoon
