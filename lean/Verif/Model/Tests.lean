import Verif.Model.Extra
/-!
# The repository's own test programs and example

`tests/*.cpp`, `tests/test_helper.hpp`, `examples/raccoon256.cpp`. A test is modelled as a function that returns the conjunction of its
`EXPECT_…`/`ASSERT_…` conditions. (An `ASSERT_…` that fails returns from the test early; here later conditions are still evaluated, which cannot turn
a failed test into a passed one.) `prng::prng_t prng;` seeds itself from the operating system: its seed is an argument.
-/
namespace Raccoon
namespace Tests

/-- tests/test_helper.hpp:7-28 `random_bitflip`. The masks and the new byte are computed in `unsigned int` / `int` (32 bits) and stored as `uint8_t`. -/
def randomBitflip (data : List U8) (p : Prng) : Res (List U8 × Prng) :=
  if data.isEmpty then .ok (data, p)
  else do
    let (b, p) := p.read 8
    let random_u64 : U64 := fromLeBytes 64 b
    let random_byte_idx := random_u64.toNat % data.length
    let random_bit_idx := random_u64.toNat % 8
    let hi_bit_mask : U8 := ((0xff : U32) <<< (random_bit_idx + 1)).setWidth 8
    let lo_bit_mask : U8 := ((0xff : U32) >>> (8 - random_bit_idx)).setWidth 8
    match data[random_byte_idx]? with
    | none => .ub
    | some selected_byte =>
      let selected_bit : U8 := ((selected_byte.setWidth 32 >>> random_bit_idx) &&& (1 : U32)).setWidth 8
      let selected_bit_flipped : U8 := (~~~ (selected_bit.setWidth 32) &&& (1 : U32)).setWidth 8
      let flipped_byte : U8 := (((selected_byte &&& hi_bit_mask).setWidth 32) ^^^ (selected_bit_flipped.setWidth 32 <<< random_bit_idx) ^^^
        ((selected_byte &&& lo_bit_mask).setWidth 32)).setWidth 8
      .ok (data.set random_byte_idx flipped_byte, p)

/-- tests/test_field.cpp:12-49: one iteration (`exp` = 2^8). -/
def fieldIter (p : Prng) : Res (Bool × Prng) := do
  let (a, p) := Zq.random p
  let (b, p) := Zq.random p
  let c := a + b
  let d := c - b
  let e := c - a
  let f := a * b
  let g ← f.div b
  let h ← f.div a
  let t1 := if b ≠ Zq.zero ∧ g.2 = true then decide (g.1 = a) else decide (g.1 = Zq.zero)
  let t2 := if a ≠ Zq.zero ∧ h.2 = true then decide (h.1 = b) else decide (h.1 = Zq.zero)
  let j := Zq.max a b
  let k := j.pow ((1 : U64) <<< 8)
  let l := (List.range 256).foldl (fun l _ => l * j) Zq.one
  .ok (decide (d = a) && decide (e = b) && t1 && t2 && decide (k = l), p)

/-- tests/test_field.cpp:4-51 `ArithmeticOverZq` with `n` iterations. -/
def field (E : Ext) (n : Nat) (entropy : List U8) : Res Bool := do
  let r ← forLoop 0 n 1 (fun _ (s : Bool × Prng) => do
    let r ← fieldIter s.2
    .ok (s.1 && r.1, r.2)) (true, Prng.new E entropy)
  .ok r.1

/-- tests/test_u128.cpp:12-50: one iteration, two-limb build; the state is (checks so far, generator, rotation offset). -/
def u128Iter (s : Bool × Prng × Nat) : Res (Bool × Prng × Nat) := do
  let (ok, p, off) := s
  let (ba, p) := p.read 8
  let (bb, p) := p.read 8
  let a := U128.from (fromLeBytes 64 ba)
  let b := U128.from (fromLeBytes 64 bb)
  let c := U128.add a b
  let d := U128.sub c a
  let e := U128.sub c b
  let f := U128.add d e
  let g := U128.mul a b
  let h ← U128.div g c
  let j ← U128.mod g c
  let k := U128.mul h c
  let l := U128.add k j
  let m ← U128.rotl a off
  let n ← U128.rotr m off
  let off := off + 1
  let off := if off > 16 * 8 then 0 else off
  .ok (ok && U128.eq d b && U128.eq e a && U128.eq f c && U128.eq l g && U128.eq a n, p, off)

/-- tests/test_u128.cpp:5-51 `ArithmeticOverU128` with `n` iterations, two-limb build. -/
def u128 (E : Ext) (n : Nat) (entropy : List U8) : Res Bool := do
  let r ← forLoop 0 n 1 (fun _ s => u128Iter s) (true, Prng.new E entropy, 0)
  .ok r.1

/-- tests/test_u128.cpp:12-50: one iteration, `__int128` build. -/
def i128Iter (s : Bool × Prng × Nat) : Res (Bool × Prng × Nat) := do
  let (ok, p, off) := s
  let (ba, p) := p.read 8
  let (bb, p) := p.read 8
  let a := I128.from (fromLeBytes 64 ba)
  let b := I128.from (fromLeBytes 64 bb)
  let c := I128.add a b
  let d := I128.sub c a
  let e := I128.sub c b
  let f := I128.add d e
  let g := I128.mul a b
  let h ← I128.div g c
  let j ← I128.mod g c
  let k := I128.mul h c
  let l := I128.add k j
  let m ← I128.rotl a off
  let n ← I128.rotr m off
  let off := off + 1
  let off := if off > 16 * 8 then 0 else off
  .ok (ok && I128.eq d b && I128.eq e a && I128.eq f c && I128.eq l g && I128.eq a n, p, off)

/-- tests/test_u128.cpp:5-51 with `n` iterations, `__int128` build. -/
def i128 (E : Ext) (n : Nat) (entropy : List U8) : Res Bool := do
  let r ← forLoop 0 n 1 (fun _ s => i128Iter s) (true, Prng.new E entropy, 0)
  .ok r.1

/-- tests/test_gadgets.cpp:4-19 `test_refresh_and_decoding_gadgets<rows, d>`, over the function called by `v.zero_encoding(mrng)` (line 14). That is a static
member function (poly_vec.hpp:144): the vector it returns is discarded and `v` stays the zero vector; only the mask generator moves on. -/
def gadgetsWith (zeroEncoding : Mrng d → Res (PVec rows d × Mrng d)) (E : Ext) (fuel : Nat) : Res Bool := do
  let zero := PVec.zero rows 1
  let v := PVec.zero rows d
  let (_discarded, m) ← zeroEncoding (Mrng.new E d)
  let t1 := PVec.eq v.decode zero
  let (v, _) ← v.refresh E fuel m
  let t2 := PVec.eq v.decode zero
  .ok (t1 && t2)

/-- tests/test_gadgets.cpp:4-19 with the repository's `zero_encoding` (poly_vec.hpp:144-153). -/
def gadgets (E : Ext) (fuel rows d : Nat) : Res Bool := gadgetsWith (PVec.zeroEncoding E fuel rows (d := d)) E fuel

/-- tests/test_serialization.cpp:24-29: fill `t` with random coefficients, masked to 49 − 𝜈t bits. -/
def randomT (k νt : Nat) (p : Prng) : Res (PVec k 1 × Prng) :=
  forLoop 0 k 1 (fun i (s : PVec k 1 × Prng) =>
    forLoop 0 512 1 (fun j (s : PVec k 1 × Prng) => do
      let (x, p) := Zq.random s.2
      let row ← s.1.rd i
      let poly ← row.rd 0
      let poly ← poly.wr j ⟨x.raw &&& (((1 : U64) <<< (Q_BIT_WIDTH - νt)) - 1)⟩
      let row ← row.wr 0 poly
      let t ← s.1.wr i row
      .ok (t, p)) s) (PVec.zero k 1, p)

/-- tests/test_serialization.cpp:9-37 `test_encode_decode_public_key<𝜅, k, 𝜈t>`. -/
def publicKey (E : Ext) (κ k νt : Nat) (entropy : List U8) : Res Bool := do
  let (expSeed, p) := (Prng.new E entropy).read (κ / 8)
  let (expT, _) ← randomT k νt p
  let pkey ← encodePublicKey νt expSeed expT (List.replicate (pkeyByteLen κ k 512 νt) 0)
  let (compSeed, compT) ← decodePublicKey νt (κ / 8) k pkey
  .ok (decide (expSeed = compSeed) && PVec.eq expT compT)

/-- tests/test_serialization.cpp:57-61: fill every share with a random polynomial. -/
def randomS (l d : Nat) (p : Prng) : Res (PVec l d × Prng) :=
  forLoop 0 l 1 (fun i (s : PVec l d × Prng) =>
    forLoop 0 d 1 (fun j (s : PVec l d × Prng) => do
      let (f, p) ← Poly.random s.2
      let row ← s.1.rd i
      let row ← row.wr j f
      let v ← s.1.wr i row
      .ok (v, p)) s) (PVec.zero l d, p)

/-- tests/test_serialization.cpp:46-67 `test_unmasked_secret_key_vector_compression_decompression<𝜅, l>` (`d` = 1). -/
def unmaskedSecret (E : Ext) (fuel κ l : Nat) (entropy : List U8) : Res Bool := do
  let (expS, p) ← randomS l 1 (Prng.new E entropy)
  let (sc, _) ← maskCompress E fuel κ expS (List.replicate (((1 - 1) * κ + l * 512 * Q_BIT_WIDTH) / 8) 0) p
  let compS ← maskDecompress E fuel κ l 1 sc
  .ok (PVec.eq expS compS)

/-- tests/test_serialization.cpp:76-108 `test_encode_decode_signature_all_zeros<k, l, 𝜅, 𝜈w, sig_byte_len>`; `.value()` of an empty optional throws, which
fails the test. -/
def zeroSignature (E : Ext) (k l κ νw sigLen : Nat) (entropy : List U8) : Res Bool := do
  let origH := PVec.zero k 1
  let origZ := PVec.zero l 1
  let (origC, p) := (Prng.new E entropy).read (2 * κ / 8)
  let (sigBytes, _) := p.read sigLen
  let origSig ← Sig.mk' νw origC origH origZ
  let (isEncoded, sigBytes) ← origSig.toBytes sigBytes
  match ← Sig.fromBytes κ k l sigBytes with
  | none => .ok false
  | some decoded => do
    let h ← decoded.getH νw k
    let z ← decoded.getZ l
    .ok (isEncoded && decide (origC = decoded.cHash) && PVec.eq origH h && PVec.eq origZ z)

/-- What the loop of the signing tests carries from one message length to the next: the deserialised secret key, the generator, the buffers of the public key
and of the signature. -/
structure RoundSt (P : Par) (d : Nat) where
  sk : SKey P.k P.l d
  prng : Prng
  pkBytes : List U8
  sigBytes : List U8

/-- What one round computes, in the order of the local variables of tests/test_raccoon128_signing.cpp:38-67. -/
structure Round where
  pkBytes : List U8
  badPkBytes : List U8
  msg : List U8
  sig : List U8
  badMsg : List U8
  badSig : List U8
  v0 : Bool
  v1 : Bool
  v2 : Bool
  v3 : Bool
  v4 : Bool

/-- tests/test_raccoon128_signing.cpp:36-69 (and the same lines of test_raccoon192_signing.cpp, test_raccoon256_signing.cpp): one round of the loop for
messages of `mlen` bytes; `entropy` seeds the generator that `sign` constructs. -/
def signingRound (P : Par) (E : Ext) (fuel d : Nat) (pkey : PKey P.k) (entropy : List U8) (mlen : Nat) (st : RoundSt P d) : Res (Round × RoundSt P d) := do
  let pkBytes ← Api.pkAsBytes P pkey st.pkBytes
  let decodedPkey ← Api.pkFromBytes P pkBytes
  let (badPkBytes, prng) ← randomBitflip pkBytes st.prng
  let badPkey ← Api.pkFromBytes P badPkBytes
  let (msg, prng) := prng.read mlen
  let sk ← Api.refresh P E fuel st.sk
  let sig ← Api.sign P E fuel d sk entropy msg st.sigBytes
  let (badMsg, prng) ← randomBitflip msg prng
  let (badSig, prng) ← randomBitflip sig prng
  let v0 ← Api.verify P E fuel decodedPkey msg sig
  let v1 ← Api.verify P E fuel decodedPkey badMsg sig
  let v2 ← Api.verify P E fuel decodedPkey msg badSig
  let v3 ← Api.verify P E fuel decodedPkey badMsg badSig
  let v4 ← Api.verify P E fuel badPkey msg sig
  .ok (⟨pkBytes, badPkBytes, msg, sig, badMsg, badSig, v0, v1, v2, v3, v4⟩, ⟨sk, prng, badPkBytes, sig⟩)

/-- tests/test_raccoon128_signing.cpp:71-81: the assertions about one round. -/
def Round.pass (r : Round) : Bool :=
  r.v0 && (if r.msg.length > 0 then !r.v1 else r.v1) && !r.v2 && !r.v3 && !r.v4

/-- tests/test_raccoon128_signing.cpp:36-82: the loop over the message lengths; `signEntropy i` seeds the generator of the `i`-th `sign`. -/
def signingRounds (P : Par) (E : Ext) (fuel d : Nat) (pkey : PKey P.k) (signEntropy : Nat → List U8) (tillMlen : Nat) (st : RoundSt P d) :
    Res (List Round) := do
  let r ← forLoop 0 (tillMlen + 1) 1 (fun mlen (s : List Round × RoundSt P d) => do
    let r ← signingRound P E fuel d pkey (signEntropy mlen) mlen s.2
    .ok (s.1 ++ [r.1], r.2)) ([], st)
  .ok r.1

/-- tests/test_raccoon128_signing.cpp:6-83 `test_raccoon128_signing<d>(till_mlen)` and its copies for the other levels. `testEntropy`, `genEntropy`,
`saveEntropy` seed the generators of the test itself, of `generate` and of `as_bytes`. -/
def signing (P : Par) (E : Ext) (fuel d : Nat) (testEntropy genEntropy saveEntropy : List U8) (signEntropy : Nat → List U8) (tillMlen : Nat) :
    Res (List Round) := do
  let (seed, prng) := (Prng.new E testEntropy).read (P.κ / 8)
  let skey ← Api.generate P (utTableOf P) E fuel d genEntropy seed
  let pkey := Api.getPkey P skey
  let skBytes ← Api.skAsBytes P E fuel skey saveEntropy (List.replicate (SKey.byteLen P.κ P.k P.l d P.νt) 0)
  let decodedSkey ← Api.skFromBytes P E fuel d skBytes
  signingRounds P E fuel d pkey signEntropy tillMlen
    ⟨decodedSkey, prng, List.replicate (PKey.byteLen P.κ P.k P.νt) 0, List.replicate P.sigLen 0⟩

/-- examples/raccoon256.cpp:23-70 `main` without the printing (`P` = Raccoon-256, `d` = 32 there): the asserted value. -/
def exampleMain (P : Par) (E : Ext) (fuel d : Nat) (mainEntropy genEntropy saveEntropy signEntropy : List U8) : Res Bool := do
  let (seed, prng) := (Prng.new E mainEntropy).read 32
  let (msg, _) := prng.read 32
  let skey ← Api.generate P (utTableOf P) E fuel d genEntropy seed
  let pkey := Api.getPkey P skey
  let skBytes ← Api.skAsBytes P E fuel skey saveEntropy (List.replicate (SKey.byteLen P.κ P.k P.l d P.νt) 0)
  let pkBytes ← Api.pkAsBytes P pkey (List.replicate (PKey.byteLen P.κ P.k P.νt) 0)
  let decodedSkey ← Api.skFromBytes P E fuel d skBytes
  let decodedPkey ← Api.pkFromBytes P pkBytes
  let decodedSkey ← Api.refresh P E fuel decodedSkey
  let sig ← Api.sign P E fuel d decodedSkey signEntropy msg (List.replicate P.sigLen 0)
  Api.verify P E fuel decodedPkey msg sig

end Tests
end Raccoon
