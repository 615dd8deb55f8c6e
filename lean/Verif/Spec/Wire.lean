import Verif.Spec.Scheme
/-!
# The scheme on bytes, written without any function of the library

Only the constants of a parameter set (`Par`), the external functions (`Ext`), and the small specifications of the other files of this directory are
used: byte strings, residues modulo q, polynomials modulo x^512+1, streams.
-/
namespace Raccoon
attribute [-instance] Monoid.toNPow
open Finset

/-- `f` consists of the first 512 acceptable candidates of the stream. -/
def IsUniform (s : Nat → U8) (f : RPoly) : Prop := ∃ m, 512 ≤ (accepted s m).length ∧ ∀ i : Fin 512, f i = (((accepted s m).getD i.val 0 : Nat) : ZMod q)

/-- `a` is the matrix that belongs to the seed: the transform of entry (r, j) is read from the stream of `'A' ‖ r ‖ j ‖ 0⁵ ‖ seed`. -/
def IsMatrixOf (E : Ext) (seed : List U8) (a : Fin k → Fin l → RPoly) : Prop :=
  ∀ r j, IsUniform (E.shake256 ([0x41, BitVec.ofNat 8 r.val, BitVec.ofNat 8 j.val, 0, 0, 0, 0, 0] ++ seed)) (nttR (a r j))

/-- The challenge after `m` words: at each position the sign (−1 for an odd word) of the first word that addresses it, 0 if there is none. -/
def chalInt (s : Nat → U8) (m : Nat) (i : Fin 512) : Int :=
  match (List.range m).find? (fun j => chalPos s j == i.val) with
  | some j => if streamWord s 2 j % 2 = 1 then -1 else 1
  | none => 0

/-- `c` is the challenge that belongs to the hash: read from the stream of `'c' ‖ ω ‖ 0⁶ ‖ hash` until ω different positions were addressed. -/
def IsChallengeOf (E : Ext) (ω : Nat) (cHash : List U8) (c : Fin 512 → Int) : Prop :=
  ∃ m, chalCount (E.shake256 ([0x63, BitVec.ofNat 8 ω, 0, 0, 0, 0, 0, 0] ++ cHash)) m = ω ∧
    c = chalInt (E.shake256 ([0x63, BitVec.ofNat 8 ω, 0, 0, 0, 0, 0, 0] ++ cHash)) m

/-- `b` is the public key (seed, t) as bytes: the seed, then all coefficients of t with 7 bits each, least significant bit first. -/
def IsPkOf (P : Par) (seed : List U8) (t : Fin P.k → Fin 512 → Nat) (b : List U8) : Prop :=
  seed.length = P.κ / 8 ∧ (∀ r i, t r i < 128) ∧
    bytesBits b = bytesBits seed ++ (List.finRange P.k).flatMap fun r => (List.finRange 512).flatMap fun i => natBits 7 (t r i)

/-- (c_hash, h, z) is a valid signature of `msg` under the public key with bytes `pkb`: sizes and norms are right, and
c_hash = H(⌊a z − 2^νt c t⌉ + h, H(H(pk) ‖ msg)). -/
def ValidSig (P : Par) (E : Ext) (pkb msg cHash : List U8) (h z : List Int) : Prop :=
  cHash.length = 2 * P.κ / 8 ∧ h.length = P.k * 512 ∧ z.length = P.l * 512 ∧ NormsOK P.νw P.Binf.toNat P.B22.toNat h z ∧
  ∃ (seed : List U8) (t : Fin P.k → Fin 512 → Nat) (a : Fin P.k → Fin P.l → RPoly) (c : Fin 512 → Int),
    IsPkOf P seed t pkb ∧ IsMatrixOf E seed a ∧ IsChallengeOf E P.ω cHash c ∧
    VerifyEq E P.κ P.νw P.νt a (fun r i => (t r i : ZMod q)) (toR c) (messageHash E P.κ pkb msg) cHash h z

/-- Number of repetitions, noise widths for keys and signatures, for the share counts 1, 2, 4, 8, 16, 32. -/
def repOf : Nat → Nat | 1 => 8 | 2 => 4 | 4 => 2 | 8 => 4 | 16 => 2 | 32 => 4 | _ => 0
def utOf (κ : Nat) (d : Nat) : Nat := (if κ = 192 then 1 else 0) + match d with | 1 => 6 | 2 => 6 | 4 => 6 | 8 => 5 | 16 => 5 | 32 => 4 | _ => 0
def uwOf : Nat → Nat | 1 => 41 | 2 => 41 | 4 => 41 | 8 => 40 | 16 => 40 | 32 => 39 | _ => 0

/-- Bytes of randomness one row of noise takes. -/
def rowBytesOf (P : Par) (d : Nat) : Nat := repOf d * d * (P.κ / 8)

/-- The secret and the error of the key generated from the entropy. -/
def keySecret (P : Par) (E : Ext) (d : Nat) (entropy : List U8) : Fin P.l → Fin 512 → Int :=
  noiseVec E (utOf P.κ d) P.κ d (repOf d) P.l (E.shake128 entropy) 0
def keyError (P : Par) (E : Ext) (d : Nat) (entropy : List U8) : Fin P.k → Fin 512 → Int :=
  noiseVec E (utOf P.κ d) P.κ d (repOf d) P.k (E.shake128 entropy) (P.l * rowBytesOf P d)

/-- The ephemeral response mask and error of signing attempt `n`. -/
def ephemeralR (P : Par) (E : Ext) (d : Nat) (entropy : List U8) (n : Nat) : Fin P.l → Fin 512 → Int :=
  noiseVec E (uwOf d) P.κ d (repOf d) P.l (E.shake128 entropy) (n * ((P.l + P.k) * rowBytesOf P d))
def ephemeralE (P : Par) (E : Ext) (d : Nat) (entropy : List U8) (n : Nat) : Fin P.k → Fin 512 → Int :=
  noiseVec E (uwOf d) P.κ d (repOf d) P.k (E.shake128 entropy) (n * ((P.l + P.k) * rowBytesOf P d) + P.l * rowBytesOf P d)

/-- `pkb` are the public key bytes of the key generated from `seed` and `entropy`: t = ⌊a s + e⌉. -/
def IsKeyOf (P : Par) (E : Ext) (d : Nat) (seed entropy pkb : List U8) : Prop :=
  ∃ (t : Fin P.k → Fin 512 → Nat) (a : Fin P.k → Fin P.l → RPoly), IsPkOf P seed t pkb ∧ IsMatrixOf E seed a ∧
    ∀ r i, t r i = roundZ P.νt ((ringMatVec a (vecR (keySecret P E d entropy)) r + vecR (keyError P E d entropy) r) i)

/-- (c_hash, h, z) is the outcome of signing attempt `n` with secret `s`: w = ⌊a r + e⌉, c_hash = H(w, μ), z = c·s + r over the integers,
h ≡ w − ⌊a z − 2^νt c t⌉, h centered. -/
def IsAttempt (P : Par) (E : Ext) (d : Nat) (pkb : List U8) (s : Fin P.l → Fin 512 → Int) (msg entropy : List U8) (n : Nat) (cHash : List U8) (h z : List Int) : Prop :=
  ∃ (seed : List U8) (t : Fin P.k → Fin 512 → Nat) (a : Fin P.k → Fin P.l → RPoly) (c : Fin 512 → Int) (w : Fin P.k → Fin 512 → Nat),
    IsPkOf P seed t pkb ∧ IsMatrixOf E seed a ∧ IsChallengeOf E P.ω cHash c ∧
    w = commitW P.νw a (vecR (ephemeralR P E d entropy n)) (vecR (ephemeralE P E d entropy n)) ∧
    cHash = challengeHash E P.κ w (messageHash E P.κ pkb msg) ∧
    h.length = P.k * 512 ∧ z.length = P.l * 512 ∧
    (unflatten P.l z = fun j x => negacyclicZ (s j) c x + ephemeralR P E d entropy n j x) ∧
    (∀ r i, (unflatten P.k h r i - ((w r i : Int) - commitY P.νw P.νt a (fun r i => (t r i : ZMod q)) (toR c) (vecR (unflatten P.l z)) r i)) % (q / 2 ^ P.νw : Nat) = 0) ∧
    ∀ x ∈ h, 2 * x.natAbs < q / 2 ^ P.νw

end Raccoon
