import Verif.Spec.Masked
import Verif.Spec.Keys
import Verif.Spec.Sig
import Verif.Spec.SigWindow
import Verif.Spec.Xof
import Verif.Model.Api
/-!
# The signature scheme over Z_q[x]/(x^512+1), written without masking, transforms or machine words
-/
namespace Raccoon
attribute [-instance] Monoid.toNPow
open Finset

/-- ⌊x⌉_ν: the representative in [0, q) rounded to a multiple of 2^ν, divided by 2^ν, modulo ⌊q/2^ν⌋. -/
def roundZ (ν : Nat) (x : ZMod q) : Nat := (x.val + 2 ^ (ν - 1)) / 2 ^ ν % (q / 2 ^ ν)

/-- Matrix-vector product over the ring. -/
def ringMatVec (a : Fin k → Fin l → RPoly) (x : Fin l → RPoly) : Fin k → RPoly := fun r => ∑ j, negacyclic (a r j) (x j)

/-- The residue of an integer polynomial vector. -/
def vecR (f : Fin n → Fin 512 → Int) : Fin n → RPoly := fun r => toR (f r)

/-- `y = ⌊a z − 2^νt · c · t⌉_νw`, coefficient by coefficient. -/
def commitY (νw νt : Nat) (a : Fin k → Fin l → RPoly) (t : Fin k → RPoly) (c : RPoly) (z : Fin l → RPoly) : Fin k → Fin 512 → Nat :=
  fun r i => roundZ νw ((ringMatVec a z r - (2 ^ νt : ZMod q) • negacyclic (t r) c) i)

/-- The bytes hashed into a challenge: `'h' ‖ k ‖ 0⁶ ‖ w ‖ μ`, one byte per coefficient of w. -/
def hashInput (w : Fin k → Fin 512 → Nat) (μ : List U8) : List U8 :=
  [0x68, BitVec.ofNat 8 k, 0, 0, 0, 0, 0, 0] ++
    ((List.finRange k).flatMap fun r => (List.finRange 512).map fun i => BitVec.ofNat 8 (w r i)) ++ μ

/-- The challenge hash of a commitment. -/
def challengeHash (E : Ext) (κ : Nat) (w : Fin k → Fin 512 → Nat) (μ : List U8) : List U8 :=
  xofOut E.shake256 (hashInput w μ) (2 * κ / 8)

/-- μ = H(H(public key) ‖ message). -/
def messageHash (E : Ext) (κ : Nat) (pkBytes msg : List U8) : List U8 :=
  xofOut E.shake256 (xofOut E.shake256 pkBytes (2 * κ / 8) ++ msg) (2 * κ / 8)

/-- Reading a flat list of `n·512` integers as `n` polynomials. -/
def unflatten (n : Nat) (x : List Int) : Fin n → Fin 512 → Int := fun r i => x.getD (r.val * 512 + i.val) 0

/-- `A` (stored as transforms) is the matrix `a` over the ring. -/
def PMat.Is (A : PMat k l) (a : Fin k → Fin l → RPoly) : Prop := ∀ r j, nttR (a r j) = PMat.val A r j

/-- The sharing `s` (stored as transforms) has the secret value `x`. -/
def PVec.IsNtt (s : PVec l d) (x : Fin l → RPoly) : Prop := ∀ j, nttR (x j) = PVec.val s j

/-- The verification predicate: given the matrix, the public vector, the challenge polynomial, the digest μ and a parsed signature within the norm
bounds, the transmitted hash equals the hash of ⌊a z − 2^νt c t⌉ + h modulo ⌊q/2^νw⌋. -/
def VerifyEq (E : Ext) (κ νw νt : Nat) (a : Fin k → Fin l → RPoly) (t : Fin k → RPoly) (c : RPoly) (μ cHash : List U8) (h z : List Int) : Prop :=
  cHash = challengeHash E κ (fun r i =>
    (((commitY νw νt a t c (vecR (unflatten l z)) r i : Int) + unflatten k h r i) % (q / 2 ^ νw : Nat)).toNat) μ

/-- The commitment w = ⌊a r + e⌉_νw. -/
def commitW (νw : Nat) (a : Fin k → Fin l → RPoly) (r : Fin l → RPoly) (e : Fin k → RPoly) : Fin k → Fin 512 → Nat :=
  fun i c => roundZ νw ((ringMatVec a r i + e i) c)

/-- `σ` is the signature made from the ephemeral `r`, `e` with secret `s`, public vector `t`, challenge polynomial `c` and digest μ:
hash of w = ⌊a r + e⌉, response z = c·s + r, hint h ≡ w − ⌊a z − 2^νt c t⌉ modulo ⌊q/2^νw⌋, both centered. -/
structure IsSigOf (E : Ext) (κ νw νt : Nat) (a : Fin k → Fin l → RPoly) (t : Fin k → RPoly) (s : Fin l → RPoly) (c : RPoly) (μ : List U8)
    (r : Fin l → RPoly) (e : Fin k → RPoly) (cHash : List U8) (h z : List Int) : Prop where
  hash : cHash = challengeHash E κ (commitW νw a r e) μ
  hlen : h.length = k * 512
  zlen : z.length = l * 512
  resp : vecR (unflatten l z) = fun j => negacyclic (s j) c + r j
  zcent : ∀ x ∈ z, 2 * x.natAbs < q
  hint : ∀ i j, (unflatten k h i j - ((commitW νw a r e i j : Int) - commitY νw νt a t c (vecR (unflatten l z)) i j)) % (q / 2 ^ νw : Nat) = 0
  hcent : ∀ x ∈ h, 2 * x.natAbs < q / 2 ^ νw

/-- The noise vector of `n` rows drawn from stream position `pos` on (row `i` uses the `i`-th stretch of rep·d·⌊𝜅/8⌋ bytes). -/
def noiseVec (E : Ext) (u κ d rep n : Nat) (stream : Nat → U8) (pos : Nat) : Fin n → Fin 512 → Int :=
  fun i => totalNoise E u κ d rep i.val stream (pos + i.val * (rep * d * (κ / 8)))

/-- A public key object as the library represents it: a seed of ⌊𝜅/8⌋ bytes and 7-bit coefficients (every deserialised key is one). -/
structure PKey.WF (P : Par) (pk : PKey P.k) : Prop where
  seed : pk.seed.length = P.κ / 8
  t : PVec.Below 128 pk.t

/-- A secret key object with a well-formed public key and reduced share coefficients. -/
structure SKey.WF (P : Par) (sk : SKey P.k P.l d) : Prop where
  pkey : PKey.WF P sk.pkey
  s : PVec.Can sk.s

/-- The share counts the API offers (raccoon128.hpp:64 and params.hpp): 1, 2, 4, 8, 16, 32. -/
def ValidShares (d : Nat) : Prop := ∃ m, m ≤ 5 ∧ d = 2 ^ m

/-- What happens to a secret key object after it was made: refreshes and trips through bytes, with any entropy, buffers and budgets, in any order. -/
inductive SKey.Derived (P : Par) (E : Ext) (sk : SKey P.k P.l d) : SKey P.k P.l d → Prop
  | refl : SKey.Derived P E sk sk
  | refresh {sk' sk'' : SKey P.k P.l d} (fuel : Nat) (h : SKey.Derived P E sk sk') (e : Api.refresh P E fuel sk' = .ok sk'') : SKey.Derived P E sk sk''
  | reload {sk' sk'' : SKey P.k P.l d} (fuel fuel' : Nat) (entropy buf b : List U8) (h : SKey.Derived P E sk sk')
      (hb : buf.length = SKey.byteLen P.κ P.k P.l d P.νt) (e : Api.skAsBytes P E fuel sk' entropy buf = .ok b)
      (e' : Api.skFromBytes P E fuel' d b = .ok sk'') : SKey.Derived P E sk sk''

/-- `n` attempts that did not produce a signature lead from `st` to `st'`. -/
inductive Retries (P : Par) (E : Ext) (fuel d uw rep : Nat) (A : PMat P.k P.l) (t : PVec P.k 1) (μ : List U8) : Nat → SignSt P.l d → SignSt P.l d → Prop
  | zero (st : SignSt P.l d) : Retries P E fuel d uw rep A t μ 0 st st
  | succ {n : Nat} {st st' st'' : SignSt P.l d} (h : Retries P E fuel d uw rep A t μ n st st') (e : signAttempt P E fuel d uw rep A t μ st' = .ok (false, st'')) :
      Retries P E fuel d uw rep A t μ (n + 1) st st''

/-- (c_hash, h, z) is the signature of attempt number `n`: made from the `n`-th stretch of the random stream. -/
def AttemptSig (P : Par) (E : Ext) (fuel d uw rep : Nat) (a : Fin P.k → Fin P.l → RPoly) (t : Fin P.k → RPoly) (s : Fin P.l → RPoly) (μ : List U8)
    (stream : Nat → U8) (n : Nat) (cHash : List U8) (h z : List Int) : Prop :=
  ∃ c : Poly, Poly.chalPoly E fuel P.ω cHash = .ok c ∧
    IsSigOf E P.κ P.νw P.νt a t s c.toZ μ
      (vecR (noiseVec E uw P.κ d rep P.l stream (n * ((P.l + P.k) * (rep * d * (P.κ / 8))))))
      (vecR (noiseVec E uw P.κ d rep P.k stream (n * ((P.l + P.k) * (rep * d * (P.κ / 8))) + P.l * (rep * d * (P.κ / 8))))) cHash h z

/-- A signature may be released: its encoding fits in `len` bytes and its norms are within the bounds. -/
def Acceptable (P : Par) (len : Nat) (cHash : List U8) (h z : List Int) : Prop :=
  8 * cHash.length + (sigBits h z).length ≤ 8 * len ∧ NormsOK P.νw P.Binf.toNat P.B22.toNat h z

/-- Encoding the signature into a buffer of `len` bytes is undefined: there is no room for the hash, or one of the traps of `EncTrap`. -/
def Trapped (len : Nat) (cHash : List U8) (h z : List Int) : Prop := len < cHash.length ∨ EncTrap (len - cHash.length) h z

/-- An attempt that `sign` gives up for the next one: not acceptable, and encoding it is defined. -/
def Rejected (P : Par) (len : Nat) (cHash : List U8) (h z : List Int) : Prop := ¬ Acceptable P len cHash h z ∧ ¬ Trapped len cHash h z

/-- The rejection samplers finish within the budget on every input the scheme gives them: the matrix sampler (8-byte header and seed), the
challenge sampler (8-byte header and hash), and the mask generators in every state reachable from their initial one. -/
structure SamplersFinish (P : Par) (E : Ext) (fuel : Nat) : Prop where
  uniform : ∀ m : List U8, m.length = 8 + P.κ / 8 → 512 ≤ (accepted (E.shake256 m) fuel).length
  challenge : ∀ m : List U8, m.length = 8 + 2 * P.κ / 8 → P.ω ≤ chalCount (E.shake256 m) fuel
  mask : ∀ n, 512 ≤ (acceptedMasks E (E.asconP6^[n] (Vector.replicate 5 0)) fuel).length

/-! ### The same over the integers -/

/-- Product of integer polynomials modulo x^512 + 1. -/
def negacyclicZ (f g : Fin 512 → Int) : Fin 512 → Int := fun k =>
  ∑ i : Fin 512, ∑ j : Fin 512, if i.val + j.val = k.val then f i * g j else if i.val + j.val = k.val + 512 then -(f i * g j) else 0

/-- The coefficients of a polynomial as integers of least absolute value. -/
def Poly.centered (p : Poly) : Fin 512 → Int := fun i => ((p[i.val]).raw.toNat : Int).bmod q

end Raccoon
