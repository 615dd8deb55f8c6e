import Verif.Spec.Bytes
import Verif.Spec.Binding
import Verif.Spec.SigWindow
import Verif.Spec.Scheme
import Verif.Model.Tests
/-!
# The vocabulary of C70 – C72: flipping a bit, and what it means if spoilt data are accepted
-/
namespace Raccoon

/-- `data` with bit `b` of byte `i` inverted and nothing else changed. -/
def flipBit (data : List U8) (i b : Nat) : List U8 := data.modify i (fun x => x ^^^ ((1 : U8) <<< b))

/-- `bad` is `good` with one bit inverted. -/
def OneBitOff (good bad : List U8) : Prop := ∃ i b, i < good.length ∧ b < 8 ∧ bad = flipBit good i b

/-- Two verifications hash different strings to the same value. -/
def HashCollision (P : Par) (E : Ext) (pkb msg sig pkb' msg' sig' : List U8) : Prop :=
  ∃ x y, Hashed P E pkb msg sig x ∧ Hashed P E pkb' msg' sig' y ∧ Collision E (2 * P.κ / 8) x y

/-- Two verifications hash strings to values that differ in exactly one bit: the challenge hashes the two signatures carry. -/
def HashNearCollision (P : Par) (E : Ext) (pkb msg sig pkb' msg' sig' : List U8) : Prop :=
  ∃ x y, Hashed P E pkb msg sig x ∧ Hashed P E pkb' msg' sig' y ∧ xofOut E.shake256 x (2 * P.κ / 8) = sig.take (2 * P.κ / 8) ∧
    xofOut E.shake256 y (2 * P.κ / 8) = sig'.take (2 * P.κ / 8) ∧ OneBitOff (xofOut E.shake256 x (2 * P.κ / 8)) (xofOut E.shake256 y (2 * P.κ / 8))

/-- The responses of the two signatures differ by a short non-zero vector that the matrix of the public key maps to a short vector. -/
def ShortDifference (P : Par) (E : Ext) (pkb sig sig' : List U8) : Prop :=
  ∃ (c : List U8) (hint hint' z z' : List Int) (seed : List U8) (t : Fin P.k → Fin 512 → Nat) (a : Fin P.k → Fin P.l → RPoly),
    IsSigEncoding c hint z sig.length sig ∧ IsSigEncoding c hint' z' sig'.length sig' ∧ IsPkOf P seed t pkb ∧ IsMatrixOf E seed a ∧
    c.length = 2 * P.κ / 8 ∧ (hint.length = P.k * 512 ∧ hint'.length = P.k * 512) ∧ (z.length = P.l * 512 ∧ z'.length = P.l * 512) ∧
    ShortKernel P a (fun j i => unflatten P.l z j i - unflatten P.l z' j i)

/-- What accepting a spoilt signature would exhibit. -/
def SignatureBreak (P : Par) (E : Ext) (pkb msg sig msg' sig' : List U8) : Prop :=
  HashCollision P E pkb msg sig pkb msg' sig' ∨ HashNearCollision P E pkb msg sig pkb msg' sig' ∨ ShortDifference P E pkb sig sig'

/-- What is known about a round of the signing test. -/
structure RoundFacts (P : Par) (E : Ext) (pkb : List U8) (n : Nat) (r : Tests.Round) : Prop where
  pk : r.pkBytes = pkb
  badPk : OneBitOff pkb r.badPkBytes
  msg : r.msg.length = n
  badMsg : if n = 0 then r.badMsg = r.msg else OneBitOff r.msg r.badMsg
  sig : r.sig.length = P.sigLen
  badSig : OneBitOff r.sig r.badSig
  v0 : r.v0 = true
  v1 : n = 0 → r.v1 = true
  v1' : 0 < n → r.v1 = true → HashCollision P E pkb r.msg r.sig pkb r.badMsg r.sig
  v2 : r.v2 = true → SignatureBreak P E pkb r.msg r.sig r.msg r.badSig
  v3 : r.v3 = true → SignatureBreak P E pkb r.msg r.sig r.badMsg r.badSig
  v4 : r.v4 = true → HashCollision P E pkb r.msg r.sig r.badPkBytes r.msg r.sig

/-- How a run of the signing tests can be undefined. -/
def TestUndefined (P : Par) (E : Ext) (fuel d : Nat) (sk0 : SKey P.k P.l d) (n : Nat) : Prop :=
  ∃ (sk : SKey P.k P.l d) (entropy msg buf : List U8), SKey.Derived P E sk0 sk ∧ msg.length ≤ n ∧ buf.length = P.sigLen ∧
    (Api.sign P E fuel d sk entropy msg buf = .ub ∨
      ∃ sig bad, Api.sign P E fuel d sk entropy msg buf = .ok sig ∧ OneBitOff sig bad ∧
        SigTrap (P.k * 512) (P.l * 512) (bytesBits (bad.drop (2 * P.κ / 8))))

end Raccoon
