import Verif.Spec.Wire
import Mathlib.Data.ZMod.ValMinAbs
/-!
# What an accepted signature commits to
-/
namespace Raccoon
attribute [-instance] Monoid.toNPow
open Finset

/-- Two different strings with the same `n`-byte SHAKE256 output. -/
def Collision (E : Ext) (n : Nat) (x y : List U8) : Prop := x ≠ y ∧ xofOut E.shake256 x n = xofOut E.shake256 y n

/-- The commitment recomputed from a signature: ⌊a z − 2^νt c t⌉ + h modulo ⌊q/2^νw⌋. -/
def recomputed (νw νt : Nat) (a : Fin k → Fin l → RPoly) (t : Fin k → RPoly) (c : RPoly) (h z : List Int) : Fin k → Fin 512 → Nat :=
  fun r i => (((commitY νw νt a t c (vecR (unflatten l z)) r i : Int) + unflatten k h r i) % (q / 2 ^ νw : Nat)).toNat

/-- The strings that are hashed to 2𝜅 bits when the signature `sig` of `msg` is checked under the public key bytes `pkb`:
the public key, its hash followed by the message, and the recomputed commitment followed by μ. -/
inductive Hashed (P : Par) (E : Ext) (pkb msg sig : List U8) : List U8 → Prop
  | key : Hashed P E pkb msg sig pkb
  | message : Hashed P E pkb msg sig (xofOut E.shake256 pkb (2 * P.κ / 8) ++ msg)
  | commitment {cHash seed : List U8} {h z : List Int} {t : Fin P.k → Fin 512 → Nat} {a : Fin P.k → Fin P.l → RPoly} {c : Fin 512 → Int}
      (hs : IsSigEncoding cHash h z sig.length sig) (hl : cHash.length = 2 * P.κ / 8 ∧ h.length = P.k * 512 ∧ z.length = P.l * 512)
      (hp : IsPkOf P seed t pkb) (ha : IsMatrixOf E seed a) (hc : IsChallengeOf E P.ω cHash c) :
      Hashed P E pkb msg sig (hashInput (recomputed P.νw P.νt a (fun r i => (t r i : ZMod q)) (toR c) h z) (messageHash E P.κ pkb msg))

/-- `x` is the residue of an integer of absolute value at most `b`. -/
def ShortR (b : Nat) (x : RPoly) : Prop := ∀ i, (x i).valMinAbs.natAbs ≤ b

/-- `δ` is a short non-zero vector that the matrix maps to a short vector (a solution of the short-integer-solution problem for [a | 1]). -/
def ShortKernel (P : Par) (a : Fin P.k → Fin P.l → RPoly) (δ : Fin P.l → Fin 512 → Int) : Prop :=
  δ ≠ 0 ∧ (∀ j i, (δ j i).natAbs ≤ 2 * P.Binf.toNat) ∧ ∀ r, ShortR (6 * 2 ^ 44) (ringMatVec a (vecR δ) r)

end Raccoon
