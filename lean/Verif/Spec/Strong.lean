import Verif.Spec.Anytime
/-!
# A second signature of a signed message (for C89)
-/
namespace Raccoon
attribute [-instance] Monoid.toNPow
open Finset

section
variable {k l ν : Nat} {C D : Type}

/-- The attacker has won in the strong sense: what it hands in is a valid signature, other than what any signing attempt for the same digest has shown (commitment, hash value, response). -/
structure FreeWinsStrongly (A : FreeAttacker k l ν C D) (νt Binf B22 : Nat) (a : Fin k → Fin l → RPoly) (t : Fin k → RPoly) (ch : C → Fin 512 → Int) (H : D × Commitment k ν → C)
    (out : List (Outcome k l ν C) → Forgery C D) (v : List (Outcome k l ν C)) : Prop where
  lengths : (out v).2.2.1.length = k * 512 ∧ (out v).2.2.2.length = l * 512
  norms : NormsOK ν Binf B22 (out v).2.2.1 (out v).2.2.2
  hash : ∃ w : Commitment k ν, (∀ r i, (w r i).val = recomputed ν νt a t (toR (ch (out v).2.1)) (out v).2.2.1 (out v).2.2.2 r i) ∧ H ((out v).1, w) = (out v).2.1 ∧
    ∀ m (hm : m < v.length), v[m].2.2.isSome = true → (A.digest (v.take m), v[m]) ≠ ((out v).1, w, (out v).2.1, some (unflatten l (out v).2.2.2))

/-- What is handed in answers commitment and hash value of a signing attempt again, with another response. -/
structure Reanswers (νt Binf B22 : Nat) (a : Fin k → Fin l → RPoly) (t : Fin k → RPoly) (ch : C → Fin 512 → Int) (out : List (Outcome k l ν C) → Forgery C D) (v : List (Outcome k l ν C)) : Prop where
  lengths : (out v).2.2.1.length = k * 512 ∧ (out v).2.2.2.length = l * 512
  norms : NormsOK ν Binf B22 (out v).2.2.1 (out v).2.2.2
  again : ∃ o ∈ v, ∃ z, o.2.2 = some z ∧ o.2.1 = (out v).2.1 ∧ z ≠ unflatten l (out v).2.2.2 ∧
    ∀ r i, (o.1 r i).val = recomputed ν νt a t (toR (ch (out v).2.1)) (out v).2.2.1 (out v).2.2.2 r i

/-- A short non-zero vector with a short image. -/
structure ShortVector (a : Fin k → Fin l → RPoly) (S T : Nat) (δ : Fin l → Fin 512 → Int) : Prop where
  nonzero : δ ≠ 0
  short : ∀ j i, (δ j i).natAbs ≤ S
  image : ∀ r, ShortR T (ringMatVec a (vecR δ) r)

/-- How large a response mask or error is at most. -/
def maskBound (d : Nat) : Nat := repOf d * d * 2 ^ (uwOf d - 1)

/-- How far the image of the difference of two responses for one commitment and one hash value is from 0 at most. -/
def imageBound (P : Par) (d : Nat) : Nat := 4 * 2 ^ 44 + maskBound d + P.ω * (2 ^ 41 + (q - 125 * 2 ^ 42))

end

end Raccoon
