import Verif.Spec.Adaptive
/-!
# Commitments that cannot be predicted (for C84)
-/
namespace Raccoon
attribute [-instance] Monoid.toNPow
open Finset

/-- For the public matrix `a`, no commitment is made from more than one 2^b-th of all families of noise words of a signing attempt. -/
def Unpredictable {k l : Nat} (ν u : Nat) (κ : Type) [Fintype κ] (hν : 0 < q / 2 ^ ν) (b : Nat) (a : Fin k → Fin l → RPoly) : Prop :=
  ∀ w : Commitment k ν, 2 ^ b * Nat.card {W : NoiseTable 1 l k u κ // signerW ν hν a (maskOf W 0) (errorOf W 0) = w} ≤ Nat.card (NoiseTable 1 l k u κ)

/-- An attacker that does not ask for hash values it has seen: in the hash queries of the first `M` steps it never names a pair (digest, commitment) that was hashed before. -/
def NeverAsksTwice {k l ν : Nat} {C D : Type} (A : Attacker k l ν C D) (M : Nat) : Prop :=
  ∀ v : List (Outcome k l ν C), v.length < M → A.signs v.length = false → ∀ m (hm : m < v.length), (A.digest (v.take m), v[m].1) ≠ (A.digest v, A.commitment v)

end Raccoon
