import Verif.Spec.Simulate
import Verif.Spec.Sig
/-!
# An attacker that chooses messages and hash queries as it goes (for C82)
-/
namespace Raccoon
attribute [-instance] Monoid.toNPow
open Finset

/-- What a step of the game shows: commitment, hash value, and the response if the step was a signing attempt. -/
abbrev Outcome (k l ν : Nat) (C : Type) := Commitment k ν × C × Option (Fin l → Fin 512 → Int)

/-- An attacker. In step `n` it asks for a signing attempt (`signs n`), or it asks for a hash value. The digest of the message to be signed, and digest and commitment to
be hashed, are chosen from all that was shown before. -/
structure Attacker (k l ν : Nat) (C D : Type) where
  signs : Nat → Bool
  digest : List (Outcome k l ν C) → D
  commitment : List (Outcome k l ν C) → Commitment k ν

/-- Playing `M` steps: what step `n` shows depends on what was shown before. -/
def play {O : Type} {M : Nat} (step : Fin M → List O → O) : List O := (List.finRange M).foldl (fun v n => v ++ [step n v]) []

section
variable {k l u ν M : Nat} {κ C D : Type} [Fintype κ]

/-- The game against a signer with secret `s`: hash values are the answers of the oracle `H`; the signing attempt of step `n` uses row `n` of the noise words. -/
def realGame (A : Attacker k l ν C D) (hν : 0 < q / 2 ^ ν) (a : Fin k → Fin l → RPoly) (s : Fin l → Fin 512 → Int) (ch : C → Fin 512 → Int) (H : D × Commitment k ν → C)
    (W : NoiseTable M l k u κ) : List (Outcome k l ν C) :=
  play fun (n : Fin M) v =>
    let w := if A.signs n then signerW ν hν a (maskOf W n) (errorOf W n) else A.commitment v
    let c := H (A.digest v, w)
    (w, c, if A.signs n then some fun j x => negacyclicZ (s j) (ch c) x + maskOf W n j x else none)

/-- The game against the simulator, which knows `b` = a s + e₀ but not `s`: hash values are drawn (`c n` in step `n`), responses are noise, commitments are computed
from them. -/
def simulatedGame (A : Attacker k l ν C D) (hν : 0 < q / 2 ^ ν) (a : Fin k → Fin l → RPoly) (b : Fin k → RPoly) (ch : C → Fin 512 → Int) (c : Fin M → C)
    (W : NoiseTable M l k u κ) : List (Outcome k l ν C) :=
  play fun (n : Fin M) v =>
    (if A.signs n then simulatorW ν hν a b (ch (c n)) (maskOf W n) (errorOf W n) else A.commitment v, c n, if A.signs n then some (maskOf W n) else none)

/-- No pair (digest, commitment) is hashed twice: signing attempts do not hit a pair that was signed or asked for before, and the attacker does not ask what it knows. -/
def Fresh (A : Attacker k l ν C D) (v : List (Outcome k l ν C)) : Prop :=
  ∀ n m (hn : n < v.length) (hm : m < v.length), n < m → (A.digest (v.take n), v[n].1) ≠ (A.digest (v.take m), v[m].1)

end

/-- The attacker has forged: from what it was shown it computes hint and response (`out`) within the norm bounds such that commitment and hash value of one of its own hash
queries, of digest `μ`, are those of a valid signature. -/
def Forges {k l ν : Nat} {C D : Type} (A : Attacker k l ν C D) (νt Binf B22 : Nat) (a : Fin k → Fin l → RPoly) (t : Fin k → RPoly) (ch : C → Fin 512 → Int)
    (out : List (Outcome k l ν C) → D × List Int × List Int) (v : List (Outcome k l ν C)) : Prop :=
  ∃ n, ∃ hn : n < v.length, A.signs n = false ∧ A.digest (v.take n) = (out v).1 ∧ (out v).2.1.length = k * 512 ∧ (out v).2.2.length = l * 512 ∧
    NormsOK ν Binf B22 (out v).2.1 (out v).2.2 ∧
    ∀ r i, ((v[n].1 r i).val : Int) =
      ((commitY ν νt a t (toR (ch v[n].2.1)) (vecR (unflatten l (out v).2.2)) r i : Int) + unflatten k (out v).2.1 r i) % (q / 2 ^ ν : Nat)

end Raccoon
