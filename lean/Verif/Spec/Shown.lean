import Verif.Spec.Wire
/-!
# What the control flow of `sign` shows of an attempt
-/
namespace Raccoon

/-- The encoding of the signature fits in `len` bytes. -/
def SigFits (len : Nat) (g : Sig) : Prop := 8 * g.cHash.length + (sigBits g.h g.z).length ≤ 8 * len

/-- Two signatures agree in: which coefficients of their challenges are zero; whether they fit in `len` bytes; and, if they do, the signs
of all coefficients of hint and response. -/
def SameShown (E : Ext) (P : Par) (len : Nat) (g g' : Sig) : Prop :=
  (∃ c c', IsChallengeOf E P.ω g.cHash c ∧ IsChallengeOf E P.ω g'.cHash c' ∧ ∀ i, c i = 0 ↔ c' i = 0) ∧
  (SigFits len g ↔ SigFits len g') ∧
  (SigFits len g → g.h.map Int.sign = g'.h.map Int.sign ∧ g.z.map Int.sign = g'.z.map Int.sign)

end Raccoon
