import Verif.Spec.Adaptive
import Verif.Spec.Binding
/-!
# Running a forger twice (for C83)
-/
namespace Raccoon
attribute [-instance] Monoid.toNPow
open Finset

/-- Challenge vectors of weight ω: ω coefficients are 1 or −1, the others 0. -/
def IsChallengeVec (ω : Nat) (γ : Fin 512 → Int) : Prop := (∀ i, |γ i| ≤ 1) ∧ ∑ i, |γ i| = ω

/-- Hash values of a run that is repeated from step `n` on: the old ones before, new ones from `n` on. -/
def splice {M : Nat} {C : Type} (n : Fin M) (c c' : Fin M → C) : Fin M → C := fun m => if m < n then c m else c' m

/-- Two valid answers (hint, response) to different challenges for one and the same commitment. -/
structure TwoAnswers (P : Par) (a : Fin P.k → Fin P.l → RPoly) (t : Fin P.k → RPoly) (γ γ' : Fin 512 → Int) (h h' z z' : List Int) : Prop where
  differ : γ ≠ γ'
  length : h.length = P.k * 512 ∧ h'.length = P.k * 512 ∧ z.length = P.l * 512 ∧ z'.length = P.l * 512
  norms : NormsOK P.νw P.Binf.toNat P.B22.toNat h z
  norms' : NormsOK P.νw P.Binf.toNat P.B22.toNat h' z'
  commitment : recomputed P.νw P.νt a t (toR γ) h z = recomputed P.νw P.νt a t (toR γ') h' z'

/-- A short integer relation between the columns of the public matrix, the public vector and the unit vectors: a δ − 2^νt γ t = short, γ ≠ 0. -/
structure ShortRelation (P : Par) (a : Fin P.k → Fin P.l → RPoly) (t : Fin P.k → RPoly) (δ : Fin P.l → Fin 512 → Int) (γ : Fin 512 → Int) : Prop where
  nonzero : γ ≠ 0
  small : ∀ i, |γ i| ≤ 2
  short : ∀ j i, (δ j i).natAbs ≤ 2 * P.Binf.toNat
  image : ∀ r, ShortR (6 * 2 ^ 44) (ringMatVec a (vecR δ) r - (2 ^ P.νt : ZMod q) • negacyclic (t r) (toR γ))

/-- The outputs of two runs of a forger contain two answers for one commitment: the commitment of a step `n` of both. -/
def Extracts {C D : Type} (P : Par) (a : Fin P.k → Fin P.l → RPoly) (t : Fin P.k → RPoly) (ch : C → Fin 512 → Int)
    (out : List (Outcome P.k P.l P.νw C) → D × List Int × List Int) (n : Nat) (v v' : List (Outcome P.k P.l P.νw C)) : Prop :=
  ∃ (hn : n < v.length) (hn' : n < v'.length), v[n].1 = v'[n].1 ∧
    TwoAnswers P a t (ch v[n].2.1) (ch v'[n].2.1) (out v).2.1 (out v').2.1 (out v).2.2 (out v').2.2

end Raccoon
