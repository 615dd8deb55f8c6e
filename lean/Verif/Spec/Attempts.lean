import Verif.Spec.Scheme
/-!
# The list of attempts of a run of `sign`
-/
namespace Raccoon

/-- `L` lists the signatures of the attempts from number `n` on: all rejected but the last, which `b` encodes. -/
def Attempts (P : Par) (E : Ext) (fuel d uw rep : Nat) (a : Fin P.k → Fin P.l → RPoly) (t : Fin P.k → RPoly) (s : Fin P.l → RPoly)
    (μ : List U8) (stream : Nat → U8) (len : Nat) (b : List U8) : Nat → List Sig → Prop
  | _, [] => False
  | n, g :: L => AttemptSig P E fuel d uw rep a t s μ stream n g.cHash g.h g.z ∧
      ((L = [] ∧ Acceptable P len g.cHash g.h g.z ∧ IsSigEncoding g.cHash g.h g.z len b) ∨
       (Rejected P len g.cHash g.h g.z ∧ Attempts P E fuel d uw rep a t s μ stream len b (n + 1) L))

end Raccoon
