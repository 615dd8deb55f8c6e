import Verif.Model.Field
import Mathlib.Data.ZMod.Basic
/-!
# What a field element denotes
-/
namespace Raccoon

/-- The modulus (2^24 − 2^18 + 1)(2^25 − 2^18 + 1). -/
def q : Nat := 549824583172097

instance : NeZero q := ⟨by decide⟩

/-- The residue class a `zq_t` stands for. -/
def Zq.toZ (a : Zq) : ZMod q := (a.raw.toNat : ZMod q)

/-- The representative is the canonical one. -/
def Zq.Can (a : Zq) : Prop := a.raw.toNat < q

end Raccoon
