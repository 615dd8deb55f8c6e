import Verif.Model.Basic
/-!
# Specification vocabulary: output of an extendable-output function
-/
namespace Raccoon

/-- The first `n` bytes of the output stream of `fn` for the message `m`. -/
def xofOut (fn : List U8 → Nat → U8) (m : List U8) (n : Nat) : List U8 := (List.range n).map (fn m)

end Raccoon
