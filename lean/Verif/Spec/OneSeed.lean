import Verif.Spec.Bytes
/-!
# The seed that eight words of a random device make
-/
namespace Raccoon

/-- Eight 32-bit words, each as four bytes, least significant byte first. -/
def deviceSeed (rd : Nat → U32) : List U8 := (List.range 8).flatMap fun i => leBytes 4 (rd i).toNat

end Raccoon
