import Verif.Model.Utils
/-!
# Byte strings and bit strings, independent of the implementation
-/
namespace Raccoon

/-- Little-endian value of a byte string. -/
def leVal : List U8 → Nat
  | [] => 0
  | b :: bs => b.toNat + 256 * leVal bs

/-- The `n` lowest bytes of `v`, least significant first. -/
def leBytes : Nat → Nat → List U8
  | 0, _ => []
  | n + 1, v => BitVec.ofNat 8 v :: leBytes n (v / 256)

/-- Value of a bit string, least significant bit first. -/
def bitsVal : List Bool → Nat
  | [] => 0
  | b :: bs => b.toNat + 2 * bitsVal bs

/-- The `n` lowest bits of `v`, least significant first. -/
def natBits : Nat → Nat → List Bool
  | 0, _ => []
  | n + 1, v => decide (v % 2 = 1) :: natBits n (v / 2)

/-- The bits of a byte string, each byte least significant bit first. -/
def bytesBits : List U8 → List Bool
  | [] => []
  | b :: bs => natBits 8 b.toNat ++ bytesBits bs

end Raccoon
