import Verif.Spec.Bytes
/-!
# Specification of the signature format
-/
namespace Raccoon

/-- A hint coefficient: |x| ones, a zero, and (unless x = 0) a sign bit, set for negative x. -/
def hintBits (x : Int) : List Bool :=
  List.replicate x.natAbs true ++ [false] ++ (if x = 0 then [] else [decide (x < 0)])

/-- A response coefficient: the 40 lowest bits of |x|, then ⌊|x|/2^40⌋ ones, a zero, and (unless x = 0) a sign bit. -/
def respBits (x : Int) : List Bool :=
  natBits 40 (x.natAbs % 2 ^ 40) ++ List.replicate (x.natAbs / 2 ^ 40) true ++ [false] ++ (if x = 0 then [] else [decide (x < 0)])

/-- The bit string of a signature body. -/
def sigBits (h z : List Int) : List Bool := h.flatMap hintBits ++ z.flatMap respBits

/-- `b` is the encoding of (c, h, z) in `L` bytes: hash, body, zero padding. -/
def IsSigEncoding (c : List U8) (h z : List Int) (L : Nat) (b : List U8) : Prop :=
  b.length = L ∧ ∃ pad, bytesBits b = bytesBits c ++ sigBits h z ++ List.replicate pad false

/-- Σ x². -/
def sqSum (h : List Int) : Nat := (h.map fun x => x.natAbs * x.natAbs).sum

/-- Σ ⌊|x|/2^32⌋². -/
def scaledSqSum (z : List Int) : Nat := (z.map fun x => x.natAbs / 2 ^ 32 * (x.natAbs / 2 ^ 32)).sum

/-- The acceptance region of a signature: ‖h‖∞ ≤ ⌊Binf/2^νw⌋, ‖z‖∞ ≤ Binf and 2^(2νw−64)·‖h‖² + ‖⌊z/2^32⌋‖² ≤ B22. -/
def NormsOK (νw Binf B22 : Nat) (h z : List Int) : Prop :=
  (∀ x ∈ h, x.natAbs ≤ Binf / 2 ^ νw) ∧ (∀ x ∈ z, x.natAbs ≤ Binf) ∧ 2 ^ (2 * νw - 64) * sqSum h + scaledSqSum z ≤ B22

end Raccoon
