import Verif.Spec.Bytes
import Verif.Spec.Masked
/-!
# Specification of the key encodings
-/
namespace Raccoon

/-- Coefficient `i` (counting row by row, 512 per row) of an unmasked vector. -/
def coeffAt (t : PVec k 1) (i : Nat) : Nat := if h : i < 512 * k then (t[i / 512][0][i % 512]).raw.toNat else 0

/-- All coefficients in order, `n` bits each, least significant bit first. -/
def vecBits (n : Nat) (t : PVec k 1) : List Bool := (List.range (512 * k)).flatMap fun i => natBits n (coeffAt t i)

/-- Every stored word of the vector is below `m`. -/
def PVec.Below (m : Nat) (t : PVec k 1) : Prop := ∀ i < 512 * k, coeffAt t i < m

end Raccoon
