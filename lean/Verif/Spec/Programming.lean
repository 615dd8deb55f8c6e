import Verif.Spec.Binding
/-!
# Changing a hash function at one input
-/
namespace Raccoon

/-- `E'` is `E` except perhaps for what SHAKE256 returns on the string `x`. -/
def SameExcept (x : List U8) (E E' : Ext) : Prop :=
  E'.shake128 = E.shake128 ∧ E'.asconP6 = E.asconP6 ∧ E'.asconP12 = E.asconP12 ∧ E'.ascon80pqIV = E.ascon80pqIV ∧
    ∀ m, m ≠ x → E'.shake256 m = E.shake256 m

/-- `E` with SHAKE256 changed to return the bytes `c` (then zeros) on the string `x`. -/
def Ext.program (E : Ext) (x c : List U8) : Ext :=
  { E with shake256 := fun m => if m = x then fun i => c.getD i 0 else E.shake256 m }

end Raccoon
