import Verif.Spec.Uniform
import Verif.Spec.Wire
/-!
# Public matrices drawn from an ideal extendable-output function (for C85)
-/
namespace Raccoon
open Classical in
/-- The primitives with SHAKE256 answering the query for entry (r, j) of the matrix of the seed, `'A' ‖ r ‖ j ‖ 0⁵ ‖ seed`, by the stream that starts with the bytes `B r j`. -/
noncomputable def Ext.withMatrix {k l n : Nat} (E : Ext) (seed : List U8) (B : Fin k → Fin l → Fin n → U8) : Ext :=
  { E with shake256 := fun x =>
      if h : ∃ e : Fin k × Fin l, x = [0x41, BitVec.ofNat 8 e.1.val, BitVec.ofNat 8 e.2.val, 0, 0, 0, 0, 0] ++ seed
      then prefixStream (B h.choose.1 h.choose.2) else E.shake256 x }

end Raccoon
