import Verif.Spec.Sampling
import Mathlib.SetTheory.Cardinal.Finite
/-!
# Counting over the outputs of an ideal extendable-output function
-/
namespace Raccoon

/-- The stream that starts with the bytes `B` (and goes on with zeros, which nobody reads). -/
def prefixStream (B : Fin n → U8) : Nat → U8 := fun i => if h : i < n then B ⟨i, h⟩ else 0

/-- The primitives with SHAKE256 replaced by the stream that starts with `B`, for all inputs. -/
def Ext.withStream (E : Ext) (B : Fin n → U8) : Ext := { E with shake256 := fun _ => prefixStream B }

/-- The primitives with SHAKE128 replaced by the stream that starts with `B`, for all inputs. -/
def Ext.withStream128 (E : Ext) (B : Fin n → U8) : Ext := { E with shake128 := fun _ => prefixStream B }

/-- How many of the 256^n strings of `n` bytes have the property. -/
noncomputable def countBytes (n : Nat) (p : (Fin n → U8) → Prop) : Nat := Nat.card { B : Fin n → U8 // p B }

end Raccoon
