import Verif.Spec.Field
import Verif.Model.Poly
import Mathlib.Algebra.BigOperators.Fin
/-!
# What polynomials denote, independent specifications of the transforms
-/
namespace Raccoon
attribute [-instance] Monoid.toNPow
open Finset

/-- An element of Z_q[x]/(x^512+1) (or of the evaluation domain): its 512 coefficients. -/
abbrev RPoly := Fin 512 → ZMod q

/-- The coefficients a `poly_t` stands for. -/
def Poly.toZ (p : Poly) : RPoly := fun i => (p[i.val]).toZ

/-- All stored words are canonical. -/
def Poly.Can (p : Poly) : Prop := ∀ (i : Nat) (h : i < 512), (p[i]).Can

/-- Evaluation of the polynomial with coefficients `f` at `x`. -/
def evalR (f : RPoly) (x : ZMod q) : ZMod q := ∑ i, f i * x ^ i.val

/-- Product modulo x^512 + 1: x^(k+512) counts as -x^k. -/
def negacyclic (f g : RPoly) : RPoly := fun k =>
  ∑ i : Fin 512, ∑ j : Fin 512,
    if i.val + j.val = k.val then f i * g j
    else if i.val + j.val = k.val + 512 then -(f i * g j) else 0

/-- Reversal of the lowest nine bits. -/
def bitrev9 (v : Nat) : Nat :=
  ∑ i ∈ range 9, (v / 2 ^ i % 2) * 2 ^ (8 - i)

/-- The primitive 1024-th root of unity used by the library. -/
def zetaZ : ZMod q := 358453792785495

/-- Evaluation at the 512 odd powers of ζ, in bit-reversed order. -/
def nttR (f : RPoly) : RPoly := fun i => evalR f (zetaZ ^ (2 * bitrev9 i.val + 1))

end Raccoon

namespace Raccoon
/-- All stored words are below `m`. -/
def Poly.Below (m : Nat) (p : Poly) : Prop := ∀ (i : Nat) (h : i < 512), (p[i]).raw.toNat < m
end Raccoon
