import Verif.Spec.Masked
import Mathlib.SetTheory.Cardinal.Finite
/-!
# What the masks of a refresh do to the shares
-/
namespace Raccoon
open Finset

/-- What share `s` receives when request number `t` of the list asks for a mask `ρ t`, adds it to the first share of the request, and
subtracts it from the share so many places further. -/
def maskedShare {R : Type} [AddCommGroup R] (sch : List (Nat × Nat)) (ρ : Fin sch.length → R) (s : Nat) : R :=
  ∑ t : Fin sch.length, ((if sch[t.val].1 = s then ρ t else 0) - (if sch[t.val].1 + sch[t.val].2 = s then ρ t else 0))

/-- The masks of the list are what the mask generator returns when it is asked, one request after the other, for a polynomial of generator
number (first share of the request); `g'` is the state it is left in. -/
inductive Drawn (E : Ext) (fuel : Nat) : List (Nat × Nat) → Mrng d → List Poly → Mrng d → Prop
  | nil (g : Mrng d) : Drawn E fuel [] g [] g
  | cons {p : Nat × Nat} {ps : List (Nat × Nat)} {g g₁ g' : Mrng d} {r : Poly} {rs : List Poly}
      (h : Poly.samplePolynomial E fuel p.1 g = .ok (r, g₁)) (hs : Drawn E fuel ps g₁ rs g') : Drawn E fuel (p :: ps) g (r :: rs) g'

/-- `E W`, `g W` are generators that produce the words `W`. -/
def Produces {d M : Nat} (E : (Fin (d - 1) → Fin M → U64) → Ext) (g : (Fin (d - 1) → Fin M → U64) → Mrng d) : Prop :=
  ∀ (W : Fin (d - 1) → Fin M → U64) (i : Fin (d - 1)) (j : Fin M), ((E W).asconP6^[j.val] (g W).state[i.val])[0] = W i j

/-- The refreshed vector agrees with `w` in all shares but, in each row, the one left out. -/
def AgreeBut {rows d : Nat} (i : Fin rows → Fin d) (v w : PVec rows d) : Prop := ∀ (r : Fin rows) (s : Fin d), s ≠ i r → v[r.val][s.val] = w[r.val][s.val]

end Raccoon
