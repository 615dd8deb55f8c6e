import Verif.Model.Basic
/-!
# The outcome of an operation whose loops are given an iteration budget
-/
namespace Raccoon

/-- The operation (as a function of the budget) ends with outcome `r`: from some budget on, that is what is returned. -/
def EndsWith (f : Nat → Res α) (r : Res α) : Prop := r ≠ .nofuel ∧ ∃ N, ∀ n, N ≤ n → f n = r

/-- The operation does not end: no budget is enough. -/
def Diverges (f : Nat → Res α) : Prop := ∀ n, f n = .nofuel

/-- The budget has no influence on what the operation does: it either diverges or ends with one outcome, and any run that finished shows that outcome. -/
def BudgetFree (f : Nat → Res α) : Prop :=
  (Diverges f ∨ ∃ r, EndsWith f r) ∧ ∀ n, f n ≠ .nofuel → EndsWith f (f n)

end Raccoon
