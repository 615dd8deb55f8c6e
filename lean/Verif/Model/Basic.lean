/-!
# Outcomes, machine words, loops

Shared vocabulary of the model.  Undefined behaviour is a distinct outcome (`Res.ub`); running out
of the iteration budget given to an unbounded `while` loop is `Res.nofuel`.
-/
namespace Raccoon

/-- `uint64_t` (and `size_t` where wrap-around matters). -/
abbrev U64 := BitVec 64
/-- `uint32_t`. -/
abbrev U32 := BitVec 32
/-- `uint8_t`. -/
abbrev U8 := BitVec 8

/-- Outcome of running a piece of C++: a value, undefined behaviour, or "the loop has not finished
within the given number of iterations". -/
inductive Res (α : Type u) where
  | ok (a : α)
  | ub
  | nofuel
  deriving DecidableEq, Repr

namespace Res

instance : Inhabited (Res α) := ⟨.ub⟩

@[inline] def bind (x : Res α) (f : α → Res β) : Res β :=
  match x with
  | .ok a => f a
  | .ub => .ub
  | .nofuel => .nofuel

instance : Monad Res where
  pure := .ok
  bind := Res.bind

instance : LawfulMonad Res := LawfulMonad.mk'
  (id_map := by intro α x; cases x <;> rfl)
  (pure_bind := by intros; rfl)
  (bind_assoc := by intro α β γ x f g; cases x <;> rfl)

@[simp] theorem pure_eq (a : α) : (pure a : Res α) = .ok a := rfl
@[simp] theorem ok_bind (a : α) (f : α → Res β) : (Res.ok a >>= f) = f a := rfl
@[simp] theorem ub_bind (f : α → Res β) : ((Res.ub : Res α) >>= f) = .ub := rfl
@[simp] theorem nofuel_bind (f : α → Res β) : ((Res.nofuel : Res α) >>= f) = .nofuel := rfl
@[simp] theorem ok_map (a : α) (f : α → β) : (f <$> (Res.ok a : Res α)) = .ok (f a) := rfl

theorem bind_eq_ok {x : Res α} {f : α → Res β} {b : β} :
    (x >>= f) = .ok b ↔ ∃ a, x = .ok a ∧ f a = .ok b := by
  cases x <;> simp

end Res

/-- `int64_t` arithmetic: a mathematical integer that does not fit is signed overflow, i.e. UB. -/
def i64 (x : Int) : Res Int :=
  if -(2 ^ 63) ≤ x ∧ x < 2 ^ 63 then .ok x else .ub

/-- `x << n` on `uint64_t`: UB when `n >= 64`. -/
def shl64 (x : U64) (n : Nat) : Res U64 := if n < 64 then .ok (x <<< n) else .ub

/-- `x >> n` on `uint64_t`: UB when `n >= 64`. -/
def shr64 (x : U64) (n : Nat) : Res U64 := if n < 64 then .ok (x >>> n) else .ub

/-- `for (size_t i = lo; i < hi; i += step) body(i)` on a state `s` (`step > 0`). -/
def forLoop {σ : Type u} (lo hi step : Nat) (body : Nat → σ → Res σ) (s : σ) : Res σ :=
  (List.range' lo ((hi - lo + step - 1) / step) step).foldlM (fun s i => body i s) s

/-- `std::array` / `std::span` element read with run-time index: out of range is UB. -/
def _root_.Vector.rd {α : Type u} {n : Nat} (v : Vector α n) (i : Nat) : Res α :=
  if h : i < n then .ok v[i] else .ub

/-- `std::array` / `std::span` element write with run-time index: out of range is UB. -/
def _root_.Vector.wr {α : Type u} {n : Nat} (v : Vector α n) (i : Nat) (x : α) : Res (Vector α n) :=
  if h : i < n then .ok (v.set i x h) else .ub

/-- Apply a possibly-undefined operation to every element, in index order. -/
def _root_.Vector.mapR {α : Type u} {β : Type u} {n : Nat} (f : α → Res β) (v : Vector α n) : Res (Vector β n) :=
  v.mapM f

/-- `std::countl_zero` on a 64-bit word (C++20 `<bit>` contract). -/
def countlZero (x : U64) : Nat := if x = 0 then 64 else 63 - Nat.log2 x.toNat

/-- `std::countr_zero` on a 64-bit word (C++20 `<bit>` contract). -/
def countrZero (x : U64) : Nat := ((List.range 64).find? (fun i => x.getLsbD i)).getD 64

/-- `std::bit_width` on a 64-bit word (C++20 `<bit>` contract). -/
def bitWidth (x : U64) : Nat := 64 - countlZero x

end Raccoon
