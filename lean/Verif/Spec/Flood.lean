import Verif.Spec.Extreme
/-!
# Noise tables and responses (for C74)
-/
namespace Raccoon
attribute [-instance] Monoid.toNPow
open Finset

/-- The integer each family of noise words adds up to. -/
def tableSum {ι κ : Type} [Fintype κ] (u : Nat) (W : ι → κ → Fin (2 ^ u)) : ι → Int := fun i => signedSum u (W i)

/-- How many tables of noise words give a response in `T`, when the secret contributes `δ`: response = δ + noise. -/
noncomputable def respCount {ι κ : Type} [Fintype ι] [DecidableEq ι] [Fintype κ] [DecidableEq κ] (u : Nat) (δ : ι → Int) (T : Set (ι → Int)) : Nat :=
  Nat.card {W : ι → κ → Fin (2 ^ u) // δ + tableSum u W ∈ T}

/-- What the secret `s` contributes to the responses of several signatures with challenges `c 0, c 1, …`. -/
def contribution {N l : Nat} (s : Fin l → Fin 512 → Int) (c : Fin N → Fin 512 → Int) : Fin N × Fin l × Fin 512 → Int := fun i => negacyclicZ (s i.2.1) (c i.1) i.2.2

/-- Bits of distance (see C74) for a parameter set and a share count. -/
def floodBits (P : Par) (d : Nat) : Nat := (if P.κ = 128 then 2 else 0) + (if d ≤ 4 then 14 else if d ≤ 16 then 12 else 10)

/-- Minus log₂ of the part of the noise left aside, per response (see C91), for a parameter set and a share count. -/
def oddsBits (P : Par) (d : Nat) : Nat := if P.κ = 128 then (if d ≤ 4 then 90 else if d ≤ 16 then 268 else 596) else (if d ≤ 4 then 73 else if d ≤ 16 then 202 else 336)

/-- As `oddsBits`, for whole attempts (see C92). -/
def fewBits (P : Par) (d : Nat) : Nat := if P.κ = 128 then (if d ≤ 4 then 87 else if d ≤ 16 then 261 else 573) else (if d ≤ 4 then 70 else if d ≤ 16 then 193 else 301)

end Raccoon
