import Verif.Spec.Wire
/-!
# Noise words of a signing attempt (for C73)
-/
namespace Raccoon
attribute [-instance] Monoid.toNPow
open Finset

/-- A `u`-bit word read as a two's complement number. -/
def signedWord (u : Nat) (w : Fin (2 ^ u)) : Int := if w.val < 2 ^ (u - 1) then (w.val : Int) else (w.val : Int) - 2 ^ u

/-- The sum of a family of `u`-bit words read as two's complement numbers. -/
def signedSum {ι : Type} [Fintype ι] (u : Nat) (x : ι → Fin (2 ^ u)) : Int := ∑ i, signedWord u (x i)

/-- The words that make up coefficient `c` of row `j` of the response mask in signing attempt `n`, one for each repetition and share: word `c` of the stream of
`'u' ‖ repetition ‖ row ‖ share ‖ 0⁴ ‖ σ`, where σ is the next piece of the stream of the entropy. -/
def attemptWords (P : Par) (E : Ext) (d : Nat) (entropy : List U8) (n : Nat) (j : Fin P.l) (c : Fin 512) : Fin (repOf d) × Fin d → Fin (2 ^ uwOf d) := fun rs =>
  ⟨streamWord (E.shake256 ([0x75, BitVec.ofNat 8 rs.1.val, BitVec.ofNat 8 j.val, BitVec.ofNat 8 rs.2.val, 0, 0, 0, 0] ++
      (List.range (P.κ / 8)).map fun b =>
        E.shake128 entropy (n * ((P.l + P.k) * rowBytesOf P d) + j.val * rowBytesOf P d + (rs.1.val * d + rs.2.val) * (P.κ / 8) + b)))
    ((uwOf d + 7) / 8) c.val % 2 ^ uwOf d, Nat.mod_lt _ (Nat.pow_pos (by omega))⟩

/-- The fraction of the families of `u`-bit words with |sum| ≥ T is at most 2^−e. -/
def RareSum (ι : Type) [Fintype ι] [DecidableEq ι] (u T e : Nat) : Prop :=
  2 ^ e * Fintype.card {x : ι → Fin (2 ^ u) // (T : Int) ≤ |signedSum u x|} ≤ Fintype.card (ι → Fin (2 ^ u))

end Raccoon
