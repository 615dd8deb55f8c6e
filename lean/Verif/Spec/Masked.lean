import Verif.Spec.Poly
import Verif.Spec.Sampling
import Verif.Model.Masked
/-!
# What sharings denote
-/
namespace Raccoon
attribute [-instance] Monoid.toNPow
open Finset

/-- All shares are canonical. -/
def MPoly.Can (v : MPoly d) : Prop := ∀ (s : Nat) (h : s < d), (v[s]).Can

/-- The value a sharing stands for: the sum of its shares in Z_q[x]/(x^512+1). -/
def MPoly.val (v : MPoly d) : RPoly := ∑ s : Fin d, (v[s.val]).toZ

/-- All entries of a vector of sharings are canonical. -/
def PVec.Can (v : PVec rows d) : Prop := ∀ (r : Nat) (h : r < rows), MPoly.Can v[r]

/-- The vector of values a vector of sharings stands for. -/
def PVec.val (v : PVec rows d) : Fin rows → RPoly := fun r => MPoly.val v[r.val]

/-- All entries of a matrix are canonical. -/
def PMat.Can (A : PMat rows cols) : Prop := ∀ (i : Nat) (h : i < rows * cols), (A[i]).Can

/-- The entry (r, c) of a (row-major) matrix. -/
def PMat.val (A : PMat rows cols) : Fin rows → Fin cols → RPoly := fun r c => (A.at' r c).toZ

/-- Matrix-vector product with pointwise multiplication (evaluation domain). -/
def matVec (A : Fin rows → Fin cols → RPoly) (x : Fin cols → RPoly) : Fin rows → RPoly := fun r => ∑ c, A r c * x c

/-- The noise polynomial added to share `sidx` in repetition `iRep` for vector index `idx`, when the PRNG (stream `s`) is at
position `pos` at the start: 𝜅/8 seed bytes per (repetition, share), read in order; the noise is derived from
`'u' ‖ iRep ‖ idx ‖ sidx ‖ 0⁴ ‖ σ`. -/
def noiseAt (E : Ext) (u κ d idx : Nat) (s : Nat → U8) (pos iRep sidx : Nat) : Fin 512 → Int := fun c =>
  let σ := (List.range (κ / 8)).map fun b => s (pos + (iRep * d + sidx) * (κ / 8) + b)
  let hdr : List U8 := [0x75, BitVec.ofNat 8 iRep, BitVec.ofNat 8 idx, BitVec.ofNat 8 sidx, 0, 0, 0, 0]
  ((streamWord (E.shake256 (hdr ++ σ)) ((u + 7) / 8) c.val : Nat) : Int).bmod (2 ^ u)

/-- Total noise added by `add_rep_noise`: the sum over all repetitions and shares, as integers. -/
def totalNoise (E : Ext) (u κ d rep idx : Nat) (s : Nat → U8) (pos : Nat) : Fin 512 → Int := fun c =>
  ∑ iRep ∈ range rep, ∑ sidx ∈ range d, noiseAt E u κ d idx s pos iRep sidx c

/-- An integer polynomial modulo q. -/
def toR (f : Fin 512 → Int) : RPoly := fun c => (f c : ZMod q)

/-- The mask requests of a zero encoding with 2^m shares: in round `j`, every share whose bit `j` is 0, in increasing order,
paired with the share 2^j further. -/
def maskSchedule (m : Nat) : List (Nat × Nat) :=
  (List.range m).flatMap fun j => ((List.range (2 ^ m)).filter (fun i => i / 2 ^ j % 2 = 0)).map fun i => (i, 2 ^ j)

/-- The byte stream a PRNG reads from, the number of bytes already consumed, and the PRNG `n` bytes later. -/
def Prng.stream (p : Prng) : Nat → U8 := p.state.fn p.state.absorbed
def Prng.pos (p : Prng) : Nat := p.state.pos
def Prng.advance (p : Prng) (n : Nat) : Prng := ⟨{ p.state with pos := p.state.pos + n }⟩

end Raccoon
