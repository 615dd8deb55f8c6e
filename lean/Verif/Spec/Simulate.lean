import Verif.Spec.Flood
import Verif.Spec.Extreme
import Verif.Spec.Scheme
/-!
# Transcripts of signing attempts, made with and without the secret (for C75)
-/
namespace Raccoon
attribute [-instance] Monoid.toNPow
open Finset

/-- Noise words of `N` attempts: for each attempt and each coefficient of the response mask (`inl`) and of the error (`inr`) a family of words indexed by κ. -/
abbrev NoiseTable (N l k u : Nat) (κ : Type) := Fin N × (Fin l ⊕ Fin k) × Fin 512 → κ → Fin (2 ^ u)

/-- The response mask and the error of attempt `n`: every coefficient is the sum of its words. -/
def maskOf {N l k u : Nat} {κ : Type} [Fintype κ] (W : NoiseTable N l k u κ) (n : Fin N) : Fin l → Fin 512 → Int := fun j x => signedSum u (W (n, Sum.inl j, x))
def errorOf {N l k u : Nat} {κ : Type} [Fintype κ] (W : NoiseTable N l k u κ) (n : Fin N) : Fin k → Fin 512 → Int := fun i x => signedSum u (W (n, Sum.inr i, x))

/-- A rounded commitment. -/
abbrev Commitment (k ν : Nat) := Fin k → Fin 512 → Fin (q / 2 ^ ν)

/-- The commitment ⌊a r + e⌉ the signer makes. -/
def signerW {k l : Nat} (ν : Nat) (hν : 0 < q / 2 ^ ν) (a : Fin k → Fin l → RPoly) (r : Fin l → Fin 512 → Int) (e : Fin k → Fin 512 → Int) : Commitment k ν :=
  fun i x => ⟨commitW ν a (vecR r) (vecR e) i x, Nat.mod_lt _ hν⟩

/-- The commitment the simulator makes from a response z, a challenge c and b = a s + e₀: ⌊a z − c b + e⌉. -/
def simulatorW {k l : Nat} (ν : Nat) (hν : 0 < q / 2 ^ ν) (a : Fin k → Fin l → RPoly) (b : Fin k → RPoly) (c : Fin 512 → Int) (z : Fin l → Fin 512 → Int)
    (e : Fin k → Fin 512 → Int) : Commitment k ν :=
  fun i x => ⟨roundZ ν ((ringMatVec a (vecR z) i - negacyclic (b i) (toR c) + vecR e i) x), Nat.mod_lt _ hν⟩

/-- Signing attempts with secret `s`, the hash value of attempt `n` being `c n`: (commitment, hash value, response) of each. `ch` gives the challenge polynomial of a hash value. -/
def signerRun {N k l u ν : Nat} {κ C : Type} [Fintype κ] (hν : 0 < q / 2 ^ ν) (a : Fin k → Fin l → RPoly) (s : Fin l → Fin 512 → Int) (ch : C → Fin 512 → Int)
    (c : Fin N → C) (W : NoiseTable N l k u κ) : Fin N → Commitment k ν × C × (Fin l → Fin 512 → Int) :=
  fun n => (signerW ν hν a (maskOf W n) (errorOf W n), c n, fun j x => negacyclicZ (s j) (ch (c n)) x + maskOf W n j x)

/-- Simulated attempts: the response is noise, the commitment is computed from it; no secret is used. -/
def simulatorRun {N k l u ν : Nat} {κ C : Type} [Fintype κ] (hν : 0 < q / 2 ^ ν) (a : Fin k → Fin l → RPoly) (b : Fin k → RPoly) (ch : C → Fin 512 → Int)
    (c : Fin N → C) (W : NoiseTable N l k u κ) : Fin N → Commitment k ν × C × (Fin l → Fin 512 → Int) :=
  fun n => (simulatorW ν hν a b (ch (c n)) (maskOf W n) (errorOf W n), c n, maskOf W n)

/-- Signing attempts whose hash values are the answers of an oracle `H` on (message digest of the attempt, commitment). -/
def oracleRun {N k l u ν : Nat} {κ C D : Type} [Fintype κ] (hν : 0 < q / 2 ^ ν) (a : Fin k → Fin l → RPoly) (s : Fin l → Fin 512 → Int) (ch : C → Fin 512 → Int)
    (μ : Fin N → D) (H : D × Commitment k ν → C) (W : NoiseTable N l k u κ) : Fin N → Commitment k ν × C × (Fin l → Fin 512 → Int) :=
  signerRun hν a s ch (fun n => H (μ n, signerW ν hν a (maskOf W n) (errorOf W n))) W

/-- b = a s + e₀, the public vector before rounding. -/
def publicB {k l : Nat} (a : Fin k → Fin l → RPoly) (s : Fin l → Fin 512 → Int) (e₀ : Fin k → Fin 512 → Int) : Fin k → RPoly := fun i => ringMatVec a (vecR s) i + vecR e₀ i

/-- The words that make up coefficient `c` of row `j` of the error in signing attempt `n` (compare `attemptWords`; the errors come after the response masks). -/
def attemptErrorWords (P : Par) (E : Ext) (d : Nat) (entropy : List U8) (n : Nat) (j : Fin P.k) (c : Fin 512) : Fin (repOf d) × Fin d → Fin (2 ^ uwOf d) := fun rs =>
  ⟨streamWord (E.shake256 ([0x75, BitVec.ofNat 8 rs.1.val, BitVec.ofNat 8 j.val, BitVec.ofNat 8 rs.2.val, 0, 0, 0, 0] ++
      (List.range (P.κ / 8)).map fun b =>
        E.shake128 entropy (n * ((P.l + P.k) * rowBytesOf P d) + P.l * rowBytesOf P d + j.val * rowBytesOf P d + (rs.1.val * d + rs.2.val) * (P.κ / 8) + b)))
    ((uwOf d + 7) / 8) c.val % 2 ^ uwOf d, Nat.mod_lt _ (Nat.pow_pos (by omega))⟩

/-- All noise words of `N` attempts, the `i`-th being attempt `num i` with entropy `entropy i`. -/
def attemptTable (P : Par) (E : Ext) (d : Nat) {N : Nat} (entropy : Fin N → List U8) (num : Fin N → Nat) : NoiseTable N P.l P.k (uwOf d) (Fin (repOf d) × Fin d) :=
  fun i => match i.2.1 with
    | Sum.inl j => attemptWords P E d (entropy i.1) (num i.1) j i.2.2
    | Sum.inr j => attemptErrorWords P E d (entropy i.1) (num i.1) j i.2.2

end Raccoon
