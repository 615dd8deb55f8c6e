import Verif.Model.Tests
/-!
# The repository's benchmarks

`benchmarks/raccoon128.cpp` (and the same lines of `raccoon192.cpp`, `raccoon256.cpp`). The benchmark library decides how many rounds a loop makes: `n` is an
argument. `DoNotOptimize`, `ClobberMemory`, `SetItemsProcessed` and the statistics do not compute on the data. Generators that seed themselves from the operating
system get their seeds as arguments, one for each call.
-/
namespace Raccoon
namespace Bench

/-- benchmarks/raccoon128.cpp:5-26 `bench_raccoon128_keygen<d>`, `n` rounds: the keys and what is in `sk_bytes` after each round. -/
def keygen (P : Par) (E : Ext) (fuel d : Nat) (benchEntropy : List U8) (genEntropy saveEntropy : Nat → List U8) (n : Nat) : Res (List (SKey P.k P.l d × List U8)) := do
  let (seed, _) := (Prng.new E benchEntropy).read (P.κ / 8)
  let r ← forLoop 0 n 1 (fun i (s : List (SKey P.k P.l d × List U8) × List U8) => do
    let skey ← Api.generate P (utTableOf P) E fuel d (genEntropy i) seed
    let skBytes ← Api.skAsBytes P E fuel skey (saveEntropy i) s.2
    .ok (s.1 ++ [(skey, skBytes)], skBytes)) ([], List.replicate (SKey.byteLen P.κ P.k P.l d P.νt) 0)
  .ok r.1

/-- What a run of the signing benchmark makes: the public key, the message, and what is in `sig_bytes` after each round. -/
structure SignRun (P : Par) where
  pkey : PKey P.k
  msg : List U8
  sigs : List (List U8)

/-- benchmarks/raccoon128.cpp:28-55 `bench_raccoon128_sign<d>`, `n` rounds. -/
def sign (P : Par) (E : Ext) (fuel d : Nat) (benchEntropy genEntropy : List U8) (signEntropy : Nat → List U8) (n : Nat) : Res (SignRun P) := do
  let (seed, prng) := (Prng.new E benchEntropy).read (P.κ / 8)
  let (msg, _) := prng.read 32
  let skey ← Api.generate P (utTableOf P) E fuel d genEntropy seed
  let r ← forLoop 0 n 1 (fun i (s : List (List U8) × List U8) => do
    let sig ← Api.sign P E fuel d skey (signEntropy i) msg s.2
    .ok (s.1 ++ [sig], sig)) ([], List.replicate P.sigLen 0)
  .ok ⟨Api.getPkey P skey, msg, r.1⟩

/-- benchmarks/raccoon128.cpp:57-86 `bench_raccoon128_verify`, `n` rounds: the final `is_verified` (which the benchmark itself never looks at). `d` is the constant
`num_shares` (1 there). -/
def verify (P : Par) (E : Ext) (fuel d : Nat) (benchEntropy genEntropy signEntropy : List U8) (n : Nat) : Res Bool := do
  let (seed, prng) := (Prng.new E benchEntropy).read (P.κ / 8)
  let (msg, _) := prng.read 32
  let skey ← Api.generate P (utTableOf P) E fuel d genEntropy seed
  let pkey := Api.getPkey P skey
  let sig ← Api.sign P E fuel d skey signEntropy msg (List.replicate P.sigLen 0)
  forLoop 0 n 1 (fun _ isVerified => do
    let v ← Api.verify P E fuel pkey msg sig
    .ok (isVerified && v)) true

end Bench
end Raccoon
