import Verif.Model.LeakApi
import Mathlib.Data.Finset.Card
/-!
# The complete list of observations of the arithmetic on secrets

Closed forms, written from the loops of the C++ code, of everything an observer of branch outcomes, array indices and lengths sees.
-/
namespace Raccoon
namespace Trace

/-- A loop over `is`: the condition holds before every round, and does not hold at the end. -/
def loop {ι : Type} (is : List ι) (body : ι → List Ev) : List Ev := is.flatMap (fun i => .br true :: body i) ++ [.br false]
/-- `for (i = 0; i < n; i++)`. -/
def upto (n : Nat) (body : Nat → List Ev) : List Ev := loop (List.range n) body
/-- `for (i = 0; i < n; i++) res[i] = …`. -/
def fill (n : Nat) (body : Nat → List Ev) : List Ev := upto n fun i => body i ++ [.ix i]

/-- A loop over the first `n` bytes. -/
def bytes (n : Nat) : List Ev := upto n fun i => [.ix i]
/-- Comparing two arrays of `n` bytes, to the end in any case. -/
def bytesEq (n : Nat) : List Ev := upto n fun i => [.ix i, .ix i]

/-- Shifting a 128-bit value by `n`: is `n` 0? is it 128? is it below 64? is it 64? -/
def shift (n : Nat) : List Ev :=
  if n = 0 then [.br true] else if n = 128 then [.br false, .br true] else if n < 64 then [.br false, .br false, .br true]
  else if n = 64 then [.br false, .br false, .br false, .br true] else [.br false, .br false, .br false, .br false]
/-- One Barrett reduction: seven shifts by constants. -/
def barrett : List Ev := [64, 64, 64, 64, 64, 30, 98].flatMap shift

/-- `res[i] = a[i] op b[i]` on polynomials, for an operation that does not branch (`+`, `-`, `add_mod`, `sub_mod`). -/
def polyOp2 : List Ev := fill 512 fun i => [.ix i, .ix i]
/-- `res[i] = f(a[i])`, for an `f` that does not branch (`rounding_shr`, `center`). -/
def polyOp1 : List Ev := fill 512 fun i => [.ix i]
/-- `res[i] = a[i] * b[i]`. -/
def polyMul : List Ev := fill 512 fun i => [.ix i, .ix i] ++ barrett
/-- `res[i] = a[i] << off`. -/
def polyShl : List Ev := fill 512 fun i => .ix i :: barrett
/-- `res &= a[i] == b[i]`. -/
def polyEq : List Ev := upto 512 fun i => [.ix i, .ix i]
/-- Number-theoretic transform: nine levels; on level `j`, `2^j` blocks of `2·len` coefficients (`len = 2^(8-j)`), one table entry for
each block, and in each block `len` butterflies on coefficients `len` apart. -/
def ntt : List Ev := upto 9 fun j => upto (2 ^ j) fun b =>
  let len := 2 ^ (8 - j)
  .ix (2 ^ j + b) :: loop (List.range' (2 * len * b) len) fun i => .ix (i + len) :: barrett ++ [.ix i, .ix (i + len), .ix i, .ix i]
/-- The inverse transform, and the final multiplication by `1/512`. -/
def intt : List Ev :=
  (upto 9 fun l => upto (2 ^ (8 - l)) fun b =>
    let len := 2 ^ l
    .ix (2 ^ (9 - l) - 1 - b) :: loop (List.range' (2 * len * b) len) fun i =>
      [.ix i, .ix i, .ix (i + len), .ix i, .ix (i + len), .ix (i + len), .ix (i + len)] ++ barrett ++ [.ix (i + len)]) ++
  fill 512 fun i => .ix i :: barrett

/-- The same on arrays (of shares, or of rows): `res[i] = a[i] op b[i]`. -/
def each2 (n : Nat) (op : List Ev) : List Ev := fill n fun i => [.ix i, .ix i] ++ op
/-- `res[i] = f(a[i])`. -/
def each1 (n : Nat) (op : List Ev) : List Ev := fill n fun i => .ix i :: op
/-- `res &= a[i] == b[i]`. -/
def eachEq (n : Nat) (op : List Ev) : List Ev := upto n fun i => [.ix i, .ix i] ++ op
/-- Adding up `d` shares. -/
def decode (d : Nat) : List Ev := upto d fun i => [.ix 0, .ix i] ++ polyOp2 ++ [.ix 0]
/-- Scaling a masked vector by a public polynomial. -/
def scale (rows d : Nat) : List Ev := fill rows fun r => fill d fun s => [.ix r, .ix s] ++ polyMul
/-- Matrix times masked vector. -/
def mulVec (rows cols d : Nat) : List Ev := upto rows fun r => upto cols fun c => upto d fun s =>
  [.ix (r * cols + c), .ix c, .ix s] ++ polyMul ++ [.ix r, .ix s] ++ polyOp2 ++ [.ix s, .ix r]
/-- The challenge hash of `k` rows: coefficient `i` goes to byte `(8 + i) mod 136` of the block buffer, which is absorbed when full; at the
end the `last` bytes left over, the `μLen` bytes of the message hash, and `out` bytes squeezed. -/
def chalHash (k μLen out : Nat) : List Ev :=
  (upto (k * 512) fun i => (if (8 + i) % 136 = 0 then [.br true, .len 136] else [.br false]) ++
    [.ix (i / 512), .ix 0, .ix (i % 512), .ix ((8 + i) % 136)]) ++
  let last := (k * 512 + 7) % 136 + 1
  [.br true, .ix 0, .len last, .len last, .len μLen, .len out]

end Trace
end Raccoon

namespace Raccoon
/-- A set of observation lists. -/
abbrev Shape := List Ev → Prop
namespace Shape
/-- Exactly this. -/
def one (t : List Ev) : Shape := fun u => u = t
/-- Every completed run of `p` shows one of `S`. -/
def _root_.Raccoon.Lk.Observes {α : Type u} (p : Lk α) (S : Shape) : Prop := ∀ a, p.val = .ok a → S p.tr
/-- First `A`, then `B`. -/
def seq (A B : Shape) : Shape := fun u => ∃ a b, A a ∧ B b ∧ u = a ++ b
@[inherit_doc] infixr:65 " ⬝ " => seq
/-- A loop: round `i` shows one of `B i`. -/
def loop {ι : Type} : List ι → (ι → Shape) → Shape
  | [], _ => one [.br false]
  | i :: is, B => one [.br true] ⬝ B i ⬝ loop is B
def upto (n : Nat) (B : Nat → Shape) : Shape := loop (List.range n) B

/-- The rounds of the mask sampler for share `idx`, `ci` coefficients being there already; `accepted` says for every draw whether it was below
q. -/
def maskRounds (idx : Nat) : Nat → List Bool → List Ev
  | _, [] => [.br false]
  | ci, a :: as => [.br true, .br false, .ix idx, .ix 0, .ix idx, .br a] ++ (if a then [.ix ci] else []) ++
      maskRounds idx (if a then ci + 1 else ci) as
/-- Drawing one mask from generator `idx` of `d - 1`. -/
def mask (d idx : Nat) : Shape :=
  if d - 1 ≤ idx then one [.br true]
  else one [.br false] ⬝ fun u => ∃ accepted : List Bool, accepted.count true = 512 ∧ u = maskRounds idx 0 accepted
/-- Adding a mask to one share and subtracting it from another. -/
def maskPair (d i j : Nat) : Shape :=
  mask d i ⬝ one ([.ix i] ++ Trace.polyOp2 ++ [.ix i, .ix j] ++ Trace.polyOp2 ++ [.ix j])
/-- A fresh encoding of zero in `d = 2^m` shares: neighbours are masked; then, for `e = 2, 4, …, d/2`, shares `e` apart in each block of `2e`. -/
def zeroEnc (d : Nat) : Shape :=
  if d ≤ 1 then one []
  else upto (d / 2) (fun b => maskPair d (2 * b) (2 * b + 1)) ⬝
    loop (((List.range 6).map (2 ^ · * 2)).filter (· < d)) fun e => upto (d / (2 * e)) fun b => upto e fun s =>
      maskPair d (2 * e * b + s) (2 * e * b + s + e)
/-- Refreshing one masked polynomial. -/
def refresh (d : Nat) : Shape := zeroEnc d ⬝ one (Trace.each2 d Trace.polyOp2)
/-- Refreshing a masked vector. -/
def refreshVec (k d : Nat) : Shape := upto k fun i => one [.ix i] ⬝ refresh d ⬝ one [.ix i]
/-- Noise of `u` bits for one share from a seed of `seed` bytes. -/
def noisePoly (u seed : Nat) : List Ev :=
  let n := (u + 7) / 8
  [.len 8, .len seed, .len (n * 512)] ++
  Trace.upto 512 fun i => [.ix (n * i), .len n, .br (decide (n < 8))] ++ Trace.bytes (min 8 n) ++ [.ix i]
/-- `rep` rounds of noise on every share, each followed by a refresh. -/
def noise (d rep u seed : Nat) : Shape := upto rep fun _ =>
  one (Trace.upto d fun s => [.len seed] ++ noisePoly u seed ++ [.ix s] ++ Trace.polyOp2 ++ [.ix s]) ⬝ refresh d
def noiseVec (k d rep u seed : Nat) : Shape := upto k fun i => one [.ix i] ⬝ noise d rep u seed ⬝ one [.ix i]

/-- The rounds of the rejection sampler on the public seed: `off` is the read position in the 136-byte block, seven bytes are taken at a
time, what is left is moved to the front and the block refilled. -/
def uniformRounds : Nat → Nat → List Bool → List Ev
  | _, _, [] => [.br false]
  | off, ci, a :: as =>
    let rem := 136 - off
    let refill := decide (136 < off + 7)
    let pos := if refill then 0 else off
    [.br true, .br refill] ++
    (if refill then [.ix off, .len rem, .ix 0, .len rem, .len (136 - rem), .ix rem, .len (136 - rem)] else []) ++
    [.ix pos, .len 7, .br true] ++ Trace.bytes 7 ++ [.br (!a)] ++ (if a then [.ix ci] else []) ++
    uniformRounds (pos + 7) (if a then ci + 1 else ci) as
/-- One uniform polynomial from a seed of `seed` bytes. -/
def uniform (seed : Nat) : Shape := one [.len 8, .len seed, .len 136] ⬝
  fun u => ∃ accepted : List Bool, accepted.count true = 512 ∧ u = uniformRounds 0 0 accepted
/-- The public matrix. -/
def matrix (k l seed : Nat) : Shape := upto k fun r => upto l fun c => uniform seed ⬝ one [.ix (r * l + c)]

/-- Key generation. -/
def generate (P : Par) (d rep u seed : Nat) : Shape :=
  matrix P.k P.l seed ⬝
  upto P.l (fun i => zeroEnc d ⬝ one [.ix i]) ⬝ noiseVec P.l d rep u (P.κ / 8) ⬝
  one (Trace.each1 P.l (Trace.each1 d Trace.ntt) ++ Trace.mulVec P.k P.l d ++ Trace.each1 P.k (Trace.each1 d Trace.intt)) ⬝
  noiseVec P.k d rep u (P.κ / 8) ⬝
  one (Trace.each1 P.k (Trace.decode d) ++ Trace.each1 P.k (Trace.each1 1 Trace.polyOp1))

/-! ### Signing -/

/-- The draws of the challenge sampler: a two-byte word, its coefficient looked at twice, the entry 0 or 1 of the two-entry table (1 if the
position was not drawn before), the coefficient written. -/
def challengeRounds : List Nat → List Nat → List Ev
  | _, [] => [.br false]
  | seen, i :: is => [.br true, .len 2, .br false] ++ Trace.bytes 2 ++ [.ix i, .ix i, .ix (if i ∈ seen then 0 else 1), .ix i] ++
      challengeRounds (i :: seen) is
/-- The challenge polynomial with `ω` nonzero coefficients from a hash of `n` bytes. -/
def challenge (ω n : Nat) : Shape := one [.len 8, .len n] ⬝
  fun u => ∃ draws : List Nat, (∀ i ∈ draws, i < 512) ∧ draws.toFinset.card = ω ∧ u = challengeRounds [] draws

/-- Writing `n ≤ 8` bytes of a word at `off`. -/
def putWord (off n : Nat) : List Ev := [.ix off, .len n, .br (decide (n < 8))] ++ Trace.bytes (min 8 n)
/-- Serialising a public key of `k` rows with a seed of `seed` bytes: seven bytes whenever eight 7-bit coefficients are there. -/
def publicKey (k seed : Nat) : List Ev :=
  [.ix 0, .len seed] ++
  (Trace.upto k fun r => Trace.upto 512 fun c => [.ix r, .ix 0, .ix c] ++
    let j := r * 512 + c
    if 0 < j ∧ j % 8 = 0 then .br true :: putWord (seed + 7 * (j / 8 - 1)) 7 else [.br false]) ++
  .br true :: putWord (seed + 7 * (64 * k - 1)) 7
/-- Hashing the public key (`pk` bytes), then the message (`msg` bytes). -/
def bind (κ pk msg : Nat) : List Ev := [.len pk, .len (2 * κ / 8), .len (2 * κ / 8), .len msg, .len (2 * κ / 8)]
/-- Centering the `k` rows of a vector. -/
def centerVec (k : Nat) : List Ev := Trace.upto k fun r => [.ix r, .ix 0] ++ Trace.polyOp1 ++ [.ix (r * 512), .len 512]

/-- `std::abs` and the two tests on the sign of a coefficient. -/
def signTests (x : Int) : List Ev := [.br (decide (x < 0)), .br (decide (x > 0))] ++ if x > 0 then [] else [.br (decide (x < 0))]
/-- The coefficients of a hint or response, `width` bits each, written to a buffer of `len` bytes of which `off` are full, `bit` bits being
pending: whole bytes are written before the next coefficient; the encoder stops when they do not fit. -/
def encode (width : Int → Nat) (len : Nat) : Nat → Nat → Nat → List Int → List Ev
  | _, _, _, [] => [.br false]
  | off, bit, i, x :: xs => .br true ::
    if bit < 8 then [.br false, .br true, .ix i] ++ signTests x ++ encode width len off (bit + width x) (i + 1) xs
    else if len < off + bit / 8 then [.br true, .br true, .br false]
    else [.br true, .br false] ++ putWord off (bit / 8) ++ [.br true, .ix i] ++ signTests x ++
      encode width len (off + bit / 8) (bit % 8 + width x) (i + 1) xs
/-- The bits of a hint coefficient. -/
def hintWidth (x : Int) : Nat := if x = 0 then 1 else x.natAbs + 2
/-- The bits of a response coefficient. -/
def respWidth (x : Int) : Nat := 40 + if x = 0 then 1 else x.natAbs / 2 ^ 40 + 2
/-- Bytes written and bits pending after the coefficients `xs`. -/
def encodeEnd (width : Int → Nat) : Nat → Nat → List Int → Nat × Nat
  | off, bit, [] => (off, bit)
  | off, bit, x :: xs => if bit < 8 then encodeEnd width off (bit + width x) xs else encodeEnd width (off + bit / 8) (bit % 8 + width x) xs
/-- Not all bytes that have to be written before the last coefficient fit. -/
def overflows (width : Int → Nat) (len : Nat) : Nat → Nat → List Int → Bool
  | _, _, [] => false
  | off, bit, x :: xs => if bit < 8 then overflows width len off (bit + width x) xs
    else decide (len < off + bit / 8) || overflows width len (off + bit / 8) (bit % 8 + width x) xs
/-- Does the signature with a challenge hash of `c` bytes, hint `h` and response `z` fit in `len` bytes? -/
def fits (len c : Nat) (h z : List Int) : Bool :=
  let mid := encodeEnd hintWidth c 0 h
  let fin := encodeEnd respWidth mid.1 mid.2 z
  !overflows hintWidth len c 0 h && !overflows respWidth len mid.1 mid.2 z &&
    !decide (0 < fin.2 ∧ len < fin.1 + (fin.2 + 7) / 8)
/-- The encoder: the hash, the hint, the response, the pending bits, the zero padding; after each part the test whether it fitted. -/
def signature (len c : Nat) (h z : List Int) : List Ev :=
  let mid := encodeEnd hintWidth c 0 h
  let fin := encodeEnd respWidth mid.1 mid.2 z
  let n := (fin.2 + 7) / 8
  [.ix 0, .len c] ++ encode hintWidth len c 0 0 h ++ .br (overflows hintWidth len c 0 h) ::
  if overflows hintWidth len c 0 h then [] else
    encode respWidth len mid.1 mid.2 0 z ++ .br (overflows respWidth len mid.1 mid.2 z) ::
    if overflows respWidth len mid.1 mid.2 z then [] else
      (if 0 < fin.2 then .br true :: if len < fin.1 + n then [.br true] else .br false :: putWord fin.1 n else [.br false]) ++
      if 0 < fin.2 ∧ len < fin.1 + n then [.br true] else [.br false, .ix (fin.1 + n), .len (len - (fin.1 + n))]

/-- The squares and maxima of the norm check: a sign test and a comparison for every hint coefficient; two comparisons and a reduction for every
response coefficient. -/
def norms (h z : List Int) : Shape :=
  loop h.zipIdx (fun x => fun u => ∃ b, u = [.ix x.2, .br (decide (x.1 < 0)), .br b]) ⬝
  loop z.zipIdx (fun x => fun u => ∃ b b', u = [.ix x.2, .br b, .br b'] ++ Trace.barrett)
/-- The three final comparisons of the norm check, with the result `ok`. -/
def verdict (ok : Bool) : Shape := fun u =>
  if ok then u = [.br false, .br false, .br false] else u = [.br true] ∨ u = [.br false, .br true] ∨ u = [.br false, .br false, .br true]

/-- One attempt at signing into `len` bytes; `g` is the signature it makes, `ok` says whether it is released. -/
def attempt (P : Par) (d rep u len : Nat) (g : Sig) (ok : Bool) : Shape :=
  upto P.l (fun i => zeroEnc d ⬝ one [.ix i]) ⬝ noiseVec P.l d rep u (P.κ / 8) ⬝
  one (Trace.each1 P.l (Trace.each1 d Trace.ntt) ++ Trace.mulVec P.k P.l d ++ Trace.each1 P.k (Trace.each1 d Trace.intt)) ⬝
  noiseVec P.k d rep u (P.κ / 8) ⬝
  one (Trace.each1 P.k (Trace.decode d) ++ Trace.each1 P.k (Trace.each1 1 Trace.polyOp1) ++ Trace.chalHash P.k (2 * P.κ / 8) (2 * P.κ / 8)) ⬝
  challenge P.ω (2 * P.κ / 8) ⬝ one Trace.ntt ⬝
  refreshVec P.l d ⬝ refreshVec P.l d ⬝ one (Trace.scale P.l d ++ Trace.each2 P.l (Trace.each2 d Trace.polyOp2)) ⬝ refreshVec P.l d ⬝
  one (Trace.each1 P.l (Trace.decode d) ++ Trace.mulVec P.k P.l 1 ++ Trace.scale P.k 1 ++ Trace.each2 P.k (Trace.each2 1 Trace.polyOp2) ++
    Trace.each1 P.k (Trace.each1 1 Trace.intt) ++ Trace.each1 P.l (Trace.each1 1 Trace.intt) ++ Trace.each1 P.k (Trace.each1 1 Trace.polyOp1) ++
    Trace.each2 P.k (Trace.each2 1 Trace.polyOp2) ++ .len (2 * P.κ / 8) :: centerVec P.k ++ centerVec P.l) ⬝
  one (signature len (2 * P.κ / 8) g.h g.z) ⬝
  if fits len (2 * P.κ / 8) g.h g.z then one [.br false] ⬝ norms g.h g.z ⬝ verdict ok ⬝ one [.br (!ok)] else fun t => t = [.br true] ∧ ok = false
/-- Attempts until one succeeds. -/
def attempts (P : Par) (d rep u len : Nat) : List Sig → Shape
  | [] => fun _ => False
  | [g] => attempt P d rep u len g true
  | g :: gs => attempt P d rep u len g false ⬝ attempts P d rep u len gs
/-- Signing a message of `msg` bytes with a key whose public seed has `seed` bytes. -/
def sign (P : Par) (d rep u seed msg len : Nat) (gs : List Sig) : Shape :=
  one (Trace.each1 P.k (Trace.each1 1 Trace.polyShl) ++ Trace.each1 P.k (Trace.each1 1 Trace.ntt) ++ publicKey P.k seed ++
    bind P.κ (PKey.byteLen P.κ P.k P.νt) msg) ⬝
  matrix P.k P.l seed ⬝ attempts P d rep u len gs

/-! ### Saving and loading keys -/

/-- Packing the `l` rows of one share, 49 bits for each coefficient, from byte `base` on: a coefficient completes six or seven bytes. -/
def packRows (l base : Nat) : List Ev := Trace.upto l fun r => [.ix r, .ix 0] ++ Trace.upto 512 fun i =>
  .ix i :: putWord (base + 3136 * r + 49 * i / 8) (49 * (i + 1) / 8 - 49 * i / 8)
/-- Saving a masked vector: the first share is copied; for each other share a seed is drawn and stored, a polynomial for each row drawn from it
and subtracted, and the share added; the result is packed after the seeds. -/
def compress (κ l d : Nat) : Shape :=
  one (Trace.upto l fun r => [.ix r, .ix 0, .ix r, .ix 0, .ix r]) ⬝
  upto (d - 1) (fun s => one [.len (κ / 8), .ix (s * (κ / 8)), .len (κ / 8)] ⬝
    upto l (fun r => uniform (κ / 8) ⬝ one ([.ix r, .ix 0] ++ Trace.polyOp2 ++ [.ix 0, .ix r])) ⬝
    one (Trace.upto l fun r => [.ix r, .ix (s + 1), .ix r, .ix 0] ++ Trace.polyOp2 ++ [.ix 0, .ix r])) ⬝
  one (packRows l ((d - 1) * κ / 8))
/-- Saving a secret key with `seed` bytes of public seed in `len` bytes: the public key, then the masked vector. -/
def save (κ k l d seed len : Nat) : Shape :=
  one ([.ix 0, .len (κ / 8 + 448 * k)] ++ publicKey k seed ++ [.ix (κ / 8 + 448 * k), .len (len - (κ / 8 + 448 * k))]) ⬝ compress κ l d

/-- Reading `n ≤ 8` bytes at `off` as a word. -/
def getWord (off n : Nat) : List Ev := [.ix off, .len n, .br (decide (n < 8))] ++ Trace.bytes (min 8 n)
/-- Unpacking the rows: every coefficient but the first of eight finds some of its bits in the bytes that were read before. -/
def unpackRows (l base : Nat) : List Ev := Trace.upto l fun r =>
  (Trace.upto 512 fun i => getWord (base + 3136 * r + (49 * i + 7) / 8) ((49 * (i + 1) + 7) / 8 - (49 * i + 7) / 8) ++ [.ix i]) ++ [.ix r, .ix 0, .ix r]
/-- Loading a secret key of `len` bytes: seed and rows of the public key, seven bytes for eight coefficients; the rows of the first share; for
every other share its seed and the polynomials drawn from it. -/
def load (κ k l d len : Nat) : Shape :=
  one ([.ix 0, .len (κ / 8 + 448 * k), .ix 0, .len (κ / 8)] ++
    (Trace.upto (64 * k) fun b => getWord (κ / 8 + 7 * b) 7 ++ Trace.upto 8 fun c =>
      let j := 8 * b + c
      [.ix (j / 512), .ix 0, .ix (j % 512), .ix 0, .ix (j / 512)]) ++
    [.ix (κ / 8 + 448 * k), .len (len - (κ / 8 + 448 * k))] ++ unpackRows l ((d - 1) * κ / 8)) ⬝
  upto (d - 1) fun s => upto l fun _ => one [.ix (s * (κ / 8)), .len (κ / 8)] ⬝ uniform (κ / 8)
end Shape
end Raccoon
