# Formal model of itzmeanjan/raccoon — design

Lean 4.33.0 + Mathlib. Project: `/verif/lean`. The C++ sources are read as text from `/repo` (never built or run).

## 1. Layout

| directory | content |
|---|---|
| `lean/Verif/Model/*`  | the model: one definition per C++ function, each with a comment `file:lines` |
| `lean/Verif/Spec/*`   | small independent specifications (integers, `ZMod q`, bit lists, streams) — no model helper in them |
| `lean/Verif/Proofs/*` | helper lemmas |
| `lean/Verif/Props/*`  | the property theorems `Cxx_…` listed in MANIFEST.json, each followed by a non-vacuity `example` |
| `properties.jsonl`    | the English properties C01, C02, … |
| `seeded/LOG.jsonl`    | wrong programs tried against the theorems |

`Spec/Wire.lean` deserves a first look: it restates the whole signature scheme on byte strings (what a key, a signing attempt, a valid signature is)
in about 60 lines without using any function of the model. `Props/Wire.lean` proves the API of the model against it.

## 2. How the code is modelled

* `uint64_t`/`uint8_t` are `BitVec 64`/`BitVec 8` (wrap-around is the C++ semantics of unsigned arithmetic).
* `int64_t` is `Int` with an explicit range check wherever the code could leave the range: leaving it is the outcome `ub`.
* Undefined behaviour is a distinct outcome: `Res α = ok a | ub | nofuel`. Shifts by >= the width, out-of-range
  array/span accesses and signed overflow give `ub`. `nofuel` is "the unbounded loop has not finished after the given
  number of iterations" (rejection samplers and the signing loop take a fuel argument; theorems quantify over all fuels).
  A theorem of the form "`f x = ok y → …`" therefore covers every terminating, defined execution; the theorems
  C17_…_terminates, C34_defined, C52_*, C53_sign_defined say when an execution is defined and terminates.
* `size_t` loop counters and offsets that provably stay small are `Nat`; the bit counter of `decode_sig`, which can
  underflow, is a 64-bit word.
* In-place mutation becomes a returned value; `for` loops become folds (`forLoop lo hi step`), `while` loops recursion.
* Pointwise loops over all 512 coefficients / all rows / all shares with no cross dependency become `Vector.map`/`zipWith`.
* Headers are 8-byte lists. All dimensions (k, l, d, 𝜅, ω, byte budgets) are parameters of the model just as they are template
  parameters in the code; N = 512 and q are the constants of the code. `raccoon128/192/256 : Par` hold the published values.

## 3. Trusted base

1. Lean's kernel (and that the `.lean` statements mean what their comments say).
2. Axioms: only `propext`, `Classical.choice`, `Quot.sound`. No axiom is declared in the project, no `native_decide`/`bv_decide`, no
   unfinished proof. Most manifest theorems depend on all three (through Mathlib and `omega`/`ring`); about 25 need only `propext` and
   `Quot.sound` or less. `#print axioms` on each manifest theorem gives the exact list.
3. Faithfulness of `Model/*` to the C++ text (checked by reading, function by function; citations in every definition).
4. External code, which is a parameter of the model — every theorem quantifies over all such functions:
   * SHAKE128/SHAKE256 (`sha3` submodule, not in the tree): arbitrary functions `List Byte → Nat → Byte` (absorbed bytes ↦ output
     stream). Assumed: successive `absorb`s concatenate, successive `squeeze`s read consecutive bytes, `reset` clears.
     `shake256::RATE` = 1088 bits.
   * Ascon permutation (`ascon` submodule): an arbitrary function on 5-word states; a default-constructed `ascon_perm_t` is the
     all-zero state, `operator[]` returns a reference into the object it is called on, copying the object copies the words.
   * `subtle::ct_eq`, `ct_ge` (`subtle` submodule): all-ones mask iff `=` / `>=`, else 0.
   * `std::random_device`: an arbitrary 32-byte entropy argument (C79 derives it from the eight words the constructor reads). `std::abs`, `std::max`, `std::countl_zero` per the C++ standard.

### Modelled (every function of these headers, except as listed below)
`math/u64.hpp`, `math/u128.hpp` (both the portable and the `__int128` branch), `math/field.hpp`, `polynomial/poly.hpp`,
`polynomial/challenge.hpp`, `polynomial/masked_poly.hpp`, `polynomial/poly_vec.hpp`, `polynomial/poly_mat.hpp`, `rng/prng.hpp`,
`rng/mrng.hpp`, `utility/utils.hpp`, `utility/params.hpp`, `utility/serialization.hpp`, `public_key.hpp`, `secret_key.hpp`, `signature.hpp`,
`raccoon128.hpp`, `raccoon192.hpp`, `raccoon256.hpp`; `tests/*.cpp`, `tests/test_helper.hpp`, `examples/raccoon256.cpp` (`Model/Tests`); `benchmarks/*.cpp` (`Model/Bench`).

### Not modelled
* Constant time is treated at source level (C66, `Model/Leak*`): a second, instrumented model shows branch outcomes, array indices and buffer lengths; it is proved
  to compute the same results as the model (`C66_same_program`). Not observed: the inside of SHAKE, Ascon and `subtle` (only lengths), compiler-introduced branches, instruction timing.
  `std::max`, `std::abs`, `std::min` and `?:` on run-time data are taken to branch. Wiping of memory is not modelled.
* Observation of intermediate values (C62–C65) covers the computation on shares in `generate`, `sign` and `refresh` (C65: whole histories), not the
  saving and loading of keys (`mask_compress`), nor single steps inside a sampler, nor the order of events in time (for the saving no such statement holds: the masks it subtracts are zero, C26, so the one vector it adds the shares up in is the secret); the observer sees whole ring elements or anything computed from the ones it picked (C65_computed: bits, words, steps inside the transform of a share or its product with something public), and the masks are
  taken as uniform and independent, which the code's generators are only with ideal seeds (C39: the code seeds all of them with zeros). Probability appears
  only by counting (C56, C57, C62–C65): how many byte strings / masks lead to an outcome.
* Memory layout, alignment, stack usage, the machine's byte order (the `reinterpret_cast` in `zq_t::random`, `sampleU` etc. is read as
  little-endian), `constexpr` evaluation limits, `forceinline`.
* `pkey_t::operator==`, `skey_t::operator==`: they call `get_t_mut`, `get_pkey_mut`, `get_s_mut`, which do not exist; a use does not compile.
* Accessors that return spans/references without computing (`get_seed`, `get_c_hash`, `num_rows`, `operator[]`) are field/index accesses in the model.
* Timing and statistics in the benchmarks (what they compute is modelled in `Model/Bench`: C81), printing in the example, the Makefile/CMake. (Tests, `test_helper.hpp` and the example are modelled in `Model/Tests`: C70–C72. A test is the conjunction of its assertions; an `ASSERT` that fails does not end the modelled test early.)

## 4. Properties: what is modelled and how it is proved

| ids | code | method |
|---|---|---|
| C01–C04 | `u128.hpp`, `u64.hpp` | limb functions against arithmetic on `toNat` mod 2^128; divmod by loop invariant (zero divisor included); a second model of the `__int128` branch on `BitVec 128` and agreement |
| C05–C10 | `field.hpp` | cast to `ZMod q`; Barrett error analysis over ℕ; xgcd with the Bezout + determinant invariant, which bounds the coefficients (no overflow); `^` by invariant over the exponent's bits; `<<` with overflow witness |
| C11–C13, C47 | `poly.hpp` NTT | in-place loops → pointwise layer description → layer inverses, evaluation invariant, negacyclic sum; tables by kernel computation on the whole table |
| C14–C16, C49 | rounding, centering, small moduli, equality | per-coefficient arithmetic |
| C17–C19, C50, C51 | samplers, `expandA`, mask sampler | buffered sampler refines an unbuffered stream specification |
| C20–C23, C38 | `masked_poly.hpp`, `poly_vec.hpp` | invariants over the share loops; sum of shares in `ZMod q`; histories by induction |
| C24–C31, C44 | `serialization.hpp` | bit lists; encoder invariant "written bytes ++ buffered bits = specified bits so far", decoder dual; canonicity from the failing leftovers; exact characterisation of success, failure and undefined behaviour of encoder and decoder over bit positions (`Spec/SigWindow`, `Props/SigExact`) |
| C32 | `check_bounds` | integer bounds on the accumulators |
| C33–C37, C41, C52, C53 | `sign`, `verify`, `generate`, API | composition of the above, induction over signing attempts; then transported to the byte level specification (`…_wire…` theorems) |
| C39, C40, C48 | `mrng.hpp`, `prng.hpp`, hash buffering | state invariants over read histories; buffered absorb = concatenation; injectivity of the framing |
| C55 | every budgeted loop | order on results (`nofuel` below everything); all operations are monotone in the budget |
| C56 | all samplers | counting: rejection sampling by induction on the number of words; the challenge by a group action of signed permutations on the words; the noise sampler as a product |
| C57 | `zero_encoding`, `refresh` | the shares are a homomorphism of the masks; its image is all sharings of zero because the schedule's edges connect the hypercube; fibres are cosets |
| C58, C59, C61 | `verify`, `sign` | from the byte-level characterisations (C34, C53): injectivity of every encoding, triangle inequality of the rounding; for C61 x^512 + 1 is the 1024th cyclotomic polynomial, irreducible over the integers (Mathlib), so multiplication by c − c' ≠ 0 is injective |
| C60 | all hash uses | congruence of each function in the hash, on inputs with its first byte |
| C62 | `zero_encoding`, `refresh` | every value is linear in shares and masks; by induction over the recursive halving structure of the schedule, a change of the input outside few shares can be compensated by a change of masks that is invisible at the observed places |
| C63, C64 | `sign` (response), `add_rep_noise` | composition of C62: the change is moved into one unobserved share after each refresh; equal counts by translating the masks |
| C65 | `generate`, `sign`, `refresh`, any history of calls | linearity of every place in noise and masks; per phase the change of noise is moved into one share of the secret that no later observation touches, then out again in the response; equal counts by translating the masks. Link to the code (`C65_history`, `C65_places`) by inverting each run row by row and by induction over attempts and calls |
| C66 | `generate`, `sign`, `refresh`, saving, loading, comparisons | instrumented model with a trace of observations; erasure to the plain model; relational proof: two runs from unrelated secrets keep related public data and equal traces, by induction over all loops; runs with different loop budgets are compared by monotonicity; conversely the trace is self-delimiting: it is read from the front to recover what each attempt showed; `Spec/Trace` lists the observations of each function in closed form, written from the C++ loops, and `C66_observed_*` prove that the instrumented functions show exactly these (loop invariants on write offsets and pending bits), so an observation forgotten in the instrumentation is an error in a proof |
| C67 | `verify` under one-point changes of the hash function | C34's exact decision; the last hashed string is fixed by key, message, matrix and challenge, which do not move (domain bytes, lengths); forking from C59's special soundness |
| C68 | `zero_encoding`, `refresh` of vectors over tables of generator words | scanning a word either skips it or delivers a wanted value, with the same number of words for every value: by induction on the word budget the tables that deliver given masks are in bijection with those that deliver any other masks (`scan_same`, `runs_same`); the code draws what the scan says (`drawn_runs`); then C57's count of masks |
| C69 | `from_bytes`, `to_bytes`, `refresh`, `sign` on keys loaded from *any* byte string (`fileSecret`, `filePublic`, `fileSeeds` in Props/KeyFile, KeyFileDemo) | the invariant `Loose` (share 0 below 2^49, other shares reduced) is kept by refresh and save; addition and Barrett multiplication are still right on such operands; a relational proof (`resRel`) shows that `sign` only sees the value of the sharing; the undefined files: z = K·c + r has a coefficient of at least 64·2^40 at the first non-zero challenge coefficient and everything before it fits in the buffer |
| C70–C72 | the repository's tests, `random_bitflip`, the example (`Model/Tests`, specification `Spec/Tests`) | C70: bit-vector identity per byte and bit, Chinese remaindering for the reach; C71: the earlier theorems on field, u128, gadgets, codecs, with invariants over the test loops; C72: invariant over the rounds (the key is `Derived`, C33 gives acceptance, C58/C59 turn an accepted spoilt input into a break, C34 the undefined case); `C72_flip_trap` by the one-point reprogramming of C67; `demo_signing_test` runs the whole test with toy functions |
| C73 | noise words of an attempt (`attemptWords`, `signedSum`, `RareSum` in `Spec/Extreme`) | C53 restated on the words; counting: extreme sums by symmetry reduce to one side, words truncated to 6–7 leading bits, exponential (Chernoff) bound in natural numbers, one numeric inequality checked by the kernel; up to four shares an injection into (90113)^8; the converse and the undefined runs through `C52_first_acceptable` and `EncTrap`, with two toy instances of the external functions |
| C74 | responses of attempts as secret contribution plus noise words (`Spec/Flood`) | attempt theorem from C34/C73; counting: a shift of one coordinate by δ changes one noise word by adding δ modulo 2^uw, so the counts differ by at most the tables that wrap around; summed over the coordinates |
| C75 | transcripts of N attempts with and without secret (`Spec/Simulate`) | a r + e = a z − c b + (c e₀ + e) in the ring, so signer and simulator apply one function to noise with and without a shift; counting of C74; oracle answers at different points counted as independent values (product of finite sets) |
| C76 | attempts with a generated key (`IsAttempt`), `Acceptable` | size of the response from C74's bound on the secret and the size of the noise; numeric comparison with the published bounds; `C52_wire_exhausts_iff` for `sign` |
| C77 | key objects made through the API, refreshed, used by `sign` (`Spec/PublicMasks`) | fresh generators always start in the same state, so the i-th encoding of zero of any call is the same one (determinism of the gadgets, fuel monotonicity); count the encodings consumed by each step of `generate`, `refresh`, `sign` |
| C78 | `generate`, `refresh`, `sign` with the mask generators' initial state as an argument and with another Ascon (`Spec/MaskGen`; the library is the instance `Mrng.new`, by definition) | the exact characterisations of key generation and of the attempts of `sign` do not mention the generators; attempts are determined by key value, message and entropy (C52), so two calls that end accept the same attempt |
| C79 | `prng_t()` with the words of `std::random_device` as argument (`Model/Extra.Prng.newDefault`); noise of the key and of the first attempt from one stream (`Spec/Masked`, `Spec/Wire`) | loop invariant for the seed; the narrow noise is the low byte of the wide noise at the same stream position, so the sums agree modulo 2^ut; composition with the exact description of `sign` (C36) |
| C80 | the operators of `masked_poly_t` (`Model/Masked`), value = sum of the shares | linear ones share by share; for the others two sharings of one value with different results |
| C81 | the three benchmarks (`Model/Bench`), number of rounds as argument | invariants over the rounds from C25, C33, C35, C37, C52 |
| C82 | games of an attacker with chosen messages and hash queries (`Spec/Adaptive`); the schedule of signing and hash steps is fixed in advance (pad with idle steps otherwise), games in which a pair is hashed twice are not counted on either side | the shift argument of C75 under the adaptive run (`game_close`: for given hash values the run is a function of responses and errors); oracle answers at points chosen along the way, counted fibrewise (`oracle_count_adaptive`) |
| C83 | the games of C82 run twice, with new hash values from some hash query on (`Spec/Forking`); that short relations are hard to find is an assumption outside the model, as is the uniformity of SHAKE256 | the general forking lemma by counting (`forking`: Cauchy–Schwarz over coins and answers before the fork, and over the hash queries); two games agree up to the fork (`play_prefix`), so both forgeries are answers for one commitment; subtraction (C59); with C82 from the signer to the simulator; number of challenges by a bijection with (support, signs) |
| C84 | collisions between commitments counted over matrix and noise (`Spec/Entropy`); attackers that do not repeat hash queries | for two noise words: their difference in one row of the mask is zero in more than half of the NTT slots for few of them only (a polynomial with zeros in m slots and zero low coefficients is zero: `zeros_low`; modulo both primes of q), else a·δ + c falls into the box of close commitments for one 4^−(256k)-th of the matrices only (`mul_count`, `mat_count`: unit slots, then the same fact again); averaging over matrices (`markov`); a signing attempt's words are independent of the game before it (`splitRow`, `play_prefix`); union bound over pairs of steps; C83 |
| C85 | SHAKE256 answering the queries of a seed's matrix by independent byte strings (`Spec/MatrixOracle`) | the queries of different entries differ (`header_inj`, dimensions ≤ 256), so the strings that give a matrix are a product over the entries (`withMatrix_gives`, `card_pi2`), each factor of the size C56 gives, whatever the entry; the transform is a bijection; sets by summation (`card_sigma_set`); C84 for expanded matrices |
| C86 | collisions between public vectors, as C84 with the smaller noise of key generation (`Spec/KeyEntropy` for the words) | as C84 with other numbers: a noise difference is a unit in fewer than 24 slots for one 2^463-th of the noise (244 zeros modulo one prime, at least 4 bits for each), else two keys agree for one 16^−(24k)-th of the matrices (`key_bad`, `key_coll`); then `markov` with 462 = 2·128 + 206; expanded matrices by C85 |
| C87 | the game for unforgeability without conditions on hash queries (`Spec/Unforgeable`: `Wins`; the careful and finishing attacker are explicit definitions there) | the careful attacker keeps a log of hash values and replaces a repeated query by a new one (`careful_view`: what it passes on is the game, step by step; `careful_forges`: an unsigned digest was asked in a hash step); one more step for the forgery's own hash value, one more row of noise (`firstRows_card`); then C84. Attackers that choose between signing and hashing as they go (`Spec/Anytime`) are played on a timetable with a slot for every possible order of steps (`scheduled_view`: what they are shown there is their own game) |
| C88 | attackers of the interface, exchanges with the code, and the game made from an attacker (`Spec/Exchange`: `ApiAttacker`, `IsExchange`, `ApiAttacker.free`); that the challenge hash is a random oracle and the noise words random is the usual idealisation, not proved | the answers heard in the game are those of the exchange, call by call and attempt by attempt (`exchange_phase`, on C36); an attempt is shown iff the code releases it, as the same bytes (`attempt_shows`, uniqueness of hint and encoding); then C34, C87 |
| C89 | strong wins (`Spec/Strong`): valid, and (digest, commitment, hash value, response) not those of a signing attempt; short vector with short image and its explicit bounds | a strong win is a win as in C87 or a second answer to an attempt (`strong_split`); second answers survive timetable and care (`scheduled_reanswers`, `careful_reanswers`), any event transfers to the simulator (`C89_transfer`, on C82 and C84), and there it is a short vector (`C89_short`, `answers_short`: rounding bounds, hints ≤ 2) |
| C90 | C88 and C89 put together into one bound on the fraction of strong wins (the square root as any y with y² ≥ Q p₁) | `fork_solve` (solving the forking bound for δ), C88_unforgeable, C89_unforgeable; C90_key (on C37) for generated keys |
| C91 | as C74 (`respCount`, `contribution`), now with a factor in place of a distance | the number N(x) of families of τ words with sum x obeys (x+1) N(x+1) ≤ (x+τ) N(x) (count pairs of a family and a unit taken from one of its words) and is symmetric, so a shift by c costs at most ((D+τ)/D)^c at distance D + c from both ends; tables with a row nearer to an end have all words of the row near the end; product over the coefficients (`Proofs/Odds`), Bernoulli for the factor 2 |
| C92 | the games of C82–C90 (no new game; `fewBits` is the only new definition) | the counting of C91 for the responses of an attempt, and for the error words, under the adaptive run (`game_odds`), then transfer, forking and second answers of C87–C89 with a factor in place of a distance. The factor 2 per attempt is Bernoulli with D large; a factor 2^(1/g) would cost about rep·d·log₂ g bits of f |
| C42, C43, C45, C46 | `params.hpp`, sizes, helpers | decision over all naturals / arithmetic |

Where the code violates what its documentation promises, the property states what is promised and what holds, and we prove the latter together
with a witness. All of C01–C92 are proved; no theorem carries the suffix `_partial`.

## 5. Findings (facts about the code that came out of the proofs)

1. `mask_compress`/`mask_decompress` discard the result of the static `sampleQ`: serialised secret keys carry the **unmasked** secret (C26).
2. `mrng_t`'s constructor initialises a copy of the state: all mask generators of all objects yield one fixed sequence (C39); `refresh` adds the same constant every time.
3. `-zero()` has raw value q, so `-zero() != zero()` (C06). All uses are harmless: `a + (-b)` is canonical.
4. `zq_t::operator<<` loses bits when x·2^off ≥ 2^64 (C10); the library's own uses are below that.
5. `__int128` build: `rotl(0)`/`rotr(0)` shift by 128 (undefined) though documented as allowed (C04).
6. `is_power_of_2(0)` is true (C46).
7. `decode_sig`, hence `verify`, is undefined on some byte strings an adversary can send (C30): a long unary run makes the code shift by ≥ 64.
8. `encode_sig` is undefined (not merely failing) on large coefficients that the norm bounds admit (C31); every encoding reported successful is lossless (C27), which makes C33 unconditional.
9. Public/secret key `operator==` do not compile when used.
10. `rounding_shr` is correct for shifts ≤ 47 only (C14_limit); 42 and 44 are used.
11. The ∞-norm test on z in `verify` can never be what rejects (C31_inf_check_vacuous).
12. `check_bounds` calls `std::abs` on `INT64_MIN` if h contains it (undefined; C32_int64_min) — unreachable from `decode_sig`.
13. Sign→verify correctness does not need the secret to match the public key (C33_wire_correct holds for every secret): validity of the equation is by construction of the hint.
14. Signing can itself reach the undefined case of `encode_sig` for extreme noise: a last coefficient |z| ≥ 8·2^40 (final flush shifts by 64) or any coefficient ≥ 15·2^40. C53_sign_defined / C53_wire state the necessary condition; C73 counts how rare it is (last coefficient: at most 2^−15 of the word families with 32 shares, 2^−16 with 8 or 16, 2^−195 with up to 4) and exhibits undefined runs with 32 shares and with one.
15. `decode_sig` may reject or be undefined on encodings with |z| between 15·2^40 and Binf, depending on bit alignment; hence the hypothesis |z| < 15·2^40 in C34_wire_complete; C34_wire_accepts_iff and C34_wire_undefined_iff give the exact condition.
    In `sign`, an attempt that would be rejected by the norm check can still make the encoder undefined, because encoding comes first: C52_wire_undefined_iff.
16. 128-bit division by zero is defined and silent: 0/0 = 1 rem 0, n/0 = 2^(bit length of n) − 1 rem n (C02_zero_divisor).
17. `mask_decompress` accepts out-of-range share words (49 bits ≥ q) — the decoded key is then not canonical (C25 covers the canonical ones, C69 all of them).
18. `zq_t::random` is biased (C56_random_biased): it reduces 64 uniform bits modulo q.
19. The hashes of the public key and of the message (`tr`, `μ`) carry no domain byte, unlike all other hash inputs (C60); C58 shows what that means for binding.
20. C57 (hiding by refresh) is a statement about uniform masks. Because of finding 2 the code's own generators do not deliver them: all are in the same, public state.
21. `sign` is const and refreshes a copy: the refreshed sharing of the secret is dropped, so every call starts from the same stored shares until the caller calls `refresh` (C65_sign_restarts); one observed share per call reveals the secret after d calls (C65_same_sharing).
22. `sign` encodes an attempt before it checks the norms, and the encoder branches on the sign of every coefficient: the signs of hint and response of attempts that are then rejected show in control flow (C66_encoder_shows_signs; C66_sign_shows for whole runs of `sign`). For released attempts these are public anyway (C66_sign_released).
23. Key files are not canonical and not validated: the 49-bit fields matter only modulo q and the seeds not at all (C69_sign_same), so different files are the same key; and a file with a constant first row in the middle of the range makes *every* call of `sign` undefined (C69_corrupt_undefined), because the encoder runs before the norm check.
24. `random_bitflip` takes byte and bit index from the same random word: only 1/8 of the bits of a public key and 1/8, 1/4 or 1/2 of those of a signature (192, 128, 256) can ever be flipped by the tests (C70_coverage).
25. `ArithmeticOverU128` is undefined behaviour when built with `__int128` (rotation by 0 in its first iteration, C71_i128_undefined). A bit flipped by the signing tests can lead `verify` into undefined behaviour (C72_flip_trap).
26. `test_refresh_and_decoding_gadgets` calls the static `poly_vec_t::zero_encoding` through an object and discards the result: `v` is still the zero vector, so the assertion after it tests nothing, and the test passes with any (wrong) `zero_encoding` (C71_gadgets_blind).
27. As a consequence of the constant mask generators (finding on C39) refreshing gives no protection against an observer that collects one share at a time: the masks of all refreshes, of all attempts of all signatures and of all keys are rows of one public table (C77). Share 0 of a key that was loaded from bytes is the secret plus a public value for the rest of its life.
28. The mask-generator bug cannot be found by known-answer tests: with any initial generator states and any Ascon in place of the library's, public keys and signatures are the same bytes (C78). Only a test of the generator or of the shares themselves can see it.
29. `generate` and `sign` draw noise under the same labels from the start of their streams: nothing but the entropy separates them. With a repeated seed the low bits of the secret reappear in the first attempt's mask (C79).
30. `masked_poly_t::operator*` ("multiplies two (un)masked polynomials") multiplies share by share: with two or more shares the result is not a sharing of the product, nor of any function of the values; the same goes for masked `rounding_shr` (C80). The library itself uses them unmasked only.
31. What the simulation costs depends on how it is measured. As a distance (C74, C82–C90) the noise costs 2^−16 to 2^−10 for each attempt, so those bounds say something for up to 2^10 to 2^16 attempts only and nothing about rarer events; as a factor (C91, C92) it costs a factor two for each attempt and all but 2^−70 or less of the noise, which covers rare events but few attempts. (Raccoon's own argument uses a Rényi divergence between the two, which is not formalised here; none of these bounds alone covers 2^64 signatures.)
