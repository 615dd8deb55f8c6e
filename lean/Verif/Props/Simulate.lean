import Verif.Proofs.Simulate
import Verif.Props.Flood
/-!
# C75: signing attempts can be simulated without the secret
-/
namespace Raccoon
attribute [-instance] Monoid.toNPow
open Finset

theorem errorWords_sum (P : Par) (E : Ext) (d : Nat) (hd : ValidShares d) (entropy : List U8) (n : Nat) (j : Fin P.k) (c : Fin 512) :
    ephemeralE P E d entropy n j c = signedSum (uwOf d) (attemptErrorWords P E d entropy n j c) := by
  have hu : 0 < uwOf d := by
    obtain ⟨m, hm, rfl⟩ := hd
    rcases (by omega : m = 0 ∨ m = 1 ∨ m = 2 ∨ m = 3 ∨ m = 4 ∨ m = 5) with rfl | rfl | rfl | rfl | rfl | rfl <;> decide
  unfold ephemeralE noiseVec totalNoise signedSum
  rw [Fintype.sum_prod_type, Finset.sum_range]
  refine Finset.sum_congr rfl fun r _ => ?_
  rw [Finset.sum_range]
  refine Finset.sum_congr rfl fun s _ => ?_
  unfold attemptErrorWords
  rw [signedWord_bmod hu]
  rfl

/-- C75: the attempts of the code are runs of `signerRun`. For any number of signing attempts with a generated key (secret s, error e₀, public vector t = ⌊a s + e₀⌉): the
commitments and responses are those of `signerRun` on the noise words of the attempts, the hash values are the hashes of commitment and message digest, the hints are
determined by commitment, response and hash value; challenges have weight ω, secret and error are at most rep·d·2^(ut−1). -/
theorem C75_attempts (P : Par) (hν : 0 < q / 2 ^ P.νw) (E : Ext) (d : Nat) (hd : ValidShares d) (seed entropy0 pkb : List U8) (hk : IsKeyOf P E d seed entropy0 pkb)
    (N : Nat) (msg entropy : Fin N → List U8) (num : Fin N → Nat) (cHash : Fin N → List U8) (h z : Fin N → List Int)
    (g : ∀ n, IsAttempt P E d pkb (keySecret P E d entropy0) (msg n) (entropy n) (num n) (cHash n) (h n) (z n)) :
    ∃ (t : Fin P.k → Fin 512 → Nat) (a : Fin P.k → Fin P.l → RPoly) (ch : List U8 → Fin 512 → Int), IsPkOf P seed t pkb ∧ IsMatrixOf E seed a ∧
      (∀ r i, t r i = roundZ P.νt (publicB a (keySecret P E d entropy0) (keyError P E d entropy0) r i)) ∧
      (∀ n, IsChallengeOf E P.ω (cHash n) (ch (cHash n)) ∧ ∑ i, |ch (cHash n) i| = P.ω) ∧
      (∀ j x, |keySecret P E d entropy0 j x| ≤ repOf d * d * 2 ^ (utOf P.κ d - 1)) ∧ (∀ j x, |keyError P E d entropy0 j x| ≤ repOf d * d * 2 ^ (utOf P.κ d - 1)) ∧
      ∀ n, ∃ w : Commitment P.k P.νw,
        signerRun hν a (keySecret P E d entropy0) ch cHash (attemptTable P E d entropy num) n = (w, cHash n, unflatten P.l (z n)) ∧
        cHash n = challengeHash E P.κ (fun i x => (w i x).val) (messageHash E P.κ pkb (msg n)) ∧
        (∀ r i, (unflatten P.k (h n) r i - (((w r i).val : Int) - commitY P.νw P.νt a (fun r i => (t r i : ZMod q)) (toR (ch (cHash n))) (vecR (unflatten P.l (z n))) r i)) %
          (q / 2 ^ P.νw : Nat) = 0) ∧ ∀ x ∈ h n, 2 * x.natAbs < q / 2 ^ P.νw := by
  obtain ⟨t, a, hpk, hA, ht⟩ := hk
  have hut : 0 < utOf P.κ d := by
    obtain ⟨m, hm, rfl⟩ := hd
    unfold utOf
    rcases (by omega : m = 0 ∨ m = 1 ∨ m = 2 ∨ m = 3 ∨ m = 4 ∨ m = 5) with rfl | rfl | rfl | rfl | rfl | rfl <;> norm_num
  classical
  have hc : ∀ n, ∃ c, IsChallengeOf E P.ω (cHash n) c := fun n => by
    obtain ⟨_, _, _, c, _, -, -, hc, -⟩ := g n
    exact ⟨c, hc⟩
  refine ⟨t, a, fun b => if hb : ∃ c, IsChallengeOf E P.ω b c then hb.choose else 0, hpk, hA, ht, fun n => ?_, ?_, ?_, fun n => ?_⟩
  · have hcn : IsChallengeOf E P.ω (cHash n) (hc n).choose := (hc n).choose_spec
    simp only [dif_pos (hc n)]
    refine ⟨hcn, ?_⟩
    obtain ⟨F, hF⟩ := hcn.chalPoly
    obtain ⟨cp, k1, -⟩ := hF F (Nat.le_refl _)
    rw [hcn.unique (isChallengeOf_of k1)]
    exact chal_weight k1
  · exact fun j x => totalNoise_bound E (utOf P.κ d) P.κ d (repOf d) P.l hut (E.shake128 entropy0) 0 j x
  · exact fun j x => totalNoise_bound E (utOf P.κ d) P.κ d (repOf d) P.k hut (E.shake128 entropy0) _ j x
  · have hcn : IsChallengeOf E P.ω (cHash n) (hc n).choose := (hc n).choose_spec
    simp only [dif_pos (hc n)]
    obtain ⟨seed', t', a', c, w, hpk', hA', hc', hw, hch, -, -, hz, hh, hb⟩ := g n
    obtain ⟨rfl, rfl⟩ := hpk.unique hpk'
    obtain rfl := hA.unique hA'
    rw [hc'.unique hcn] at hz hh
    have hm : maskOf (attemptTable P E d entropy num) n = ephemeralR P E d (entropy n) (num n) := by
      funext j x
      rw [C73_words P E d hd]
      rfl
    have he : errorOf (attemptTable P E d entropy num) n = ephemeralE P E d (entropy n) (num n) := by
      funext j x
      rw [errorWords_sum P E d hd]
      rfl
    have hww : (fun i x => ((signerW P.νw hν a (ephemeralR P E d (entropy n) (num n)) (ephemeralE P E d (entropy n) (num n)) i x).val)) = w := hw.symm
    refine ⟨signerW P.νw hν a (ephemeralR P E d (entropy n) (num n)) (ephemeralE P E d (entropy n) (num n)), ?_, ?_, ?_, hb⟩
    · unfold signerRun
      rw [hm, he]
      simp only [dif_pos (hc n)]
      rw [hz]
    · rw [hww]; exact hch
    · intro r i
      have : (signerW P.νw hν a (ephemeralR P E d (entropy n) (num n)) (ephemeralE P E d (entropy n) (num n)) r i).val = w r i := congrFun (congrFun hww r) i
      rw [this]
      exact hh r i

/-- The numbers: how far one attempt can be from its simulation. -/
theorem sim_numbers (P : Par) (hP : P = raccoon128 ∨ P = raccoon192 ∨ P = raccoon256) (d : Nat) (hd : ValidShares d) :
    (P.l + P.k) * 512 * (P.ω * (repOf d * d * 2 ^ (utOf P.κ d - 1))) * 2 ^ floodBits P d ≤ 2 ^ uwOf d := by
  obtain ⟨m, hm, rfl⟩ := hd
  rcases hP with rfl | rfl | rfl <;>
    rcases (by omega : m = 0 ∨ m = 1 ∨ m = 2 ∨ m = 3 ∨ m = 4 ∨ m = 5) with rfl | rfl | rfl | rfl | rfl | rfl <;> decide +kernel

/-- C75: simulation for given hash values. For any matrix, secret and error of the size keys have and any hash values with challenges of weight ω: over all tables of noise
words, the signer's transcripts (commitment, hash value, response) of N attempts fall into any set T as often as the simulator's, which are made from a s + e₀ without the
secret, up to N·2^−16, 2^−14, 2^−12 for Raccoon-128 with up to 4, up to 16, 32 shares, N·2^−14, 2^−12, 2^−10 for the others. -/
theorem C75_simulated (P : Par) (hP : P = raccoon128 ∨ P = raccoon192 ∨ P = raccoon256) (hν : 0 < q / 2 ^ P.νw) (d N : Nat) (hd : ValidShares d) (C : Type)
    (a : Fin P.k → Fin P.l → RPoly) (s : Fin P.l → Fin 512 → Int) (e₀ : Fin P.k → Fin 512 → Int)
    (hs : ∀ j x, |s j x| ≤ repOf d * d * 2 ^ (utOf P.κ d - 1)) (he : ∀ j x, |e₀ j x| ≤ repOf d * d * 2 ^ (utOf P.κ d - 1))
    (ch : C → Fin 512 → Int) (hch : ∀ c, ∑ i, |ch c i| = P.ω) (c : Fin N → C) (T : Set (Fin N → Commitment P.k P.νw × C × (Fin P.l → Fin 512 → Int))) :
    |((Nat.card {W : NoiseTable N P.l P.k (uwOf d) (Fin (repOf d) × Fin d) // signerRun hν a s ch c W ∈ T} : Nat) : Int) -
        (Nat.card {W : NoiseTable N P.l P.k (uwOf d) (Fin (repOf d) × Fin d) // simulatorRun hν a (publicB a s e₀) ch c W ∈ T} : Nat)| * 2 ^ floodBits P d ≤
      N * (Fintype.card (NoiseTable N P.l P.k (uwOf d) (Fin (repOf d) × Fin d)) : Nat) := by
  have hu : 0 < uwOf d ∧ 0 < repOf d ∧ 0 < d := by
    obtain ⟨m, hm, rfl⟩ := hd
    rcases (by omega : m = 0 ∨ m = 1 ∨ m = 2 ∨ m = 3 ∨ m = 4 ∨ m = 5) with rfl | rfl | rfl | rfl | rfl | rfl <;> decide
  have h := run_close hu.1 ((⟨0, hu.2.1⟩, ⟨0, hu.2.2⟩) : Fin (repOf d) × Fin d) hν a s e₀ P.ω (repOf d * d * 2 ^ (utOf P.κ d - 1)) ch hch
    (fun j x => by push_cast; exact hs j x) (fun j x => by push_cast; exact he j x) c T
  have hn := sim_numbers P hP d hd
  generalize |((Nat.card {W : NoiseTable N P.l P.k (uwOf d) (Fin (repOf d) × Fin d) // signerRun hν a s ch c W ∈ T} : Nat) : Int) -
        (Nat.card {W : NoiseTable N P.l P.k (uwOf d) (Fin (repOf d) × Fin d) // simulatorRun hν a (publicB a s e₀) ch c W ∈ T} : Nat)| = D at *
  generalize Fintype.card (NoiseTable N P.l P.k (uwOf d) (Fin (repOf d) × Fin d)) = X at *
  generalize hK : (P.l + P.k) * 512 * (P.ω * (repOf d * d * 2 ^ (utOf P.κ d - 1))) = K at *
  rw [Nat.mul_assoc, hK] at h
  have hp : (0 : Int) < 2 ^ uwOf d := by positivity
  refine le_of_mul_le_mul_right ?_ hp
  have hn' : ((K * 2 ^ floodBits P d : Nat) : Int) ≤ ((2 ^ uwOf d : Nat) : Int) := by exact_mod_cast hn
  push_cast at hn' h
  have hX : (0 : Int) ≤ (N : Int) * X := by positivity
  calc D * 2 ^ floodBits P d * 2 ^ uwOf d = D * 2 ^ uwOf d * 2 ^ floodBits P d := by ring
    _ ≤ (N : Int) * K * X * 2 ^ floodBits P d := mul_le_mul_of_nonneg_right h (by positivity)
    _ = (N : Int) * X * (K * 2 ^ floodBits P d) := by ring
    _ ≤ (N : Int) * X * 2 ^ uwOf d := mul_le_mul_of_nonneg_left hn' hX

/-- C75: simulation with a random oracle. The hash values of N attempts are now the answers of an oracle on (message digest, commitment), the digests being different from each
other; count over all tables of noise words and all oracles. The transcripts fall into any set T as often (relative to the number of tables and oracles) as simulated
transcripts over all tables and all N-tuples of hash values, up to the same distance. -/
theorem C75_oracle (P : Par) (hP : P = raccoon128 ∨ P = raccoon192 ∨ P = raccoon256) (hν : 0 < q / 2 ^ P.νw) (d N : Nat) (hd : ValidShares d)
    (C D : Type) [Fintype C] [DecidableEq C] [Fintype D] [DecidableEq D]
    (a : Fin P.k → Fin P.l → RPoly) (s : Fin P.l → Fin 512 → Int) (e₀ : Fin P.k → Fin 512 → Int)
    (hs : ∀ j x, |s j x| ≤ repOf d * d * 2 ^ (utOf P.κ d - 1)) (he : ∀ j x, |e₀ j x| ≤ repOf d * d * 2 ^ (utOf P.κ d - 1))
    (ch : C → Fin 512 → Int) (hch : ∀ c, ∑ i, |ch c i| = P.ω) (μ : Fin N → D) (hμ : Function.Injective μ)
    (T : Set (Fin N → Commitment P.k P.νw × C × (Fin P.l → Fin 512 → Int))) :
    |((Nat.card {x : NoiseTable N P.l P.k (uwOf d) (Fin (repOf d) × Fin d) × (D × Commitment P.k P.νw → C) // oracleRun hν a s ch μ x.2 x.1 ∈ T} : Nat) : Int) *
          (Fintype.card (Fin N → C) : Nat) -
        (Nat.card {x : NoiseTable N P.l P.k (uwOf d) (Fin (repOf d) × Fin d) × (Fin N → C) // simulatorRun hν a (publicB a s e₀) ch x.2 x.1 ∈ T} : Nat) *
          (Fintype.card (D × Commitment P.k P.νw → C) : Nat)| * 2 ^ floodBits P d ≤
      N * (Fintype.card (NoiseTable N P.l P.k (uwOf d) (Fin (repOf d) × Fin d)) : Nat) * (Fintype.card (Fin N → C) : Nat) * (Fintype.card (D × Commitment P.k P.νw → C) : Nat) := by
  have h1 := oracle_count (Ω := NoiseTable N P.l P.k (uwOf d) (Fin (repOf d) × Fin d)) (A := D × Commitment P.k P.νw) (C := C)
    (fun W n => (μ n, signerW P.νw hν a (maskOf W n) (errorOf W n))) (fun W n m e => hμ (Prod.mk.inj e).1) (fun W c => signerRun hν a s ch c W ∈ T)
  have hC : Fintype.card (Fin N → C) = Fintype.card C ^ N := by rw [Fintype.card_fun, Fintype.card_fin]
  rw [← hC] at h1
  have h1' : ((Nat.card {x : NoiseTable N P.l P.k (uwOf d) (Fin (repOf d) × Fin d) × (D × Commitment P.k P.νw → C) // oracleRun hν a s ch μ x.2 x.1 ∈ T} : Nat) : Int) *
      (Fintype.card (Fin N → C) : Nat) = (Nat.card {x : NoiseTable N P.l P.k (uwOf d) (Fin (repOf d) × Fin d) × (Fin N → C) // signerRun hν a s ch x.2 x.1 ∈ T} : Nat) *
      (Fintype.card (D × Commitment P.k P.νw → C) : Nat) := by exact_mod_cast h1
  rw [h1', ← sub_mul, abs_mul, abs_of_nonneg (Int.natCast_nonneg (Fintype.card (D × Commitment P.k P.νw → C))),
    card_pairs (fun W c => signerRun hν a s ch c W ∈ T), card_pairs (fun W c => simulatorRun hν a (publicB a s e₀) ch c W ∈ T), ← Finset.sum_sub_distrib]
  rw [mul_right_comm]
  refine mul_le_mul_of_nonneg_right ?_ (Int.natCast_nonneg _)
  refine le_trans (mul_le_mul_of_nonneg_right (Finset.abs_sum_le_sum_abs _ _) (by positivity)) ?_
  rw [Finset.sum_mul]
  refine le_trans (Finset.sum_le_sum fun c _ => C75_simulated P hP hν d N hd C a s e₀ hs he ch hch c T) ?_
  rw [Finset.sum_const, Finset.card_univ, nsmul_eq_mul, mul_comm]

/-- Non-vacuity of `C75_attempts`: three signing attempts on three messages with the key of the toy run of `Props/Demo.lean`. -/
example (entropy0 seed : List U8) (hseed : seed.length = 16) (msg entropy : Fin 3 → List U8) :
    ∃ (pkb : List U8) (num : Fin 3 → Nat) (c : Fin 3 → List U8) (h z : Fin 3 → List Int), 0 < q / 2 ^ raccoon128.νw ∧ IsKeyOf raccoon128 demoE 2 seed entropy0 pkb ∧
      ∀ n, IsAttempt raccoon128 demoE 2 pkb (keySecret raccoon128 demoE 2 entropy0) (msg n) (entropy n) (num n) (c n) (h n) (z n) := by
  have hP : raccoon128 = raccoon128 ∨ raccoon128 = raccoon192 ∨ raccoon128 = raccoon256 := Or.inl rfl
  obtain ⟨sk0, -, -, -, -, h0, -⟩ := demo_run entropy0 seed [] [] [] hseed
  have hwf := C37_wellformed raccoon128 hP demoE 512 2 demo_d entropy0 seed hseed sk0 h0
  obtain ⟨pkb, hpk⟩ := pkBytes_ok raccoon128 hP sk0.pkey hwf.pkey.seed
  have hk := C37_wire raccoon128 hP demoE 512 2 demo_d entropy0 seed hseed sk0 h0 _ pkb List.length_replicate hpk
  have key : ∀ n, ∃ num c h z, IsAttempt raccoon128 demoE 2 pkb (keySecret raccoon128 demoE 2 entropy0) (msg n) (entropy n) num c h z := by
    intro n
    obtain ⟨sk0', sk1, sk2, skb, b, h0', -, -, -, -, hd, hs, hv⟩ := demo_run entropy0 seed [] (entropy n) (msg n) hseed
    obtain rfl := Res.ok.inj (h0.symm.trans h0')
    obtain ⟨m, c, hint, z, g1, -⟩ := C36_wire raccoon128 hP demoE 512 512 2 demo_d entropy0 seed hseed sk0 sk2 h0 hd _ pkb List.length_replicate hpk (entropy n) (msg n) _ b hs
    exact ⟨m, c, hint, z, g1⟩
  choose num c h z g using key
  exact ⟨pkb, num, c, h, z, by decide, hk, g⟩

/-- Non-vacuity of `C75_simulated` and `C75_oracle`: secrets, errors and challenges (two hash values, with different challenges) of the required kind, none of them zero, and
three different digests. -/
example : ∃ (s : Fin raccoon128.l → Fin 512 → Int) (e₀ : Fin raccoon128.k → Fin 512 → Int) (ch : Bool → Fin 512 → Int) (μ : Fin 3 → Fin 5),
    s ≠ 0 ∧ e₀ ≠ 0 ∧ ch true ≠ ch false ∧ (∀ j x, |s j x| ≤ repOf 2 * 2 * 2 ^ (utOf raccoon128.κ 2 - 1)) ∧ (∀ j x, |e₀ j x| ≤ repOf 2 * 2 * 2 ^ (utOf raccoon128.κ 2 - 1)) ∧
      (∀ c, ∑ i, |ch c i| = raccoon128.ω) ∧ Function.Injective μ := by
  have h7 : |(7 : Int)| ≤ repOf 2 * 2 * 2 ^ (utOf raccoon128.κ 2 - 1) := by decide +kernel
  refine ⟨fun _ _ => 7, fun _ _ => 7, fun b i => if i.val < 19 then (if b then 1 else -1) else 0, fun n => ⟨n.val + 1, by omega⟩, ?_, ?_, ?_, fun _ _ => h7, fun _ _ => h7, ?_, ?_⟩
  · intro h
    exact absurd (congrFun (congrFun h ⟨0, by decide⟩) 0) (by decide)
  · intro h
    exact absurd (congrFun (congrFun h ⟨0, by decide⟩) 0) (by decide)
  · intro h
    exact absurd (congrFun h 0) (by decide)
  · intro c
    have : ∀ i : Fin 512, |if i.val < 19 then (if c then (1 : Int) else -1) else 0| = if i.val < 19 then 1 else 0 := by
      intro i
      cases c <;> split <;> rfl
    rw [Finset.sum_congr rfl fun i _ => this i]
    decide +kernel
  · intro n m h
    exact Fin.ext (by have := congrArg Fin.val h; dsimp only at this; omega)

end Raccoon
