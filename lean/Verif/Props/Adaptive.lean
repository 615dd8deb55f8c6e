import Verif.Proofs.Adaptive
import Verif.Props.Simulate
/-!
# C82: attackers that choose messages and hash queries as they go
-/
namespace Raccoon
attribute [-instance] Monoid.toNPow
open Finset

/-- Simulation for given hash values. Whatever the attacker asks, step by step: over all tables of noise words, what it is shown falls into any set T as often as what the
simulator, which knows a s + e₀ only, shows it, up to 2^−floodBits for every signing attempt; hash queries are free. -/
theorem given_close (P : Par) (hP : P = raccoon128 ∨ P = raccoon192 ∨ P = raccoon256) (hν : 0 < q / 2 ^ P.νw) (d M : Nat) (hd : ValidShares d) (C D : Type)
    (A : Attacker P.k P.l P.νw C D) (a : Fin P.k → Fin P.l → RPoly) (s : Fin P.l → Fin 512 → Int) (e₀ : Fin P.k → Fin 512 → Int)
    (hs : ∀ j x, |s j x| ≤ repOf d * d * 2 ^ (utOf P.κ d - 1)) (he : ∀ j x, |e₀ j x| ≤ repOf d * d * 2 ^ (utOf P.κ d - 1))
    (ch : C → Fin 512 → Int) (hch : ∀ c, ∑ i, |ch c i| = P.ω) (c : Fin M → C) (T : Set (List (Outcome P.k P.l P.νw C))) :
    |((Nat.card {W : NoiseTable M P.l P.k (uwOf d) (Fin (repOf d) × Fin d) // givenGame A hν a s ch c W ∈ T} : Nat) : Int) -
        (Nat.card {W : NoiseTable M P.l P.k (uwOf d) (Fin (repOf d) × Fin d) // simulatedGame A hν a (publicB a s e₀) ch c W ∈ T} : Nat)| * 2 ^ floodBits P d ≤
      (univ.filter fun n : Fin M => A.signs n = true).card * (Fintype.card (NoiseTable M P.l P.k (uwOf d) (Fin (repOf d) × Fin d)) : Nat) := by
  have hu : 0 < uwOf d ∧ 0 < repOf d ∧ 0 < d := by
    obtain ⟨m, hm, rfl⟩ := hd
    rcases (by omega : m = 0 ∨ m = 1 ∨ m = 2 ∨ m = 3 ∨ m = 4 ∨ m = 5) with rfl | rfl | rfl | rfl | rfl | rfl <;> decide
  have h := game_close A hu.1 ((⟨0, hu.2.1⟩, ⟨0, hu.2.2⟩) : Fin (repOf d) × Fin d) hν a s e₀ P.ω (repOf d * d * 2 ^ (utOf P.κ d - 1)) ch hch
    (fun j x => by push_cast; exact hs j x) (fun j x => by push_cast; exact he j x) c T
  have hn := sim_numbers P hP d hd
  generalize |((Nat.card {W : NoiseTable M P.l P.k (uwOf d) (Fin (repOf d) × Fin d) // givenGame A hν a s ch c W ∈ T} : Nat) : Int) -
        (Nat.card {W : NoiseTable M P.l P.k (uwOf d) (Fin (repOf d) × Fin d) // simulatedGame A hν a (publicB a s e₀) ch c W ∈ T} : Nat)| = D' at *
  generalize Fintype.card (NoiseTable M P.l P.k (uwOf d) (Fin (repOf d) × Fin d)) = X at *
  generalize (univ.filter fun n : Fin M => A.signs n = true).card = N at *
  generalize hK : (P.l + P.k) * 512 * (P.ω * (repOf d * d * 2 ^ (utOf P.κ d - 1))) = K at *
  rw [Nat.mul_assoc, hK] at h
  have hp : (0 : Int) < 2 ^ uwOf d := by positivity
  refine le_of_mul_le_mul_right ?_ hp
  have hn' : ((K * 2 ^ floodBits P d : Nat) : Int) ≤ ((2 ^ uwOf d : Nat) : Int) := by exact_mod_cast hn
  push_cast at hn' h
  have hX : (0 : Int) ≤ (N : Int) * X := by positivity
  calc D' * 2 ^ floodBits P d * 2 ^ uwOf d = D' * 2 ^ uwOf d * 2 ^ floodBits P d := by ring
    _ ≤ (N : Int) * K * X * 2 ^ floodBits P d := mul_le_mul_of_nonneg_right h (by positivity)
    _ = (N : Int) * X * (K * 2 ^ floodBits P d) := by ring
    _ ≤ (N : Int) * X * 2 ^ uwOf d := mul_le_mul_of_nonneg_left hn' hX

/-- C82: simulation with a random oracle. The attacker gets signing attempts on messages of its choice and hash values of its choice, each chosen after seeing the answers so far;
count over all tables of noise words and all oracles. Games in which no pair (digest, commitment) is hashed twice fall into any set T as often (relative to the number of tables and
oracles) as the simulator's over all tables and all tuples of hash values, up to 2^−floodBits per signing attempt. -/
theorem C82_adaptive (P : Par) (hP : P = raccoon128 ∨ P = raccoon192 ∨ P = raccoon256) (hν : 0 < q / 2 ^ P.νw) (d M : Nat) (hd : ValidShares d)
    (C D : Type) [Nonempty C] [Fintype C] [DecidableEq C] [Fintype D] [DecidableEq D] (A : Attacker P.k P.l P.νw C D)
    (a : Fin P.k → Fin P.l → RPoly) (s : Fin P.l → Fin 512 → Int) (e₀ : Fin P.k → Fin 512 → Int)
    (hs : ∀ j x, |s j x| ≤ repOf d * d * 2 ^ (utOf P.κ d - 1)) (he : ∀ j x, |e₀ j x| ≤ repOf d * d * 2 ^ (utOf P.κ d - 1))
    (ch : C → Fin 512 → Int) (hch : ∀ c, ∑ i, |ch c i| = P.ω) (T : Set (List (Outcome P.k P.l P.νw C))) :
    |((Nat.card {x : NoiseTable M P.l P.k (uwOf d) (Fin (repOf d) × Fin d) × (D × Commitment P.k P.νw → C) //
            realGame A hν a s ch x.2 x.1 ∈ T ∧ Fresh A (realGame A hν a s ch x.2 x.1)} : Nat) : Int) * (Fintype.card (Fin M → C) : Nat) -
        (Nat.card {x : NoiseTable M P.l P.k (uwOf d) (Fin (repOf d) × Fin d) × (Fin M → C) //
            simulatedGame A hν a (publicB a s e₀) ch x.2 x.1 ∈ T ∧ Fresh A (simulatedGame A hν a (publicB a s e₀) ch x.2 x.1)} : Nat) *
          (Fintype.card (D × Commitment P.k P.νw → C) : Nat)| * 2 ^ floodBits P d ≤
      (univ.filter fun n : Fin M => A.signs n = true).card * (Fintype.card (NoiseTable M P.l P.k (uwOf d) (Fin (repOf d) × Fin d)) : Nat) *
        (Fintype.card (Fin M → C) : Nat) * (Fintype.card (D × Commitment P.k P.νw → C) : Nat) := by
  have h1 := game_oracle (M := M) (u := uwOf d) (κ := Fin (repOf d) × Fin d) A (Classical.arbitrary C) hν a s ch T
  have hC : Fintype.card (Fin M → C) = Fintype.card C ^ M := by rw [Fintype.card_fun, Fintype.card_fin]
  rw [← hC] at h1
  have h1' := congrArg (Nat.cast : Nat → Int) h1
  rw [Nat.cast_mul, Nat.cast_mul] at h1'
  rw [h1', ← sub_mul, abs_mul, abs_of_nonneg (Int.natCast_nonneg (Fintype.card (D × Commitment P.k P.νw → C))),
    card_pairs (fun W c => givenGame A hν a s ch c W ∈ T ∧ Fresh A (givenGame A hν a s ch c W)),
    card_pairs (fun W c => simulatedGame A hν a (publicB a s e₀) ch c W ∈ T ∧ Fresh A (simulatedGame A hν a (publicB a s e₀) ch c W)), ← Finset.sum_sub_distrib]
  rw [mul_right_comm]
  refine mul_le_mul_of_nonneg_right ?_ (Int.natCast_nonneg _)
  refine le_trans (mul_le_mul_of_nonneg_right (Finset.abs_sum_le_sum_abs _ _) (by positivity)) ?_
  rw [Finset.sum_mul]
  refine le_trans (Finset.sum_le_sum fun c _ => given_close P hP hν d M hd C D A a s e₀ hs he ch hch c (T ∩ {v | Fresh A v})) ?_
  rw [Finset.sum_const, Finset.card_univ, nsmul_eq_mul, mul_comm]

/-- C82: forgeries. Whatever the attacker asks and however it computes its forgery (`out`) from the answers: in games without repeated hash queries it succeeds against the signer
not more often than against the simulator, relative to the number of all tables and oracles, up to 2^−floodBits per signing attempt. -/
theorem C82_forgery (P : Par) (hP : P = raccoon128 ∨ P = raccoon192 ∨ P = raccoon256) (hν : 0 < q / 2 ^ P.νw) (d M : Nat) (hd : ValidShares d)
    (C D : Type) [Nonempty C] [Fintype C] [DecidableEq C] [Fintype D] [DecidableEq D] (A : Attacker P.k P.l P.νw C D)
    (a : Fin P.k → Fin P.l → RPoly) (s : Fin P.l → Fin 512 → Int) (e₀ : Fin P.k → Fin 512 → Int) (t : Fin P.k → RPoly)
    (hs : ∀ j x, |s j x| ≤ repOf d * d * 2 ^ (utOf P.κ d - 1)) (he : ∀ j x, |e₀ j x| ≤ repOf d * d * 2 ^ (utOf P.κ d - 1))
    (ch : C → Fin 512 → Int) (hch : ∀ c, ∑ i, |ch c i| = P.ω) (out : List (Outcome P.k P.l P.νw C) → D × List Int × List Int) :
    (Nat.card {x : NoiseTable M P.l P.k (uwOf d) (Fin (repOf d) × Fin d) × (D × Commitment P.k P.νw → C) //
        Forges A P.νt P.Binf.toNat P.B22.toNat a t ch out (realGame A hν a s ch x.2 x.1) ∧ Fresh A (realGame A hν a s ch x.2 x.1)} : ℚ) /
      Nat.card (NoiseTable M P.l P.k (uwOf d) (Fin (repOf d) × Fin d) × (D × Commitment P.k P.νw → C)) ≤
    (Nat.card {x : NoiseTable M P.l P.k (uwOf d) (Fin (repOf d) × Fin d) × (Fin M → C) //
        Forges A P.νt P.Binf.toNat P.B22.toNat a t ch out (simulatedGame A hν a (publicB a s e₀) ch x.2 x.1) ∧ Fresh A (simulatedGame A hν a (publicB a s e₀) ch x.2 x.1)} : ℚ) /
      Nat.card (NoiseTable M P.l P.k (uwOf d) (Fin (repOf d) × Fin d) × (Fin M → C)) +
    (univ.filter fun n : Fin M => A.signs n = true).card / 2 ^ floodBits P d := by
  have h := C82_adaptive P hP hν d M hd C D A a s e₀ hs he ch hch {v | Forges A P.νt P.Binf.toNat P.B22.toNat a t ch out v}
  simp only [Set.mem_ofPred_eq] at h
  generalize Nat.card {x : NoiseTable M P.l P.k (uwOf d) (Fin (repOf d) × Fin d) × (D × Commitment P.k P.νw → C) //
        Forges A P.νt P.Binf.toNat P.B22.toNat a t ch out (realGame A hν a s ch x.2 x.1) ∧ Fresh A (realGame A hν a s ch x.2 x.1)} = R at *
  generalize Nat.card {x : NoiseTable M P.l P.k (uwOf d) (Fin (repOf d) × Fin d) × (Fin M → C) //
        Forges A P.νt P.Binf.toNat P.B22.toNat a t ch out (simulatedGame A hν a (publicB a s e₀) ch x.2 x.1) ∧ Fresh A (simulatedGame A hν a (publicB a s e₀) ch x.2 x.1)} = S at *
  rw [Nat.card_prod, Nat.card_prod, Nat.card_eq_fintype_card, Nat.card_eq_fintype_card, Nat.card_eq_fintype_card]
  have p1 : 0 < Fintype.card (NoiseTable M P.l P.k (uwOf d) (Fin (repOf d) × Fin d)) := Fintype.card_pos
  have p2 : 0 < Fintype.card (D × Commitment P.k P.νw → C) := Fintype.card_pos
  have p3 : 0 < Fintype.card (Fin M → C) := Fintype.card_pos
  generalize Fintype.card (NoiseTable M P.l P.k (uwOf d) (Fin (repOf d) × Fin d)) = X at *
  generalize Fintype.card (D × Commitment P.k P.νw → C) = Y at *
  generalize Fintype.card (Fin M → C) = Z at *
  generalize (univ.filter fun n : Fin M => A.signs n = true).card = N at *
  generalize floodBits P d = F at *
  have q1 : (0 : ℚ) < X := by exact_mod_cast p1
  have q2 : (0 : ℚ) < Y := by exact_mod_cast p2
  have q3 : (0 : ℚ) < Z := by exact_mod_cast p3
  have hh : ((R : Int) * Z - S * Y) * 2 ^ F ≤ N * X * Z * Y := le_trans (mul_le_mul_of_nonneg_right (le_abs_self _) (by positivity)) h
  have hq : ((R : ℚ) * Z - S * Y) * 2 ^ F ≤ N * X * Z * Y := by exact_mod_cast hh
  have hF : (0 : ℚ) < 2 ^ F := by positivity
  push_cast
  rw [div_add_div _ _ (by positivity) (by positivity), div_le_div_iff₀ (by positivity) (by positivity)]
  nlinarith [mul_le_mul_of_nonneg_right hq (by positivity : (0 : ℚ) ≤ X * X)]

theorem hint_mod {Y H : Int} {v w m : Nat} (h1 : (v : Int) = (Y + H) % (m : Int)) (h2 : (H - ((w : Int) - Y)) % (m : Int) = 0) (h3 : w < m) : v = w := by
  have k : (Y + H) % (m : Int) = (w : Int) % m := Int.emod_eq_emod_iff_emod_sub_eq_zero.2 (by rw [show Y + H - (w : Int) = H - ((w : Int) - Y) by ring]; exact h2)
  rw [k, Int.emod_eq_of_lt (by omega) (by omega)] at h1
  exact_mod_cast h1

/-- C82: the games are those of the code. An exchange with the code, in which signing steps are attempts with a generated key on messages `msg n` (shown are the commitment a
verifier recomputes, the hash value, the response) and the other steps are evaluations of the challenge hash, is a run of `realGame` with the challenge hash as oracle. -/
theorem C82_attempts (P : Par) (hν : 0 < q / 2 ^ P.νw) (E : Ext) (d : Nat) (hd : ValidShares d) (seed entropy0 pkb : List U8) (t : Fin P.k → Fin 512 → Nat)
    (a : Fin P.k → Fin P.l → RPoly) (hpk : IsPkOf P seed t pkb) (hA : IsMatrixOf E seed a)
    (ch : List U8 → Fin 512 → Int) (M : Nat) (A : Attacker P.k P.l P.νw (List U8) (List U8)) (msg entropy : Fin M → List U8) (num : Fin M → Nat)
    (v : List (Outcome P.k P.l P.νw (List U8))) (hl : v.length = M)
    (hsign : ∀ n (hn : n < M) (h : n < v.length), A.signs n = true → A.digest (v.take n) = messageHash E P.κ pkb (msg ⟨n, hn⟩) ∧
      IsChallengeOf E P.ω v[n].2.1 (ch v[n].2.1) ∧ ∃ hint z,
        IsAttempt P E d pkb (keySecret P E d entropy0) (msg ⟨n, hn⟩) (entropy ⟨n, hn⟩) (num ⟨n, hn⟩) v[n].2.1 hint z ∧ v[n].2.2 = some (unflatten P.l z) ∧
        ∀ r i, ((v[n].1 r i).val : Int) =
          ((commitY P.νw P.νt a (fun r i => (t r i : ZMod q)) (toR (ch v[n].2.1)) (vecR (unflatten P.l z)) r i : Int) + unflatten P.k hint r i) % (q / 2 ^ P.νw : Nat))
    (hhash : ∀ n (h : n < v.length), A.signs n = false → v[n] = (A.commitment (v.take n),
      challengeHash E P.κ (fun i x => (A.commitment (v.take n) i x).val) (A.digest (v.take n)), none)) :
    v = realGame A hν a (keySecret P E d entropy0) ch (fun x => challengeHash E P.κ (fun i y => (x.2 i y).val) x.1) (attemptTable P E d entropy num) := by
  refine (realGame_spec A hν a _ ch _ _ v).2 ⟨hl, fun n hn h => ?_⟩
  by_cases hs : A.signs n = true
  · simp only [if_pos hs]
    obtain ⟨h1, h2, hint, z, g, h3, h4⟩ := hsign n hn h hs
    obtain ⟨seed', t', a', c, w, hpk', hA', hc', hw, hch, -, -, hz, hh, -⟩ := g
    obtain ⟨rfl, rfl⟩ := hpk.unique hpk'
    obtain rfl := hA.unique hA'
    rw [hc'.unique h2] at hz hh
    have hm : maskOf (attemptTable P E d entropy num) ⟨n, hn⟩ = ephemeralR P E d (entropy ⟨n, hn⟩) (num ⟨n, hn⟩) := by
      funext j x
      rw [C73_words P E d hd]
      rfl
    have he : errorOf (attemptTable P E d entropy num) ⟨n, hn⟩ = ephemeralE P E d (entropy ⟨n, hn⟩) (num ⟨n, hn⟩) := by
      funext j x
      rw [errorWords_sum P E d hd]
      rfl
    rw [hm, he]
    have hww : (fun i x => ((signerW P.νw hν a (ephemeralR P E d (entropy ⟨n, hn⟩) (num ⟨n, hn⟩)) (ephemeralE P E d (entropy ⟨n, hn⟩) (num ⟨n, hn⟩)) i x).val)) = w := hw.symm
    have e1 : v[n].1 = signerW P.νw hν a (ephemeralR P E d (entropy ⟨n, hn⟩) (num ⟨n, hn⟩)) (ephemeralE P E d (entropy ⟨n, hn⟩) (num ⟨n, hn⟩)) := by
      funext r i
      refine Fin.ext ?_
      have k1 := h4 r i
      have k2 := hh r i
      have k3 : w r i < q / 2 ^ P.νw := by
        rw [← hww]; exact (signerW P.νw hν a _ _ r i).isLt
      have k4 : (signerW P.νw hν a (ephemeralR P E d (entropy ⟨n, hn⟩) (num ⟨n, hn⟩)) (ephemeralE P E d (entropy ⟨n, hn⟩) (num ⟨n, hn⟩)) r i).val = w r i :=
        congrFun (congrFun hww r) i
      rw [k4]
      exact hint_mod k1 k2 k3
    have e2 : v[n].2.1 = challengeHash E P.κ (fun i y => (v[n].1 i y).val) (A.digest (v.take n)) := by
      rw [h1, hch, e1, hww]
    refine Prod.ext e1 (Prod.ext ?_ ?_)
    · dsimp only
      rw [← e1]; exact e2
    · dsimp only
      rw [← e1, ← e2, h3, hz]
  · have hs' : A.signs n = false := by simpa using hs
    simp only [hs']
    exact hhash n h hs'

/-- C82: accepted forgeries. If the attacker outputs hint and response of a valid signature (that is, one `verify` accepts: C36) of a message whose digest it names, and the
hash value of the signature is one it asked for (with this digest and the commitment a verifier recomputes), then it has forged in the sense of `Forges`. -/
theorem C82_valid_forges (P : Par) (E : Ext) (seed pkb : List U8) (t : Fin P.k → Fin 512 → Nat) (a : Fin P.k → Fin P.l → RPoly)
    (hpk : IsPkOf P seed t pkb) (hA : IsMatrixOf E seed a) (ch : List U8 → Fin 512 → Int) (A : Attacker P.k P.l P.νw (List U8) (List U8))
    (out : List (Outcome P.k P.l P.νw (List U8)) → List U8 × List Int × List Int) (v : List (Outcome P.k P.l P.νw (List U8))) (msg cHash : List U8)
    (hc : IsChallengeOf E P.ω cHash (ch cHash)) (hval : ValidSig P E pkb msg cHash (out v).2.1 (out v).2.2) (hout : (out v).1 = messageHash E P.κ pkb msg)
    (n : Nat) (hn : n < v.length) (hs : A.signs n = false) (hdig : A.digest (v.take n) = messageHash E P.κ pkb msg)
    (hcom : ∀ r i, ((v[n].1 r i).val : Int) = ((commitY P.νw P.νt a (fun r i => (t r i : ZMod q)) (toR (ch cHash)) (vecR (unflatten P.l (out v).2.2)) r i : Int) +
      unflatten P.k (out v).2.1 r i) % (q / 2 ^ P.νw : Nat))
    (hans : v[n].2.1 = challengeHash E P.κ (fun i y => (v[n].1 i y).val) (A.digest (v.take n))) :
    Forges A P.νt P.Binf.toNat P.B22.toNat a (fun r i => (t r i : ZMod q)) ch out v := by
  obtain ⟨-, h2, h3, h4, seed', t', a', c, hpk', hA', hc', hv⟩ := hval
  obtain ⟨rfl, rfl⟩ := hpk.unique hpk'
  obtain rfl := hA.unique hA'
  obtain rfl := hc'.unique hc
  have e : v[n].2.1 = cHash := by
    rw [hans, hv, hdig]
    congr 1
    funext r i
    rw [← hcom r i]
    rfl
  refine ⟨n, hn, hs, by rw [hdig, hout], h2, h3, h4, ?_⟩
  rw [e]
  exact hcom

/-- Non-vacuity of `C82_adaptive` and `C82_forgery`: secrets, errors and challenges of the required kind, and an attacker that has signed in every other step and whose hash
queries depend on what it was shown, with games of five steps in which nothing is hashed twice. -/
example : ∃ (s : Fin raccoon128.l → Fin 512 → Int) (e₀ : Fin raccoon128.k → Fin 512 → Int) (ch : Bool → Fin 512 → Int) (A : Attacker raccoon128.k raccoon128.l raccoon128.νw Bool (Fin 5)),
    s ≠ 0 ∧ e₀ ≠ 0 ∧ ch true ≠ ch false ∧ (∀ j x, |s j x| ≤ repOf 2 * 2 * 2 ^ (utOf raccoon128.κ 2 - 1)) ∧ (∀ j x, |e₀ j x| ≤ repOf 2 * 2 * 2 ^ (utOf raccoon128.κ 2 - 1)) ∧
      (∀ c, ∑ i, |ch c i| = raccoon128.ω) ∧ A.signs 0 = true ∧ A.signs 1 = false ∧ (∃ v v', v.length = v'.length ∧ A.commitment v ≠ A.commitment v') ∧
      (∀ v, v.length = 5 → Fresh A v) ∧
      ∀ (hν : 0 < q / 2 ^ raccoon128.νw) (a : Fin raccoon128.k → Fin raccoon128.l → RPoly) (H : Fin 5 × Commitment raccoon128.k raccoon128.νw → Bool)
        (W : NoiseTable 5 raccoon128.l raccoon128.k (uwOf 2) (Fin (repOf 2) × Fin 2)), Fresh A (realGame A hν a s ch H W) := by
  have h7 : |(7 : Int)| ≤ repOf 2 * 2 * 2 ^ (utOf raccoon128.κ 2 - 1) := by decide +kernel
  have hν : 1 < q / 2 ^ raccoon128.νw := by decide
  let A : Attacker raccoon128.k raccoon128.l raccoon128.νw Bool (Fin 5) :=
    ⟨fun n => n % 2 == 0, fun v => ⟨v.length % 5, Nat.mod_lt _ (by omega)⟩, fun v _ _ => if v.any (fun o => o.2.1) then ⟨1, hν⟩ else ⟨0, by omega⟩⟩
  have hf : ∀ v, v.length = 5 → Fresh A v := by
    intro v hv n m hn hm hnm e
    have e1 : (v.take n).length % 5 = (v.take m).length % 5 := congrArg Fin.val (Prod.mk.inj e).1
    rw [List.length_take_of_le (by omega), List.length_take_of_le (by omega)] at e1
    omega
  refine ⟨fun _ _ => 7, fun _ _ => 7, fun b i => if i.val < 19 then (if b then 1 else -1) else 0, A, ?_, ?_, ?_, fun _ _ => h7, fun _ _ => h7, ?_, rfl, rfl, ?_, hf, ?_⟩
  · intro h
    exact absurd (congrFun (congrFun h ⟨0, by decide⟩) 0) (by decide)
  · intro h
    exact absurd (congrFun (congrFun h ⟨0, by decide⟩) 0) (by decide)
  · intro h
    exact absurd (congrFun h 0) (by decide)
  · intro c
    have : ∀ i : Fin 512, |if i.val < 19 then (if c then (1 : Int) else -1) else 0| = if i.val < 19 then 1 else 0 := by
      intro i
      cases c <;> split <;> rfl
    rw [Finset.sum_congr rfl fun i _ => this i]
    decide +kernel
  · refine ⟨[(fun _ _ => ⟨0, by omega⟩, true, none)], [(fun _ _ => ⟨0, by omega⟩, false, none)], rfl, fun h => ?_⟩
    have h1 : (1 : Nat) = 0 := congrArg Fin.val (congrFun (congrFun h ⟨0, by decide⟩) 0)
    omega
  · intro hν a H W
    exact hf _ (play_spec _).1

/-- Non-vacuity of `C82_attempts` and `C82_valid_forges`: with the key and the signature of the toy run of `Props/Demo.lean`, an exchange of a signing attempt and a hash
query that meets the hypotheses of the former, and an exchange of one hash query with an output that meets those of the latter. -/
example (entropy0 seed entropy msg : List U8) (hseed : seed.length = 16) :
    ∃ (pkb : List U8) (t : Fin 5 → Fin 512 → Nat) (a : Fin 5 → Fin 4 → RPoly) (ch : List U8 → Fin 512 → Int) (c : List U8) (hint z : List Int) (num : Nat)
      (w : Commitment 5 44), IsPkOf raccoon128 seed t pkb ∧ IsMatrixOf demoE seed a ∧ IsChallengeOf demoE 19 c (ch c) ∧
      IsAttempt raccoon128 demoE 2 pkb (keySecret raccoon128 demoE 2 entropy0) msg entropy num c hint z ∧ ValidSig raccoon128 demoE pkb msg c hint z ∧
      (∀ r i, ((w r i).val : Int) = ((commitY 44 42 a (fun r i => (t r i : ZMod q)) (toR (ch c)) (vecR (unflatten 4 z)) r i : Int) + unflatten 5 hint r i) % (q / 2 ^ 44 : Nat)) ∧
      c = challengeHash demoE 128 (fun i y => (w i y).val) (messageHash demoE 128 pkb msg) ∧
      (∃ (A : Attacker 5 4 44 (List U8) (List U8)) (v : List (Outcome 5 4 44 (List U8))), v = [(w, c, some (unflatten 4 z)),
          (A.commitment [(w, c, some (unflatten 4 z))], challengeHash demoE 128 (fun i x => (A.commitment [(w, c, some (unflatten 4 z))] i x).val) [1, 2, 3], none)] ∧
        A.signs 0 = true ∧ A.signs 1 = false ∧ A.digest [] = messageHash demoE 128 pkb msg ∧ A.digest (v.take 1) = [1, 2, 3]) ∧
      ∃ (A : Attacker 5 4 44 (List U8) (List U8)) (v : List (Outcome 5 4 44 (List U8))) (out : List (Outcome 5 4 44 (List U8)) → List U8 × List Int × List Int),
        Forges A 42 raccoon128.Binf.toNat raccoon128.B22.toNat a (fun r i => (t r i : ZMod q)) ch out v := by
  have hP : raccoon128 = raccoon128 ∨ raccoon128 = raccoon192 ∨ raccoon128 = raccoon256 := Or.inl rfl
  obtain ⟨sk0, sk1, sk2, skb, b, h0, -, -, -, -, hd, hs, hv⟩ := demo_run entropy0 seed [] entropy msg hseed
  have hwf := C37_wellformed raccoon128 hP demoE 512 2 demo_d entropy0 seed hseed sk0 h0
  obtain ⟨pkb, hpk⟩ := pkBytes_ok raccoon128 hP sk0.pkey hwf.pkey.seed
  obtain ⟨t, a, hk1, hk2, -⟩ := C37_wire raccoon128 hP demoE 512 2 demo_d entropy0 seed hseed sk0 h0 _ pkb List.length_replicate hpk
  obtain ⟨n, c, hint, z, g1, g2, g3, -⟩ := C36_wire raccoon128 hP demoE 512 512 2 demo_d entropy0 seed hseed sk0 sk2 h0 hd _ pkb List.length_replicate hpk entropy msg _ b hs
  have hval := C33_wire_correct raccoon128 hP demoE 2 pkb _ msg entropy n c hint z g1 g2.2
  have hm : 0 < q / 2 ^ 44 := by decide
  obtain ⟨-, -, -, -, seed', t', a', cI, k1, k2, k3, k4⟩ := id hval
  obtain ⟨rfl, rfl⟩ := hk1.unique k1
  obtain rfl := hk2.unique k2
  let w : Commitment 5 44 := fun r i => ⟨(((commitY 44 42 a (fun r i => (t r i : ZMod q)) (toR cI) (vecR (unflatten 4 z)) r i : Int) + unflatten 5 hint r i) %
    (q / 2 ^ 44 : Nat)).toNat, by
      have := Int.emod_lt_of_pos ((commitY 44 42 a (fun r i => (t r i : ZMod q)) (toR cI) (vecR (unflatten 4 z)) r i : Int) + unflatten 5 hint r i)
        (by exact_mod_cast hm : (0 : Int) < (q / 2 ^ 44 : Nat))
      omega⟩
  have hw : ∀ r i, ((w r i).val : Int) = ((commitY 44 42 a (fun r i => (t r i : ZMod q)) (toR cI) (vecR (unflatten 4 z)) r i : Int) + unflatten 5 hint r i) % (q / 2 ^ 44 : Nat) :=
    fun r i => Int.toNat_of_nonneg (Int.emod_nonneg _ (by exact_mod_cast hm.ne'))
  have hcw : c = challengeHash demoE 128 (fun i y => (w i y).val) (messageHash demoE 128 pkb msg) := k4
  refine ⟨pkb, t, a, fun _ => cI, c, hint, z, n, w, hk1, hk2, k3, g1, hval, hw, hcw, ?_, ?_⟩
  · exact ⟨⟨fun n => n == 0, fun v => if v.length = 0 then messageHash demoE 128 pkb msg else [1, 2, 3], fun _ _ _ => ⟨1, by decide⟩⟩, _, rfl, rfl, rfl, rfl, rfl⟩
  · refine ⟨⟨fun _ => false, fun _ => messageHash demoE 128 pkb msg, fun _ => w⟩, [(w, c, none)], fun _ => (messageHash demoE 128 pkb msg, hint, z), ?_⟩
    exact C82_valid_forges raccoon128 demoE seed pkb t a hk1 hk2 (fun _ => cI) _ _ _ msg c k3 hval rfl 0 Nat.one_pos rfl rfl hw hcw

end Raccoon
