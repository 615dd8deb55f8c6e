import Verif.Proofs.FewTime
import Verif.Props.Odds
import Verif.Props.Security
/-!
# C92: few signatures
-/
namespace Raccoon
attribute [-instance] Monoid.toNPow
open Finset

theorem few_numbers (P : Par) (hP : P = raccoon128 ∨ P = raccoon192 ∨ P = raccoon256) (d : Nat) (hd : ValidShares d) :
    (P.l + P.k) * 512 * (2 * (2 * (repOf d * d) * ((P.l + P.k) * 512 * (P.ω * (repOf d * d * 2 ^ (utOf P.κ d - 1)))) +
      P.ω * (repOf d * d * 2 ^ (utOf P.κ d - 1))) ^ (repOf d * d)) * 2 ^ fewBits P d ≤ (2 ^ uwOf d) ^ (repOf d * d) ∧
      0 < repOf d * d ∧ 0 < (P.l + P.k) * 512 * (P.ω * (repOf d * d * 2 ^ (utOf P.κ d - 1))) ∧ 0 < uwOf d := by
  obtain ⟨m, hm, rfl⟩ := hd
  rcases hP with rfl | rfl | rfl <;>
    rcases (by omega : m = 0 ∨ m = 1 ∨ m = 2 ∨ m = 3 ∨ m = 4 ∨ m = 5) with rfl | rfl | rfl | rfl | rfl | rfl <;> decide +kernel

/-- Simulation for given hash values, by a factor: over all tables of noise words, what the attacker is shown falls into any set T at most 2^N times as often as what the simulator, which
knows a s + e₀ only, shows it, but for N 2^−fewBits of the tables; N is the number of signing attempts, hash queries are free. -/
theorem given_few (P : Par) (hP : P = raccoon128 ∨ P = raccoon192 ∨ P = raccoon256) (hν : 0 < q / 2 ^ P.νw) (d M : Nat) (hd : ValidShares d) (C D : Type)
    (A : Attacker P.k P.l P.νw C D) (a : Fin P.k → Fin P.l → RPoly) (s : Fin P.l → Fin 512 → Int) (e₀ : Fin P.k → Fin 512 → Int)
    (hs : ∀ j x, |s j x| ≤ repOf d * d * 2 ^ (utOf P.κ d - 1)) (he : ∀ j x, |e₀ j x| ≤ repOf d * d * 2 ^ (utOf P.κ d - 1))
    (ch : C → Fin 512 → Int) (hch : ∀ c, ∑ i, |ch c i| = P.ω) (c : Fin M → C) (T : Set (List (Outcome P.k P.l P.νw C))) :
    Nat.card {W : NoiseTable M P.l P.k (uwOf d) (Fin (repOf d) × Fin d) // givenGame A hν a s ch c W ∈ T} * 2 ^ fewBits P d ≤
      2 ^ (univ.filter fun n : Fin M => A.signs n = true).card *
        Nat.card {W : NoiseTable M P.l P.k (uwOf d) (Fin (repOf d) × Fin d) // simulatedGame A hν a (publicB a s e₀) ch c W ∈ T} * 2 ^ fewBits P d +
      (univ.filter fun n : Fin M => A.signs n = true).card * Fintype.card (NoiseTable M P.l P.k (uwOf d) (Fin (repOf d) × Fin d)) := by
  obtain ⟨hn, hτ, hL, hu⟩ := few_numbers P hP d hd
  have e1 : Fintype.card (Fin (repOf d) × Fin d) = repOf d * d := by rw [Fintype.card_prod, Fintype.card_fin, Fintype.card_fin]
  have h1 := edgeCount_le (Fin (repOf d) × Fin d) (signCoeffs A M) hu (2 * (repOf d * d) * ((P.l + P.k) * 512 * (P.ω * (repOf d * d * 2 ^ (utOf P.κ d - 1)))) +
    P.ω * (repOf d * d * 2 ^ (utOf P.κ d - 1)))
  have h2 := game_odds (κ := Fin (repOf d) × Fin d) A hu hν a s e₀ P.ω (repOf d * d * 2 ^ (utOf P.κ d - 1)) ch hch
    (fun j x => by push_cast; exact hs j x) (fun j x => by push_cast; exact he j x) c T (2 * (repOf d * d) * ((P.l + P.k) * 512 * (P.ω * (repOf d * d * 2 ^ (utOf P.κ d - 1)))))
  rw [e1, signCoeffs_card] at h1 h2
  have hX : 0 < (2 ^ uwOf d) ^ (repOf d * d) := Nat.pow_pos (Nat.pow_pos (by omega))
  change _ ≤ _ * Fintype.card (NoiseTable M P.l P.k (uwOf d) (Fin (repOf d) × Fin d)) at h1
  generalize Nat.card {W : NoiseTable M P.l P.k (uwOf d) (Fin (repOf d) × Fin d) // givenGame A hν a s ch c W ∈ T} = x at *
  generalize Nat.card {W : NoiseTable M P.l P.k (uwOf d) (Fin (repOf d) × Fin d) // simulatedGame A hν a (publicB a s e₀) ch c W ∈ T} = x' at *
  generalize Fintype.card (NoiseTable M P.l P.k (uwOf d) (Fin (repOf d) × Fin d)) = X at *
  generalize edgeCount (Fin (repOf d) × Fin d) (signCoeffs A M) _ _ = far at *
  generalize (univ.filter fun n : Fin M => A.signs n = true).card = N at *
  generalize (2 ^ uwOf d) ^ (repOf d * d) = Y at *
  generalize P.ω * (repOf d * d * 2 ^ (utOf P.κ d - 1)) = γ at *
  generalize repOf d * d = τ at *
  generalize (P.l + P.k) * 512 = m at *
  generalize 2 ^ fewBits P d = e at *
  exact odds_finish hn hτ hL hX h1 h2

/-- The adaptive game with a random oracle, by a factor. -/
theorem few_adaptive (P : Par) (hP : P = raccoon128 ∨ P = raccoon192 ∨ P = raccoon256) (hν : 0 < q / 2 ^ P.νw) (d M : Nat) (hd : ValidShares d)
    (C D : Type) [Nonempty C] [Fintype C] [DecidableEq C] [Fintype D] [DecidableEq D] (A : Attacker P.k P.l P.νw C D)
    (a : Fin P.k → Fin P.l → RPoly) (s : Fin P.l → Fin 512 → Int) (e₀ : Fin P.k → Fin 512 → Int)
    (hs : ∀ j x, |s j x| ≤ repOf d * d * 2 ^ (utOf P.κ d - 1)) (he : ∀ j x, |e₀ j x| ≤ repOf d * d * 2 ^ (utOf P.κ d - 1))
    (ch : C → Fin 512 → Int) (hch : ∀ c, ∑ i, |ch c i| = P.ω) (T : Set (List (Outcome P.k P.l P.νw C))) :
    Nat.card {x : NoiseTable M P.l P.k (uwOf d) (Fin (repOf d) × Fin d) × (D × Commitment P.k P.νw → C) //
            realGame A hν a s ch x.2 x.1 ∈ T ∧ Fresh A (realGame A hν a s ch x.2 x.1)} * Fintype.card (Fin M → C) * 2 ^ fewBits P d ≤
      2 ^ (univ.filter fun n : Fin M => A.signs n = true).card *
        (Nat.card {x : NoiseTable M P.l P.k (uwOf d) (Fin (repOf d) × Fin d) × (Fin M → C) //
            simulatedGame A hν a (publicB a s e₀) ch x.2 x.1 ∈ T ∧ Fresh A (simulatedGame A hν a (publicB a s e₀) ch x.2 x.1)} *
          Fintype.card (D × Commitment P.k P.νw → C)) * 2 ^ fewBits P d +
      (univ.filter fun n : Fin M => A.signs n = true).card * (Fintype.card (NoiseTable M P.l P.k (uwOf d) (Fin (repOf d) × Fin d)) *
        Fintype.card (Fin M → C) * Fintype.card (D × Commitment P.k P.νw → C)) := by
  have h1 := game_oracle (M := M) (u := uwOf d) (κ := Fin (repOf d) × Fin d) A (Classical.arbitrary C) hν a s ch T
  have hC : Fintype.card (Fin M → C) = Fintype.card C ^ M := by rw [Fintype.card_fun, Fintype.card_fin]
  rw [← hC] at h1
  have p1 : ∀ F : NoiseTable M P.l P.k (uwOf d) (Fin (repOf d) × Fin d) → (Fin M → C) → Prop, Nat.card {x : NoiseTable M P.l P.k (uwOf d) (Fin (repOf d) × Fin d) × (Fin M → C) // F x.1 x.2} =
      ∑ c, Nat.card {W // F W c} := fun F => by exact_mod_cast card_pairs F
  rw [h1, p1 (fun W c => givenGame A hν a s ch c W ∈ T ∧ Fresh A (givenGame A hν a s ch c W)),
    p1 (fun W c => simulatedGame A hν a (publicB a s e₀) ch c W ∈ T ∧ Fresh A (simulatedGame A hν a (publicB a s e₀) ch c W))]
  have h2 := Finset.sum_le_sum fun c (_ : c ∈ (univ : Finset (Fin M → C))) => given_few P hP hν d M hd C D A a s e₀ hs he ch hch c (T ∩ {v | Fresh A v})
  rw [← Finset.sum_mul, Finset.sum_add_distrib, ← Finset.sum_mul, ← Finset.mul_sum, Finset.sum_const, Finset.card_univ, smul_eq_mul] at h2
  simp only [Set.mem_inter_iff, Set.mem_ofPred_eq] at h2
  have h3 := Nat.mul_le_mul_right (Fintype.card (D × Commitment P.k P.νw → C)) h2
  refine le_trans (le_of_eq ?_) (le_trans h3 (le_of_eq ?_)) <;> ring

/-- C92: for an attacker that does not ask twice and any event: the fraction of noise tables and oracles for which the game against the signer has it is at most 2^N times the fraction of
noise tables and tuples of hash values for which the game against the simulator has it (and no pair is asked twice), and N (2^−fewBits + M 2^−512) more, N being the number of signing
attempts. -/
theorem C92_transfer (P : Par) (hP : P = raccoon128 ∨ P = raccoon192 ∨ P = raccoon256) (hν : 0 < q / 2 ^ P.νw) (d M : Nat) (hd : ValidShares d)
    (C D : Type) [Nonempty C] [Fintype C] [DecidableEq C] [Fintype D] [DecidableEq D] (A : Attacker P.k P.l P.νw C D) (hA : NeverAsksTwice A M)
    (a : Fin P.k → Fin P.l → RPoly) (ha : Unpredictable P.νw (uwOf d) (Fin (repOf d) × Fin d) hν 512 a) (s : Fin P.l → Fin 512 → Int) (e₀ : Fin P.k → Fin 512 → Int)
    (hs : ∀ j x, |s j x| ≤ repOf d * d * 2 ^ (utOf P.κ d - 1)) (he : ∀ j x, |e₀ j x| ≤ repOf d * d * 2 ^ (utOf P.κ d - 1))
    (ch : C → Fin 512 → Int) (hch : ∀ c, ∑ i, |ch c i| = P.ω) (T : List (Outcome P.k P.l P.νw C) → Prop) :
    (Nat.card {x : NoiseTable M P.l P.k (uwOf d) (Fin (repOf d) × Fin d) × (D × Commitment P.k P.νw → C) // T (realGame A hν a s ch x.2 x.1)} : ℚ) /
      Nat.card (NoiseTable M P.l P.k (uwOf d) (Fin (repOf d) × Fin d) × (D × Commitment P.k P.νw → C)) ≤
    2 ^ (univ.filter fun n : Fin M => A.signs n = true).card *
      ((Nat.card {x : NoiseTable M P.l P.k (uwOf d) (Fin (repOf d) × Fin d) × (Fin M → C) //
          T (simulatedGame A hν a (publicB a s e₀) ch x.2 x.1) ∧ Fresh A (simulatedGame A hν a (publicB a s e₀) ch x.2 x.1)} : ℚ) /
        Nat.card (NoiseTable M P.l P.k (uwOf d) (Fin (repOf d) × Fin d) × (Fin M → C))) +
    (univ.filter fun n : Fin M => A.signs n = true).card * (1 / 2 ^ fewBits P d + M / 2 ^ 512) := by
  have hf := C84_fresh (M := M) A hA hν a s ch 512 ha
  have hsp := split_fresh (fun x : NoiseTable M P.l P.k (uwOf d) (Fin (repOf d) × Fin d) × (D × Commitment P.k P.νw → C) => T (realGame A hν a s ch x.2 x.1))
    (fun x => Fresh A (realGame A hν a s ch x.2 x.1))
  have h := few_adaptive P hP hν d M hd C D A a s e₀ hs he ch hch {v | T v}
  simp only [Set.mem_ofPred_eq] at h
  generalize Nat.card {x : NoiseTable M P.l P.k (uwOf d) (Fin (repOf d) × Fin d) × (D × Commitment P.k P.νw → C) //
        T (realGame A hν a s ch x.2 x.1) ∧ Fresh A (realGame A hν a s ch x.2 x.1)} = R at *
  generalize Nat.card {x : NoiseTable M P.l P.k (uwOf d) (Fin (repOf d) × Fin d) × (D × Commitment P.k P.νw → C) // T (realGame A hν a s ch x.2 x.1)} = F at *
  generalize Nat.card {x : NoiseTable M P.l P.k (uwOf d) (Fin (repOf d) × Fin d) × (D × Commitment P.k P.νw → C) // ¬ Fresh A (realGame A hν a s ch x.2 x.1)} = V at *
  generalize Nat.card {x : NoiseTable M P.l P.k (uwOf d) (Fin (repOf d) × Fin d) × (Fin M → C) //
        T (simulatedGame A hν a (publicB a s e₀) ch x.2 x.1) ∧ Fresh A (simulatedGame A hν a (publicB a s e₀) ch x.2 x.1)} = S0 at *
  rw [Nat.card_prod, Nat.card_eq_fintype_card, Nat.card_eq_fintype_card] at hf
  rw [Nat.card_prod, Nat.card_prod, Nat.card_eq_fintype_card, Nat.card_eq_fintype_card, Nat.card_eq_fintype_card]
  have p1 : 0 < Fintype.card (NoiseTable M P.l P.k (uwOf d) (Fin (repOf d) × Fin d)) := Fintype.card_pos
  have p2 : 0 < Fintype.card (D × Commitment P.k P.νw → C) := Fintype.card_pos
  have p3 : 0 < Fintype.card (Fin M → C) := Fintype.card_pos
  generalize Fintype.card (NoiseTable M P.l P.k (uwOf d) (Fin (repOf d) × Fin d)) = X at *
  generalize Fintype.card (D × Commitment P.k P.νw → C) = Y at *
  generalize Fintype.card (Fin M → C) = Z at *
  generalize (univ.filter fun n : Fin M => A.signs n = true).card = N at *
  generalize fewBits P d = f at *
  have q1 : (0 : ℚ) < X := by exact_mod_cast p1
  have q2 : (0 : ℚ) < Y := by exact_mod_cast p2
  have q3 : (0 : ℚ) < Z := by exact_mod_cast p3
  have hq : (R : ℚ) * Z * 2 ^ f ≤ 2 ^ N * (S0 * Y) * 2 ^ f + N * (X * Z * Y) := by exact_mod_cast h
  have hfq : (V : ℚ) * 2 ^ 512 ≤ N * M * (X * Y) := by exact_mod_cast hf
  have hspq : (F : ℚ) ≤ R + V := by exact_mod_cast hsp
  have hF : (0 : ℚ) < 2 ^ f := by positivity
  have hB : (0 : ℚ) < 2 ^ 512 := by positivity
  generalize (2 : ℚ) ^ 512 = b at *
  generalize (2 : ℚ) ^ f = g at *
  clear h hf hsp
  push_cast
  -- the fresh games
  generalize (2 : ℚ) ^ N = n2 at *
  have k1 : (R : ℚ) / (X * Y) ≤ n2 * (S0 / (X * Z)) + N / g := by
    rw [← mul_div_assoc, div_add_div _ _ (by positivity) (by positivity), div_le_div_iff₀ (by positivity) (by positivity)]
    nlinarith [mul_le_mul_of_nonneg_right hq (by positivity : (0 : ℚ) ≤ X * X)]
  have k2 : (V : ℚ) / (X * Y) ≤ N * M / b := by
    rw [div_le_div_iff₀ (by positivity) (by positivity)]
    exact hfq
  have k3 : (F : ℚ) / (X * Y) ≤ R / (X * Y) + V / (X * Y) := by
    rw [← add_div]
    exact div_le_div_of_nonneg_right hspq (by positivity)
  have e : (N : ℚ) * (1 / g + M / b) = N / g + N * M / b := by ring
  rw [e]
  linarith

/-- The forking bound for the simulated game, with short relations. -/
theorem sim_forks (P : Par) (hP : P = raccoon128 ∨ P = raccoon192 ∨ P = raccoon256) (hν : 0 < q / 2 ^ P.νw) (d M : Nat)
    (C D : Type) [Nonempty C] [Fintype C] (A : Attacker P.k P.l P.νw C D) (a : Fin P.k → Fin P.l → RPoly) (b t : Fin P.k → RPoly)
    (ch : C → Fin 512 → Int) (hch : ∀ c, IsChallengeVec P.ω (ch c)) (B : Nat) (hB0 : 0 < B) (hB : ∀ γ, B * Nat.card {c // ch c = γ} ≤ Nat.card C)
    (out : List (Outcome P.k P.l P.νw C) → D × List Int × List Int) (S : ℚ)
    (hS : S = (Nat.card {x : NoiseTable M P.l P.k (uwOf d) (Fin (repOf d) × Fin d) × (Fin M → C) //
        Forges A P.νt P.Binf.toNat P.B22.toNat a t ch out (simulatedGame A hν a b ch x.2 x.1) ∧ Fresh A (simulatedGame A hν a b ch x.2 x.1)} : ℚ) /
      Nat.card (NoiseTable M P.l P.k (uwOf d) (Fin (repOf d) × Fin d) × (Fin M → C))) :
    S * (S / (univ.filter fun n : Fin M => A.signs n = false).card - 1 / B) ≤
      (Nat.card {x : NoiseTable M P.l P.k (uwOf d) (Fin (repOf d) × Fin d) × (Fin M → C) × (Fin M → C) //
        ∃ n : Fin M, A.signs n = false ∧ ∃ v v', v = simulatedGame A hν a b ch x.2.1 x.1 ∧ v' = simulatedGame A hν a b ch (splice n x.2.1 x.2.2) x.1 ∧
          ShortRelation P a t (fun j i => unflatten P.l (out v).2.2 j i - unflatten P.l (out v').2.2 j i) (ch (x.2.1 n) - ch (x.2.2 n))} : ℚ) /
      Nat.card (NoiseTable M P.l P.k (uwOf d) (Fin (repOf d) × Fin d) × (Fin M → C) × (Fin M → C)) := by
  have h2 := C83_fork P hν d M C D A a b t ch B hB0 hB out S hS
  have h3 : (Nat.card {x : NoiseTable M P.l P.k (uwOf d) (Fin (repOf d) × Fin d) × (Fin M → C) × (Fin M → C) //
        ∃ n : Fin M, A.signs n = false ∧ Extracts P a t ch out n (simulatedGame A hν a b ch x.2.1 x.1) (simulatedGame A hν a b ch (splice n x.2.1 x.2.2) x.1)}) ≤
      Nat.card {x : NoiseTable M P.l P.k (uwOf d) (Fin (repOf d) × Fin d) × (Fin M → C) × (Fin M → C) //
        ∃ n : Fin M, A.signs n = false ∧ ∃ v v', v = simulatedGame A hν a b ch x.2.1 x.1 ∧ v' = simulatedGame A hν a b ch (splice n x.2.1 x.2.2) x.1 ∧
          ShortRelation P a t (fun j i => unflatten P.l (out v).2.2 j i - unflatten P.l (out v').2.2 j i) (ch (x.2.1 n) - ch (x.2.2 n))} := by
    refine Nat.card_mono (Set.toFinite _) ?_
    rintro ⟨W, c, c'⟩ ⟨n, hs, hn, hn', -, hT⟩
    refine ⟨n, hs, _, _, rfl, rfl, ?_⟩
    have hv : ∀ (x : Fin M → C) (hn : n.val < (simulatedGame A hν a b ch x W).length), (simulatedGame A hν a b ch x W)[n.val].2.1 = x n := by
      intro x hn
      have := (play_spec fun (n : Fin M) v =>
        (if A.signs n then simulatorW P.νw hν a b (ch (x n)) (maskOf W n) (errorOf W n) else A.commitment v, x n, if A.signs n then some (maskOf W n) else none)).2 n n.isLt hn
      exact congrArg (fun o => o.2.1) this
    have k1 := hv c hn
    have k2 := hv (splice n c c') hn'
    rw [show splice n c c' n = c' n from if_neg (lt_irrefl n)] at k2
    dsimp only at hT
    rw [k1, k2] at hT
    exact C83_relation P hP a t _ _ (hch _) (hch _) _ _ _ _ hT
  refine le_trans h2 (div_le_div_of_nonneg_right ?_ (by positivity))
  exact_mod_cast h3

/-- Wins of an attacker on a timetable are forgeries of its careful, finishing version in the simulated game. -/
theorem few_wins (P : Par) (hP : P = raccoon128 ∨ P = raccoon192 ∨ P = raccoon256) (hν : 0 < q / 2 ^ P.νw) (d M : Nat) (hM : M + 1 < 2 ^ 512) (hd : ValidShares d)
    (C D : Type) [Nonempty C] [Fintype C] [DecidableEq C] [Fintype D] [DecidableEq D] (A : Attacker P.k P.l P.νw C D)
    (a : Fin P.k → Fin P.l → RPoly) (ha : Unpredictable P.νw (uwOf d) (Fin (repOf d) × Fin d) hν 512 a) (s : Fin P.l → Fin 512 → Int) (e₀ : Fin P.k → Fin 512 → Int) (t : Fin P.k → RPoly)
    (hs : ∀ j x, |s j x| ≤ repOf d * d * 2 ^ (utOf P.κ d - 1)) (he : ∀ j x, |e₀ j x| ≤ repOf d * d * 2 ^ (utOf P.κ d - 1))
    (ch : C → Fin 512 → Int) (hch : ∀ c, IsChallengeVec P.ω (ch c))
    (out : List (Outcome P.k P.l P.νw C) → Forgery C D) (ε : ℚ)
    (hε : ε = (Nat.card {x : NoiseTable M P.l P.k (uwOf d) (Fin (repOf d) × Fin d) × (D × Commitment P.k P.νw → C) //
        Wins A P.νt P.Binf.toNat P.B22.toNat a t ch x.2 out (realGame A hν a s ch x.2 x.1)} : ℚ) /
      Nat.card (NoiseTable M P.l P.k (uwOf d) (Fin (repOf d) × Fin d) × (D × Commitment P.k P.νw → C)))
    (A' : Attacker P.k P.l P.νw C D) (hA' : A' = (A.finishing M hν P.νt a t ch out).careful)
    (out' : List (Outcome P.k P.l P.νw C) → D × List Int × List Int) (hout' : out' = carefulOut (A.finishing M hν P.νt a t ch out) M out) :
    (univ.filter fun n : Fin (M + 1) => A'.signs n = false).card = (univ.filter fun n : Fin M => A.signs n = false).card + 1 ∧
    ε ≤ 2 ^ (univ.filter fun n : Fin M => A.signs n = true).card *
      ((Nat.card {x : NoiseTable (M + 1) P.l P.k (uwOf d) (Fin (repOf d) × Fin d) × (Fin (M + 1) → C) //
          Forges A' P.νt P.Binf.toNat P.B22.toNat a t ch out' (simulatedGame A' hν a (publicB a s e₀) ch x.2 x.1) ∧ Fresh A' (simulatedGame A' hν a (publicB a s e₀) ch x.2 x.1)} : ℚ) /
        Nat.card (NoiseTable (M + 1) P.l P.k (uwOf d) (Fin (repOf d) × Fin d) × (Fin (M + 1) → C))) +
      (univ.filter fun n : Fin M => A.signs n = true).card * (1 / 2 ^ fewBits P d + (M + 1 : Nat) / 2 ^ 512) := by
  have hDne : Nonempty D := ⟨A.digest []⟩
  have hk : 0 < P.k := by rcases hP with rfl | rfl | rfl <;> decide
  have hν1 : 1 < q / 2 ^ P.νw := by rcases hP with rfl | rfl | rfl <;> decide
  have hnever : NeverAsksTwice A' (M + 1) := by
    rw [hA']
    exact C87_never _ (le_trans hM.le (commitment_card hk hν1 D))
  obtain ⟨n1, n2⟩ := finishing_counts (M := M) A hν P.νt a t ch out
  have n1' : (univ.filter fun n : Fin (M + 1) => A'.signs n = true).card = (univ.filter fun n : Fin M => A.signs n = true).card := by rw [hA']; exact n1
  have n2' : (univ.filter fun n : Fin (M + 1) => A'.signs n = false).card = (univ.filter fun n : Fin M => A.signs n = false).card + 1 := by rw [hA']; exact n2
  refine ⟨n2', ?_⟩
  have h := C92_transfer P hP hν d (M + 1) hd C D A' hnever a ha s e₀ hs he ch (fun c => (hch c).2) (Forges A' P.νt P.Binf.toNat P.B22.toNat a t ch out')
  have hle : Nat.card {x : NoiseTable (M + 1) P.l P.k (uwOf d) (Fin (repOf d) × Fin d) × (D × Commitment P.k P.νw → C) //
      Wins A P.νt P.Binf.toNat P.B22.toNat a t ch x.2 out (realGame A hν a s ch x.2 (firstRows x.1))} ≤
      Nat.card {x : NoiseTable (M + 1) P.l P.k (uwOf d) (Fin (repOf d) × Fin d) × (D × Commitment P.k P.νw → C) //
        Forges A' P.νt P.Binf.toNat P.B22.toNat a t ch out' (realGame A' hν a s ch x.2 x.1)} :=
    Nat.card_le_card_of_injective (fun x => ⟨x.1, by
      rw [hA', hout']
      exact C87_wins_forges A hν _ _ _ a t s ch x.1.2 out x.1.1 x.2⟩) fun x y e => Subtype.ext (congrArg (fun z => z.1) e)
  have hrows := firstRows_card (M := M) (l := P.l) (k := P.k) (u := uwOf d) (κ := Fin (repOf d) × Fin d) (C := C) (D := D) (D × Commitment P.k P.νw → C)
    (fun x => Wins A P.νt P.Binf.toNat P.B22.toNat a t ch x.2 out (realGame A hν a s ch x.2 x.1))
  have hT : 0 < Nat.card (NoiseTable M P.l P.k (uwOf d) (Fin (repOf d) × Fin d) × (D × Commitment P.k P.νw → C)) := by
    rw [Nat.card_eq_fintype_card]; exact Fintype.card_pos
  have hT' : 0 < Nat.card (NoiseTable (M + 1) P.l P.k (uwOf d) (Fin (repOf d) × Fin d) × (D × Commitment P.k P.νw → C)) := by
    rw [Nat.card_eq_fintype_card]; exact Fintype.card_pos
  rw [n1'] at h
  clear hM
  generalize Nat.card {x : NoiseTable (M + 1) P.l P.k (uwOf d) (Fin (repOf d) × Fin d) × (D × Commitment P.k P.νw → C) //
      Wins A P.νt P.Binf.toNat P.B22.toNat a t ch x.2 out (realGame A hν a s ch x.2 (firstRows x.1))} = F1 at *
  generalize Nat.card {x : NoiseTable M P.l P.k (uwOf d) (Fin (repOf d) × Fin d) × (D × Commitment P.k P.νw → C) //
      Wins A P.νt P.Binf.toNat P.B22.toNat a t ch x.2 out (realGame A hν a s ch x.2 x.1)} = F at *
  generalize Nat.card {x : NoiseTable (M + 1) P.l P.k (uwOf d) (Fin (repOf d) × Fin d) × (D × Commitment P.k P.νw → C) //
        Forges A' P.νt P.Binf.toNat P.B22.toNat a t ch out' (realGame A' hν a s ch x.2 x.1)} = F' at *
  generalize Nat.card (NoiseTable (M + 1) P.l P.k (uwOf d) (Fin (repOf d) × Fin d) × (D × Commitment P.k P.νw → C)) = T' at *
  generalize Nat.card (NoiseTable M P.l P.k (uwOf d) (Fin (repOf d) × Fin d) × (D × Commitment P.k P.νw → C)) = T at *
  have hεε : ε ≤ (F' : ℚ) / T' := by
    have e1 : ε = (F1 : ℚ) / T' := by
      rw [hε, div_eq_div_iff (by exact_mod_cast hT.ne') (by exact_mod_cast hT'.ne')]
      exact_mod_cast hrows.symm
    rw [e1]
    exact div_le_div_of_nonneg_right (by exact_mod_cast hle) (by positivity)
  exact le_trans hεε h

/-- Wins of an attacker that decides as it goes. -/
theorem few_free_wins (P : Par) (hP : P = raccoon128 ∨ P = raccoon192 ∨ P = raccoon256) (hν : 0 < q / 2 ^ P.νw) (d M N : Nat) (hM : N * (M + 1) + M + 1 < 2 ^ 512) (hd : ValidShares d)
    (C D : Type) [Nonempty C] [Fintype C] [DecidableEq C] [Fintype D] [DecidableEq D] [Nontrivial D] (A : FreeAttacker P.k P.l P.νw C D)
    (a : Fin P.k → Fin P.l → RPoly) (ha : Unpredictable P.νw (uwOf d) (Fin (repOf d) × Fin d) hν 512 a) (s : Fin P.l → Fin 512 → Int) (e₀ : Fin P.k → Fin 512 → Int) (t : Fin P.k → RPoly)
    (hs : ∀ j x, |s j x| ≤ repOf d * d * 2 ^ (utOf P.κ d - 1)) (he : ∀ j x, |e₀ j x| ≤ repOf d * d * 2 ^ (utOf P.κ d - 1))
    (ch : C → Fin 512 → Int) (hch : ∀ c, IsChallengeVec P.ω (ch c))
    (out : List (Outcome P.k P.l P.νw C) → Forgery C D)
    (ε : ℚ)
    (hε : ε = (Nat.card {x : NoiseTable N P.l P.k (uwOf d) (Fin (repOf d) × Fin d) × (D × Commitment P.k P.νw → C) //
        FreeWins A P.νt P.Binf.toNat P.B22.toNat a t ch x.2 out (freeGame A M N hν a s ch x.2 x.1)} : ℚ) /
      Nat.card (NoiseTable N P.l P.k (uwOf d) (Fin (repOf d) × Fin d) × (D × Commitment P.k P.νw → C)))
    (A' : Attacker P.k P.l P.νw C D)
    (hA' : A' = ((A.scheduled M N out).finishing (N * (M + 1) + M) hν P.νt a t ch fun v => out (A.seen M N v)).careful)
    (out' : List (Outcome P.k P.l P.νw C) → D × List Int × List Int)
    (hout' : out' = carefulOut ((A.scheduled M N out).finishing (N * (M + 1) + M) hν P.νt a t ch fun v => out (A.seen M N v)) (N * (M + 1) + M) fun v => out (A.seen M N v)) :
    (univ.filter fun n : Fin (N * (M + 1) + M + 1) => A'.signs n = false).card = (N + 1) * M + 1 ∧
    ε ≤ 2 ^ N *
      ((Nat.card {x : NoiseTable (N * (M + 1) + M + 1) P.l P.k (uwOf d) (Fin (repOf d) × Fin d) × (Fin (N * (M + 1) + M + 1) → C) //
          Forges A' P.νt P.Binf.toNat P.B22.toNat a t ch out' (simulatedGame A' hν a (publicB a s e₀) ch x.2 x.1) ∧ Fresh A' (simulatedGame A' hν a (publicB a s e₀) ch x.2 x.1)} : ℚ) /
        Nat.card (NoiseTable (N * (M + 1) + M + 1) P.l P.k (uwOf d) (Fin (repOf d) × Fin d) × (Fin (N * (M + 1) + M + 1) → C))) +
      N * (1 / 2 ^ fewBits P d + (N * (M + 1) + M + 1 : Nat) / 2 ^ 512) := by
  obtain ⟨h0, h⟩ := few_wins P hP hν d (N * (M + 1) + M) hM hd C D (A.scheduled M N out) a ha s e₀ t hs he ch hch (fun v => out (A.seen M N v)) _ rfl A' hA' out' hout'
  obtain ⟨n1, n2⟩ := schedule_counts (M := M) (N := N)
  have n1' : (univ.filter fun n : Fin (N * (M + 1) + M) => (A.scheduled M N out).signs n = true).card = N := n1
  have n2' : (univ.filter fun n : Fin (N * (M + 1) + M) => (A.scheduled M N out).signs n = false).card = (N + 1) * M := n2
  rw [n1'] at h
  rw [n2'] at h0
  refine ⟨h0, ?_⟩
  have hle : Nat.card {x : NoiseTable (N * (M + 1) + M) P.l P.k (uwOf d) (Fin (repOf d) × Fin d) × (D × Commitment P.k P.νw → C) //
      FreeWins A P.νt P.Binf.toNat P.B22.toNat a t ch x.2 out (freeGame A M N hν a s ch x.2 (signRows x.1))} ≤
      Nat.card {x : NoiseTable (N * (M + 1) + M) P.l P.k (uwOf d) (Fin (repOf d) × Fin d) × (D × Commitment P.k P.νw → C) //
        Wins (A.scheduled M N out) P.νt P.Binf.toNat P.B22.toNat a t ch x.2 (fun v => out (A.seen M N v)) (realGame (A.scheduled M N out) hν a s ch x.2 x.1)} :=
    Nat.card_le_card_of_injective (fun x => ⟨x.1, scheduled_wins A hν _ _ _ a t s ch x.1.2 out x.1.1 x.2⟩) fun x y e => Subtype.ext (congrArg (fun z => z.1) e)
  have hrows := signRows_card (M := M) (N := N) (l := P.l) (k := P.k) (u := uwOf d) (κ := Fin (repOf d) × Fin d) (D × Commitment P.k P.νw → C)
    (fun x => FreeWins A P.νt P.Binf.toNat P.B22.toNat a t ch x.2 out (freeGame A M N hν a s ch x.2 x.1))
  have hT : 0 < Nat.card (NoiseTable N P.l P.k (uwOf d) (Fin (repOf d) × Fin d) × (D × Commitment P.k P.νw → C)) := by
    rw [Nat.card_eq_fintype_card]; exact Fintype.card_pos
  have hT' : 0 < Nat.card (NoiseTable (N * (M + 1) + M) P.l P.k (uwOf d) (Fin (repOf d) × Fin d) × (D × Commitment P.k P.νw → C)) := by
    rw [Nat.card_eq_fintype_card]; exact Fintype.card_pos
  clear hM
  generalize Nat.card {x : NoiseTable (N * (M + 1) + M) P.l P.k (uwOf d) (Fin (repOf d) × Fin d) × (D × Commitment P.k P.νw → C) //
      FreeWins A P.νt P.Binf.toNat P.B22.toNat a t ch x.2 out (freeGame A M N hν a s ch x.2 (signRows x.1))} = F1 at *
  generalize Nat.card {x : NoiseTable N P.l P.k (uwOf d) (Fin (repOf d) × Fin d) × (D × Commitment P.k P.νw → C) //
      FreeWins A P.νt P.Binf.toNat P.B22.toNat a t ch x.2 out (freeGame A M N hν a s ch x.2 x.1)} = F at *
  generalize Nat.card {x : NoiseTable (N * (M + 1) + M) P.l P.k (uwOf d) (Fin (repOf d) × Fin d) × (D × Commitment P.k P.νw → C) //
        Wins (A.scheduled M N out) P.νt P.Binf.toNat P.B22.toNat a t ch x.2 (fun v => out (A.seen M N v)) (realGame (A.scheduled M N out) hν a s ch x.2 x.1)} = F' at *
  generalize Nat.card (NoiseTable (N * (M + 1) + M) P.l P.k (uwOf d) (Fin (repOf d) × Fin d) × (D × Commitment P.k P.νw → C)) = T' at *
  generalize Nat.card (NoiseTable N P.l P.k (uwOf d) (Fin (repOf d) × Fin d) × (D × Commitment P.k P.νw → C)) = T at *
  have hεε : ε ≤ (F' : ℚ) / T' := by
    have e1 : ε = (F1 : ℚ) / T' := by
      rw [hε, div_eq_div_iff (by exact_mod_cast hT.ne') (by exact_mod_cast hT'.ne')]
      exact_mod_cast hrows.symm
    rw [e1]
    exact div_le_div_of_nonneg_right (by exact_mod_cast hle) (by positivity)
  exact le_trans hεε h

/-- Strong wins that are second answers. -/
theorem few_reanswers (P : Par) (hP : P = raccoon128 ∨ P = raccoon192 ∨ P = raccoon256) (hν : 0 < q / 2 ^ P.νw) (d M N : Nat) (hM : N * (M + 1) + M ≤ 2 ^ 512) (hd : ValidShares d)
    (C D : Type) [Nonempty C] [Fintype C] [DecidableEq C] [Fintype D] [DecidableEq D] [Nontrivial D] (A : FreeAttacker P.k P.l P.νw C D)
    (a : Fin P.k → Fin P.l → RPoly) (ha : Unpredictable P.νw (uwOf d) (Fin (repOf d) × Fin d) hν 512 a) (s : Fin P.l → Fin 512 → Int) (e₀ : Fin P.k → Fin 512 → Int) (t : Fin P.k → RPoly)
    (hs : ∀ j x, |s j x| ≤ repOf d * d * 2 ^ (utOf P.κ d - 1)) (he : ∀ j x, |e₀ j x| ≤ repOf d * d * 2 ^ (utOf P.κ d - 1))
    (ht : ∀ r i, t r i = (roundZ P.νt (publicB a s e₀ r i) : ZMod q))
    (ch : C → Fin 512 → Int) (hch : ∀ c, IsChallengeVec P.ω (ch c))
    (out : List (Outcome P.k P.l P.νw C) → Forgery C D) (ε ε₁ : ℚ)
    (hε : ε = (Nat.card {x : NoiseTable N P.l P.k (uwOf d) (Fin (repOf d) × Fin d) × (D × Commitment P.k P.νw → C) //
        FreeWinsStrongly A P.νt P.Binf.toNat P.B22.toNat a t ch x.2 out (freeGame A M N hν a s ch x.2 x.1)} : ℚ) /
      Nat.card (NoiseTable N P.l P.k (uwOf d) (Fin (repOf d) × Fin d) × (D × Commitment P.k P.νw → C)))
    (hε₁ : ε₁ = (Nat.card {x : NoiseTable N P.l P.k (uwOf d) (Fin (repOf d) × Fin d) × (D × Commitment P.k P.νw → C) //
        FreeWins A P.νt P.Binf.toNat P.B22.toNat a t ch x.2 out (freeGame A M N hν a s ch x.2 x.1)} : ℚ) /
      Nat.card (NoiseTable N P.l P.k (uwOf d) (Fin (repOf d) × Fin d) × (D × Commitment P.k P.νw → C)))
    (A' : Attacker P.k P.l P.νw C D) (hA' : A' = (A.scheduled M N out).careful)
    (out' : List (Outcome P.k P.l P.νw C) → Forgery C D) (hout' : out' = fun v => out (A.seen M N ((A.scheduled M N out).memory v).view)) :
    ε ≤ ε₁ + 2 ^ N *
      ((Nat.card {x : NoiseTable (N * (M + 1) + M) P.l P.k (uwOf d) (Fin (repOf d) × Fin d) × (Fin (N * (M + 1) + M) → C) //
        ∃ v, v = simulatedGame A' hν a (publicB a s e₀) ch x.2 x.1 ∧ ∃ o ∈ v, ∃ z, o.2.2 = some z ∧
          ShortVector a (P.Binf.toNat + maskBound d) (imageBound P d) fun j i => z j i - unflatten P.l (out' v).2.2.2 j i} : ℚ) /
      Nat.card (NoiseTable (N * (M + 1) + M) P.l P.k (uwOf d) (Fin (repOf d) × Fin d) × (Fin (N * (M + 1) + M) → C))) +
      N * (1 / 2 ^ fewBits P d + (N * (M + 1) + M : Nat) / 2 ^ 512) := by
  have hDne : Nonempty D := ⟨A.digest []⟩
  have hk : 0 < P.k := by rcases hP with rfl | rfl | rfl <;> decide
  have hν1 : 1 < q / 2 ^ P.νw := by rcases hP with rfl | rfl | rfl <;> decide
  have hnever : NeverAsksTwice A' (N * (M + 1) + M) := by
    rw [hA']
    exact C87_never _ (le_trans hM (commitment_card hk hν1 D))
  clear hM
  obtain ⟨n1, -⟩ := schedule_counts (M := M) (N := N)
  have n1' : (univ.filter fun n : Fin (N * (M + 1) + M) => A'.signs n = true).card = N := by rw [hA']; exact n1
  have h := C92_transfer P hP hν d (N * (M + 1) + M) hd C D A' hnever a ha s e₀ hs he ch (fun c => (hch c).2) (Reanswers P.νt P.Binf.toNat P.B22.toNat a t ch out')
  rw [n1'] at h
  -- strong wins
  have h1 := card_or (fun x : NoiseTable N P.l P.k (uwOf d) (Fin (repOf d) × Fin d) × (D × Commitment P.k P.νw → C) =>
    FreeWins A P.νt P.Binf.toNat P.B22.toNat a t ch x.2 out (freeGame A M N hν a s ch x.2 x.1)) fun x => Reanswers P.νt P.Binf.toNat P.B22.toNat a t ch out (freeGame A M N hν a s ch x.2 x.1)
  have h2 : Nat.card {x : NoiseTable N P.l P.k (uwOf d) (Fin (repOf d) × Fin d) × (D × Commitment P.k P.νw → C) //
      FreeWinsStrongly A P.νt P.Binf.toNat P.B22.toNat a t ch x.2 out (freeGame A M N hν a s ch x.2 x.1)} ≤
      Nat.card {x : NoiseTable N P.l P.k (uwOf d) (Fin (repOf d) × Fin d) × (D × Commitment P.k P.νw → C) //
        FreeWins A P.νt P.Binf.toNat P.B22.toNat a t ch x.2 out (freeGame A M N hν a s ch x.2 x.1) ∨
        Reanswers P.νt P.Binf.toNat P.B22.toNat a t ch out (freeGame A M N hν a s ch x.2 x.1)} :=
    Nat.card_le_card_of_injective (fun x => ⟨x.1, strong_split A hν _ _ _ a t s ch x.1.2 out x.1.1 x.2⟩) fun x y e => Subtype.ext (congrArg (fun z => z.1) e)
  -- on the timetable, carefully
  have h3 : Nat.card {x : NoiseTable (N * (M + 1) + M) P.l P.k (uwOf d) (Fin (repOf d) × Fin d) × (D × Commitment P.k P.νw → C) //
      Reanswers P.νt P.Binf.toNat P.B22.toNat a t ch out (freeGame A M N hν a s ch x.2 (signRows x.1))} ≤
      Nat.card {x : NoiseTable (N * (M + 1) + M) P.l P.k (uwOf d) (Fin (repOf d) × Fin d) × (D × Commitment P.k P.νw → C) //
        Reanswers P.νt P.Binf.toNat P.B22.toNat a t ch out' (realGame A' hν a s ch x.2 x.1)} :=
    Nat.card_le_card_of_injective (fun x => ⟨x.1, by
      rw [hA', hout']
      exact careful_reanswers _ hν _ _ _ a t s ch x.1.2 (fun v => out (A.seen M N v)) x.1.1 (scheduled_reanswers A hν _ _ _ a t s ch x.1.2 out x.1.1 x.2)⟩)
      fun x y e => Subtype.ext (congrArg (fun z => z.1) e)
  have h4 : Nat.card {x : NoiseTable (N * (M + 1) + M) P.l P.k (uwOf d) (Fin (repOf d) × Fin d) × (Fin (N * (M + 1) + M) → C) //
      Reanswers P.νt P.Binf.toNat P.B22.toNat a t ch out' (simulatedGame A' hν a (publicB a s e₀) ch x.2 x.1) ∧ Fresh A' (simulatedGame A' hν a (publicB a s e₀) ch x.2 x.1)} ≤
      Nat.card {x : NoiseTable (N * (M + 1) + M) P.l P.k (uwOf d) (Fin (repOf d) × Fin d) × (Fin (N * (M + 1) + M) → C) //
        ∃ v, v = simulatedGame A' hν a (publicB a s e₀) ch x.2 x.1 ∧ ∃ o ∈ v, ∃ z, o.2.2 = some z ∧
          ShortVector a (P.Binf.toNat + maskBound d) (imageBound P d) fun j i => z j i - unflatten P.l (out' v).2.2.2 j i} :=
    Nat.card_le_card_of_injective (fun x => ⟨x.1, C89_short P hP hν d _ hd C D A' a _ t ht ch (fun c => (hch c).2) out' x.1.2 x.1.1 x.2.1⟩)
      fun x y e => Subtype.ext (congrArg (fun z => z.1) e)
  have hrows := signRows_card (M := M) (N := N) (l := P.l) (k := P.k) (u := uwOf d) (κ := Fin (repOf d) × Fin d) (D × Commitment P.k P.νw → C)
    (fun x => Reanswers P.νt P.Binf.toNat P.B22.toNat a t ch out (freeGame A M N hν a s ch x.2 x.1))
  have hT : 0 < Nat.card (NoiseTable N P.l P.k (uwOf d) (Fin (repOf d) × Fin d) × (D × Commitment P.k P.νw → C)) := by
    rw [Nat.card_eq_fintype_card]; exact Fintype.card_pos
  have hT' : 0 < Nat.card (NoiseTable (N * (M + 1) + M) P.l P.k (uwOf d) (Fin (repOf d) × Fin d) × (D × Commitment P.k P.νw → C)) := by
    rw [Nat.card_eq_fintype_card]; exact Fintype.card_pos
  generalize Nat.card {x : NoiseTable (N * (M + 1) + M) P.l P.k (uwOf d) (Fin (repOf d) × Fin d) × (Fin (N * (M + 1) + M) → C) //
      Reanswers P.νt P.Binf.toNat P.B22.toNat a t ch out' (simulatedGame A' hν a (publicB a s e₀) ch x.2 x.1) ∧ Fresh A' (simulatedGame A' hν a (publicB a s e₀) ch x.2 x.1)} = S at *
  generalize Nat.card {x : NoiseTable (N * (M + 1) + M) P.l P.k (uwOf d) (Fin (repOf d) × Fin d) × (Fin (N * (M + 1) + M) → C) // ∃ v, _} = S' at *
  generalize Nat.card (NoiseTable (N * (M + 1) + M) P.l P.k (uwOf d) (Fin (repOf d) × Fin d) × (Fin (N * (M + 1) + M) → C)) = U at *
  generalize Nat.card {x : NoiseTable (N * (M + 1) + M) P.l P.k (uwOf d) (Fin (repOf d) × Fin d) × (D × Commitment P.k P.νw → C) //
        Reanswers P.νt P.Binf.toNat P.B22.toNat a t ch out' (realGame A' hν a s ch x.2 x.1)} = R' at *
  generalize Nat.card {x : NoiseTable (N * (M + 1) + M) P.l P.k (uwOf d) (Fin (repOf d) × Fin d) × (D × Commitment P.k P.νw → C) //
      Reanswers P.νt P.Binf.toNat P.B22.toNat a t ch out (freeGame A M N hν a s ch x.2 (signRows x.1))} = R1 at *
  generalize Nat.card {x : NoiseTable N P.l P.k (uwOf d) (Fin (repOf d) × Fin d) × (D × Commitment P.k P.νw → C) //
        FreeWins A P.νt P.Binf.toNat P.B22.toNat a t ch x.2 out (freeGame A M N hν a s ch x.2 x.1) ∨
        Reanswers P.νt P.Binf.toNat P.B22.toNat a t ch out (freeGame A M N hν a s ch x.2 x.1)} = O at *
  generalize Nat.card {x : NoiseTable N P.l P.k (uwOf d) (Fin (repOf d) × Fin d) × (D × Commitment P.k P.νw → C) //
        Reanswers P.νt P.Binf.toNat P.B22.toNat a t ch out (freeGame A M N hν a s ch x.2 x.1)} = R at *
  generalize Nat.card {x : NoiseTable N P.l P.k (uwOf d) (Fin (repOf d) × Fin d) × (D × Commitment P.k P.νw → C) //
        FreeWins A P.νt P.Binf.toNat P.B22.toNat a t ch x.2 out (freeGame A M N hν a s ch x.2 x.1)} = F at *
  generalize Nat.card {x : NoiseTable N P.l P.k (uwOf d) (Fin (repOf d) × Fin d) × (D × Commitment P.k P.νw → C) //
        FreeWinsStrongly A P.νt P.Binf.toNat P.B22.toNat a t ch x.2 out (freeGame A M N hν a s ch x.2 x.1)} = G at *
  generalize Nat.card (NoiseTable (N * (M + 1) + M) P.l P.k (uwOf d) (Fin (repOf d) × Fin d) × (D × Commitment P.k P.νw → C)) = T' at *
  generalize Nat.card (NoiseTable N P.l P.k (uwOf d) (Fin (repOf d) × Fin d) × (D × Commitment P.k P.νw → C)) = T at *
  generalize (N : ℚ) * (1 / 2 ^ fewBits P d + (N * (M + 1) + M : Nat) / 2 ^ 512) = c at *
  have e1 : (R : ℚ) / T = (R1 : ℚ) / T' := by
    rw [div_eq_div_iff (by exact_mod_cast hT.ne') (by exact_mod_cast hT'.ne')]
    exact_mod_cast hrows.symm
  have e2 : (G : ℚ) / T ≤ F / T + R / T := by
    rw [← add_div]
    exact div_le_div_of_nonneg_right (by exact_mod_cast h2.trans h1) (by positivity)
  have e3 : (R1 : ℚ) / T' ≤ R' / T' := div_le_div_of_nonneg_right (by exact_mod_cast h3) (by positivity)
  have e4 : (S : ℚ) / U ≤ S' / U := div_le_div_of_nonneg_right (by exact_mod_cast h4) (by positivity)
  have e5 : (2 : ℚ) ^ N * (S / U) ≤ 2 ^ N * (S' / U) := mul_le_mul_of_nonneg_left e4 (by positivity)
  rw [hε, hε₁]
  linarith


/-- C92: few signatures. As `C90_bound`, but the loss of the simulation is a factor of 2 for each signing attempt and 2^−fewBits, not 2^−floodBits, of the noise: the attacker has a fraction
ε ≤ 2^N (p₂ + √(Q p₁) + Q/K) + N (2 · 2^−fewBits + (2 N(M+1) + 2 M + 1) 2^−512), with fewBits = 87, 261, 573 for Raccoon-128 with up to 4, up to 16, 32 shares and 70, 193, 301 for the
others. -/
theorem C92_bound (P : Par) (hP : P = raccoon128 ∨ P = raccoon192 ∨ P = raccoon256) (hν : 0 < q / 2 ^ P.νw) (E : Ext) (d M N len : Nat) (hM : N * (M + 1) + M + 1 < 2 ^ 512)
    (hd : ValidShares d) (B : ApiAttacker P) (pkb : List U8)
    (a : Fin P.k → Fin P.l → RPoly) (ha : Unpredictable P.νw (uwOf d) (Fin (repOf d) × Fin d) hν 512 a) (s : Fin P.l → Fin 512 → Int) (e₀ : Fin P.k → Fin 512 → Int) (t : Fin P.k → RPoly)
    (hs : ∀ j x, |s j x| ≤ repOf d * d * 2 ^ (utOf P.κ d - 1)) (he : ∀ j x, |e₀ j x| ≤ repOf d * d * 2 ^ (utOf P.κ d - 1))
    (ht : ∀ r i, t r i = (roundZ P.νt (publicB a s e₀ r i) : ZMod q))
    (K : Nat) (hK0 : 0 < K) (hK : ∀ γ, K * Nat.card {c // challengeMap P E c = γ} ≤ Nat.card (HashVal P)) (ε p₁ p₂ y : ℚ)
    (A : FreeAttacker P.k P.l P.νw (HashVal P) (HashVal P)) (hA : A = B.free P a t (challengeMap P E) len hν (digestOf P E pkb))
    (out : List (Outcome P.k P.l P.νw (HashVal P)) → Forgery (HashVal P) (HashVal P)) (hout : out = B.handsIn P a t (challengeMap P E) len (digestOf P E pkb))
    (hε : ε = (Nat.card {x : NoiseTable N P.l P.k (uwOf d) (Fin (repOf d) × Fin d) × (HashVal P × Commitment P.k P.νw → HashVal P) //
        FreeWinsStrongly A P.νt P.Binf.toNat P.B22.toNat a t (challengeMap P E) x.2 out (freeGame A M N hν a s (challengeMap P E) x.2 x.1)} : ℚ) /
      Nat.card (NoiseTable N P.l P.k (uwOf d) (Fin (repOf d) × Fin d) × (HashVal P × Commitment P.k P.νw → HashVal P)))
    [Nontrivial (HashVal P)]
    -- the first way
    (A₁ : Attacker P.k P.l P.νw (HashVal P) (HashVal P))
    (hA₁ : A₁ = ((A.scheduled M N out).finishing (N * (M + 1) + M) hν P.νt a t (challengeMap P E) fun v => out (A.seen M N v)).careful)
    (out₁ : List (Outcome P.k P.l P.νw (HashVal P)) → HashVal P × List Int × List Int)
    (hout₁ : out₁ = carefulOut ((A.scheduled M N out).finishing (N * (M + 1) + M) hν P.νt a t (challengeMap P E) fun v => out (A.seen M N v)) (N * (M + 1) + M)
      fun v => out (A.seen M N v))
    (hp₁ : p₁ = (Nat.card {x : NoiseTable (N * (M + 1) + M + 1) P.l P.k (uwOf d) (Fin (repOf d) × Fin d) × (Fin (N * (M + 1) + M + 1) → HashVal P) × (Fin (N * (M + 1) + M + 1) → HashVal P) //
        ∃ n : Fin (N * (M + 1) + M + 1), A₁.signs n = false ∧
          ∃ v v', v = simulatedGame A₁ hν a (publicB a s e₀) (challengeMap P E) x.2.1 x.1 ∧
          v' = simulatedGame A₁ hν a (publicB a s e₀) (challengeMap P E) (splice n x.2.1 x.2.2) x.1 ∧
          ShortRelation P a t (fun j i => unflatten P.l (out₁ v).2.2 j i - unflatten P.l (out₁ v').2.2 j i) (challengeMap P E (x.2.1 n) - challengeMap P E (x.2.2 n))} : ℚ) /
      Nat.card (NoiseTable (N * (M + 1) + M + 1) P.l P.k (uwOf d) (Fin (repOf d) × Fin d) × (Fin (N * (M + 1) + M + 1) → HashVal P) × (Fin (N * (M + 1) + M + 1) → HashVal P)))
    -- the second way
    (A₂ : Attacker P.k P.l P.νw (HashVal P) (HashVal P)) (hA₂ : A₂ = (A.scheduled M N out).careful)
    (out₂ : List (Outcome P.k P.l P.νw (HashVal P)) → Forgery (HashVal P) (HashVal P)) (hout₂ : out₂ = fun v => out (A.seen M N ((A.scheduled M N out).memory v).view))
    (hp₂ : p₂ = (Nat.card {x : NoiseTable (N * (M + 1) + M) P.l P.k (uwOf d) (Fin (repOf d) × Fin d) × (Fin (N * (M + 1) + M) → HashVal P) //
        ∃ v, v = simulatedGame A₂ hν a (publicB a s e₀) (challengeMap P E) x.2 x.1 ∧ ∃ o ∈ v, ∃ z, o.2.2 = some z ∧
          ShortVector a (P.Binf.toNat + maskBound d) (imageBound P d) fun j i => z j i - unflatten P.l (out₂ v).2.2.2 j i} : ℚ) /
      Nat.card (NoiseTable (N * (M + 1) + M) P.l P.k (uwOf d) (Fin (repOf d) × Fin d) × (Fin (N * (M + 1) + M) → HashVal P)))
    (hy0 : 0 ≤ y) (hy : p₁ * (((N + 1) * M : Nat) + 1) ≤ y * y) :
    ε ≤ 2 ^ N * (p₂ + y + (((N + 1) * M : Nat) + 1) / K) + N * (2 / 2 ^ fewBits P d + (2 * (N * (M + 1) + M : Nat) + 1) / 2 ^ 512) := by
  have hω : P.ω ≤ 512 := by rcases hP with rfl | rfl | rfl <;> decide
  obtain ⟨ε₁, hε₁⟩ : ∃ x : ℚ, x = (Nat.card {x : NoiseTable N P.l P.k (uwOf d) (Fin (repOf d) × Fin d) × (HashVal P × Commitment P.k P.νw → HashVal P) //
        FreeWins A P.νt P.Binf.toNat P.B22.toNat a t (challengeMap P E) x.2 out (freeGame A M N hν a s (challengeMap P E) x.2 x.1)} : ℚ) /
      Nat.card (NoiseTable N P.l P.k (uwOf d) (Fin (repOf d) × Fin d) × (HashVal P × Commitment P.k P.νw → HashVal P)) := exists_eq
  have h2 := few_reanswers P hP hν d M N (le_trans (Nat.le_succ _) hM.le) hd (HashVal P) (HashVal P) A a ha s e₀ t hs he ht (challengeMap P E) (challengeMap_vec hω E) out ε ε₁ hε hε₁ A₂ hA₂ out₂ hout₂
  rw [← hp₂] at h2
  obtain ⟨h0, h1⟩ := few_free_wins P hP hν d M N hM hd (HashVal P) (HashVal P) A a ha s e₀ t hs he (challengeMap P E) (challengeMap_vec hω E) out ε₁ hε₁ A₁ hA₁ out₁ hout₁
  obtain ⟨S, hS⟩ : ∃ S : ℚ, S = (Nat.card {x : NoiseTable (N * (M + 1) + M + 1) P.l P.k (uwOf d) (Fin (repOf d) × Fin d) × (Fin (N * (M + 1) + M + 1) → HashVal P) //
        Forges A₁ P.νt P.Binf.toNat P.B22.toNat a t (challengeMap P E) out₁ (simulatedGame A₁ hν a (publicB a s e₀) (challengeMap P E) x.2 x.1) ∧
          Fresh A₁ (simulatedGame A₁ hν a (publicB a s e₀) (challengeMap P E) x.2 x.1)} : ℚ) /
      Nat.card (NoiseTable (N * (M + 1) + M + 1) P.l P.k (uwOf d) (Fin (repOf d) × Fin d) × (Fin (N * (M + 1) + M + 1) → HashVal P)) := exists_eq
  have h3 := sim_forks P hP hν d (N * (M + 1) + M + 1) (HashVal P) (HashVal P) A₁ a (publicB a s e₀) t (challengeMap P E) (challengeMap_vec hω E) K hK0 hK out₁ S hS
  rw [← hp₁, h0, Nat.cast_add, Nat.cast_one] at h3
  rw [← hS] at h1
  have hQ : (0 : ℚ) < ((N + 1) * M : Nat) + 1 := add_pos_of_nonneg_of_pos (Nat.cast_nonneg _) one_pos
  have hKq : (0 : ℚ) < K := by exact_mod_cast hK0
  have h4 : S ≤ y + (((N + 1) * M : Nat) + 1) / K := fork_solve hQ hKq hy0 h3 hy
  clear hε hε₁ hp₁ hp₂ hS hM
  have h5 : (2 : ℚ) ^ N * S ≤ 2 ^ N * (y + (((N + 1) * M : Nat) + 1) / K) := mul_le_mul_of_nonneg_left h4 (by positivity)
  rw [Nat.cast_add (N * (M + 1) + M) 1, Nat.cast_one] at h1
  generalize (2 : ℚ) ^ 512 = b at *
  generalize (2 : ℚ) ^ fewBits P d = g at *
  generalize ((N * (M + 1) + M : Nat) : ℚ) = X at *
  have e : (N : ℚ) * (2 / g + (2 * X + 1) / b) = N * (1 / g + X / b) + N * (1 / g + (X + 1) / b) := by ring
  rw [e]
  linarith

/-- The bound says something: with 20 signing attempts in 2^64 steps, for Raccoon-128 with two shares, the noise costs no more than 2^−81. The hypotheses of C92_bound are those of
C90_bound, whose example is in `Props/Security`; those of C92_transfer are met by the attacker and the matrices
of the example in `Props/Entropy`. -/
example : (20 : ℚ) * (2 / 2 ^ fewBits raccoon128 2 + (2 * (20 * (2 ^ 64 + 1) + 2 ^ 64) + 1) / 2 ^ 512) ≤ 1 / 2 ^ 81 := by
  have e : fewBits raccoon128 2 = 87 := by decide
  have e2 : (2 : ℚ) ^ 512 = 2 ^ 200 * 2 ^ 200 * 2 ^ 112 := by rw [← pow_add, ← pow_add]
  rw [e, e2]
  norm_num

end Raccoon
