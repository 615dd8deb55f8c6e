import Verif.Proofs.Flood
import Verif.Props.Extreme
/-!
# C74: a response says little about the secret
-/
namespace Raccoon
attribute [-instance] Monoid.toNPow
open Finset

/-- C74: the responses of the code: an attempt's response is the contribution of the secret plus the noise words of the attempt, the challenge has ω coefficients ±1, and
the coefficients of the secret are at most rep·d·2^(ut−1). -/
theorem C74_attempt (P : Par) (E : Ext) (d : Nat) (hd : ValidShares d) (pkb entropy0 msg entropy : List U8) (n : Nat) (cHash : List U8) (h z : List Int)
    (g : IsAttempt P E d pkb (keySecret P E d entropy0) msg entropy n cHash h z) :
    ∃ c : Fin 512 → Int, IsChallengeOf E P.ω cHash c ∧ ∑ i, |c i| = P.ω ∧ (∀ j x, |keySecret P E d entropy0 j x| ≤ repOf d * d * 2 ^ (utOf P.κ d - 1)) ∧
      ∀ j x, unflatten P.l z j x = negacyclicZ (keySecret P E d entropy0 j) c x + signedSum (uwOf d) (attemptWords P E d entropy n j x) := by
  obtain ⟨_, _, _, c, _, -, -, hc, -, -, -, -, hz, -⟩ := g
  refine ⟨c, hc, ?_, ?_, fun j x => ?_⟩
  · obtain ⟨F, hF⟩ := hc.chalPoly
    obtain ⟨cp, k1, -⟩ := hF F (Nat.le_refl _)
    rw [hc.unique (isChallengeOf_of k1)]
    exact chal_weight k1
  · intro j x
    have hu : 0 < utOf P.κ d := by
      obtain ⟨m, hm, rfl⟩ := hd
      unfold utOf
      rcases (by omega : m = 0 ∨ m = 1 ∨ m = 2 ∨ m = 3 ∨ m = 4 ∨ m = 5) with rfl | rfl | rfl | rfl | rfl | rfl <;> norm_num
    exact totalNoise_bound E (utOf P.κ d) P.κ d (repOf d) P.l hu (E.shake128 entropy0) 0 j x
  · rw [hz, ← C73_words P E d hd]

/-- C74: take any two secrets with coefficients of that size, any challenges of weight ω (one for each of N responses) and any set T of N responses. Over all tables of noise
words, the frequencies with which the responses fall into T differ by at most 2·N·l·512·ω·rep·d·2^(ut−1) / 2^uw. -/
theorem C74_close (P : Par) (d N : Nat) (hd : ValidShares d) (s s' : Fin P.l → Fin 512 → Int) (c : Fin N → Fin 512 → Int) (hc : ∀ n, ∑ i, |c n i| = P.ω)
    (hs : ∀ j x, |s j x| ≤ repOf d * d * 2 ^ (utOf P.κ d - 1)) (hs' : ∀ j x, |s' j x| ≤ repOf d * d * 2 ^ (utOf P.κ d - 1)) (T : Set (Fin N × Fin P.l × Fin 512 → Int)) :
    |((respCount (κ := Fin (repOf d) × Fin d) (uwOf d) (contribution s c) T : Nat) : Int) - (respCount (κ := Fin (repOf d) × Fin d) (uwOf d) (contribution s' c) T : Nat)| * 2 ^ uwOf d ≤
      (N * (P.l * 512) * (2 * (P.ω * (repOf d * d * 2 ^ (utOf P.κ d - 1)))) : Nat) *
        (Fintype.card (Fin N × Fin P.l × Fin 512 → Fin (repOf d) × Fin d → Fin (2 ^ uwOf d)) : Nat) := by
  have hu : 0 < uwOf d ∧ 0 < repOf d ∧ 0 < d := by
    obtain ⟨m, hm, rfl⟩ := hd
    rcases (by omega : m = 0 ∨ m = 1 ∨ m = 2 ∨ m = 3 ∨ m = 4 ∨ m = 5) with rfl | rfl | rfl | rfl | rfl | rfl <;> decide
  refine le_trans (respCount_close hu.1 (⟨0, hu.2.1⟩, ⟨0, hu.2.2⟩) _ _ T) (mul_le_mul_of_nonneg_right ?_ (Int.natCast_nonneg _))
  have key : ∀ i, |contribution s c i - contribution s' c i| ≤ ((2 * (P.ω * (repOf d * d * 2 ^ (utOf P.κ d - 1))) : Nat) : Int) := by
    intro i
    refine le_trans (abs_sub _ _) ?_
    have h1 := negacyclicZ_bound (g := c i.1) (hs i.2.1) i.2.2
    have h2 := negacyclicZ_bound (g := c i.1) (hs' i.2.1) i.2.2
    rw [hc] at h1 h2
    push_cast
    unfold contribution
    linarith
  refine le_trans (Finset.sum_le_sum fun i _ => key i) ?_
  rw [Finset.sum_const, Finset.card_univ, Fintype.card_prod, Fintype.card_prod, Fintype.card_fin, Fintype.card_fin, Fintype.card_fin, nsmul_eq_mul]
  push_cast
  exact le_refl _

/-- C74, in numbers: the frequencies differ by at most N·2^−16, 2^−14, 2^−12 for Raccoon-128 with up to 4, up to 16, 32 shares, and N·2^−14, 2^−12, 2^−10 for the others. -/
theorem C74_numbers (P : Par) (hP : P = raccoon128 ∨ P = raccoon192 ∨ P = raccoon256) (d N : Nat) (hd : ValidShares d) (s s' : Fin P.l → Fin 512 → Int)
    (c : Fin N → Fin 512 → Int) (hc : ∀ n, ∑ i, |c n i| = P.ω)
    (hs : ∀ j x, |s j x| ≤ repOf d * d * 2 ^ (utOf P.κ d - 1)) (hs' : ∀ j x, |s' j x| ≤ repOf d * d * 2 ^ (utOf P.κ d - 1)) (T : Set (Fin N × Fin P.l × Fin 512 → Int)) :
    |((respCount (κ := Fin (repOf d) × Fin d) (uwOf d) (contribution s c) T : Nat) : Int) - (respCount (κ := Fin (repOf d) × Fin d) (uwOf d) (contribution s' c) T : Nat)| * 2 ^ floodBits P d ≤
      N * (Fintype.card (Fin N × Fin P.l × Fin 512 → Fin (repOf d) × Fin d → Fin (2 ^ uwOf d)) : Nat) := by
  have h := C74_close P d N hd s s' c hc hs hs' T
  have hn : P.l * 512 * (2 * (P.ω * (repOf d * d * 2 ^ (utOf P.κ d - 1)))) * 2 ^ floodBits P d ≤ 2 ^ uwOf d := by
    obtain ⟨m, hm, rfl⟩ := hd
    rcases hP with rfl | rfl | rfl <;>
      rcases (by omega : m = 0 ∨ m = 1 ∨ m = 2 ∨ m = 3 ∨ m = 4 ∨ m = 5) with rfl | rfl | rfl | rfl | rfl | rfl <;> decide +kernel
  generalize |((respCount (κ := Fin (repOf d) × Fin d) (uwOf d) (contribution s c) T : Nat) : Int) - (respCount (κ := Fin (repOf d) × Fin d) (uwOf d) (contribution s' c) T : Nat)| = D at *
  generalize Fintype.card (Fin N × Fin P.l × Fin 512 → Fin (repOf d) × Fin d → Fin (2 ^ uwOf d)) = X at *
  generalize hK : P.l * 512 * (2 * (P.ω * (repOf d * d * 2 ^ (utOf P.κ d - 1)))) = K at *
  have hK' : N * (P.l * 512) * (2 * (P.ω * (repOf d * d * 2 ^ (utOf P.κ d - 1)))) = N * K := by rw [← hK, Nat.mul_assoc]
  rw [hK'] at h
  have hp : (0 : Int) < 2 ^ uwOf d := by positivity
  refine le_of_mul_le_mul_right ?_ hp
  have hn' : ((K * 2 ^ floodBits P d : Nat) : Int) ≤ ((2 ^ uwOf d : Nat) : Int) := by exact_mod_cast hn
  push_cast at hn' h
  have hX : (0 : Int) ≤ (N : Int) * X := by positivity
  calc D * 2 ^ floodBits P d * 2 ^ uwOf d = D * 2 ^ uwOf d * 2 ^ floodBits P d := by ring
    _ ≤ (N : Int) * K * X * 2 ^ floodBits P d := mul_le_mul_of_nonneg_right h (by positivity)
    _ = (N : Int) * X * (K * 2 ^ floodBits P d) := by ring
    _ ≤ (N : Int) * X * 2 ^ uwOf d := mul_le_mul_of_nonneg_left hn' hX

/-- Non-vacuity: the secret of the toy run of `Props/Demo.lean` (not zero) and the zero secret, with a challenge of that run used in each of three responses. -/
theorem flood_witness (entropy0 : List U8) : ∃ (s s' : Fin raccoon128.l → Fin 512 → Int) (c : Fin 3 → Fin 512 → Int), s ≠ s' ∧ (∀ n, ∑ i, |c n i| = raccoon128.ω) ∧
    (∀ j x, |s j x| ≤ repOf 2 * 2 * 2 ^ (utOf raccoon128.κ 2 - 1)) ∧ ∀ j x, |s' j x| ≤ repOf 2 * 2 * 2 ^ (utOf raccoon128.κ 2 - 1) := by
  have hk : ∀ j x, keySecret raccoon128 demoE 2 entropy0 j x = if x.val % 6 = 0 then 8 else 0 := by
    intro j x
    have := demo_noise 6 (Or.inl rfl) 4 (demoE.shake128 entropy0) 0 j x
    simp only [show ¬ (6 = 41) by decide, false_or] at this
    exact this
  obtain ⟨cp, k1⟩ : ∃ cp, Poly.chalPoly demoE 512 raccoon128.ω (List.replicate 32 0) = .ok cp := by
    have h := chalPoly_eq demoE 512 raccoon128.ω (List.replicate 32 0) _ rfl
    obtain ⟨m, -, -, e⟩ := h.1 (demo_finish.challenge _ (by rfl))
    exact ⟨_, e⟩
  refine ⟨keySecret raccoon128 demoE 2 entropy0, 0, fun _ => Poly.centered cp, ?_, fun _ => chal_weight k1, ?_, ?_⟩
  · intro h
    have := congrFun (congrFun h ⟨0, by decide⟩) 0
    rw [hk] at this
    exact absurd this (by decide)
  · intro j x
    rw [hk]
    have h8 : (8 : Int) ≤ repOf 2 * 2 * 2 ^ (utOf raccoon128.κ 2 - 1) := by decide +kernel
    split
    · exact h8
    · exact le_trans (by decide) h8
  · intro j x
    show |(0 : Int)| ≤ _
    rw [abs_zero]
    positivity

end Raccoon
