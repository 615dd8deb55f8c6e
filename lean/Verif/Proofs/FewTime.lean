import Verif.Proofs.Odds
import Verif.Proofs.Adaptive
/-!
# The adaptive game with and without the secret, by a factor
-/
namespace Raccoon
attribute [-instance] Monoid.toNPow
open Finset

section
variable {k l u ν M : Nat} {κ C D : Type} [Fintype κ]

/-- The coefficients of signing steps. -/
def signCoeffs (A : Attacker k l ν C D) (M : Nat) : Finset (Fin M × (Fin l ⊕ Fin k) × Fin 512) := univ.filter fun i => A.signs i.1 = true

theorem signCoeffs_card (A : Attacker k l ν C D) : (signCoeffs A M).card = (univ.filter fun n : Fin M => A.signs n = true).card * ((l + k) * 512) := by
  have e : signCoeffs A M = (univ.filter fun n : Fin M => A.signs n = true) ×ˢ (univ : Finset ((Fin l ⊕ Fin k) × Fin 512)) := by
    ext ⟨n, x⟩
    simp [signCoeffs]
  rw [e, Finset.card_product, Finset.card_univ, Fintype.card_prod, Fintype.card_sum, Fintype.card_fin, Fintype.card_fin, Fintype.card_fin]

theorem game_odds [DecidableEq κ] (A : Attacker k l ν C D) (hu : 0 < u) (hν : 0 < q / 2 ^ ν) (a : Fin k → Fin l → RPoly) (s : Fin l → Fin 512 → Int)
    (e₀ : Fin k → Fin 512 → Int) (ω B : Nat) (ch : C → Fin 512 → Int) (hch : ∀ c, ∑ i, |ch c i| = ω) (hs : ∀ j x, |s j x| ≤ B) (he : ∀ j x, |e₀ j x| ≤ B) (c : Fin M → C)
    (T : Set (List (Outcome k l ν C))) (Δ : Nat) :
    (Δ ^ (ω * B)) ^ (signCoeffs A M).card * Nat.card {W : NoiseTable M l k u κ // givenGame A hν a s ch c W ∈ T} ≤
      ((Δ + Fintype.card κ) ^ (ω * B)) ^ (signCoeffs A M).card * Nat.card {W : NoiseTable M l k u κ // simulatedGame A hν a (publicB a s e₀) ch c W ∈ T} +
        (Δ ^ (ω * B)) ^ (signCoeffs A M).card * edgeCount κ (signCoeffs A M) u (Δ + ω * B) := by
  have h1 : Nat.card {W : NoiseTable M l k u κ // givenGame A hν a s ch c W ∈ T} =
      respCount (κ := κ) u (gameShift A s e₀ ch c) (gameOf A hν a (publicB a s e₀) ch c ⁻¹' T) := by
    unfold respCount
    simp only [givenGame_eq A hν a s e₀ ch c, Set.mem_preimage]
  have h2 : Nat.card {W : NoiseTable M l k u κ // simulatedGame A hν a (publicB a s e₀) ch c W ∈ T} =
      respCount (κ := κ) u 0 (gameOf A hν a (publicB a s e₀) ch c ⁻¹' T) := by
    unfold respCount
    simp only [simulatedGame_eq A hν a (publicB a s e₀) ch c, Set.mem_preimage]
  rw [h1, h2]
  refine respCount_odds hu Δ (ω * B) (signCoeffs A M) _ _ ?_ ?_ _
  · rintro ⟨n, j, x⟩ hi
    have hn : A.signs n = true := (Finset.mem_filter.1 hi).2
    show |(if A.signs n = true then shiftOf s e₀ ch c (n, j, x) else 0) - 0| ≤ ((ω * B : Nat) : Int)
    rw [sub_zero, if_pos hn]
    rcases j with j | j
    · have h := negacyclicZ_bound (g := ch (c n)) (hs j) x
      rw [hch] at h
      push_cast
      rw [mul_comm]; exact h
    · have h := negacyclicZ_bound (g := ch (c n)) (he j) x
      rw [hch] at h
      push_cast
      rw [mul_comm]; exact h
  · rintro ⟨n, j, x⟩ hi
    have hn : ¬ A.signs n = true := fun h => hi (Finset.mem_filter.2 ⟨Finset.mem_univ _, h⟩)
    exact if_neg hn

end

end Raccoon
