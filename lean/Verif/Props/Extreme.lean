import Verif.Proofs.Extreme
import Verif.Props.Wire
/-!
# C73: how rarely signing is undefined
-/
namespace Raccoon
attribute [-instance] Monoid.toNPow
open Finset

/-- C73: each coefficient of the response mask of an attempt is the sum of its noise words, read as two's complement numbers. -/
theorem C73_words (P : Par) (E : Ext) (d : Nat) (hd : ValidShares d) (entropy : List U8) (n : Nat) (j : Fin P.l) (c : Fin 512) :
    ephemeralR P E d entropy n j c = signedSum (uwOf d) (attemptWords P E d entropy n j c) := by
  have hu : 0 < uwOf d := by
    obtain ⟨m, hm, rfl⟩ := hd
    rcases (by omega : m = 0 ∨ m = 1 ∨ m = 2 ∨ m = 3 ∨ m = 4 ∨ m = 5) with rfl | rfl | rfl | rfl | rfl | rfl <;> decide
  unfold ephemeralR noiseVec totalNoise signedSum
  rw [Fintype.sum_prod_type, Finset.sum_range]
  refine Finset.sum_congr rfl fun r _ => ?_
  rw [Finset.sum_range]
  refine Finset.sum_congr rfl fun s _ => ?_
  unfold attemptWords
  rw [signedWord_bmod hu]
  rfl

/-- C73: with a generated key (refreshed or reloaded any number of times) and a buffer that has room for the hash, `sign` is undefined only if in some attempt the noise
words of some response coefficient add up to 15·2^40 or more, or those of the very last one to 8·2^40 or more, in absolute value and up to 90112. -/
theorem C73_undefined (P : Par) (hP : P = raccoon128 ∨ P = raccoon192 ∨ P = raccoon256) (E : Ext) (fuel0 fuel d : Nat) (hd : ValidShares d)
    (entropy0 seed : List U8) (hseed : seed.length = P.κ / 8) (sk0 sk : SKey P.k P.l d) (h0 : Api.generate P (utTableOf P) E fuel0 d entropy0 seed = .ok sk0)
    (hder : SKey.Derived P E sk0 sk) (entropy msg buf : List U8) (hbuf : 2 * P.κ / 8 ≤ buf.length) (h : Api.sign P E fuel d sk entropy msg buf = .ub) :
    ∃ n < fuel, ∃ (j : Fin P.l) (c : Fin 512), 15 * 2 ^ 40 - 90112 ≤ |signedSum (uwOf d) (attemptWords P E d entropy n j c)| ∨
      8 * 2 ^ 40 - 90112 ≤ |signedSum (uwOf d) (attemptWords P E d entropy n j c)| ∧ j.val = P.l - 1 ∧ c.val = 511 := by
  obtain ⟨n, hn, j, c, hx⟩ := C53_wire P hP E fuel0 fuel d hd entropy0 seed hseed sk0 sk h0 hder entropy msg buf hbuf h
  rw [C73_words P E d hd] at hx
  exact ⟨n, hn, j, c, hx⟩

/-- C73, in numbers: how many families of noise words reach these thresholds. For 15·2^40 the fraction is below 2^−60 (with up to four shares there is none); for 8·2^40
it is below 2^−15, and below 2^−195 with up to four shares. -/
theorem C73_rare :
    (∀ d, d = 1 ∨ d = 2 ∨ d = 4 → RareSum (Fin (repOf d) × Fin d) (uwOf d) (8 * 2 ^ 40 - 90112) 195 ∧
      ∀ x : Fin (repOf d) × Fin d → Fin (2 ^ uwOf d), |signedSum (uwOf d) x| < 15 * 2 ^ 40 - 90112) ∧
    (∀ d, d = 8 ∨ d = 16 → RareSum (Fin (repOf d) × Fin d) (uwOf d) (8 * 2 ^ 40 - 90112) 16 ∧ RareSum (Fin (repOf d) × Fin d) (uwOf d) (15 * 2 ^ 40 - 90112) 100) ∧
    RareSum (Fin (repOf 32) × Fin 32) (uwOf 32) (8 * 2 ^ 40 - 90112) 15 ∧ RareSum (Fin (repOf 32) × Fin 32) (uwOf 32) (15 * 2 ^ 40 - 90112) 60 := by
  refine ⟨?_, ?_, ?_, ?_⟩
  · have key : ∀ (ι : Type) [Fintype ι] [DecidableEq ι], Fintype.card ι = 8 → RareSum ι 41 (8 * 2 ^ 40 - 90112) 195 ∧
        ∀ x : ι → Fin (2 ^ 41), |signedSum 41 x| < 15 * 2 ^ 40 - 90112 := by
      intro ι _ _ hc
      constructor
      · apply rare_of_topCount (by decide)
        refine Nat.le_trans (Nat.mul_le_mul_left _ (topCount_near _ _ 90112 ?_)) ?_
        · rw [hc]; decide +kernel
        · rw [hc]; decide +kernel
      · intro x
        refine lt_of_le_of_lt (signedSum_le (by decide) x) ?_
        rw [hc]; norm_num
    rintro d (rfl | rfl | rfl)
    all_goals exact key _ rfl
  · rintro d (rfl | rfl)
    all_goals exact ⟨rare_chernoff 32 6 34 _ _ 1504 135 128 rfl (by decide) (by decide) (by decide) (by decide +kernel) (by decide +kernel) (by decide +kernel),
      rare_chernoff 32 6 34 _ _ 1952 24 16 rfl (by decide) (by decide) (by decide) (by decide +kernel) (by decide +kernel) (by decide +kernel)⟩
  · exact rare_chernoff 128 7 32 _ _ 10112 259 256 rfl (by decide) (by decide) (by decide) (by decide +kernel) (by decide +kernel) (by decide +kernel)
  · exact rare_chernoff 128 7 32 _ _ 11904 263 256 rfl (by decide) (by decide) (by decide) (by decide +kernel) (by decide +kernel) (by decide +kernel)

/-- C73, up to four shares: `sign` is undefined only if in some attempt all eight noise words of the very last response coefficient are within 90112 of the same extreme. -/
theorem C73_few_shares (P : Par) (hP : P = raccoon128 ∨ P = raccoon192 ∨ P = raccoon256) (E : Ext) (fuel0 fuel d : Nat) (hd : d = 1 ∨ d = 2 ∨ d = 4)
    (entropy0 seed : List U8) (hseed : seed.length = P.κ / 8) (sk0 sk : SKey P.k P.l d) (h0 : Api.generate P (utTableOf P) E fuel0 d entropy0 seed = .ok sk0)
    (hder : SKey.Derived P E sk0 sk) (entropy msg buf : List U8) (hbuf : 2 * P.κ / 8 ≤ buf.length) (h : Api.sign P E fuel d sk entropy msg buf = .ub) :
    Fintype.card (Fin (repOf d) × Fin d) = 8 ∧
    ∃ n < fuel, ∃ (j : Fin P.l) (c : Fin 512), j.val = P.l - 1 ∧ c.val = 511 ∧
      ((∀ rs, 2 ^ 40 - 90112 ≤ signedWord (uwOf d) (attemptWords P E d entropy n j c rs)) ∨ ∀ rs, signedWord (uwOf d) (attemptWords P E d entropy n j c rs) ≤ -(2 ^ 40 - 90112)) := by
  have hv : ValidShares d := by rcases hd with rfl | rfl | rfl; exacts [⟨0, by omega, rfl⟩, ⟨1, by omega, rfl⟩, ⟨2, by omega, rfl⟩]
  have hcard : Fintype.card (Fin (repOf d) × Fin d) = 8 := by rcases hd with rfl | rfl | rfl <;> rfl
  have hu : uwOf d = 41 := by rcases hd with rfl | rfl | rfl <;> rfl
  refine ⟨hcard, ?_⟩
  obtain ⟨n, hn, j, c, hx⟩ := C73_undefined P hP E fuel0 fuel d hv entropy0 seed hseed sk0 sk h0 hder entropy msg buf hbuf h
  rcases hx with hx | ⟨hx, hj, hc⟩
  · exact absurd hx (not_le.2 ((C73_rare.1 d hd).2 _))
  · refine ⟨n, hn, j, c, hj, hc, ?_⟩
    have := near_extreme (u := uwOf d) (by rw [hu]; decide) (attemptWords P E d entropy n j c) 90112 (by rw [hcard, show uwOf d - 1 = 40 by rw [hu]]; exact_mod_cast hx)
    rw [show uwOf d - 1 = 40 by rw [hu]] at this
    exact this

end Raccoon
