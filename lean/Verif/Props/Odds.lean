import Verif.Proofs.Odds
import Verif.Props.Flood
/-!
# C91: a response changes the odds between two secrets by a factor of at most 2
-/
namespace Raccoon
attribute [-instance] Monoid.toNPow
open Finset

theorem bernoulli_nat (x n r : Nat) (h : x + 1 = n + r) : (x + 1) ^ n * r ≤ x ^ n * (x + 1) := by
  induction n generalizing r with
  | zero => simp; omega
  | succ n ih =>
    have h1 := ih (r + 1) (by omega)
    have h2 : (x + 1) * r ≤ x * (r + 1) := by nlinarith
    calc (x + 1) ^ (n + 1) * r = (x + 1) ^ n * ((x + 1) * r) := by rw [Nat.pow_succ]; ring
      _ ≤ (x + 1) ^ n * (x * (r + 1)) := Nat.mul_le_mul_left _ h2
      _ = x * ((x + 1) ^ n * (r + 1)) := by ring
      _ ≤ x * (x ^ n * (x + 1)) := Nat.mul_le_mul_left _ h1
      _ = x ^ (n + 1) * (x + 1) := by rw [Nat.pow_succ]; ring

theorem half_pow (L : Nat) : (2 * L + 1) ^ L ≤ 2 * (2 * L) ^ L := by
  have h := bernoulli_nat (2 * L) L (L + 1) (by omega)
  refine Nat.le_of_mul_le_mul_right ?_ (Nat.succ_pos L)
  calc (2 * L + 1) ^ L * (L + 1) ≤ (2 * L) ^ L * (2 * L + 1) := h
    _ ≤ (2 * L) ^ L * (2 * (L + 1)) := Nat.mul_le_mul_left _ (by omega)
    _ = 2 * (2 * L) ^ L * (L + 1) := by ring

/-- The arithmetic: with D = 2τL the factor is 2^N. -/
theorem odds_finish {far N m τ γ X Y e x x' : Nat} (hn : m * (2 * (2 * τ * (m * γ) + γ) ^ τ) * e ≤ Y) (hτ : 0 < τ) (hL : 0 < m * γ) (hX : 0 < Y)
    (h1 : far * Y ≤ N * m * (2 * (2 * τ * (m * γ) + γ) ^ τ) * X)
    (h2 : ((2 * τ * (m * γ)) ^ γ) ^ (N * m) * x ≤ ((2 * τ * (m * γ) + τ) ^ γ) ^ (N * m) * x' + ((2 * τ * (m * γ)) ^ γ) ^ (N * m) * far) :
    x * e ≤ 2 ^ N * x' * e + N * X := by
  have hfar : far * e ≤ N * X := by
    refine Nat.le_of_mul_le_mul_right ?_ hX
    generalize 2 * (2 * τ * (m * γ) + γ) ^ τ = Z at *
    calc far * e * Y = far * Y * e := by ring
      _ ≤ N * m * Z * X * e := Nat.mul_le_mul_right _ h1
      _ = N * X * (m * Z * e) := by ring
      _ ≤ N * X * Y := Nat.mul_le_mul_left _ hn
  have p : ∀ D : Nat, (D ^ γ) ^ (N * m) = (D ^ (m * γ)) ^ N := fun D => by
    rw [← Nat.pow_mul, ← Nat.pow_mul]
    congr 1
    ring
  rw [p, p] at h2
  generalize m * γ = L at *
  have hD : 0 < ((2 * τ * L) ^ L) ^ N := Nat.pow_pos (Nat.pow_pos (Nat.mul_pos (by omega) hL))
  have hup : ((2 * τ * L + τ) ^ L) ^ N ≤ 2 ^ N * ((2 * τ * L) ^ L) ^ N := by
    rw [← Nat.mul_pow]
    refine Nat.pow_le_pow_left ?_ _
    calc (2 * τ * L + τ) ^ L = (τ * (2 * L + 1)) ^ L := by congr 1; ring
      _ = τ ^ L * (2 * L + 1) ^ L := Nat.mul_pow _ _ _
      _ ≤ τ ^ L * (2 * (2 * L) ^ L) := Nat.mul_le_mul_left _ (half_pow L)
      _ = 2 * (τ ^ L * (2 * L) ^ L) := by ring
      _ = 2 * (2 * τ * L) ^ L := by rw [← Nat.mul_pow]; congr 2; ring
  have h3 : x ≤ 2 ^ N * x' + far := by
    refine Nat.le_of_mul_le_mul_left ?_ hD
    calc ((2 * τ * L) ^ L) ^ N * x ≤ ((2 * τ * L + τ) ^ L) ^ N * x' + ((2 * τ * L) ^ L) ^ N * far := h2
      _ ≤ 2 ^ N * ((2 * τ * L) ^ L) ^ N * x' + ((2 * τ * L) ^ L) ^ N * far := Nat.add_le_add_right (Nat.mul_le_mul_right _ hup) _
      _ = ((2 * τ * L) ^ L) ^ N * (2 ^ N * x' + far) := by ring
  calc x * e ≤ (2 ^ N * x' + far) * e := Nat.mul_le_mul_right _ h3
    _ = 2 ^ N * x' * e + far * e := Nat.add_mul _ _ _
    _ ≤ _ := Nat.add_le_add_left hfar _

theorem contribution_near (P : Par) (d : Nat) {N : Nat} (s s' : Fin P.l → Fin 512 → Int) (c : Fin N → Fin 512 → Int) (hc : ∀ n, ∑ i, |c n i| = P.ω)
    (hs : ∀ j x, |s j x| ≤ repOf d * d * 2 ^ (utOf P.κ d - 1)) (hs' : ∀ j x, |s' j x| ≤ repOf d * d * 2 ^ (utOf P.κ d - 1)) (i : Fin N × Fin P.l × Fin 512) :
    |contribution s c i - contribution s' c i| ≤ ((2 * (P.ω * (repOf d * d * 2 ^ (utOf P.κ d - 1))) : Nat) : Int) := by
  refine le_trans (abs_sub _ _) ?_
  have h1 := negacyclicZ_bound (g := c i.1) (hs i.2.1) i.2.2
  have h2 := negacyclicZ_bound (g := c i.1) (hs' i.2.1) i.2.2
  rw [hc] at h1 h2
  push_cast
  unfold contribution
  linarith

/-- C91: take any two secrets with coefficients of the size keys have, any challenges of weight ω (one for each of N responses) and any set T of N responses, and any D. Over
all tables of noise words, the number with which the responses fall into T under the first secret is at most ((D + rep·d) / D)^(N·l·512·c) times the number under the second, and
N·l·512·2·((D + c) / 2^uw)^(rep·d) of all tables more; here c = 2·ω·rep·d·2^(ut−1). -/
theorem C91_odds (P : Par) (d N D : Nat) (hd : ValidShares d) (s s' : Fin P.l → Fin 512 → Int) (c : Fin N → Fin 512 → Int) (hc : ∀ n, ∑ i, |c n i| = P.ω)
    (hs : ∀ j x, |s j x| ≤ repOf d * d * 2 ^ (utOf P.κ d - 1)) (hs' : ∀ j x, |s' j x| ≤ repOf d * d * 2 ^ (utOf P.κ d - 1)) (T : Set (Fin N × Fin P.l × Fin 512 → Int)) :
    ∃ far : Nat,
      far * (2 ^ uwOf d) ^ (repOf d * d) ≤ N * (P.l * 512) * (2 * (D + 2 * (P.ω * (repOf d * d * 2 ^ (utOf P.κ d - 1)))) ^ (repOf d * d)) *
        Fintype.card (Fin N × Fin P.l × Fin 512 → Fin (repOf d) × Fin d → Fin (2 ^ uwOf d)) ∧
      (D ^ (2 * (P.ω * (repOf d * d * 2 ^ (utOf P.κ d - 1))))) ^ (N * (P.l * 512)) * respCount (κ := Fin (repOf d) × Fin d) (uwOf d) (contribution s c) T ≤
        ((D + repOf d * d) ^ (2 * (P.ω * (repOf d * d * 2 ^ (utOf P.κ d - 1))))) ^ (N * (P.l * 512)) * respCount (κ := Fin (repOf d) × Fin d) (uwOf d) (contribution s' c) T +
        (D ^ (2 * (P.ω * (repOf d * d * 2 ^ (utOf P.κ d - 1))))) ^ (N * (P.l * 512)) * far := by
  have hu : 0 < uwOf d := by
    obtain ⟨m, hm, rfl⟩ := hd
    rcases (by omega : m = 0 ∨ m = 1 ∨ m = 2 ∨ m = 3 ∨ m = 4 ∨ m = 5) with rfl | rfl | rfl | rfl | rfl | rfl <;> decide
  have e1 : Fintype.card (Fin (repOf d) × Fin d) = repOf d * d := by rw [Fintype.card_prod, Fintype.card_fin, Fintype.card_fin]
  have e2 : Fintype.card (Fin N × Fin P.l × Fin 512) = N * (P.l * 512) := by rw [Fintype.card_prod, Fintype.card_prod, Fintype.card_fin, Fintype.card_fin, Fintype.card_fin]
  have h1 := edgeCount_le (Fin (repOf d) × Fin d) (univ : Finset (Fin N × Fin P.l × Fin 512)) hu (D + 2 * (P.ω * (repOf d * d * 2 ^ (utOf P.κ d - 1))))
  have h2 := respCount_odds (κ := Fin (repOf d) × Fin d) hu D (2 * (P.ω * (repOf d * d * 2 ^ (utOf P.κ d - 1)))) univ _ _ (fun i _ => contribution_near P d s s' c hc hs hs' i)
    (fun i hi => absurd (Finset.mem_univ i) hi) T
  rw [Finset.card_univ, e1, e2] at h1 h2
  exact ⟨_, h1, h2⟩

/-- C91, in numbers: N responses fall into any set T under the first secret with at most 2^N times the frequency under the second, but for a part N·2^−90, 2^−268, 2^−596 of the
tables for Raccoon-128 with up to 4, up to 16, 32 shares, and N·2^−73, 2^−202, 2^−336 for the others. -/
theorem C91_numbers (P : Par) (hP : P = raccoon128 ∨ P = raccoon192 ∨ P = raccoon256) (d N : Nat) (hd : ValidShares d) (s s' : Fin P.l → Fin 512 → Int)
    (c : Fin N → Fin 512 → Int) (hc : ∀ n, ∑ i, |c n i| = P.ω)
    (hs : ∀ j x, |s j x| ≤ repOf d * d * 2 ^ (utOf P.κ d - 1)) (hs' : ∀ j x, |s' j x| ≤ repOf d * d * 2 ^ (utOf P.κ d - 1)) (T : Set (Fin N × Fin P.l × Fin 512 → Int)) :
    respCount (κ := Fin (repOf d) × Fin d) (uwOf d) (contribution s c) T * 2 ^ oddsBits P d ≤
      2 ^ N * respCount (κ := Fin (repOf d) × Fin d) (uwOf d) (contribution s' c) T * 2 ^ oddsBits P d +
        N * Fintype.card (Fin N × Fin P.l × Fin 512 → Fin (repOf d) × Fin d → Fin (2 ^ uwOf d)) := by
  obtain ⟨far, h1, h2⟩ := C91_odds P d N (2 * (repOf d * d) * (P.l * 512 * (2 * (P.ω * (repOf d * d * 2 ^ (utOf P.κ d - 1)))))) hd s s' c hc hs hs' T
  have hn : P.l * 512 * (2 * (2 * (repOf d * d) * (P.l * 512 * (2 * (P.ω * (repOf d * d * 2 ^ (utOf P.κ d - 1))))) +
      2 * (P.ω * (repOf d * d * 2 ^ (utOf P.κ d - 1)))) ^ (repOf d * d)) * 2 ^ oddsBits P d ≤ (2 ^ uwOf d) ^ (repOf d * d) ∧
      0 < repOf d * d ∧ 0 < P.l * 512 * (2 * (P.ω * (repOf d * d * 2 ^ (utOf P.κ d - 1)))) := by
    obtain ⟨m, hm, rfl⟩ := hd
    rcases hP with rfl | rfl | rfl <;>
      rcases (by omega : m = 0 ∨ m = 1 ∨ m = 2 ∨ m = 3 ∨ m = 4 ∨ m = 5) with rfl | rfl | rfl | rfl | rfl | rfl <;> decide +kernel
  obtain ⟨hn, hτ, hL⟩ := hn
  have hX : 0 < (2 ^ uwOf d) ^ (repOf d * d) := Nat.pow_pos (Nat.pow_pos (by omega))
  generalize respCount (κ := Fin (repOf d) × Fin d) (uwOf d) (contribution s c) T = a at *
  generalize respCount (κ := Fin (repOf d) × Fin d) (uwOf d) (contribution s' c) T = a' at *
  generalize Fintype.card (Fin N × Fin P.l × Fin 512 → Fin (repOf d) × Fin d → Fin (2 ^ uwOf d)) = X at *
  generalize (2 ^ uwOf d) ^ (repOf d * d) = Y at *
  generalize 2 * (P.ω * (repOf d * d * 2 ^ (utOf P.κ d - 1))) = γ at *
  generalize repOf d * d = τ at *
  generalize P.l * 512 = m at *
  generalize 2 ^ oddsBits P d = e at *
  exact odds_finish hn hτ hL hX h1 h2

/-- C91, for one response: a set of responses hit with frequency p under one secret is hit with frequency at least (p − 2^−73) / 2 under any other. -/
theorem C91_single (P : Par) (hP : P = raccoon128 ∨ P = raccoon192 ∨ P = raccoon256) (d : Nat) (hd : ValidShares d) (s s' : Fin P.l → Fin 512 → Int)
    (c : Fin 512 → Int) (hc : ∑ i, |c i| = P.ω)
    (hs : ∀ j x, |s j x| ≤ repOf d * d * 2 ^ (utOf P.κ d - 1)) (hs' : ∀ j x, |s' j x| ≤ repOf d * d * 2 ^ (utOf P.κ d - 1)) (T : Set (Fin 1 × Fin P.l × Fin 512 → Int)) :
    respCount (κ := Fin (repOf d) × Fin d) (uwOf d) (contribution s fun _ => c) T * 2 ^ 73 ≤
      2 * respCount (κ := Fin (repOf d) × Fin d) (uwOf d) (contribution s' fun _ => c) T * 2 ^ 73 +
        Fintype.card (Fin 1 × Fin P.l × Fin 512 → Fin (repOf d) × Fin d → Fin (2 ^ uwOf d)) := by
  have h := C91_numbers P hP d 1 hd s s' (fun _ => c) (fun _ => hc) hs hs' T
  have he : 73 ≤ oddsBits P d := by
    obtain ⟨m, hm, rfl⟩ := hd
    rcases hP with rfl | rfl | rfl <;>
      rcases (by omega : m = 0 ∨ m = 1 ∨ m = 2 ∨ m = 3 ∨ m = 4 ∨ m = 5) with rfl | rfl | rfl | rfl | rfl | rfl <;> decide
  obtain ⟨r, hr⟩ := Nat.exists_eq_add_of_le he
  rw [hr, Nat.pow_add, Nat.pow_one, Nat.one_mul] at h
  have hp : 0 < 2 ^ r := Nat.pow_pos (by omega)
  generalize Fintype.card (Fin 1 × Fin P.l × Fin 512 → Fin (repOf d) × Fin d → Fin (2 ^ uwOf d)) = X at *
  generalize respCount (κ := Fin (repOf d) × Fin d) (uwOf d) (contribution s fun _ => c) T = a at *
  generalize respCount (κ := Fin (repOf d) × Fin d) (uwOf d) (contribution s' fun _ => c) T = a' at *
  generalize (2 : Nat) ^ 73 = f at *
  generalize 2 ^ r = g at *
  refine Nat.le_of_mul_le_mul_right ?_ hp
  calc a * f * g = a * (f * g) := Nat.mul_assoc _ _ _
    _ ≤ 2 * a' * (f * g) + X := h
    _ ≤ 2 * a' * (f * g) + X * g := Nat.add_le_add_left (Nat.le_mul_of_pos_right _ hp) _
    _ = (2 * a' * f + X) * g := by ring

/-- Non-vacuity: three responses under the secret of the toy run of `Props/Demo.lean` and under the zero secret; set T: the first coefficient of the first response is 0. -/
example (entropy0 : List U8) : ∃ (s s' : Fin raccoon128.l → Fin 512 → Int) (c : Fin 3 → Fin 512 → Int), s ≠ s' ∧
    respCount (κ := Fin (repOf 2) × Fin 2) (uwOf 2) (contribution s c) {z | z (0, ⟨0, by decide⟩, 0) = 0} * 2 ^ 90 ≤
      2 ^ 3 * respCount (κ := Fin (repOf 2) × Fin 2) (uwOf 2) (contribution s' c) {z | z (0, ⟨0, by decide⟩, 0) = 0} * 2 ^ 90 +
        3 * Fintype.card (Fin 3 × Fin raccoon128.l × Fin 512 → Fin (repOf 2) × Fin 2 → Fin (2 ^ uwOf 2)) := by
  obtain ⟨s, s', c, hne, hc, hs, hs'⟩ := flood_witness entropy0
  exact ⟨s, s', c, hne, C91_numbers raccoon128 (Or.inl rfl) 2 3 ⟨1, by decide, rfl⟩ s s' c hc hs hs' _⟩

end Raccoon
