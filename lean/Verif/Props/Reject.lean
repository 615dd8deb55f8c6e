import Verif.Props.Flood
import Verif.Props.WireExact
import Verif.Props.DemoLike
/-!
# C76: why an attempt is given up
-/
namespace Raccoon
attribute [-instance] Monoid.toNPow
open Finset

/-- The size of the response of an attempt. -/
theorem attempt_response_bound (P : Par) (E : Ext) (d : Nat) (hd : ValidShares d) (pkb entropy0 msg entropy : List U8) (n : Nat) (c : List U8) (h z : List Int)
    (g : IsAttempt P E d pkb (keySecret P E d entropy0) msg entropy n c h z) (x : Int) (hx : x ∈ z) :
    x.natAbs ≤ P.ω * (repOf d * d * 2 ^ (utOf P.κ d - 1)) + repOf d * d * 2 ^ (uwOf d - 1) := by
  have g0 := g
  obtain ⟨_, _, _, cI, _, -, -, hc, -, -, -, hzl, hz, -⟩ := g0
  obtain ⟨cI', hc', hw, hs, -⟩ := C74_attempt P E d hd pkb entropy0 msg entropy n c h z g
  obtain rfl := hc.unique hc'
  obtain ⟨j, y, rfl⟩ := mem_iff_unflatten hzl hx
  have hu : 0 < uwOf d := by
    obtain ⟨m, hm, rfl⟩ := hd
    rcases (by omega : m = 0 ∨ m = 1 ∨ m = 2 ∨ m = 3 ∨ m = 4 ∨ m = 5) with rfl | rfl | rfl | rfl | rfl | rfl <;> decide
  have h1 := negacyclicZ_bound (f := keySecret P E d entropy0 j) (g := cI) (B := ((repOf d * d * 2 ^ (utOf P.κ d - 1) : Nat) : Int)) (fun x => by have := hs j x; push_cast; exact this) y
  have h2 : |ephemeralR P E d entropy n j y| ≤ ((repOf d * d * 2 ^ (uwOf d - 1) : Nat) : Int) := by
    have := totalNoise_bound E (uwOf d) P.κ d (repOf d) P.l hu (E.shake128 entropy) (n * ((P.l + P.k) * rowBytesOf P d)) j y
    push_cast; exact this
  rw [hw] at h1
  rw [hz]
  dsimp only
  have h3 := abs_add_le (negacyclicZ (keySecret P E d entropy0 j) cI y) (ephemeralR P E d entropy n j y)
  have h4 : ((repOf d * d * 2 ^ (utOf P.κ d - 1) : Nat) : Int) * (P.ω : Int) = ((P.ω * (repOf d * d * 2 ^ (utOf P.κ d - 1)) : Nat) : Int) := by push_cast; ring
  rw [h4] at h1
  generalize P.ω * (repOf d * d * 2 ^ (utOf P.κ d - 1)) = a at *
  generalize repOf d * d * 2 ^ (uwOf d - 1) = b at *
  have h5 : |negacyclicZ (keySecret P E d entropy0 j) cI y + ephemeralR P E d entropy n j y| ≤ (a : Int) + b := le_trans h3 (add_le_add h1 h2)
  rw [Int.abs_eq_natAbs] at h5
  omega

/-- C76: the bound on the largest response coefficient never rejects an attempt. -/
theorem C76_response_in_bounds (P : Par) (hP : P = raccoon128 ∨ P = raccoon192 ∨ P = raccoon256) (E : Ext) (d : Nat) (hd : ValidShares d) (pkb entropy0 msg entropy : List U8)
    (n : Nat) (c : List U8) (h z : List Int) (g : IsAttempt P E d pkb (keySecret P E d entropy0) msg entropy n c h z) : ∀ x ∈ z, x.natAbs ≤ P.Binf.toNat := by
  intro x hx
  refine Nat.le_trans (attempt_response_bound P E d hd pkb entropy0 msg entropy n c h z g x hx) ?_
  obtain ⟨m, hm, rfl⟩ := hd
  rcases hP with rfl | rfl | rfl <;>
    rcases (by omega : m = 0 ∨ m = 1 ∨ m = 2 ∨ m = 3 ∨ m = 4 ∨ m = 5) with rfl | rfl | rfl | rfl | rfl | rfl <;> decide +kernel

/-- C76: an attempt is given up for one of three reasons only: its encoding is too long, a hint coefficient exceeds 2, or the sum of squares is too large. -/
theorem C76_reasons (P : Par) (hP : P = raccoon128 ∨ P = raccoon192 ∨ P = raccoon256) (E : Ext) (d : Nat) (hd : ValidShares d) (pkb entropy0 msg entropy : List U8)
    (n : Nat) (c : List U8) (h z : List Int) (g : IsAttempt P E d pkb (keySecret P E d entropy0) msg entropy n c h z) (len : Nat) :
    ¬ Acceptable P len c h z ↔ 8 * len < 8 * c.length + (sigBits h z).length ∨ (∃ x ∈ h, 3 ≤ x.natAbs) ∨ P.B22.toNat < 2 ^ 24 * sqSum h + scaledSqSum z := by
  have hz := C76_response_in_bounds P hP E d hd pkb entropy0 msg entropy n c h z g
  have e1 : P.Binf.toNat / 2 ^ P.νw = 2 := by rcases hP with rfl | rfl | rfl <;> decide +kernel
  have e2 : 2 * P.νw - 64 = 24 := by rcases hP with rfl | rfl | rfl <;> rfl
  unfold Acceptable NormsOK
  rw [e1, e2]
  constructor
  · intro hn
    by_contra hcon
    rw [not_or, not_or, not_lt, not_lt, not_exists] at hcon
    refine hn ⟨hcon.1, fun x hx => ?_, hz, hcon.2.2⟩
    have := hcon.2.1 x
    by_contra hx2
    exact this ⟨hx, by omega⟩
  · rintro (h1 | ⟨x, hx, h1⟩ | h1) ⟨a1, a2, -, a3⟩
    · omega
    · have := a2 x hx; omega
    · omega

/-- How large the sum of the squared hints may be when at most four shares are used. -/
def hintBudget (P : Par) : Nat := if P.κ = 128 then 361 else if P.κ = 192 then 848 else 1395

theorem scaled_le (z : List Int) (B : Nat) (h : ∀ x ∈ z, x.natAbs ≤ B) : scaledSqSum z ≤ z.length * (B / 2 ^ 32 * (B / 2 ^ 32)) := by
  unfold scaledSqSum
  have := List.sum_le_card_nsmul (z.map fun x => x.natAbs / 2 ^ 32 * (x.natAbs / 2 ^ 32)) (B / 2 ^ 32 * (B / 2 ^ 32)) (by
    intro y hy
    obtain ⟨x, hx, rfl⟩ := List.mem_map.1 hy
    exact Nat.mul_le_mul (Nat.div_le_div_right (h x hx)) (Nat.div_le_div_right (h x hx)))
  rwa [List.length_map, smul_eq_mul] at this

/-- C76: with at most four shares the response alone never rejects an attempt: an attempt with an encoding that fits, hints up to 2 in absolute value and a sum of squared
hints up to 361, 848, 1395 (Raccoon-128, -192, -256) is released. -/
theorem C76_few_shares (P : Par) (hP : P = raccoon128 ∨ P = raccoon192 ∨ P = raccoon256) (E : Ext) (d : Nat) (hd : ValidShares d) (h4 : d ≤ 4) (pkb entropy0 msg entropy : List U8)
    (n : Nat) (c : List U8) (h z : List Int) (g : IsAttempt P E d pkb (keySecret P E d entropy0) msg entropy n c h z) (len : Nat) :
    scaledSqSum z ≤ P.l * 512 * 2 ^ 22 ∧ P.l * 512 * 2 ^ 22 < P.B22.toNat ∧
    (8 * c.length + (sigBits h z).length ≤ 8 * len → (∀ x ∈ h, x.natAbs ≤ 2) → sqSum h ≤ hintBudget P → Acceptable P len c h z) := by
  have hz := C76_response_in_bounds P hP E d hd pkb entropy0 msg entropy n c h z g
  have e1 : P.Binf.toNat / 2 ^ P.νw = 2 := by rcases hP with rfl | rfl | rfl <;> decide +kernel
  have e2 : 2 * P.νw - 64 = 24 := by rcases hP with rfl | rfl | rfl <;> rfl
  have hzl : z.length = P.l * 512 := by
    obtain ⟨_, _, _, _, _, -, -, -, -, -, -, h7, -⟩ := g
    exact h7
  have hs := scaled_le z _ (attempt_response_bound P E d hd pkb entropy0 msg entropy n c h z g)
  have hb : (P.ω * (repOf d * d * 2 ^ (utOf P.κ d - 1)) + repOf d * d * 2 ^ (uwOf d - 1)) / 2 ^ 32 = 2048 := by
    obtain ⟨m, hm, rfl⟩ := hd
    have hm2 : m ≤ 2 := by
      by_contra hcon
      have := Nat.pow_le_pow_right (show 0 < 2 by omega) (show 3 ≤ m by omega)
      omega
    rcases hP with rfl | rfl | rfl <;> rcases (by omega : m = 0 ∨ m = 1 ∨ m = 2) with rfl | rfl | rfl <;> decide +kernel
  rw [hb, hzl, show 2048 * 2048 = 2 ^ 22 by norm_num] at hs
  have hB : P.l * 512 * 2 ^ 22 < P.B22.toNat ∧ 2 ^ 24 * hintBudget P + P.l * 512 * 2 ^ 22 ≤ P.B22.toNat := by
    rcases hP with rfl | rfl | rfl <;> decide +kernel
  refine ⟨hs, hB.1, fun a1 a2 a3 => ⟨a1, ?_⟩⟩
  unfold NormsOK
  rw [e1, e2]
  refine ⟨a2, hz, ?_⟩
  have := Nat.mul_le_mul_left (2 ^ 24) a3
  omega

/-- The budget of C76_few_shares is the largest one that leaves room for every response that is possible by its size. -/
theorem hintBudget_tight (P : Par) (hP : P = raccoon128 ∨ P = raccoon192 ∨ P = raccoon256) : P.B22.toNat < 2 ^ 24 * (hintBudget P + 1) + P.l * 512 * 2 ^ 22 := by
  rcases hP with rfl | rfl | rfl <;> decide +kernel

/-- C76, for `sign`: with at most four shares and samplers that finish, `sign` does not go past an attempt with small hints whose encoding fits. -/
theorem C76_sign_stops (P : Par) (hP : P = raccoon128 ∨ P = raccoon192 ∨ P = raccoon256) (E : Ext) (fuel0 fuel d : Nat) (hd : ValidShares d) (h4 : d ≤ 4)
    (hf : SamplersFinish P E fuel) (entropy0 seed : List U8) (hseed : seed.length = P.κ / 8) (sk0 sk : SKey P.k P.l d)
    (h0 : Api.generate P (utTableOf P) E fuel0 d entropy0 seed = .ok sk0) (hder : SKey.Derived P E sk0 sk) (pkBuf pkb : List U8)
    (hpl : pkBuf.length = PKey.byteLen P.κ P.k P.νt) (hpk : Api.pkAsBytes P (Api.getPkey P sk0) pkBuf = .ok pkb) (entropy msg buf : List U8) (n : Nat) (hn : n < fuel)
    (hgood : ∀ c h z, IsAttempt P E d pkb (keySecret P E d entropy0) msg entropy n c h z →
      8 * c.length + (sigBits h z).length ≤ 8 * buf.length ∧ (∀ x ∈ h, x.natAbs ≤ 2) ∧ sqSum h ≤ hintBudget P) :
    Api.sign P E fuel d sk entropy msg buf ≠ .nofuel := by
  intro he
  rw [C52_wire_exhausts_iff P hP E fuel0 fuel d hd hf entropy0 seed hseed sk0 sk h0 hder pkBuf pkb hpl hpk entropy msg buf] at he
  obtain ⟨c, h, z, g, hr⟩ := he n hn
  obtain ⟨g1, g2, g3⟩ := hgood c h z g
  exact hr.1 ((C76_few_shares P hP E d hd h4 pkb entropy0 msg entropy n c h z g buf.length).2.2 g1 g2 g3)

/-- Non-vacuity: in the toy run of `Props/Demo` (two shares) the first attempt meets the conditions; with a buffer of 40 bytes the same attempt is not acceptable. -/
example (entropy0 seed entropy msg : List U8) (hseed : seed.length = 16) :
    ∃ (sk0 : SKey 5 4 2) (pkb c : List U8) (h z : List Int), Api.generate raccoon128 (utTableOf raccoon128) demoE 512 2 entropy0 seed = .ok sk0 ∧
      SamplersFinish raccoon128 demoE 512 ∧ Api.pkAsBytes raccoon128 (Api.getPkey raccoon128 sk0) (List.replicate (PKey.byteLen 128 5 42) 0) = .ok pkb ∧
      IsAttempt raccoon128 demoE 2 pkb (keySecret raccoon128 demoE 2 entropy0) msg entropy 0 c h z ∧ ¬ Acceptable raccoon128 40 c h z ∧
      ∀ c h z, IsAttempt raccoon128 demoE 2 pkb (keySecret raccoon128 demoE 2 entropy0) msg entropy 0 c h z →
        8 * c.length + (sigBits h z).length ≤ 8 * 11524 ∧ (∀ x ∈ h, x.natAbs ≤ 2) ∧ sqSum h ≤ hintBudget raccoon128 := by
  obtain ⟨sk0, pkb, h0, hpk, run⟩ := demo_like.toy_run entropy0 seed hseed
  obtain ⟨b, c, h, z, -, g, -, ha, -, hh⟩ := run entropy msg
  refine ⟨sk0, pkb, c, h, z, h0, demo_finish, hpk, g, ?_, fun c' h' z' g' => ?_⟩
  · have g' := g
    obtain ⟨_, _, _, _, _, -, -, -, -, e5, e6, -⟩ := g'
    have hc : c.length = 32 := by
      rw [e5]
      unfold challengeHash xofOut
      rw [List.length_map, List.length_range]; rfl
    exact (demo_rejected c h z hh hc e6).1
  · obtain ⟨rfl, rfl, rfl⟩ := C52_wire_unique raccoon128 demoE 2 pkb _ msg entropy 0 _ _ _ _ _ _ g g'
    refine ⟨ha.1, fun x hx => by rw [hh x hx]; decide, ?_⟩
    have : sqSum h = 0 := by
      unfold sqSum
      rw [List.sum_eq_zero]
      intro y hy
      obtain ⟨x, hx, rfl⟩ := List.mem_map.1 hy
      rw [hh x hx]
      rfl
    rw [this]
    exact Nat.zero_le _

end Raccoon
