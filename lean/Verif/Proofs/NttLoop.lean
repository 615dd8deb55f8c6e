import Verif.Spec.Poly
import Verif.Proofs.Loops
import Mathlib.Tactic.Ring
/-!
# The in-place butterfly loops as pointwise maps
-/
namespace Raccoon
attribute [-instance] Monoid.toNPow

namespace Poly

/-- Total lookup (zero outside). -/
def at0 (f : Poly) (i : Nat) : Zq := if h : i < 512 then f[i] else Zq.zero

theorem at0_lt {f : Poly} {i : Nat} (h : i < 512) : f.at0 i = f[i] := by simp [at0, h]

theorem at0_set {f : Poly} {i j : Nat} {x : Zq} (h : i < 512) :
    at0 (f.set i x h) j = if j = i then x else f.at0 j := by
  unfold at0
  by_cases hj : j < 512
  · simp only [hj, dif_pos]
    rw [Vector.getElem_set]
    by_cases hij : j = i
    · simp [hij]
    · have : ¬ i = j := fun hh => hij hh.symm
      simp [hij, this]
  · have : j ≠ i := by omega
    simp [hj, this]

theorem ext_at0 {f g : Poly} (h : ∀ i, i < 512 → f.at0 i = g.at0 i) : f = g := by
  apply Vector.ext
  intro i hi
  have := h i hi
  rwa [at0_lt hi, at0_lt hi] at this

/-- A butterfly acting on positions `i` and `i + len`. -/
def bfly (A B : Zq → Zq → Zq → Zq) (len : Nat) (z : Zq) (i : Nat) (f : Poly) : Res Poly :=
  if h : i + len < 512 then
    .ok ((f.set (i + len) (B z (f.at0 i) (f.at0 (i + len))) h).set i (A z (f.at0 i) (f.at0 (i + len))) (by omega))
  else .ub

/-- The pointwise meaning of a layer of butterflies. -/
def newAt (A B : Zq → Zq → Zq → Zq) (tw : Nat → Zq) (len : Nat) (f : Poly) (p : Nat) : Zq :=
  if p / len % 2 = 0 then A (tw (p / (2 * len))) (f.at0 p) (f.at0 (p + len))
  else B (tw (p / (2 * len))) (f.at0 (p - len)) (f.at0 p)

theorem newAt_lo {A B : Zq → Zq → Zq → Zq} {tw : Nat → Zq} {len b p : Nat} {f : Poly} (hlen : 0 < len)
    (h1 : 2 * len * b ≤ p) (h2 : p < 2 * len * b + len) :
    newAt A B tw len f p = A (tw b) (f.at0 p) (f.at0 (p + len)) := by
  have e1 : p / (2 * len) = b := by
    apply Nat.div_eq_of_lt_le
    · rw [Nat.mul_comm]; exact h1
    · rw [Nat.add_mul, Nat.mul_comm b]; omega
  have e2 : p / len = 2 * b := by
    have e : 2 * len * b = 2 * b * len := by ring
    apply Nat.div_eq_of_lt_le
    · omega
    · rw [Nat.add_mul]; omega
  unfold newAt
  rw [e1, e2, Nat.mul_mod_right, if_pos rfl]

theorem newAt_hi {A B : Zq → Zq → Zq → Zq} {tw : Nat → Zq} {len b p : Nat} {f : Poly} (hlen : 0 < len)
    (h1 : 2 * len * b + len ≤ p) (h2 : p < 2 * len * b + 2 * len) :
    newAt A B tw len f p = B (tw b) (f.at0 (p - len)) (f.at0 p) := by
  have e1 : p / (2 * len) = b := by
    apply Nat.div_eq_of_lt_le
    · rw [Nat.mul_comm]; omega
    · rw [Nat.add_mul, Nat.mul_comm b]; omega
  have e2 : p / len = 2 * b + 1 := by
    have e : 2 * len * b = 2 * b * len := by ring
    apply Nat.div_eq_of_lt_le
    · rw [Nat.add_mul]; omega
    · rw [Nat.add_mul, Nat.add_mul]; omega
  unfold newAt
  rw [e1, e2, if_neg (by omega)]

/-- A full layer. -/
theorem layer_spec {A B : Zq → Zq → Zq → Zq} {tw : Nat → Zq} {len : Nat} (hlen : 0 < len) (hdvd : 2 * len ∣ 512) (f : Poly) :
    (forLoop 0 512 (2 * len) (fun start g => forLoop start (start + len) 1
      (fun i g => bfly A B len (tw (start / (2 * len))) i g) g) f).Ok
      (fun r => ∀ p, p < 512 → r.at0 p = newAt A B tw len f p) := by
  obtain ⟨nb, hnb⟩ := hdvd
  refine (forLoop_Ok (by omega) (fun start g => ∀ p, p < 512 →
      g.at0 p = if p < start then newAt A B tw len f p else f.at0 p) (by simp) ?_).mono ?_
  · intro start g _ hst hd I
    rw [Nat.sub_zero] at hd
    obtain ⟨b, rfl⟩ := hd
    have hb : b < nb := by
      rw [hnb] at hst
      exact Nat.lt_of_mul_lt_mul_left hst
    have hend : 2 * len * b + 2 * len ≤ 512 := by
      rw [hnb]
      calc 2 * len * b + 2 * len = 2 * len * (b + 1) := by ring
        _ ≤ 2 * len * nb := Nat.mul_le_mul_left _ hb
    have ediv : 2 * len * b / (2 * len) = b := Nat.mul_div_cancel_left _ (by omega)
    generalize hS : 2 * len * b = S at *
    rw [ediv]
    refine (forLoop_Ok1 (by omega) (fun i g => ∀ p, p < 512 →
      g.at0 p = if p < S then newAt A B tw len f p else
        if p < i then newAt A B tw len f p else
        if p < S + len then f.at0 p else
        if p < i + len then newAt A B tw len f p else f.at0 p) ?_ ?_).mono ?_
    · intro p hp
      rw [I p hp]
      split
      · rfl
      · by_cases h : p < S + len
        · rw [if_pos h]
        · rw [if_neg h, if_neg h]
    · intro i g h1 h2 J
      have hi : i + len < 512 := by omega
      unfold bfly
      rw [dif_pos hi]
      simp only [Res.ok_ok]
      have ei : g.at0 i = f.at0 i := by
        rw [J i (by omega)]
        rw [if_neg (by omega), if_neg (by omega), if_pos (by omega)]
      have eil : g.at0 (i + len) = f.at0 (i + len) := by
        rw [J _ hi]
        rw [if_neg (by omega), if_neg (by omega), if_neg (by omega), if_neg (by omega)]
      rw [ei, eil]
      intro p hp
      rw [at0_set, at0_set]
      by_cases c1 : p = i
      · subst c1
        rw [if_pos rfl, if_neg (by omega), if_pos (by omega)]
        rw [newAt_lo hlen (b := b) (by omega) (by omega)]
      · rw [if_neg c1]
        by_cases c2 : p = i + len
        · subst c2
          rw [if_pos rfl, if_neg (by omega), if_neg (by omega), if_neg (by omega), if_pos (by omega)]
          rw [newAt_hi hlen (b := b) (by omega) (by omega), Nat.add_sub_cancel]
        · rw [if_neg c2, J p hp]
          by_cases d1 : p < S
          · rw [if_pos d1, if_pos d1]
          · rw [if_neg d1, if_neg d1]
            by_cases d2 : p < i
            · rw [if_pos d2, if_pos (by omega)]
            · rw [if_neg d2, if_neg (by omega : ¬ p < i + 1)]
              by_cases d3 : p < S + len
              · rw [if_pos d3, if_pos d3]
              · rw [if_neg d3, if_neg d3]
                by_cases d4 : p < i + len
                · rw [if_pos d4, if_pos (by omega)]
                · rw [if_neg d4, if_neg (by omega)]
    · intro g J p hp
      rw [J p hp]
      by_cases d1 : p < S
      · rw [if_pos d1, if_pos (by omega)]
      · rw [if_neg d1]
        by_cases d2 : p < S + len
        · rw [if_pos d2, if_pos (by omega)]
        · rw [if_neg d2, if_neg d2]
          by_cases d3 : p < S + len + len
          · rw [if_pos d3, if_pos (by omega)]
          · rw [if_neg d3, if_neg (by omega)]
  · rintro r ⟨i, h1, -, -, -, h⟩ p hp
    rw [h p hp, if_pos (by omega)]

end Poly
end Raccoon
