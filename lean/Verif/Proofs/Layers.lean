import Mathlib.Algebra.BigOperators.Group.Finset.Basic
import Mathlib.Algebra.BigOperators.Fin
import Mathlib.Data.Finset.Card
import Mathlib.Tactic.Abel
/-!
# Strong non-interference of the layered refresh, as linear algebra over any abelian group
-/
namespace Raccoon
attribute [-instance] Monoid.toNPow
open Finset

section sni
variable {R : Type} [AddCommGroup R]

/-- Share `s` after `j` rounds with masks `r i s` (round `i`, first share of the pair). -/
def layerVal (r : Nat → Nat → R) (j s : Nat) : R := ∑ i ∈ range j, if s / 2 ^ i % 2 = 0 then r i s else - r i (s - 2 ^ i)

theorem layerVal_zero (j s : Nat) : layerVal (fun _ _ => (0 : R)) j s = 0 := by
  unfold layerVal
  refine Finset.sum_eq_zero fun i _ => ?_
  split <;> simp

theorem layerVal_congr {r r' : Nat → Nat → R} {j s : Nat} (h : ∀ i < j, ∀ s' ≤ s, r i s' = r' i s') : layerVal r j s = layerVal r' j s := by
  unfold layerVal
  refine Finset.sum_congr rfl fun i hi => ?_
  have hi := Finset.mem_range.1 hi
  split
  · exact h i hi s (le_refl _)
  · rw [h i hi _ (Nat.sub_le _ _)]

theorem layerVal_hi (m : Nat) (r : Nat → Nat → R) {j : Nat} (hj : j ≤ m) (s : Nat) :
    layerVal r j (s + 2 ^ m) = layerVal (fun i s => r i (s + 2 ^ m)) j s := by
  unfold layerVal
  refine Finset.sum_congr rfl fun i hi => ?_
  have hi := Finset.mem_range.1 hi
  have e : 2 ^ m = 2 ^ (m - i - 1) * 2 * 2 ^ i := by
    rw [← Nat.pow_succ, ← Nat.pow_add]; congr 1; omega
  have hb : (s + 2 ^ m) / 2 ^ i % 2 = s / 2 ^ i % 2 := by
    rw [e, Nat.add_mul_div_right _ _ (Nat.two_pow_pos i), Nat.add_mul_mod_self_right]
  rw [hb]
  split
  · rfl
  · next h =>
    have : 2 ^ i ≤ s := by
      by_contra hlt
      rw [Nat.div_eq_of_lt (by omega)] at h
      exact h rfl
    dsimp only
    rw [show s + 2 ^ m - 2 ^ i = s - 2 ^ i + 2 ^ m by omega]

theorem layerVal_top_lo (m : Nat) (r : Nat → Nat → R) {s : Nat} (hs : s < 2 ^ m) : layerVal r (m + 1) s = layerVal r m s + r m s := by
  unfold layerVal
  rw [Finset.sum_range_succ, if_pos (by rw [Nat.div_eq_of_lt hs])]

theorem layerVal_top_hi (m : Nat) (r : Nat → Nat → R) {s : Nat} (hs : s < 2 ^ m) :
    layerVal r (m + 1) (s + 2 ^ m) = layerVal (fun i s => r i (s + 2 ^ m)) m s - r m s := by
  rw [← layerVal_hi m r (le_refl m)]
  unfold layerVal
  rw [Finset.sum_range_succ, if_neg (by rw [Nat.add_div_right _ (Nat.two_pow_pos m), Nat.div_eq_of_lt hs]; decide), Nat.add_sub_cancel, sub_eq_add_neg]

/-- Three masks glued together: low half, high half, top round. -/
def glue (m : Nat) (rA rB : Nat → Nat → R) (top : Nat → R) : Nat → Nat → R := fun i s =>
  if i = m then (if s < 2 ^ m then top s else 0) else if s < 2 ^ m then rA i s else rB i (s - 2 ^ m)

theorem glue_lo (m : Nat) (rA rB : Nat → Nat → R) (top : Nat → R) {j s : Nat} (hj : j ≤ m) (hs : s < 2 ^ m) :
    layerVal (glue m rA rB top) j s = layerVal rA j s := by
  refine layerVal_congr fun i hi s' hs' => ?_
  unfold glue
  rw [if_neg (by omega), if_pos (by omega)]

theorem glue_hi (m : Nat) (rA rB : Nat → Nat → R) (top : Nat → R) {j s : Nat} (hj : j ≤ m) :
    layerVal (fun i s => glue m rA rB top i (s + 2 ^ m)) j s = layerVal rB j s := by
  refine layerVal_congr fun i hi s' hs' => ?_
  unfold glue
  rw [if_neg (by omega), if_neg (by omega), Nat.add_sub_cancel]

/-- Probed masks `PM`, probed intermediate shares `PV`: for every change `δ` of the final shares that has sum 0 and is 0 on `I` there are masks that
produce it and show 0 at every probe. -/
def Shift (R : Type) [AddCommGroup R] (m : Nat) (PM PV : Finset (Nat × Nat)) (I : Finset Nat) : Prop :=
  ∀ δ : Nat → R, ∑ s ∈ range (2 ^ m), δ s = 0 → (∀ s ∈ I, δ s = 0) → ∃ r : Nat → Nat → R,
    (∀ x ∈ PM, r x.1 x.2 = 0) ∧ (∀ x ∈ PV, layerVal r x.1 x.2 = 0) ∧ ∀ s < 2 ^ m, layerVal r m s = δ s

theorem sum_halves (n : Nat) (δ : Nat → R) : ∑ s ∈ range (2 * n), δ s = ∑ s ∈ range n, (δ s + δ (s + n)) := by
  rw [show 2 * n = n + n by omega, Finset.sum_range_add, Finset.sum_add_distrib]
  congr 1
  exact Finset.sum_congr rfl fun s _ => by rw [Nat.add_comm]

theorem shift_exists (m : Nat) : ∀ (PM PV : Finset (Nat × Nat)), (∀ x ∈ PM, x.1 < m) → (∀ x ∈ PV, x.1 ≤ m ∧ x.2 < 2 ^ m) →
    ∃ I : Finset Nat, I.card ≤ PM.card + PV.card ∧ Shift R m PM PV I := by
  induction m with
  | zero =>
    intro PM PV _ _
    refine ⟨∅, by simp, fun δ hsum _ => ⟨fun _ _ => 0, fun _ _ => rfl, fun x _ => layerVal_zero _ _, fun s hs => ?_⟩⟩
    rw [layerVal_zero]
    rw [Nat.pow_zero] at hs hsum
    rw [Finset.sum_range_one] at hsum
    rw [show s = 0 by omega, hsum]
  | succ m ih =>
    -- without probes of the final shares
    have main : ∀ (PM PV : Finset (Nat × Nat)), (∀ x ∈ PM, x.1 < m + 1) → (∀ x ∈ PV, x.1 ≤ m ∧ x.2 < 2 ^ (m + 1)) →
        ∃ I : Finset Nat, I.card ≤ PM.card + PV.card ∧ Shift R (m + 1) PM PV I := by
      intro PM PV hPM hPV
      obtain ⟨n, hn⟩ : ∃ n, n = 2 ^ m := ⟨_, rfl⟩
      have hn2 : 2 ^ (m + 1) = 2 * n := by rw [hn, Nat.pow_succ, Nat.mul_comm]
      rw [hn2] at hPV
      -- probes by where they lie
      let T := (PM.filter (fun x => x.1 = m)).image Prod.snd
      let MA := (PM.filter (fun x => ¬ x.1 = m)).filter (fun x => x.2 < n)
      let MB := ((PM.filter (fun x => ¬ x.1 = m)).filter (fun x => ¬ x.2 < n)).image (fun x => (x.1, x.2 - n))
      let VA := PV.filter (fun x => x.2 < n)
      let VB := (PV.filter (fun x => ¬ x.2 < n)).image (fun x => (x.1, x.2 - n))
      have cM : T.card + MA.card + MB.card ≤ PM.card := by
        have h1 := Finset.card_filter_add_card_filter_not (s := PM) (fun x => x.1 = m)
        have h2 := Finset.card_filter_add_card_filter_not (s := PM.filter (fun x => ¬ x.1 = m)) (fun x => x.2 < n)
        have h3 : T.card ≤ _ := Finset.card_image_le
        have h4 : MB.card ≤ _ := Finset.card_image_le
        have h5 : MA.card = ((PM.filter (fun x => ¬ x.1 = m)).filter (fun x => x.2 < n)).card := rfl
        omega
      have cV : VA.card + VB.card ≤ PV.card := by
        have h1 := Finset.card_filter_add_card_filter_not (s := PV) (fun x => x.2 < n)
        have h4 : VB.card ≤ _ := Finset.card_image_le
        have h5 : VA.card = (PV.filter (fun x => x.2 < n)).card := rfl
        omega
      have hMA : ∀ x ∈ MA, x.1 < m := fun x hx => by
        obtain ⟨h1, -⟩ := Finset.mem_filter.1 hx
        obtain ⟨h1, h2⟩ := Finset.mem_filter.1 h1
        have := hPM x h1; omega
      have hMB : ∀ x ∈ MB, x.1 < m := fun x hx => by
        obtain ⟨y, h1, rfl⟩ := Finset.mem_image.1 hx
        obtain ⟨h1, -⟩ := Finset.mem_filter.1 h1
        obtain ⟨h1, h2⟩ := Finset.mem_filter.1 h1
        have := hPM y h1
        dsimp only; omega
      have hVA : ∀ x ∈ VA, x.1 ≤ m ∧ x.2 < 2 ^ m := fun x hx => by
        obtain ⟨h1, h2⟩ := Finset.mem_filter.1 hx
        exact ⟨(hPV x h1).1, hn ▸ h2⟩
      have hVB : ∀ x ∈ VB, x.1 ≤ m ∧ x.2 < 2 ^ m := fun x hx => by
        obtain ⟨y, h1, rfl⟩ := Finset.mem_image.1 hx
        obtain ⟨h1, h2⟩ := Finset.mem_filter.1 h1
        have := hPV y h1
        rw [← hn]
        dsimp only; omega
      -- how to check glued masks
      have fin : ∀ (rA rB : Nat → Nat → R) (top : Nat → R) (δ : Nat → R),
          (∀ x ∈ MA, rA x.1 x.2 = 0) → (∀ x ∈ VA, layerVal rA x.1 x.2 = 0) → (∀ x ∈ MB, rB x.1 x.2 = 0) → (∀ x ∈ VB, layerVal rB x.1 x.2 = 0) →
          (∀ s ∈ T, top s = 0) → (∀ s < n, layerVal rA m s + top s = δ s) → (∀ s < n, layerVal rB m s - top s = δ (s + n)) →
          ∃ r : Nat → Nat → R, (∀ x ∈ PM, r x.1 x.2 = 0) ∧ (∀ x ∈ PV, layerVal r x.1 x.2 = 0) ∧ ∀ s < 2 ^ (m + 1), layerVal r (m + 1) s = δ s := by
        intro rA rB top δ h1 h2 h3 h4 h5 h6 h7
        have gm : ∀ s, s < n → glue m rA rB top m s = top s := fun s hs => by
          unfold glue
          rw [if_pos rfl, if_pos (hn ▸ hs)]
        refine ⟨glue m rA rB top, fun x hx => ?_, fun x hx => ?_, fun s hs => ?_⟩
        · unfold glue
          rw [← hn]
          by_cases e : x.1 = m
          · rw [if_pos e]
            split
            · exact h5 _ (Finset.mem_image.2 ⟨x, Finset.mem_filter.2 ⟨hx, e⟩, rfl⟩)
            · rfl
          · rw [if_neg e]
            split
            · next hlt => exact h1 _ (Finset.mem_filter.2 ⟨Finset.mem_filter.2 ⟨hx, e⟩, hlt⟩)
            · next hlt => exact h3 _ (Finset.mem_image.2 ⟨x, Finset.mem_filter.2 ⟨Finset.mem_filter.2 ⟨hx, e⟩, hlt⟩, rfl⟩)
        · by_cases hlt : x.2 < n
          · rw [glue_lo m _ _ _ (hPV x hx).1 (hn ▸ hlt)]
            exact h2 _ (Finset.mem_filter.2 ⟨hx, hlt⟩)
          · obtain ⟨s, hs⟩ : ∃ s, x.2 = s + 2 ^ m := ⟨x.2 - 2 ^ m, by omega⟩
            rw [hs, layerVal_hi m _ (hPV x hx).1, glue_hi m _ _ _ (hPV x hx).1]
            have := h4 _ (Finset.mem_image.2 ⟨x, Finset.mem_filter.2 ⟨hx, hlt⟩, rfl⟩)
            dsimp only at this
            rw [hs, hn, Nat.add_sub_cancel] at this
            exact this
        · by_cases hlt : s < n
          · rw [layerVal_top_lo m _ (hn ▸ hlt), glue_lo m _ _ _ (le_refl m) (hn ▸ hlt), gm s hlt]
            exact h6 s hlt
          · obtain ⟨s', hs'⟩ : ∃ s', s = s' + 2 ^ m := ⟨s - 2 ^ m, by omega⟩
            rw [hn2] at hs
            rw [hs', layerVal_top_hi m _ (by omega), glue_hi m _ _ _ (le_refl m), gm s' (by omega)]
            have := h7 s' (by omega)
            rw [hn] at this
            exact this
      have zM : ∀ X : Finset (Nat × Nat), ∀ x ∈ X, (fun _ _ => (0 : R)) x.1 x.2 = (0 : R) := fun _ _ _ => rfl
      have zV : ∀ X : Finset (Nat × Nat), ∀ x ∈ X, layerVal (fun _ _ => (0 : R)) x.1 x.2 = 0 := fun _ x _ => layerVal_zero _ _
      have card3 : ∀ I T' : Finset Nat, (I ∪ I.image (· + n) ∪ T').card ≤ 2 * I.card + T'.card := fun I T' => by
        have h1 := Finset.card_union_le (I ∪ I.image (· + n)) T'
        have h2 := Finset.card_union_le I (I.image (· + n))
        have h3 : (I.image (· + n)).card ≤ I.card := Finset.card_image_le
        omega
      have mem1 : ∀ I T' : Finset Nat, ∀ s ∈ I, s ∈ I ∪ I.image (· + n) ∪ T' := fun I T' s hs => Finset.mem_union_left _ (Finset.mem_union_left _ hs)
      have mem2 : ∀ I T' : Finset Nat, ∀ s ∈ I, s + n ∈ I ∪ I.image (· + n) ∪ T' := fun I T' s hs =>
        Finset.mem_union_left _ (Finset.mem_union_right _ (Finset.mem_image_of_mem _ hs))
      by_cases hc : MA.card + VA.card ≤ MB.card + VB.card
      · -- the low half has fewer probes: use its masks and those of the last round
        obtain ⟨I, hI, hS⟩ := ih MA VA hMA hVA
        refine ⟨I ∪ I.image (· + n) ∪ T.image (· + n), ?_, fun δ hsum hδ => ?_⟩
        · have h1 := card3 I (T.image (· + n))
          have h4 : (T.image (· + n)).card ≤ T.card := Finset.card_image_le
          omega
        · rw [hn2, sum_halves, hn] at hsum
          obtain ⟨rA, h1, h2, h3⟩ := hS (fun s => δ s + δ (s + 2 ^ m)) hsum (fun s hs => by
            rw [hδ s (mem1 _ _ s hs), ← hn, hδ _ (mem2 _ _ s hs), add_zero])
          refine fin rA (fun _ _ => 0) (fun s => - δ (s + n)) δ h1 h2 (zM _) (zV _) ?_ ?_ ?_
          · intro s hs
            rw [hδ _ (Finset.mem_union_right _ (Finset.mem_image_of_mem _ hs)), neg_zero]
          · intro s hs
            rw [h3 s (hn ▸ hs), hn]; abel
          · intro s hs
            rw [layerVal_zero]; abel
      · -- the high half has fewer probes
        obtain ⟨I, hI, hS⟩ := ih MB VB hMB hVB
        refine ⟨I ∪ I.image (· + n) ∪ T, ?_, fun δ hsum hδ => ?_⟩
        · have h1 := card3 I T
          omega
        · rw [hn2, sum_halves, hn] at hsum
          obtain ⟨rB, h1, h2, h3⟩ := hS (fun s => δ s + δ (s + 2 ^ m)) hsum (fun s hs => by
            rw [hδ s (mem1 _ _ s hs), ← hn, hδ _ (mem2 _ _ s hs), add_zero])
          refine fin (fun _ _ => 0) rB (fun s => δ s) δ (zM _) (zV _) h1 h2 ?_ ?_ ?_
          · intro s hs
            exact hδ _ (Finset.mem_union_right _ hs)
          · intro s hs
            rw [layerVal_zero, zero_add]
          · intro s hs
            rw [h3 s (hn ▸ hs), hn]; abel
    -- a probed final share must not move
    intro PM PV hPM hPV
    let S := (PV.filter (fun x => ¬ x.1 ≤ m)).image Prod.snd
    let W := PV.filter (fun x => x.1 ≤ m)
    have cW : W.card + S.card ≤ PV.card := by
      have h1 := Finset.card_filter_add_card_filter_not (s := PV) (fun x => x.1 ≤ m)
      have h4 : S.card ≤ _ := Finset.card_image_le
      have h5 : W.card = (PV.filter (fun x => x.1 ≤ m)).card := rfl
      omega
    obtain ⟨I, hI, hS⟩ := main PM W hPM (fun x hx => by
        obtain ⟨h1, h2⟩ := Finset.mem_filter.1 hx
        exact ⟨h2, (hPV x h1).2⟩)
    refine ⟨I ∪ S, by have := Finset.card_union_le I S; omega, fun δ hsum hδ => ?_⟩
    obtain ⟨r, h1, h2, h3⟩ := hS δ hsum (fun s hs => hδ s (Finset.mem_union_left _ hs))
    refine ⟨r, h1, fun x hx => ?_, h3⟩
    by_cases hle : x.1 ≤ m
    · exact h2 x (Finset.mem_filter.2 ⟨hx, hle⟩)
    · have hs : x.2 ∈ S := Finset.mem_image.2 ⟨x, Finset.mem_filter.2 ⟨hx, hle⟩, rfl⟩
      have he : x.1 = m + 1 := by have := (hPV x hx).1; omega
      rw [he, h3 _ (hPV x hx).2]
      exact hδ _ (Finset.mem_union_right _ hs)

end sni
end Raccoon
