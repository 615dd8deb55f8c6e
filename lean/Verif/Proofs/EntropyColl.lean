import Verif.Proofs.EntropyNoise
import Mathlib.Data.Nat.Choose.Bounds
import Mathlib.Data.Int.Interval
/-!
# From collisions to unpredictable commitments
-/
namespace Raccoon
attribute [-instance] Monoid.toNPow
open Finset

/-- Few collisions on average: for most `a`, no value is taken often. -/
theorem markov {A T C : Type} [Fintype A] [Fintype T] [Nonempty T] (f : A → T → C) (x y : Nat) [∀ W W', DecidablePred fun a => f a W = f a W']
    [∀ a c, DecidablePred fun W => f a W = c] [DecidablePred fun a => ∃ c, Fintype.card T < 2 ^ x * (univ.filter fun W => f a W = c).card]
    (h : ∀ W', (∑ W, (univ.filter fun a => f a W = f a W').card) * 2 ^ (2 * x + y) ≤ Fintype.card T * Fintype.card A) :
    (univ.filter fun a => ∃ c, Fintype.card T < 2 ^ x * (univ.filter fun W => f a W = c).card).card * 2 ^ y ≤ Fintype.card A := by
  classical
  have h1 : ∑ W', ∑ W, (univ.filter fun a => f a W = f a W').card = ∑ a, ∑ W', (univ.filter fun W => f a W = f a W').card := by
    have e : ∀ W' W, (univ.filter fun a => f a W = f a W').card = ∑ a, if f a W = f a W' then 1 else 0 := fun W' W => Finset.card_filter _ _
    have e2 : ∀ a W', (univ.filter fun W => f a W = f a W').card = ∑ W, if f a W = f a W' then 1 else 0 := fun a W' => Finset.card_filter _ _
    simp only [e, e2]
    rw [Finset.sum_comm' (t' := univ) (s' := fun _ => univ) (by simp)]
    conv_lhs => arg 2; ext W; rw [Finset.sum_comm]
    rw [Finset.sum_comm]
    refine Finset.sum_congr rfl fun a _ => ?_
    rw [Finset.sum_comm]
  have h2 : ∀ a, (∃ c, Fintype.card T < 2 ^ x * (univ.filter fun W => f a W = c).card) → Fintype.card T * Fintype.card T ≤ 2 ^ (2 * x) * ∑ W', (univ.filter fun W => f a W = f a W').card := by
    rintro a ⟨c, hc⟩
    have h3 : (univ.filter fun W => f a W = c).card * (univ.filter fun W => f a W = c).card ≤ ∑ W', (univ.filter fun W => f a W = f a W').card := by
      rw [← smul_eq_mul, ← Finset.sum_const]
      refine le_trans (Finset.sum_le_sum fun W' hW' => ?_) (Finset.sum_le_sum_of_subset (Finset.subset_univ _))
      rw [(Finset.mem_filter.1 hW').2]
    calc Fintype.card T * Fintype.card T ≤ (2 ^ x * (univ.filter fun W => f a W = c).card) * (2 ^ x * (univ.filter fun W => f a W = c).card) := Nat.mul_le_mul hc.le hc.le
      _ = 2 ^ (2 * x) * ((univ.filter fun W => f a W = c).card * (univ.filter fun W => f a W = c).card) := by rw [two_mul, pow_add]; ring
      _ ≤ _ := Nat.mul_le_mul_left _ h3
  have h4 : (univ.filter fun a => ∃ c, Fintype.card T < 2 ^ x * (univ.filter fun W => f a W = c).card).card * (Fintype.card T * Fintype.card T) ≤
      2 ^ (2 * x) * ∑ W', ∑ W, (univ.filter fun a => f a W = f a W').card := by
    rw [h1, ← smul_eq_mul, ← Finset.sum_const, Finset.mul_sum]
    exact le_trans (Finset.sum_le_sum fun a ha => h2 a (Finset.mem_filter.1 ha).2) (Finset.sum_le_sum_of_subset (Finset.subset_univ _))
  have h5 : (∑ W', ∑ W, (univ.filter fun a => f a W = f a W').card) * 2 ^ (2 * x + y) ≤ Fintype.card T * (Fintype.card T * Fintype.card A) := by
    rw [Finset.sum_mul, ← smul_eq_mul (a := Fintype.card T), ← Finset.card_univ, ← Finset.sum_const]
    exact Finset.sum_le_sum fun W' _ => by rw [Finset.card_univ]; exact h W'
  generalize ∑ W', ∑ W, (univ.filter fun a => f a W = f a W').card = Z at *
  have t0 : 0 < Fintype.card T * Fintype.card T := Nat.mul_pos Fintype.card_pos Fintype.card_pos
  refine Nat.le_of_mul_le_mul_right ?_ t0
  have x0 : 0 < 2 ^ (2 * x) := by positivity
  calc _ = (univ.filter fun a => ∃ c, Fintype.card T < 2 ^ x * (univ.filter fun W => f a W = c).card).card * (Fintype.card T * Fintype.card T) * 2 ^ y := by ring
    _ ≤ 2 ^ (2 * x) * Z * 2 ^ y := Nat.mul_le_mul_right _ h4
    _ = Z * 2 ^ (2 * x + y) := by rw [pow_add]; ring
    _ ≤ _ := by rw [Nat.mul_comm (Fintype.card A), Nat.mul_assoc]; exact h5

/-- The slots where a ring element is a unit. -/
noncomputable def unitSlots (δ : RPoly) : Finset (Fin 512) := univ.filter fun i => red prime1_dvd (nttR δ i) ≠ 0 ∧ red prime2_dvd (nttR δ i) ≠ 0

theorem unitSlots_few (δ : RPoly) (h : (unitSlots δ).card < 256) : ∃ Z ∈ powersetCard 128 (univ : Finset (Fin 512)),
    (∀ i ∈ Z, red prime1_dvd (nttR δ i) = 0) ∨ (∀ i ∈ Z, red prime2_dvd (nttR δ i) = 0) := by
  have h1 : 256 ≤ (unitSlots δ)ᶜ.card := by rw [Finset.card_compl, Fintype.card_fin]; omega
  have h2 : (unitSlots δ)ᶜ ⊆ (univ.filter fun i => red prime1_dvd (nttR δ i) = 0) ∪ (univ.filter fun i => red prime2_dvd (nttR δ i) = 0) := by
    intro i hi
    by_cases e1 : red prime1_dvd (nttR δ i) = 0
    · exact Finset.mem_union_left _ (Finset.mem_filter.2 ⟨Finset.mem_univ _, e1⟩)
    · by_cases e2 : red prime2_dvd (nttR δ i) = 0
      · exact Finset.mem_union_right _ (Finset.mem_filter.2 ⟨Finset.mem_univ _, e2⟩)
      · exact absurd (Finset.mem_filter.2 ⟨Finset.mem_univ _, e1, e2⟩) (Finset.mem_compl.1 hi)
  have h3 := le_trans (Finset.card_le_card h2) (Finset.card_union_le _ _)
  rcases (by omega : 128 ≤ (univ.filter fun i => red prime1_dvd (nttR δ i) = 0).card ∨ 128 ≤ (univ.filter fun i => red prime2_dvd (nttR δ i) = 0).card) with h4 | h4
  · obtain ⟨Z, hZ, hc⟩ := Finset.exists_subset_card_eq h4
    exact ⟨Z, Finset.mem_powersetCard.2 ⟨Finset.subset_univ _, hc⟩, Or.inl fun i hi => (Finset.mem_filter.1 (hZ hi)).2⟩
  · obtain ⟨Z, hZ, hc⟩ := Finset.exists_subset_card_eq h4
    exact ⟨Z, Finset.mem_powersetCard.2 ⟨Finset.subset_univ _, hc⟩, Or.inr fun i hi => (Finset.mem_filter.1 (hZ hi)).2⟩

theorem bad_arith (z T a b c n : Nat) (hn : n = a + b) (ha : a = c + 1) (h : z * 2 ^ n ≤ 2 ^ c * (2 * T)) : z * 2 ^ b ≤ T := by
  subst ha hn
  have x0 : 0 < 2 ^ (c + 1) := Nat.pow_pos (by omega)
  refine Nat.le_of_mul_le_mul_left ?_ x0
  rw [pow_add] at h
  calc 2 ^ (c + 1) * (z * 2 ^ b) = z * (2 ^ (c + 1) * 2 ^ b) := by ring
    _ ≤ 2 ^ c * (2 * T) := h
    _ = 2 ^ (c + 1) * T := by rw [pow_succ, Nat.mul_assoc]

theorem bad_count {l k u : Nat} {κ : Type} [Fintype κ] [DecidableEq κ] (κ0 : κ) (j0 : Fin l) (hu : 0 < u)
    (hp1 : (2 ^ u / prime1 + 1) * 2 ^ 20 ≤ 2 ^ u) (hp2 : (2 ^ u / prime2 + 1) * 2 ^ 20 ≤ 2 ^ u) (ρ : RPoly) :
    (univ.filter fun W : NoiseTable 1 l k u κ => (unitSlots (vecR (maskOf W 0) j0 - ρ)).card < 256).card * 2 ^ 2047 ≤ Fintype.card (NoiseTable 1 l k u κ) := by
  classical
  have h1 : (univ.filter fun W : NoiseTable 1 l k u κ => (unitSlots (vecR (maskOf W 0) j0 - ρ)).card < 256).card ≤
      ∑ Z ∈ powersetCard 128 (univ : Finset (Fin 512)), ((univ.filter fun W : NoiseTable 1 l k u κ => ∀ i ∈ Z, red prime1_dvd (nttR (vecR (maskOf W 0) j0 - ρ) i) = 0).card +
        (univ.filter fun W : NoiseTable 1 l k u κ => ∀ i ∈ Z, red prime2_dvd (nttR (vecR (maskOf W 0) j0 - ρ) i) = 0).card) := by
    refine le_trans (Finset.card_le_card (t := (powersetCard 128 (univ : Finset (Fin 512))).biUnion fun Z =>
      (univ.filter fun W : NoiseTable 1 l k u κ => ∀ i ∈ Z, red prime1_dvd (nttR (vecR (maskOf W 0) j0 - ρ) i) = 0) ∪
        (univ.filter fun W : NoiseTable 1 l k u κ => ∀ i ∈ Z, red prime2_dvd (nttR (vecR (maskOf W 0) j0 - ρ) i) = 0)) ?_)
      (le_trans Finset.card_biUnion_le (Finset.sum_le_sum fun Z _ => Finset.card_union_le _ _))
    intro W hW
    simp only [Finset.mem_filter, Finset.mem_univ, true_and, Finset.mem_biUnion, Finset.mem_union] at hW ⊢
    exact unitSlots_few _ hW
  have h2 : ∀ Z ∈ powersetCard 128 (univ : Finset (Fin 512)), ((univ.filter fun W : NoiseTable 1 l k u κ => ∀ i ∈ Z, red prime1_dvd (nttR (vecR (maskOf W 0) j0 - ρ) i) = 0).card +
        (univ.filter fun W : NoiseTable 1 l k u κ => ∀ i ∈ Z, red prime2_dvd (nttR (vecR (maskOf W 0) j0 - ρ) i) = 0).card) * 2 ^ 2560 ≤ 2 * Fintype.card (NoiseTable 1 l k u κ) := by
    intro Z hZ
    have hc := (Finset.mem_powersetCard.1 hZ).2
    have k1 := zero_slots_count prime1_dvd (k := k) κ0 j0 hu hp1 Z ρ
    have k2 := zero_slots_count prime2_dvd (k := k) κ0 j0 hu hp2 Z ρ
    rw [hc, ← pow_mul] at k1 k2
    rw [Nat.add_mul, Nat.two_mul]
    exact Nat.add_le_add k1 k2
  have h3 : (univ.filter fun W : NoiseTable 1 l k u κ => (unitSlots (vecR (maskOf W 0) j0 - ρ)).card < 256).card * 2 ^ 2560 ≤ 2 ^ 512 * (2 * Fintype.card (NoiseTable 1 l k u κ)) := by
    refine le_trans (Nat.mul_le_mul_right _ h1) ?_
    rw [Finset.sum_mul]
    refine le_trans (Finset.sum_le_sum h2) ?_
    rw [Finset.sum_const, smul_eq_mul, Finset.card_powersetCard, Finset.card_univ, Fintype.card_fin]
    exact Nat.mul_le_mul_right _ (Nat.choose_le_two_pow 512 128)
  generalize (univ.filter fun W : NoiseTable 1 l k u κ => (unitSlots (vecR (maskOf W 0) j0 - ρ)).card < 256).card = z at *
  generalize Fintype.card (NoiseTable 1 l k u κ) = T at *
  exact bad_arith z T 513 2047 512 2560 rfl rfl h3

/-- Coefficients that two commitments can agree in. -/
noncomputable def closeBox : Finset (ZMod q) := univ.filter fun z => z.valMinAbs.natAbs ≤ 2 ^ 45

theorem closeBox_card : 4 * closeBox.card ≤ q := by
  have h : closeBox.card ≤ (Finset.Icc (-(2 : Int) ^ 45) (2 ^ 45)).card := by
    refine Finset.card_le_card_of_injOn (fun z : ZMod q => z.valMinAbs) ?_ ?_
    · intro z hz
      have := (Finset.mem_filter.1 (Finset.mem_coe.1 hz)).2
      refine Finset.mem_coe.2 (Finset.mem_Icc.2 ?_)
      have e : ((2 ^ 45 : Nat) : Int) = 2 ^ 45 := by push_cast
      rw [← e]
      change -((2 ^ 45 : Nat) : Int) ≤ z.valMinAbs ∧ z.valMinAbs ≤ ((2 ^ 45 : Nat) : Int)
      constructor <;> omega
    · intro z _ z' _ h
      exact ZMod.valMinAbs_inj.1 h
  rw [Int.card_Icc] at h
  have e : ((2 : Int) ^ 45 + 1 - -2 ^ 45).toNat = 70368744177665 := by decide
  rw [e] at h
  have e2 : 281474976710660 ≤ q := by decide
  omega

theorem mem_closeBox {z : ZMod q} (h : z.valMinAbs.natAbs ≤ 2 ^ 45) : z ∈ closeBox := Finset.mem_filter.2 ⟨Finset.mem_univ _, h⟩

theorem close_arith (r e r' e' : ZMod q) : r - r' + (e - e') = r + e - (r' + e') := by ring

theorem signerW_close {k l u : Nat} {κ : Type} [Fintype κ] (hν : 0 < q / 2 ^ 44) (a : Fin k → Fin l → RPoly) (W W' : NoiseTable 1 l k u κ)
    (h : signerW 44 hν a (maskOf W 0) (errorOf W 0) = signerW 44 hν a (maskOf W' 0) (errorOf W' 0)) (i : Fin k) :
    InBox closeBox (ringMatVec a (fun j => vecR (maskOf W 0) j - vecR (maskOf W' 0) j) i + (vecR (errorOf W 0) i - vecR (errorOf W' 0) i)) := by
  intro x
  have h1 : roundZ 44 ((ringMatVec a (vecR (maskOf W 0)) i + vecR (errorOf W 0) i) x) = roundZ 44 ((ringMatVec a (vecR (maskOf W' 0)) i + vecR (errorOf W' 0) i) x) :=
    congrArg Fin.val (congrFun (congrFun h i) x)
  have h2 := round_close_mod ((ringMatVec a (vecR (maskOf W 0)) i + vecR (errorOf W 0) i) x) ((ringMatVec a (vecR (maskOf W' 0)) i + vecR (errorOf W' 0) i) x) 0 0 (by decide) (by decide) (by rw [h1])
  have e : (((0 : Int) - 0).natAbs + 2) * 2 ^ 44 = 2 ^ 45 := by decide
  rw [e] at h2
  have h3 : (ringMatVec a (fun j => vecR (maskOf W 0) j - vecR (maskOf W' 0) j) i + (vecR (errorOf W 0) i - vecR (errorOf W' 0) i)) x =
      (ringMatVec a (vecR (maskOf W 0)) i + vecR (errorOf W 0) i) x - (ringMatVec a (vecR (maskOf W' 0)) i + vecR (errorOf W' 0) i) x := by
    rw [ringMatVec_sub]
    exact close_arith _ _ _ _
  rw [h3]
  exact mem_closeBox h2

theorem coll_arith (s g b T A x n m y : Nat) (hs : s ≤ g + b) (hg : g * 2 ^ n ≤ T * A) (hb : b * 2 ^ m ≤ T * A) (hn : x + 1 ≤ n) (hm : x + 1 ≤ m) (hx : x = y) : s * 2 ^ y ≤ T * A := by
  subst hx
  have e1 : g * 2 ^ (x + 1) ≤ T * A := le_trans (Nat.mul_le_mul_left _ (Nat.pow_le_pow_right (by omega) hn)) hg
  have e2 : b * 2 ^ (x + 1) ≤ T * A := le_trans (Nat.mul_le_mul_left _ (Nat.pow_le_pow_right (by omega) hm)) hb
  rw [pow_succ] at e1 e2
  have e3 := Nat.mul_le_mul_right (2 ^ x) hs
  generalize 2 ^ x = p at *
  generalize T * A = t at *
  nlinarith

theorem sum_two_kinds {T : Type} [Fintype T] (c : T → Nat) (p : T → Prop) [DecidablePred p] (A n : Nat) (hA : ∀ W, c W ≤ A) (hg : ∀ W, ¬ p W → c W * n ≤ A) :
    ∃ g b, (∑ W, c W) ≤ g + b ∧ g * n ≤ Fintype.card T * A ∧ b ≤ (univ.filter p).card * A := by
  refine ⟨∑ W ∈ univ.filter (fun W => ¬ p W), c W, ∑ W ∈ univ.filter p, c W, ?_, ?_, ?_⟩
  · rw [Nat.add_comm, Finset.sum_filter_add_sum_filter_not]
  · rw [Finset.sum_mul]
    refine le_trans (Finset.sum_le_sum fun W hW => hg W (Finset.mem_filter.1 hW).2) ?_
    rw [Finset.sum_const, smul_eq_mul]
    exact Nat.mul_le_mul_right _ (Finset.card_le_univ _)
  · refine le_trans (Finset.sum_le_sum fun W _ => hA W) ?_
    rw [Finset.sum_const, smul_eq_mul]

theorem filter_card_le {A : Type} [Fintype A] (p : A → Prop) [DecidablePred p] : (univ.filter p).card ≤ Fintype.card A := Finset.card_filter_le _ _

theorem coll_count {k l u : Nat} {κ : Type} [Fintype κ] [DecidableEq κ] (κ0 : κ) (j0 : Fin l) (hk : 5 ≤ k) (hu : 0 < u)
    (hp1 : (2 ^ u / prime1 + 1) * 2 ^ 20 ≤ 2 ^ u) (hp2 : (2 ^ u / prime2 + 1) * 2 ^ 20 ≤ 2 ^ u) (hν : 0 < q / 2 ^ 44)
    [∀ W W' : NoiseTable 1 l k u κ, DecidablePred fun a : Fin k → Fin l → RPoly => signerW 44 hν a (maskOf W 0) (errorOf W 0) = signerW 44 hν a (maskOf W' 0) (errorOf W' 0)]
    (W' : NoiseTable 1 l k u κ) (y : Nat) (hy : 2046 = y) :
    (∑ W : NoiseTable 1 l k u κ, (univ.filter fun a : Fin k → Fin l → RPoly => signerW 44 hν a (maskOf W 0) (errorOf W 0) = signerW 44 hν a (maskOf W' 0) (errorOf W' 0)).card) * 2 ^ y ≤
      Fintype.card (NoiseTable 1 l k u κ) * Fintype.card (Fin k → Fin l → RPoly) := by
  classical
  obtain ⟨g, b, h1, h2, h3⟩ := sum_two_kinds (fun W : NoiseTable 1 l k u κ => (univ.filter fun a : Fin k → Fin l → RPoly => signerW 44 hν a (maskOf W 0) (errorOf W 0) = signerW 44 hν a (maskOf W' 0) (errorOf W' 0)).card)
    (fun W => (unitSlots (vecR (maskOf W 0) j0 - vecR (maskOf W' 0) j0)).card < 256) (Fintype.card (Fin k → Fin l → RPoly)) (4 ^ (256 * 5)) (fun W => filter_card_le _) (fun W hW => by
      refine le_trans ?_ (mat_count (k := k) (fun j => vecR (maskOf W 0) j - vecR (maskOf W' 0) j) j0 (unitSlots (vecR (maskOf W 0) j0 - vecR (maskOf W' 0) j0))
        (fun i hi => (Finset.mem_filter.1 hi).2) closeBox closeBox_card (fun i => vecR (errorOf W 0) i - vecR (errorOf W' 0) i))
      exact Nat.mul_le_mul (card_filter_mono _ _ fun a h i => signerW_close hν a W W' h i)
        (Nat.pow_le_pow_right (by omega) (Nat.mul_le_mul (Nat.le_of_not_lt hW) hk)))
  have h4 := bad_count (k := k) κ0 j0 hu hp1 hp2 (vecR (maskOf W' 0) j0)
  have h5 : b * 2 ^ 2047 ≤ Fintype.card (NoiseTable 1 l k u κ) * Fintype.card (Fin k → Fin l → RPoly) := by
    refine le_trans (Nat.mul_le_mul_right _ h3) ?_
    rw [Nat.mul_right_comm]
    exact Nat.mul_le_mul_right _ h4
  have h6 : ∀ n, n = 256 * 5 → (4 : Nat) ^ n = 2 ^ (2 * n) := fun n _ => by rw [pow_mul, show (2 : Nat) ^ 2 = 4 from rfl]
  rw [h6 _ rfl] at h2
  exact coll_arith _ g b _ _ 2046 (2 * (256 * 5)) 2047 y h1 h2 h5 (by omega) (by omega) hy

end Raccoon
