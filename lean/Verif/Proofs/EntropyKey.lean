import Verif.Proofs.EntropyColl
/-!
# Collisions between public keys, counted over noise and matrix
-/
namespace Raccoon
attribute [-instance] Monoid.toNPow
open Finset

/-- Two residues with the same rounding are close. -/
theorem round_close_key (u u' : ZMod q) (e : roundZ 42 u = roundZ 42 u') : (u - u').valMinAbs.natAbs ≤ 2 ^ 43 := by
  have p42 : (2 : Nat) ^ 42 = 4398046511104 := by norm_num
  have p41 : (2 : Nat) ^ (42 - 1) = 2199023255552 := by norm_num
  have p43 : (2 : Nat) ^ 43 = 8796093022208 := by norm_num
  have hq : q = 549824583172097 := rfl
  unfold roundZ at e
  rw [p42, p41, show q / 4398046511104 = 125 from rfl] at e
  rw [p43]
  have h1 := ZMod.val_lt u
  have h2 := ZMod.val_lt u'
  have key : ∃ D : Int, ((D : Int) : ZMod q) = u - u' ∧ D.natAbs ≤ 8796093022208 := by
    have cast : ∀ j : Int, (((u.val : Int) - (u'.val : Int) - j * (q : Int) : Int) : ZMod q) = u - u' := by
      intro j
      push_cast
      rw [ZMod.natCast_zmod_val, ZMod.natCast_zmod_val]
      simp
    have : ∃ j : Int, ((u.val : Int) - (u'.val : Int) - j * (q : Int)).natAbs ≤ 8796093022208 := by
      revert e h1 h2
      generalize u.val = x
      generalize u'.val = y
      intro e h1 h2
      rw [hq] at h1 h2 ⊢
      clear cast hq
      obtain ⟨R, hR⟩ : ∃ R : Nat, R = (x + 2199023255552) / 4398046511104 := ⟨_, rfl⟩
      obtain ⟨R', hR'⟩ : ∃ R : Nat, R = (y + 2199023255552) / 4398046511104 := ⟨_, rfl⟩
      rw [← hR, ← hR'] at e
      have a1 : 4398046511104 * R ≤ x + 2199023255552 ∧ x + 2199023255552 < 4398046511104 * R + 4398046511104 := by omega
      have a2 : 4398046511104 * R' ≤ y + 2199023255552 ∧ y + 2199023255552 < 4398046511104 * R' + 4398046511104 := by omega
      have b1 : R ≤ 125 := by omega
      have b2 : R' ≤ 125 := by omega
      have : ∃ j : Int, (R : Int) - R' = 125 * j ∧ -1 ≤ j ∧ j ≤ 1 := by
        refine ⟨((R : Int) - R') / 125, ?_, ?_, ?_⟩ <;> omega
      obtain ⟨j, hj, hj1, hj2⟩ := this
      refine ⟨j, ?_⟩
      clear e hR hR'
      have : j = -1 ∨ j = 0 ∨ j = 1 := by omega
      rcases this with rfl | rfl | rfl <;> omega
    obtain ⟨j, hj⟩ := this
    exact ⟨_, cast j, hj⟩
  obtain ⟨D, hD, hDb⟩ := key
  rw [← hD]
  refine Nat.le_trans ?_ hDb
  have := ZMod.natAbs_valMinAbs_le (n := q) (x := ((D : Int) : ZMod q))
  exact (ZMod.natAbs_min_of_le_div_two q _ _ (by simp) this)

/-- Coefficients that two public keys can agree in. -/
noncomputable def keyBox : Finset (ZMod q) := univ.filter fun z => z.valMinAbs.natAbs ≤ 2 ^ 43

theorem keyBox_card : 16 * keyBox.card ≤ q := by
  have h : keyBox.card ≤ (Finset.Icc (-(2 : Int) ^ 43) (2 ^ 43)).card := by
    refine Finset.card_le_card_of_injOn (fun z : ZMod q => z.valMinAbs) ?_ ?_
    · intro z hz
      have := (Finset.mem_filter.1 (Finset.mem_coe.1 hz)).2
      refine Finset.mem_coe.2 (Finset.mem_Icc.2 ?_)
      have e : ((2 ^ 43 : Nat) : Int) = 2 ^ 43 := by push_cast
      rw [← e]
      change -((2 ^ 43 : Nat) : Int) ≤ z.valMinAbs ∧ z.valMinAbs ≤ ((2 ^ 43 : Nat) : Int)
      constructor <;> omega
    · intro z _ z' _ h
      exact ZMod.valMinAbs_inj.1 h
  rw [Int.card_Icc] at h
  have e : ((2 : Int) ^ 43 + 1 - -2 ^ 43).toNat = 17592186044417 := by decide
  rw [e] at h
  have e2 : 281474976710672 ≤ q := by decide
  omega

theorem mem_keyBox {z : ZMod q} (h : z.valMinAbs.natAbs ≤ 2 ^ 43) : z ∈ keyBox := Finset.mem_filter.2 ⟨Finset.mem_univ _, h⟩

theorem key_close {k l u : Nat} {κ : Type} [Fintype κ] (hν : 0 < q / 2 ^ 42) (a : Fin k → Fin l → RPoly) (W W' : NoiseTable 1 l k u κ)
    (h : signerW 42 hν a (maskOf W 0) (errorOf W 0) = signerW 42 hν a (maskOf W' 0) (errorOf W' 0)) (i : Fin k) :
    InBox keyBox (ringMatVec a (fun j => vecR (maskOf W 0) j - vecR (maskOf W' 0) j) i + (vecR (errorOf W 0) i - vecR (errorOf W' 0) i)) := by
  intro x
  have h1 : roundZ 42 ((ringMatVec a (vecR (maskOf W 0)) i + vecR (errorOf W 0) i) x) = roundZ 42 ((ringMatVec a (vecR (maskOf W' 0)) i + vecR (errorOf W' 0) i) x) :=
    congrArg Fin.val (congrFun (congrFun h i) x)
  have h2 := round_close_key _ _ h1
  have h3 : (ringMatVec a (fun j => vecR (maskOf W 0) j - vecR (maskOf W' 0) j) i + (vecR (errorOf W 0) i - vecR (errorOf W' 0) i)) x =
      (ringMatVec a (vecR (maskOf W 0)) i + vecR (errorOf W 0) i) x - (ringMatVec a (vecR (maskOf W' 0)) i + vecR (errorOf W' 0) i) x := by
    rw [ringMatVec_sub]
    exact close_arith _ _ _ _
  rw [h3]
  exact mem_keyBox h2

/-- A ring element with few unit slots is zero in many slots, modulo one of the primes. -/
theorem unitSlots_fewer (δ : RPoly) (n z : Nat) (hnz : 2 * z + n ≤ 513) (h : (unitSlots δ).card < n) : ∃ Z ∈ powersetCard z (univ : Finset (Fin 512)),
    (∀ i ∈ Z, red prime1_dvd (nttR δ i) = 0) ∨ (∀ i ∈ Z, red prime2_dvd (nttR δ i) = 0) := by
  have h1 : 2 * z ≤ (unitSlots δ)ᶜ.card := by rw [Finset.card_compl, Fintype.card_fin]; omega
  have h2 : (unitSlots δ)ᶜ ⊆ (univ.filter fun i => red prime1_dvd (nttR δ i) = 0) ∪ (univ.filter fun i => red prime2_dvd (nttR δ i) = 0) := by
    intro i hi
    by_cases e1 : red prime1_dvd (nttR δ i) = 0
    · exact Finset.mem_union_left _ (Finset.mem_filter.2 ⟨Finset.mem_univ _, e1⟩)
    · by_cases e2 : red prime2_dvd (nttR δ i) = 0
      · exact Finset.mem_union_right _ (Finset.mem_filter.2 ⟨Finset.mem_univ _, e2⟩)
      · exact absurd (Finset.mem_filter.2 ⟨Finset.mem_univ _, e1, e2⟩) (Finset.mem_compl.1 hi)
  have h3 := le_trans (Finset.card_le_card h2) (Finset.card_union_le _ _)
  rcases (by omega : z ≤ (univ.filter fun i => red prime1_dvd (nttR δ i) = 0).card ∨ z ≤ (univ.filter fun i => red prime2_dvd (nttR δ i) = 0).card) with h4 | h4
  · obtain ⟨Z, hZ, hc⟩ := Finset.exists_subset_card_eq h4
    exact ⟨Z, Finset.mem_powersetCard.2 ⟨Finset.subset_univ _, hc⟩, Or.inl fun i hi => (Finset.mem_filter.1 (hZ hi)).2⟩
  · obtain ⟨Z, hZ, hc⟩ := Finset.exists_subset_card_eq h4
    exact ⟨Z, Finset.mem_powersetCard.2 ⟨Finset.subset_univ _, hc⟩, Or.inr fun i hi => (Finset.mem_filter.1 (hZ hi)).2⟩

theorem key_bad {l k u : Nat} {κ : Type} [Fintype κ] [DecidableEq κ] (κ0 : κ) (j0 : Fin l) (hu : 0 < u)
    (hp1 : (2 ^ u / prime1 + 1) * 2 ^ 4 ≤ 2 ^ u) (hp2 : (2 ^ u / prime2 + 1) * 2 ^ 4 ≤ 2 ^ u) (ρ : RPoly) :
    (univ.filter fun W : NoiseTable 1 l k u κ => (unitSlots (vecR (maskOf W 0) j0 - ρ)).card < 24).card * 2 ^ 463 ≤ Fintype.card (NoiseTable 1 l k u κ) := by
  classical
  have h1 : (univ.filter fun W : NoiseTable 1 l k u κ => (unitSlots (vecR (maskOf W 0) j0 - ρ)).card < 24).card ≤
      ∑ Z ∈ powersetCard 244 (univ : Finset (Fin 512)), ((univ.filter fun W : NoiseTable 1 l k u κ => ∀ i ∈ Z, red prime1_dvd (nttR (vecR (maskOf W 0) j0 - ρ) i) = 0).card +
        (univ.filter fun W : NoiseTable 1 l k u κ => ∀ i ∈ Z, red prime2_dvd (nttR (vecR (maskOf W 0) j0 - ρ) i) = 0).card) := by
    refine le_trans (Finset.card_le_card (t := (powersetCard 244 (univ : Finset (Fin 512))).biUnion fun Z =>
      (univ.filter fun W : NoiseTable 1 l k u κ => ∀ i ∈ Z, red prime1_dvd (nttR (vecR (maskOf W 0) j0 - ρ) i) = 0) ∪
        (univ.filter fun W : NoiseTable 1 l k u κ => ∀ i ∈ Z, red prime2_dvd (nttR (vecR (maskOf W 0) j0 - ρ) i) = 0)) ?_)
      (le_trans Finset.card_biUnion_le (Finset.sum_le_sum fun Z _ => Finset.card_union_le _ _))
    intro W hW
    simp only [Finset.mem_filter, Finset.mem_univ, true_and, Finset.mem_biUnion, Finset.mem_union] at hW ⊢
    exact unitSlots_fewer _ 24 244 (by omega) hW
  have h2 : ∀ Z ∈ powersetCard 244 (univ : Finset (Fin 512)), ((univ.filter fun W : NoiseTable 1 l k u κ => ∀ i ∈ Z, red prime1_dvd (nttR (vecR (maskOf W 0) j0 - ρ) i) = 0).card +
        (univ.filter fun W : NoiseTable 1 l k u κ => ∀ i ∈ Z, red prime2_dvd (nttR (vecR (maskOf W 0) j0 - ρ) i) = 0).card) * 2 ^ 976 ≤ 2 * Fintype.card (NoiseTable 1 l k u κ) := by
    intro Z hZ
    have hc := (Finset.mem_powersetCard.1 hZ).2
    have k1 := zero_slots_count prime1_dvd (k := k) κ0 j0 hu hp1 Z ρ
    have k2 := zero_slots_count prime2_dvd (k := k) κ0 j0 hu hp2 Z ρ
    rw [hc, ← pow_mul] at k1 k2
    rw [Nat.add_mul, Nat.two_mul]
    exact Nat.add_le_add k1 k2
  have h3 : (univ.filter fun W : NoiseTable 1 l k u κ => (unitSlots (vecR (maskOf W 0) j0 - ρ)).card < 24).card * 2 ^ 976 ≤ 2 ^ 512 * (2 * Fintype.card (NoiseTable 1 l k u κ)) := by
    refine le_trans (Nat.mul_le_mul_right _ h1) ?_
    rw [Finset.sum_mul]
    refine le_trans (Finset.sum_le_sum h2) ?_
    rw [Finset.sum_const, smul_eq_mul, Finset.card_powersetCard, Finset.card_univ, Fintype.card_fin]
    exact Nat.mul_le_mul_right _ (Nat.choose_le_two_pow 512 244)
  generalize (univ.filter fun W : NoiseTable 1 l k u κ => (unitSlots (vecR (maskOf W 0) j0 - ρ)).card < 24).card = z at *
  generalize Fintype.card (NoiseTable 1 l k u κ) = T at *
  exact bad_arith z T 513 463 512 976 rfl rfl h3

theorem key_coll {k l u : Nat} {κ : Type} [Fintype κ] [DecidableEq κ] (κ0 : κ) (j0 : Fin l) (hk : 5 ≤ k) (hu : 0 < u)
    (hp1 : (2 ^ u / prime1 + 1) * 2 ^ 4 ≤ 2 ^ u) (hp2 : (2 ^ u / prime2 + 1) * 2 ^ 4 ≤ 2 ^ u) (hν : 0 < q / 2 ^ 42)
    [∀ W W' : NoiseTable 1 l k u κ, DecidablePred fun a : Fin k → Fin l → RPoly => signerW 42 hν a (maskOf W 0) (errorOf W 0) = signerW 42 hν a (maskOf W' 0) (errorOf W' 0)]
    (W' : NoiseTable 1 l k u κ) (y : Nat) (hy : 462 = y) :
    (∑ W : NoiseTable 1 l k u κ, (univ.filter fun a : Fin k → Fin l → RPoly => signerW 42 hν a (maskOf W 0) (errorOf W 0) = signerW 42 hν a (maskOf W' 0) (errorOf W' 0)).card) * 2 ^ y ≤
      Fintype.card (NoiseTable 1 l k u κ) * Fintype.card (Fin k → Fin l → RPoly) := by
  classical
  obtain ⟨g, b, h1, h2, h3⟩ := sum_two_kinds (fun W : NoiseTable 1 l k u κ => (univ.filter fun a : Fin k → Fin l → RPoly => signerW 42 hν a (maskOf W 0) (errorOf W 0) = signerW 42 hν a (maskOf W' 0) (errorOf W' 0)).card)
    (fun W => (unitSlots (vecR (maskOf W 0) j0 - vecR (maskOf W' 0) j0)).card < 24) (Fintype.card (Fin k → Fin l → RPoly)) (16 ^ (24 * 5)) (fun W => filter_card_le _) (fun W hW => by
      refine le_trans ?_ (mat_count (k := k) (fun j => vecR (maskOf W 0) j - vecR (maskOf W' 0) j) j0 (unitSlots (vecR (maskOf W 0) j0 - vecR (maskOf W' 0) j0))
        (fun i hi => (Finset.mem_filter.1 hi).2) keyBox keyBox_card (fun i => vecR (errorOf W 0) i - vecR (errorOf W' 0) i))
      exact Nat.mul_le_mul (card_filter_mono _ _ fun a h i => key_close hν a W W' h i)
        (Nat.pow_le_pow_right (by omega) (Nat.mul_le_mul (Nat.le_of_not_lt hW) hk)))
  have h4 := key_bad (k := k) κ0 j0 hu hp1 hp2 (vecR (maskOf W' 0) j0)
  have h5 : b * 2 ^ 463 ≤ Fintype.card (NoiseTable 1 l k u κ) * Fintype.card (Fin k → Fin l → RPoly) := by
    refine le_trans (Nat.mul_le_mul_right _ h3) ?_
    rw [Nat.mul_right_comm]
    exact Nat.mul_le_mul_right _ h4
  have h6 : ∀ n, n = 24 * 5 → (16 : Nat) ^ n = 2 ^ (4 * n) := fun n _ => by rw [pow_mul, show (2 : Nat) ^ 4 = 16 from rfl]
  rw [h6 _ rfl] at h2
  exact coll_arith _ g b _ _ 462 (4 * (24 * 5)) 463 y h1 h2 h5 (by omega) (by omega) hy

end Raccoon
