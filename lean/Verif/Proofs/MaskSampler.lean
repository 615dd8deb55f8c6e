import Verif.Proofs.Sharing
/-!
# The mask sampler, and the schedule of mask requests in a zero encoding
-/
namespace Raccoon
attribute [-instance] Monoid.toNPow

theorem acceptedMasks_succ (E : Ext) (st : AsconState) (m : Nat) :
    acceptedMasks E st (m + 1) = acceptedMasks E st m ++ (if maskWord E st m < q then [maskWord E st m] else []) := by
  unfold acceptedMasks
  rw [List.range_succ, List.map_append, List.filter_append]
  apply congrArg
  by_cases h : maskWord E st m < q <;> simp [h]

theorem acceptedMasks_lt (E : Ext) (st : AsconState) (m : Nat) : ∀ x ∈ acceptedMasks E st m, x < q := by
  intro x hx
  unfold acceptedMasks at hx
  rw [List.mem_filter] at hx
  simpa using hx.2

theorem acceptedMasks_prefix (E : Ext) (st : AsconState) (m n : Nat) : acceptedMasks E st m <+: acceptedMasks E st (m + n) := by
  induction n with
  | zero => exact List.prefix_rfl
  | succ n ih =>
    rw [Nat.add_succ, acceptedMasks_succ]
    exact ih.trans (List.prefix_append _ _)

theorem Mrng.used_zero (E : Ext) {d : Nat} (m : Mrng d) {idx : Nat} (h : idx < d - 1) : m.used E idx 0 h = m := by
  unfold Mrng.used
  rw [Function.iterate_zero, id]
  cases m
  congr 1
  exact Vector.set_getElem_self h

theorem Mrng.used_succ (E : Ext) {d : Nat} (m : Mrng d) {idx : Nat} (h : idx < d - 1) (n : Nat) :
    (m.used E idx n h).get E idx = ((E.asconP6^[n] m.state[idx])[0], m.used E idx (n + 1) h) := by
  unfold Mrng.get
  rw [dif_neg (by omega)]
  unfold Mrng.used
  simp only [Vector.getElem_set_self, Vector.set_set]
  rw [Function.iterate_succ_apply']

/-- What the loop has computed after `j` words. -/
theorem samplePolyLoop_eq (E : Ext) {d : Nat} {idx : Nat} (h : idx < d - 1) (m : Mrng d) : ∀ (n j : Nat) (res : Poly),
    (acceptedMasks E m.state[idx] j).length ≤ 512 →
    (∀ i (hi : i < 512), i < (acceptedMasks E m.state[idx] j).length → (res[i]).raw.toNat = (acceptedMasks E m.state[idx] j).getD i 0) →
    (512 ≤ (acceptedMasks E m.state[idx] (j + n)).length →
      ∃ k, j ≤ k ∧ k ≤ j + n ∧ (acceptedMasks E m.state[idx] k).length = 512 ∧
        (∀ k', j ≤ k' → k' < k → (acceptedMasks E m.state[idx] k').length < 512) ∧
        Poly.samplePolyLoop E idx n (m.used E idx j h) res (acceptedMasks E m.state[idx] j).length =
          .ok (listPoly (acceptedMasks E m.state[idx] k), m.used E idx k h)) ∧
    (¬ 512 ≤ (acceptedMasks E m.state[idx] (j + n)).length →
        Poly.samplePolyLoop E idx n (m.used E idx j h) res (acceptedMasks E m.state[idx] j).length = .nofuel) := by
  have done : ∀ (j : Nat) (res : Poly), (acceptedMasks E m.state[idx] j).length = 512 →
    (∀ i (hi : i < 512), i < (acceptedMasks E m.state[idx] j).length → (res[i]).raw.toNat = (acceptedMasks E m.state[idx] j).getD i 0) →
    res = listPoly (acceptedMasks E m.state[idx] j) := by
    intro j res h5 hres
    apply Vector.ext
    intro i hi
    apply Zq.ext_nat
    rw [hres i hi (by omega), listPoly_get _ i hi, BitVec.toNat_ofNat, Nat.mod_eq_of_lt]
    rw [List.getD_eq_getElem?_getD, List.getElem?_eq_getElem (by omega)]
    have := acceptedMasks_lt E m.state[idx] j _ (List.getElem_mem (by omega : i < (acceptedMasks E m.state[idx] j).length))
    have h6 := q_lt
    have h7 : (2:Nat)^63 < 2^64 := by decide
    exact Nat.lt_trans this (Nat.lt_trans h6 h7)
  intro n
  induction n with
  | zero =>
    intro j res hle hres
    rw [Nat.add_zero]
    unfold Poly.samplePolyLoop
    refine ⟨fun h5 => ⟨j, Nat.le_refl _, Nat.le_refl _, by omega, fun k' h1 h2 => absurd h2 (by omega), ?_⟩, fun h5 => ?_⟩
    · rw [if_neg (by omega), ← done j res (by omega) hres]
    · rw [if_pos (by omega)]
  | succ n ih =>
    intro j res hle hres
    unfold Poly.samplePolyLoop
    by_cases hc : (acceptedMasks E m.state[idx] j).length < 512
    · rw [if_pos hc]
      rw [Mrng.used_succ]
      have hword : ((E.asconP6^[j] m.state[idx])[0] &&& ((1 : U64) <<< Q_BIT_WIDTH - 1)).toNat = maskWord E m.state[idx] j := by
        rw [QBW, mask49_and]; rfl
      show (_ → ∃ k, _ ∧ _ ∧ _ ∧ _ ∧ (if (E.asconP6^[j] m.state[idx])[0] &&& ((1 : U64) <<< Q_BIT_WIDTH - 1) < Q then _ else _ : Res _) = _) ∧
        (_ → (if (E.asconP6^[j] m.state[idx])[0] &&& ((1 : U64) <<< Q_BIT_WIDTH - 1) < Q then _ else _ : Res _) = _)
      generalize (E.asconP6^[j] m.state[idx])[0] &&& ((1 : U64) <<< Q_BIT_WIDTH - 1) = cf at hword
      have hacc := acceptedMasks_succ E m.state[idx] j
      rw [show j + (n + 1) = (j + 1) + n by omega]
      by_cases hq : cf < Q
      · have hq' : maskWord E m.state[idx] j < q := by rw [← hword, ← Q_toNat]; exact hq
        rw [if_pos hq'] at hacc
        rw [if_pos hq, wr_ok hc, Res.ok_bind]
        have hlen : (acceptedMasks E m.state[idx] (j + 1)).length = (acceptedMasks E m.state[idx] j).length + 1 := by
          rw [hacc, List.length_append]; rfl
        have := ih (j + 1) (res.set (acceptedMasks E m.state[idx] j).length ⟨cf⟩ hc) (by omega) ?_
        · rw [hlen] at this
          refine ⟨fun h5 => ?_, this.2⟩
          obtain ⟨k, h1, h2, h3, h4, h6⟩ := this.1 h5
          refine ⟨k, by omega, h2, h3, fun k' g1 g2 => ?_, h6⟩
          rcases Nat.eq_or_lt_of_le g1 with g | g
          · rw [← g]; exact hc
          · exact h4 k' g g2
        · intro i hi hlt
          rw [hlen] at hlt
          rw [hacc, List.getD_eq_getElem?_getD]
          rcases Nat.lt_or_ge i (acceptedMasks E m.state[idx] j).length with h1 | h1
          · rw [Vector.getElem_set_ne _ _ (by omega), hres i hi h1, List.getD_eq_getElem?_getD, List.getElem?_append_left h1]
          · have : i = (acceptedMasks E m.state[idx] j).length := by omega
            subst this
            rw [Vector.getElem_set_self, List.getElem?_append_right (Nat.le_refl _), Nat.sub_self]
            exact hword
      · have hq' : ¬ maskWord E m.state[idx] j < q := by rw [← hword, ← Q_toNat]; exact hq
        rw [if_neg hq', List.append_nil] at hacc
        rw [if_neg hq]
        have := ih (j + 1) res (by rw [hacc]; exact hle) (by rw [hacc]; exact hres)
        rw [hacc] at this
        refine ⟨fun h5 => ?_, this.2⟩
        obtain ⟨k, h1, h2, h3, h4, h6⟩ := this.1 h5
        refine ⟨k, by omega, h2, h3, fun k' g1 g2 => ?_, h6⟩
        rcases Nat.eq_or_lt_of_le g1 with g | g
        · rw [← g]; exact hc
        · exact h4 k' g g2
    · rw [if_neg hc]
      have h5 : (acceptedMasks E m.state[idx] j).length = 512 := by omega
      refine ⟨fun _ => ⟨j, Nat.le_refl _, by omega, h5, fun k' h1 h2 => absurd h2 (by omega), ?_⟩, fun hn => absurd ?_ hn⟩
      · rw [← done j res h5 hres]
      · rw [← h5]
        exact (acceptedMasks_prefix E m.state[idx] j (n + 1)).length_le

theorem samplePolynomial_eq (E : Ext) {d : Nat} (fuel : Nat) {idx : Nat} (h : idx < d - 1) (m : Mrng d) :
    (512 ≤ (acceptedMasks E m.state[idx] fuel).length →
      ∃ k, k ≤ fuel ∧ (acceptedMasks E m.state[idx] k).length = 512 ∧
        (∀ k' < k, (acceptedMasks E m.state[idx] k').length < 512) ∧
        Poly.samplePolynomial E fuel idx m = .ok (listPoly (acceptedMasks E m.state[idx] k), m.used E idx k h)) ∧
    (¬ 512 ≤ (acceptedMasks E m.state[idx] fuel).length → Poly.samplePolynomial E fuel idx m = .nofuel) := by
  have := samplePolyLoop_eq E h m fuel 0 Poly.zero (Nat.zero_le _) (fun i _ hlt => absurd hlt (Nat.not_lt_zero _))
  rw [Nat.zero_add, Mrng.used_zero] at this
  unfold Poly.samplePolynomial
  rw [if_neg (by omega)]
  refine ⟨fun h5 => ?_, this.2⟩
  obtain ⟨k, h1, h2, h3, h4, h6⟩ := this.1 h5
  exact ⟨k, h2, h3, fun k' hk => h4 k' (Nat.zero_le _) hk, h6⟩

/-! ### schedule -/

theorem filter_block (p b : Nat) :
    (List.range' (b * (2 * p)) (2 * p)).filter (fun i => decide (i / p % 2 = 0)) = List.range' (b * (2 * p)) p := by
  have e : 2 * p = p + p := by omega
  conv_lhs => rw [show List.range' (b * (2 * p)) (2 * p) = List.range' (b * (2 * p)) (p + p) by rw [← e]]
  rw [← List.range'_append_1, List.filter_append]
  have h1 : (List.range' (b * (2 * p)) p).filter (fun i => decide (i / p % 2 = 0)) = List.range' (b * (2 * p)) p := by
    rw [List.filter_eq_self]
    intro a ha
    rw [List.mem_range'_1] at ha
    have : a / p = 2 * b := by
      apply Nat.div_eq_of_lt_le
      · rw [Nat.mul_comm 2 b, Nat.mul_assoc]; exact ha.1
      · rw [Nat.add_mul, Nat.one_mul, Nat.mul_comm 2 b, Nat.mul_assoc]; exact ha.2
    simp [this]
  have h2 : (List.range' (b * (2 * p) + p) p).filter (fun i => decide (i / p % 2 = 0)) = [] := by
    rw [List.filter_eq_nil_iff]
    intro a ha
    rw [List.mem_range'_1] at ha
    have : a / p = 2 * b + 1 := by
      apply Nat.div_eq_of_lt_le
      · rw [Nat.add_mul, Nat.one_mul, Nat.mul_comm 2 b, Nat.mul_assoc]; exact ha.1
      · rw [Nat.add_mul, Nat.add_mul, Nat.one_mul, Nat.mul_comm 2 b, Nat.mul_assoc]; exact ha.2
    simp [this]
  rw [h1, h2, List.append_nil]

theorem blocks_eq (p : Nat) (n : Nat) :
    (List.range' 0 n (2 * p)).flatMap (fun i => List.range' i p) = (List.range (n * (2 * p))).filter (fun i => decide (i / p % 2 = 0)) := by
  induction n with
  | zero => simp
  | succ n ih =>
    rw [List.range'_concat, List.flatMap_append, ih, Nat.add_mul n 1, Nat.one_mul, List.range_eq_range', List.range_eq_range', ← List.range'_append_1,
      List.filter_append, Nat.zero_add, Nat.zero_add, Nat.mul_comm (2 * p) n, filter_block p n]
    simp

theorem foldlM_flatMap {σ α β : Type} (f : σ → β → Res σ) (g : α → List β) (l : List α) (s : σ) :
    (l.flatMap g).foldlM f s = l.foldlM (fun s a => (g a).foldlM f s) s := by
  induction l generalizing s with
  | nil => rfl
  | cons a l ih =>
    rw [List.flatMap_cons, List.foldlM_append, List.foldlM_cons]
    congr 1
    funext s
    exact ih s

theorem forLoop_one {σ : Type} (lo n : Nat) (body : Nat → σ → Res σ) (s : σ) :
    forLoop lo (lo + n) 1 body s = (List.range' lo n).foldlM (fun s i => body i s) s := by
  unfold forLoop
  rw [show (lo + n - lo + 1 - 1) / 1 = n by omega]

theorem forLoop_blocks {σ : Type} (p n : Nat) (hp : 0 < p) (body : Nat → σ → Res σ) (s : σ) :
    forLoop 0 (n * (2 * p)) (2 * p) (fun i s => forLoop i (i + p) 1 body s) s =
      (((List.range (n * (2 * p))).filter (fun i => decide (i / p % 2 = 0))).foldlM (fun s i => body i s) s) := by
  rw [← blocks_eq p n, foldlM_flatMap]
  unfold forLoop
  have e : (n * (2 * p) - 0 + 2 * p - 1) / (2 * p) = n := by
    apply Nat.div_eq_of_lt_le
    · omega
    · rw [Nat.add_mul]; omega
  rw [e]
  congr 1
  funext s i
  show (List.range' i ((i + p - i + 1 - 1) / 1)).foldlM (fun s i => body i s) s = _
  rw [show (i + p - i + 1 - 1) / 1 = p by omega]

theorem zeroEncLoop_schedule (E : Ext) (fuel : Nat) {m : Nat} : ∀ (n j : Nat) (s : MPoly (2 ^ m) × Mrng (2 ^ m)), j ≤ m → m ≤ n + j →
    MPoly.zeroEncLoop E fuel n (2 ^ j) s =
      ((List.range' j (m - j)).flatMap fun j => ((List.range (2 ^ m)).filter (fun i => i / 2 ^ j % 2 = 0)).map fun i => (i, 2 ^ j)).foldlM
        (fun s (p : Nat × Nat) => MPoly.maskPair E fuel p.1 p.2 s) s := by
  intro n
  induction n with
  | zero =>
    intro j s hj hn
    have : j = m := by omega
    subst this
    unfold MPoly.zeroEncLoop
    rw [if_neg (by omega), Nat.sub_self]
    rfl
  | succ n ih =>
    intro j s hj hn
    unfold MPoly.zeroEncLoop
    by_cases h : 2 ^ j < 2 ^ m
    · have hjm : j < m := (Nat.pow_lt_pow_iff_right (by omega)).1 h
      have hpos : 0 < 2 ^ j := Nat.two_pow_pos j
      rw [if_pos h, show m - j = (m - (j + 1)) + 1 by omega, List.range'_succ, List.flatMap_cons, List.foldlM_append]
      have e : 2 ^ j <<< 1 = 2 ^ (j + 1) := by rw [Nat.shiftLeft_eq, Nat.pow_one, Nat.pow_succ]
      have em : 2 ^ m = 2 ^ (m - (j + 1)) * (2 * 2 ^ j) := by
        rw [← Nat.pow_succ', ← Nat.pow_add]; congr 1; omega
      have hb := forLoop_blocks (2 ^ j) (2 ^ (m - (j + 1))) hpos (fun sidx (s : MPoly (2 ^ m) × Mrng (2 ^ m)) => MPoly.maskPair E fuel sidx (2 ^ j) s) s
      rw [← em] at hb
      rw [hb, List.foldlM_map]
      congr 1
      funext s'
      rw [e]
      exact ih (j + 1) s' hjm (by omega)
    · rw [if_neg h]
      have : j = m := by
        rcases Nat.eq_or_lt_of_le hj with h' | h'
        · exact h'
        · exact absurd (Nat.pow_lt_pow_right (by omega : 1 < 2) h') h
      subst this
      rw [Nat.sub_self]
      rfl

theorem zeroEncoding_schedule (E : Ext) (fuel m : Nat) (g : Mrng (2 ^ m)) :
    MPoly.zeroEncoding E fuel g =
      (maskSchedule m).foldlM (fun s (p : Nat × Nat) => MPoly.maskPair E fuel p.1 p.2 s) (MPoly.zero (2 ^ m), g) := by
  unfold MPoly.zeroEncoding
  show (if 2 ^ m > 1 then _ else _ : Res _) = _
  rcases Nat.eq_zero_or_pos m with hm | hm
  · subst hm
    rw [if_neg (by decide)]
    rfl
  · have hd : 2 ^ m > 1 := Nat.one_lt_two_pow (by omega)
    rw [if_pos hd]
    have hb := forLoop_blocks 1 (2 ^ (m - 1)) (by omega) (fun sidx (s : MPoly (2 ^ m) × Mrng (2 ^ m)) => MPoly.maskPair E fuel sidx 1 s)
      (MPoly.zero (2 ^ m), g)
    have em : 2 ^ (m - 1) * (2 * 1) = 2 ^ m := by
      rw [Nat.mul_one, ← Nat.pow_succ]; congr 1; omega
    rw [em] at hb
    have e1 : forLoop 0 (2 ^ m) 2 (fun sidx s => MPoly.maskPair E fuel sidx 1 s) (MPoly.zero (2 ^ m), g) =
        forLoop 0 (2 ^ m) (2 * 1) (fun i s => forLoop i (i + 1) 1 (fun sidx s => MPoly.maskPair E fuel sidx 1 s) s) (MPoly.zero (2 ^ m), g) := by
      refine forLoop_congr (by omega) ?_
      intro i s _ _
      rw [forLoop_one]
      show _ = (_ >>= _)
      exact (bind_pure _).symm
    show (forLoop 0 (2 ^ m) 2 (fun sidx s => MPoly.maskPair E fuel sidx 1 s) (MPoly.zero (2 ^ m), g) >>= fun s => MPoly.zeroEncLoop E fuel (2 ^ m) 2 s) = _
    rw [e1, hb]
    unfold maskSchedule
    rw [show List.range m = 0 :: List.range' 1 (m - 1) by
      rw [List.range_eq_range', show List.range' 0 m = List.range' 0 ((m - 1) + 1) by congr 1; omega, List.range'_succ], List.flatMap_cons,
      List.foldlM_append, List.foldlM_map]
    have := zeroEncLoop_schedule E fuel (m := m) (2 ^ m) 1
    rw [Nat.pow_one] at this
    rw [show (2:Nat) ^ 0 = 1 from rfl]
    congr 1
    funext s
    exact this s hm (by have := @Nat.lt_two_pow_self m; omega)

theorem maskSchedule_bounds (m : Nat) : ∀ p ∈ maskSchedule m, p.1 < 2 ^ m - 1 ∧ p.1 + p.2 < 2 ^ m ∧ 0 < p.2 := by
  intro p hp
  unfold maskSchedule at hp
  rw [List.mem_flatMap] at hp
  obtain ⟨j, hj, hp⟩ := hp
  rw [List.mem_map] at hp
  obtain ⟨i, hi, rfl⟩ := hp
  rw [List.mem_filter, List.mem_range] at hi
  rw [List.mem_range] at hj
  obtain ⟨h1, h2⟩ := hi
  have h2 : i / 2 ^ j % 2 = 0 := by simpa using h2
  have hpos : 0 < 2 ^ j := Nat.two_pow_pos j
  have key : i + 2 ^ j < 2 ^ m := by
    have em : 2 ^ m = 2 ^ j * 2 * 2 ^ (m - (j + 1)) := by
      rw [← Nat.pow_succ, ← Nat.pow_add]; congr 1; omega
    have hdm := Nat.div_add_mod i (2 ^ j)
    have hlt := Nat.mod_lt i hpos
    obtain ⟨t, ht⟩ : ∃ t, i / 2 ^ j = 2 * t := ⟨i / 2 ^ j / 2, by omega⟩
    rw [ht] at hdm
    have ht2 : t < 2 ^ (m - (j + 1)) := by
      have : 2 ^ j * 2 * t < 2 ^ j * 2 * 2 ^ (m - (j + 1)) := by
        rw [← em, Nat.mul_assoc]; omega
      exact Nat.lt_of_mul_lt_mul_left this
    have : 2 ^ j * 2 * (t + 1) ≤ 2 ^ m := by rw [em]; exact Nat.mul_le_mul_left _ ht2
    rw [Nat.mul_add, Nat.mul_one, Nat.mul_assoc] at this
    omega
  exact ⟨by omega, key, hpos⟩

/-! ### refreshing adds a constant -/

theorem PVec.refresh_eq (E : Ext) (fuel : Nat) (a : PVec rows d) (g : Mrng d) :
    PVec.refresh E fuel a g = (PVec.zeroEncoding E fuel rows g >>= fun r => Res.ok (PVec.add a r.1, r.2)) := by
  unfold PVec.refresh PVec.zeroEncoding
  suffices H : ∀ n i (v z : PVec rows d) (m : Mrng d), i + n = rows →
      (∀ j (hj : j < rows), v[j] = if j < i then MPoly.add a[j] z[j] else a[j]) →
      forLoop i rows 1 (fun ridx (s : PVec rows d × Mrng d) => do
        let x ← s.1.rd ridx
        let (x, m) ← MPoly.refresh E fuel x s.2
        let v ← s.1.wr ridx x
        Res.ok (v, m)) (v, m) =
      (forLoop i rows 1 (fun ridx (s : PVec rows d × Mrng d) => do
        let (z, m) ← MPoly.zeroEncoding E fuel s.2
        let v ← s.1.wr ridx z
        Res.ok (v, m)) (z, m) >>= fun r => Res.ok (PVec.add a r.1, r.2)) by
    refine H rows 0 a (PVec.zero rows d) g (by omega) ?_
    intro j hj
    rw [if_neg (by omega)]
  intro n
  induction n with
  | zero =>
    intro i v z m hi hv
    rw [forLoop_nil (by omega) (by omega), forLoop_nil (by omega) (by omega), Res.ok_bind]
    have : v = PVec.add a z := by
      apply Vector.ext
      intro j hj
      rw [hv j hj, if_pos (by omega)]
      unfold PVec.add
      rw [Vector.getElem_zipWith]
    rw [this]
  | succ n ih =>
    intro i v z m hi hv
    have hlt : i < rows := by omega
    rw [forLoop_cons hlt (by omega), forLoop_cons hlt (by omega)]
    show ((v.rd i >>= _) >>= _) = _
    rw [rd_ok hlt, Res.ok_bind]
    show ((MPoly.refresh E fuel v[i] m >>= _) >>= _) = ((MPoly.zeroEncoding E fuel m >>= _) >>= _) >>= _
    unfold MPoly.refresh
    cases hz : MPoly.zeroEncoding E fuel m with
    | ub => rfl
    | nofuel => rfl
    | ok r =>
    obtain ⟨zz, m'⟩ := r
    show ((Res.ok (MPoly.add v[i] zz, m') >>= _) >>= _) = ((z.wr i zz >>= _) >>= _) >>= _
    rw [Res.ok_bind, wr_ok hlt, Res.ok_bind]
    show ((v.wr i (MPoly.add v[i] zz) >>= _) >>= _) = _
    rw [wr_ok hlt, Res.ok_bind, Res.ok_bind, Res.ok_bind]
    refine ih (i + 1) _ _ m' (by omega) ?_
    intro j hj
    by_cases hji : j = i
    · subst hji
      rw [Vector.getElem_set_self, Vector.getElem_set_self, if_pos (by omega), hv j hj, if_neg (by omega)]
    · rw [Vector.getElem_set_ne _ _ (by omega), Vector.getElem_set_ne _ _ (by omega), hv j hj]
      by_cases h : j < i
      · rw [if_pos h, if_pos (by omega)]
      · rw [if_neg h, if_neg (by omega)]

/-! ### matrix expansion does not depend on the budget -/

theorem expandA_ok (E : Ext) {fuel k l : Nat} {seed : List U8}
    (h : ∀ r c, r < k → c < l → ∃ p, Poly.sampleQ E fuel (matHdr r c) seed = .ok p) : ∃ A, PMat.expandA E fuel k l seed = .ok A := by
  have : (PMat.expandA E fuel k l seed).Ok (fun _ => True) := by
    unfold PMat.expandA
    refine forLoop_Ok1 (Nat.zero_le k) (fun _ (_ : PMat k l) => True) trivial ?_
    intro i A _ hi _
    refine forLoop_Ok1 (Nat.zero_le l) (fun _ (_ : PMat k l) => True) trivial ?_
    intro j A _ hj _
    obtain ⟨p, hp⟩ := h i j hi hj
    show (Poly.sampleQ E fuel (matHdr i j) seed >>= _).Ok _
    rw [hp, Res.ok_bind, wr_ok (row_lt hi hj)]
    exact ⟨_, rfl, trivial⟩
  obtain ⟨A, h1, -⟩ := this
  exact ⟨A, h1⟩

theorem PMat.ext_at {A B : PMat k l} (h : ∀ (r : Fin k) (c : Fin l), A.at' r c = B.at' r c) : A = B := by
  apply Vector.ext
  intro i hi
  have hl : 0 < l := by
    rcases Nat.eq_zero_or_pos l with h0 | h0
    · subst h0; omega
    · exact h0
  have h1 := h ⟨i / l, by rw [Nat.div_lt_iff_lt_mul hl]; exact hi⟩ ⟨i % l, Nat.mod_lt _ hl⟩
  have e : i / l * l + i % l = i := by rw [Nat.mul_comm]; exact Nat.div_add_mod i l
  have e' : ∀ C : PMat k l, C.at' ⟨i / l, by rw [Nat.div_lt_iff_lt_mul hl]; exact hi⟩ ⟨i % l, Nat.mod_lt _ hl⟩ = C[i] := by
    intro C
    unfold PMat.at'
    congr 1
  rw [e', e'] at h1
  exact h1

theorem expandA_mono {E : Ext} {fuel fuel' k l : Nat} {seed : List U8} {A : PMat k l} (hf : fuel ≤ fuel')
    (h : PMat.expandA E fuel k l seed = .ok A) : PMat.expandA E fuel' k l seed = .ok A := by
  have hs := expandA_safe E fuel k l seed
  rw [h] at hs
  obtain ⟨-, h2⟩ := hs
  obtain ⟨A', hA'⟩ := expandA_ok E (fuel := fuel') (k := k) (l := l) (seed := seed) (fun r c hr hc => ⟨_, sampleQ_mono hf (h2 ⟨r, hr⟩ ⟨c, hc⟩)⟩)
  have hs' := expandA_safe E fuel' k l seed
  rw [hA'] at hs'
  obtain ⟨-, h2'⟩ := hs'
  have : A' = A := PMat.ext_at fun r c => Res.ok.inj ((h2' r c).symm.trans (sampleQ_mono hf (h2 r c)))
  rw [hA', this]

end Raccoon
