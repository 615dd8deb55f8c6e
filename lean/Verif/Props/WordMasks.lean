import Verif.Proofs.WordMasksVec
import Verif.Props.Hiding
/-!
# C68: refreshing hides, when the words of the mask generators are counted

`M` words for each of the `d - 1` generators make a table `W`; `E W`, `g W` is any family of generators of which the one for `W` produces the words `W`. The table has to be long
enough for the generators not to be asked for more than it holds (`fuel` bounds the words one call of the mask sampler reads, `maskSchedule` lists the calls of one encoding of zero).
-/
namespace Raccoon
attribute [-instance] Monoid.toNPow
open Finset

/-- C68: counting words is counting masks. For any list of requests to the generators there is a number `N` such that every list of masks is delivered for exactly `N` tables of words:
whatever set of lists of masks is meant (`T`, with `list` telling the lists apart), the tables for which the masks drawn are in it are `N` times as many as its members. So every
count of masks in C57, C62, C63, C64 and C65 is, up to the factor `N`, a count of words. -/
theorem C68_counting (fuel : Nat) {d : Nat} (sch : List (Nat × Nat)) (hs : ∀ p ∈ sch, p.1 < d - 1) (M : Nat) (hM : sch.length * fuel ≤ M)
    (E : (Fin (d - 1) → Fin M → U64) → Ext) (g : (Fin (d - 1) → Fin M → U64) → Mrng d) (hg : Produces E g) :
    ∃ N : Nat, (512 ≤ fuel → 0 < N) ∧ ∀ (T : Type) [Finite T] (list : T → List Poly), Function.Injective list → (∀ t, (list t).length = sch.length) → (∀ t, ∀ p ∈ list t, p.Can) →
      Nat.card { W // ∃ t g', Drawn (E W) fuel sch (g W) (list t) g' } = Nat.card T * N :=
  drawn_count fuel sch hs M hM E g hg

/-- C68: every vector of sharings of zero is returned by `zero_encoding` for the same number of tables of words. When the sampler may read 512 words or more this number is not 0. -/
theorem C68_zero_encoding (fuel m rows M : Nat) (hM : rows * (maskSchedule m).length * fuel ≤ M) (E : (Fin (2 ^ m - 1) → Fin M → U64) → Ext) (g : (Fin (2 ^ m - 1) → Fin M → U64) → Mrng (2 ^ m))
    (hg : Produces E g) (v v' : PVec rows (2 ^ m)) (hv : PVec.Can v) (hv' : PVec.Can v') (h0 : PVec.val v = 0) (h0' : PVec.val v' = 0) :
    Nat.card { W // ∃ g', PVec.zeroEncoding (E W) fuel rows (g W) = .ok (v, g') } = Nat.card { W // ∃ g', PVec.zeroEncoding (E W) fuel rows (g W) = .ok (v', g') } ∧
    (512 ≤ fuel → 0 < Nat.card { W // ∃ g', PVec.zeroEncoding (E W) fuel rows (g W) = .ok (v, g') }) := by
  obtain ⟨N, hN, hc⟩ := zero_words fuel m rows M hM E g hg
  have hz : ∑ s : Fin (2 ^ m), (0 : Fin (2 ^ m) → RPoly) s = 0 := Finset.sum_const_zero
  have key : ∀ v : PVec rows (2 ^ m), PVec.Can v → PVec.val v = 0 → Nat.card { W // ∃ g', PVec.zeroEncoding (E W) fuel rows (g W) = .ok (v, g') } =
      Nat.card { ρ : Fin (maskSchedule m).length → RPoly // ∀ s : Fin (2 ^ m), maskedShare (maskSchedule m) ρ s.val = 0 } ^ rows * N := by
    intro v hv h0
    have hr : ∀ r : Fin rows, Nat.card { ρ : Fin (maskSchedule m).length → RPoly // ∀ s : Fin (2 ^ m), (v[r.val][s.val]).toZ = maskedShare (maskSchedule m) ρ s.val } =
        Nat.card { ρ : Fin (maskSchedule m).length → RPoly // ∀ s : Fin (2 ^ m), maskedShare (maskSchedule m) ρ s.val = 0 } := by
      intro r
      refine Eq.trans (Nat.card_congr (Equiv.subtypeEquivRight fun ρ => forall_congr' fun s => eq_comm)) (masks_uniform m (fun s => (v[r.val][s.val]).toZ) 0 ?_ hz)
      exact congrFun h0 r
    have h1 := card_rows (m := m) (rows := rows) (fun r ρ => ∀ s : Fin (2 ^ m), (v[r.val][s.val]).toZ = maskedShare (maskSchedule m) ρ s.val) _ hr
    have h2 := hc (fun ρ => ∀ (r : Fin rows) (s : Fin (2 ^ m)), (v[r.val][s.val]).toZ = maskedShare (maskSchedule m) (ρ r) s.val)
    refine Eq.trans (Nat.card_congr (Equiv.subtypeEquivRight fun W => ?_)) (h2.trans (congrArg (· * N) h1))
    constructor
    · rintro ⟨g', h⟩
      obtain ⟨ρ, h1, h2⟩ := (PVec.zeroEncoding_iff _ _ _ _ _ v hv g').1 h
      exact ⟨ρ, h2, g', h1⟩
    · rintro ⟨ρ, h2, g', h1⟩
      exact ⟨g', (PVec.zeroEncoding_iff _ _ _ _ _ v hv g').2 ⟨ρ, h1, h2⟩⟩
  refine ⟨(key v hv h0).trans (key v' hv' h0').symm, fun hf => ?_⟩
  rw [key v hv h0]
  exact Nat.mul_pos (Nat.pow_pos (C57_uniform m 0 0 hz hz).2) (hN hf)

/-- C68: refreshing a vector of sharings makes every vector of sharings of the same values equally often. -/
theorem C68_refresh (fuel m rows M : Nat) (hM : rows * (maskSchedule m).length * fuel ≤ M) (E : (Fin (2 ^ m - 1) → Fin M → U64) → Ext) (g : (Fin (2 ^ m - 1) → Fin M → U64) → Mrng (2 ^ m))
    (hg : Produces E g) (a a' v v' : PVec rows (2 ^ m)) (ha : PVec.Can a) (ha' : PVec.Can a') (hv : PVec.Can v) (hv' : PVec.Can v') (h : PVec.val v = PVec.val a) (h' : PVec.val v' = PVec.val a') :
    Nat.card { W // ∃ g', PVec.refresh (E W) fuel a (g W) = .ok (v, g') } = Nat.card { W // ∃ g', PVec.refresh (E W) fuel a' (g W) = .ok (v', g') } ∧
    (512 ≤ fuel → 0 < Nat.card { W // ∃ g', PVec.refresh (E W) fuel a (g W) = .ok (v, g') }) := by
  have key : ∀ a v : PVec rows (2 ^ m), PVec.Can a → PVec.Can v → PVec.val v = PVec.val a → ∃ z : PVec rows (2 ^ m), PVec.Can z ∧ PVec.val z = 0 ∧
      Nat.card { W // ∃ g', PVec.refresh (E W) fuel a (g W) = .ok (v, g') } = Nat.card { W // ∃ g', PVec.zeroEncoding (E W) fuel rows (g W) = .ok (z, g') } := by
    intro a v ha hv h
    let z : PVec rows (2 ^ m) := Vector.ofFn fun r => Vector.ofFn fun s => Poly.ofZ ((v[r.val][s.val]).toZ - (a[r.val][s.val]).toZ)
    have zget : ∀ (r : Nat) (hr : r < rows) (s : Nat) (hs : s < 2 ^ m), (z[r][s]).toZ = (v[r][s]).toZ - (a[r][s]).toZ := by
      intro r hr s hs
      show (((Vector.ofFn fun r : Fin rows => Vector.ofFn fun s : Fin (2 ^ m) => Poly.ofZ ((v[r.val][s.val]).toZ - (a[r.val][s.val]).toZ))[r])[s]).toZ = _
      rw [Vector.getElem_ofFn, Vector.getElem_ofFn, Poly.ofZ_toZ]
    have zcan : PVec.Can z := by
      intro r hr s hs
      show (((Vector.ofFn fun r : Fin rows => Vector.ofFn fun s : Fin (2 ^ m) => Poly.ofZ ((v[r.val][s.val]).toZ - (a[r.val][s.val]).toZ))[r])[s]).Can
      rw [Vector.getElem_ofFn, Vector.getElem_ofFn]
      exact Poly.ofZ_can _
    refine ⟨z, zcan, ?_, Nat.card_congr (Equiv.subtypeEquivRight fun W => ?_)⟩
    · funext r
      show ∑ s : Fin (2 ^ m), (z[r.val][s.val]).toZ = 0
      rw [Finset.sum_congr rfl (fun s _ => zget r.val r.isLt s.val s.isLt), Finset.sum_sub_distrib]
      have := congrFun h r
      unfold PVec.val MPoly.val at this
      rw [this, sub_self]
    · rw [PVec.refresh_eq]
      have hadd : ∀ y : PVec rows (2 ^ m), PVec.Can y → (PVec.add a y = v ↔ y = z) := by
        intro y hy
        have hpt : ∀ (r : Nat) (hr : r < rows) (s : Nat) (hs : s < 2 ^ m), ((PVec.add a y)[r][s]).toZ = (a[r][s]).toZ + (y[r][s]).toZ ∧ ((PVec.add a y)[r][s]).Can := by
          intro r hr s hs
          unfold PVec.add MPoly.add
          rw [Vector.getElem_zipWith, Vector.getElem_zipWith]
          exact ⟨Poly.add_toZ (ha r hr s hs) (hy r hr s hs), Poly.add_can (ha r hr s hs) (hy r hr s hs)⟩
        constructor
        · intro e
          apply Vector.ext
          intro r hr
          apply Vector.ext
          intro s hs
          refine (Poly.toZ_inj (hy r hr s hs) (zcan r hr s hs)).1 ?_
          have := (hpt r hr s hs).1
          rw [e] at this
          rw [zget r hr s hs, this, add_sub_cancel_left]
        · intro e
          apply Vector.ext
          intro r hr
          apply Vector.ext
          intro s hs
          refine (Poly.toZ_inj (hpt r hr s hs).2 (hv r hr s hs)).1 ?_
          rw [(hpt r hr s hs).1, e, zget r hr s hs, add_sub_cancel]
      have ycan : ∀ y g', PVec.zeroEncoding (E W) fuel rows (g W) = .ok (y, g') → PVec.Can y := by
        intro y g' e
        have := PVec.zeroEncoding_spec (E W) fuel rows (⟨m, rfl⟩ : PowTwo (2 ^ m)) (g W)
        rw [e] at this
        exact this.1
      constructor
      · rintro ⟨g', e⟩
        obtain ⟨⟨y, g1⟩, e1, e2⟩ := Res.bind_eq_ok.1 e
        obtain ⟨h1, rfl⟩ := Prod.mk.inj (Res.ok.inj e2)
        obtain rfl := (hadd y (ycan y _ e1)).1 h1
        exact ⟨_, e1⟩
      · rintro ⟨g', e⟩
        refine ⟨g', ?_⟩
        rw [e, Res.ok_bind]
        show Res.ok (PVec.add a z, g') = _
        rw [(hadd z zcan).2 rfl]
  obtain ⟨z, z1, z2, e⟩ := key a v ha hv h
  obtain ⟨z', z1', z2', e'⟩ := key a' v' ha' hv' h'
  have := C68_zero_encoding fuel m rows M hM E g hg z z' z1 z1' z2 z2'
  rw [e, e']
  exact this

/-- C68: all shares but one of each row hide what is shared: whatever vectors of sharings `a`, `a'` are refreshed, whichever share `i r` of row `r` is left out, and whatever values
(`w`, `w'`) the others are to take after the refresh, the number of tables of words for which they do is the same, and is not 0. -/
theorem C68_hides (fuel m rows M : Nat) (hM : rows * (maskSchedule m).length * fuel ≤ M) (E : (Fin (2 ^ m - 1) → Fin M → U64) → Ext) (g : (Fin (2 ^ m - 1) → Fin M → U64) → Mrng (2 ^ m))
    (hg : Produces E g) (i : Fin rows → Fin (2 ^ m)) (a a' w w' : PVec rows (2 ^ m)) (ha : PVec.Can a) (ha' : PVec.Can a') (hw : PVec.Can w) (hw' : PVec.Can w') :
    Nat.card { W // ∃ v g', PVec.refresh (E W) fuel a (g W) = .ok (v, g') ∧ AgreeBut i v w } = Nat.card { W // ∃ v g', PVec.refresh (E W) fuel a' (g W) = .ok (v, g') ∧ AgreeBut i v w' } ∧
    (512 ≤ fuel → 0 < Nat.card { W // ∃ v g', PVec.refresh (E W) fuel a (g W) = .ok (v, g') ∧ AgreeBut i v w }) := by
  have key : ∀ a w : PVec rows (2 ^ m), PVec.Can a → PVec.Can w → ∃ v : PVec rows (2 ^ m), PVec.Can v ∧ PVec.val v = PVec.val a ∧
      Nat.card { W // ∃ v g', PVec.refresh (E W) fuel a (g W) = .ok (v, g') ∧ AgreeBut i v w } = Nat.card { W // ∃ g', PVec.refresh (E W) fuel a (g W) = .ok (v, g') } := by
    intro a w ha hw
    -- the left out share is what the others leave
    let c : Fin rows → Fin (2 ^ m) → RPoly := fun r s => if s = i r then PVec.val a r - ∑ s' ∈ univ.erase (i r), (w[r.val][s'.val]).toZ else (w[r.val][s.val]).toZ
    let v : PVec rows (2 ^ m) := Vector.ofFn fun r => Vector.ofFn fun s => Poly.ofZ (c r s)
    have vget : ∀ (r : Fin rows) (s : Fin (2 ^ m)), (v[r.val][s.val]).toZ = c r s ∧ (v[r.val][s.val]).Can := by
      intro r s
      show (((Vector.ofFn fun r => Vector.ofFn fun s => Poly.ofZ (c r s))[r.val])[s.val]).toZ = _ ∧ (((Vector.ofFn fun r => Vector.ofFn fun s => Poly.ofZ (c r s))[r.val])[s.val]).Can
      rw [Vector.getElem_ofFn, Vector.getElem_ofFn, Poly.ofZ_toZ]
      exact ⟨rfl, Poly.ofZ_can _⟩
    have csum : ∀ r, ∑ s, c r s = PVec.val a r := by
      intro r
      rw [← Finset.add_sum_erase univ (c r) (mem_univ (i r))]
      have e1 : c r (i r) = PVec.val a r - ∑ s' ∈ univ.erase (i r), (w[r.val][s'.val]).toZ := if_pos rfl
      have e2 : ∑ s ∈ univ.erase (i r), c r s = ∑ s' ∈ univ.erase (i r), (w[r.val][s'.val]).toZ := Finset.sum_congr rfl fun s hs => if_neg (Finset.ne_of_mem_erase hs)
      rw [e1, e2, sub_add_cancel]
    have vval : PVec.val v = PVec.val a := by
      funext r
      show ∑ s : Fin (2 ^ m), (v[r.val][s.val]).toZ = _
      rw [Finset.sum_congr rfl (fun s _ => (vget r s).1)]
      exact csum r
    refine ⟨v, fun r hr s hs => (vget ⟨r, hr⟩ ⟨s, hs⟩).2, vval, Nat.card_congr (Equiv.subtypeEquivRight fun W => ?_)⟩
    constructor
    · rintro ⟨y, g', e, hy⟩
      have hs := PVec.refresh_spec (E W) fuel (⟨m, rfl⟩ : PowTwo (2 ^ m)) ha (g W)
      rw [e] at hs
      obtain ⟨ycan, yval⟩ := hs
      have other : ∀ (r : Fin rows) (s : Fin (2 ^ m)), s ≠ i r → (y[r.val][s.val]).toZ = c r s := by
        intro r s hs
        rw [hy r s hs]
        exact (if_neg hs).symm
      have : y = v := by
        apply Vector.ext
        intro r hr
        apply Vector.ext
        intro s hs
        refine (Poly.toZ_inj (ycan r hr s hs) (vget ⟨r, hr⟩ ⟨s, hs⟩).2).1 ((?_ : (y[r][s]).toZ = c ⟨r, hr⟩ ⟨s, hs⟩).trans (vget ⟨r, hr⟩ ⟨s, hs⟩).1.symm)
        by_cases h : (⟨s, hs⟩ : Fin (2 ^ m)) = i ⟨r, hr⟩
        · have h1 := csum ⟨r, hr⟩
          have h2 : ∑ s : Fin (2 ^ m), (y[r][s.val]).toZ = PVec.val a ⟨r, hr⟩ := congrFun yval ⟨r, hr⟩
          rw [← Finset.add_sum_erase univ _ (mem_univ (⟨s, hs⟩ : Fin (2 ^ m)))] at h1 h2
          rw [Finset.sum_congr rfl (fun s' hs' => other ⟨r, hr⟩ s' (by rw [← h]; exact Finset.ne_of_mem_erase hs'))] at h2
          exact add_right_cancel (h2.trans h1.symm)
        · exact other ⟨r, hr⟩ ⟨s, hs⟩ h
      subst this
      exact ⟨g', e⟩
    · rintro ⟨g', e⟩
      refine ⟨v, g', e, fun r s hs => ?_⟩
      refine (Poly.toZ_inj (vget r s).2 (hw r.val r.isLt s.val s.isLt)).1 ?_
      rw [(vget r s).1]
      exact if_neg hs
  obtain ⟨v, v1, v2, e⟩ := key a w ha hw
  obtain ⟨v', v1', v2', e'⟩ := key a' w' ha' hw'
  rw [e, e']
  exact C68_refresh fuel m rows M hM E g hg a a' v v' ha ha' v1 v1' v2 v2'

/-- Non-vacuity: for every number of shares and every number of words there are generators that produce the words of the table: the state carries the number of the generator and a
counter, and the permutation looks up the word. -/
example (d M : Nat) (hd : d < 2 ^ 64) (hM : M < 2 ^ 64) (E : Ext) : ∃ (E' : (Fin (d - 1) → Fin M → U64) → Ext) (g : (Fin (d - 1) → Fin M → U64) → Mrng d), Produces E' g := by
  let word : (Fin (d - 1) → Fin M → U64) → Nat → Nat → U64 := fun W i j => if h : i < d - 1 ∧ j < M then W ⟨i, h.1⟩ ⟨j, h.2⟩ else 0
  let P : (Fin (d - 1) → Fin M → U64) → AsconState → AsconState := fun W st => #v[word W st[2].toNat (st[1].toNat + 1), st[1] + 1, st[2], 0, 0]
  let s0 : (Fin (d - 1) → Fin M → U64) → Nat → AsconState := fun W i => #v[word W i 0, 0, BitVec.ofNat 64 i, 0, 0]
  refine ⟨fun W => { E with asconP6 := P W }, fun W => ⟨Vector.ofFn fun i => s0 W i.val⟩, fun W i j => ?_⟩
  have hi : (BitVec.ofNat 64 i.val).toNat = i.val := by
    rw [BitVec.toNat_ofNat, Nat.mod_eq_of_lt (by have := i.isLt; omega)]
  have key : ∀ k, k < M → (P W)^[k] (s0 W i.val) = #v[word W i.val k, BitVec.ofNat 64 k, BitVec.ofNat 64 i.val, 0, 0] := by
    intro k
    induction k with
    | zero => intro _; rfl
    | succ k ih =>
      intro hk
      rw [Function.iterate_succ_apply', ih (by omega)]
      have hk' : (BitVec.ofNat 64 k).toNat = k := by
        rw [BitVec.toNat_ofNat, Nat.mod_eq_of_lt (by omega)]
      show #v[word W (BitVec.ofNat 64 i.val).toNat ((BitVec.ofNat 64 k).toNat + 1), BitVec.ofNat 64 k + 1, BitVec.ofNat 64 i.val, 0, 0] = _
      have h1 : BitVec.ofNat 64 k + 1 = BitVec.ofNat 64 (k + 1) := by
        rw [BitVec.ofNat_add]
        rfl
      rw [hk', h1, hi]
  show ((P W)^[j.val] ((Vector.ofFn fun i : Fin (d - 1) => s0 W i.val)[i.val]))[0] = W i j
  rw [Vector.getElem_ofFn, key j.val j.isLt]
  exact dif_pos ⟨i.isLt, j.isLt⟩

end Raccoon
