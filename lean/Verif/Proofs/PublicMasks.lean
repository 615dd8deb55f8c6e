import Verif.Proofs.ProbingLifeCode
import Verif.Proofs.ProbingResp
import Verif.Proofs.KeyFile
import Verif.Proofs.Fuel
/-!
# The masks come from one table

Every call that uses masks starts with fresh mask generators, and fresh generators are always in the same state (C39). So the i-th encoding of zero since the start of the call is always
the same one.
-/
namespace Raccoon
attribute [-instance] Monoid.toNPow
open Finset

/-- `g` is the state of the mask generators after `i` encodings of zero, from fresh generators. -/
inductive GenAt (E : Ext) (d : Nat) : Nat → Mrng d → Prop
  | zero : GenAt E d 0 (Mrng.new E d)
  | succ {i fuel : Nat} {g g' : Mrng d} {z : MPoly d} : GenAt E d i g → MPoly.zeroEncoding E fuel g = .ok (z, g') → GenAt E d (i + 1) g'

theorem zeroEncoding_fuel {E : Ext} {d fuel fuel' : Nat} {g : Mrng d} {x y : MPoly d × Mrng d} (h : MPoly.zeroEncoding E fuel g = .ok x) (h' : MPoly.zeroEncoding E fuel' g = .ok y) : x = y := by
  rcases Nat.le_total fuel fuel' with hf | hf
  · have := zeroEncoding_le hf E g
    rw [h, h'] at this
    exact Res.ok.inj (this.resolve_left nofun)
  · have := zeroEncoding_le hf E g
    rw [h, h'] at this
    exact (Res.ok.inj (this.resolve_left nofun)).symm

theorem GenAt.det {E : Ext} {d i : Nat} {g g' : Mrng d} (h : GenAt E d i g) : GenAt E d i g' → g = g' := by
  induction i generalizing g g' with
  | zero => intro h'; cases h; cases h'; rfl
  | succ i ih =>
    intro h'
    cases h with
    | succ h1 h2 =>
      cases h' with
      | succ k1 k2 =>
        obtain rfl := ih h1 k1
        exact (Prod.mk.inj (zeroEncoding_fuel h2 k2)).2

/-- The shares of the `i`-th encoding of zero (0 if there is none). -/
noncomputable def tableMask (E : Ext) (d i : Nat) : Fin d → RPoly := by
  classical
  exact if h : ∃ z : MPoly d, ∃ fuel g g', GenAt E d i g ∧ MPoly.zeroEncoding E fuel g = .ok (z, g') then fun s => (h.choose[s.val]).toZ else 0

theorem tableMask_eq {E : Ext} {d i fuel : Nat} {g g' : Mrng d} {z : MPoly d} (hg : GenAt E d i g) (h : MPoly.zeroEncoding E fuel g = .ok (z, g')) (s : Nat) (hs : s < d) :
    (z[s]).toZ = tableMask E d i ⟨s, hs⟩ := by
  have hex : ∃ z : MPoly d, ∃ fuel g g', GenAt E d i g ∧ MPoly.zeroEncoding E fuel g = .ok (z, g') := ⟨z, fuel, g, g', hg, h⟩
  unfold tableMask
  rw [dif_pos hex]
  obtain ⟨fuel2, g2, g2', k1, k2⟩ := hex.choose_spec
  obtain rfl := hg.det k1
  have := (Prod.mk.inj (zeroEncoding_fuel h k2)).1
  rw [← this]

theorem tableMask_sum (E : Ext) {d : Nat} (hd : PowTwo d) (i : Nat) : ∑ s, tableMask E d i s = 0 := by
  unfold tableMask
  split
  · rename_i hex
    obtain ⟨fuel2, g2, g2', k1, k2⟩ := hex.choose_spec
    have hs := MPoly.zeroEncoding_spec E fuel2 hd g2
    rw [k2] at hs
    exact hs.2
  · exact Finset.sum_const_zero

theorem refresh_table {E : Ext} {d i fuel : Nat} (hd : PowTwo d) {a v : MPoly d} (ha : MPoly.Loose a) {g g' : Mrng d} (hg : GenAt E d i g) (h : MPoly.refresh E fuel a g = .ok (v, g')) :
    GenAt E d (i + 1) g' ∧ ∀ (s : Nat) (hs : s < d), (v[s]).toZ = (a[s]).toZ + tableMask E d i ⟨s, hs⟩ := by
  unfold MPoly.refresh at h
  obtain ⟨⟨z, g1⟩, e, h⟩ := Res.bind_eq_ok.1 h
  obtain ⟨rfl, rfl⟩ := Prod.mk.inj (Res.ok.inj h)
  refine ⟨hg.succ e, fun s hs => ?_⟩
  have hz := MPoly.zeroEncoding_spec E fuel hd g
  rw [e] at hz
  unfold MPoly.add
  rw [Vector.getElem_zipWith, (Poly.add_loose (ha s hs).1 (hz.1 s hs)).2]
  exact congrArg _ (tableMask_eq hg e s hs)

theorem genAt_rows {E : Ext} {d i rows n : Nat} {G : Nat → Mrng d} (h0 : GenAt E d i (G 0)) (h : ∀ r, r < rows → ∀ j, GenAt E d j (G r) → GenAt E d (j + n) (G (r + 1))) :
    ∀ r, r ≤ rows → GenAt E d (i + r * n) (G r) := by
  intro r
  induction r with
  | zero => intro _; rw [Nat.zero_mul]; exact h0
  | succ r ih =>
    intro hr
    have := h r hr _ (ih (by omega))
    rwa [Nat.add_assoc, ← Nat.succ_mul] at this

theorem PVec.zeroEncoding_table {E : Ext} {d i fuel rows : Nat} {v : PVec rows d} {g g' : Mrng d} (hg : GenAt E d i g) (h : PVec.zeroEncoding E fuel rows g = .ok (v, g')) :
    GenAt E d (i + rows) g' ∧ ∀ (r : Nat) (hr : r < rows) (s : Nat) (hs : s < d), (v[r][s]).toZ = tableMask E d (i + r) ⟨s, hs⟩ := by
  obtain ⟨G, h1, h2, h3⟩ := PVec.zeroEncoding_rows E fuel g v g' h
  have hG := genAt_rows (E := E) (i := i) (n := 1) (G := G) (rows := rows) (by rw [h1]; exact hg) (fun r hr j hj => hj.succ (h3 r hr))
  constructor
  · have := hG rows (Nat.le_refl _)
    rwa [Nat.mul_one, h2] at this
  · intro r hr s hs
    have := hG r (by omega)
    rw [Nat.mul_one] at this
    exact tableMask_eq this (h3 r hr) s hs

theorem PVec.refresh_table {E : Ext} {d i fuel rows : Nat} (hd : PowTwo d) {a v : PVec rows d} (ha : PVec.Loose a) {g g' : Mrng d} (hg : GenAt E d i g) (h : PVec.refresh E fuel a g = .ok (v, g')) :
    GenAt E d (i + rows) g' ∧ ∀ (r : Nat) (hr : r < rows) (s : Nat) (hs : s < d), (v[r][s]).toZ = (a[r][s]).toZ + tableMask E d (i + r) ⟨s, hs⟩ := by
  obtain ⟨G, h1, h2, h3⟩ := PVec.refresh_rows E fuel a g v g' h
  have hG := genAt_rows (E := E) (i := i) (n := 1) (G := G) (rows := rows) (by rw [h1]; exact hg) (fun r hr j hj => (Raccoon.refresh_table hd (ha r hr) hj (h3 r hr)).1)
  constructor
  · have := hG rows (Nat.le_refl _)
    rwa [Nat.mul_one, h2] at this
  · intro r hr
    have := hG r (by omega)
    rw [Nat.mul_one] at this
    exact (Raccoon.refresh_table hd (ha r hr) this (h3 r hr)).2

theorem addRepNoise_table {E : Ext} {d i fuel u κ rep idx : Nat} (hd : PowTwo d) (hu : 0 < u) (hu' : u ≤ 49) {v v' : MPoly d} (hv : MPoly.Can v) {prng p' : Prng} {g g' : Mrng d} (hg : GenAt E d i g)
    (h : MPoly.addRepNoise E fuel u rep κ idx v prng g = .ok (v', p', g')) :
    GenAt E d (i + rep) g' ∧ ∀ (s : Nat) (hs : s < d), (v'[s]).toZ = (v[s]).toZ + ∑ n ∈ range rep, (toR (noiseAt E u κ d idx prng.stream prng.pos n s) + tableMask E d (i + n) ⟨s, hs⟩) := by
  obtain ⟨X, G, x1, x2, g1, g2, -, hstep⟩ := addRepNoise_trace E fuel hd hu hu' v prng g hv v' p' g' h
  suffices H : ∀ n, n ≤ rep → GenAt E d (i + n) (G n) ∧ ∀ (s : Nat) (hs : s < d), ((X n)[s]).toZ = (v[s]).toZ + ∑ n ∈ range n, (toR (noiseAt E u κ d idx prng.stream prng.pos n s) + tableMask E d (i + n) ⟨s, hs⟩) by
    have := H rep (Nat.le_refl _)
    rwa [g2, x2] at this
  intro n
  induction n with
  | zero => intro _; rw [g1, x1]; exact ⟨hg, fun s hs => by rw [range_zero, sum_empty, add_zero]⟩
  | succ n ih =>
    intro hn
    obtain ⟨i1, i2⟩ := ih (by omega)
    obtain ⟨x, hx1, hx2, hx3⟩ := hstep n hn
    obtain ⟨k1, k2⟩ := refresh_table hd hx1.loose i1 hx3
    refine ⟨k1, fun s hs => ?_⟩
    rw [k2 s hs, hx2 s hs, i2 s hs, sum_range_succ]
    abel

theorem PVec.addRepNoise_table {E : Ext} {d i fuel u κ rep rows : Nat} (hd : PowTwo d) (hu : 0 < u) (hu' : u ≤ 49) {v v' : PVec rows d} (hv : PVec.Can v) {prng p' : Prng} {g g' : Mrng d}
    (hg : GenAt E d i g) (h : PVec.addRepNoise E fuel u rep κ v prng g = .ok (v', p', g')) :
    GenAt E d (i + rows * rep) g' ∧ ∀ (r : Nat) (hr : r < rows) (s : Nat) (hs : s < d), (v'[r][s]).toZ = (v[r][s]).toZ +
      ∑ n ∈ range rep, (toR (noiseAt E u κ d r prng.stream (prng.pos + r * (rep * d * (κ / 8))) n s) + tableMask E d (i + r * rep + n) ⟨s, hs⟩) := by
  obtain ⟨Q, G, q1, q2, g1, g2, h3⟩ := PVec.addRepNoise_rows E fuel u rep κ v prng g v' p' g' h
  have hpos := PVec.addRepNoise_pos E fuel hd hu hu' hv Q G h3
  have hG := genAt_rows (E := E) (i := i) (n := rep) (G := G) (rows := rows) (by rw [g1]; exact hg) (fun r hr j hj => (Raccoon.addRepNoise_table hd hu hu' (hv r hr) hj (h3 r hr)).1)
  constructor
  · have := hG rows (Nat.le_refl _)
    rwa [g2] at this
  · intro r hr s hs
    have := (Raccoon.addRepNoise_table hd hu hu' (hv r hr) (hG r (by omega)) (h3 r hr)).2 s hs
    rw [hpos r (by omega), q1] at this
    exact this

end Raccoon
