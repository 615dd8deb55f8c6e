import Verif.Proofs.Masked
import Verif.Proofs.PolySmall
import Verif.Proofs.Sampling
import Verif.Model.Api
/-!
# Signature vectors: centered rows, rounding and small-modulus arithmetic on unmasked vectors
-/
namespace Raccoon
attribute [-instance] Monoid.toNPow
open Finset

/-- All rows of an unmasked vector are below `m`. -/
def PVec.RowsBelow (m : Nat) (v : PVec k 1) : Prop := ∀ r (hr : r < k), Poly.Below m v[r][0]

theorem PVec.ext_raw {v w : PVec k 1} (h : ∀ r (hr : r < k) i (hi : i < 512), (v[r][0][i]).raw.toNat = (w[r][0][i]).raw.toNat) : v = w := by
  apply Vector.ext
  intro r hr
  apply Vector.ext
  intro s hs
  obtain rfl : s = 0 := by omega
  apply Vector.ext
  intro i hi
  exact Zq.ext_nat (h r hr i hi)

theorem centerVec_spec {q' : U64} (hm : q'.toNat < 2 ^ 62) {v : PVec k 1} (hv : PVec.RowsBelow q'.toNat v) :
    ∃ L, centerVec q' v = .ok L ∧ L.length = k * 512 ∧
      ∀ r (hr : r < k) i (hi : i < 512) (h : r * 512 + i < L.length), L[r * 512 + i] = Poly.ctr q'.toNat (v[r][0][i]).raw.toNat := by
  unfold centerVec
  refine (forLoop_Ok1 (Nat.zero_le k) (fun n (acc : List Int) => acc.length = n * 512 ∧
      ∀ r (hr : r < k) i (hi : i < 512) (h : r * 512 + i < acc.length), acc[r * 512 + i] = Poly.ctr q'.toNat (v[r][0][i]).raw.toNat) ?_ ?_).mono ?_
  · exact ⟨rfl, fun r hr i hi h => absurd h (Nat.not_lt_zero _)⟩
  · intro n acc _ hn I
    rw [rd_ok hn, Res.ok_bind, rd_ok (by omega), Res.ok_bind]
    obtain ⟨c, hc, hcv⟩ := Poly.center_spec hm (hv n hn)
    rw [hc, Res.ok_bind, Res.ok_ok]
    obtain ⟨I1, I2⟩ := I
    have hcl : c.toList.length = 512 := Vector.length_toList
    refine ⟨by rw [List.length_append, hcl, I1]; omega, ?_⟩
    intro r hr i hi h
    rcases Nat.lt_or_ge (r * 512 + i) acc.length with hlt | hge
    · rw [List.getElem_append_left hlt]; exact I2 r hr i hi hlt
    · obtain rfl : r = n := by rw [List.length_append, hcl] at h; omega
      rw [List.getElem_append_right hge]
      have e : r * 512 + i - acc.length = i := by omega
      rw [← hcv i hi, Vector.getElem_toList]
      simp only [e]
  · intro L h; exact h

theorem toVec512_ok {l : List Int} (h : l.length = 512) : ∃ v, toVec512 l = .ok v ∧ ∀ i (hi : i < 512), v[i] = l[i] := by
  unfold toVec512
  rw [dif_pos h]
  refine ⟨_, rfl, fun i hi => ?_⟩
  simp

theorem uncenterVec_spec {q' : U64} (hm : q'.toNat < 2 ^ 62) {x : List Int} {rows : Nat} (hx : x.length = rows * 512)
    (hb : ∀ y ∈ x, -(q'.toNat : Int) ≤ y ∧ y < (q'.toNat : Int)) :
    ∃ v, uncenterVec q' rows x = .ok v ∧
      ∀ r (hr : r < rows) i (hi : i < 512) (h : r * 512 + i < x.length), ((v[r][0][i]).raw.toNat : Int) = Poly.unctr q'.toNat x[r * 512 + i] := by
  unfold uncenterVec
  refine (forLoop_Ok1 (Nat.zero_le rows) (fun n (acc : PVec rows 1) => 
      ∀ r (hr : r < rows) i (hi : i < 512) (h : r * 512 + i < x.length), r < n → ((acc[r][0][i]).raw.toNat : Int) = Poly.unctr q'.toNat x[r * 512 + i]) ?_ ?_).mono ?_
  · intro r hr i hi h h0; omega
  · intro n acc _ hn I
    unfold subspan
    rw [if_pos (by omega), Res.ok_bind]
    obtain ⟨v, hv, hvv⟩ := toVec512_ok (l := (x.drop (n * 512)).take 512) (by rw [List.length_take, List.length_drop]; omega)
    rw [hv, Res.ok_bind]
    obtain ⟨a, ha, hav⟩ := Poly.fromCentered_spec hm (v := v) (fun i hi => by
      rw [hvv i hi, List.getElem_take, List.getElem_drop]
      exact hb _ (List.getElem_mem _))
    rw [ha, Res.ok_bind, rd_ok hn, Res.ok_bind, wr_ok (by omega), Res.ok_bind, wr_ok hn, Res.ok_ok]
    intro r hr i hi h h1
    rcases Nat.lt_or_ge r n with hlt | hge
    · rw [← I r hr i hi h hlt, Vector.getElem_set_ne hn hr (by omega)]
    · obtain rfl : r = n := by omega
      rw [Vector.getElem_set_self, Vector.getElem_set_self, hav i hi, hvv i hi, List.getElem_take, List.getElem_drop]
  · intro v h r hr i hi h'
    exact h r hr i hi h' hr

/-- Un-centering recovers the vector that was centered. -/
theorem uncenter_center {q' : U64} (hm : q'.toNat < 2 ^ 62) {v : PVec k 1} (hv : PVec.RowsBelow q'.toNat v) {L : List Int}
    (h : centerVec q' v = .ok L) : L.length = k * 512 ∧ uncenterVec q' k L = .ok v := by
  obtain ⟨L', e, hl, hL⟩ := centerVec_spec hm hv
  obtain rfl := Res.ok.inj (e.symm.trans h)
  refine ⟨hl, ?_⟩
  have hb : ∀ y ∈ L', -(q'.toNat : Int) ≤ y ∧ y < (q'.toNat : Int) := by
    intro y hy
    obtain ⟨j, hj, rfl⟩ := List.mem_iff_getElem.1 hy
    have hr : j / 512 < k := by omega
    have := hL (j / 512) hr (j % 512) (by omega) (by omega)
    have e : j / 512 * 512 + j % 512 = j := by omega
    simp only [e] at this
    rw [this]
    have hlt := hv _ hr (j % 512) (by omega)
    have := Poly.ctr_range hlt
    omega
  obtain ⟨w, ew, hw⟩ := uncenterVec_spec hm hl hb
  rw [ew]
  refine congrArg Res.ok (PVec.ext_raw fun r hr i hi => ?_)
  have h1 := hw r hr i hi (by omega)
  rw [hL r hr i hi (by omega), Poly.unctr_ctr (hv r hr i hi)] at h1
  exact_mod_cast h1

theorem PVec.can_below {v : PVec k 1} : PVec.Can v ↔ PVec.RowsBelow q v := by
  constructor
  · intro h r hr i hi; exact h r hr 0 (by omega) i hi
  · intro h r hr s hs i hi
    obtain rfl : s = 0 := by omega
    exact h r hr i hi

theorem PVec.roundingShr_get {ν : Nat} (v : PVec k 1) {r : Nat} (hr : r < k) : (v.roundingShr ν)[r][0] = Poly.roundingShr ν v[r][0] := by
  unfold PVec.roundingShr MPoly.roundingShr
  rw [Vector.getElem_map, Vector.getElem_map]

theorem PVec.roundingShr_below {ν : Nat} (h1 : 1 ≤ ν) (h2 : ν ≤ 47) {v : PVec k 1} (hv : PVec.Can v) :
    PVec.RowsBelow (q / 2 ^ ν) (v.roundingShr ν) := by
  intro r hr
  rw [PVec.roundingShr_get v hr]
  exact Poly.roundingShr_below h1 h2 (hv r hr 0 (by omega))

theorem PVec.addMod_get {q' : U64} (v w : PVec k 1) {r : Nat} (hr : r < k) : (v.addMod q' w)[r][0] = Poly.addMod q' v[r][0] w[r][0] := by
  unfold PVec.addMod MPoly.addMod
  rw [Vector.getElem_zipWith, Vector.getElem_zipWith]

theorem PVec.subMod_get {q' : U64} (v w : PVec k 1) {r : Nat} (hr : r < k) : (v.subMod q' w)[r][0] = Poly.subMod q' v[r][0] w[r][0] := by
  unfold PVec.subMod MPoly.subMod
  rw [Vector.getElem_zipWith, Vector.getElem_zipWith]

theorem PVec.subMod_below {q' : U64} (hm : q'.toNat < 2 ^ 62) {v w : PVec k 1} (hv : PVec.RowsBelow q'.toNat v) (hw : PVec.RowsBelow q'.toNat w) :
    PVec.RowsBelow q'.toNat (v.subMod q' w) := by
  intro r hr
  rw [PVec.subMod_get v w hr]
  exact Poly.subMod_below hm (hv r hr) (hw r hr)

theorem PVec.add_sub_mod {q' : U64} (hm : q'.toNat < 2 ^ 62) {w y : PVec k 1} (hw : PVec.RowsBelow q'.toNat w) (hy : PVec.RowsBelow q'.toNat y) :
    y.addMod q' (w.subMod q' y) = w := by
  apply Vector.ext
  intro r hr
  apply Vector.ext
  intro s hs
  obtain rfl : s = 0 := by omega
  rw [PVec.addMod_get _ _ hr, PVec.subMod_get _ _ hr]
  exact Poly.add_sub_mod hm (hw r hr) (hy r hr)

/-- Shifting a value below 2^(64-n) left by `n` multiplies by 2^n modulo q. -/
theorem Zq.shl_mul {a : Zq} {n : Nat} (hn : n < 64) (ha : a.raw.toNat * 2 ^ n < 2 ^ 64) :
    ∃ r, a.shl n = .ok r ∧ r.Can ∧ r.toZ = (2 ^ n : ZMod q) * a.toZ := by
  unfold Zq.shl shl64
  rw [if_pos hn, Res.ok_bind]
  refine ⟨_, rfl, ?_⟩
  have hv : (a.raw <<< n).toNat = a.raw.toNat * 2 ^ n := by
    rw [BitVec.toNat_shiftLeft, Nat.shiftLeft_eq, Nat.mod_eq_of_lt ha]
  have hb := barrettReduce_toNat (U128.from (a.raw <<< n)) (by rw [U128.val_from, hv]; exact Nat.lt_of_lt_of_le ha (Nat.pow_le_pow_right (by omega) (by omega)))
  rw [U128.val_from, hv] at hb
  constructor
  · unfold Zq.Can
    show (barrettReduce _).toNat < q
    rw [hb]; exact Nat.mod_lt _ q_pos
  · unfold Zq.toZ
    show (((barrettReduce _).toNat : Nat) : ZMod q) = _
    rw [hb, ZMod.natCast_mod]
    push_cast
    rw [mul_comm]

theorem PVec.shl_spec {v : PVec k 1} {n : Nat} (hn : n < 64) {m : Nat} (hm : m * 2 ^ n ≤ 2 ^ 64) (hv : PVec.RowsBelow m v) :
    (v.shl n).Ok (fun r => PVec.Can r ∧ ∀ i : Fin k, PVec.val r i = fun c => (2 ^ n : ZMod q) * PVec.val v i c) := by
  unfold PVec.shl
  refine (mapR_Ok (fun i (r : MPoly 1) => ∀ hi : i < k, (r[0]).Can ∧ ∀ c (hc : c < 512), (r[0][c]).toZ = (2 ^ n : ZMod q) * (v[i][0][c]).toZ) ?_).mono ?_
  · intro i hi
    unfold MPoly.shl
    refine (mapR_Ok (fun s (r : Poly) => ∀ hs : s < 1, r.Can ∧ ∀ c (hc : c < 512), (r[c]).toZ = (2 ^ n : ZMod q) * (v[i][s][c]).toZ) ?_).mono ?_
    · intro s hs
      unfold Poly.shl
      obtain rfl : s = 0 := by omega
      refine (mapR_Ok (fun c (r : Zq) => ∀ hc : c < 512, r.Can ∧ r.toZ = (2 ^ n : ZMod q) * (v[i][0][c]).toZ) ?_).mono ?_
      · intro c hc
        have hb := hv i hi c hc
        obtain ⟨r, e, h1, h2⟩ := Zq.shl_mul (a := v[i][0][c]) hn (Nat.lt_of_lt_of_le (Nat.mul_lt_mul_of_pos_right hb (Nat.two_pow_pos n)) hm)
        exact ⟨r, e, fun _ => ⟨h1, h2⟩⟩
      · intro r h _
        exact ⟨fun c hc => (h c hc hc).1, fun c hc => (h c hc hc).2⟩
    · intro r h _
      exact h 0 (by omega) (by omega)
  · intro r h
    refine ⟨fun i hi => MPoly.can_one.2 (h i hi hi).1, fun i => ?_⟩
    funext c
    unfold PVec.val
    rw [MPoly.val_one, MPoly.val_one]
    exact (h i.val i.isLt i.isLt).2 c.val c.isLt

end Raccoon
