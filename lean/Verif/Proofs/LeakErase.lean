import Verif.Model.LeakApi
import Verif.Proofs.Loops
/-!
# Dropping the observations gives the model back
-/
namespace Raccoon
open Lk

namespace Lk
@[simp] theorem val_bind (p : Lk α) (f : α → Lk β) : (p >>= f).val = p.val >>= fun a => (f a).val := by
  show (Lk.bind p f).val = Res.bind p.val _
  unfold Lk.bind Res.bind
  cases p.val <;> rfl
@[simp] theorem val_pure (a : α) : (pure a : Lk α).val = .ok a := rfl
@[simp] theorem val_lift (r : Res α) : (lift r).val = r := rfl
@[simp] theorem val_tick (e : Ev) (p : Lk α) : (tick e p).val = p.val := rfl
@[simp] theorem val_ite (c : Prop) [Decidable c] (t e : Lk α) : (if c then t else e).val = if c then t.val else e.val := by
  split <;> rfl
@[simp] theorem val_branch (c : Prop) [Decidable c] (t e : Lk α) : (branch c t e).val = if c then t.val else e.val := by
  simp [branch]
end Lk

@[simp] theorem val_rdL {α : Type u} {n : Nat} (v : Vector α n) (i : Nat) : (rdL v i).val = v.rd i := rfl
@[simp] theorem val_wrL {α : Type u} {n : Nat} (v : Vector α n) (i : Nat) (x : α) : (wrL v i x).val = v.wr i x := rfl
@[simp] theorem val_subspanL {α : Type} (b : List α) (o c : Nat) : (subspanL b o c).val = subspan b o c := rfl
@[simp] theorem val_writeSpanL (b : List U8) (o : Nat) (x : List U8) : (writeSpanL b o x).val = writeSpan b o x := rfl
@[simp] theorem val_fromLeBytesL (w : Nat) (b : List U8) : (fromLeBytesL w b).val = .ok (fromLeBytes w b) := rfl
@[simp] theorem val_putLeL (b : List U8) (o c : Nat) (v : U64) : (putLeL b o c v).val = putLe b o c v := rfl
@[simp] theorem val_ctEqByteArrayL (a b : List U8) : (ctEqByteArrayL a b).val = .ok (ctEqByteArray a b) := rfl
@[simp] theorem val_absorbL (x : Xof) (b : List U8) : (x.absorbL b).val = .ok (x.absorb b) := rfl
@[simp] theorem val_squeezeL (x : Xof) (n : Nat) : (x.squeezeL n).val = .ok (x.squeeze n) := rfl
@[simp] theorem val_readL (p : Prng) (n : Nat) : (p.readL n).val = .ok (p.read n) := rfl
@[simp] theorem val_getL (E : Ext) (m : Mrng d) (i : Nat) : (m.getL E i).val = .ok (m.get E i) := by
  unfold Mrng.getL Mrng.get
  simp only [val_branch, val_pure]
  split <;> simp_all

@[simp] theorem val_forL {σ : Type u} (lo hi step : Nat) (body : Nat → σ → Lk σ) (s : σ) :
    (forL lo hi step body s).val = forLoop lo hi step (fun i s => (body i s).val) s := by
  unfold forL forLoop
  simp only [val_bind, val_tick, val_pure]
  generalize List.range' lo ((hi - lo + step - 1) / step) step = L
  induction L generalizing s with
  | nil => rfl
  | cons a L ih =>
    rw [List.foldlM_cons, List.foldlM_cons]
    simp only [val_bind, val_tick]
    cases h : (body a s).val with
    | ok s' => simpa using ih s'
    | ub => rfl
    | nofuel => rfl

/-! ### `res[i] = g(i)` -/

/-- Write a list of values, from index `a` on. -/
def writeAll {β : Type u} {n : Nat} : Nat → List β → Vector β n → Res (Vector β n)
  | _, [], v => .ok v
  | a, y :: ys, v => v.wr a y >>= writeAll (a + 1) ys

theorem foldlM_write {β : Type u} {n : Nat} (g : Nat → Res β) (m : Nat) : ∀ (a : Nat) (v : Vector β n), a + m ≤ n →
    (List.range' a m).foldlM (fun v i => g i >>= fun y => v.wr i y) v
      = (List.range' a m).mapM g >>= fun l => writeAll a l v := by
  induction m with
  | zero => intro a v _; rfl
  | succ m ih =>
    intro a v h
    rw [List.range'_succ, List.foldlM_cons, List.mapM_cons]
    cases hg : g a with
    | ub => rfl
    | nofuel => rfl
    | ok y =>
      simp only [Res.ok_bind]
      rw [wr_ok (by omega : a < n), Res.ok_bind, ih (a + 1) _ (by omega)]
      cases hm : List.mapM g (List.range' (a + 1) m) with
      | ub => rfl
      | nofuel => rfl
      | ok l => simp [writeAll, wr_ok (by omega : a < n)]

theorem writeAll_ok {β : Type u} {n : Nat} : ∀ (l : List β) (a : Nat) (v : Vector β n), a + l.length ≤ n →
    ∃ w, writeAll a l v = .ok w ∧ (∀ i (hi : i < n), i < a → w[i] = v[i]) ∧
      (∀ j (hj : j < l.length) (hi : a + j < n), w[a + j] = l[j]) := by
  intro l
  induction l with
  | nil => intro a v _; exact ⟨v, rfl, fun _ _ _ => rfl, fun j hj => absurd hj (by simp)⟩
  | cons y ys ih =>
    intro a v h
    simp only [List.length_cons] at h
    have ha : a < n := by omega
    obtain ⟨w, h1, h2, h3⟩ := ih (a + 1) (v.set a y ha) (by omega)
    refine ⟨w, ?_, ?_, ?_⟩
    · simp [writeAll, wr_ok ha, h1]
    · intro i hi hia
      rw [h2 i hi (by omega), Vector.getElem_set_ne (h := by omega)]
    · intro j hj hi
      rcases j with _ | j
      · simp only [Nat.add_zero, List.getElem_cons_zero]
        rw [h2 a ha (by omega), Vector.getElem_set_self]
      · simp only [List.getElem_cons_succ]
        have := h3 j (by simpa using hj) (by omega)
        have e : a + 1 + j = a + (j + 1) := by omega
        simp only [e] at this
        exact this

theorem list_mapM_range {α : Type v} {β : Type u} (g : Nat → Res β) (f : α → Res β) : ∀ (L : List α) (k : Nat),
    (∀ j (hj : j < L.length), g (k + j) = f L[j]) → (List.range' k L.length).mapM g = L.mapM f := by
  intro L
  induction L with
  | nil => intro k _; rfl
  | cons x L ih =>
    intro k h
    rw [List.length_cons, List.range'_succ, List.mapM_cons, List.mapM_cons]
    have h0 := h 0 (by simp)
    simp only [Nat.add_zero, List.getElem_cons_zero] at h0
    rw [h0, ih (k + 1) fun j hj => by
      have := h (j + 1) (by simpa using hj)
      rw [List.getElem_cons_succ] at this
      rw [← this]; congr 1; omega]

/-- `for i: res[i] = g(i)` where `g i` only depends on `v[i]`. -/
theorem genLoop_mapR {α β : Type u} {n : Nat} (v : Vector α n) (f : α → Res β) (g : Nat → Res β) (init : Vector β n)
    (h : ∀ i (hi : i < n), g i = f v[i]) :
    forLoop 0 n 1 (fun i w => g i >>= fun y => w.wr i y) init = v.mapR f := by
  have e0 : (n - 0 + 1 - 1) / 1 = n := by omega
  have e1 : forLoop 0 n 1 (fun i w => g i >>= fun y => Vector.wr w i y) init
      = (v.toArray.toList.mapM f) >>= fun l => writeAll 0 l init := by
    unfold forLoop
    rw [e0, foldlM_write g n 0 init (by omega)]
    have := list_mapM_range g f v.toArray.toList 0 (by
      intro j hj
      have hj' : j < n := by simpa using hj
      simpa using h j hj')
    simp only [Array.length_toList, Vector.size_toArray] at this
    rw [this]
  rw [e1]
  have e2 : Vector.toArray <$> v.mapR f = Array.mapM f v.toArray := Vector.toArray_mapM
  rw [Array.mapM_eq_mapM_toList] at e2
  cases hl : v.toArray.toList.mapM f with
  | ub =>
    rw [hl] at e2
    cases hv : v.mapR f with
    | ub => rfl
    | ok w => rw [hv] at e2; cases e2
    | nofuel => rw [hv] at e2; cases e2
  | nofuel =>
    rw [hl] at e2
    cases hv : v.mapR f with
    | ub => rw [hv] at e2; cases e2
    | ok w => rw [hv] at e2; cases e2
    | nofuel => rfl
  | ok l =>
    rw [hl] at e2
    cases hv : v.mapR f with
    | ub => rw [hv] at e2; cases e2
    | nofuel => rw [hv] at e2; cases e2
    | ok w =>
      rw [hv] at e2
      simp only [Res.ok_map, Res.ok.injEq] at e2
      have hlen : l.length = n := by
        have := congrArg Array.size e2
        simpa using this.symm
      obtain ⟨w', h1, -, h3⟩ := writeAll_ok l 0 init (by omega)
      rw [Res.ok_bind, h1]
      congr 1
      apply Vector.ext
      intro i hi
      have h4 := h3 i (by omega) (by omega)
      simp only [Nat.zero_add] at h4
      rw [h4]
      have h5 : w.toArray[i]'(by simpa using hi) = (l.toArray)[i]'(by simpa [hlen] using hi) := by
        simp only [e2]
      simpa using h5.symm

/-- `for i: res[i] = g(i)` with defined `g`. -/
theorem genLoop_pure {β : Type u} {n : Nat} (init w : Vector β n) (g : Nat → Res β)
    (h : ∀ i (hi : i < n), g i = .ok w[i]) :
    forLoop 0 n 1 (fun i v => g i >>= fun y => v.wr i y) init = .ok w := by
  rw [genLoop_mapR w (fun x => Res.ok x) g init h]
  rw [mapR_eq_ok]
  intro i hi; rfl

theorem val_genL {β : Type u} {n : Nat} (init : Vector β n) (g : Nat → Lk β) :
    (genL init g).val = forLoop 0 n 1 (fun i w => (g i).val >>= fun y => w.wr i y) init := by
  simp [genL]

theorem val_genL_ok {β : Type u} {n : Nat} {init : Vector β n} {g : Nat → Lk β} (w : Vector β n)
    (h : ∀ i (hi : i < n), (g i).val = .ok w[i]) : (genL init g).val = .ok w := by
  rw [val_genL]; exact genLoop_pure init w _ h

theorem val_genL_mapR {α β : Type u} {n : Nat} {init : Vector β n} {g : Nat → Lk β} (v : Vector α n) (f : α → Res β)
    (h : ∀ i (hi : i < n), (g i).val = f v[i]) : (genL init g).val = v.mapR f := by
  rw [val_genL]; exact genLoop_mapR v f _ init h

/-! ### Field -/

@[simp] theorem val_u128_shlL (x : U128) (n : Nat) : (x.shlL n).val = .ok (x.shl n) := by
  unfold U128.shlL U128.shl
  simp only [val_branch, val_pure]
  split
  · rfl
  split
  · rfl
  split
  · rfl
  split <;> rfl
@[simp] theorem val_u128_shrL (x : U128) (n : Nat) : (x.shrL n).val = .ok (x.shr n) := by
  unfold U128.shrL U128.shr
  simp only [val_branch, val_pure]
  split
  · rfl
  split
  · rfl
  split
  · rfl
  split <;> rfl
@[simp] theorem val_barrettReduceL (v : U128) : (barrettReduceL v).val = .ok (barrettReduce v) := by
  simp only [barrettReduceL, val_bind, val_u128_shrL, val_u128_shlL, Res.ok_bind, val_pure]
  rfl
@[simp] theorem val_zq_mulL (a b : Zq) : (a.mulL b).val = .ok (a * b) := by
  simp only [Zq.mulL, val_bind, val_barrettReduceL, Res.ok_bind, val_pure]; rfl
@[simp] theorem val_zq_shlL (a : Zq) (n : Nat) : (a.shlL n).val = a.shl n := by
  simp only [Zq.shlL, val_bind, val_lift, val_barrettReduceL, Res.ok_bind, val_pure]; rfl

theorem val_xgcdLoopL : ∀ n s, (xgcdLoopL n s).val = xgcdLoop n s
  | 0, _ => rfl
  | n + 1, s => by
    simp only [xgcdLoopL, xgcdLoop, val_branch, val_bind, val_lift, val_pure, val_xgcdLoopL n]

theorem val_invL (x : Zq) : x.invL.val = x.inv := by
  simp only [Zq.invL, Zq.inv, xgcd, val_branch, val_bind, val_lift, val_pure, val_xgcdLoopL, bind_assoc, Res.ok_bind]
  split
  · rfl
  · congr 1; funext s
    split
    · rfl
    · congr 1
      · split <;> rfl
      · funext a
        congr 1
        split <;> rfl

/-! ### Polynomials -/
namespace Poly

@[simp] theorem val_addL (a b : Poly) : (addL a b).val = .ok (add a b) :=
  val_genL_ok _ fun i hi => by simp [rd_ok hi, add]
@[simp] theorem val_subL (a b : Poly) : (subL a b).val = .ok (sub a b) :=
  val_genL_ok _ fun i hi => by simp [rd_ok hi, sub]
@[simp] theorem val_mulL (a b : Poly) : (mulL a b).val = .ok (mul a b) :=
  val_genL_ok _ fun i hi => by simp [rd_ok hi, mul]
@[simp] theorem val_subModL (q' : U64) (a b : Poly) : (subModL q' a b).val = .ok (subMod q' a b) :=
  val_genL_ok _ fun i hi => by simp [rd_ok hi, subMod]
@[simp] theorem val_addModL (q' : U64) (a b : Poly) : (addModL q' a b).val = .ok (addMod q' a b) :=
  val_genL_ok _ fun i hi => by simp [rd_ok hi, addMod]
@[simp] theorem val_roundingShrL (n : Nat) (a : Poly) : (roundingShrL n a).val = .ok (roundingShr n a) :=
  val_genL_ok _ fun i hi => by simp [rd_ok hi, roundingShr]
@[simp] theorem val_shlL (a : Poly) (n : Nat) : (a.shlL n).val = a.shl n :=
  val_genL_mapR a _ fun i hi => by simp [rd_ok hi]
@[simp] theorem val_centerL (q' : U64) (a : Poly) : (centerL q' a).val = center q' a :=
  val_genL_mapR a _ fun i hi => by simp [rd_ok hi]

/-- A loop over all indices that only folds. -/
theorem forLoop_finFold {σ : Type u} {n : Nat} (f : σ → Fin n → σ) (body : Nat → σ → Res σ)
    (h : ∀ i (hi : i < n) s, body i s = .ok (f s ⟨i, hi⟩)) (s : σ) :
    forLoop 0 n 1 body s = .ok ((List.finRange n).foldl f s) := by
  have e0 : (n - 0 + 1 - 1) / 1 = n := by omega
  unfold forLoop
  rw [e0]
  have e : List.range' 0 n 1 = (List.finRange n).map Fin.val := by
    apply List.ext_getElem
    · simp
    · intro i h1 h2; simp
  rw [e]
  generalize List.finRange n = L
  induction L generalizing s with
  | nil => rfl
  | cons a L ih =>
    rw [List.map_cons, List.foldlM_cons, h a.1 a.2 s, Res.ok_bind, ih]; rfl

@[simp] theorem val_eqL (a b : Poly) : (eqL a b).val = .ok (eq a b) := by
  unfold eqL eq
  rw [val_forL]
  exact forLoop_finFold (fun res i => res && decide (a[i] = b[i])) _ (fun i hi s => by simp [rd_ok hi]) true

@[simp] theorem val_nttButterflyL (len : Nat) (z : Zq) (i : Nat) (f : Poly) :
    (nttButterflyL len z i f).val = nttButterfly len z i f := by
  simp only [nttButterflyL, nttButterfly, val_bind, val_rdL, val_wrL, val_zq_mulL, Res.ok_bind]
@[simp] theorem val_nttLayerL (l : Nat) (f : Poly) : (nttLayerL l f).val = nttLayer l f := by
  simp only [nttLayerL, nttLayer, val_forL, val_bind, val_rdL, val_nttButterflyL]
@[simp] theorem val_nttL (f : Poly) : f.nttLk.val = f.ntt := by
  simp only [nttLk, ntt, val_forL, val_nttLayerL]
@[simp] theorem val_inttButterflyL (len : Nat) (z : Zq) (i : Nat) (f : Poly) :
    (inttButterflyL len z i f).val = inttButterfly len z i f := by
  simp only [inttButterflyL, inttButterfly, val_bind, val_rdL, val_wrL, val_zq_mulL, Res.ok_bind]
@[simp] theorem val_inttLayerL (l : Nat) (f : Poly) : (inttLayerL l f).val = inttLayer l f := by
  simp only [inttLayerL, inttLayer, val_forL, val_bind, val_rdL, val_inttButterflyL]
theorem val_scaleL (c : Zq) (f : Poly) : (genL zero fun i => do
    let x ← rdL f i
    x.mulL c).val = .ok (f.map fun x => x * c) :=
  val_genL_ok (f.map fun x => x * c) fun i hi => by
    simp only [val_bind, val_rdL, rd_ok hi, Res.ok_bind, val_zq_mulL, Vector.getElem_map]
@[simp] theorem val_inttL (f : Poly) : f.inttLk.val = f.intt := by
  simp only [inttLk, intt, val_bind, val_forL, val_inttLayerL, val_scaleL INV_N]

@[simp] theorem val_sampleQStepL (s : SampleQSt) : (sampleQStepL s).val = sampleQStep s := by
  simp only [sampleQStepL, sampleQStep, val_bind, val_branch, val_pure, val_subspanL, val_writeSpanL, val_squeezeL,
    val_fromLeBytesL, val_wrL, Res.ok_bind]
  by_cases h : s.bufOff + (Q_BIT_WIDTH + 7) / 8 > s.buf.length
  · simp only [if_pos h, bind_assoc, Res.ok_bind]
  · simp only [if_neg h, Res.ok_bind]
@[simp] theorem val_sampleQLoopL : ∀ n s, (sampleQLoopL n s).val = sampleQLoop n s
  | 0, s => by simp only [sampleQLoopL, sampleQLoop, val_branch, val_lift, val_pure]
  | n + 1, s => by
    simp only [sampleQLoopL, sampleQLoop, val_branch, val_bind, val_pure, val_sampleQStepL, val_sampleQLoopL n]
@[simp] theorem val_sampleQL (E : Ext) (fuel : Nat) (h s : List U8) : (sampleQL E fuel h s).val = sampleQ E fuel h s := by
  simp only [sampleQL, sampleQ, val_bind, val_absorbL, val_squeezeL, Res.ok_bind, val_sampleQLoopL]

@[simp] theorem val_samplePolyLoopL (E : Ext) (idx : Nat) : ∀ n (m : Mrng d) res ci,
    (samplePolyLoopL E idx n m res ci).val = samplePolyLoop E idx n m res ci
  | 0, m, res, ci => by simp only [samplePolyLoopL, samplePolyLoop, val_branch, val_lift, val_pure]
  | n + 1, m, res, ci => by
    simp only [samplePolyLoopL, samplePolyLoop, val_branch, val_bind, val_pure, val_getL, Res.ok_bind, val_wrL,
      val_samplePolyLoopL E idx n]
@[simp] theorem val_samplePolynomialL (E : Ext) (fuel idx : Nat) (m : Mrng d) :
    (samplePolynomialL E fuel idx m).val = samplePolynomial E fuel idx m := by
  simp only [samplePolynomialL, samplePolynomial, val_branch, val_pure, val_samplePolyLoopL]

@[simp] theorem val_chalStepL (s : Xof × Poly × Nat) : (chalStepL s).val = chalStep s := by
  obtain ⟨xof, c, cnt⟩ := s
  dsimp only [chalStepL, chalStep]
  simp only [val_bind, val_squeezeL, val_fromLeBytesL, val_rdL, val_wrL, val_pure, Res.ok_bind]
  cases hc : c.rd (((fromLeBytes 16 (xof.squeeze 2).1) >>> 1) &&& (((1 : BitVec 16) <<< LOG2N) - 1)).toNat with
  | ub => rfl
  | nofuel => rfl
  | ok ci =>
    simp only [Res.ok_bind]
    by_cases h : ci = ⟨0⟩
    · simp only [h, decide_true, if_true]
      rw [rd_ok (by omega : 1 < 2)]; rfl
    · simp only [h, decide_false, if_false]
      rw [if_neg (by simp), rd_ok (by omega : 0 < 2)]; simp
@[simp] theorem val_chalLoopL (ω : Nat) : ∀ n s, (chalLoopL ω n s).val = chalLoop ω n s
  | 0, s => by simp only [chalLoopL, chalLoop, val_branch, val_lift, val_pure]
  | n + 1, s => by
    simp only [chalLoopL, chalLoop, val_branch, val_bind, val_pure, val_chalStepL, val_chalLoopL ω n]
@[simp] theorem val_chalPolyL (E : Ext) (fuel ω : Nat) (c : List U8) : (chalPolyL E fuel ω c).val = chalPoly E fuel ω c := by
  simp only [chalPolyL, chalPoly, val_bind, val_absorbL, Res.ok_bind, val_chalLoopL]

end Poly
end Raccoon
