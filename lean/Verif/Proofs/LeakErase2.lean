import Verif.Proofs.LeakErase
/-!
# Dropping the observations gives the model back: masked polynomials, vectors, matrices, challenge hash
-/
namespace Raccoon
open Lk

theorem val_each_mapR {α β : Type} {n : Nat} {init : Vector β n} (a : Vector α n) {f : α → Lk β} {g : α → Res β}
    (h : ∀ x, (f x).val = g x) : (genL init fun i => do
      let x ← rdL a i
      f x).val = a.mapR g :=
  val_genL_mapR a g fun i hi => by rw [val_bind, val_rdL, rd_ok hi, Res.ok_bind, h]

namespace MPoly

@[simp] theorem val_addL (a b : MPoly d) : (addL a b).val = .ok (add a b) :=
  val_genL_ok _ fun i hi => by simp [rd_ok hi, add]
@[simp] theorem val_subL (a b : MPoly d) : (subL a b).val = .ok (sub a b) :=
  val_genL_ok _ fun i hi => by simp [rd_ok hi, sub]
@[simp] theorem val_subModL (q' : U64) (a b : MPoly d) : (subModL q' a b).val = .ok (subMod q' a b) :=
  val_genL_ok _ fun i hi => by simp [rd_ok hi, subMod]
@[simp] theorem val_roundingShrL (n : Nat) (a : MPoly d) : (roundingShrL n a).val = .ok (roundingShr n a) :=
  val_genL_ok _ fun i hi => by simp [rd_ok hi, roundingShr]
@[simp] theorem val_shlL (a : MPoly d) (n : Nat) : (shlL a n).val = shl a n :=
  val_genL_mapR a _ fun i hi => by simp [rd_ok hi]
@[simp] theorem val_nttL (a : MPoly d) : (nttLk a).val = ntt a :=
  val_each_mapR a Poly.val_nttL
@[simp] theorem val_inttL (a : MPoly d) : (inttLk a).val = intt a :=
  val_each_mapR a Poly.val_inttL
@[simp] theorem val_eqL (a b : MPoly d) : (eqL a b).val = .ok (eq a b) := by
  unfold eqL eq
  rw [val_forL]
  exact Poly.forLoop_finFold (fun res i => res && Poly.eq a[i] b[i]) _ (fun i hi s => by simp [rd_ok hi]) true

@[simp] theorem val_maskPairL (E : Ext) (fuel i o : Nat) (s : MPoly d × Mrng d) :
    (maskPairL E fuel i o s).val = maskPair E fuel i o s := by
  simp only [maskPairL, maskPair, val_bind, Poly.val_samplePolynomialL, val_rdL, val_wrL, Poly.val_addL, Poly.val_subL,
    Res.ok_bind, val_pure]
@[simp] theorem val_zeroEncLoopL (E : Ext) (fuel : Nat) : ∀ n i (s : MPoly d × Mrng d),
    (zeroEncLoopL E fuel n i s).val = zeroEncLoop E fuel n i s
  | 0, i, s => by simp only [zeroEncLoopL, zeroEncLoop, val_branch, val_lift, val_pure]
  | n + 1, i, s => by
    simp only [zeroEncLoopL, zeroEncLoop, val_branch, val_bind, val_pure, val_forL, val_maskPairL, val_zeroEncLoopL E fuel n]
@[simp] theorem val_zeroEncodingL (E : Ext) (fuel : Nat) (m : Mrng d) :
    (zeroEncodingL E fuel m).val = zeroEncoding E fuel m := by
  simp only [zeroEncodingL, zeroEncoding, val_ite, val_bind, val_forL, val_maskPairL, val_zeroEncLoopL, val_pure]
@[simp] theorem val_refreshL (E : Ext) (fuel : Nat) (a : MPoly d) (m : Mrng d) :
    (refreshL E fuel a m).val = refresh E fuel a m := by
  simp only [refreshL, refresh, val_bind, val_zeroEncodingL, val_addL, Res.ok_bind, val_pure]

@[simp] theorem val_decodeL (a : MPoly d) : (decodeL a).val = .ok (decode a) := by
  unfold decodeL decode
  rw [val_forL]
  rw [Poly.forLoop_finFold (fun (acc : MPoly 1) i => #v[Poly.add acc[0] a[i]]) _ (fun i hi s => by
    simp only [val_bind, val_rdL, rd_ok (by omega : 0 < 1), rd_ok hi, Res.ok_bind, Poly.val_addL, val_wrL,
      wr_ok (by omega : 0 < 1)]
    congr 1
    apply Vector.ext
    intro j hj
    have : j = 0 := by omega
    subst this; simp)]
  congr 1
  have : ∀ (L : List (Fin d)) (p : Poly), L.foldl (fun (acc : MPoly 1) i => #v[Poly.add acc[0] a[i]]) #v[p]
      = #v[L.foldl (fun acc i => Poly.add acc a[i]) p] := by
    intro L
    induction L with
    | nil => intro p; rfl
    | cons x L ih => intro p; rw [List.foldl_cons, List.foldl_cons, ← ih]; rfl
  exact this _ _

@[simp] theorem val_sampleUL (E : Ext) (u : Nat) (h s : List U8) : (sampleUL E u h s).val = sampleU E u h s := by
  simp only [sampleUL, sampleU, val_bind, val_absorbL, val_squeezeL, Res.ok_bind, val_forL, val_subspanL, val_fromLeBytesL,
    val_lift, val_wrL, val_pure]
@[simp] theorem val_addNoisePolyL (p : Poly) (n : Vector Int 512) : (addNoisePolyL p n).val = addNoisePoly p n :=
  val_genL_mapR _ _ fun i hi => by simp [rd_ok hi]
@[simp] theorem val_noiseShareL (E : Ext) (u κ a b c : Nat) (s : MPoly d × Prng) :
    (noiseShareL E u κ a b c s).val = noiseShare E u κ a b c s := by
  simp only [noiseShareL, noiseShare, val_bind, val_readL, Res.ok_bind, val_sampleUL, val_rdL, val_wrL, val_addNoisePolyL,
    val_pure]
@[simp] theorem val_noiseRepL (E : Ext) (fuel u κ a b : Nat) (s : MPoly d × Prng × Mrng d) :
    (noiseRepL E fuel u κ a b s).val = noiseRep E fuel u κ a b s := by
  simp only [noiseRepL, noiseRep, val_bind, val_forL, val_noiseShareL, val_refreshL, val_pure]
@[simp] theorem val_addRepNoiseL (E : Ext) (fuel u rep κ i : Nat) (a : MPoly d) (p : Prng) (m : Mrng d) :
    (addRepNoiseL E fuel u rep κ i a p m).val = addRepNoise E fuel u rep κ i a p m := by
  simp only [addRepNoiseL, addRepNoise, val_forL, val_noiseRepL]

end MPoly

namespace PVec

@[simp] theorem val_addL (a b : PVec k d) : (addL a b).val = .ok (add a b) :=
  val_genL_ok _ fun i hi => by simp [rd_ok hi, add]
@[simp] theorem val_subL (a b : PVec k d) : (subL a b).val = .ok (sub a b) :=
  val_genL_ok _ fun i hi => by simp [rd_ok hi, sub]
@[simp] theorem val_subModL (q' : U64) (a b : PVec k d) : (subModL q' a b).val = .ok (subMod q' a b) :=
  val_genL_ok _ fun i hi => by simp [rd_ok hi, subMod]
@[simp] theorem val_roundingShrL (n : Nat) (a : PVec k d) : (roundingShrL n a).val = .ok (roundingShr n a) :=
  val_genL_ok _ fun i hi => by simp [rd_ok hi, roundingShr]
@[simp] theorem val_mulPolyL (a : PVec k d) (c : Poly) : (mulPolyL a c).val = .ok (mulPoly a c) :=
  val_genL_ok _ fun i hi => val_genL_ok _ fun j hj => by simp [rd_ok hi, rd_ok hj, mulPoly]
@[simp] theorem val_shlL (a : PVec k d) (n : Nat) : (shlL a n).val = shl a n :=
  val_genL_mapR a _ fun i hi => by simp [rd_ok hi]
@[simp] theorem val_nttL (a : PVec k d) : (nttLk a).val = ntt a := by
  unfold nttLk ntt
  exact val_genL_mapR a _ fun i hi => by simp only [val_bind, val_rdL, rd_ok hi, Res.ok_bind, MPoly.val_nttL]
@[simp] theorem val_inttL (a : PVec k d) : (inttLk a).val = intt a := by
  unfold inttLk intt
  exact val_genL_mapR a _ fun i hi => by simp only [val_bind, val_rdL, rd_ok hi, Res.ok_bind, MPoly.val_inttL]
@[simp] theorem val_decodeL (a : PVec k d) : (decodeL a).val = .ok (decode a) :=
  val_genL_ok _ fun i hi => by simp [rd_ok hi, decode]
@[simp] theorem val_eqL (a b : PVec k d) : (eqL a b).val = .ok (eq a b) := by
  unfold eqL eq
  rw [val_forL]
  exact Poly.forLoop_finFold (fun res i => res && MPoly.eq a[i] b[i]) _ (fun i hi s => by simp [rd_ok hi]) true
@[simp] theorem val_zeroEncodingL (E : Ext) (fuel k : Nat) (m : Mrng d) :
    (zeroEncodingL E fuel k m).val = zeroEncoding E fuel k m := by
  simp only [zeroEncodingL, zeroEncoding, val_bind, val_forL, MPoly.val_zeroEncodingL, val_wrL, val_pure]
@[simp] theorem val_refreshL (E : Ext) (fuel : Nat) (a : PVec k d) (m : Mrng d) :
    (refreshL E fuel a m).val = refresh E fuel a m := by
  simp only [refreshL, refresh, val_bind, val_forL, val_rdL, MPoly.val_refreshL, val_wrL, val_pure]
@[simp] theorem val_addRepNoiseL (E : Ext) (fuel u rep κ : Nat) (a : PVec k d) (p : Prng) (m : Mrng d) :
    (addRepNoiseL E fuel u rep κ a p m).val = addRepNoise E fuel u rep κ a p m := by
  simp only [addRepNoiseL, addRepNoise, val_bind, val_forL, val_rdL, MPoly.val_addRepNoiseL, val_wrL, val_pure]

end PVec

namespace PMat

/-- Sum of the first `c` products of the row. -/
def colAcc (A : PMat rows cols) (v : PVec cols d) (r : Fin rows) (s : Fin d) (c : Nat) : Poly :=
  ((List.finRange cols).take c).foldl (fun acc c => Poly.add acc (Poly.mul (A.at' r c) v[c][s])) Poly.zero

theorem colAcc_succ (A : PMat rows cols) (v : PVec cols d) (r : Fin rows) (s : Fin d) {c : Nat} (hc : c < cols) :
    colAcc A v r s (c + 1) = Poly.add (colAcc A v r s c) (Poly.mul (A.at' r ⟨c, hc⟩) v[c][s]) := by
  unfold colAcc
  rw [List.take_succ_eq_append_getElem (by simpa using hc), List.foldl_append]
  simp

/-- The accumulator after all rows before `r`, the columns before `c` of row `r`, and the shares before `s` of column `c`. -/
def MulSt (A : PMat rows cols) (v : PVec cols d) (r c s : Nat) (res : PVec rows d) : Prop :=
  ∀ r' (hr : r' < rows) s' (hs : s' < d), res[r'][s'] =
    if r' < r then colAcc A v ⟨r', hr⟩ ⟨s', hs⟩ cols
    else if r' = r then (if s' < s then colAcc A v ⟨r', hr⟩ ⟨s', hs⟩ (c + 1) else colAcc A v ⟨r', hr⟩ ⟨s', hs⟩ c)
    else Poly.zero

@[simp] theorem val_mulVecL (A : PMat rows cols) (v : PVec cols d) : (mulVecL A v).val = .ok (mulVec A v) := by
  unfold mulVecL
  simp only [val_forL]
  have H := forLoop_Ok1 (Nat.zero_le rows) (s := PVec.zero rows d) (body := fun r res =>
    forLoop 0 cols 1 (fun c res => forLoop 0 d 1 (fun s (res : PVec rows d) => (do
        let a ← rdL A (r * cols + c)
        let x ← rdL v c
        let p ← rdL x s
        let prod ← Poly.mulL a p
        let row ← rdL res r
        let acc ← rdL row s
        let acc ← Poly.addL acc prod
        let row ← wrL row s acc
        wrL res r row : Lk (PVec rows d)).val) res) res) (fun r res => MulSt A v r 0 0 res) ?_ ?_
  · obtain ⟨res, h1, h2⟩ := H
    rw [h1]
    congr 1
    apply Vector.ext
    intro r hr
    apply Vector.ext
    intro s hs
    rw [h2 r hr s hs, if_pos hr]
    simp only [mulVec, colAcc, Vector.getElem_ofFn]
    rw [List.take_of_length_le (by simp)]
  · intro r hr s hs
    simp [PVec.zero, MPoly.zero, colAcc]
  · intro r res _ hr hI
    refine (forLoop_Ok1 (Nat.zero_le cols) (fun c res => MulSt A v r c 0 res) hI ?_).mono ?_
    · intro c res _ hc hI
      refine (forLoop_Ok1 (Nat.zero_le d) (fun s res => MulSt A v r c s res) hI ?_).mono ?_
      · intro s res _ hs hI
        have hA : r * cols + c < rows * cols := idx_lt hr hc
        simp only [val_bind, val_rdL, rd_ok hA, rd_ok hc, rd_ok hs, rd_ok hr, Res.ok_bind, Poly.val_mulL, Poly.val_addL,
          val_wrL, wr_ok hs, wr_ok hr]
        rw [Res.ok_ok]
        intro r' hr' s' hs'
        by_cases e : r' = r
        · subst e
          rw [Vector.getElem_set_self]
          by_cases e2 : s' = s
          · subst e2
            have h0 := hI r' hr' s' hs'
            rw [if_neg (by omega), if_pos rfl, if_neg (by omega)] at h0
            rw [Vector.getElem_set_self, if_neg (by omega), if_pos rfl, if_pos (by omega), h0, colAcc_succ _ _ _ _ hc]
            rfl
          · rw [Vector.getElem_set_ne (h := fun h => e2 h.symm), hI r' hr' s' hs', if_neg (Nat.lt_irrefl _),
              if_neg (Nat.lt_irrefl _), if_pos rfl, if_pos rfl]
            by_cases e3 : s' < s
            · rw [if_pos e3, if_pos (by omega)]
            · rw [if_neg e3, if_neg (by omega)]
        · rw [Vector.getElem_set_ne (h := fun h => e h.symm), hI r' hr' s' hs']
          simp only [e, if_false]
      · intro res hI r' hr' s' hs'
        rw [hI r' hr' s' hs', if_pos hs', if_neg (by omega : ¬ s' < 0)]
    · intro res hI r' hr' s' hs'
      rw [hI r' hr' s' hs', if_neg (by omega : ¬ s' < 0), if_neg (by omega : ¬ s' < 0)]
      by_cases e1 : r' < r
      · rw [if_pos e1, if_pos (by omega)]
      · rw [if_neg e1]
        by_cases e2 : r' = r
        · subst e2; rw [if_pos rfl, if_pos (by omega)]
        · rw [if_neg e2, if_neg (by omega)]
          by_cases e3 : r' = r + 1
          · rw [if_pos e3]; rfl
          · rw [if_neg e3]

@[simp] theorem val_expandAL (E : Ext) (fuel k l : Nat) (s : List U8) : (expandAL E fuel k l s).val = expandA E fuel k l s := by
  simp only [expandAL, expandA, val_forL, val_bind, Poly.val_sampleQL, val_wrL]

end PMat

@[simp] theorem val_chalHashStepL (w : PVec k 1) (i : Nat) (s : Xof × Vector U8 136 × Nat) :
    (chalHashStepL w i s).val = chalHashStep w i s := by
  obtain ⟨xof, buf, off⟩ := s
  dsimp only [chalHashStepL, chalHashStep]
  simp only [val_bind, val_branch, val_absorbL, val_pure, Res.ok_bind, val_rdL, val_wrL]
  by_cases h : off = 136
  · simp only [if_pos h, Res.ok_bind]
  · simp only [if_neg h, Res.ok_bind]

@[simp] theorem val_chalHashL (E : Ext) (κ : Nat) (w : PVec k 1) (μ : List U8) : (chalHashL E κ w μ).val = chalHash E κ w μ := by
  simp only [chalHashL, chalHash, val_bind, val_forL, val_chalHashStepL, val_branch, val_subspanL, val_absorbL, val_pure,
    val_squeezeL, Res.ok_bind]

end Raccoon
