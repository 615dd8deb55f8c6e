import Verif.Proofs.LeakErase2
/-!
# Dropping the observations gives the model back: serialisation, signatures, keys
-/
namespace Raccoon
open Lk

theorem Res.bind_congr' {r : Res α} {f g : α → Res β} (h : ∀ a, f a = g a) : (r >>= f) = r >>= g := by
  have : f = g := funext h
  rw [this]

@[simp] theorem val_pkFlushL (n : Nat) (s : PkEncSt) : (pkFlushL n s).val = pkFlush n s := by
  simp only [pkFlushL, pkFlush, val_branch, val_bind, val_putLeL, val_pure]
@[simp] theorem val_pkEncCoeffL (n : Nat) (x : Zq) (s : PkEncSt) : (pkEncCoeffL n x s).val = pkEncCoeff n x s := by
  simp only [pkEncCoeffL, pkEncCoeff, val_bind, val_pkFlushL, val_lift, val_pure]
@[simp] theorem val_encodePublicKeyL (n : Nat) (seed : List U8) (t : PVec k 1) (b : List U8) :
    (encodePublicKeyL n seed t b).val = encodePublicKey n seed t b := by
  simp only [encodePublicKeyL, encodePublicKey, val_bind, val_writeSpanL, val_forL, val_rdL, val_pkEncCoeffL, val_pkFlushL,
    val_pure]
@[simp] theorem val_pkDecCoeffL (n : Nat) (s : PVec k 1 × Nat × U64) : (pkDecCoeffL n s).val = pkDecCoeff n s := by
  obtain ⟨t, i, b⟩ := s
  dsimp only [pkDecCoeffL, pkDecCoeff]
  simp only [val_bind, val_rdL, val_wrL, val_lift, val_pure]
@[simp] theorem val_decodePublicKeyL (n sl k : Nat) (b : List U8) :
    (decodePublicKeyL n sl k b).val = decodePublicKey n sl k b := by
  simp only [decodePublicKeyL, decodePublicKey, val_bind, val_subspanL, val_forL, val_fromLeBytesL, Res.ok_bind,
    val_pkDecCoeffL, val_pure]

@[simp] theorem val_compressShareL (E : Ext) (fuel κ : Nat) (s : PVec l d) (i : Nat) (st : PVec l 1 × List U8 × Prng) :
    (compressShareL E fuel κ s i st).val = compressShare E fuel κ s i st := by
  obtain ⟨x, sc, prng⟩ := st
  dsimp only [compressShareL, compressShare]
  simp only [val_bind, val_readL, Res.ok_bind, val_writeSpanL, val_forL, Poly.val_sampleQL, val_rdL, val_wrL, Poly.val_subL,
    Poly.val_addL, val_pure]
@[simp] theorem val_packCoeffL (x : Zq) (st : List U8 × Nat × U64 × Nat) : (packCoeffL x st).val = packCoeff x st := by
  obtain ⟨a, b, c, e⟩ := st
  dsimp only [packCoeffL, packCoeff]
  simp only [val_bind, val_lift, val_putLeL, val_pure]
@[simp] theorem val_packRowL (p : Poly) (st : List U8 × Nat) : (packRowL p st).val = packRow p st := by
  simp only [packRowL, packRow, val_bind, val_forL, val_rdL, val_packCoeffL, val_pure]
@[simp] theorem val_maskCompressL (E : Ext) (fuel κ : Nat) (s : PVec l d) (sc : List U8) (p : Prng) :
    (maskCompressL E fuel κ s sc p).val = maskCompress E fuel κ s sc p := by
  simp only [maskCompressL, maskCompress, val_bind, val_forL, val_rdL, val_wrL, val_compressShareL, val_packRowL, val_pure]
@[simp] theorem val_unpackCoeffL (sc : List U8) (st : Nat × U64 × Nat) : (unpackCoeffL sc st).val = unpackCoeff sc st := by
  obtain ⟨a, b, c⟩ := st
  dsimp only [unpackCoeffL, unpackCoeff]
  simp only [val_bind, val_lift, val_subspanL, val_fromLeBytesL, Res.ok_bind, val_pure]
@[simp] theorem val_unpackRowL (sc : List U8) (o : Nat) : (unpackRowL sc o).val = unpackRow sc o := by
  simp only [unpackRowL, unpackRow, val_bind, val_forL, val_unpackCoeffL, val_wrL, val_pure]
@[simp] theorem val_maskDecompressL (E : Ext) (fuel κ l d : Nat) (sc : List U8) :
    (maskDecompressL E fuel κ l d sc).val = maskDecompress E fuel κ l d sc := by
  simp only [maskDecompressL, maskDecompress, val_bind, val_forL, val_unpackRowL, val_rdL, val_wrL, val_subspanL,
    Poly.val_sampleQL, val_pure]

@[simp] theorem val_encFlushL (n : Nat) (s : EncSt) : (encFlushL n s).val = encFlush n s := by
  simp only [encFlushL, encFlush, val_branch, val_bind, val_putLeL, val_lift, val_pure]
@[simp] theorem val_encFinishL (n : Nat) (s : EncSt) : (encFinishL n s).val = encFinish n s := by
  simp only [encFinishL, encFinish, val_branch, val_bind, val_putLeL, val_lift, val_pure]
@[simp] theorem val_encHintL (x : Int) (s : EncSt) : (encHintL x s).val = encHint x s := by
  simp only [encHintL, encHint, val_branch, val_bind, val_lift, val_pure, ite_self]
@[simp] theorem val_encRespL (x : Int) (s : EncSt) : (encRespL x s).val = encResp x s := by
  simp only [encRespL, encResp, val_branch, val_bind, val_lift, val_pure, ite_self]
theorem val_encLoopL (n : Nat) (encL : Int → EncSt → Lk EncSt) (enc : Int → EncSt → Res EncSt)
    (h : ∀ x s, (encL x s).val = enc x s) : ∀ xs i s, (encLoopL n encL i xs s).val = encLoop n enc xs s
  | [], _, _ => rfl
  | x :: xs, i, s => by
    simp only [encLoopL, encLoop, val_tick, val_bind, val_encFlushL, val_branch, h, val_pure,
      val_encLoopL n encL enc h xs]
@[simp] theorem val_encodeSigL (c : List U8) (h z : List Int) (b : List U8) :
    (encodeSigL c h z b).val = encodeSig c h z b := by
  simp only [encodeSigL, encodeSig, val_bind, val_writeSpanL, val_encLoopL _ _ _ val_encHintL,
    val_encLoopL _ _ _ val_encRespL, val_branch, val_encFinishL, val_pure]

@[simp] theorem val_centerVecL (q' : U64) (v : PVec k 1) : (centerVecL q' v).val = centerVec q' v := by
  simp only [centerVecL, centerVec, val_forL, val_bind, val_rdL, Poly.val_centerL, val_tick, val_pure]
@[simp] theorem val_sigMkL (n : Nat) (c : List U8) (h : PVec k 1) (z : PVec l 1) :
    (Sig.mkL n c h z).val = Sig.mk' n c h z := by
  simp only [Sig.mkL, Sig.mk', val_tick, val_bind, val_centerVecL, val_pure]
@[simp] theorem val_hNormStepL (s : U64 × U64) (x : Int) : (hNormStepL s x).val = hNormStep s x := by
  simp only [hNormStepL, hNormStep, val_bind, val_branch, val_lift, val_pure, ite_self]
  congr 1; funext a
  split <;> rfl
theorem maxL_eq (x y : Zq) : (if x.raw < y.raw then Res.ok y else Res.ok x) = Res.ok (Zq.max x y) := by
  unfold Zq.max
  by_cases h : x.raw < y.raw
  · simp [h]
  · simp [h]
theorem val_zNormStepL_aux (hq : Zq) (s : Zq × Zq) (x : Int) :
    ((do
      let x ← lift (fromCenteredToZq x)
      let ax ← branch (x.gt hq = true) (pure (-x)) (pure x)
      let inf ← branch (s.1.raw < ax.raw) (pure ax) (pure s.1)
      let sh ← lift (ax.shr 32)
      let sq ← sh.mulL sh
      pure (inf, s.2 + sq)) : Lk (Zq × Zq)).val = (do
      let x ← fromCenteredToZq x
      let ax := if x.gt hq then -x else x
      let inf := Zq.max s.1 ax
      let sh ← ax.shr 32
      .ok (inf, s.2 + sh * sh)) := by
  rw [val_bind]
  refine Res.bind_congr' fun a => ?_
  generalize -a = b
  rw [val_bind, val_branch, val_pure, val_pure]
  have e : (if a.gt hq = true then Res.ok b else Res.ok a) = Res.ok (if a.gt hq = true then b else a) := by
    split <;> rfl
  rw [e, Res.ok_bind]
  generalize (if a.gt hq = true then b else a) = ax
  rw [val_bind, val_branch, val_pure, val_pure, maxL_eq, Res.ok_bind, val_bind]
  refine Res.bind_congr' fun sh => ?_
  rw [val_bind, val_zq_mulL, Res.ok_bind, val_pure]
@[simp] theorem val_zNormStepL (s : Zq × Zq) (x : Int) : (zNormStepL s x).val = zNormStep s x :=
  val_zNormStepL_aux ⟨Q / 2⟩ s x
theorem val_eachL {α σ : Type} (f : σ → α → Lk σ) (g : σ → α → Res σ) (h : ∀ s x, (f s x).val = g s x) :
    ∀ (xs : List α) i s, (eachL f i xs s).val = xs.foldlM g s
  | [], _, _ => rfl
  | x :: xs, i, s => by
    simp only [eachL, val_tick, val_bind, h, val_eachL f g h xs, List.foldlM_cons]
@[simp] theorem val_checkBoundsL (n : Nat) (a b : U64) (s : Sig) : (s.checkBoundsL n a b).val = s.checkBounds n a b := by
  simp only [Sig.checkBoundsL, Sig.checkBounds, val_bind, val_eachL _ _ val_hNormStepL, val_eachL _ _ val_zNormStepL,
    val_branch, val_pure]

@[simp] theorem val_pkToBytesL (n : Nat) (pk : PKey k) (b : List U8) : (pk.toBytesL n b).val = pk.toBytes n b := by
  simp only [PKey.toBytesL, PKey.toBytes, val_encodePublicKeyL]
@[simp] theorem val_skRefreshL (E : Ext) (fuel : Nat) (sk : SKey k l d) : (sk.refreshL E fuel).val = sk.refresh E fuel := by
  simp only [SKey.refreshL, SKey.refresh, val_bind, PVec.val_refreshL, val_pure]
@[simp] theorem val_skGenerateL (P : Par) (E : Ext) (fuel d ut rep : Nat) (e s : List U8) :
    (SKey.generateL P E fuel d ut rep e s).val = SKey.generate P E fuel d ut rep e s := by
  simp only [SKey.generateL, SKey.generate, val_bind, PMat.val_expandAL, PVec.val_zeroEncodingL, PVec.val_addRepNoiseL,
    PVec.val_nttL, PMat.val_mulVecL, PVec.val_inttL, PVec.val_decodeL, PVec.val_roundingShrL, Res.ok_bind, val_pure]

theorem val_signAttemptL (P : Par) (E : Ext) (fuel d uw rep : Nat) (A : PMat P.k P.l) (t : PVec P.k 1) (μ : List U8)
    (st : SignSt P.l d) : ((signAttemptL P E fuel d uw rep A t μ st).val >>= fun r => Res.ok (r.1, r.2.1))
      = signAttempt P E fuel d uw rep A t μ st := by
  simp only [signAttemptL, signAttempt, val_bind, PVec.val_zeroEncodingL, PVec.val_addRepNoiseL, PVec.val_nttL,
    PMat.val_mulVecL, PVec.val_inttL, PVec.val_decodeL, PVec.val_roundingShrL, Res.ok_bind, val_pure, val_chalHashL,
    Poly.val_chalPolyL, Poly.val_nttL, PVec.val_refreshL, PVec.val_mulPolyL, PVec.val_addL, PVec.val_subL, PVec.val_subModL,
    val_sigMkL, val_encodeSigL, val_branch, val_checkBoundsL, bind_assoc, Sig.toBytes]
  iterate 15 refine Res.bind_congr' fun _ => ?_
  split
  · rfl
  · simp only [bind_assoc]
    refine Res.bind_congr' fun _ => ?_
    split <;> rfl

theorem val_signLoopL (P : Par) (E : Ext) (fuel d uw rep : Nat) (A : PMat P.k P.l) (t : PVec P.k 1) (μ : List U8) :
    ∀ n (st : SignSt P.l d), ((signLoopL P E fuel d uw rep A t μ n st).val >>= fun r => Res.ok r.1)
      = signLoop P E fuel d uw rep A t μ n st
  | 0, _ => rfl
  | n + 1, st => by
    rw [signLoop, ← val_signAttemptL, signLoopL, val_bind, bind_assoc, bind_assoc]
    congr 1; funext r
    obtain ⟨done, st, sig⟩ := r
    cases done
    · simp only [Res.ok_bind, val_bind, val_pure, Bool.false_eq_true, if_false, bind_assoc,
        ← val_signLoopL P E fuel d uw rep A t μ n]
    · rfl

@[simp] theorem val_bindMsgL (E : Ext) (κ : Nat) (a b : List U8) : (SKey.bindMsgL E κ a b).val = .ok (SKey.bindMsg E κ a b) := by
  simp only [SKey.bindMsgL, val_bind, val_absorbL, val_squeezeL, Res.ok_bind, val_pure]
  rfl

theorem val_skSignL (P : Par) (E : Ext) (fuel d uw rep : Nat) (sk : SKey P.k P.l d) (e m b : List U8) :
    ((sk.signL P E fuel d uw rep e m b).val >>= fun r => Res.ok r.1) = sk.sign P E fuel d uw rep e m b := by
  simp only [SKey.signL, SKey.sign, val_bind, PVec.val_shlL, PVec.val_nttL, val_pkToBytesL, val_bindMsgL, Res.ok_bind,
    PMat.val_expandAL, bind_assoc, val_signLoopL]

@[simp] theorem val_skToBytesL (E : Ext) (fuel κ n : Nat) (sk : SKey k l d) (b : List U8) (p : Prng) :
    (sk.toBytesL E fuel κ n b p).val = sk.toBytes E fuel κ n b p := by
  simp only [SKey.toBytesL, SKey.toBytes, val_bind, val_subspanL, val_pkToBytesL, val_lift, val_maskCompressL, val_pure]
@[simp] theorem val_skFromBytesL (E : Ext) (fuel κ k l d n : Nat) (b : List U8) :
    (SKey.fromBytesL E fuel κ k l d n b).val = SKey.fromBytes E fuel κ k l d n b := by
  simp only [SKey.fromBytesL, SKey.fromBytes, PKey.fromBytes, val_bind, val_subspanL, val_decodePublicKeyL,
    val_maskDecompressL, val_pure, bind_assoc, Res.ok_bind]

end Raccoon
