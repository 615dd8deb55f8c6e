import Verif.Proofs.LeakErase3
import Verif.Proofs.LeakTrace2
import Verif.Proofs.LeakFuel
import Verif.Proofs.SignExact
import Verif.Props.Progress
import Verif.Spec.Attempts
/-!
# The list of attempts that the instrumented `sign` returns
-/
namespace Raccoon
open Lk
attribute [-instance] Monoid.toNPow

theorem val_signAttemptL_core (P : Par) (E : Ext) (fuel d uw rep : Nat) (A : PMat P.k P.l) (t : PVec P.k 1) (μ : List U8)
    (st : SignSt P.l d) : (signAttemptL P E fuel d uw rep A t μ st).val =
      signCore P E fuel d uw rep A t μ st.s st.prng st.m >>= fun x => signFinish P st.sigBytes x >>= fun r => Res.ok (r.1, r.2, x.1) := by
  simp only [signAttemptL, signCore, signFinish, val_bind, PVec.val_zeroEncodingL, PVec.val_addRepNoiseL, PVec.val_nttL,
    PMat.val_mulVecL, PVec.val_inttL, PVec.val_decodeL, PVec.val_roundingShrL, Res.ok_bind, val_pure, val_chalHashL,
    Poly.val_chalPolyL, Poly.val_nttL, PVec.val_refreshL, PVec.val_mulPolyL, PVec.val_addL, PVec.val_subL, PVec.val_subModL,
    val_sigMkL, val_encodeSigL, val_branch, val_checkBoundsL, bind_assoc, Sig.toBytes]
  iterate 15 refine Res.bind_congr' fun _ => ?_
  split
  · rfl
  · simp only [bind_assoc]
    refine Res.bind_congr' fun _ => ?_
    split <;> rfl

theorem signLoopL_attempts {P : Par} {E : Ext} {fuel d uw rep : Nat} {A : PMat P.k P.l} {t : PVec P.k 1} (μ : List U8)
    {a : Fin P.k → Fin P.l → RPoly} {t0 : PVec P.k 1} (C : SignCtx P E d uw A t a t0)
    (entropy : List U8) (s0 : PVec P.l d) (m0 : Mrng d) (buf : List U8) (sv : Fin P.l → RPoly) (hsv : s0.IsNtt sv) :
    ∀ (k n : Nat) (st : SignSt P.l d) (b : List U8) (L : List Sig), SignInv P d rep ⟨s0, Prng.new E entropy, m0, buf⟩ n st →
      (signLoopL P E fuel d uw rep A t μ k st).val = .ok (b, L) →
      Attempts P E fuel d uw rep a (PVec.val t0) sv μ (E.shake128 entropy) buf.length b n L := by
  intro k
  induction k with
  | zero => intro n st b L _ h; cases h
  | succ k ih =>
    intro n st b L hst h
    obtain ⟨i1, i2, i3, i4⟩ := hst
    replace i2 : PVec.val st.s = PVec.val s0 := i2
    replace i3 : st.prng = (Prng.new E entropy).advance _ := i3
    replace i4 : st.sigBytes.length = buf.length := i4
    rw [signLoopL, val_bind, val_signAttemptL_core, bind_assoc] at h
    obtain ⟨x, hx, h⟩ := Res.bind_eq_ok.1 h
    obtain ⟨g1, g2, g3, c, hc, hi⟩ := (signCore_spec P C.hP E fuel d uw rep C.hd C.hu C.hu' A C.hA a C.ha t t0 C.ht C.htv μ st.s i1 sv
      (fun j => by rw [i2]; exact hsv j) st.prng st.m).par x hx
    have hatt : AttemptSig P E fuel d uw rep a (PVec.val t0) sv μ (E.shake128 entropy) n x.1.cHash x.1.h x.1.z := by
      refine ⟨c, hc, ?_⟩
      rw [i3] at hi
      have e1 : ((Prng.new E entropy).advance (n * ((P.l + P.k) * rowBytes P d rep))).stream = E.shake128 entropy := rfl
      have e2 : ((Prng.new E entropy).advance (n * ((P.l + P.k) * rowBytes P d rep))).pos = n * ((P.l + P.k) * rowBytes P d rep) := Nat.zero_add _
      rw [e1, e2] at hi
      exact hi
    rcases signFinish_cases P C.hP st.sigBytes x hi.hlen hi.zlen hi.hcent hi.zcent with ⟨b', e, ha, he, -⟩ | ⟨b', e, ha, hb⟩ | ⟨e, he⟩
    · rw [e, Res.ok_bind, Res.ok_bind] at h
      obtain ⟨rfl, rfl⟩ := Prod.mk.inj (Res.ok.inj h)
      rw [i4] at ha he
      exact ⟨hatt, Or.inl ⟨rfl, ha, he⟩⟩
    · rw [e, Res.ok_bind, Res.ok_bind] at h
      dsimp only at h
      rw [if_neg (by decide), val_bind] at h
      obtain ⟨⟨b1, L1⟩, h1, h⟩ := Res.bind_eq_ok.1 h
      obtain ⟨rfl, rfl⟩ := Prod.mk.inj (Res.ok.inj h)
      have hinv : SignInv P d rep ⟨s0, Prng.new E entropy, m0, buf⟩ (n + 1) ⟨x.2.1, x.2.2.1, x.2.2.2, b'⟩ := by
        refine ⟨g1, ?_, ?_, ?_⟩
        · show PVec.val x.2.1 = PVec.val s0
          rw [g2, i2]
        · show x.2.2.1 = (Prng.new E entropy).advance _
          rw [g3, i3, Prng.advance_advance, Nat.succ_mul]
        · show b'.length = buf.length
          rw [hb, i4]
      rw [i4] at ha
      exact ⟨hatt, Or.inr ⟨ha, ih (n + 1) _ _ _ hinv h1⟩⟩
    · rw [e] at h; cases h

/-- The attempts of a completed `sign`. -/
theorem signL_attempts (P : Par) (hP : P = raccoon128 ∨ P = raccoon192 ∨ P = raccoon256) (E : Ext) (fuel d : Nat) (hd : ValidShares d)
    (sk : SKey P.k P.l d) (hsk : sk.WF P) (s : Fin P.l → RPoly) (hs : sk.s.IsNtt s) (entropy msg buf b : List U8) (L : List Sig)
    (h : (Api.signL P E fuel d sk entropy msg buf).val = .ok (b, L)) :
    ∃ uw rep pkb A a, tab uwTable (BitVec.ofNat 64 d) = .ok uw ∧ tab repTable (BitVec.ofNat 64 d) = .ok rep ∧
      Api.pkAsBytes P sk.pkey (List.replicate (PKey.byteLen P.κ P.k P.νt) 0) = .ok pkb ∧
      PMat.expandA E fuel P.k P.l sk.pkey.seed = .ok A ∧ A.Is a ∧
      Attempts P E fuel d uw rep a (PVec.val sk.pkey.t) s (messageHash E P.κ pkb msg) (E.shake128 entropy) buf.length b 0 L := by
  obtain ⟨rep, uw, -, -, e1, e2, -, -, u1, u2, -⟩ := tab_ok hd
  obtain ⟨w1, w2, w3, w4, w5, -⟩ := par_bounds P hP
  obtain ⟨pkb, e3⟩ := pkBytes_ok P hP sk.pkey hsk.pkey.seed
  obtain ⟨ts, ets, tsc, tsv⟩ := PVec.shl_spec (n := 42) (m := 128) (by omega) (by norm_num) (PVec.below_iff.1 hsk.pkey.t)
  obtain ⟨tn, etn, tnc, tni⟩ := PVec.IsNtt.ntt tsc
  unfold Api.signL at h
  rw [val_bind, val_lift, e2, Res.ok_bind, val_bind, val_lift, e1, Res.ok_bind] at h
  unfold SKey.signL at h
  rw [val_bind, PVec.val_shlL, w2, ets, Res.ok_bind, val_bind, PVec.val_nttL, etn, Res.ok_bind, val_bind, val_pkToBytesL] at h
  rw [w2] at e3
  rw [e3, Res.ok_bind, val_bind, val_bindMsgL, Res.ok_bind, val_bind, PMat.val_expandAL] at h
  obtain ⟨A, e4, h⟩ := Res.bind_eq_ok.1 h
  obtain ⟨a, ha⟩ := PMat.Is.exists A
  have C : SignCtx P E d uw A tn a sk.pkey.t := ⟨hP, hd.pow, u1, by omega, ((expandA_safe E fuel P.k P.l sk.pkey.seed).par A e4).1, ha, tnc,
    fun i => by rw [← tni i, tsv, w2]⟩
  refine ⟨uw, rep, pkb, A, a, e2, e1, by rw [w2]; unfold Api.pkAsBytes; rw [w2]; exact e3, e4, ha, ?_⟩
  have hμ := C41_mu E P.κ pkb msg
  have hμ' : SKey.bindMsg E P.κ pkb msg = messageHash E P.κ pkb msg := by rw [hμ.2, hμ.1]; rfl
  rw [hμ'] at h
  generalize messageHash E P.κ pkb msg = μ at h ⊢
  clear hμ hμ' e3
  have hi : SignInv P d rep ⟨sk.s, Prng.new E entropy, Mrng.new E d, buf⟩ 0 ⟨sk.s, Prng.new E entropy, Mrng.new E d, buf⟩ :=
    ⟨hsk.s, rfl, by rw [Nat.zero_mul, Prng.advance_zero], rfl⟩
  have key := signLoopL_attempts (fuel := fuel) (rep := rep) μ C entropy sk.s (Mrng.new E d) buf s hs fuel 0 _ b L hi
  exact key h

end Raccoon
