import Verif.Proofs.Progress
import Verif.Proofs.SignLoop
import Verif.Proofs.SigEncExact
/-!
# The signing loop returns the first acceptable attempt
-/
namespace Raccoon
attribute [-instance] Monoid.toNPow
open Finset

theorem SamplersFinish.chal {P : Par} {E : Ext} {fuel : Nat} (h : SamplersFinish P E fuel) (c : List U8) (hc : c.length = 2 * P.κ / 8) :
    ∃ p, Poly.chalPoly E fuel P.ω c = .ok p := by
  obtain ⟨m, -, -, e⟩ := (chalPoly_eq E fuel P.ω c _ rfl).1 (h.challenge _ (by rw [List.length_append, hc]; rfl))
  exact ⟨_, e⟩

theorem SamplersFinish.sampleQ {P : Par} {E : Ext} {fuel : Nat} (h : SamplersFinish P E fuel) (hdr seed : List U8) (h8 : hdr.length = 8) (hs : seed.length = P.κ / 8) :
    ∃ p, Poly.sampleQ E fuel hdr seed = .ok p := by
  rw [sampleQ_eq, if_pos (h.uniform _ (by rw [List.length_append, h8, hs]))]
  exact ⟨_, rfl⟩

theorem SamplersFinish.expandA {P : Par} {E : Ext} {fuel : Nat} (h : SamplersFinish P E fuel) (seed : List U8) (hs : seed.length = P.κ / 8) :
    ∃ A, PMat.expandA E fuel P.k P.l seed = .ok A :=
  expandA_ok E fun _ _ _ _ => h.sampleQ _ _ rfl hs

/-- The encoder is undefined exactly if the signature is trapped. -/
theorem encodeSig_ub_iff' (c : List U8) (h z : List Int) (sig : List U8) (hz : z ≠ []) : encodeSig c h z sig = .ub ↔ Trapped sig.length c h z := by
  unfold Trapped
  by_cases hc : c.length ≤ sig.length
  · rw [encodeSig_ub_iff c h z sig hc hz]
    exact ⟨Or.inr, fun h => h.resolve_left (by omega)⟩
  · refine ⟨fun _ => Or.inl (by omega), fun _ => ?_⟩
    unfold encodeSig writeSpan
    rw [if_neg (by omega)]
    rfl

/-- Encoding and checking one signature in the centered range. -/
theorem signFinish_cases (P : Par) (hP : P = raccoon128 ∨ P = raccoon192 ∨ P = raccoon256) (buf : List U8) (x : Sig × PVec P.l d × Prng × Mrng d)
    (hl : x.1.h.length = P.k * 512) (zl : x.1.z.length = P.l * 512)
    (hh : ∀ y ∈ x.1.h, 2 * y.natAbs < q / 2 ^ P.νw) (hz : ∀ y ∈ x.1.z, 2 * y.natAbs < q) :
    (∃ b, signFinish P buf x = .ok (true, ⟨x.2.1, x.2.2.1, x.2.2.2, b⟩) ∧ Acceptable P buf.length x.1.cHash x.1.h x.1.z ∧
      IsSigEncoding x.1.cHash x.1.h x.1.z buf.length b ∧ ¬ Trapped buf.length x.1.cHash x.1.h x.1.z) ∨
    (∃ b, signFinish P buf x = .ok (false, ⟨x.2.1, x.2.2.1, x.2.2.2, b⟩) ∧ Rejected P buf.length x.1.cHash x.1.h x.1.z ∧ b.length = buf.length) ∨
    (signFinish P buf x = .ub ∧ Trapped buf.length x.1.cHash x.1.h x.1.z) := by
  have hq : q = 549824583172097 := rfl
  have w1 := (par_bounds P hP).1
  have hcb := C32_decides P hP x.1 hl zl (fun y hy => by have := hh y hy; rw [w1, q44] at this; omega) (fun y hy => by have := hz y hy; omega)
  have hne : x.1.z ≠ [] := by
    intro e
    rw [e] at zl
    have : 0 < P.l := by rcases hP with rfl | rfl | rfl <;> decide
    simp at zl
    omega
  have htr := encodeSig_ub_iff' x.1.cHash x.1.h x.1.z buf hne
  rcases C28_decision x.1.cHash x.1.h x.1.z buf with ⟨b, e, f⟩ | ⟨b, e, f⟩ | e
  · have e' : x.1.toBytes buf = .ok (true, b) := e
    by_cases hn : NormsOK P.νw P.Binf.toNat P.B22.toNat x.1.h x.1.z
    · refine Or.inl ⟨b, ?_, ⟨f, hn⟩, C28_format _ _ _ _ _ e, fun h => by rw [htr.2 h] at e; cases e⟩
      unfold signFinish
      rw [e', Res.ok_bind]
      dsimp only
      rw [hcb, Res.ok_bind, decide_eq_true hn]
      rfl
    · refine Or.inr (Or.inl ⟨b, ?_, ⟨fun h => hn h.2, fun h => by rw [htr.2 h] at e; cases e⟩, Sig.toBytes_len e'⟩)
      unfold signFinish
      rw [e', Res.ok_bind]
      dsimp only
      rw [hcb, Res.ok_bind, decide_eq_false hn]
      rfl
  · have e' : x.1.toBytes buf = .ok (false, b) := e
    refine Or.inr (Or.inl ⟨b, ?_, ⟨fun h => absurd h.1 (by omega), fun h => by rw [htr.2 h] at e; cases e⟩, Sig.toBytes_len e'⟩)
    unfold signFinish
    rw [e']
    rfl
  · have e' : x.1.toBytes buf = .ub := e
    refine Or.inr (Or.inr ⟨?_, htr.1 e⟩)
    unfold signFinish
    rw [e']
    rfl

/-- The loop, from any state reached after `n` rejected attempts. -/
theorem signLoop_exact {P : Par} {E : Ext} {fuel d uw rep : Nat} {A : PMat P.k P.l} {t : PVec P.k 1} (μ : List U8)
    {a : Fin P.k → Fin P.l → RPoly} {t0 : PVec P.k 1} (C : SignCtx P E d uw A t a t0)
    (entropy : List U8) (s0 : PVec P.l d) (m0 : Mrng d) (buf : List U8) (sv : Fin P.l → RPoly) (hsv : s0.IsNtt sv) :
    ∀ (k n : Nat) (st : SignSt P.l d), SignInv P d rep ⟨s0, Prng.new E entropy, m0, buf⟩ n st →
      (∃ j b, j < k ∧ signLoop P E fuel d uw rep A t μ k st = .ok b ∧
        (∀ i < j, ∃ c h z, AttemptSig P E fuel d uw rep a (PVec.val t0) sv μ (E.shake128 entropy) (n + i) c h z ∧ Rejected P buf.length c h z) ∧
        ∃ c h z, AttemptSig P E fuel d uw rep a (PVec.val t0) sv μ (E.shake128 entropy) (n + j) c h z ∧ Acceptable P buf.length c h z ∧ IsSigEncoding c h z buf.length b ∧ ¬ Trapped buf.length c h z) ∨
      (∃ j, j < k ∧ signLoop P E fuel d uw rep A t μ k st = .ub ∧
        (∀ i < j, ∃ c h z, AttemptSig P E fuel d uw rep a (PVec.val t0) sv μ (E.shake128 entropy) (n + i) c h z ∧ Rejected P buf.length c h z) ∧
        ∃ c h z, AttemptSig P E fuel d uw rep a (PVec.val t0) sv μ (E.shake128 entropy) (n + j) c h z ∧ Trapped buf.length c h z) ∨
      (signLoop P E fuel d uw rep A t μ k st = .nofuel ∧ (SamplersFinish P E fuel → st.m.Reach E →
        ∀ i < k, ∃ c h z, AttemptSig P E fuel d uw rep a (PVec.val t0) sv μ (E.shake128 entropy) (n + i) c h z ∧ Rejected P buf.length c h z)) := by
  intro k
  induction k with
  | zero => intro n st _; exact Or.inr (Or.inr ⟨rfl, fun _ _ i hi => absurd hi (Nat.not_lt_zero _)⟩)
  | succ k ih =>
    intro n st hst
    obtain ⟨i1, i2, i3, i4⟩ := hst
    replace i2 : PVec.val st.s = PVec.val s0 := i2
    replace i3 : st.prng = (Prng.new E entropy).advance _ := i3
    replace i4 : st.sigBytes.length = buf.length := i4
    have hsafe := signCore_spec P C.hP E fuel d uw rep C.hd C.hu C.hu' A C.hA a C.ha t t0 C.ht C.htv μ st.s i1 sv
      (fun j => by rw [i2]; exact hsv j) st.prng st.m
    have hgood := fun (hf : SamplersFinish P E fuel) (hm : st.m.Reach E) => good_signCore hf.mask C.hd uw rep C.hu hf.chal A t μ st.s st.prng st.m hm
    by_cases hno : signCore P E fuel d uw rep A t μ st.s st.prng st.m = .nofuel
    · refine Or.inr (Or.inr ⟨?_, fun hf hm => ?_⟩)
      · unfold signLoop
        rw [signAttempt_eq, hno]; rfl
      · exfalso
        have := hgood hf hm
        exact this.1 hno
    obtain ⟨x, hx, g1, g2, g3, c, hc, hi⟩ : ∃ x, signCore P E fuel d uw rep A t μ st.s st.prng st.m = .ok x ∧ _ := by
      cases hx : signCore P E fuel d uw rep A t μ st.s st.prng st.m with
      | ok x => exact ⟨x, rfl, hsafe.par x hx⟩
      | ub => exact absurd hx hsafe.ne_ub
      | nofuel => exact absurd hx hno
    have hm' : SamplersFinish P E fuel → st.m.Reach E → x.2.2.2.Reach E := fun hf hm => by
      exact (hgood hf hm).2 x hx
    have hatt : AttemptSig P E fuel d uw rep a (PVec.val t0) sv μ (E.shake128 entropy) n x.1.cHash x.1.h x.1.z := by
      refine ⟨c, hc, ?_⟩
      rw [i3] at hi
      have e1 : ((Prng.new E entropy).advance (n * ((P.l + P.k) * rowBytes P d rep))).stream = E.shake128 entropy := rfl
      have e2 : ((Prng.new E entropy).advance (n * ((P.l + P.k) * rowBytes P d rep))).pos = n * ((P.l + P.k) * rowBytes P d rep) := Nat.zero_add _
      rw [e1, e2] at hi
      exact hi
    have hat : signAttempt P E fuel d uw rep A t μ st = signFinish P st.sigBytes x := by rw [signAttempt_eq, hx, Res.ok_bind]
    rcases signFinish_cases P C.hP st.sigBytes x hi.hlen hi.zlen hi.hcent hi.zcent with ⟨b, e, ha, he⟩ | ⟨b, e, ha, hb⟩ | ⟨e, he⟩
    · left
      rw [i4] at ha he
      refine ⟨0, b, by omega, ?_, fun i hi => absurd hi (Nat.not_lt_zero _), _, _, _, hatt, ha, he⟩
      unfold signLoop
      rw [hat, e]
      rfl
    · rw [i4] at ha
      have hstep : signLoop P E fuel d uw rep A t μ (k + 1) st = signLoop P E fuel d uw rep A t μ k ⟨x.2.1, x.2.2.1, x.2.2.2, b⟩ := by
        conv_lhs => unfold signLoop
        rw [hat, e]
        rfl
      rw [hstep]
      have hinv : SignInv P d rep ⟨s0, Prng.new E entropy, m0, buf⟩ (n + 1) ⟨x.2.1, x.2.2.1, x.2.2.2, b⟩ := by
        refine ⟨g1, ?_, ?_, ?_⟩
        · show PVec.val x.2.1 = PVec.val s0
          rw [g2, i2]
        · show x.2.2.1 = (Prng.new E entropy).advance _
          rw [g3, i3, Prng.advance_advance, Nat.succ_mul]
        · show b.length = buf.length
          rw [hb, i4]
      have hrej : ∀ (J : Nat), (∀ i < J, ∃ c h z, AttemptSig P E fuel d uw rep a (PVec.val t0) sv μ (E.shake128 entropy) (n + 1 + i) c h z ∧ Rejected P buf.length c h z) →
          ∀ i < J + 1, ∃ c h z, AttemptSig P E fuel d uw rep a (PVec.val t0) sv μ (E.shake128 entropy) (n + i) c h z ∧ Rejected P buf.length c h z := by
        intro J h i hi
        rcases Nat.eq_zero_or_pos i with rfl | hp
        · exact ⟨_, _, _, hatt, ha⟩
        · have := h (i - 1) (by omega)
          rw [show n + 1 + (i - 1) = n + i by omega] at this
          exact this
      rcases ih (n + 1) _ hinv with ⟨j, b', hj, e', r, c', h', z', q1, q2⟩ | ⟨j, hj, e', r, c', h', z', q1, q2⟩ | ⟨e', r⟩
      · refine Or.inl ⟨j + 1, b', by omega, e', hrej j r, c', h', z', ?_, q2⟩
        rw [show n + (j + 1) = n + 1 + j by omega]; exact q1
      · refine Or.inr (Or.inl ⟨j + 1, by omega, e', hrej j r, c', h', z', ?_, q2⟩)
        rw [show n + (j + 1) = n + 1 + j by omega]; exact q1
      · exact Or.inr (Or.inr ⟨e', fun hf hm => hrej k (r hf (hm' hf hm))⟩)
    · refine Or.inr (Or.inl ⟨0, by omega, ?_, fun i hi => absurd hi (Nat.not_lt_zero _), _, _, _, hatt, by rw [i4] at he; exact he⟩)
      unfold signLoop
      rw [hat, e]
      rfl

end Raccoon
