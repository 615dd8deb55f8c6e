import Verif.Proofs.Sign
/-!
# The retry loop of `sign`
-/
namespace Raccoon
attribute [-instance] Monoid.toNPow
open Finset
attribute [local irreducible] Res.Safe

/-! ### The encoder keeps the length of its buffer -/

theorem writeSpan_len {b bs r : List U8} {off : Nat} (h : writeSpan b off bs = .ok r) : r.length = b.length := by
  unfold writeSpan at h
  split at h
  · obtain rfl := Res.ok.inj h; simp; omega
  · cases h

theorem putLe_len {b r : List U8} {off n : Nat} {v : U64} (h : putLe b off n v = .ok r) : r.length = b.length := by
  unfold putLe at h
  obtain ⟨x, -, h⟩ := Res.bind_eq_ok.1 h
  exact writeSpan_len h

theorem encFlush_len {L : Nat} {s : EncSt} : (encFlush L s).Par (fun r => r.2.sig.length = s.sig.length) := by
  intro r h
  unfold encFlush at h
  split at h
  · dsimp only at h
    split at h
    · obtain rfl := Res.ok.inj h; rfl
    · obtain ⟨x, h1, h⟩ := Res.bind_eq_ok.1 h
      obtain ⟨y, -, h⟩ := Res.bind_eq_ok.1 h
      obtain rfl := Res.ok.inj h
      exact putLe_len h1
  · obtain rfl := Res.ok.inj h; rfl

theorem encFinish_len {L : Nat} {s : EncSt} : (encFinish L s).Par (fun r => r.2.sig.length = s.sig.length) := by
  intro r h
  unfold encFinish at h
  split at h
  · dsimp only at h
    split at h
    · obtain rfl := Res.ok.inj h; rfl
    · obtain ⟨x, h1, h⟩ := Res.bind_eq_ok.1 h
      obtain ⟨y, -, h⟩ := Res.bind_eq_ok.1 h
      obtain rfl := Res.ok.inj h
      exact putLe_len h1
  · obtain rfl := Res.ok.inj h; rfl

theorem encHint_len {x : Int} {s r : EncSt} (h : encHint x s = .ok r) : r.sig = s.sig := by
  unfold encHint at h
  obtain ⟨ax, -, h⟩ := Res.bind_eq_ok.1 h
  obtain ⟨one, -, h⟩ := Res.bind_eq_ok.1 h
  dsimp only at h
  split at h
  · obtain ⟨_, -, h⟩ := Res.bind_eq_ok.1 h
    obtain ⟨_, -, h⟩ := Res.bind_eq_ok.1 h
    obtain rfl := Res.ok.inj h; rfl
  · split at h
    · obtain ⟨_, -, h⟩ := Res.bind_eq_ok.1 h
      obtain ⟨_, -, h⟩ := Res.bind_eq_ok.1 h
      obtain rfl := Res.ok.inj h; rfl
    · obtain ⟨_, -, h⟩ := Res.bind_eq_ok.1 h
      obtain rfl := Res.ok.inj h; rfl

theorem encResp_len {x : Int} {s r : EncSt} (h : encResp x s = .ok r) : r.sig = s.sig := by
  unfold encResp at h
  obtain ⟨ax, -, h⟩ := Res.bind_eq_ok.1 h
  obtain ⟨v, -, h⟩ := Res.bind_eq_ok.1 h
  obtain ⟨one, -, h⟩ := Res.bind_eq_ok.1 h
  dsimp only at h
  split at h
  · obtain ⟨_, -, h⟩ := Res.bind_eq_ok.1 h
    obtain ⟨_, -, h⟩ := Res.bind_eq_ok.1 h
    obtain rfl := Res.ok.inj h; rfl
  · split at h
    · obtain ⟨_, -, h⟩ := Res.bind_eq_ok.1 h
      obtain ⟨_, -, h⟩ := Res.bind_eq_ok.1 h
      obtain rfl := Res.ok.inj h; rfl
    · obtain rfl := Res.ok.inj h; rfl

theorem encLoop_len {L : Nat} {enc : Int → EncSt → Res EncSt} (he : ∀ {x s r}, enc x s = .ok r → r.sig = s.sig) :
    ∀ (xs : List Int) (s : EncSt), (encLoop L enc xs s).Par (fun r => r.2.sig.length = s.sig.length) := by
  intro xs
  induction xs with
  | nil => intro s r h; obtain rfl := Res.ok.inj h; rfl
  | cons x xs ih =>
    intro s r h
    unfold encLoop at h
    obtain ⟨⟨f, s1⟩, h1, h⟩ := Res.bind_eq_ok.1 h
    have l1 := encFlush_len _ h1
    replace l1 : s1.sig.length = s.sig.length := l1
    dsimp only at h
    split at h
    · obtain ⟨s2, h2, h⟩ := Res.bind_eq_ok.1 h
      rw [ih s2 r h, he h2, l1]
    · obtain rfl := Res.ok.inj h; exact l1

theorem encodeSig_len {c : List U8} {h z : List Int} {buf b : List U8} {f : Bool} (e : encodeSig c h z buf = .ok (f, b)) : b.length = buf.length := by
  unfold encodeSig at e
  dsimp only at e
  obtain ⟨b0, h0, e⟩ := Res.bind_eq_ok.1 e
  have l0 := writeSpan_len h0
  obtain ⟨⟨f1, s1⟩, h1, e⟩ := Res.bind_eq_ok.1 e
  have l1 : s1.sig.length = b0.length := encLoop_len (fun h => encHint_len h) _ _ _ h1
  dsimp only at e
  split at e
  · obtain rfl := (Prod.mk.inj (Res.ok.inj e)).2; omega
  obtain ⟨⟨f2, s2⟩, h2, e⟩ := Res.bind_eq_ok.1 e
  have l2 : s2.sig.length = s1.sig.length := encLoop_len (fun h => encResp_len h) _ _ _ h2
  dsimp only at e
  split at e
  · obtain rfl := (Prod.mk.inj (Res.ok.inj e)).2; omega
  obtain ⟨⟨f3, s3⟩, h3, e⟩ := Res.bind_eq_ok.1 e
  have l3 : s3.sig.length = s2.sig.length := encFinish_len _ h3
  dsimp only at e
  split at e
  · obtain rfl := (Prod.mk.inj (Res.ok.inj e)).2; omega
  obtain ⟨b4, h4, e⟩ := Res.bind_eq_ok.1 e
  have l4 := writeSpan_len h4
  obtain rfl := (Prod.mk.inj (Res.ok.inj e)).2; omega

/-! ### One attempt -/

theorem Sig.toBytes_len {s : Sig} {buf b : List U8} {f : Bool} (e : s.toBytes buf = .ok (f, b)) : b.length = buf.length := encodeSig_len e

/-- The outcome of the second half of an attempt. -/
theorem signFinish_par (P : Par) (buf : List U8) (x : Sig × PVec P.l d × Prng × Mrng d) :
    (signFinish P buf x).Par (fun r => r.2.s = x.2.1 ∧ r.2.prng = x.2.2.1 ∧ r.2.m = x.2.2.2 ∧ r.2.sigBytes.length = buf.length ∧
      (r.1 = true → x.1.toBytes buf = .ok (true, r.2.sigBytes) ∧ x.1.checkBounds P.νw P.Binf P.B22 = .ok true)) := by
  intro r h
  unfold signFinish at h
  obtain ⟨⟨f, b⟩, h1, h⟩ := Res.bind_eq_ok.1 h
  dsimp only at h
  have l1 := Sig.toBytes_len h1
  cases f with
  | false =>
    obtain rfl := Res.ok.inj h
    exact ⟨rfl, rfl, rfl, l1, fun h => Bool.noConfusion (h : false = true)⟩
  | true =>
    replace h : (x.1.checkBounds P.νw P.Binf P.B22 >>= _) = Res.ok r := h
    obtain ⟨ib, h2, h⟩ := Res.bind_eq_ok.1 h
    cases ib with
    | false =>
      obtain rfl := Res.ok.inj h
      exact ⟨rfl, rfl, rfl, l1, fun h => Bool.noConfusion (h : false = true)⟩
    | true =>
      obtain rfl := Res.ok.inj h
      exact ⟨rfl, rfl, rfl, l1, fun _ => ⟨h1, h2⟩⟩

/-- Equal up to the content of the signature buffer. -/
def SignSt.Rel (s t : SignSt l d) : Prop := s.s = t.s ∧ s.prng = t.prng ∧ s.m = t.m ∧ s.sigBytes.length = t.sigBytes.length

theorem signAttempt_rel (P : Par) (E : Ext) (fuel d uw rep : Nat) (A : PMat P.k P.l) (t : PVec P.k 1) (μ : List U8) {st st' : SignSt P.l d} (h : st.Rel st') :
    resRel (fun a b => a.1 = b.1 ∧ a.2.Rel b.2 ∧ (a.1 = true → a.2.sigBytes = b.2.sigBytes))
      (signAttempt P E fuel d uw rep A t μ st) (signAttempt P E fuel d uw rep A t μ st') := by
  rw [signAttempt_eq, signAttempt_eq, h.1, h.2.1, h.2.2.1]
  refine resRel_bind_same fun x => ?_
  unfold signFinish
  refine resRel_bind (encodeSig_buf x.1.cHash x.1.h x.1.z h.2.2.2) ?_
  rintro ⟨f, b⟩ ⟨f', b'⟩ ⟨h1, h2, h3⟩
  replace h1 : f = f' := h1
  replace h2 : b.length = b'.length := h2
  replace h3 : f = true → b = b' := h3
  subst h1
  dsimp only
  cases f with
  | false => exact .ok ⟨rfl, ⟨rfl, rfl, rfl, h2⟩, fun h => Bool.noConfusion (h : false = true)⟩
  | true =>
    obtain rfl := h3 rfl
    show resRel _ (x.1.checkBounds P.νw P.Binf P.B22 >>= _) (x.1.checkBounds P.νw P.Binf P.B22 >>= _)
    refine resRel_bind_same fun ib => ?_
    cases ib with
    | false => exact .ok ⟨rfl, ⟨rfl, rfl, rfl, rfl⟩, fun h => Bool.noConfusion (h : false = true)⟩
    | true => exact .ok ⟨rfl, ⟨rfl, rfl, rfl, rfl⟩, fun h => rfl⟩

theorem signLoop_rel (P : Par) (E : Ext) (fuel d uw rep : Nat) (A : PMat P.k P.l) (t : PVec P.k 1) (μ : List U8) :
    ∀ (n : Nat) {st st' : SignSt P.l d}, st.Rel st' →
      signLoop P E fuel d uw rep A t μ n st = signLoop P E fuel d uw rep A t μ n st' := by
  intro n
  induction n with
  | zero => intro st st' h; rfl
  | succ n ih =>
    intro st st' h
    unfold signLoop
    have hr := signAttempt_rel P E fuel d uw rep A t μ h
    cases h1 : signAttempt P E fuel d uw rep A t μ st with
    | ub => rw [h1] at hr; cases h2 : signAttempt P E fuel d uw rep A t μ st' <;> rw [h2] at hr <;> first | rfl | cases hr
    | nofuel => rw [h1] at hr; cases h2 : signAttempt P E fuel d uw rep A t μ st' <;> rw [h2] at hr <;> first | rfl | cases hr
    | ok a =>
      cases h2 : signAttempt P E fuel d uw rep A t μ st' with
      | ub => rw [h1, h2] at hr; cases hr
      | nofuel => rw [h1, h2] at hr; cases hr
      | ok b =>
        rw [h1, h2] at hr
        cases hr with
        | ok hr =>
          obtain ⟨f, s1⟩ := a
          obtain ⟨f', s2⟩ := b
          obtain ⟨r1, r2, r3⟩ := hr
          replace r1 : f = f' := r1
          subst r1
          rw [Res.ok_bind, Res.ok_bind]
          cases f with
          | true => exact congrArg Res.ok (r3 rfl)
          | false => exact ih r2

theorem Retries.cons {P : Par} {E : Ext} {fuel d uw rep : Nat} {A : PMat P.k P.l} {t : PVec P.k 1} {μ : List U8} {n : Nat} {st st' st'' : SignSt P.l d}
    (e : signAttempt P E fuel d uw rep A t μ st = .ok (false, st')) (h : Retries P E fuel d uw rep A t μ n st' st'') :
    Retries P E fuel d uw rep A t μ (n + 1) st st'' := by
  induction h with
  | zero => exact .succ (.zero _) e
  | succ h e' ih => exact .succ (ih e) e'

theorem signLoop_ok (P : Par) (E : Ext) (fuel d uw rep : Nat) (A : PMat P.k P.l) (t : PVec P.k 1) (μ : List U8) (b : List U8) :
    ∀ (N : Nat) (st : SignSt P.l d), signLoop P E fuel d uw rep A t μ N st = .ok b →
      ∃ n st' st'', n < N ∧ Retries P E fuel d uw rep A t μ n st st' ∧ signAttempt P E fuel d uw rep A t μ st' = .ok (true, st'') ∧ st''.sigBytes = b := by
  intro N
  induction N with
  | zero => intro st h; cases h
  | succ N ih =>
    intro st h
    unfold signLoop at h
    obtain ⟨⟨f, s1⟩, h1, h⟩ := Res.bind_eq_ok.1 h
    cases f with
    | true => exact ⟨0, st, s1, by omega, .zero _, h1, Res.ok.inj h⟩
    | false =>
      obtain ⟨n, st', st'', g1, g2, g3, g4⟩ := ih s1 h
      exact ⟨n + 1, st', st'', by omega, .cons h1 g2, g3, g4⟩

/-- What holds before each attempt. -/
structure SignInv (P : Par) (d rep : Nat) (st0 : SignSt P.l d) (n : Nat) (st : SignSt P.l d) : Prop where
  can : PVec.Can st.s
  val : PVec.val st.s = PVec.val st0.s
  prng : st.prng = st0.prng.advance (n * ((P.l + P.k) * rowBytes P d rep))
  len : st.sigBytes.length = st0.sigBytes.length

theorem Prng.advance_zero (p : Prng) : p.advance 0 = p := rfl

/-- Standing assumptions of signing. -/
structure SignCtx (P : Par) (E : Ext) (d uw : Nat) (A : PMat P.k P.l) (t : PVec P.k 1) (a : Fin P.k → Fin P.l → RPoly) (t0 : PVec P.k 1) : Prop where
  hP : P = raccoon128 ∨ P = raccoon192 ∨ P = raccoon256
  hd : PowTwo d
  hu : 0 < uw
  hu' : uw ≤ 49
  hA : PMat.Can A
  ha : A.Is a
  ht : PVec.Can t
  htv : t.IsNtt (fun i c => (2 ^ P.νt : ZMod q) * PVec.val t0 i c)

theorem Retries.inv {P : Par} {E : Ext} {fuel d uw rep : Nat} {A : PMat P.k P.l} {t : PVec P.k 1} {μ : List U8} {n : Nat} {st st' : SignSt P.l d}
    {a : Fin P.k → Fin P.l → RPoly} {t0 : PVec P.k 1} (C : SignCtx P E d uw A t a t0)
    (h : Retries P E fuel d uw rep A t μ n st st') (hs : PVec.Can st.s) (sv : Fin P.l → RPoly) (hsv : st.s.IsNtt sv) : SignInv P d rep st n st' := by
  induction h with
  | zero => exact ⟨hs, rfl, by rw [Nat.zero_mul, Prng.advance_zero], rfl⟩
  | @succ n st st' st'' h e ih =>
    obtain ⟨i1, i2, i3, i4⟩ := ih hs hsv
    rw [signAttempt_eq] at e
    obtain ⟨x, h1, h2⟩ := Res.bind_eq_ok.1 e
    have hc := (signCore_spec P C.hP E fuel d uw rep C.hd C.hu C.hu' A C.hA a C.ha t t0 C.ht C.htv μ st'.s i1 sv (fun j => by rw [i2]; exact hsv j) st'.prng st'.m).par x h1
    obtain ⟨f1, f2, f3, f4, -⟩ := signFinish_par P _ x _ h2
    replace f1 : st''.s = _ := f1
    replace f2 : st''.prng = _ := f2
    replace f4 : st''.sigBytes.length = _ := f4
    refine ⟨by rw [f1]; exact hc.1, by rw [f1, hc.2.1, i2], ?_, by rw [f4, i4]⟩
    rw [f2, hc.2.2.1, i3, Prng.advance_advance, Nat.succ_mul]

/-- The outcome of `sign`, up to encoding. -/
theorem sign_spec (P : Par) (hP : P = raccoon128 ∨ P = raccoon192 ∨ P = raccoon256) (E : Ext) (fuel d uw rep : Nat) (hd : PowTwo d) (hu : 0 < uw) (hu' : uw ≤ 49)
    (sk : SKey P.k P.l d) (ht : PVec.RowsBelow 128 sk.pkey.t) (hs : PVec.Can sk.s) (sv : Fin P.l → RPoly) (hsv : sk.s.IsNtt sv)
    (entropy msg buf b : List U8) (h : sk.sign P E fuel d uw rep entropy msg buf = .ok b) :
    ∃ pkb A n c s buf', sk.pkey.toBytes P.νt (List.replicate (PKey.byteLen P.κ P.k P.νt) 0) = .ok pkb ∧
      PMat.expandA E fuel P.k P.l sk.pkey.seed = .ok A ∧ n < fuel ∧ Poly.chalPoly E fuel P.ω s.cHash = .ok c ∧ Sig.toBytes s buf' = .ok (true, b) ∧
      buf'.length = buf.length ∧ s.checkBounds P.νw P.Binf P.B22 = .ok true ∧
      ∀ a, A.Is a → IsSigOf E P.κ P.νw P.νt a (PVec.val sk.pkey.t) sv c.toZ (messageHash E P.κ pkb msg)
        (vecR (noiseVec E uw P.κ d rep P.l (E.shake128 entropy) (n * ((P.l + P.k) * rowBytes P d rep))))
        (vecR (noiseVec E uw P.κ d rep P.k (E.shake128 entropy) (n * ((P.l + P.k) * rowBytes P d rep) + P.l * rowBytes P d rep))) s.cHash s.h s.z := by
  obtain ⟨w1, w2, w3, w4, w5, -⟩ := par_bounds P hP
  unfold SKey.sign at h
  obtain ⟨t1, e1, h⟩ := Res.bind_eq_ok.1 h
  obtain ⟨t2, e2, h⟩ := Res.bind_eq_ok.1 h
  obtain ⟨pkb, e3, h⟩ := Res.bind_eq_ok.1 h
  obtain ⟨A, e4, h⟩ := Res.bind_eq_ok.1 h
  obtain ⟨ts, ets, tsc, tsv⟩ := PVec.shl_spec (n := 42) (m := 128) (by omega) (by norm_num) ht
  rw [w2] at e1
  obtain rfl : ts = t1 := Res.ok.inj (ets.symm.trans e1)
  obtain ⟨tn, etn, tnc, tni⟩ := PVec.IsNtt.ntt tsc
  obtain rfl : tn = t2 := Res.ok.inj (etn.symm.trans e2)
  have hAcan := (expandA_safe E fuel P.k P.l sk.pkey.seed).par A e4
  obtain ⟨n, st', st'', g1, g2, g3, g4⟩ := signLoop_ok P E fuel d uw rep A tn _ b fuel _ h
  have C : ∀ a, A.Is a → SignCtx P E d uw A tn a sk.pkey.t := fun a ha => ⟨hP, hd, hu, hu', hAcan.1, ha, tnc, by
    intro i
    rw [← tni i, tsv, w2]⟩
  obtain ⟨a0, ha0⟩ : ∃ a, A.Is a := ⟨fun r j => (nttR_surj (PMat.val A r j)).choose, fun r j => (nttR_surj (PMat.val A r j)).choose_spec⟩
  obtain ⟨i1, i2, i3, i4⟩ := Retries.inv (C a0 ha0) g2 hs sv hsv
  rw [signAttempt_eq] at g3
  obtain ⟨x, h1, h2⟩ := Res.bind_eq_ok.1 g3
  obtain ⟨-, -, -, -, f5⟩ := signFinish_par P _ x _ h2
  have hc := fun a ha => (signCore_spec P hP E fuel d uw rep hd hu hu' A hAcan.1 a ha tn sk.pkey.t tnc (C a ha).htv _ st'.s i1 sv (fun j => by rw [i2]; exact hsv j) st'.prng st'.m).par x h1
  obtain ⟨-, -, -, c, hch, -⟩ := hc a0 ha0
  replace f5 : x.1.toBytes st'.sigBytes = .ok (true, st''.sigBytes) ∧ x.1.checkBounds P.νw P.Binf P.B22 = .ok true := f5 rfl
  rw [g4] at f5
  refine ⟨pkb, A, n, c, x.1, st'.sigBytes, e3, e4, g1, hch, f5.1, i4, f5.2, ?_⟩
  intro a ha
  obtain ⟨-, -, -, c', hch', hsig⟩ := hc a ha
  obtain rfl : c = c' := Res.ok.inj (hch.symm.trans hch')
  have p1 : st'.prng.stream = E.shake128 entropy := by rw [i3]; rfl
  have p2 : st'.prng.pos = n * ((P.l + P.k) * rowBytes P d rep) := by
    rw [i3]
    show 0 + _ = _
    rw [Nat.zero_add]
  have hμ := C41_mu E P.κ pkb msg
  rw [p1, p2, hμ.2, hμ.1] at hsig
  exact hsig

end Raccoon
