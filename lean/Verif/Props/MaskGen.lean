import Verif.Spec.MaskGen
import Verif.Proofs.Fuel
import Verif.Props.Fuel
import Verif.Props.Progress
import Verif.Props.DemoLike
/-!
# C78: masking does not show in the outputs
-/
namespace Raccoon
attribute [-instance] Monoid.toNPow
open Finset

theorem attemptSig_mono {P : Par} {E : Ext} {fuel fuel' d uw rep : Nat} (hf : fuel ≤ fuel') {a : Fin P.k → Fin P.l → RPoly} {t : Fin P.k → RPoly}
    {s : Fin P.l → RPoly} {μ : List U8} {stream : Nat → U8} {n : Nat} {c : List U8} {h z : List Int}
    (g : AttemptSig P E fuel d uw rep a t s μ stream n c h z) : AttemptSig P E fuel' d uw rep a t s μ stream n c h z := by
  obtain ⟨cp, e, i⟩ := g
  refine ⟨cp, ?_, i⟩
  have := chalPoly_le hf E P.ω c
  rw [e] at this
  exact (this.resolve_left nofun).symm

theorem attemptSig_det {P : Par} {E : Ext} {fuel fuel' d uw rep : Nat} {a : Fin P.k → Fin P.l → RPoly} {t : Fin P.k → RPoly}
    {s : Fin P.l → RPoly} {μ : List U8} {stream : Nat → U8} {n : Nat} {c c' : List U8} {h h' z z' : List Int}
    (g : AttemptSig P E fuel d uw rep a t s μ stream n c h z) (g' : AttemptSig P E fuel' d uw rep a t s μ stream n c' h' z') : c = c' ∧ h = h' ∧ z = z' :=
  C52_attempt_unique P E (max fuel fuel') d uw rep a t s μ stream n c c' h h' z z' (attemptSig_mono (Nat.le_max_left _ _) g) (attemptSig_mono (Nat.le_max_right _ _) g')

theorem signWith_ctx (P : Par) (hP : P = raccoon128 ∨ P = raccoon192 ∨ P = raccoon256) (E : Ext) (fuel d : Nat) (hd : ValidShares d) (pk : PKey P.k) (hpk : pk.WF P) (msg : List U8) :
    ∃ uw rep pkb tn, tab uwTable (BitVec.ofNat 64 d) = .ok uw ∧ tab repTable (BitVec.ofNat 64 d) = .ok rep ∧ Api.pkAsBytes P pk (List.replicate (PKey.byteLen P.κ P.k P.νt) 0) = .ok pkb ∧
      (∀ A a, PMat.expandA E fuel P.k P.l pk.seed = .ok A → A.Is a → SignCtx P E d uw A tn a pk.t) ∧
      ∀ (g : Mrng d) (sk : SKey P.k P.l d) (entropy buf : List U8), sk.pkey = pk → Api.signWith P E fuel g sk entropy msg buf = (PMat.expandA E fuel P.k P.l pk.seed >>= fun A =>
        signLoop P E fuel d uw rep A tn (messageHash E P.κ pkb msg) fuel ⟨sk.s, Prng.new E entropy, g, buf⟩) := by
  obtain ⟨rep, uw, -, -, e1, e2, -, -, u1, u2, -⟩ := tab_ok hd
  obtain ⟨w1, w2, w3, w4, w5, -⟩ := par_bounds P hP
  obtain ⟨pkb, e3⟩ := pkBytes_ok P hP pk hpk.seed
  obtain ⟨ts, ets, tsc, tsv⟩ := PVec.shl_spec (n := 42) (m := 128) (by omega) (by norm_num) (PVec.below_iff.1 hpk.t)
  obtain ⟨tn, etn, tnc, tni⟩ := PVec.IsNtt.ntt tsc
  refine ⟨uw, rep, pkb, tn, e2, e1, e3, fun A a e4 ha => ⟨hP, hd.pow, u1, by omega, ((expandA_safe E fuel P.k P.l pk.seed).par A e4).1, ha, tnc,
      fun i => by rw [← tni i, tsv, w2]⟩, ?_⟩
  rintro g sk entropy buf rfl
  unfold Api.signWith
  rw [e2, Res.ok_bind, e1, Res.ok_bind]
  unfold SKey.signWith
  have hμ := C41_mu E P.κ pkb msg
  rw [e3, w2, ets, Res.ok_bind, etn, Res.ok_bind, Res.ok_bind]
  dsimp only
  rw [hμ.2, hμ.1]
  rfl

theorem signWith_eq (P : Par) (hP : P = raccoon128 ∨ P = raccoon192 ∨ P = raccoon256) (E : Ext) (fuel d : Nat) (hd : ValidShares d) (g : Mrng d)
    (sk : SKey P.k P.l d) (hsk : sk.WF P) (entropy msg buf : List U8) (hne : Api.signWith P E fuel g sk entropy msg buf ≠ .nofuel) :
    ∃ uw rep pkb A a tn, tab uwTable (BitVec.ofNat 64 d) = .ok uw ∧ tab repTable (BitVec.ofNat 64 d) = .ok rep ∧
      Api.pkAsBytes P sk.pkey (List.replicate (PKey.byteLen P.κ P.k P.νt) 0) = .ok pkb ∧ PMat.expandA E fuel P.k P.l sk.pkey.seed = .ok A ∧ SignCtx P E d uw A tn a sk.pkey.t ∧
      ∀ (g' : Mrng d) (sk' : SKey P.k P.l d), sk'.pkey = sk.pkey →
        Api.signWith P E fuel g' sk' entropy msg buf = signLoop P E fuel d uw rep A tn (messageHash E P.κ pkb msg) fuel ⟨sk'.s, Prng.new E entropy, g', buf⟩ := by
  obtain ⟨uw, rep, pkb, tn, e2, e1, e3, hC, hsig⟩ := signWith_ctx P hP E fuel d hd sk.pkey hsk.pkey msg
  cases e4 : PMat.expandA E fuel P.k P.l sk.pkey.seed with
  | ub => exact absurd e4 (expandA_safe E fuel P.k P.l sk.pkey.seed).ne_ub
  | nofuel => rw [hsig g sk entropy buf rfl, e4] at hne; exact absurd rfl hne
  | ok A =>
    obtain ⟨a, ha⟩ := PMat.Is.exists A
    refine ⟨uw, rep, pkb, A, a, tn, e2, e1, e3, rfl, hC A a e4 ha, fun g' sk' hp => ?_⟩
    rw [hsig g' sk' entropy buf hp, e4, Res.ok_bind]

/-- C78: what `sign` does - which bytes it returns, or that it is undefined - does not depend on the mask generators: not on the state they start in, not on Ascon, and not on the masks
inside the key object. Two calls that come to an end, on two sharings of the same key, have the same outcome. -/
theorem C78_sign (P : Par) (hP : P = raccoon128 ∨ P = raccoon192 ∨ P = raccoon256) (E : Ext) (p6 p12 : AsconState → AsconState) (iv : U64) (d : Nat) (hd : ValidShares d) (g g' : Mrng d)
    (sk sk' : SKey P.k P.l d) (hsk : sk.WF P) (hsk' : sk'.WF P) (hpk : sk'.pkey = sk.pkey) (hval : PVec.val sk'.s = PVec.val sk.s) (fuel fuel' : Nat) (entropy msg buf buf' : List U8)
    (hbuf : buf'.length = buf.length) (h : Api.signWith P E fuel g sk entropy msg buf ≠ .nofuel) (h' : Api.signWith P (E.withAscon p6 p12 iv) fuel' g' sk' entropy msg buf' ≠ .nofuel) :
    Api.signWith P (E.withAscon p6 p12 iv) fuel' g' sk' entropy msg buf' = Api.signWith P E fuel g sk entropy msg buf := by
  obtain ⟨uw, rep, pkb, A, a, tn, e1, e2, e3, e4, C, e5⟩ := signWith_eq P hP E fuel d hd g sk hsk entropy msg buf h
  replace e5 := e5 g sk rfl
  obtain ⟨uw', rep', pkb', A', a', tn', f1, f2, f3, f4, C', f5⟩ := signWith_eq P hP (E.withAscon p6 p12 iv) fuel' d hd g' sk' hsk' entropy msg buf' h'
  replace f5 := f5 g' sk' rfl
  obtain rfl : uw = uw' := Res.ok.inj (e1.symm.trans f1)
  obtain rfl : rep = rep' := Res.ok.inj (e2.symm.trans f2)
  rw [hpk] at f3 f4 C'
  obtain rfl : pkb = pkb' := Res.ok.inj (e3.symm.trans f3)
  obtain rfl : A = A' := by
    have f4 : PMat.expandA E fuel' P.k P.l sk.pkey.seed = .ok A' := f4
    rcases Nat.le_total fuel fuel' with hf | hf
    · have := expandA_le hf E P.k P.l sk.pkey.seed
      rw [e4, f4] at this
      exact Res.ok.inj (this.resolve_left nofun)
    · have := expandA_le hf E P.k P.l sk.pkey.seed
      rw [e4, f4] at this
      exact (Res.ok.inj (this.resolve_left nofun)).symm
  obtain rfl : a = a' := PMat.Is.unique C.ha C'.ha
  obtain ⟨s, hs⟩ : ∃ s : Fin P.l → RPoly, sk.s.IsNtt s := ⟨fun j => (nttR_surj (PVec.val sk.s j)).choose, fun j => (nttR_surj (PVec.val sk.s j)).choose_spec⟩
  have hs' : sk'.s.IsNtt s := fun j => by rw [hval]; exact hs j
  have r := signLoop_exact (fuel := fuel) (rep := rep) (messageHash E P.κ pkb msg) C entropy sk.s g buf s hs fuel 0 ⟨sk.s, Prng.new E entropy, g, buf⟩
    ⟨hsk.s, rfl, by rw [Nat.zero_mul, Prng.advance_zero], rfl⟩
  have r' := signLoop_exact (fuel := fuel') (rep := rep) (messageHash (E.withAscon p6 p12 iv) P.κ pkb msg) C' entropy sk'.s g' buf' s hs' fuel' 0 ⟨sk'.s, Prng.new (E.withAscon p6 p12 iv) entropy, g', buf'⟩
    ⟨hsk'.s, rfl, by rw [Nat.zero_mul, Prng.advance_zero], rfl⟩
  rw [← e5] at r
  rw [← f5, hbuf] at r'
  simp only [Nat.zero_add] at r r'
  generalize Api.signWith P E fuel g sk entropy msg buf = R at *
  generalize Api.signWith P (E.withAscon p6 p12 iv) fuel' g' sk' entropy msg buf' = R' at *
  have hdet : ∀ n c h z c' h' z', AttemptSig P E fuel d uw rep a (PVec.val sk.pkey.t) s (messageHash E P.κ pkb msg) (E.shake128 entropy) n c h z →
      AttemptSig P (E.withAscon p6 p12 iv) fuel' d uw rep a (PVec.val sk.pkey.t) s (messageHash (E.withAscon p6 p12 iv) P.κ pkb msg) ((E.withAscon p6 p12 iv).shake128 entropy) n c' h' z' →
      c = c' ∧ h = h' ∧ z = z' := by
    intro n c h z c' h' z' k k'
    obtain ⟨cp, q1, ⟨i1, i2, i3, i4, i5, i6, i7⟩⟩ := k'
    exact attemptSig_det k (fuel' := fuel') ⟨cp, q1, ⟨i1, i2, i3, i4, i5, i6, i7⟩⟩
  rcases r with ⟨n, b, -, k2, k3, c, hh, z, k4, k5, k6, k7⟩ | ⟨n, -, k2, k3, c, hh, z, k4, k5⟩ | ⟨k, -⟩
  · rcases r' with ⟨n', b', -, m2, m3, c', hh', z', m4, m5, m6, m7⟩ | ⟨n', -, m2, m3, c', hh', z', m4, m5⟩ | ⟨k, -⟩
    · rcases Nat.lt_trichotomy n n' with hn | rfl | hn
      · obtain ⟨c2, h2, z2, q1, q2⟩ := m3 n hn
        obtain ⟨rfl, rfl, rfl⟩ := hdet n _ _ _ _ _ _ k4 q1
        exact absurd k5 q2.1
      · obtain ⟨rfl, rfl, rfl⟩ := hdet n _ _ _ _ _ _ k4 m4
        rw [k2, m2, k6.unique m6]
      · obtain ⟨c2, h2, z2, q1, q2⟩ := k3 n' hn
        obtain ⟨rfl, rfl, rfl⟩ := hdet n' _ _ _ _ _ _ q1 m4
        exact absurd m5 q2.1
    · exfalso
      rcases Nat.lt_trichotomy n n' with hn | rfl | hn
      · obtain ⟨c2, h2, z2, q1, q2⟩ := m3 n hn
        obtain ⟨rfl, rfl, rfl⟩ := hdet n _ _ _ _ _ _ k4 q1
        exact q2.1 k5
      · obtain ⟨rfl, rfl, rfl⟩ := hdet n _ _ _ _ _ _ k4 m4
        exact k7 m5
      · obtain ⟨c2, h2, z2, q1, q2⟩ := k3 n' hn
        obtain ⟨rfl, rfl, rfl⟩ := hdet n' _ _ _ _ _ _ q1 m4
        exact q2.2 m5
    · exact absurd k h'
  · rcases r' with ⟨n', b', -, m2, m3, c', hh', z', m4, m5, m6, m7⟩ | ⟨n', -, m2, m3, c', hh', z', m4, m5⟩ | ⟨k, -⟩
    · exfalso
      rcases Nat.lt_trichotomy n n' with hn | rfl | hn
      · obtain ⟨c2, h2, z2, q1, q2⟩ := m3 n hn
        obtain ⟨rfl, rfl, rfl⟩ := hdet n _ _ _ _ _ _ k4 q1
        exact q2.2 k5
      · obtain ⟨rfl, rfl, rfl⟩ := hdet n _ _ _ _ _ _ k4 m4
        exact m7 k5
      · obtain ⟨c2, h2, z2, q1, q2⟩ := k3 n' hn
        obtain ⟨rfl, rfl, rfl⟩ := hdet n' _ _ _ _ _ _ q1 m4
        exact q2.1 m5
    · rw [k2, m2]
    · exact absurd k h'
  · exact absurd k h

theorem pkey_ext {P : Par} {x y : PKey P.k} (h : x.seed = y.seed) (ht : ∀ i (hi : i < P.k) j (hj : j < 512), ((x.t)[i][0][j]).raw.toNat = ((y.t)[i][0][j]).raw.toNat) : x = y := by
  obtain ⟨s1, t1⟩ := x
  obtain ⟨s2, t2⟩ := y
  obtain rfl : s1 = s2 := h
  congr 1
  apply Vector.ext
  intro i hi
  apply Vector.ext
  intro r hr
  obtain rfl : r = 0 := by omega
  apply Vector.ext
  intro j hj
  exact Zq.ext_nat (ht i hi j hj)

/-- C78: keys generated from the same seed and entropy with different mask generators (other initial states, another Ascon) have the same public key and the same secret; only the shares
differ. -/
theorem C78_generate (P : Par) (hP : P = raccoon128 ∨ P = raccoon192 ∨ P = raccoon256) (E : Ext) (p6 p12 : AsconState → AsconState) (iv : U64) (d : Nat) (hd : ValidShares d) (g g' : Mrng d)
    (fuel fuel' : Nat) (entropy seed : List U8) (hseed : seed.length = P.κ / 8) (sk sk' : SKey P.k P.l d)
    (h : Api.generateWith P (utTableOf P) E fuel g entropy seed = .ok sk) (h' : Api.generateWith P (utTableOf P) (E.withAscon p6 p12 iv) fuel' g' entropy seed = .ok sk') :
    sk.WF P ∧ sk'.WF P ∧ sk'.pkey = sk.pkey ∧ PVec.val sk'.s = PVec.val sk.s := by
  obtain ⟨rep, -, ut1, ut2, e1, -, e3, e4, -, -, v1, v2, v3, v4⟩ := tab_ok hd
  obtain ⟨ut, e2, u1, u2⟩ : ∃ ut, tab (utTableOf P) (BitVec.ofNat 64 d) = .ok ut ∧ 0 < ut ∧ ut ≤ 7 := by
    unfold utTableOf
    split
    · exact ⟨ut2, e4, v3, v4⟩
    · exact ⟨ut1, e3, v1, v2⟩
  unfold Api.generateWith at h h'
  rw [e2, Res.ok_bind, e1, Res.ok_bind] at h h'
  obtain ⟨g1, g2, g3, g4, A, g5, g6⟩ := (generateWith_spec P hP E fuel d ut rep hd.pow u1 (by omega) g entropy seed).par sk h
  obtain ⟨k1, k2, k3, k4, A', k5, k6⟩ := (generateWith_spec P hP (E.withAscon p6 p12 iv) fuel' d ut rep hd.pow u1 (by omega) g' entropy seed).par sk' h'
  have e125 : q / 2 ^ P.νt = 125 := by rw [(par_bounds P hP).2.1, q42]
  have hw : ∀ x : SKey P.k P.l d, x.pkey.seed = seed → PVec.Can x.s → PVec.RowsBelow (q / 2 ^ P.νt) x.pkey.t → x.WF P := by
    intro x x1 x2 x3
    refine ⟨⟨by rw [x1, hseed], ?_⟩, x2⟩
    rw [PVec.below_iff]
    intro i hi j hj
    have := x3 i hi j hj
    omega
  refine ⟨hw sk g1 g2 g4, hw sk' k1 k2 k4, ?_, ?_⟩
  · have k5 : PMat.expandA E fuel' P.k P.l seed = .ok A' := k5
    obtain rfl : A = A' := by
      rcases Nat.le_total fuel fuel' with hf | hf
      · have := expandA_le hf E P.k P.l seed
        rw [g5, k5] at this
        exact Res.ok.inj (this.resolve_left nofun)
      · have := expandA_le hf E P.k P.l seed
        rw [g5, k5] at this
        exact (Res.ok.inj (this.resolve_left nofun)).symm
    obtain ⟨a, ha⟩ := PMat.Is.exists A
    refine pkey_ext (k1.trans g1.symm) fun i hi j hj => ?_
    rw [g6 a ha i hi j hj, k6 a ha i hi j hj]
    rfl
  · funext j
    exact (k3 j).symm.trans (g3 j)

/-- C78: refreshing with any mask generators leaves public key and secret alone. -/
theorem C78_refresh (P : Par) (E : Ext) (d : Nat) (hd : ValidShares d) (g : Mrng d) (fuel : Nat) (sk sk' : SKey P.k P.l d) (hsk : sk.WF P) (h : Api.refreshWith P E fuel g sk = .ok sk') :
    sk'.WF P ∧ sk'.pkey = sk.pkey ∧ PVec.val sk'.s = PVec.val sk.s := by
  unfold Api.refreshWith SKey.refreshWith at h
  obtain ⟨⟨v, g1⟩, e1, e⟩ := Res.bind_eq_ok.1 h
  obtain rfl := Res.ok.inj e
  have := PVec.refresh_spec E fuel hd.pow hsk.s g
  rw [e1] at this
  exact ⟨⟨hsk.pkey, this.1⟩, rfl, this.2⟩

/-- C78: any history of a key object with any mask generators keeps its public key and its secret. -/
theorem C78_history (P : Par) (hP : P = raccoon128 ∨ P = raccoon192 ∨ P = raccoon256) (E : Ext) (d : Nat) (hd : ValidShares d) (sk sk' : SKey P.k P.l d) (hsk : sk.WF P)
    (h : SKey.DerivedWith P E sk sk') : sk'.WF P ∧ sk'.pkey = sk.pkey ∧ PVec.val sk'.s = PVec.val sk.s := by
  induction h with
  | refl => exact ⟨hsk, rfl, rfl⟩
  | refresh fuel g h e ih =>
    obtain ⟨i1, i2, i3⟩ := ih
    obtain ⟨j1, j2, j3⟩ := C78_refresh P E d hd g fuel _ _ i1 e
    exact ⟨j1, j2.trans i2, j3.trans i3⟩
  | @reload sk' sk'' fuel fuel' entropy buf b h hb e e' ih =>
    obtain ⟨i1, i2, i3⟩ := ih
    obtain ⟨j1, j2, j3⟩ := C38_history P hP E d hd sk' sk'' i1 (.reload fuel fuel' entropy buf b .refl hb e e')
    exact ⟨j1, j2.trans i2, j3.trans i3⟩

/-- C78: no known-answer test can tell the library from one with other mask generators. Take two libraries with the same SHAKE functions, whose mask generators may start in any states and use
any Ascon. Generate a key from the same seed and entropy in each, let each live through any history of refreshes and trips through bytes of its own, and sign the same message with
the same entropy: the public keys are equal, their bytes are equal, and the two `sign` calls have the same outcome. -/
theorem C78_known_answers (P : Par) (hP : P = raccoon128 ∨ P = raccoon192 ∨ P = raccoon256) (E : Ext) (p6 p12 : AsconState → AsconState) (iv : U64) (d : Nat) (hd : ValidShares d)
    (g0 g1 g0' g1' : Mrng d) (f0 f1 f0' f1' : Nat) (entropy0 seed entropy1 msg buf buf' : List U8) (hseed : seed.length = P.κ / 8) (hbuf : buf'.length = buf.length) (sk0 sk1 sk0' sk1' : SKey P.k P.l d)
    (h0 : Api.generateWith P (utTableOf P) E f0 g0 entropy0 seed = .ok sk0) (hd1 : SKey.DerivedWith P E sk0 sk1) (h1 : Api.signWith P E f1 g1 sk1 entropy1 msg buf ≠ .nofuel)
    (h0' : Api.generateWith P (utTableOf P) (E.withAscon p6 p12 iv) f0' g0' entropy0 seed = .ok sk0') (hd1' : SKey.DerivedWith P (E.withAscon p6 p12 iv) sk0' sk1')
    (h1' : Api.signWith P (E.withAscon p6 p12 iv) f1' g1' sk1' entropy1 msg buf' ≠ .nofuel) :
    Api.getPkey P sk1' = Api.getPkey P sk1 ∧ (∀ b, Api.pkAsBytes P (Api.getPkey P sk1') b = Api.pkAsBytes P (Api.getPkey P sk1) b) ∧
    Api.signWith P (E.withAscon p6 p12 iv) f1' g1' sk1' entropy1 msg buf' = Api.signWith P E f1 g1 sk1 entropy1 msg buf := by
  obtain ⟨w, w', e1, e2⟩ := C78_generate P hP E p6 p12 iv d hd g0 g0' f0 f0' entropy0 seed hseed sk0 sk0' h0 h0'
  obtain ⟨a1, a2, a3⟩ := C78_history P hP E d hd sk0 sk1 w hd1
  obtain ⟨b1, b2, b3⟩ := C78_history P hP (E.withAscon p6 p12 iv) d hd sk0' sk1' w' hd1'
  have epk : sk1'.pkey = sk1.pkey := b2.trans (e1.trans a2.symm)
  refine ⟨epk, fun b => ?_, C78_sign P hP E p6 p12 iv d hd g1 g1' sk1 sk1' a1 b1 epk (b3.trans (e2.trans a3.symm)) f1 f1' entropy1 msg buf buf' hbuf h1 h1'⟩
  unfold Api.getPkey
  rw [epk]

/-- C78: in particular the library as it is - whose mask generators all start in the all-zero state - and the repaired library, which stores the states its constructor computes, agree on
every public key and every signature. -/
theorem C78_repaired (P : Par) (hP : P = raccoon128 ∨ P = raccoon192 ∨ P = raccoon256) (E : Ext) (d : Nat) (hd : ValidShares d)
    (f0 f1 f0' f1' : Nat) (entropy0 seed entropy1 msg buf : List U8) (hseed : seed.length = P.κ / 8) (sk0 sk1 sk0' sk1' : SKey P.k P.l d)
    (h0 : Api.generate P (utTableOf P) E f0 d entropy0 seed = .ok sk0) (hd1 : SKey.Derived P E sk0 sk1) (h1 : Api.sign P E f1 d sk1 entropy1 msg buf ≠ .nofuel)
    (h0' : Api.generateWith P (utTableOf P) E f0' (Mrng.intended E d) entropy0 seed = .ok sk0') (hd1' : SKey.DerivedWith P E sk0' sk1')
    (h1' : Api.signWith P E f1' (Mrng.intended E d) sk1' entropy1 msg buf ≠ .nofuel) :
    Api.getPkey P sk1' = Api.getPkey P sk1 ∧ Api.signWith P E f1' (Mrng.intended E d) sk1' entropy1 msg buf = Api.sign P E f1 d sk1 entropy1 msg buf := by
  obtain ⟨e1, -, e2⟩ := C78_known_answers P hP E E.asconP6 E.asconP12 E.ascon80pqIV d hd (Mrng.new E d) (Mrng.new E d) (Mrng.intended E d) (Mrng.intended E d) f0 f1 f0' f1'
    entropy0 seed entropy1 msg buf buf hseed rfl sk0 sk1 sk0' sk1' h0 (derivedWith_new hd1) h1 h0' hd1' h1'
  exact ⟨e1, e2⟩

/-- C78: everything else does not use the mask generators: verification, saving and loading are the same functions with any Ascon. -/
theorem C78_others (P : Par) (E : Ext) (p6 p12 : AsconState → AsconState) (iv : U64) (fuel d : Nat) (sk : SKey P.k P.l d) (pk : PKey P.k) (entropy msg sig buf b : List U8) :
    Api.verify P (E.withAscon p6 p12 iv) fuel pk msg sig = Api.verify P E fuel pk msg sig ∧
    Api.skAsBytes P (E.withAscon p6 p12 iv) fuel sk entropy buf = Api.skAsBytes P E fuel sk entropy buf ∧
    Api.skFromBytes P (E.withAscon p6 p12 iv) fuel d b = Api.skFromBytes P E fuel d b :=
  ⟨rfl, rfl, rfl⟩

/-! ### A concrete case: the repaired toy library -/

/-- Key generation returns from every generator state on the orbit of the zero state (`C52_generate` is the case `Mrng.new`). -/
theorem generateWith_returns (P : Par) (hP : P = raccoon128 ∨ P = raccoon192 ∨ P = raccoon256) (E : Ext) (fuel d : Nat) (hd : ValidShares d) (hf : SamplersFinish P E fuel)
    (g : Mrng d) (hg : g.Reach E) (entropy seed : List U8) (hs : seed.length = P.κ / 8) : ∃ sk, Api.generateWith P (utTableOf P) E fuel g entropy seed = .ok sk := by
  obtain ⟨rep, -, ut1, ut2, e1, -, e3, e4, -, -, v1, v2, v3, v4⟩ := tab_ok hd
  obtain ⟨ut, e2, u1, u2⟩ : ∃ ut, tab (utTableOf P) (BitVec.ofNat 64 d) = .ok ut ∧ 0 < ut ∧ ut ≤ 7 := by
    unfold utTableOf
    split
    · exact ⟨ut2, e4, v3, v4⟩
    · exact ⟨ut1, e3, v1, v2⟩
  have hg : (SKey.generateWith P E fuel d ut rep g entropy seed).Good (fun _ => True) := by
    unfold SKey.generateWith
    obtain ⟨A, eA⟩ := hf.expandA seed hs
    dsimp only
    rw [eA, Res.ok_bind]
    refine (good_vecZeroEncoding hf.mask hd.pow _ _ hg).bind fun r hr => ?_
    obtain ⟨r1, m1⟩ := r
    refine (good_vecAddRepNoise hf.mask hd.pow _ _ _ u1 _ _ m1 hr).bind fun r hr => ?_
    obtain ⟨r2, p2, m2⟩ := r
    refine (fin_vecNtt _).good.bind fun r3 _ => ?_
    refine (fin_vecIntt _).good.bind fun w _ => ?_
    refine (good_vecAddRepNoise hf.mask hd.pow _ _ _ u1 _ _ m2 hr).bind fun r hr => ?_
    obtain ⟨w2, p3, m3⟩ := r
    exact Res.Good.ok trivial
  obtain ⟨sk, e, -⟩ := (generateWith_spec P hP E fuel d ut rep hd.pow u1 (by omega) g entropy seed).okGood hg
  refine ⟨sk, ?_⟩
  unfold Api.generateWith
  rw [e2, Res.ok_bind, e1, Res.ok_bind, e]

/-- If `sign` returns, then so does `sign` of a library whose mask generators start elsewhere on the orbit of the zero state. -/
theorem signWith_returns (P : Par) (hP : P = raccoon128 ∨ P = raccoon192 ∨ P = raccoon256) (E : Ext) (fuel d : Nat) (hd : ValidShares d) (hf : SamplersFinish P E fuel) (g : Mrng d) (hg : g.Reach E)
    (sk sk' : SKey P.k P.l d) (hsk : sk.WF P) (hsk' : sk'.WF P) (hpk : sk'.pkey = sk.pkey) (hval : PVec.val sk'.s = PVec.val sk.s) (entropy msg buf b : List U8)
    (h : Api.sign P E fuel d sk entropy msg buf = .ok b) : Api.signWith P E fuel g sk' entropy msg buf ≠ .nofuel := by
  intro h'
  obtain ⟨uw, rep, pkb, A, a, tn, e1, e2, e3, e4, C, e5⟩ := signWith_eq P hP E fuel d hd (Mrng.new E d) sk hsk entropy msg buf (by rw [signWith_new, h]; exact nofun)
  have hsig := e5 g sk' hpk
  replace e5 := e5 (Mrng.new E d) sk rfl
  rw [signWith_new, h] at e5
  obtain ⟨s, hs⟩ : ∃ s : Fin P.l → RPoly, sk.s.IsNtt s := PVec.IsNtt.exists sk.s
  have hs' : sk'.s.IsNtt s := fun j => by rw [hval]; exact hs j
  have r := signLoop_exact (fuel := fuel) (rep := rep) (messageHash E P.κ pkb msg) C entropy sk.s (Mrng.new E d) buf s hs fuel 0 ⟨sk.s, Prng.new E entropy, Mrng.new E d, buf⟩
    ⟨hsk.s, rfl, by rw [Nat.zero_mul, Prng.advance_zero], rfl⟩
  have r' := signLoop_exact (fuel := fuel) (rep := rep) (messageHash E P.κ pkb msg) C entropy sk'.s g buf s hs' fuel 0 ⟨sk'.s, Prng.new E entropy, g, buf⟩
    ⟨hsk'.s, rfl, by rw [Nat.zero_mul, Prng.advance_zero], rfl⟩
  rw [← e5] at r
  rw [← hsig, h'] at r'
  simp only [Nat.zero_add] at r r'
  obtain ⟨n, b', hn, -, -, c, hh, z, k4, k5, -⟩ | ⟨n, -, k, -⟩ | ⟨k, -⟩ := r
  · obtain ⟨n', b', -, k, -⟩ | ⟨n', -, k, -⟩ | ⟨-, k⟩ := r'
    · exact nomatch k
    · exact nomatch k
    · obtain ⟨c', h', z', q1, q2⟩ := k hf hg n hn
      obtain ⟨rfl, rfl, rfl⟩ := attemptSig_det k4 q1
      exact q2.1 k5
  · exact nomatch k
  · exact nomatch k

/-- A toy Ascon for which the repaired constructor leaves every state at (7, 7, 7, 7, 7). -/
def fixE : Ext := demoE.withAscon demoE.asconP6
  (fun _ => #v[7, 7, 7 ^^^ (mrngKey0 >>> 32), 7 ^^^ ((mrngKey0 <<< 32) ||| (mrngKey1 >>> 32)), 7 ^^^ 1 ^^^ ((mrngKey1 <<< 32) ||| mrngKey2)]) 5

theorem fix_intended (i : Nat) (x : AsconState) : mrngInitShare fixE i x = Vector.replicate 5 7 := by
  have h : ∀ p : AsconState,
      p = #v[(7 : U64), 7, 7 ^^^ (mrngKey0 >>> 32), 7 ^^^ ((mrngKey0 <<< 32) ||| (mrngKey1 >>> 32)), 7 ^^^ 1 ^^^ ((mrngKey1 <<< 32) ||| mrngKey2)] →
      (#v[p[0], p[1], p[2] ^^^ (mrngKey0 >>> 32), p[3] ^^^ ((mrngKey0 <<< 32) ||| (mrngKey1 >>> 32)), p[4] ^^^ ((mrngKey1 <<< 32) ||| mrngKey2) ^^^ 1] : AsconState) = Vector.replicate 5 7 := by
    rintro p rfl
    decide +kernel
  exact h _ rfl

theorem fix_like : DemoLike fixE := ⟨demo_like.short, demo_like.chal, demo_like.asc⟩

theorem fix_reach : (Mrng.intended fixE 2).Reach fixE := by
  intro i hi
  refine ⟨1, ?_⟩
  unfold Mrng.intended
  dsimp only
  rw [Vector.getElem_ofFn, fix_intended]
  rfl

/-- C78_generate, C78_sign, C78_known_answers, C78_repaired: the toy library and the repaired toy library, which starts its mask generators in other states. Both generate a key from the same
seed and entropy and sign every message; the hypotheses of the theorems are met, and the bytes are the same. -/
example (entropy0 seed : List U8) (hseed : seed.length = 16) : (Mrng.intended fixE 2).state ≠ (Mrng.new fixE 2).state ∧
    ∃ sk0 sk0' : SKey 5 4 2, Api.generate raccoon128 (utTableOf raccoon128) fixE 512 2 entropy0 seed = .ok sk0 ∧
      Api.generateWith raccoon128 (utTableOf raccoon128) fixE 512 (Mrng.intended fixE 2) entropy0 seed = .ok sk0' ∧
      ∀ entropy msg : List U8, ∃ b, Api.sign raccoon128 fixE 512 2 sk0 entropy msg (List.replicate 11524 0) = .ok b ∧
        Api.signWith raccoon128 fixE 512 (Mrng.intended fixE 2) sk0' entropy msg (List.replicate 11524 0) = .ok b := by
  refine ⟨fun e => ?_, ?_⟩
  · have h1 : (Mrng.intended fixE 2).state[0] = Vector.replicate 5 7 := by
      unfold Mrng.intended
      dsimp only
      rw [Vector.getElem_ofFn, fix_intended]
    have h2 : (Mrng.new fixE 2).state[0] = Vector.replicate 5 0 := rfl
    rw [e, h2] at h1
    exact absurd h1 (by decide)
  · have hP : raccoon128 = raccoon128 ∨ raccoon128 = raccoon192 ∨ raccoon128 = raccoon256 := Or.inl rfl
    obtain ⟨sk0, pkb, h0, -, run⟩ := fix_like.toy_run entropy0 seed hseed
    obtain ⟨sk0', h0'⟩ := generateWith_returns raccoon128 hP fixE 512 2 demo_d fix_like.toy_finish (Mrng.intended fixE 2) fix_reach entropy0 seed hseed
    refine ⟨sk0, sk0', h0, h0', fun entropy msg => ?_⟩
    obtain ⟨b, c, h, z, hb, -⟩ := run entropy msg
    obtain ⟨w, w', epk, ev⟩ := C78_generate raccoon128 hP fixE fixE.asconP6 fixE.asconP12 fixE.ascon80pqIV 2 demo_d (Mrng.new fixE 2) (Mrng.intended fixE 2) 512 512 entropy0 seed hseed sk0 sk0' h0 h0'
    have hne := signWith_returns raccoon128 hP fixE 512 2 demo_d fix_like.toy_finish (Mrng.intended fixE 2) fix_reach sk0 sk0' w w' epk ev entropy msg _ b hb
    refine ⟨b, hb, ?_⟩
    rw [(C78_repaired raccoon128 hP fixE 2 demo_d 512 512 512 512 entropy0 seed entropy msg _ hseed sk0 sk0 sk0' sk0' h0 .refl (by rw [hb]; exact nofun) h0' .refl hne).2, hb]

/-- C78_refresh, C78_history: a refresh of the repaired toy library. -/
example (entropy0 seed : List U8) (hseed : seed.length = 16) : ∃ sk0 sk1 : SKey 5 4 2, sk0.WF raccoon128 ∧ SKey.DerivedWith raccoon128 fixE sk0 sk1 ∧
    Api.refreshWith raccoon128 fixE 512 (Mrng.intended fixE 2) sk0 = .ok sk1 := by
  have hP : raccoon128 = raccoon128 ∨ raccoon128 = raccoon192 ∨ raccoon128 = raccoon256 := Or.inl rfl
  obtain ⟨sk0, h0⟩ := C52_generate raccoon128 hP fixE 512 2 demo_d fix_like.toy_finish entropy0 seed hseed
  have w0 := C37_wellformed raccoon128 hP fixE 512 2 demo_d entropy0 seed hseed sk0 h0
  have hg : (sk0.s.refresh fixE 512 (Mrng.intended fixE 2)).Good (fun _ => True) := by
    have := good_vecRefresh fix_like.toy_finish.mask demo_d.pow sk0.s _ fix_reach
    exact ⟨this.1, fun _ _ => trivial⟩
  have hs := PVec.refresh_spec fixE 512 demo_d.pow w0.s (Mrng.intended fixE 2)
  cases e : sk0.s.refresh fixE 512 (Mrng.intended fixE 2) with
  | ub => rw [e] at hs; exact absurd hs (by simp [Res.Safe])
  | nofuel => exact absurd e hg.1
  | ok r =>
    have e' : Api.refreshWith raccoon128 fixE 512 (Mrng.intended fixE 2) sk0 = .ok { sk0 with s := r.1 } := by
      show (sk0.s.refresh fixE 512 (Mrng.intended fixE 2) >>= fun x => Res.ok { sk0 with s := x.1 }) = _
      rw [e]
      rfl
    exact ⟨sk0, _, w0, .refresh 512 _ .refl e', e'⟩

end Raccoon
