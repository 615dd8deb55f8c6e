import Verif.Proofs.VerifyCases
/-!
# The scheme: C33 – C38 (`secret_key.hpp`, `public_key.hpp`, `raccoon{128,192,256}.hpp`)

Non-vacuity: `Props/Demo.lean` runs the scheme on a toy instance of the external functions; `demo_run`, `demo_retry` and the examples at its end meet
the hypotheses of every theorem of this file.
-/
namespace Raccoon
attribute [-instance] Monoid.toNPow
open Finset

/-- The level's 𝑢t table (raccoon192 has its own). -/
theorem tab_ok {d : Nat} (hd : ValidShares d) : ∃ rep uw ut ut', tab repTable (BitVec.ofNat 64 d) = .ok rep ∧ tab uwTable (BitVec.ofNat 64 d) = .ok uw ∧
    tab utTable (BitVec.ofNat 64 d) = .ok ut ∧ tab utTable192 (BitVec.ofNat 64 d) = .ok ut' ∧ 0 < uw ∧ uw ≤ 41 ∧ 0 < ut ∧ ut ≤ 7 ∧ 0 < ut' ∧ ut' ≤ 7 := by
  obtain ⟨m, hm, rfl⟩ := hd
  have h1 := C46_log2 m (by omega)
  unfold tab
  rw [h1]
  rcases (by omega : m = 0 ∨ m = 1 ∨ m = 2 ∨ m = 3 ∨ m = 4 ∨ m = 5) with rfl | rfl | rfl | rfl | rfl | rfl
  · exact ⟨8, 41, 6, 7, rfl, rfl, rfl, rfl, by omega⟩
  · exact ⟨4, 41, 6, 7, rfl, rfl, rfl, rfl, by omega⟩
  · exact ⟨2, 41, 6, 7, rfl, rfl, rfl, rfl, by omega⟩
  · exact ⟨4, 40, 5, 6, rfl, rfl, rfl, rfl, by omega⟩
  · exact ⟨2, 40, 5, 6, rfl, rfl, rfl, rfl, by omega⟩
  · exact ⟨4, 39, 4, 5, rfl, rfl, rfl, rfl, by omega⟩

theorem ValidShares.pow {d : Nat} (h : ValidShares d) : PowTwo d := ⟨h.choose, h.choose_spec.2⟩

theorem ValidShares.pos {d : Nat} (h : ValidShares d) : 0 < d := by
  obtain ⟨m, -, rfl⟩ := h
  exact Nat.pow_pos (by omega)

theorem PVec.IsNtt.exists (s : PVec l d) : ∃ sv, s.IsNtt sv := ⟨fun j => (nttR_surj (PVec.val s j)).choose, fun j => (nttR_surj (PVec.val s j)).choose_spec⟩

/-! ### C34 -/

/-- C34: `verify` accepts iff the bytes parse, the norms are within bounds, and the transmitted challenge hash is the hash of
⌊a z − 2^νt c t⌉ + h mod ⌊q/2^νw⌋ and of the message digest — for every public key object that can be made from bytes, every message and
every byte string. -/
theorem C34_accepts_iff (P : Par) (hP : P = raccoon128 ∨ P = raccoon192 ∨ P = raccoon256) (E : Ext) (fuel : Nat) (pk : PKey P.k) (hpk : pk.WF P) (msg sig : List U8) :
    Api.verify P E fuel pk msg sig = .ok true ↔
      ∃ c h z pkb A a cp, decodeSig (2 * P.κ / 8) (P.k * 512) (P.l * 512) sig = .ok (some (c, h, z)) ∧ NormsOK P.νw P.Binf.toNat P.B22.toNat h z ∧
        Api.pkAsBytes P pk (List.replicate (PKey.byteLen P.κ P.k P.νt) 0) = .ok pkb ∧ PMat.expandA E fuel P.k P.l pk.seed = .ok A ∧ A.Is a ∧
        Poly.chalPoly E fuel P.ω c = .ok cp ∧ VerifyEq E P.κ P.νw P.νt a (PVec.val pk.t) cp.toZ (messageHash E P.κ pkb msg) c h z := by
  unfold Api.verify
  rcases verify_cases P hP E fuel pk hpk msg sig with ⟨d1, v⟩ | ⟨d1, v⟩ | ⟨c, h, z, d1, ⟨n, v⟩ | ⟨n, ⟨f, v⟩ | ⟨pkb, A, cp, e1, e2, e3, hv⟩⟩⟩
  · rw [v]
    refine ⟨(nomatch ·), ?_⟩
    rintro ⟨c, h, z, -, -, -, -, d2, -⟩
    rw [d1] at d2; cases d2
  · rw [v]
    refine ⟨(nomatch ·), ?_⟩
    rintro ⟨c, h, z, -, -, -, -, d2, -⟩
    rw [d1] at d2; cases d2
  · rw [v]
    refine ⟨(nomatch ·), ?_⟩
    rintro ⟨c', h', z', -, -, -, -, d2, n', -⟩
    obtain ⟨rfl, h2⟩ := Prod.mk.inj (Option.some.inj (Res.ok.inj (d1.symm.trans d2)))
    obtain ⟨rfl, rfl⟩ := Prod.mk.inj h2
    exact absurd n' n
  · rw [v]
    refine ⟨(nomatch ·), ?_⟩
    rintro ⟨c', h', z', pkb, A, a, cp, d2, n', -, e2, -, e3, -⟩
    obtain ⟨rfl, h2⟩ := Prod.mk.inj (Option.some.inj (Res.ok.inj (d1.symm.trans d2)))
    rcases f with f | f
    · rw [f] at e2; cases e2
    · rw [f] at e3; cases e3
  · constructor
    · intro hvt
      obtain ⟨a, ha⟩ := PMat.Is.exists A
      refine ⟨c, h, z, pkb, A, a, cp, d1, n, e1, e2, ha, e3, ?_⟩
      by_contra hne
      rw [(hv a ha).2 hne] at hvt
      exact Bool.noConfusion (Res.ok.inj hvt)
    · rintro ⟨c', h', z', pkb', A', a, cp', d2, n', e1', e2', ha, e3', hq⟩
      obtain ⟨rfl, h2⟩ := Prod.mk.inj (Option.some.inj (Res.ok.inj (d1.symm.trans d2)))
      obtain ⟨rfl, rfl⟩ := Prod.mk.inj h2
      obtain rfl := Res.ok.inj (e1.symm.trans e1')
      obtain rfl := Res.ok.inj (e2.symm.trans e2')
      obtain rfl := Res.ok.inj (e3.symm.trans e3')
      exact (hv a ha).1 hq

/-- C34: the behaviour of `verify` is undefined exactly when parsing the signature is (see C30). -/
theorem C34_defined (P : Par) (hP : P = raccoon128 ∨ P = raccoon192 ∨ P = raccoon256) (E : Ext) (fuel : Nat) (pk : PKey P.k) (hpk : pk.WF P) (msg sig : List U8) :
    Api.verify P E fuel pk msg sig = .ub ↔ decodeSig (2 * P.κ / 8) (P.k * 512) (P.l * 512) sig = .ub := by
  unfold Api.verify
  rcases verify_cases P hP E fuel pk hpk msg sig with ⟨d1, v⟩ | ⟨d1, v⟩ | ⟨c, hh, z, d1, ⟨n, v⟩ | ⟨n, ⟨f, v⟩ | ⟨pkb, A, cp, e1, e2, e3, hv⟩⟩⟩
  · rw [v, d1]; exact ⟨fun _ => rfl, fun _ => rfl⟩
  · rw [v, d1]; exact ⟨(nomatch ·), (nomatch ·)⟩
  · rw [v, d1]; exact ⟨(nomatch ·), (nomatch ·)⟩
  · rw [v, d1]; exact ⟨(nomatch ·), (nomatch ·)⟩
  · rw [d1]
    refine ⟨fun h => ?_, (nomatch ·)⟩
    obtain ⟨a, ha⟩ := PMat.Is.exists A
    by_cases hq : VerifyEq E P.κ P.νw P.νt a (PVec.val pk.t) cp.toZ (messageHash E P.κ pkb msg) c hh z
    · rw [(hv a ha).1 hq] at h; cases h
    · rw [(hv a ha).2 hq] at h; cases h

/-- C34: `verify` only ever accepts the one canonical encoding of a signature inside the norm bounds. -/
theorem C34_strict (P : Par) (hP : P = raccoon128 ∨ P = raccoon192 ∨ P = raccoon256) (E : Ext) (fuel : Nat) (pk : PKey P.k) (hpk : pk.WF P) (msg sig : List U8)
    (h : Api.verify P E fuel pk msg sig = .ok true) :
    ∃ c h z, c.length = 2 * P.κ / 8 ∧ h.length = P.k * 512 ∧ z.length = P.l * 512 ∧ IsSigEncoding c h z sig.length sig ∧
      NormsOK P.νw P.Binf.toNat P.B22.toNat h z := by
  obtain ⟨c, h, z, -, -, -, -, d, n, -⟩ := (C34_accepts_iff P hP E fuel pk hpk msg sig).1 h
  obtain ⟨l1, l2, l3, e⟩ := C29_canonical _ _ _ _ _ _ _ d
  exact ⟨c, h, z, l1, l2, l3, e, n⟩

/-- C34: the decision does not depend on the sampling budget. -/
theorem C34_budget (P : Par) (hP : P = raccoon128 ∨ P = raccoon192 ∨ P = raccoon256) (E : Ext) (fuel fuel' : Nat) (hf : fuel ≤ fuel') (pk : PKey P.k) (hpk : pk.WF P)
    (msg sig : List U8) (r : Bool) (h : Api.verify P E fuel pk msg sig = .ok r) : Api.verify P E fuel' pk msg sig = .ok r := by
  unfold Api.verify at h ⊢
  rcases verify_cases P hP E fuel pk hpk msg sig with ⟨d1, v⟩ | ⟨d1, v⟩ | ⟨c, hh, z, d1, ⟨n, v⟩ | ⟨n, ⟨f, v⟩ | ⟨pkb, A, cp, e1, e2, e3, hv⟩⟩⟩ <;>
  rcases verify_cases P hP E fuel' pk hpk msg sig with ⟨d1', v'⟩ | ⟨d1', v'⟩ | ⟨c', h', z', d1', ⟨n', v'⟩ | ⟨n', ⟨f', v'⟩ | ⟨pkb', A', cp', e1', e2', e3', hv'⟩⟩⟩ <;>
  (have hd := d1.symm.trans d1') <;>
  first
  | (rw [v] at h; cases h; done)
  | (rw [v'] ; rw [v] at h ; exact h)
  | (cases hd; done)
  | skip
  all_goals
    obtain ⟨rfl, h2⟩ := Prod.mk.inj (Option.some.inj (Res.ok.inj hd))
    obtain ⟨rfl, rfl⟩ := Prod.mk.inj h2
  all_goals first
  | exact absurd n' n
  | exact absurd n n'
  | skip
  · rcases f' with f | f
    · rw [expandA_mono hf e2] at f; cases f
    · rw [chalPoly_mono hf e3] at f; cases f
  · obtain rfl := Res.ok.inj (e1.symm.trans e1')
    obtain rfl := Res.ok.inj ((expandA_mono hf e2).symm.trans e2')
    obtain rfl := Res.ok.inj ((chalPoly_mono hf e3).symm.trans e3')
    obtain ⟨a, ha⟩ := PMat.Is.exists A
    by_cases hq : VerifyEq E P.κ P.νw P.νt a (PVec.val pk.t) cp.toZ (messageHash E P.κ pkb msg) c hh z
    · rw [(hv' a ha).1 hq, ← h, (hv a ha).1 hq]
    · rw [(hv' a ha).2 hq, ← h, (hv a ha).2 hq]

/-! ### C35, C36 -/

/-- From the model's norm check back to the specified bounds, for a signature in the centered range. -/
theorem normsOK_of_check (P : Par) (hP : P = raccoon128 ∨ P = raccoon192 ∨ P = raccoon256) {s : Sig} (hl : s.h.length = P.k * 512) (zl : s.z.length = P.l * 512)
    (hh : ∀ x ∈ s.h, 2 * x.natAbs < q / 2 ^ P.νw) (hz : ∀ x ∈ s.z, 2 * x.natAbs < q) (hb : s.checkBounds P.νw P.Binf P.B22 = .ok true) :
    NormsOK P.νw P.Binf.toNat P.B22.toNat s.h s.z := by
  have hq : q = 549824583172097 := rfl
  have w1 := (par_bounds P hP).1
  have := C32_decides P hP s hl zl (fun x hx => by have := hh x hx; rw [w1, q44] at this; omega) (fun x hx => by have := hz x hx; omega)
  rw [this] at hb
  exact of_decide_eq_true (Res.ok.inj hb)

/-- C36: whenever `sign` returns, the bytes are the encoding of a triple (c_hash, h, z) inside the norm bounds with
w = ⌊a r + e⌉, c_hash = H(w, μ), z = c·s + r and h ≡ w − ⌊a z − 2^νt c t⌉, where s is the key's secret and r, e are the noise polynomials
drawn from the n-th stretch of the SHAKE128 stream of the entropy (n = number of rejected attempts). -/
theorem C36_signature_equations (P : Par) (hP : P = raccoon128 ∨ P = raccoon192 ∨ P = raccoon256) (E : Ext) (fuel d : Nat) (hd : ValidShares d)
    (sk : SKey P.k P.l d) (hsk : sk.WF P) (s : Fin P.l → RPoly) (hs : sk.s.IsNtt s) (entropy msg buf b : List U8)
    (h : Api.sign P E fuel d sk entropy msg buf = .ok b) :
    ∃ uw rep n cHash hint z pkb A a c, tab uwTable (BitVec.ofNat 64 d) = .ok uw ∧ tab repTable (BitVec.ofNat 64 d) = .ok rep ∧
      IsSigEncoding cHash hint z buf.length b ∧ NormsOK P.νw P.Binf.toNat P.B22.toNat hint z ∧
      Api.pkAsBytes P sk.pkey (List.replicate (PKey.byteLen P.κ P.k P.νt) 0) = .ok pkb ∧ PMat.expandA E fuel P.k P.l sk.pkey.seed = .ok A ∧ A.Is a ∧
      Poly.chalPoly E fuel P.ω cHash = .ok c ∧
      IsSigOf E P.κ P.νw P.νt a (PVec.val sk.pkey.t) s c.toZ (messageHash E P.κ pkb msg)
        (vecR (noiseVec E uw P.κ d rep P.l (E.shake128 entropy) (n * ((P.l + P.k) * (rep * d * (P.κ / 8))))))
        (vecR (noiseVec E uw P.κ d rep P.k (E.shake128 entropy) (n * ((P.l + P.k) * (rep * d * (P.κ / 8))) + P.l * (rep * d * (P.κ / 8))))) cHash hint z := by
  obtain ⟨rep, uw, -, -, e1, e2, -, -, u1, u2, -⟩ := tab_ok hd
  unfold Api.sign at h
  rw [e2, Res.ok_bind, e1, Res.ok_bind] at h
  obtain ⟨pkb, A, n, c, sg, buf', f1, f2, f3, f4, f5, f6, f7, f8⟩ := sign_spec P hP E fuel d uw rep hd.pow u1 (by omega) sk (PVec.below_iff.1 hsk.pkey.t) hsk.s s hs entropy msg buf b h
  obtain ⟨a, ha⟩ := PMat.Is.exists A
  have hi := f8 a ha
  refine ⟨uw, rep, n, sg.cHash, sg.h, sg.z, pkb, A, a, c, e2, e1, ?_, normsOK_of_check P hP hi.hlen hi.zlen hi.hcent hi.zcent f7, f1, f2, ha, f4, hi⟩
  rw [← f6]
  exact C28_format _ _ _ _ _ f5

/-- C36: the ephemeral values are small: every coefficient of r and e is at most rep·d·2^(uw−1) in absolute value. -/
theorem C36_ephemeral_small (E : Ext) (u κ d rep n : Nat) (hu : 0 < u) (stream : Nat → U8) (pos : Nat) (i : Fin n) (c : Fin 512) :
    |noiseVec E u κ d rep n stream pos i c| ≤ rep * d * 2 ^ (u - 1) :=
  (C22_noise_bound E u rep κ d i.val hu stream _ c).2

/-- C35: before every attempt of the signing loop the working sharing is reduced and stands for the secret of the key. -/
theorem C35_secret_kept (P : Par) (hP : P = raccoon128 ∨ P = raccoon192 ∨ P = raccoon256) (E : Ext) (fuel d uw rep : Nat) (hd : ValidShares d) (hu : 0 < uw) (hu' : uw ≤ 49)
    (sk : SKey P.k P.l d) (hsk : sk.WF P) (A : PMat P.k P.l) (hA : PMat.expandA E fuel P.k P.l sk.pkey.seed = .ok A) (t1 t : PVec P.k 1)
    (ht1 : sk.pkey.t.shl P.νt = .ok t1) (ht : t1.ntt = .ok t) (μ : List U8) (n : Nat) (prng : Prng) (m : Mrng d) (buf : List U8) (st : SignSt P.l d)
    (h : Retries P E fuel d uw rep A t μ n ⟨sk.s, prng, m, buf⟩ st) :
    PVec.Can st.s ∧ PVec.val st.s = PVec.val sk.s := by
  obtain ⟨w1, w2, -⟩ := par_bounds P hP
  obtain ⟨ts, ets, tsc, tsv⟩ := PVec.shl_spec (n := 42) (m := 128) (by omega) (by norm_num) (PVec.below_iff.1 hsk.pkey.t)
  rw [w2] at ht1
  obtain rfl : ts = t1 := Res.ok.inj (ets.symm.trans ht1)
  obtain ⟨tn, etn, tnc, tni⟩ := PVec.IsNtt.ntt tsc
  obtain rfl : tn = t := Res.ok.inj (etn.symm.trans ht)
  obtain ⟨a, ha⟩ := PMat.Is.exists A
  obtain ⟨sv, hsv⟩ := PVec.IsNtt.exists sk.s
  have C : SignCtx P E d uw A tn a sk.pkey.t := ⟨hP, hd.pow, hu, hu', ((expandA_safe E fuel P.k P.l sk.pkey.seed).par A hA).1, ha, tnc, fun i => by rw [← tni i, tsv, w2]⟩
  obtain ⟨i1, i2, -⟩ := h.inv C hsk.s sv hsv
  exact ⟨i1, i2⟩

/-- C35: what `sign` returns has the length of the buffer and is the encoding of a signature within the norm bounds. -/
theorem C35_only_acceptable (P : Par) (hP : P = raccoon128 ∨ P = raccoon192 ∨ P = raccoon256) (E : Ext) (fuel d : Nat) (hd : ValidShares d)
    (sk : SKey P.k P.l d) (hsk : sk.WF P) (entropy msg buf b : List U8) (h : Api.sign P E fuel d sk entropy msg buf = .ok b) :
    b.length = buf.length ∧ ∃ c hint z, c.length = 2 * P.κ / 8 ∧ hint.length = P.k * 512 ∧ z.length = P.l * 512 ∧ IsSigEncoding c hint z buf.length b ∧
      NormsOK P.νw P.Binf.toNat P.B22.toNat hint z := by
  obtain ⟨sv, hsv⟩ := PVec.IsNtt.exists sk.s
  obtain ⟨uw, rep, n, c, hint, z, pkb, A, a, cp, -, -, e, nrm, -, -, -, -, i⟩ := C36_signature_equations P hP E fuel d hd sk hsk sv hsv entropy msg buf b h
  refine ⟨e.1, c, hint, z, ?_, i.hlen, i.zlen, e, nrm⟩
  rw [i.hash]
  unfold challengeHash xofOut
  rw [List.length_map, List.length_range]

/-- C35: the outcome of `sign` (result, undefinedness, or not finishing) does not depend on the previous content of the output buffer. -/
theorem C35_buffer_independent (P : Par) (E : Ext) (fuel d : Nat) (sk : SKey P.k P.l d) (entropy msg buf buf' : List U8) (hl : buf.length = buf'.length) :
    Api.sign P E fuel d sk entropy msg buf = Api.sign P E fuel d sk entropy msg buf' := by
  have key : ∀ uw rep, sk.sign P E fuel d uw rep entropy msg buf = sk.sign P E fuel d uw rep entropy msg buf' := by
    intro uw rep
    unfold SKey.sign
    have : ∀ (A : PMat P.k P.l) (t : PVec P.k 1) (μ : List U8), signLoop P E fuel d uw rep A t μ fuel ⟨sk.s, Prng.new E entropy, Mrng.new E d, buf⟩ =
        signLoop P E fuel d uw rep A t μ fuel ⟨sk.s, Prng.new E entropy, Mrng.new E d, buf'⟩ :=
      fun A t μ => signLoop_rel P E fuel d uw rep A t μ fuel ⟨rfl, rfl, rfl, hl⟩
    dsimp only
    simp only [this]
  unfold Api.sign
  simp only [key]

/-! ### C37, C38 -/

/-- C37: key generation is never undefined; when it returns, the public key holds the given seed and t = ⌊a s + e⌉ (each coefficient below
⌊q/2^νt⌋ = 125), the secret sharing is reduced and stands for s, where s and e are the noise polynomials drawn from the SHAKE128 stream of the
entropy. -/
theorem C37_key_generation (P : Par) (hP : P = raccoon128 ∨ P = raccoon192 ∨ P = raccoon256) (E : Ext) (fuel d : Nat) (hd : ValidShares d) (entropy seed : List U8) :
    Api.generate P (utTableOf P) E fuel d entropy seed ≠ .ub ∧
    ∀ sk, Api.generate P (utTableOf P) E fuel d entropy seed = .ok sk →
      ∃ ut rep A a, tab (utTableOf P) (BitVec.ofNat 64 d) = .ok ut ∧ tab repTable (BitVec.ofNat 64 d) = .ok rep ∧
        PMat.expandA E fuel P.k P.l seed = .ok A ∧ A.Is a ∧ sk.pkey.seed = seed ∧ PVec.Can sk.s ∧
        sk.s.IsNtt (vecR (noiseVec E ut P.κ d rep P.l (E.shake128 entropy) 0)) ∧
        ∀ i (hi : i < P.k) j (hj : j < 512), coeffAt sk.pkey.t (512 * i + j) < 125 ∧ coeffAt sk.pkey.t (512 * i + j) =
          roundZ P.νt ((ringMatVec a (vecR (noiseVec E ut P.κ d rep P.l (E.shake128 entropy) 0)) ⟨i, hi⟩ +
            vecR (noiseVec E ut P.κ d rep P.k (E.shake128 entropy) (P.l * (rep * d * (P.κ / 8)))) ⟨i, hi⟩) ⟨j, hj⟩) := by
  obtain ⟨rep, -, ut1, ut2, e1, -, e3, e4, -, -, v1, v2, v3, v4⟩ := tab_ok hd
  obtain ⟨ut, e2, u1, u2⟩ : ∃ ut, tab (utTableOf P) (BitVec.ofNat 64 d) = .ok ut ∧ 0 < ut ∧ ut ≤ 7 := by
    unfold utTableOf
    split
    · exact ⟨ut2, e4, v3, v4⟩
    · exact ⟨ut1, e3, v1, v2⟩
  have hg := generate_spec P hP E fuel d ut rep hd.pow u1 (by omega) entropy seed
  unfold Api.generate
  rw [e2, Res.ok_bind, e1, Res.ok_bind]
  refine ⟨hg.ne_ub, fun sk h => ?_⟩
  obtain ⟨g1, g2, g3, g4, A, g5, g6⟩ := hg.par sk h
  obtain ⟨a, ha⟩ := PMat.Is.exists A
  refine ⟨ut, rep, A, a, rfl, rfl, g5, ha, g1, g2, g3, fun i hi j hj => ?_⟩
  rw [coeffAt_rc hi hj, g6 a ha i hi j hj]
  refine ⟨?_, rfl⟩
  have e125 : q / 2 ^ P.νt = 125 := by rw [(par_bounds P hP).2.1, q42]
  have := g4 i hi j hj
  rw [g6 a ha i hi j hj, e125] at this
  exact this

/-- C37: the secret and the error are short: every coefficient is a sum of d·rep values in [−2^(ut−1), 2^(ut−1)). -/
theorem C37_short (E : Ext) (u κ d rep n : Nat) (hu : 0 < u) (stream : Nat → U8) (pos : Nat) (i : Fin n) (c : Fin 512) :
    ∃ f : Nat → Nat → Int, (∀ r j, -(2 ^ (u - 1) : Int) ≤ f r j ∧ f r j < 2 ^ (u - 1)) ∧
      noiseVec E u κ d rep n stream pos i c = ∑ r ∈ range rep, ∑ j ∈ range d, f r j :=
  ⟨fun r j => noiseAt E u κ d i.val stream (pos + i.val * (rep * d * (κ / 8))) r j c,
    fun r j => (C22_noise_bound E u rep κ d i.val hu stream _ c).1 r j, rfl⟩

/-- C37: a generated key is a well-formed key object if the seed has the right length. -/
theorem C37_wellformed (P : Par) (hP : P = raccoon128 ∨ P = raccoon192 ∨ P = raccoon256) (E : Ext) (fuel d : Nat) (hd : ValidShares d) (entropy seed : List U8)
    (hs : seed.length = P.κ / 8) (sk : SKey P.k P.l d) (h : Api.generate P (utTableOf P) E fuel d entropy seed = .ok sk) : sk.WF P := by
  obtain ⟨ut, rep, A, a, -, -, -, -, g1, g2, -, g4⟩ := (C37_key_generation P hP E fuel d hd entropy seed).2 sk h
  refine ⟨⟨by rw [g1, hs], ?_⟩, g2⟩
  intro i hi
  have := (g4 (i / 512) (by omega) (i % 512) (by omega)).1
  rw [show 512 * (i / 512) + i % 512 = i by omega] at this
  omega

/-- C38: refreshing a well-formed secret key is never undefined, keeps the public key and the secret, and gives a well-formed key. -/
theorem C38_refresh (P : Par) (E : Ext) (fuel d : Nat) (hd : ValidShares d) (sk : SKey P.k P.l d) (hsk : sk.WF P) :
    Api.refresh P E fuel sk ≠ .ub ∧
    ∀ sk', Api.refresh P E fuel sk = .ok sk' → sk'.WF P ∧ sk'.pkey = sk.pkey ∧ PVec.val sk'.s = PVec.val sk.s := by
  have h := skRefresh_spec E fuel hd.pow sk hsk.s
  refine ⟨h.ne_ub, fun sk' e => ?_⟩
  obtain ⟨h1, h2, h3⟩ := h.par sk' e
  exact ⟨⟨by rw [h1]; exact hsk.pkey, h2⟩, h1, h3⟩

/-- C38: any sequence of refreshes and trips through bytes (any entropy, any buffer content, any budgets) keeps the public key, the secret, and
well-formedness. -/
theorem C38_history (P : Par) (hP : P = raccoon128 ∨ P = raccoon192 ∨ P = raccoon256) (E : Ext) (d : Nat) (hd : ValidShares d) (sk sk' : SKey P.k P.l d) (hsk : sk.WF P)
    (h : SKey.Derived P E sk sk') : sk'.WF P ∧ sk'.pkey = sk.pkey ∧ PVec.val sk'.s = PVec.val sk.s := by
  obtain ⟨-, w2, -, -, -, -, -, -, -, h8, -⟩ := par_bounds P hP
  induction h with
  | refl => exact ⟨hsk, rfl, rfl⟩
  | refresh fuel h e ih =>
    obtain ⟨i1, i2, i3⟩ := ih
    obtain ⟨j1, j2, j3⟩ := (C38_refresh P E fuel d hd _ i1).2 _ e
    exact ⟨j1, j2.trans i2, j3.trans i3⟩
  | @reload sk' sk'' fuel fuel' entropy buf b h hb e e' ih =>
    obtain ⟨i1, i2, i3⟩ := ih
    unfold Api.skAsBytes at e
    obtain ⟨⟨b', p'⟩, e1, e2⟩ := Res.bind_eq_ok.1 e
    obtain rfl : b' = b := Res.ok.inj e2
    rw [w2] at hb e1
    obtain ⟨g1, sk2, g2, g3, g4, g5, -⟩ := (C25_round_trip E fuel (max fuel fuel') P.κ P.k P.l d h8 hd.pos (Nat.le_max_left _ _) sk' i1.pkey.seed i1.pkey.t i1.s buf hb (Prng.new E entropy)).2 b' p' e1
    unfold Api.skFromBytes at e'
    rw [w2] at e'
    obtain rfl := skFromBytes_det E _ _ P.κ P.k P.l d h8 hd.pos b' g1 sk2 sk'' g2 e'
    exact ⟨⟨by rw [g3]; exact i1.pkey, g4⟩, g3.trans i2, g5.trans i3⟩

/-! ### C33 -/

theorem hint_recovers {W Y : Nat} {X : Int} {m : Nat} (hW : W < m) (h : (X - ((W : Int) - Y)) % (m : Int) = 0) : (((Y : Int) + X) % (m : Int)).toNat = W := by
  have e : ((Y : Int) + X) % m = W := by
    have h1 : (Y : Int) + X = (X - ((W : Int) - Y)) + W := by ring
    rw [h1, Int.add_emod, h, zero_add, Int.emod_emod_of_dvd _ (dvd_refl _)]
    exact Int.emod_eq_of_lt (by omega) (by omega)
  rw [e]; rfl

/-- The hint makes the verifier recompute the signer's commitment. -/
theorem IsSigOf.verifyEq {E : Ext} {κ νw νt : Nat} {a : Fin k → Fin l → RPoly} {t : Fin k → RPoly} {s : Fin l → RPoly} {c : RPoly} {μ : List U8} {r : Fin l → RPoly}
    {e : Fin k → RPoly} {cHash : List U8} {h z : List Int} (hm : 0 < q / 2 ^ νw) (i : IsSigOf E κ νw νt a t s c μ r e cHash h z) : VerifyEq E κ νw νt a t c μ cHash h z := by
  have hf : (fun r i => (((commitY νw νt a t c (vecR (unflatten l z)) r i : Int) + unflatten k h r i) % (q / 2 ^ νw : Nat)).toNat) = commitW νw a r e := by
    funext x y
    exact hint_recovers (Nat.mod_lt _ hm) (i.hint x y)
  unfold VerifyEq
  rw [hf]
  exact i.hash

/-- C33: for each parameter set and share count, every well-formed secret key, entropy, message and output buffer: if `sign` returns, `verify`
with the key's public key accepts the bytes, as soon as it is given at least the same sampling budget. -/
theorem C33_sign_verify (P : Par) (hP : P = raccoon128 ∨ P = raccoon192 ∨ P = raccoon256) (E : Ext) (fuel fuel' d : Nat) (hf : fuel ≤ fuel') (hd : ValidShares d)
    (sk : SKey P.k P.l d) (hsk : sk.WF P) (entropy msg buf b : List U8) (h : Api.sign P E fuel d sk entropy msg buf = .ok b) :
    Api.verify P E fuel' (Api.getPkey P sk) msg b = .ok true := by
  obtain ⟨w1, w2, -, -, -, -, -, w3, -⟩ := par_bounds P hP
  refine C34_budget P hP E fuel fuel' hf (Api.getPkey P sk) hsk.pkey msg b true ?_
  obtain ⟨sv, hsv⟩ := PVec.IsNtt.exists sk.s
  obtain ⟨rep, uw, -, -, e1, e2, -, -, u1, u2, -⟩ := tab_ok hd
  unfold Api.sign at h
  rw [e2, Res.ok_bind, e1, Res.ok_bind] at h
  obtain ⟨pkb, A, n, c, sg, buf', f1, f2, f3, f4, f5, f6, f7, f8⟩ := sign_spec P hP E fuel d uw rep hd.pow u1 (by omega) sk (PVec.below_iff.1 hsk.pkey.t) hsk.s sv hsv entropy msg buf b h
  obtain ⟨a, ha⟩ := PMat.Is.exists A
  have hi := f8 a ha
  have hcl : sg.cHash.length = 2 * P.κ / 8 := by
    rw [hi.hash]
    unfold challengeHash xofOut
    rw [List.length_map, List.length_range]
  have hdec := fromBytes_some (C27_api P.κ P.k P.l w3 sg hcl hi.hlen hi.zlen buf' b f5)
  exact (C34_accepts_iff P hP E fuel sk.pkey hsk.pkey msg b).2 ⟨sg.cHash, sg.h, sg.z, pkb, A, a, c, hdec,
    normsOK_of_check P hP hi.hlen hi.zlen hi.hcent hi.zcent f7, f1, f2, ha, f4, hi.verifyEq (by rw [w1, q44]; omega)⟩

/-- C33: the whole history: generate, then any refreshes and trips through bytes, then sign; the signature verifies with the public key of
the generated key, also after that public key made a trip through bytes. -/
theorem C33_correctness (P : Par) (hP : P = raccoon128 ∨ P = raccoon192 ∨ P = raccoon256) (E : Ext) (fuel0 fuel fuel' d : Nat) (hf : fuel ≤ fuel') (hd : ValidShares d)
    (entropy0 seed : List U8) (hseed : seed.length = P.κ / 8) (sk0 sk : SKey P.k P.l d) (h0 : Api.generate P (utTableOf P) E fuel0 d entropy0 seed = .ok sk0)
    (hder : SKey.Derived P E sk0 sk) (entropy msg buf b : List U8) (h : Api.sign P E fuel d sk entropy msg buf = .ok b)
    (pkBuf pkBytes : List U8) (hpl : pkBuf.length = PKey.byteLen P.κ P.k P.νt) (hpk : Api.pkAsBytes P (Api.getPkey P sk0) pkBuf = .ok pkBytes) :
    Api.verify P E fuel' (Api.getPkey P sk0) msg b = .ok true ∧
    ∃ pk, Api.pkFromBytes P pkBytes = .ok pk ∧ Api.verify P E fuel' pk msg b = .ok true := by
  obtain ⟨-, w2, -, -, -, -, -, -, -, h8, -⟩ := par_bounds P hP
  have hwf := C37_wellformed P hP E fuel0 d hd entropy0 seed hseed sk0 h0
  obtain ⟨i1, i2, -⟩ := C38_history P hP E d hd sk0 sk hwf hder
  have hv := C33_sign_verify P hP E fuel fuel' d hf hd sk i1 entropy msg buf b h
  unfold Api.getPkey at hv hpk ⊢
  rw [i2] at hv
  refine ⟨hv, sk0.pkey, ?_, hv⟩
  unfold Api.pkAsBytes at hpk
  unfold Api.pkFromBytes
  rw [w2] at hpk hpl ⊢
  exact C24_decode_encode P.κ P.k h8 sk0.pkey hwf.pkey.seed hwf.pkey.t pkBuf pkBytes hpl hpk

end Raccoon
