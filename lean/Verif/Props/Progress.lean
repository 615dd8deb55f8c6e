import Verif.Proofs.IntResp
import Verif.Props.Scheme
/-!
# Progress: C52 (what happens when the rejection samplers finish within the budget)

Non-vacuity: `demo_finish` (samplers that finish), `demo_run` and `demo_retry` in `Props/Demo.lean`.
-/
namespace Raccoon
attribute [-instance] Monoid.toNPow
open Finset

/-- C52: if the samplers finish, key generation returns. -/
theorem C52_generate (P : Par) (hP : P = raccoon128 ∨ P = raccoon192 ∨ P = raccoon256) (E : Ext) (fuel d : Nat) (hd : ValidShares d) (hf : SamplersFinish P E fuel)
    (entropy seed : List U8) (hs : seed.length = P.κ / 8) : ∃ sk, Api.generate P (utTableOf P) E fuel d entropy seed = .ok sk := by
  obtain ⟨rep, -, ut1, ut2, e1, -, e3, e4, -, -, v1, v2, v3, v4⟩ := tab_ok hd
  obtain ⟨ut, e2, u1, u2⟩ : ∃ ut, tab (utTableOf P) (BitVec.ofNat 64 d) = .ok ut ∧ 0 < ut ∧ ut ≤ 7 := by
    unfold utTableOf
    split
    · exact ⟨ut2, e4, v3, v4⟩
    · exact ⟨ut1, e3, v1, v2⟩
  have hg : (SKey.generate P E fuel d ut rep entropy seed).Good (fun _ => True) := by
    unfold SKey.generate
    obtain ⟨A, eA⟩ := hf.expandA seed hs
    dsimp only
    rw [eA, Res.ok_bind]
    refine (good_vecZeroEncoding hf.mask hd.pow _ _ (Mrng.reach_new E d)).bind fun r hr => ?_
    obtain ⟨r1, m1⟩ := r
    refine (good_vecAddRepNoise hf.mask hd.pow _ _ _ u1 _ _ m1 hr).bind fun r hr => ?_
    obtain ⟨r2, p2, m2⟩ := r
    refine (fin_vecNtt _).good.bind fun r3 _ => ?_
    refine (fin_vecIntt _).good.bind fun w _ => ?_
    refine (good_vecAddRepNoise hf.mask hd.pow _ _ _ u1 _ _ m2 hr).bind fun r hr => ?_
    obtain ⟨w2, p3, m3⟩ := r
    exact Res.Good.ok trivial
  obtain ⟨sk, e, -⟩ := (generate_spec P hP E fuel d ut rep hd.pow u1 (by omega) entropy seed).okGood hg
  refine ⟨sk, ?_⟩
  unfold Api.generate
  rw [e2, Res.ok_bind, e1, Res.ok_bind, e]

/-- C52: if the samplers finish, refreshing a well-formed key returns. -/
theorem C52_refresh (P : Par) (E : Ext) (fuel d : Nat) (hd : ValidShares d) (hf : SamplersFinish P E fuel) (sk : SKey P.k P.l d) (hsk : sk.WF P) :
    ∃ sk', Api.refresh P E fuel sk = .ok sk' := by
  have hg : (sk.refresh E fuel).Good (fun _ => True) := by
    unfold SKey.refresh
    refine (good_vecRefresh hf.mask hd.pow _ _ (Mrng.reach_new E d)).bind fun r hr => ?_
    exact Res.Good.ok trivial
  obtain ⟨sk', e, -⟩ := (skRefresh_spec E fuel hd.pow sk hsk.s).okGood hg
  exact ⟨sk', e⟩

/-- C52: if the samplers finish, a well-formed key can be serialised with any entropy, and the bytes can be read back. -/
theorem C52_reload (P : Par) (hP : P = raccoon128 ∨ P = raccoon192 ∨ P = raccoon256) (E : Ext) (fuel d : Nat) (hd : ValidShares d) (hf : SamplersFinish P E fuel)
    (sk : SKey P.k P.l d) (hsk : sk.WF P) (entropy buf : List U8) (hb : buf.length = SKey.byteLen P.κ P.k P.l d P.νt) :
    ∃ b sk', Api.skAsBytes P E fuel sk entropy buf = .ok b ∧ Api.skFromBytes P E fuel d b = .ok sk' := by
  obtain ⟨-, w2, -, -, -, -, -, -, -, h8, -⟩ := par_bounds P hP
  rw [w2] at hb
  obtain ⟨⟨b, p⟩, e⟩ := C25_total E fuel P.κ P.k P.l d h8 hd.pos (fun _ _ => hf.sampleQ _ _) sk hsk.pkey.seed hsk.s buf hb (Prng.new E entropy)
  obtain ⟨-, sk', e', -⟩ := (C25_round_trip E fuel fuel P.κ P.k P.l d h8 hd.pos (Nat.le_refl _) sk hsk.pkey.seed hsk.pkey.t hsk.s buf hb _).2 b p e
  refine ⟨b, sk', ?_, ?_⟩
  · unfold Api.skAsBytes
    rw [w2, e]; rfl
  · unfold Api.skFromBytes
    rw [w2, e']

/-- C52: if the samplers finish, `verify` decides: it answers unless parsing the signature is undefined (C30). -/
theorem C52_verify (P : Par) (hP : P = raccoon128 ∨ P = raccoon192 ∨ P = raccoon256) (E : Ext) (fuel : Nat) (hf : SamplersFinish P E fuel) (pk : PKey P.k) (hpk : pk.WF P)
    (msg sig : List U8) : (∃ r, Api.verify P E fuel pk msg sig = .ok r) ∨ decodeSig (2 * P.κ / 8) (P.k * 512) (P.l * 512) sig = .ub := by
  unfold Api.verify
  rcases verify_cases P hP E fuel pk hpk msg sig with ⟨d1, v⟩ | ⟨d1, v⟩ | ⟨c, h, z, d1, ⟨n, v⟩ | ⟨n, ⟨f, v⟩ | ⟨pkb, A, cp, e1, e2, e3, hv⟩⟩⟩
  · exact Or.inr d1
  · exact Or.inl ⟨_, v⟩
  · exact Or.inl ⟨_, v⟩
  · exfalso
    rcases f with f | f
    · obtain ⟨A, e⟩ := hf.expandA pk.seed hpk.seed
      rw [e] at f; cases f
    · obtain ⟨p, e⟩ := hf.chal c (C29_canonical _ _ _ _ _ _ _ d1).1
      rw [e] at f; cases f
  · left
    obtain ⟨a, ha⟩ := PMat.Is.exists A
    by_cases hq : VerifyEq E P.κ P.νw P.νt a (PVec.val pk.t) cp.toZ (messageHash E P.κ pkb msg) c h z
    · exact ⟨_, (hv a ha).1 hq⟩
    · exact ⟨_, (hv a ha).2 hq⟩

/-- What it takes for encoding a signature in the centered range to be undefined. -/
theorem encodeSig_ub_of {P : Par} (hP : P = raccoon128 ∨ P = raccoon192 ∨ P = raccoon256) {c : List U8} {h z : List Int} {buf : List U8}
    (hz0 : z.length = P.l * 512) (hcent : ∀ x ∈ h, 2 * x.natAbs < q / 2 ^ P.νw) (e : encodeSig c h z buf = .ub) (hc : c.length ≤ buf.length) :
    (∃ x ∈ z, 15 * 2 ^ 40 ≤ x.natAbs) ∨ (∃ x, z.getLast? = some x ∧ 8 * 2 ^ 40 ≤ x.natAbs) := by
  obtain ⟨w1, -, -, -, -, -, -, w3, -⟩ := par_bounds P hP
  by_contra hn
  rw [not_or] at hn
  obtain ⟨n1, n2⟩ := hn
  cases hl : z.getLast? with
  | none =>
    rw [List.getLast?_eq_none_iff] at hl
    rw [hl] at hz0
    simp at hz0
    omega
  | some x =>
    obtain ⟨b, e'⟩ := C28_in_range c h z buf hc x (fun y hy => by have := hcent y hy; rw [w1, q44] at this; omega)
      (fun y hy => by by_contra h; exact n1 ⟨y, hy, by omega⟩) hl (by by_contra h; exact n2 ⟨x, hl, by omega⟩)
    rw [e] at e'; cases e'

/-- `sign` expands the matrix before anything else: if that runs out of the budget, so does `sign`. -/
theorem sign_expand_nofuel (P : Par) (hP : P = raccoon128 ∨ P = raccoon192 ∨ P = raccoon256) (E : Ext) (fuel d : Nat) (hd : ValidShares d) (sk : SKey P.k P.l d) (hsk : sk.WF P)
    (hA : PMat.expandA E fuel P.k P.l sk.pkey.seed = .nofuel) (entropy msg buf : List U8) : Api.sign P E fuel d sk entropy msg buf = .nofuel := by
  obtain ⟨rep, uw, -, -, t1, t2, -⟩ := tab_ok hd
  obtain ⟨w1, w2, -⟩ := par_bounds P hP
  obtain ⟨pkb', e3⟩ := pkBytes_ok P hP sk.pkey hsk.pkey.seed
  obtain ⟨ts, ets, tsc, tsv⟩ := PVec.shl_spec (n := 42) (m := 128) (by omega) (by norm_num) (PVec.below_iff.1 hsk.pkey.t)
  obtain ⟨tn, etn, -⟩ := PVec.IsNtt.ntt tsc
  unfold Api.sign
  rw [t2, Res.ok_bind, t1, Res.ok_bind]
  unfold SKey.sign
  rw [e3, w2, ets, Res.ok_bind, etn, Res.ok_bind, Res.ok_bind]
  dsimp only
  rw [hA]
  rfl

/-- The outcomes of `sign`, attempt by attempt, once the matrix is expanded. -/
theorem sign_outcome (P : Par) (hP : P = raccoon128 ∨ P = raccoon192 ∨ P = raccoon256) (E : Ext) (fuel d : Nat) (hd : ValidShares d) 
    (sk : SKey P.k P.l d) (hsk : sk.WF P) (A : PMat P.k P.l) (e4 : PMat.expandA E fuel P.k P.l sk.pkey.seed = .ok A) (s : Fin P.l → RPoly) (hs : sk.s.IsNtt s) (entropy msg buf : List U8) :
    ∃ uw rep pkb a, tab uwTable (BitVec.ofNat 64 d) = .ok uw ∧ tab repTable (BitVec.ofNat 64 d) = .ok rep ∧
      Api.pkAsBytes P sk.pkey (List.replicate (PKey.byteLen P.κ P.k P.νt) 0) = .ok pkb ∧ A.Is a ∧
      ((∃ n b, n < fuel ∧ Api.sign P E fuel d sk entropy msg buf = .ok b ∧
        (∀ i < n, ∃ c h z, AttemptSig P E fuel d uw rep a (PVec.val sk.pkey.t) s (messageHash E P.κ pkb msg) (E.shake128 entropy) i c h z ∧ Rejected P buf.length c h z) ∧
        ∃ c h z, AttemptSig P E fuel d uw rep a (PVec.val sk.pkey.t) s (messageHash E P.κ pkb msg) (E.shake128 entropy) n c h z ∧ Acceptable P buf.length c h z ∧
          IsSigEncoding c h z buf.length b ∧ ¬ Trapped buf.length c h z) ∨
      (∃ n, n < fuel ∧ Api.sign P E fuel d sk entropy msg buf = .ub ∧
        (∀ i < n, ∃ c h z, AttemptSig P E fuel d uw rep a (PVec.val sk.pkey.t) s (messageHash E P.κ pkb msg) (E.shake128 entropy) i c h z ∧ Rejected P buf.length c h z) ∧
        ∃ c h z, AttemptSig P E fuel d uw rep a (PVec.val sk.pkey.t) s (messageHash E P.κ pkb msg) (E.shake128 entropy) n c h z ∧
          Trapped buf.length c h z ∧ (buf.length < 2 * P.κ / 8 ∨ (∃ x ∈ z, 15 * 2 ^ 40 ≤ x.natAbs) ∨ ∃ x, z.getLast? = some x ∧ 8 * 2 ^ 40 ≤ x.natAbs)) ∨
      (Api.sign P E fuel d sk entropy msg buf = .nofuel ∧ (SamplersFinish P E fuel →
        ∀ i < fuel, ∃ c h z, AttemptSig P E fuel d uw rep a (PVec.val sk.pkey.t) s (messageHash E P.κ pkb msg) (E.shake128 entropy) i c h z ∧ Rejected P buf.length c h z))) := by
  obtain ⟨rep, uw, -, -, e1, e2, -, -, u1, u2, -⟩ := tab_ok hd
  obtain ⟨w1, w2, w3, w4, w5, -⟩ := par_bounds P hP
  obtain ⟨pkb, e3⟩ := pkBytes_ok P hP sk.pkey hsk.pkey.seed
  obtain ⟨a, ha⟩ := PMat.Is.exists A
  obtain ⟨ts, ets, tsc, tsv⟩ := PVec.shl_spec (n := 42) (m := 128) (by omega) (by norm_num) (PVec.below_iff.1 hsk.pkey.t)
  obtain ⟨tn, etn, tnc, tni⟩ := PVec.IsNtt.ntt tsc
  have C : SignCtx P E d uw A tn a sk.pkey.t := ⟨hP, hd.pow, u1, by omega, ((expandA_safe E fuel P.k P.l sk.pkey.seed).par A e4).1, ha, tnc,
    fun i => by rw [← tni i, tsv, w2]⟩
  have hsig : Api.sign P E fuel d sk entropy msg buf =
      signLoop P E fuel d uw rep A tn (messageHash E P.κ pkb msg) fuel ⟨sk.s, Prng.new E entropy, Mrng.new E d, buf⟩ := by
    unfold Api.sign
    rw [e2, Res.ok_bind, e1, Res.ok_bind]
    unfold SKey.sign
    have hμ := C41_mu E P.κ pkb msg
    rw [e3, w2, ets, Res.ok_bind, etn, Res.ok_bind, Res.ok_bind]
    dsimp only
    rw [e4, Res.ok_bind, hμ.2, hμ.1]
    rfl
  refine ⟨uw, rep, pkb, a, e2, e1, e3, ha, ?_⟩
  rw [hsig]
  have hub : ∀ n c h z, AttemptSig P E fuel d uw rep a (PVec.val sk.pkey.t) s (messageHash E P.κ pkb msg) (E.shake128 entropy) n c h z → Trapped buf.length c h z →
      (buf.length < 2 * P.κ / 8 ∨ (∃ x ∈ z, 15 * 2 ^ 40 ≤ x.natAbs) ∨ ∃ x, z.getLast? = some x ∧ 8 * 2 ^ 40 ≤ x.natAbs) := by
    rintro n c h z ⟨cp, -, i⟩ e0
    have e : encodeSig c h z buf = .ub := (encodeSig_ub_iff' c h z buf (by
      intro e
      have := i.zlen
      have hl : 0 < P.l := by rcases hP with rfl | rfl | rfl <;> decide
      rw [e] at this
      simp at this
      omega)).2 e0
    have hcl : c.length = 2 * P.κ / 8 := by
      rw [i.hash]
      unfold challengeHash xofOut
      rw [List.length_map, List.length_range]
    by_cases hc : c.length ≤ buf.length
    · exact Or.inr (encodeSig_ub_of hP i.zlen i.hcent e hc)
    · left; omega
  rcases signLoop_exact (messageHash E P.κ pkb msg) C entropy sk.s (Mrng.new E d) buf s hs fuel 0 ⟨sk.s, Prng.new E entropy, Mrng.new E d, buf⟩
    ⟨hsk.s, rfl, by rw [Nat.zero_mul, Prng.advance_zero], rfl⟩ with ⟨n, b, g1, g2, g3, g4⟩ | ⟨n, g1, g2, g3, c, h, z, g4, g5⟩ | ⟨g1, g2⟩
  · simp only [Nat.zero_add] at g3 g4
    exact Or.inl ⟨n, b, g1, g2, g3, g4⟩
  · simp only [Nat.zero_add] at g3 g4
    exact Or.inr (Or.inl ⟨n, g1, g2, g3, c, h, z, g4, g5, hub n c h z g4 g5⟩)
  · simp only [Nat.zero_add] at g2
    exact Or.inr (Or.inr ⟨g1, fun hf => g2 hf (Mrng.reach_new E d)⟩)

/-- C52: if the samplers finish, `sign` performs the attempts in order and ends with the first one that is acceptable (it fits in the buffer
and is within the norm bounds): it returns the encoding of that attempt. It is undefined only if, before that, an attempt has a response
coefficient of at least 15·2^40, or a last one of at least 8·2^40, or if the buffer is shorter than the hash; it runs out of the budget only
if that many attempts are rejected. -/
theorem C52_first_acceptable (P : Par) (hP : P = raccoon128 ∨ P = raccoon192 ∨ P = raccoon256) (E : Ext) (fuel d : Nat) (hd : ValidShares d) (hf : SamplersFinish P E fuel)
    (sk : SKey P.k P.l d) (hsk : sk.WF P) (s : Fin P.l → RPoly) (hs : sk.s.IsNtt s) (entropy msg buf : List U8) :
    ∃ uw rep pkb A a, tab uwTable (BitVec.ofNat 64 d) = .ok uw ∧ tab repTable (BitVec.ofNat 64 d) = .ok rep ∧
      Api.pkAsBytes P sk.pkey (List.replicate (PKey.byteLen P.κ P.k P.νt) 0) = .ok pkb ∧ PMat.expandA E fuel P.k P.l sk.pkey.seed = .ok A ∧ A.Is a ∧
      ((∃ n b, n < fuel ∧ Api.sign P E fuel d sk entropy msg buf = .ok b ∧
        (∀ i < n, ∃ c h z, AttemptSig P E fuel d uw rep a (PVec.val sk.pkey.t) s (messageHash E P.κ pkb msg) (E.shake128 entropy) i c h z ∧ Rejected P buf.length c h z) ∧
        ∃ c h z, AttemptSig P E fuel d uw rep a (PVec.val sk.pkey.t) s (messageHash E P.κ pkb msg) (E.shake128 entropy) n c h z ∧ Acceptable P buf.length c h z ∧
          IsSigEncoding c h z buf.length b ∧ ¬ Trapped buf.length c h z) ∨
      (∃ n, n < fuel ∧ Api.sign P E fuel d sk entropy msg buf = .ub ∧
        (∀ i < n, ∃ c h z, AttemptSig P E fuel d uw rep a (PVec.val sk.pkey.t) s (messageHash E P.κ pkb msg) (E.shake128 entropy) i c h z ∧ Rejected P buf.length c h z) ∧
        ∃ c h z, AttemptSig P E fuel d uw rep a (PVec.val sk.pkey.t) s (messageHash E P.κ pkb msg) (E.shake128 entropy) n c h z ∧
          Trapped buf.length c h z ∧ (buf.length < 2 * P.κ / 8 ∨ (∃ x ∈ z, 15 * 2 ^ 40 ≤ x.natAbs) ∨ ∃ x, z.getLast? = some x ∧ 8 * 2 ^ 40 ≤ x.natAbs)) ∨
      (Api.sign P E fuel d sk entropy msg buf = .nofuel ∧
        ∀ i < fuel, ∃ c h z, AttemptSig P E fuel d uw rep a (PVec.val sk.pkey.t) s (messageHash E P.κ pkb msg) (E.shake128 entropy) i c h z ∧ Rejected P buf.length c h z)) := by
  obtain ⟨A, e4⟩ := hf.expandA sk.pkey.seed hsk.pkey.seed
  obtain ⟨uw, rep, pkb, a, h1, h2, h3, h4, h⟩ := sign_outcome P hP E fuel d hd sk hsk A e4 s hs entropy msg buf
  refine ⟨uw, rep, pkb, A, a, h1, h2, h3, e4, h4, ?_⟩
  rcases h with h | h | ⟨g1, g2⟩
  · exact Or.inl h
  · exact Or.inr (Or.inl h)
  · exact Or.inr (Or.inr ⟨g1, g2 hf⟩)

/-- C52: the signature of an attempt is determined by the matrix, the public vector, the secret, the digest and the random stream. -/
theorem C52_attempt_unique (P : Par) (E : Ext) (fuel d uw rep : Nat) (a : Fin P.k → Fin P.l → RPoly) (t : Fin P.k → RPoly)
    (s : Fin P.l → RPoly) (μ : List U8) (stream : Nat → U8) (n : Nat) (c c' : List U8) (h h' z z' : List Int)
    (g : AttemptSig P E fuel d uw rep a t s μ stream n c h z) (g' : AttemptSig P E fuel d uw rep a t s μ stream n c' h' z') : c = c' ∧ h = h' ∧ z = z' := by
  obtain ⟨cp, e, i⟩ := g
  obtain ⟨cp', e', i'⟩ := g'
  obtain rfl : c = c' := i.hash.trans i'.hash.symm
  obtain rfl := Res.ok.inj (e.symm.trans e')
  have hunf : ∀ (n : Nat) (x y : List Int), x.length = n * 512 → y.length = n * 512 → (∀ r i, unflatten n x r i = unflatten n y r i) → x = y := by
    intro n x y hx hy hxy
    apply List.ext_getElem (by omega)
    intro j h1 h2
    have := hxy ⟨j / 512, by omega⟩ ⟨j % 512, by omega⟩
    unfold unflatten at this
    rw [List.getD_eq_getElem?_getD, List.getD_eq_getElem?_getD] at this
    dsimp only at this
    rw [show j / 512 * 512 + j % 512 = j by omega, List.getElem?_eq_getElem h1, List.getElem?_eq_getElem h2] at this
    exact this
  have hmem : ∀ (n : Nat) (x : List Int) (r : Fin n) (i : Fin 512), x.length = n * 512 → unflatten n x r i ∈ x := by
    intro n x r i hx
    have hr : r.val * 512 + i.val < x.length := by have := r.isLt; have := i.isLt; omega
    unfold unflatten
    rw [List.getD_eq_getElem?_getD, List.getElem?_eq_getElem hr]
    exact List.getElem_mem hr
  have hz : z = z' := by
    refine hunf _ _ _ i.zlen i'.zlen fun r j => ?_
    refine int_eq_of_emod (m := q) (i.zcent _ (hmem _ _ _ _ i.zlen)) (i'.zcent _ (hmem _ _ _ _ i'.zlen)) ?_
    have := congrFun (congrFun (i.resp.trans i'.resp.symm) r) j
    unfold vecR toR at this
    have h2 := (ZMod.intCast_eq_intCast_iff_dvd_sub _ _ _).1 this
    rw [← dvd_neg, neg_sub] at h2
    exact Int.emod_eq_zero_of_dvd h2
  refine ⟨rfl, ?_, hz⟩
  subst hz
  refine hunf _ _ _ i.hlen i'.hlen fun r j => ?_
  refine int_eq_of_emod (i.hcent _ (hmem _ _ _ _ i.hlen)) (i'.hcent _ (hmem _ _ _ _ i'.hlen)) ?_
  have h1 := Int.dvd_of_emod_eq_zero (i.hint r j)
  have h2 := Int.dvd_of_emod_eq_zero (i'.hint r j)
  have := dvd_sub h1 h2
  rw [sub_sub_sub_cancel_right] at this
  exact Int.emod_eq_zero_of_dvd this

end Raccoon
