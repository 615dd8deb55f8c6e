import Verif.Proofs.Wire
import Verif.Props.Demo
/-!
# C33, C34, C36, C37, C52, C53 against the byte-level specification `Spec/Wire.lean`

The statements mention only the public API (`Api.…`), byte strings and the specification.
-/
namespace Raccoon
attribute [-instance] Monoid.toNPow
open Finset

/-! ### Verification -/

/-- Every byte string of the right length is a public key, and its parts are what the specification reads from the bytes. -/
theorem pkFromBytes_wire {P : Par} (hP : P = raccoon128 ∨ P = raccoon192 ∨ P = raccoon256) {pkb : List U8} (hl : pkb.length = PKey.byteLen P.κ P.k P.νt) {pk : PKey P.k}
    (h : Api.pkFromBytes P pkb = .ok pk) : pk.WF P ∧ IsPkOf P pk.seed (PVec.raws pk.t) pkb ∧
      Api.pkAsBytes P pk (List.replicate (PKey.byteLen P.κ P.k P.νt) 0) = .ok pkb := by
  obtain ⟨-, w2, -, -, -, -, -, -, -, h8, -⟩ := par_bounds P hP
  have hl' := hl
  rw [w2] at hl'
  obtain ⟨pk', h1, h2, h3, h4⟩ := C24_encode_decode P.κ P.k h8 pkb hl'
  unfold Api.pkFromBytes at h
  rw [w2] at h
  obtain rfl := Res.ok.inj (h1.symm.trans h)
  have hwf : pk'.WF P := ⟨h2, h3⟩
  have hb : Api.pkAsBytes P pk' (List.replicate (PKey.byteLen P.κ P.k P.νt) 0) = .ok pkb := by
    unfold Api.pkAsBytes
    rw [w2]
    exact h4 _ List.length_replicate
  exact ⟨hwf, isPkOf_of P hP hwf List.length_replicate hb, hb⟩

/-- C34 (sound): if `verify` accepts, the bytes are the encoding of a valid signature. -/
theorem C34_wire_sound (P : Par) (hP : P = raccoon128 ∨ P = raccoon192 ∨ P = raccoon256) (E : Ext) (fuel : Nat) (pkb : List U8)
    (hl : pkb.length = PKey.byteLen P.κ P.k P.νt) (pk : PKey P.k) (hpk : Api.pkFromBytes P pkb = .ok pk) (msg sig : List U8)
    (h : Api.verify P E fuel pk msg sig = .ok true) : ∃ c hint z, IsSigEncoding c hint z sig.length sig ∧ ValidSig P E pkb msg c hint z := by
  obtain ⟨hwf, hip, hb⟩ := pkFromBytes_wire hP hl hpk
  obtain ⟨c, hint, z, pkb', A, a, cp, g1, g2, g3, g4, g5, g6, g7⟩ := (C34_accepts_iff P hP E fuel pk hwf msg sig).1 h
  obtain rfl := Res.ok.inj (hb.symm.trans g3)
  obtain ⟨l1, l2, l3, i⟩ := C29_canonical _ _ _ _ _ _ _ g1
  refine ⟨c, hint, z, i, l1, l2, l3, g2, pk.seed, PVec.raws pk.t, a, Poly.centered cp, hip, isMatrixOf_of g4 g5, isChallengeOf_of g6, ?_⟩
  rw [toR_centered, PVec.raws_val]
  exact g7

/-- C34 (complete): the encoding of a valid signature (whose response coefficients are below 15·2^40, so that the 64-bit window of the parser does
not overflow) is accepted as soon as the sampling budget is large enough. -/
theorem C34_wire_complete (P : Par) (hP : P = raccoon128 ∨ P = raccoon192 ∨ P = raccoon256) (E : Ext) (pkb : List U8)
    (hl : pkb.length = PKey.byteLen P.κ P.k P.νt) (pk : PKey P.k) (hpk : Api.pkFromBytes P pkb = .ok pk) (msg sig c : List U8) (hint z : List Int)
    (he : IsSigEncoding c hint z sig.length sig) (hv : ValidSig P E pkb msg c hint z) (hz : ∀ x ∈ z, x.natAbs < 15 * 2 ^ 40) :
    ∃ F, ∀ fuel, F ≤ fuel → Api.verify P E fuel pk msg sig = .ok true := by
  have h40 : (2 : Nat) ^ 40 = 1099511627776 := by norm_num
  have h44 : (2 : Nat) ^ 44 = 17592186044416 := by norm_num
  obtain ⟨hwf, hip, hb⟩ := pkFromBytes_wire hP hl hpk
  obtain ⟨l1, l2, l3, hn, seed, t, a, cI, h1, h2, h3, h4⟩ := hv
  obtain ⟨rfl, rfl⟩ := h1.unique hip
  obtain ⟨w1, -, -, -, -, -, -, w3, -⟩ := par_bounds P hP
  have hB3 : P.Binf.toNat < 52776558133248 := by rcases hP with rfl | rfl | rfl <;> decide
  have hdec : decodeSig (2 * P.κ / 8) (P.k * 512) (P.l * 512) sig = .ok (some (c, hint, z)) := by
    rw [← l1, ← l2, ← l3]
    refine decodeSig_complete he ⟨FitFrom.of_le fun x hx => ?_, FitFrom.of_le fun x hx => ?_⟩ (by omega)
    · have := hn.1 x hx
      rw [w1, h44] at this
      rw [hintBits_length]; split <;> omega
    · have := hz x hx
      rw [respBits_length]; split <;> omega
  obtain ⟨F1, k1⟩ := h2.expandA
  obtain ⟨F2, k2⟩ := h3.chalPoly
  refine ⟨max F1 F2, fun fuel hf => ?_⟩
  obtain ⟨A, hA, ha⟩ := k1 fuel (le_trans (Nat.le_max_left _ _) hf)
  obtain ⟨cp, hcp, hct⟩ := k2 fuel (le_trans (Nat.le_max_right _ _) hf)
  refine (C34_accepts_iff P hP E fuel pk hwf msg sig).2 ⟨c, hint, z, pkb, A, a, cp, hdec, hn, hb, hA, ha, hcp, ?_⟩
  rw [hct]
  rw [PVec.raws_val] at h4
  exact h4

/-- C34 (decision): whenever `verify` answers on the encoding of (c_hash, h, z) with |z_i| < 15·2^40, the answer is whether that is a valid signature. -/
theorem C34_wire_decides (P : Par) (hP : P = raccoon128 ∨ P = raccoon192 ∨ P = raccoon256) (E : Ext) (fuel : Nat) (pkb : List U8)
    (hl : pkb.length = PKey.byteLen P.κ P.k P.νt) (pk : PKey P.k) (hpk : Api.pkFromBytes P pkb = .ok pk) (msg sig c : List U8) (hint z : List Int)
    (hlen : c.length = 2 * P.κ / 8 ∧ hint.length = P.k * 512 ∧ z.length = P.l * 512)
    (he : IsSigEncoding c hint z sig.length sig) (hz : ∀ x ∈ z, x.natAbs < 15 * 2 ^ 40) (r : Bool) (h : Api.verify P E fuel pk msg sig = .ok r) :
    r = true ↔ ValidSig P E pkb msg c hint z := by
  obtain ⟨hwf, hip, hb⟩ := pkFromBytes_wire hP hl hpk
  constructor
  · rintro rfl
    obtain ⟨c', hint', z', e', v⟩ := C34_wire_sound P hP E fuel pkb hl pk hpk msg sig h
    obtain ⟨rfl, rfl, rfl⟩ := he.inj e' (hlen.1.trans v.1.symm) (hlen.2.1.trans v.2.1.symm) (hlen.2.2.trans v.2.2.1.symm)
    exact v
  · intro v
    obtain ⟨F, hF⟩ := C34_wire_complete P hP E pkb hl pk hpk msg sig c hint z he v hz
    have h1 := hF (max F fuel) (Nat.le_max_left _ _)
    have h2 := C34_budget P hP E fuel (max F fuel) (Nat.le_max_right _ _) pk hwf msg sig r h
    exact Res.ok.inj (h2.symm.trans h1)

/-- C34: bytes that are not the encoding of anything are never accepted. -/
theorem C34_wire_garbage (P : Par) (hP : P = raccoon128 ∨ P = raccoon192 ∨ P = raccoon256) (E : Ext) (fuel : Nat) (pkb : List U8)
    (hl : pkb.length = PKey.byteLen P.κ P.k P.νt) (pk : PKey P.k) (hpk : Api.pkFromBytes P pkb = .ok pk) (msg sig : List U8)
    (hn : ∀ c hint z, IsSigEncoding c hint z sig.length sig → ¬ ValidSig P E pkb msg c hint z) : Api.verify P E fuel pk msg sig ≠ .ok true := by
  intro h
  obtain ⟨c, hint, z, e, v⟩ := C34_wire_sound P hP E fuel pkb hl pk hpk msg sig h
  exact hn c hint z e v

/-! ### Key generation -/

theorem tab_of {P : Par} {d : Nat} (hd : ValidShares d) : tab repTable (BitVec.ofNat 64 d) = .ok (repOf d) ∧ tab uwTable (BitVec.ofNat 64 d) = .ok (uwOf d) ∧
    tab (utTableOf P) (BitVec.ofNat 64 d) = .ok (utOf P.κ d) := by
  obtain ⟨m, hm, rfl⟩ := hd
  have h := C46_log2 m (by omega)
  unfold tab utTableOf utOf
  rw [h]
  by_cases hκ : P.κ = 192
  · rw [if_pos hκ, if_pos hκ]
    rcases (by omega : m = 0 ∨ m = 1 ∨ m = 2 ∨ m = 3 ∨ m = 4 ∨ m = 5) with rfl | rfl | rfl | rfl | rfl | rfl <;> exact ⟨rfl, rfl, rfl⟩
  · rw [if_neg hκ, if_neg hκ]
    rcases (by omega : m = 0 ∨ m = 1 ∨ m = 2 ∨ m = 3 ∨ m = 4 ∨ m = 5) with rfl | rfl | rfl | rfl | rfl | rfl <;> exact ⟨rfl, rfl, rfl⟩

/-- C37: the serialised public key of a generated key is (seed, ⌊a s + e⌉), where a is the matrix of the seed and s, e are read from the entropy's
stream. -/
theorem C37_wire (P : Par) (hP : P = raccoon128 ∨ P = raccoon192 ∨ P = raccoon256) (E : Ext) (fuel d : Nat) (hd : ValidShares d) (entropy seed : List U8)
    (hs : seed.length = P.κ / 8) (sk : SKey P.k P.l d) (h : Api.generate P (utTableOf P) E fuel d entropy seed = .ok sk)
    (buf pkb : List U8) (hb : buf.length = PKey.byteLen P.κ P.k P.νt) (hpk : Api.pkAsBytes P (Api.getPkey P sk) buf = .ok pkb) :
    IsKeyOf P E d seed entropy pkb := by
  have hwf := C37_wellformed P hP E fuel d hd entropy seed hs sk h
  obtain ⟨ut, rep, A, a, e1, e2, g1, g2, g3, g4, g5, g6⟩ := (C37_key_generation P hP E fuel d hd entropy seed).2 sk h
  obtain ⟨t1, -, t3⟩ := tab_of (P := P) hd
  obtain rfl := Res.ok.inj (t3.symm.trans e1)
  obtain rfl := Res.ok.inj (t1.symm.trans e2)
  have hip := isPkOf_of P hP hwf.pkey hb hpk
  rw [g3] at hip
  refine ⟨_, a, hip, isMatrixOf_of g1 g2, fun r i => ?_⟩
  have := (g6 r.val r.isLt i.val i.isLt).2
  rw [coeffAt_rc r.isLt i.isLt] at this
  exact this

/-! ### Signing -/

/-- An attempt as the code performs it is an attempt of the specification. -/
theorem isAttempt_of (P : Par) (hP : P = raccoon128 ∨ P = raccoon192 ∨ P = raccoon256) (E : Ext) (fuel0 fuel d : Nat) (hd : ValidShares d)
    (entropy0 seed : List U8) (sk0 : SKey P.k P.l d) (h0 : Api.generate P (utTableOf P) E fuel0 d entropy0 seed = .ok sk0)
    (pkb : List U8) (hip : IsPkOf P seed (PVec.raws sk0.pkey.t) pkb) (A : PMat P.k P.l) (hA : PMat.expandA E fuel P.k P.l seed = .ok A)
    (a : Fin P.k → Fin P.l → RPoly) (ha : A.Is a) (msg entropy : List U8) (n : Nat) (c : List U8) (h z : List Int)
    (g : AttemptSig P E fuel d (uwOf d) (repOf d) a (PVec.val sk0.pkey.t) (vecR (keySecret P E d entropy0)) (messageHash E P.κ pkb msg) (E.shake128 entropy) n c h z) :
    IsAttempt P E d pkb (keySecret P E d entropy0) msg entropy n c h z := by
  obtain ⟨t1, t2, t3⟩ := tab_of (P := P) hd
  obtain ⟨⟨cp', k1, -, k2⟩, -, -⟩ := C53_attempts P hP E fuel0 fuel d hd entropy0 seed sk0 h0 _ _ _ t3 t1 t2 A hA a ha (messageHash E P.κ pkb msg) (E.shake128 entropy) n c h z g
  obtain ⟨cp, e, i⟩ := g
  obtain rfl := Res.ok.inj (e.symm.trans k1)
  refine ⟨seed, PVec.raws sk0.pkey.t, a, Poly.centered cp, _, hip, isMatrixOf_of hA ha, isChallengeOf_of e, rfl, i.hash, i.hlen, i.zlen, k2, ?_, i.hcent⟩
  rw [toR_centered, PVec.raws_val]
  exact i.hint

/-- C52: the outcomes of `sign` in terms of the specification, for a key that was generated, then refreshed or reloaded any number of times:
it performs the attempts in order and returns the encoding of the first acceptable one; it is undefined only if an attempt has an extreme
coefficient or the buffer has no room for the hash; if the samplers finish, it runs out of the budget only if all attempts are rejected. -/
theorem C52_wire_outcome (P : Par) (hP : P = raccoon128 ∨ P = raccoon192 ∨ P = raccoon256) (E : Ext) (fuel0 fuel d : Nat) (hd : ValidShares d)
    (entropy0 seed : List U8) (hseed : seed.length = P.κ / 8) (sk0 sk : SKey P.k P.l d) (h0 : Api.generate P (utTableOf P) E fuel0 d entropy0 seed = .ok sk0)
    (hder : SKey.Derived P E sk0 sk) (pkBuf pkb : List U8) (hpl : pkBuf.length = PKey.byteLen P.κ P.k P.νt) (hpk : Api.pkAsBytes P (Api.getPkey P sk0) pkBuf = .ok pkb)
    (entropy msg buf : List U8) :
    (∃ n b, n < fuel ∧ Api.sign P E fuel d sk entropy msg buf = .ok b ∧
      (∀ i < n, ∃ c h z, IsAttempt P E d pkb (keySecret P E d entropy0) msg entropy i c h z ∧ Rejected P buf.length c h z) ∧
      ∃ c h z, IsAttempt P E d pkb (keySecret P E d entropy0) msg entropy n c h z ∧ Acceptable P buf.length c h z ∧ IsSigEncoding c h z buf.length b ∧ ¬ Trapped buf.length c h z) ∨
    (∃ n, n < fuel ∧ Api.sign P E fuel d sk entropy msg buf = .ub ∧
      (∀ i < n, ∃ c h z, IsAttempt P E d pkb (keySecret P E d entropy0) msg entropy i c h z ∧ Rejected P buf.length c h z) ∧
      ∃ c h z, IsAttempt P E d pkb (keySecret P E d entropy0) msg entropy n c h z ∧
        Trapped buf.length c h z ∧ (buf.length < 2 * P.κ / 8 ∨ (∃ x ∈ z, 15 * 2 ^ 40 ≤ x.natAbs) ∨ ∃ x, z.getLast? = some x ∧ 8 * 2 ^ 40 ≤ x.natAbs)) ∨
    (Api.sign P E fuel d sk entropy msg buf = .nofuel ∧ (SamplersFinish P E fuel →
      ∀ i < fuel, ∃ c h z, IsAttempt P E d pkb (keySecret P E d entropy0) msg entropy i c h z ∧ Rejected P buf.length c h z)) := by
  obtain ⟨t1, t2, t3⟩ := tab_of (P := P) hd
  have hwf0 := C37_wellformed P hP E fuel0 d hd entropy0 seed hseed sk0 h0
  obtain ⟨i1, i2, ut, rep, e1, e2, hs⟩ := derived_secret hP hd hseed h0 hder
  obtain rfl := Res.ok.inj (t3.symm.trans e1)
  obtain rfl := Res.ok.inj (t1.symm.trans e2)
  have hse : sk0.pkey.seed = seed := by
    obtain ⟨_, _, _, _, _, _, _, _, g1, _⟩ := (C37_key_generation P hP E fuel0 d hd entropy0 seed).2 sk0 h0
    exact g1
  have hip := isPkOf_of P hP hwf0.pkey hpl hpk
  rw [hse] at hip
  cases hA : PMat.expandA E fuel P.k P.l sk.pkey.seed with
  | ub => exact absurd hA (expandA_safe E fuel P.k P.l sk.pkey.seed).ne_ub
  | nofuel =>
    refine Or.inr (Or.inr ⟨?_, fun hf => ?_⟩)
    · exact sign_expand_nofuel P hP E fuel d hd sk i1 hA entropy msg buf
    · obtain ⟨A, e⟩ := hf.expandA sk.pkey.seed i1.pkey.seed
      rw [hA] at e; cases e
  | ok A =>
    obtain ⟨uw, rep, pkb', a, f1, f2, f3, f4, hc⟩ := sign_outcome P hP E fuel d hd sk i1 A hA _ hs entropy msg buf
    obtain rfl := Res.ok.inj (t2.symm.trans f1)
    obtain rfl := Res.ok.inj (t1.symm.trans f2)
    have hpb : pkb' = pkb := by
      have hip' := isPkOf_of P hP i1.pkey List.length_replicate f3
      rw [i2] at hip'
      exact bytesBits_inj (hip'.2.2.trans (by rw [hip.2.2, hse]))
    rw [i2, hse] at hA
    rw [i2, hpb] at hc
    have conv := fun n c h z (g : AttemptSig P E fuel d (uwOf d) (repOf d) a (PVec.val sk0.pkey.t) (vecR (keySecret P E d entropy0)) (messageHash E P.κ pkb msg)
      (E.shake128 entropy) n c h z) => isAttempt_of P hP E fuel0 fuel d hd entropy0 seed sk0 h0 pkb hip A hA a f4 msg entropy n c h z g
    rcases hc with ⟨n, b, g1, g2, g3, c, h, z, g4, g5⟩ | ⟨n, g1, g2, g3, c, h, z, g4, g5⟩ | ⟨g1, g2⟩
    · refine Or.inl ⟨n, b, g1, g2, fun i hi => ?_, c, h, z, conv n c h z g4, g5⟩
      obtain ⟨c', h', z', k1, k2⟩ := g3 i hi
      exact ⟨c', h', z', conv _ _ _ _ k1, k2⟩
    · refine Or.inr (Or.inl ⟨n, g1, g2, fun i hi => ?_, c, h, z, conv n c h z g4, g5⟩)
      obtain ⟨c', h', z', k1, k2⟩ := g3 i hi
      exact ⟨c', h', z', conv _ _ _ _ k1, k2⟩
    · refine Or.inr (Or.inr ⟨g1, fun hf i hi => ?_⟩)
      obtain ⟨c', h', z', k1, k2⟩ := g2 hf i hi
      exact ⟨c', h', z', conv _ _ _ _ k1, k2⟩

/-- C36: what `sign` returns is the encoding of the first acceptable attempt of the specification. -/
theorem C36_wire (P : Par) (hP : P = raccoon128 ∨ P = raccoon192 ∨ P = raccoon256) (E : Ext) (fuel0 fuel d : Nat) (hd : ValidShares d)
    (entropy0 seed : List U8) (hseed : seed.length = P.κ / 8) (sk0 sk : SKey P.k P.l d) (h0 : Api.generate P (utTableOf P) E fuel0 d entropy0 seed = .ok sk0)
    (hder : SKey.Derived P E sk0 sk) (pkBuf pkb : List U8) (hpl : pkBuf.length = PKey.byteLen P.κ P.k P.νt) (hpk : Api.pkAsBytes P (Api.getPkey P sk0) pkBuf = .ok pkb)
    (entropy msg buf b : List U8) (h : Api.sign P E fuel d sk entropy msg buf = .ok b) :
    ∃ n c hint z, IsAttempt P E d pkb (keySecret P E d entropy0) msg entropy n c hint z ∧ Acceptable P buf.length c hint z ∧ IsSigEncoding c hint z buf.length b ∧
      ∀ i < n, ∃ c' h' z', IsAttempt P E d pkb (keySecret P E d entropy0) msg entropy i c' h' z' ∧ Rejected P buf.length c' h' z' := by
  rcases C52_wire_outcome P hP E fuel0 fuel d hd entropy0 seed hseed sk0 sk h0 hder pkBuf pkb hpl hpk entropy msg buf with
    ⟨n, b', -, e, r, c, hint, z, g1, g2, g3⟩ | ⟨n, -, e, -⟩ | ⟨e, -⟩
  · obtain rfl := Res.ok.inj (e.symm.trans h)
    exact ⟨n, c, hint, z, g1, g2, g3.1, r⟩
  · rw [h] at e; cases e
  · rw [h] at e; cases e

/-- C33 on the level of the specification: every attempt within the norm bounds is a valid signature. -/
theorem C33_wire_correct (P : Par) (hP : P = raccoon128 ∨ P = raccoon192 ∨ P = raccoon256) (E : Ext) (d : Nat) (pkb : List U8) (s : Fin P.l → Fin 512 → Int)
    (msg entropy : List U8) (n : Nat) (c : List U8) (h z : List Int) (g : IsAttempt P E d pkb s msg entropy n c h z) (hn : NormsOK P.νw P.Binf.toNat P.B22.toNat h z) :
    ValidSig P E pkb msg c h z := by
  obtain ⟨seed, t, a, cI, w, g1, g2, g3, rfl, g5, g6, g7, g8, g9, g10⟩ := g
  have hcl : c.length = 2 * P.κ / 8 := by
    rw [g5]
    unfold challengeHash xofOut
    rw [List.length_map, List.length_range]
  have hm : 0 < q / 2 ^ P.νw := by rw [(par_bounds P hP).1, q44]; omega
  refine ⟨hcl, g6, g7, hn, seed, t, a, cI, g1, g2, g3, ?_⟩
  unfold VerifyEq
  rw [show (fun r i => (((commitY P.νw P.νt a (fun r i => (t r i : ZMod q)) (toR cI) (vecR (unflatten P.l z)) r i : Int) + unflatten P.k h r i) % (q / 2 ^ P.νw : Nat)).toNat) =
    commitW P.νw a (vecR (ephemeralR P E d entropy n)) (vecR (ephemeralE P E d entropy n)) from
    funext fun x => funext fun y => hint_recovers (Nat.mod_lt _ hm) (g9 x y)]
  exact g5

/-- C52: the attempts of the specification are determined by public key bytes, secret, message, entropy and number. -/
theorem C52_wire_unique (P : Par) (E : Ext) (d : Nat) (pkb : List U8) (s : Fin P.l → Fin 512 → Int)
    (msg entropy : List U8) (n : Nat) (c c' : List U8) (h h' z z' : List Int) (g : IsAttempt P E d pkb s msg entropy n c h z)
    (g' : IsAttempt P E d pkb s msg entropy n c' h' z') : c = c' ∧ h = h' ∧ z = z' := by
  obtain ⟨seed, t, a, cI, w, g1, g2, g3, rfl, g5, g6, g7, g8, g9, g10⟩ := g
  obtain ⟨seed', t', a', cI', w', k1, k2, k3, rfl, k5, k6, k7, k8, k9, k10⟩ := g'
  obtain ⟨rfl, rfl⟩ := g1.unique k1
  obtain rfl := g2.unique k2
  obtain rfl : c = c' := g5.trans k5.symm
  obtain rfl := g3.unique k3
  have hunf : ∀ (n : Nat) (x y : List Int), x.length = n * 512 → y.length = n * 512 → (∀ r i, unflatten n x r i = unflatten n y r i) → x = y := by
    intro n x y hx hy hxy
    apply List.ext_getElem (by omega)
    intro j h1 h2
    have := hxy ⟨j / 512, by omega⟩ ⟨j % 512, by omega⟩
    unfold unflatten at this
    rw [List.getD_eq_getElem?_getD, List.getD_eq_getElem?_getD] at this
    dsimp only at this
    rw [show j / 512 * 512 + j % 512 = j by omega, List.getElem?_eq_getElem h1, List.getElem?_eq_getElem h2] at this
    exact this
  have hz : z = z' := hunf _ _ _ g7 k7 fun r i => by rw [g8, k8]
  subst hz
  refine ⟨rfl, hunf _ _ _ g6 k6 fun r i => ?_, rfl⟩
  have b1 := g10 _ (mem_unflatten r i g6)
  have b2 := k10 _ (mem_unflatten r i k6)
  clear g10 k10
  have h1 := Int.dvd_of_emod_eq_zero (g9 r i)
  have h2 := Int.dvd_of_emod_eq_zero (k9 r i)
  have := dvd_sub h1 h2
  rw [sub_sub_sub_cancel_right] at this
  revert b1 b2 this
  generalize unflatten P.k h r i = x
  generalize unflatten P.k h' r i = y
  generalize q / 2 ^ P.νw = m
  intro b1 b2 this
  exact int_eq_of_emod b1 b2 (Int.emod_eq_zero_of_dvd this)

/-- C53: `sign` is undefined only if some attempt within the budget has an extreme ephemeral noise value. -/
theorem C53_wire (P : Par) (hP : P = raccoon128 ∨ P = raccoon192 ∨ P = raccoon256) (E : Ext) (fuel0 fuel d : Nat) (hd : ValidShares d)
    (entropy0 seed : List U8) (hseed : seed.length = P.κ / 8) (sk0 sk : SKey P.k P.l d) (h0 : Api.generate P (utTableOf P) E fuel0 d entropy0 seed = .ok sk0)
    (hder : SKey.Derived P E sk0 sk) (entropy msg buf : List U8) (hbuf : 2 * P.κ / 8 ≤ buf.length) (h : Api.sign P E fuel d sk entropy msg buf = .ub) :
    ∃ n < fuel, ∃ (j : Fin P.l) (x : Fin 512), 15 * 2 ^ 40 - 90112 ≤ |ephemeralR P E d entropy n j x| ∨
      8 * 2 ^ 40 - 90112 ≤ |ephemeralR P E d entropy n j x| ∧ j.val = P.l - 1 ∧ x.val = 511 := by
  obtain ⟨t1, t2, t3⟩ := tab_of (P := P) hd
  obtain ⟨uw, rep, n, hn, e1, e2, j, x, hx⟩ := C53_sign_defined P hP E fuel0 fuel d hd entropy0 seed hseed sk0 sk h0 hder entropy msg buf hbuf h
  obtain rfl := Res.ok.inj (t2.symm.trans e1)
  obtain rfl := Res.ok.inj (t1.symm.trans e2)
  exact ⟨n, hn, j, x, hx⟩

/-- Non-vacuity: the hypotheses of the theorems of this file are met by the run of `Props/Demo.lean`, which also gives a valid signature
and a key in the sense of the specification. -/
example (entropy0 seed entropy1 entropy2 msg : List U8) (hseed : seed.length = 16) :
    ∃ (pkb sig c : List U8) (hint z : List Int), IsKeyOf raccoon128 demoE 2 seed entropy0 pkb ∧ IsSigEncoding c hint z sig.length sig ∧
      ValidSig raccoon128 demoE pkb msg c hint z ∧
      ∃ n, IsAttempt raccoon128 demoE 2 pkb (keySecret raccoon128 demoE 2 entropy0) msg entropy2 n c hint z := by
  have hP : raccoon128 = raccoon128 ∨ raccoon128 = raccoon192 ∨ raccoon128 = raccoon256 := Or.inl rfl
  obtain ⟨sk0, sk1, sk2, skb, b, h0, -, -, -, -, hd, hs, hv⟩ := demo_run entropy0 seed entropy1 entropy2 msg hseed
  have hwf := C37_wellformed raccoon128 hP demoE 512 2 demo_d entropy0 seed hseed sk0 h0
  obtain ⟨pkb, hpk⟩ := pkBytes_ok raccoon128 hP sk0.pkey hwf.pkey.seed
  have hk := C37_wire raccoon128 hP demoE 512 2 demo_d entropy0 seed hseed sk0 h0 _ pkb List.length_replicate hpk
  obtain ⟨n, c, hint, z, g1, g2, g3, -⟩ := C36_wire raccoon128 hP demoE 512 512 2 demo_d entropy0 seed hseed sk0 sk2 h0 hd _ pkb List.length_replicate hpk entropy2 msg _ b hs
  refine ⟨pkb, b, c, hint, z, hk, ?_, C33_wire_correct raccoon128 hP demoE 2 pkb _ msg entropy2 n c hint z g1 g2.2, n, g1⟩
  have : b.length = (List.replicate 11524 (0 : U8)).length := g3.1
  rw [this]
  exact g3

end Raccoon
