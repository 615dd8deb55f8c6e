import Verif.Props.TestsSer
import Verif.Props.Binding
import Verif.Props.Programming
import Verif.Props.WireExact
import Verif.Props.Demo
/-!
# C72: the signing tests and the example
-/
set_option synthInstance.maxSize 1024
namespace Raccoon
attribute [-instance] Monoid.toNPow

/-- What a computation may deliver, and what it means if it is undefined. -/
def Res.Out (r : Res α) (P : α → Prop) (U : Prop) : Prop := (∀ a, r = .ok a → P a) ∧ (r = .ub → U)

theorem Res.Out.bind {r : Res α} {f : α → Res β} {P : α → Prop} {Q : β → Prop} {U : Prop} (h : r.Out P U) (hf : ∀ a, r = .ok a → P a → (f a).Out Q U) : (r >>= f).Out Q U := by
  cases r with
  | ok a => exact hf a rfl (h.1 a rfl)
  | ub => exact ⟨fun b e => (by cases e), fun _ => h.2 rfl⟩
  | nofuel => exact ⟨fun b e => (by cases e), fun e => (by cases e)⟩

theorem Res.Out.ok {a : α} {P : α → Prop} {U : Prop} (h : P a) : (Res.ok a).Out P U :=
  ⟨fun b e => by rw [← Res.ok.inj e]; exact h, fun e => by cases e⟩

theorem forLoop_Out1 {σ : Type u} {lo hi : Nat} (hle : lo ≤ hi) {body : Nat → σ → Res σ} {s : σ} (I : Nat → σ → Prop) (U : Prop) (h0 : I lo s)
    (hs : ∀ i s, lo ≤ i → i < hi → I i s → (body i s).Out (I (i + 1)) U) : (forLoop lo hi 1 body s).Out (I hi) U := by
  suffices H : ∀ n i s, lo ≤ i → i ≤ hi → hi - i ≤ n → I i s → (forLoop i hi 1 body s).Out (I hi) U from H (hi - lo) lo s (Nat.le_refl _) hle (Nat.le_refl _) h0
  intro n
  induction n with
  | zero =>
    intro i s _ h2 h3 hI
    obtain rfl : i = hi := by omega
    rw [forLoop_nil (Nat.le_refl _) (by omega)]; exact Res.Out.ok hI
  | succ n ih =>
    intro i s h1 h2 h3 hI
    rcases Nat.lt_or_ge i hi with hlt | hge
    · rw [forLoop_cons hlt (by omega)]
      exact (hs i s h1 hlt hI).bind fun s' _ hI' => ih _ _ (by omega) (by omega) (by omega) hI'
    · obtain rfl : i = hi := by omega
      rw [forLoop_nil (Nat.le_refl _) (by omega)]; exact Res.Out.ok hI

theorem randomBitflip_out (data : List U8) (p : Prng) (U : Prop) : (Tests.randomBitflip data p).Out (fun r =>
    r.1.length = data.length ∧ (data = [] → r.1 = data) ∧ (data ≠ [] → OneBitOff data r.1)) U := by
  obtain ⟨h1, h2⟩ := C70_flip data p
  by_cases h : data = []
  · rw [h1 h]
    exact Res.Out.ok ⟨rfl, fun _ => rfl, fun h' => absurd h h'⟩
  · rw [h2 h]
    have hl : 0 < data.length := List.length_pos_iff.2 h
    generalize (p.read 8).2 = p'
    have h8 : ∀ u, u % 8 < 8 := fun u => Nat.mod_lt u (by omega)
    generalize leVal (p.read 8).1 = u
    have hu := Nat.mod_lt u hl
    have hb := h8 u
    generalize u % data.length = i at *
    generalize u % 8 = b at *
    refine Res.Out.ok ⟨?_, fun h' => absurd h' h, fun _ => ⟨i, b, hu, hb, rfl⟩⟩
    exact (C70_flip_changes data i b i b hu hu hb hb).1

theorem OneBitOff.ne {x y : List U8} (h : OneBitOff x y) : y.length = x.length ∧ y ≠ x := by
  obtain ⟨i, b, hi, hb, rfl⟩ := h
  have := C70_flip_changes x i b i b hi hi hb hb
  exact ⟨this.1, this.2.1⟩

theorem sigEncoding_take {c : List U8} {h z : List Int} {L : Nat} {b : List U8} (e : IsSigEncoding c h z L b) : b.take c.length = c := by
  obtain ⟨-, pad, h2⟩ := e
  apply bytesBits_inj
  rw [bytesBits_take, h2, List.append_assoc, take_append_len _ _ (bytesBits_length c).symm]

/-- An accepted signature carries the hash of a string that the verification hashes. -/
theorem accepted_hash (P : Par) (hP : P = raccoon128 ∨ P = raccoon192 ∨ P = raccoon256) (E : Ext) (fuel : Nat) (pkb : List U8)
    (hl : pkb.length = PKey.byteLen P.κ P.k P.νt) (pk : PKey P.k) (hpk : Api.pkFromBytes P pkb = .ok pk) (msg sig : List U8)
    (h : Api.verify P E fuel pk msg sig = .ok true) : ∃ x, Hashed P E pkb msg sig x ∧ xofOut E.shake256 x (2 * P.κ / 8) = sig.take (2 * P.κ / 8) := by
  obtain ⟨c, hint, z, e, l1, l2, l3, -, seed, t, a, cI, g1, g2, g3, g4⟩ := C34_wire_sound P hP E fuel pkb hl pk hpk msg sig h
  refine ⟨_, .commitment (E := E) (msg := msg) e ⟨l1, l2, l3⟩ g1 g2 g3, ?_⟩
  rw [← l1, sigEncoding_take e, l1]
  exact g4.symm

/-- Accepting a signature and the same signature with one bit flipped, for whatever messages. -/
theorem flipped_accepted (P : Par) (hP : P = raccoon128 ∨ P = raccoon192 ∨ P = raccoon256) (E : Ext) (fuel fuel' : Nat) (pkb : List U8)
    (hl : pkb.length = PKey.byteLen P.κ P.k P.νt) (pk : PKey P.k) (hpk : Api.pkFromBytes P pkb = .ok pk) (msg msg' sig sig' : List U8)
    (h : Api.verify P E fuel pk msg sig = .ok true) (h' : Api.verify P E fuel' pk msg' sig' = .ok true) (hoff : OneBitOff sig sig') :
    SignatureBreak P E pkb msg sig msg' sig' := by
  obtain ⟨hlen, hne⟩ := hoff.ne
  by_cases hc : sig.take (2 * P.κ / 8) = sig'.take (2 * P.κ / 8)
  · rcases C59_not_malleable P hP E fuel fuel' pkb hl pk hpk msg msg' sig sig' h h' hlen.symm hne.symm hc with h1 | h1
    · exact Or.inl h1
    · exact Or.inr (Or.inr h1)
  · obtain ⟨x, hx, ex⟩ := accepted_hash P hP E fuel pkb hl pk hpk msg sig h
    obtain ⟨y, hy, ey⟩ := accepted_hash P hP E fuel' pkb hl pk hpk msg' sig' h'
    refine Or.inr (Or.inl ⟨x, y, hx, hy, ex, ey, ?_⟩)
    obtain ⟨i, b, hi, hb, rfl⟩ := hoff
    rw [ex, ey]
    have hi2 : i < 2 * P.κ / 8 := by
      by_contra hge
      apply hc
      unfold flipBit
      rw [List.take_modify, List.modify_eq_self]
      rw [List.length_take]; omega
    refine ⟨i, b, ?_, hb, ?_⟩
    · rw [List.length_take]; omega
    · unfold flipBit; rw [List.take_modify]

theorem sigLen_ge (P : Par) (hP : P = raccoon128 ∨ P = raccoon192 ∨ P = raccoon256) : 2 * P.κ / 8 + 1 ≤ P.sigLen ∧ 0 < PKey.byteLen P.κ P.k P.νt := by
  rcases hP with rfl | rfl | rfl <;> decide

theorem signingRound_out (P : Par) (hP : P = raccoon128 ∨ P = raccoon192 ∨ P = raccoon256) (E : Ext) (fuel0 fuel d : Nat) (hd : ValidShares d)
    (entropy0 seed : List U8) (hseed : seed.length = P.κ / 8) (sk0 : SKey P.k P.l d) (h0 : Api.generate P (utTableOf P) E fuel0 d entropy0 seed = .ok sk0)
    (pkb : List U8) (hpkb : Api.pkAsBytes P (Api.getPkey P sk0) (List.replicate (PKey.byteLen P.κ P.k P.νt) 0) = .ok pkb)
    (entropy : List U8) (n N : Nat) (hn : n ≤ N) (st : Tests.RoundSt P d) (h1 : SKey.Derived P E sk0 st.sk) (h2 : st.pkBytes.length = PKey.byteLen P.κ P.k P.νt)
    (h3 : st.sigBytes.length = P.sigLen) :
    (Tests.signingRound P E fuel d (Api.getPkey P sk0) entropy n st).Out (fun x => RoundFacts P E pkb n x.1 ∧ SKey.Derived P E sk0 x.2.sk ∧
      x.2.pkBytes.length = PKey.byteLen P.κ P.k P.νt ∧ x.2.sigBytes.length = P.sigLen) (TestUndefined P E fuel d sk0 N) := by
  obtain ⟨-, w2, -, -, -, -, -, -, -, h8, -⟩ := par_bounds P hP
  obtain ⟨hsl, hplen⟩ := sigLen_ge P hP
  have wf0 := C37_wellformed P hP E fuel0 d hd entropy0 seed hseed sk0 h0
  have hpk : Api.pkAsBytes P (Api.getPkey P sk0) st.pkBytes = .ok pkb ∧ pkb.length = PKey.byteLen P.κ P.k P.νt ∧ Api.pkFromBytes P pkb = .ok (Api.getPkey P sk0) := by
    unfold Api.pkAsBytes at hpkb ⊢
    unfold Api.pkFromBytes
    rw [w2] at hpkb h2 ⊢
    obtain ⟨b, e1, e2, e3⟩ := C24_format P.κ P.k h8 (Api.getPkey P sk0) wf0.pkey.seed (List.replicate (PKey.byteLen P.κ P.k 42) 0) (by rw [List.length_replicate])
    obtain rfl := Res.ok.inj (e1.symm.trans hpkb)
    obtain ⟨b', e1', e2', e3'⟩ := C24_format P.κ P.k h8 (Api.getPkey P sk0) wf0.pkey.seed st.pkBytes h2
    obtain rfl : b' = b := bytesBits_inj (e3'.trans e3.symm)
    exact ⟨e1', e2, C24_decode_encode P.κ P.k h8 (Api.getPkey P sk0) wf0.pkey.seed wf0.pkey.t _ b' h2 e1'⟩
  obtain ⟨p1, p2, p3⟩ := hpk
  unfold Tests.signingRound
  rw [p1, Res.ok_bind, p3, Res.ok_bind]
  refine (randomBitflip_out pkb st.prng _).bind ?_
  rintro ⟨badPk, prng⟩ - ⟨b1, -, b3⟩
  replace b1 : badPk.length = pkb.length := b1
  replace b3 : OneBitOff pkb badPk := b3 (by rintro rfl; rw [List.length_nil] at p2; omega)
  obtain ⟨badPkey, p4, -⟩ := C24_api P hP badPk (b1.trans p2)
  simp only []
  rw [p4, Res.ok_bind]
  have hml : (prng.read n).1.length = n := by
    show (List.map _ (List.range _)).length = _
    rw [List.length_map, List.length_range]
  generalize (prng.read n).2 = prng2
  generalize (prng.read n).1 = msg at *
  obtain ⟨wf1, -, -⟩ := C38_history P hP E d hd sk0 st.sk wf0 h1
  obtain ⟨r1, r2⟩ := C38_refresh P E fuel d hd st.sk wf1
  refine Res.Out.bind (P := fun sk => SKey.Derived P E sk0 sk) ⟨fun sk e => .refresh fuel h1 e, fun e => absurd e r1⟩ ?_
  intro sk _ hsk
  refine Res.Out.bind (P := fun sig => sig.length = P.sigLen) ⟨fun sig e => ?_, fun e => ⟨sk, entropy, msg, st.sigBytes, hsk, by omega, h3, Or.inl e⟩⟩ ?_
  · obtain ⟨wf2, -, -⟩ := C38_history P hP E d hd sk0 sk wf0 hsk
    rw [← h3]
    exact (C35_only_acceptable P hP E fuel d hd sk wf2 entropy msg st.sigBytes sig e).1
  intro sig esig hsig
  refine (randomBitflip_out msg prng2 _).bind ?_
  rintro ⟨badMsg, prng3⟩ - ⟨m1, m2, m3⟩
  replace m1 : badMsg.length = msg.length := m1
  replace m2 : msg = [] → badMsg = msg := m2
  replace m3 : msg ≠ [] → OneBitOff msg badMsg := m3
  refine (randomBitflip_out sig prng3 _).bind ?_
  rintro ⟨badSig, prng4⟩ - ⟨s1, -, s3⟩
  replace s1 : badSig.length = sig.length := s1
  replace s3 : OneBitOff sig badSig := s3 (by rintro rfl; rw [List.length_nil] at hsig; omega)
  obtain ⟨-, pk', ep, v0⟩ := C33_correctness P hP E fuel0 fuel fuel d (Nat.le_refl _) hd entropy0 seed hseed sk0 sk h0 hsk entropy msg st.sigBytes sig esig _ pkb h2 p1
  obtain rfl := Res.ok.inj (p3.symm.trans ep)
  simp only []
  rw [v0, Res.ok_bind]
  have ntrap : ¬ (sig.length < 2 * P.κ / 8 ∨ SigTrap (P.k * 512) (P.l * 512) (bytesBits (sig.drop (2 * P.κ / 8)))) := by
    intro ht
    have := (C34_wire_undefined_iff P hP E fuel pkb p2 _ p3 msg sig).2 ht
    rw [v0] at this
    cases this
  have bad : ∀ m, Api.verify P E fuel (Api.getPkey P sk0) m badSig = .ub → TestUndefined P E fuel d sk0 N := by
    intro m e
    refine ⟨sk, entropy, msg, st.sigBytes, hsk, by omega, h3, Or.inr ⟨sig, badSig, esig, s3, ?_⟩⟩
    rcases (C34_wire_undefined_iff P hP E fuel pkb p2 _ p3 m badSig).1 e with h | h
    · omega
    · exact h
  refine Res.Out.bind (P := fun _ => True) ⟨fun _ _ => trivial, fun e => absurd ((C34_wire_undefined_iff P hP E fuel pkb p2 _ p3 _ _).1 e) ntrap⟩ fun v1 e1 _ => ?_
  refine Res.Out.bind (P := fun _ => True) ⟨fun _ _ => trivial, bad _⟩ fun v2 e2 _ => ?_
  refine Res.Out.bind (P := fun _ => True) ⟨fun _ _ => trivial, bad _⟩ fun v3 e3 _ => ?_
  refine Res.Out.bind (P := fun _ => True) ⟨fun _ _ => trivial, fun e => absurd ((C34_wire_undefined_iff P hP E fuel badPk (b1.trans p2) _ p4 _ _).1 e) ntrap⟩
    fun v4 e4 _ => ?_
  refine Res.Out.ok ⟨⟨rfl, b3, hml, ?_, hsig, s3, rfl, ?_, ?_, ?_, ?_, ?_⟩, hsk, b1.trans p2, hsig⟩
  · show if n = 0 then badMsg = msg else OneBitOff msg badMsg
    split
    · exact m2 (List.length_eq_zero_iff.1 (by omega))
    · exact m3 (by rintro rfl; rw [List.length_nil] at hml; omega)
  · intro hn0
    show v1 = true
    rw [m2 (List.length_eq_zero_iff.1 (by omega)), v0] at e1
    exact (Res.ok.inj e1).symm
  · rintro hn0 (rfl : v1 = true)
    have hne := (m3 (by rintro rfl; rw [List.length_nil] at hml; omega)).ne.2
    exact C58_binds_key_and_message P hP E fuel fuel pkb pkb p2 p2 _ _ p3 p3 msg badMsg sig v0 e1 (Or.inr hne.symm)
  · rintro (rfl : v2 = true)
    exact flipped_accepted P hP E fuel fuel pkb p2 _ p3 msg msg sig badSig v0 e2 s3
  · rintro (rfl : v3 = true)
    exact flipped_accepted P hP E fuel fuel pkb p2 _ p3 msg badMsg sig badSig v0 e3 s3
  · rintro (rfl : v4 = true)
    exact C58_binds_key_and_message P hP E fuel fuel pkb badPk p2 (b1.trans p2) _ _ p3 p4 msg msg sig v0 e4 (Or.inl b3.ne.2.symm)

/-- A generated key can be written and read back. -/
theorem skSave_out (P : Par) (hP : P = raccoon128 ∨ P = raccoon192 ∨ P = raccoon256) (E : Ext) (fuel d : Nat) (hd : ValidShares d) (sk0 : SKey P.k P.l d)
    (wf0 : sk0.WF P) (saveEntropy : List U8) (U : Prop) :
    (Api.skAsBytes P E fuel sk0 saveEntropy (List.replicate (SKey.byteLen P.κ P.k P.l d P.νt) 0)).Out
      (fun b => ∃ sk, Api.skFromBytes P E fuel d b = .ok sk ∧ SKey.Derived P E sk0 sk) U := by
  obtain ⟨-, w2, -, -, -, -, -, -, -, h8, -⟩ := par_bounds P hP
  have hrt := C25_round_trip E fuel fuel P.κ P.k P.l d h8 hd.pos (Nat.le_refl _) sk0 wf0.pkey.seed wf0.pkey.t wf0.s
    (List.replicate (SKey.byteLen P.κ P.k P.l d 42) 0) (by rw [List.length_replicate]) (Prng.new E saveEntropy)
  constructor
  · intro b eb
    have e := eb
    unfold Api.skAsBytes at e
    rw [w2] at e
    obtain ⟨⟨b', p'⟩, e1, e2⟩ := Res.bind_eq_ok.1 e
    obtain rfl : b' = b := Res.ok.inj e2
    obtain ⟨-, sk, e3, -⟩ := hrt.2 b' p' e1
    have e4 : Api.skFromBytes P E fuel d b' = .ok sk := by
      unfold Api.skFromBytes
      rw [w2]
      exact e3
    exact ⟨sk, e4, .reload fuel fuel saveEntropy _ b' .refl List.length_replicate eb e4⟩
  · intro e
    exfalso
    unfold Api.skAsBytes at e
    rw [w2] at e
    cases hx : sk0.toBytes E fuel P.κ 42 (List.replicate (SKey.byteLen P.κ P.k P.l d 42) 0) (Prng.new E saveEntropy) with
    | ok r => rw [hx, Res.ok_bind] at e; cases e
    | ub => exact hrt.1 hx
    | nofuel => rw [hx] at e; cases e

theorem pkSave_ok (P : Par) (hP : P = raccoon128 ∨ P = raccoon192 ∨ P = raccoon256) (pk : PKey P.k) (wf : pk.WF P) :
    ∃ pkb, Api.pkAsBytes P pk (List.replicate (PKey.byteLen P.κ P.k P.νt) 0) = .ok pkb ∧ pkb.length = PKey.byteLen P.κ P.k P.νt ∧ Api.pkFromBytes P pkb = .ok pk := by
  obtain ⟨-, w2, -, -, -, -, -, -, -, h8, -⟩ := par_bounds P hP
  unfold Api.pkAsBytes Api.pkFromBytes
  rw [w2]
  obtain ⟨b, e1, e2, -⟩ := C24_format P.κ P.k h8 pk wf.seed (List.replicate (PKey.byteLen P.κ P.k 42) 0) (by rw [List.length_replicate])
  exact ⟨b, e1, e2, C24_decode_encode P.κ P.k h8 pk wf.seed wf.t _ b (by rw [List.length_replicate]) e1⟩

/-- What happens before the loop: a key is generated, and the copy read back from its bytes is derived from it. -/
theorem signing_start {α : Type} (P : Par) (hP : P = raccoon128 ∨ P = raccoon192 ∨ P = raccoon256) (E : Ext) (fuel d : Nat) (hd : ValidShares d)
    (genEntropy saveEntropy seed : List U8) (hseed : seed.length = P.κ / 8) (U : SKey P.k P.l d → Prop) (Q : α → Prop)
    (f : SKey P.k P.l d → List U8 → SKey P.k P.l d → Res α)
    (hf : ∀ sk0 skb sk, Api.generate P (utTableOf P) E fuel d genEntropy seed = Res.ok sk0 → SKey.Derived P E sk0 sk → (f sk0 skb sk).Out Q (U sk0)) :
    Res.Out (do
      let skey ← Api.generate P (utTableOf P) E fuel d genEntropy seed
      let skBytes ← Api.skAsBytes P E fuel skey saveEntropy (List.replicate (SKey.byteLen P.κ P.k P.l d P.νt) 0)
      let decodedSkey ← Api.skFromBytes P E fuel d skBytes
      f skey skBytes decodedSkey) Q (∃ sk0, Api.generate P (utTableOf P) E fuel d genEntropy seed = Res.ok sk0 ∧ U sk0) := by
  obtain ⟨-, w2, -, -, -, -, -, -, -, h8, -⟩ := par_bounds P hP
  refine Res.Out.bind (P := fun _ => True) ⟨fun _ _ => trivial, fun e => absurd e (C37_key_generation P hP E fuel d hd genEntropy seed).1⟩ ?_
  intro sk0 e0 _
  have wf0 := C37_wellformed P hP E fuel d hd genEntropy seed hseed sk0 e0
  refine (skSave_out P hP E fuel d hd sk0 wf0 saveEntropy _).bind ?_
  rintro b - ⟨sk, esk, hder⟩
  rw [esk, Res.ok_bind]
  have := hf sk0 b sk e0 hder
  exact ⟨this.1, fun e => ⟨sk0, e0, this.2 e⟩⟩

theorem signing_out (P : Par) (hP : P = raccoon128 ∨ P = raccoon192 ∨ P = raccoon256) (E : Ext) (fuel d : Nat) (hd : ValidShares d)
    (testEntropy genEntropy saveEntropy : List U8) (signEntropy : Nat → List U8) (tillMlen : Nat) :
    (Tests.signing P E fuel d testEntropy genEntropy saveEntropy signEntropy tillMlen).Out
      (fun rs => rs.length = tillMlen + 1 ∧ ∃ pkb : List U8, pkb.length = PKey.byteLen P.κ P.k P.νt ∧ ∀ n (hn : n < rs.length), RoundFacts P E pkb n rs[n])
      (∃ sk0, Api.generate P (utTableOf P) E fuel d genEntropy (xofOut E.shake128 testEntropy (P.κ / 8)) = .ok sk0 ∧ TestUndefined P E fuel d sk0 tillMlen) := by
  obtain ⟨-, w2, -, -, -, -, -, -, -, h8, -⟩ := par_bounds P hP
  unfold Tests.signing
  have hs : ((Prng.new E testEntropy).read (P.κ / 8)).1 = xofOut E.shake128 testEntropy (P.κ / 8) := by
    show List.map (fun i => E.shake128 testEntropy (0 + i)) _ = _
    unfold xofOut
    simp only [Nat.zero_add]
  simp only [hs]
  generalize ((Prng.new E testEntropy).read (P.κ / 8)).2 = prng
  have hseed : (xofOut E.shake128 testEntropy (P.κ / 8)).length = P.κ / 8 := xofOut_length ..
  refine signing_start P hP E fuel d hd genEntropy saveEntropy _ hseed (fun sk0 => TestUndefined P E fuel d sk0 tillMlen) _
    (fun skey _ decodedSkey => Tests.signingRounds P E fuel d (Api.getPkey P skey) signEntropy tillMlen
      ⟨decodedSkey, prng, List.replicate (PKey.byteLen P.κ P.k P.νt) 0, List.replicate P.sigLen 0⟩) ?_
  intro sk0 _ sk e0 hder
  have wf0 := C37_wellformed P hP E fuel d hd genEntropy _ hseed sk0 e0
  obtain ⟨pkb, hpkb, hpl, -⟩ := pkSave_ok P hP (Api.getPkey P sk0) wf0.pkey
  unfold Tests.signingRounds
  refine Res.Out.bind (P := fun x : List Tests.Round × Tests.RoundSt P d => x.1.length = tillMlen + 1 ∧ ∀ n (hn : n < x.1.length), RoundFacts P E pkb n x.1[n]) ?_
    fun x _ hx => Res.Out.ok ⟨hx.1, pkb, hpl, hx.2⟩
  have hloop := forLoop_Out1 (lo := 0) (hi := tillMlen + 1) (Nat.zero_le _)
    (body := fun mlen (s : List Tests.Round × Tests.RoundSt P d) => do
      let r ← Tests.signingRound P E fuel d (Api.getPkey P sk0) (signEntropy mlen) mlen s.2
      .ok (s.1 ++ [r.1], r.2))
    (s := ([], ⟨sk, prng, List.replicate (PKey.byteLen P.κ P.k P.νt) 0, List.replicate P.sigLen 0⟩))
    (fun i s => s.1.length = i ∧ (∀ n (hn : n < s.1.length), RoundFacts P E pkb n s.1[n]) ∧ SKey.Derived P E sk0 s.2.sk ∧
      s.2.pkBytes.length = PKey.byteLen P.κ P.k P.νt ∧ s.2.sigBytes.length = P.sigLen) (TestUndefined P E fuel d sk0 tillMlen)
    ⟨rfl, fun n hn => absurd hn (Nat.not_lt_zero _), hder, List.length_replicate, List.length_replicate⟩ ?_
  · exact ⟨fun x e => ⟨(hloop.1 x e).1, (hloop.1 x e).2.1⟩, hloop.2⟩
  · rintro i ⟨rs, st⟩ - hi ⟨i1, i2, i3, i4, i5⟩
    replace i1 : rs.length = i := i1
    refine (signingRound_out P hP E fuel fuel d hd genEntropy _ hseed sk0 e0 pkb hpkb (signEntropy i) i tillMlen (by omega) st i3 i4 i5).bind ?_
    rintro ⟨r, st'⟩ - ⟨j1, j2, j3, j4⟩
    refine Res.Out.ok ⟨?_, ?_, j2, j3, j4⟩
    · show (rs ++ [r]).length = _
      rw [List.length_append, i1]; rfl
    · intro n hn
      show RoundFacts P E pkb n (rs ++ [r])[n]
      replace hn : n < (rs ++ [r]).length := hn
      rcases Nat.lt_or_ge n rs.length with h | h
      · rw [List.getElem_append_left h]; exact i2 n h
      · rw [List.length_append, List.length_singleton] at hn
        obtain rfl : n = i := by omega
        rw [List.getElem_append_right h]
        simpa [i1] using j1

/-- C72: whenever the signing test comes to its end (any parameter set, share count, message length, entropy, hash function), it ran one round for each message
length, the signature it made was accepted in every round, also for the (unspoilt) empty message, and if a spoilt message, signature or public key was accepted, then
a collision, a near-collision or a short vector in the kernel of the public matrix is exhibited (`RoundFacts`). -/
theorem C72_signing_test (P : Par) (hP : P = raccoon128 ∨ P = raccoon192 ∨ P = raccoon256) (E : Ext) (fuel d : Nat) (hd : ValidShares d)
    (testEntropy genEntropy saveEntropy : List U8) (signEntropy : Nat → List U8) (tillMlen : Nat) (rs : List Tests.Round)
    (h : Tests.signing P E fuel d testEntropy genEntropy saveEntropy signEntropy tillMlen = .ok rs) :
    rs.length = tillMlen + 1 ∧ ∃ pkb : List U8, pkb.length = PKey.byteLen P.κ P.k P.νt ∧ ∀ n (hn : n < rs.length), RoundFacts P E pkb n rs[n] :=
  (signing_out P hP E fuel d hd testEntropy genEntropy saveEntropy signEntropy tillMlen).1 rs h

/-- C72: the assertions of a round fail only if there is such a break. -/
theorem C72_fails_only_by_break (P : Par) (hP : P = raccoon128 ∨ P = raccoon192 ∨ P = raccoon256) (E : Ext) (fuel d : Nat) (hd : ValidShares d)
    (testEntropy genEntropy saveEntropy : List U8) (signEntropy : Nat → List U8) (tillMlen : Nat) (rs : List Tests.Round)
    (h : Tests.signing P E fuel d testEntropy genEntropy saveEntropy signEntropy tillMlen = .ok rs) (r : Tests.Round) (hr : r ∈ rs) (hf : r.pass = false) :
    HashCollision P E r.pkBytes r.msg r.sig r.pkBytes r.badMsg r.sig ∨ HashCollision P E r.pkBytes r.msg r.sig r.badPkBytes r.msg r.sig ∨
      SignatureBreak P E r.pkBytes r.msg r.sig r.msg r.badSig ∨ SignatureBreak P E r.pkBytes r.msg r.sig r.badMsg r.badSig := by
  obtain ⟨-, pkb, -, hall⟩ := C72_signing_test P hP E fuel d hd testEntropy genEntropy saveEntropy signEntropy tillMlen rs h
  obtain ⟨n, hn, rfl⟩ := List.getElem_of_mem hr
  have F := hall n hn
  generalize rs[n] = r at *
  rw [F.pk]
  by_contra hc
  push Not at hc
  obtain ⟨c1, c2, c3, c4⟩ := hc
  have v2 : r.v2 = false := by cases e : r.v2; rfl; exact absurd (F.v2 e) c3
  have v3 : r.v3 = false := by cases e : r.v3; rfl; exact absurd (F.v3 e) c4
  have v4 : r.v4 = false := by cases e : r.v4; rfl; exact absurd (F.v4 e) c2
  have v1 : (if r.msg.length > 0 then !r.v1 else r.v1) = true := by
    rw [F.msg]
    split
    · next h => cases e : r.v1; rfl; exact absurd (F.v1' h e) c1
    · exact F.v1 (by omega)
  have : r.pass = true := by
    unfold Tests.Round.pass
    rw [F.v0, v1, v2, v3, v4]
    rfl
  rw [this] at hf
  cases hf

/-- C72: the signing test is undefined only if a call of `sign` is (C52) or if a flipped bit leads the decoder of signatures into a trap (C34). -/
theorem C72_undefined_only (P : Par) (hP : P = raccoon128 ∨ P = raccoon192 ∨ P = raccoon256) (E : Ext) (fuel d : Nat) (hd : ValidShares d)
    (testEntropy genEntropy saveEntropy : List U8) (signEntropy : Nat → List U8) (tillMlen : Nat)
    (h : Tests.signing P E fuel d testEntropy genEntropy saveEntropy signEntropy tillMlen = .ub) :
    ∃ sk0, Api.generate P (utTableOf P) E fuel d genEntropy (xofOut E.shake128 testEntropy (P.κ / 8)) = .ok sk0 ∧ TestUndefined P E fuel d sk0 tillMlen :=
  (signing_out P hP E fuel d hd testEntropy genEntropy saveEntropy signEntropy tillMlen).2 h

/-- C72: the example program: whenever it comes to its end its final assertion holds; it is undefined only if its call of `sign` is. (The program uses
Raccoon-256 with 32 shares; its seed has 32 bytes, so 𝜅 = 256.) -/
theorem C72_example (P : Par) (hP : P = raccoon128 ∨ P = raccoon192 ∨ P = raccoon256) (hκ : P.κ = 256) (E : Ext) (fuel d : Nat) (hd : ValidShares d)
    (mainEntropy genEntropy saveEntropy signEntropy : List U8) :
    (∀ r, Tests.exampleMain P E fuel d mainEntropy genEntropy saveEntropy signEntropy = .ok r → r = true) ∧
    (Tests.exampleMain P E fuel d mainEntropy genEntropy saveEntropy signEntropy = .ub →
      ∃ sk0 sk : SKey P.k P.l d, Api.generate P (utTableOf P) E fuel d genEntropy (xofOut E.shake128 mainEntropy 32) = .ok sk0 ∧
        SKey.Derived P E sk0 sk ∧ ∃ msg : List U8, msg.length = 32 ∧ Api.sign P E fuel d sk signEntropy msg (List.replicate P.sigLen 0) = .ub) := by
  have hmain : (Tests.exampleMain P E fuel d mainEntropy genEntropy saveEntropy signEntropy).Out (fun r => r = true)
      (∃ sk0 sk : SKey P.k P.l d, Api.generate P (utTableOf P) E fuel d genEntropy (xofOut E.shake128 mainEntropy 32) = .ok sk0 ∧
        SKey.Derived P E sk0 sk ∧ ∃ msg : List U8, msg.length = 32 ∧ Api.sign P E fuel d sk signEntropy msg (List.replicate P.sigLen 0) = .ub) := by
    unfold Tests.exampleMain
    have hs : ((Prng.new E mainEntropy).read 32).1 = xofOut E.shake128 mainEntropy 32 := by
      show List.map (fun i => E.shake128 mainEntropy (0 + i)) _ = _
      unfold xofOut
      simp only [Nat.zero_add]
    have hml : ((((Prng.new E mainEntropy).read 32).2.read 32).1).length = 32 := by
      show (List.map _ (List.range _)).length = _
      rw [List.length_map, List.length_range]
    simp only [hs]
    generalize (((Prng.new E mainEntropy).read 32).2.read 32).1 = msg at *
    have hseed : (xofOut E.shake128 mainEntropy 32).length = P.κ / 8 := by rw [xofOut_length, hκ]
    refine Res.Out.bind (P := fun _ => True) ⟨fun _ _ => trivial, fun e => absurd e (C37_key_generation P hP E fuel d hd genEntropy _).1⟩ ?_
    intro sk0 e0 _
    have wf0 := C37_wellformed P hP E fuel d hd genEntropy _ hseed sk0 e0
    refine (skSave_out P hP E fuel d hd sk0 wf0 saveEntropy _).bind ?_
    rintro b - ⟨sk1, e1, hder⟩
    obtain ⟨pkb, p1, -, p3⟩ := pkSave_ok P hP (Api.getPkey P sk0) wf0.pkey
    rw [p1, Res.ok_bind, e1, Res.ok_bind, p3, Res.ok_bind]
    obtain ⟨wf1, -, -⟩ := C38_history P hP E d hd sk0 sk1 wf0 hder
    obtain ⟨r1, -⟩ := C38_refresh P E fuel d hd sk1 wf1
    refine Res.Out.bind (P := fun sk => SKey.Derived P E sk0 sk) ⟨fun sk e => .refresh fuel hder e, fun e => absurd e r1⟩ ?_
    intro sk _ hsk
    refine Res.Out.bind (P := fun _ => True) ⟨fun _ _ => trivial, fun e => ⟨sk0, sk, e0, hsk, msg, hml, e⟩⟩ ?_
    intro sig esig _
    obtain ⟨-, pk', ep, v0⟩ := C33_correctness P hP E fuel fuel fuel d (Nat.le_refl _) hd genEntropy _ hseed sk0 sk e0 hsk signEntropy msg _ sig esig _ pkb
      List.length_replicate p1
    obtain rfl := Res.ok.inj (p3.symm.trans ep)
    rw [v0]
    exact Res.Out.ok rfl
  exact hmain

/-- The instance in examples/raccoon256.cpp. -/
example (E : Ext) (fuel : Nat) (a b c e : List U8) (r : Bool) (h : Tests.exampleMain raccoon256 E fuel 32 a b c e = .ok r) : r = true :=
  (C72_example raccoon256 (Or.inr (Or.inr rfl)) rfl E fuel 32 ⟨5, by omega, rfl⟩ a b c e).1 r h

end Raccoon
