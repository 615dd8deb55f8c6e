import Verif.Proofs.SigRel
import Verif.Props.Keys
/-!
# Signature encoding: C27–C31
-/
namespace Raccoon
attribute [-instance] Monoid.toNPow

/-! ### C27 -/

/-- C27: whenever `encode_sig` reports success, `decode_sig` of the bytes succeeds with the same hash, hints and responses: no
condition on the size of the coefficients or of the byte budget is needed. -/
theorem C27_round_trip (c : List U8) (h z : List Int) (buf b : List U8) (hz : 2 ≤ z.length) (e : encodeSig c h z buf = .ok (true, b)) :
    decodeSig c.length h.length z.length b = .ok (some (c, h, z)) := by
  obtain ⟨i, f⟩ := encodeSig_true e
  exact decodeSig_complete ⟨rfl, i.2⟩ ⟨f.1, f.2.1⟩ hz

/-- C27 on signature objects: `from_bytes ∘ to_bytes = id` whenever `to_bytes` returns true. -/
theorem C27_api (κ k l : Nat) (hl : 0 < l) (s : Sig) (hc : s.cHash.length = 2 * κ / 8) (hh : s.h.length = k * 512) (hz : s.z.length = l * 512)
    (buf b : List U8) (e : s.toBytes buf = .ok (true, b)) : Sig.fromBytes κ k l b = .ok (some s) := by
  have := C27_round_trip s.cHash s.h s.z buf b (by omega) e
  unfold Sig.fromBytes
  rw [← hc, ← hh, ← hz, this]
  rfl

/-- A small signature: 2 hint and 2 response coefficients in 15 bytes. -/
theorem demo_sig : ∃ b, encodeSig [0xab] [2, -1] [-5, 3 * 2 ^ 40 + 7] (List.replicate 15 0x55) = .ok (true, b) ∧
    decodeSig 1 2 2 b = .ok (some ([0xab], [2, -1], [-5, 3 * 2 ^ 40 + 7])) := by
  have h40 : (2 : Nat) ^ 40 = 1099511627776 := by norm_num
  have h40Z : (2 : Int) ^ 40 = 1099511627776 := by norm_num
  have hb : (sigBits [2, -1] [-5, 3 * 2 ^ 40 + 7]).length = 94 := by
    rw [h40Z]; unfold sigBits
    rw [List.length_append, List.flatMap_cons, List.flatMap_cons, List.flatMap_cons, List.flatMap_cons]
    simp only [List.length_append, hintBits_length, respBits_length, List.flatMap_nil, List.length_nil]
    rw [h40]; rfl
  rcases encodeSig_cases [0xab] [2, -1] [-5, 3 * 2 ^ 40 + 7] (List.replicate 15 0x55) (by simp) with ⟨b, e, i, f⟩ | ⟨b, e, hn⟩ | ⟨e, hn⟩
  · exact ⟨b, e, C27_round_trip _ _ _ _ b (by simp) e⟩
  · rw [hb, List.length_replicate] at hn
    simp at hn
  · refine absurd (fitSig_of (zl := 3 * 2 ^ 40 + 7) ?_ ?_ rfl ?_) hn
    · intro x hx; simp at hx; omega
    · rw [h40Z]; intro x hx; simp at hx; omega
    · rw [h40Z]; omega

/-! ### C28 -/

/-- C28: on success the output is the specified encoding padded with zeros, whatever the buffer held before. -/
theorem C28_format (c : List U8) (h z : List Int) (buf b : List U8) (e : encodeSig c h z buf = .ok (true, b)) : IsSigEncoding c h z buf.length b :=
  (encodeSig_true e).1

/-- C28: success only if it fits, failure only if it does not; no other defined outcome. -/
theorem C28_decision (c : List U8) (h z : List Int) (buf : List U8) :
    (∃ b, encodeSig c h z buf = .ok (true, b) ∧ 8 * c.length + (sigBits h z).length ≤ 8 * buf.length) ∨
    (∃ b, encodeSig c h z buf = .ok (false, b) ∧ 8 * buf.length < 8 * c.length + (sigBits h z).length) ∨
    encodeSig c h z buf = .ub := by
  by_cases hc : c.length ≤ buf.length
  · rcases encodeSig_cases c h z buf hc with ⟨b, e, i, -⟩ | ⟨b, e, i⟩ | ⟨e, -⟩
    · exact Or.inl ⟨b, e, i.fits⟩
    · exact Or.inr (Or.inl ⟨b, e, i⟩)
    · exact Or.inr (Or.inr e)
  · exact Or.inr (Or.inr (encodeSig_short hc))

/-- C28: for coefficients in range nothing is undefined (in particular nothing is written out of bounds), and the flag is
exactly "the encoding fits in the buffer". -/
theorem C28_in_range (c : List U8) (h z : List Int) (buf : List U8) (hc : c.length ≤ buf.length) (zl : Int) (hh : ∀ x ∈ h, x.natAbs ≤ 54)
    (hz : ∀ x ∈ z, x.natAbs < 15 * 2 ^ 40) (hl : z.getLast? = some zl) (hzl : zl.natAbs < 8 * 2 ^ 40) :
    ∃ b, encodeSig c h z buf = .ok (decide (8 * c.length + (sigBits h z).length ≤ 8 * buf.length), b) := by
  rcases encodeSig_cases c h z buf hc with ⟨b, e, i, -⟩ | ⟨b, e, i⟩ | ⟨e, hf⟩
  · rw [decide_eq_true i.fits]; exact ⟨b, e⟩
  · rw [decide_eq_false (by omega)]; exact ⟨b, e⟩
  · exact absurd (fitSig_of hh hz hl hzl) hf

/-- C28: the previous content of the buffer influences neither the flag nor the encoded bytes. -/
theorem C28_buffer_independent (c : List U8) (h z : List Int) (buf buf' b b' : List U8) (f f' : Bool) (hl : buf.length = buf'.length)
    (e : encodeSig c h z buf = .ok (f, b)) (e' : encodeSig c h z buf' = .ok (f', b')) : f = f' ∧ (f = true → b = b') := by
  have := encodeSig_buf c h z hl
  rw [e, e'] at this
  cases this with
  | ok h => exact ⟨h.1, h.2.2⟩

/-! ### C29 -/

/-- C29: whatever `decode_sig` accepts is exactly the specified encoding of what it returns, followed by zero padding. -/
theorem C29_canonical (hashLen hLen zLen : Nat) (b c : List U8) (h z : List Int) (e : decodeSig hashLen hLen zLen b = .ok (some (c, h, z))) :
    c.length = hashLen ∧ h.length = hLen ∧ z.length = zLen ∧ IsSigEncoding c h z b.length b := by
  by_cases hl : hashLen ≤ b.length
  · rcases decodeSig_cases hashLen hLen zLen b hl with e' | ⟨c', h', z', e', l1, l2, l3, i, -⟩ | ⟨e', -⟩
    · rw [e'] at e; cases e
    · rw [e'] at e
      have := Option.some.inj (Res.ok.inj e)
      obtain ⟨rfl, h2⟩ := Prod.mk.inj this
      obtain ⟨rfl, rfl⟩ := Prod.mk.inj h2
      exact ⟨l1, l2, l3, i⟩
    · rw [e'] at e; cases e
  · rw [decodeSig_short hl] at e; cases e

/-- C29: two different byte strings of the same length never decode to the same signature. -/
theorem C29_not_malleable (hashLen hLen zLen : Nat) (b b' : List U8) (hl : b.length = b'.length) (s : List U8 × List Int × List Int)
    (e : decodeSig hashLen hLen zLen b = .ok (some s)) (e' : decodeSig hashLen hLen zLen b' = .ok (some s)) : b = b' := by
  obtain ⟨c, h, z⟩ := s
  have i := (C29_canonical _ _ _ _ _ _ _ e).2.2.2
  have i' := (C29_canonical _ _ _ _ _ _ _ e').2.2.2
  rw [← hl] at i'
  exact i.unique i'

/-- C29 on signature objects. -/
theorem C29_api (κ k l : Nat) (b b' : List U8) (hl : b.length = b'.length) (s : Sig)
    (e : Sig.fromBytes κ k l b = .ok (some s)) (e' : Sig.fromBytes κ k l b' = .ok (some s)) : b = b' := by
  have key : ∀ b, Sig.fromBytes κ k l b = .ok (some s) → decodeSig (2 * κ / 8) (k * 512) (l * 512) b = .ok (some (s.cHash, s.h, s.z)) := by
    intro b e
    unfold Sig.fromBytes at e
    cases hd : decodeSig (2 * κ / 8) (k * 512) (l * 512) b with
    | ok r =>
      rw [hd, Res.ok_bind] at e
      cases r with
      | none => exact absurd (Res.ok.inj e) (by simp)
      | some r =>
        have := Option.some.inj (Res.ok.inj e)
        subst this
        rfl
    | ub => rw [hd] at e; cases e
    | nofuel => rw [hd] at e; cases e
  exact C29_not_malleable _ _ _ b b' hl _ (key b e) (key b' e')

/-- The specified format itself is unambiguous (so C29 really pins down the signature). -/
theorem C29_format_injective (c c' : List U8) (h h' z z' : List Int) (L : Nat) (b : List U8) (e : IsSigEncoding c h z L b) (e' : IsSigEncoding c' h' z' L b)
    (hc : c.length = c'.length) (hh : h.length = h'.length) (hz : z.length = z'.length) : c = c' ∧ h = h' ∧ z = z' :=
  e.inj e' hc hh hz

/-- The hypothesis of C29 is met by the demo signature. -/
theorem demo_sig_canonical : ∃ b, decodeSig 1 2 2 b = .ok (some ([0xab], [2, -1], [-5, 3 * 2 ^ 40 + 7])) :=
  let ⟨b, _, h⟩ := demo_sig
  ⟨b, h⟩

/-! ### C30 -/

/-- C30: decoding a byte string of at least the hash length is defined unless its payload has 16 consecutive one bits or a one
among its last 41 bits. -/
theorem C30_defined (hashLen hLen zLen : Nat) (b : List U8) (hl : hashLen ≤ b.length)
    (hrun : ¬ List.replicate 16 true <:+: bytesBits (b.drop hashLen))
    (htail : ∀ T, T <:+ bytesBits (b.drop hashLen) → T.length ≤ 41 → true ∉ T) :
    ∃ r, decodeSig hashLen hLen zLen b = .ok r := by
  rcases decodeSig_cases hashLen hLen zLen b hl with e | ⟨c, h, z, e, -⟩ | ⟨-, ⟨pre, post, hb⟩ | ⟨pre, T, hb, h1, h2⟩⟩
  · exact ⟨_, e⟩
  · exact ⟨_, e⟩
  · exact absurd ⟨pre, post, by rw [hb, List.append_assoc]⟩ hrun
  · exact absurd h2 (htail T ⟨pre, hb.symm⟩ h1)

/-- The hypotheses of `C30_defined` are met by every payload of zero bytes (and such a payload can be a valid signature). -/
theorem C30_defined_example (c : List U8) (n : Nat) :
    ¬ List.replicate 16 true <:+: bytesBits ((c ++ List.replicate n 0).drop c.length) ∧
    ∀ T, T <:+ bytesBits ((c ++ List.replicate n 0).drop c.length) → T.length ≤ 41 → true ∉ T := by
  rw [List.drop_left, bytesBits_replicate_zero]
  have hm : ∀ (T : List Bool), T <:+: List.replicate (8 * n) false → true ∉ T := by
    intro T hT ht
    have := hT.subset ht
    rw [List.mem_replicate] at this
    exact absurd this.2 (by decide)
  exact ⟨fun h => hm _ h (by simp), fun T hT _ => hm T hT.isInfix⟩

theorem C30_bytes : bytesBits [0xff, 0xff, 0xff, 0xff, 0xff, 0xff, 0xff, 0x3f] = hintBits 62 := by decide

/-- C30 (negative): decoding is undefined for every hash and every continuation if the first eight payload bytes are
ff ff ff ff ff ff ff 3f: the decoder shifts a 64-bit word by 64. -/
theorem C30_undefined (c tail : List U8) (hLen zLen : Nat) (hh : 0 < hLen) :
    decodeSig c.length hLen zLen (c ++ [0xff, 0xff, 0xff, 0xff, 0xff, 0xff, 0xff, 0x3f] ++ tail) = .ub := by
  obtain ⟨p, hp, hpl, hpb⟩ : ∃ p : List U8, p = [0xff, 0xff, 0xff, 0xff, 0xff, 0xff, 0xff, 0x3f] ∧ p.length = 8 ∧ bytesBits p = hintBits 62 :=
    ⟨_, rfl, rfl, C30_bytes⟩
  rw [← hp]
  obtain ⟨sig, hsig⟩ : ∃ sig, sig = c ++ p ++ tail := ⟨_, rfl⟩
  rw [← hsig]
  have hlen : sig.length = c.length + 8 + tail.length := by rw [hsig]; simp [hpl]; omega
  have hdrop : sig.drop c.length = p ++ tail := by rw [hsig, List.append_assoc, List.drop_left]
  obtain ⟨n, rfl⟩ : ∃ n, hLen = n + 1 := ⟨hLen - 1, by omega⟩
  rw [decodeSig_eq, subspan_ok (by omega), Res.ok_bind, decHLoop_succ]
  have h0 : BR sig (bytesBits (sig.drop c.length)) c.length 0 (0 : U64).toNat := BR.start (by omega)
  obtain ⟨s0, hs0⟩ : ∃ s : DecSt, s = ⟨c.length, 0, 0, []⟩ := ⟨_, rfl⟩
  rw [← hs0]
  have h0' : BR sig (bytesBits (sig.drop c.length)) s0.off s0.buffer s0.bitOff.toNat := by rw [hs0]; exact h0
  have hoff : s0.off = c.length := by rw [hs0]
  have hb0 : s0.bitOff.toNat = 0 := by rw [hs0]; rfl
  rw [if_pos (by omega)]
  obtain ⟨m, s1, e1, ho, hout, hbr, h64, hw, h57⟩ := decRefill_ok h0' (by omega)
  rw [e1, Res.ok_bind]
  dsimp only
  have hRl : (bytesBits (sig.drop c.length)).length = 8 * (sig.length - c.length) := by rw [bytesBits_length, List.length_drop]
  have hb1 : s1.bitOff.toNat = 64 := by
    rcases hw (by omega) with ⟨-, hw⟩ | hw <;> omega
  obtain ⟨bs, k1, k2, k3⟩ := hbr.bits
  have hlh : (hintBits 62).length = 64 := by rw [hintBits_length]; rfl
  have hbs : bs = tailBits 62 62 ++ [] := by
    have : bs.take 64 = hintBits 62 := by
      rw [← List.take_append_of_le_length (l₂ := bytesBits (sig.drop (s0.off + m))) (by omega), k3, hdrop, bytesBits_append, hpb, ← hlh]
      exact List.take_left
    rw [List.append_nil, ← List.take_of_length_le (l := bs) (i := 64) (by omega)]
    exact this
  rw [decodeHintCoeff_eq, decTail_eq (x := 62) (n := 62) (hbs ▸ k2) (hbs ▸ k1) h64 rfl, Res.ok_bind]
  have hl2 : (tailBits 62 62).length = 64 := hlh
  rw [hl2]
  show ((if 64 > 0 then _ else _ : Res _) >>= _) = _
  rw [if_pos (by omega), shr64_ub (by omega)]
  rfl

/-- C30 (negative), for `verify` with any of the three parameter sets, any public key, message and any such signature. -/
theorem C30_verify_undefined (P : Par) (hP : P = raccoon128 ∨ P = raccoon192 ∨ P = raccoon256) (E : Ext) (fuel : Nat) (pk : PKey P.k) (msg c tail : List U8)
    (hc : c.length = 2 * P.κ / 8) : Api.verify P E fuel pk msg (c ++ [0xff, 0xff, 0xff, 0xff, 0xff, 0xff, 0xff, 0x3f] ++ tail) = .ub := by
  have hk : 0 < P.k * 512 := by rcases hP with rfl | rfl | rfl <;> decide
  unfold Api.verify PKey.verify Sig.fromBytes
  rw [← hc, C30_undefined c tail _ _ hk]
  rfl

/-! ### C31 -/

/-- C31: a response coefficient of magnitude 22·2^40 or more is never encoded: the encoder does not report success. -/
theorem C31_large_never_encoded (c : List U8) (h z : List Int) (buf b : List U8) (x : Int) (hx : x ∈ z) (hb : 22 * 2 ^ 40 ≤ x.natAbs) :
    encodeSig c h z buf ≠ .ok (true, b) := by
  have h40 : (2 : Nat) ^ 40 = 1099511627776 := by norm_num
  intro e
  have := (encodeSig_true e).2.2.1.mem x hx
  rw [respBits_length] at this
  split at this <;> omega

/-- C31: and it does not report failure either if the encoding would fit: the behaviour is undefined (a shift by 64 or more), although
such a coefficient passes the norm check of every parameter set (see `C31_norms_allow`). -/
theorem C31_large_undefined (c : List U8) (h z : List Int) (buf : List U8) (x : Int) (hx : x ∈ z) (hb : 22 * 2 ^ 40 ≤ x.natAbs)
    (hfit : 8 * c.length + (sigBits h z).length ≤ 8 * buf.length) : encodeSig c h z buf = .ub := by
  rcases C28_decision c h z buf with ⟨b, e, -⟩ | ⟨b, e, hn⟩ | e
  · exact absurd e (C31_large_never_encoded c h z buf b x hx hb)
  · omega
  · exact e

/-- C31: nor does decoding ever produce such a coefficient: every decoded response is below 23·2^40 and every decoded hint at most 61. -/
theorem C31_decoded_bound (hashLen hLen zLen : Nat) (b c : List U8) (h z : List Int) (e : decodeSig hashLen hLen zLen b = .ok (some (c, h, z))) :
    (∀ x ∈ h, x.natAbs ≤ 61) ∧ ∀ x ∈ z, x.natAbs < 23 * 2 ^ 40 := by
  have h40 : (2 : Nat) ^ 40 = 1099511627776 := by norm_num
  by_cases hl : hashLen ≤ b.length
  · rcases decodeSig_cases hashLen hLen zLen b hl with e' | ⟨c', h', z', e', -, -, -, -, b1, b2⟩ | ⟨e', -⟩
    · rw [e'] at e; cases e
    · rw [e'] at e
      have := Option.some.inj (Res.ok.inj e)
      obtain ⟨rfl, h2⟩ := Prod.mk.inj this
      obtain ⟨rfl, rfl⟩ := Prod.mk.inj h2
      constructor
      · intro x hx
        have := b1 x hx
        rw [hintBits_length] at this
        split at this <;> omega
      · intro x hx
        have := b2 x hx
        rw [respBits_length] at this
        split at this <;> omega
    · rw [e'] at e; cases e
  · rw [decodeSig_short hl] at e; cases e

/-- C31: so the infinity-norm bound on z (`Binf`) that `verify` applies to decoded signatures can never fail. -/
theorem C31_inf_check_vacuous (P : Par) (hP : P = raccoon128 ∨ P = raccoon192 ∨ P = raccoon256) (b : List U8) (s : Sig)
    (e : Sig.fromBytes P.κ P.k P.l b = .ok (some s)) : ∀ x ∈ s.z, x.natAbs ≤ P.Binf.toNat := by
  have h40 : (2 : Nat) ^ 40 = 1099511627776 := by norm_num
  have hB : 23 * 1099511627776 ≤ P.Binf.toNat := by rcases hP with rfl | rfl | rfl <;> decide
  intro x hx
  unfold Sig.fromBytes at e
  cases hd : decodeSig (2 * P.κ / 8) (P.k * 512) (P.l * 512) b with
  | ok r =>
    rw [hd, Res.ok_bind] at e
    cases r with
    | none => exact absurd (Res.ok.inj e) (by simp)
    | some r =>
      have := Option.some.inj (Res.ok.inj e)
      subst this
      have := (C31_decoded_bound _ _ _ _ _ _ _ hd).2 x hx
      omega
  | ub => rw [hd] at e; cases e
  | nofuel => rw [hd] at e; cases e

end Raccoon
