import Verif.Proofs.SecKey
import Verif.Proofs.Total
import Verif.Props.Masked
/-!
# Key encodings: C24, C25, C26
-/
namespace Raccoon
attribute [-instance] Monoid.toNPow

theorem pkLen {κ : Nat} (k : Nat) (h8 : κ % 8 = 0) : PKey.byteLen κ k 42 = κ / 8 + 448 * k := by
  unfold PKey.byteLen pkeyByteLen; rw [QBW]; omega

theorem pkLen' {κ : Nat} (k : Nat) (h8 : κ % 8 = 0) : pkeyByteLen κ k 512 42 = κ / 8 + 448 * k := pkLen k h8

theorem skLen {κ : Nat} (k l d : Nat) (h8 : κ % 8 = 0) :
    SKey.byteLen κ k l d 42 = κ / 8 + 448 * k + (d - 1) * (κ / 8) + 3136 * l := by
  unfold SKey.byteLen skeyByteLen
  rw [pkLen' k h8, QBW]
  have : (d - 1) * κ = 8 * ((d - 1) * (κ / 8)) := by
    conv_lhs => rw [show κ = 8 * (κ / 8) by omega]
    rw [Nat.mul_left_comm]
  rw [this]
  omega

theorem vecBits_length (n : Nat) (t : PVec k 1) : (vecBits n t).length = n * (512 * k) := vecBitsTo_length n t _

theorem vecBits_inj {n : Nat} {t t' : PVec k 1} (h : PVec.Below (2 ^ n) t) (h' : PVec.Below (2 ^ n) t') (e : vecBits n t = vecBits n t') : t = t' := by
  apply PVec.ext_coeff
  intro i hi
  have h1 := vecBits_group (n := n) (t := t) hi
  have h2 := vecBits_group (n := n) (t := t') hi
  rw [e, h2] at h1
  have h3 := congrArg bitsVal h1
  rw [bitsVal_natBits, bitsVal_natBits, Nat.mod_eq_of_lt (h i hi), Nat.mod_eq_of_lt (h' i hi)] at h3
  exact h3.symm

/-! ### C24 -/

/-- C24: serialisation always succeeds, whatever the output buffer held, and writes exactly the seed followed by the 7-bit coefficients. -/
theorem C24_format (κ k : Nat) (h8 : κ % 8 = 0) (pk : PKey k) (hs : pk.seed.length = κ / 8) (buf : List U8)
    (hb : buf.length = PKey.byteLen κ k 42) :
    ∃ b, pk.toBytes 42 buf = .ok b ∧ b.length = PKey.byteLen κ k 42 ∧ bytesBits b = bytesBits pk.seed ++ vecBits 7 pk.t := by
  rw [pkLen k h8] at hb ⊢
  obtain ⟨b, h1, h2, h3⟩ := encodePublicKey_spec (seed := pk.seed) (t := pk.t) (pkey := buf) (by omega)
  exact ⟨b, h1, by omega, h3⟩

/-- C24: decoding the serialisation of a key with 7-bit coefficients returns that key. -/
theorem C24_decode_encode (κ k : Nat) (h8 : κ % 8 = 0) (pk : PKey k) (hs : pk.seed.length = κ / 8) (ht : PVec.Below 128 pk.t)
    (buf b : List U8) (hb : buf.length = PKey.byteLen κ k 42) (he : pk.toBytes 42 buf = .ok b) :
    PKey.fromBytes κ k 42 b = .ok pk := by
  obtain ⟨b', h1, h2, h3⟩ := C24_format κ k h8 pk hs buf hb
  obtain rfl : b = b' := Res.ok.inj (he.symm.trans h1)
  rw [pkLen k h8] at h2
  obtain ⟨t, e, g1, g2⟩ := decodePublicKey_spec (pk := b) (seedLen := κ / 8) (k := k) h2
  unfold PKey.fromBytes
  rw [e, Res.ok_bind]
  have hsb : b.take (κ / 8) = pk.seed := by
    apply bytesBits_inj
    rw [bytesBits_take, h3, List.take_append_of_le_length (by rw [bytesBits_length]; omega), List.take_of_length_le (by rw [bytesBits_length]; omega)]
  have htb : t = pk.t := by
    refine vecBits_inj (n := 7) g2 ht ?_
    rw [g1, bytesBits_drop, h3, List.drop_append_of_le_length (by rw [bytesBits_length]; omega),
      List.drop_of_length_le (by rw [bytesBits_length]; omega), List.nil_append]
  show Res.ok (PKey.mk (b.take (κ / 8)) t) = _
  rw [hsb, htb]

/-- C24: every byte string of the right length decodes, to a key with 7-bit coefficients, and encoding it again (into any buffer) gives
back the same bytes. -/
theorem C24_encode_decode (κ k : Nat) (h8 : κ % 8 = 0) (b : List U8) (hb : b.length = PKey.byteLen κ k 42) :
    ∃ pk : PKey k, PKey.fromBytes κ k 42 b = .ok pk ∧ pk.seed.length = κ / 8 ∧ PVec.Below 128 pk.t ∧
      ∀ buf : List U8, buf.length = PKey.byteLen κ k 42 → pk.toBytes 42 buf = .ok b := by
  have hb' := hb
  rw [pkLen k h8] at hb'
  obtain ⟨t, e, g1, g2⟩ := decodePublicKey_spec (pk := b) (seedLen := κ / 8) (k := k) hb'
  have hsl : (b.take (κ / 8)).length = κ / 8 := by rw [List.length_take]; omega
  refine ⟨⟨b.take (κ / 8), t⟩, ?_, hsl, g2, ?_⟩
  · unfold PKey.fromBytes; rw [e, Res.ok_bind]
  · intro buf hbuf
    obtain ⟨b', h1, h2, h3⟩ := C24_format κ k h8 ⟨b.take (κ / 8), t⟩ hsl buf hbuf
    rw [h1]
    refine congrArg Res.ok (bytesBits_inj ?_)
    rw [h3]
    show bytesBits (b.take (κ / 8)) ++ vecBits 7 t = _
    rw [g1, ← bytesBits_append, List.take_append_drop]

/-- C24: the three parameter sets and the API entry points are instances. -/
theorem C24_api (P : Par) (hP : P = raccoon128 ∨ P = raccoon192 ∨ P = raccoon256) (b : List U8)
    (hb : b.length = PKey.byteLen P.κ P.k P.νt) :
    ∃ pk : PKey P.k, Api.pkFromBytes P b = .ok pk ∧
      ∀ buf : List U8, buf.length = b.length → Api.pkAsBytes P pk buf = .ok b := by
  have hν : P.νt = 42 := by rcases hP with rfl | rfl | rfl <;> rfl
  have h8 : P.κ % 8 = 0 := by rcases hP with rfl | rfl | rfl <;> rfl
  rw [hν] at hb
  obtain ⟨pk, h1, -, -, h2⟩ := C24_encode_decode P.κ P.k h8 b hb
  refine ⟨pk, ?_, ?_⟩
  · unfold Api.pkFromBytes; rw [hν]; exact h1
  · intro buf hl; unfold Api.pkAsBytes; rw [hν]; exact h2 buf (by omega)

/-! ### C25, C26 -/

theorem can_below49 {t : PVec l 1} (h : PVec.Can t) : PVec.Below (2 ^ 49) t := by
  intro i hi
  rw [coeffAt_lt hi]
  have h1 : (t[i / 512][0][i % 512]).Can := h (i / 512) (by omega) 0 (by omega) (i % 512) (by omega)
  unfold Zq.Can at h1
  have : (2 : Nat) ^ 49 = 562949953421312 := by norm_num
  have hq : q = 549824583172097 := by decide
  omega

/-- What `to_bytes` writes. -/
theorem skToBytes_spec (E : Ext) (fuel : Nat) {κ k l d : Nat} (h8 : κ % 8 = 0) (hd : 0 < d) {sk : SKey k l d}
    (hseed : sk.pkey.seed.length = κ / 8) (hs : PVec.Can sk.s) {buf : List U8} (hb : buf.length = SKey.byteLen κ k l d 42) (prng : Prng) :
    (sk.toBytes E fuel κ 42 buf prng).Safe (fun r => r.1.length = SKey.byteLen κ k l d 42 ∧
      (∃ pkb, sk.pkey.toBytes 42 (List.replicate (PKey.byteLen κ k 42) 0) = .ok pkb ∧
        bytesBits r.1 = bytesBits pkb ++ bytesBits ((List.range ((d - 1) * (κ / 8))).map fun i => prng.stream (prng.pos + i)) ++
          vecBits 49 (PVec.decode sk.s)) ∧
      ∀ j, 1 ≤ j → j < d → ∀ r < l, ∃ p, Poly.sampleQ E fuel (skHdr j r) (skSeed prng (κ / 8) j) = .ok p) := by
  rw [skLen k l d h8] at hb ⊢
  unfold SKey.toBytes
  dsimp only
  rw [pkLen' k h8, subspan_ok (by omega), Res.ok_bind]
  have hl0 : ((buf.drop 0).take (κ / 8 + 448 * k)).length = PKey.byteLen κ k 42 := by
    rw [pkLen k h8, List.length_take, List.length_drop]; omega
  obtain ⟨pkb, e1, e2, e3⟩ := C24_format κ k h8 sk.pkey hseed _ hl0
  obtain ⟨pkb', e1', e2', e3'⟩ := C24_format κ k h8 sk.pkey hseed (List.replicate (PKey.byteLen κ k 42) 0) (by simp)
  obtain rfl : pkb' = pkb := bytesBits_inj (e3'.trans e3.symm)
  rw [pkLen k h8] at e2
  rw [e1, Res.ok_bind, writeSpan_ok (by omega), Res.ok_bind, subspan_ok (by simp; omega), Res.ok_bind]
  refine Res.Safe.bind (maskCompress_spec E fuel h8 hs hd ?_) ?_
  · rw [List.length_take, List.length_drop, List.length_append, List.length_append, List.length_take, List.length_drop]; omega
  · rintro ⟨b1, prng'⟩ ⟨g1, g2, g3⟩
    replace g1 : b1.length = _ := g1
    rw [List.length_take, List.length_drop, List.length_append, List.length_append, List.length_take, List.length_drop] at g1
    show (writeSpan _ _ b1 >>= _).Safe _
    rw [writeSpan_ok (by simp; omega), Res.ok_bind]
    refine ⟨?_, ⟨_, e1', ?_⟩, g3⟩
    · simp; omega
    · have hd : List.drop (κ / 8 + 448 * k + b1.length) (buf.take 0 ++ pkb' ++ buf.drop (0 + pkb'.length)) = [] := by
        apply List.drop_of_length_le; simp; omega
      have ht : List.take (κ / 8 + 448 * k) (buf.take 0 ++ pkb' ++ buf.drop (0 + pkb'.length)) = pkb' := by
        rw [List.take_zero, List.nil_append]; exact take_append_len _ _ e2.symm
      show bytesBits (List.take _ _ ++ b1 ++ List.drop _ _) = _
      rw [hd, ht, List.append_nil, bytesBits_append, g2, List.append_assoc]

/-- C25: serialising a well-formed secret key is never undefined, whatever the buffer held; the bytes deserialise (with at least the same
sampling budget) without failure to a key with the same public key, canonical shares and the same secret value; for d = 1 it is the very
same key. -/
theorem C25_round_trip (E : Ext) (fuel fuel' κ k l d : Nat) (h8 : κ % 8 = 0) (hd : 0 < d) (hf : fuel ≤ fuel') (sk : SKey k l d)
    (hseed : sk.pkey.seed.length = κ / 8) (ht : PVec.Below 128 sk.pkey.t) (hs : PVec.Can sk.s) (buf : List U8)
    (hb : buf.length = SKey.byteLen κ k l d 42) (prng : Prng) :
    sk.toBytes E fuel κ 42 buf prng ≠ .ub ∧
    ∀ b prng', sk.toBytes E fuel κ 42 buf prng = .ok (b, prng') →
      b.length = SKey.byteLen κ k l d 42 ∧
      ∃ sk' : SKey k l d, SKey.fromBytes E fuel' κ k l d 42 b = .ok sk' ∧ sk'.pkey = sk.pkey ∧ PVec.Can sk'.s ∧
        PVec.val sk'.s = PVec.val sk.s ∧ (d = 1 → sk'.s = sk.s) := by
  have h := skToBytes_spec E fuel h8 hd hseed hs hb prng
  refine ⟨h.ne_ub, ?_⟩
  intro b prng' e
  rw [e] at h
  obtain ⟨h1, ⟨pkb, hp1, hp2⟩, h3⟩ := h
  replace h1 : b.length = _ := h1
  replace hp2 : bytesBits b = _ := hp2
  refine ⟨h1, ?_⟩
  rw [skLen k l d h8] at h1
  have hpl : pkb.length = κ / 8 + 448 * k := by
    obtain ⟨_, e1, e2, -⟩ := C24_format κ k h8 sk.pkey hseed (List.replicate (PKey.byteLen κ k 42) 0) (by simp)
    rw [Res.ok.inj (hp1.symm.trans e1), e2, pkLen k h8]
  -- the two halves
  have hb1 : b.take (κ / 8 + 448 * k) = pkb := by
    apply bytesBits_inj
    rw [bytesBits_take, hp2, List.append_assoc, take_append_len _ _ (by rw [bytesBits_length, hpl])]
  have hb2 : bytesBits (b.drop (κ / 8 + 448 * k)) = bytesBits ((List.range ((d - 1) * (κ / 8))).map fun i => prng.stream (prng.pos + i)) ++
      vecBits 49 (PVec.decode sk.s) := by
    rw [bytesBits_drop, hp2, List.append_assoc, List.drop_append_of_le_length (by rw [bytesBits_length, hpl]),
      List.drop_of_length_le (by rw [bytesBits_length, hpl]), List.nil_append]
  have hsl : (bytesBits ((List.range ((d - 1) * (κ / 8))).map fun i => prng.stream (prng.pos + i))).length = 8 * ((d - 1) * (κ / 8)) := by
    rw [bytesBits_length, List.length_map, List.length_range]
  have hseeds : (b.drop (κ / 8 + 448 * k)).take ((d - 1) * (κ / 8)) = (List.range ((d - 1) * (κ / 8))).map fun i => prng.stream (prng.pos + i) := by
    apply bytesBits_inj
    rw [bytesBits_take, hb2, take_append_len _ _ hsl.symm]
  have hpay : bytesBits ((b.drop (κ / 8 + 448 * k)).drop ((d - 1) * (κ / 8))) = vecBits 49 (PVec.decode sk.s) := by
    rw [bytesBits_drop, hb2, List.drop_append_of_le_length (by rw [hsl]), List.drop_of_length_le (by rw [hsl]), List.nil_append]
  have hdl : (b.drop (κ / 8 + 448 * k)).length = (d - 1) * (κ / 8) + 3136 * l := by rw [List.length_drop]; omega
  -- decompression
  have hok := maskDecompress_ok E fuel' (l := l) h8 hd hdl (fun j hj1 hj2 r hr => by
    obtain ⟨p, hp⟩ := h3 j hj1 hj2 r hr
    refine ⟨p, sampleQ_mono hf ?_⟩
    rw [← hp]
    congr 1
    have hle := seed_bound (m := κ / 8) hj1 hj2
    have e1 : ((b.drop (κ / 8 + 448 * k)).drop ((j - 1) * (κ / 8))).take (κ / 8) =
        (((b.drop (κ / 8 + 448 * k)).take ((d - 1) * (κ / 8))).drop ((j - 1) * (κ / 8))).take (κ / 8) := by
      rw [List.drop_take, List.take_take, Nat.min_eq_left (by omega)]
    rw [e1, hseeds, ← List.map_drop, ← List.map_take]
    unfold skSeed
    apply List.ext_getElem
    · simp; omega
    · intro i hi1 hi2
      simp [Nat.add_assoc])
  obtain ⟨s', es⟩ := hok
  have hspec := maskDecompress_spec E fuel' (l := l) h8 hd hdl
  rw [es] at hspec
  obtain ⟨g1, g2⟩ := hspec
  have hdec := PVec.decode_spec hs
  have hrow : ∀ r (hr : r < l), s'[r][0] = (PVec.decode sk.s)[r][0] := by
    intro r hr
    apply Vector.ext
    intro c hc
    apply Zq.ext_nat
    rw [g1 r hr c hc, hpay, vecBits_group (by omega), bitsVal_natBits, Nat.mod_eq_of_lt (can_below49 hdec.1 _ (by omega)), coeffAt_rc hr hc]
  have hcan : PVec.Can s' := by
    intro r hr j hj
    by_cases h0 : 0 < j
    · rw [g2 r hr j hj h0]; exact Poly.zero_can
    · obtain rfl : j = 0 := by omega
      rw [hrow r hr]; exact hdec.1 r hr 0 (by omega)
  have hval : PVec.val s' = PVec.val sk.s := by
    rw [← hdec.2]
    funext r
    unfold PVec.val
    rw [MPoly.val_one, ← hrow r r.isLt]
    unfold MPoly.val
    rw [Finset.sum_eq_single (⟨0, hd⟩ : Fin d)]
    · intro j _ hj
      have hj0 : 0 < j.val := by
        rcases Nat.eq_zero_or_pos j.val with h | h
        · exact absurd (Fin.ext h) hj
        · exact h
      rw [g2 r r.isLt j.val j.isLt hj0, Poly.zero_toZ]
    · intro h; exact absurd (Finset.mem_univ _) h
  refine ⟨⟨sk.pkey, s'⟩, ?_, rfl, hcan, hval, ?_⟩
  · unfold SKey.fromBytes
    dsimp only
    rw [pkLen k h8, subspan_ok (by omega), Res.ok_bind, List.drop_zero, hb1,
      C24_decode_encode κ k h8 sk.pkey hseed ht _ pkb (by simp) hp1, Res.ok_bind, subspan_ok (by omega), Res.ok_bind,
      List.take_of_length_le (by rw [List.length_drop]), es, Res.ok_bind]
  · intro h1
    subst h1
    exact PVec.ext_one hcan hs hval

/-- C25: if uniform sampling finishes within the budget (for 8-byte headers and ⌊𝜅/8⌋-byte seeds), serialisation returns. -/
theorem C25_total (E : Ext) (fuel κ k l d : Nat) (h8 : κ % 8 = 0) (hd : 0 < d) 
    (hq : ∀ hdr seed : List U8, hdr.length = 8 → seed.length = κ / 8 → ∃ p, Poly.sampleQ E fuel hdr seed = .ok p)
    (sk : SKey k l d) (hseed : sk.pkey.seed.length = κ / 8) (hs : PVec.Can sk.s) (buf : List U8)
    (hb : buf.length = SKey.byteLen κ k l d 42) (prng : Prng) : ∃ r, sk.toBytes E fuel κ 42 buf prng = .ok r := by
  obtain ⟨r, e, -⟩ := (skToBytes_spec E fuel h8 hd hseed hs hb prng).ok (fin_skToBytes E fuel κ 42 hq sk buf prng)
  exact ⟨r, e⟩

theorem toyE_sampleQ (hdr seed : List U8) : ∃ p, Poly.sampleQ toyE 512 hdr seed = .ok p := by
  have : accepted (fun _ => (0 : U8)) 512 = List.replicate 512 0 := by
    unfold accepted
    have e : qWord (fun _ => (0 : U8)) = fun _ => 0 := by
      funext j; unfold qWord streamWord; rfl
    rw [e, List.map_const', List.length_range, List.filter_replicate]
    rfl
  rw [sampleQ_eq]
  show ∃ p, (if 512 ≤ (accepted (fun _ => (0 : U8)) 512).length then _ else _) = _
  rw [this, List.length_replicate, if_pos (Nat.le_refl _)]
  exact ⟨_, rfl⟩

theorem demo_s : ∃ s : PVec 4 2, PVec.Can s ∧ ((s[0])[0])[0] = ⟨5⟩ ∧ ((s[0])[1])[0] = ⟨Q - 1⟩ := by
  refine ⟨Vector.replicate 4 #v[Vector.replicate 512 ⟨5⟩, Vector.replicate 512 ⟨Q - 1⟩], ?_, ?_, ?_⟩
  · intro r hr
    rw [Vector.getElem_replicate]
    intro j hj i hi
    have hz : (⟨5⟩ : Zq).Can ∧ (⟨Q - 1⟩ : Zq).Can := by unfold Zq.Can; decide
    rcases (by omega : j = 0 ∨ j = 1) with rfl | rfl
    · show ((Vector.replicate 512 (⟨5⟩ : Zq))[i]).Can; rw [Vector.getElem_replicate]; exact hz.1
    · show ((Vector.replicate 512 (⟨Q - 1⟩ : Zq))[i]).Can; rw [Vector.getElem_replicate]; exact hz.2
  · simp
  · simp

theorem demo_t : ∃ t : PVec 5 1, PVec.Below 128 t ∧ coeffAt t 1000 = 127 := by
  have h : ∀ i < 512 * 5, coeffAt (Vector.replicate 5 (Vector.replicate 1 (Vector.replicate 512 (⟨127⟩ : Zq)))) i = 127 := by
    intro i hi
    rw [coeffAt_lt hi]
    simp
  refine ⟨_, ?_, h 1000 (by omega)⟩
  intro i hi; rw [h i hi]; omega

/-- Non-vacuity of C24: a key with all coefficients 127 is serialised and decoded. -/
example : ∃ (pk : PKey 5) (b : List U8), coeffAt pk.t 1000 = 127 ∧ pk.toBytes 42 (List.replicate (PKey.byteLen 128 5 42) 0xff) = .ok b ∧
    PKey.fromBytes 128 5 42 b = .ok pk := by
  obtain ⟨pk, hseed, ht, h1⟩ : ∃ pk : PKey 5, pk.seed.length = 128 / 8 ∧ PVec.Below 128 pk.t ∧ coeffAt pk.t 1000 = 127 := by
    obtain ⟨t, ht, h1⟩ := demo_t
    exact ⟨⟨List.replicate 16 7, t⟩, List.length_replicate, ht, h1⟩
  obtain ⟨buf, hbuf⟩ : ∃ buf, buf = List.replicate (PKey.byteLen 128 5 42) (0xff : U8) := ⟨_, rfl⟩
  rw [← hbuf]
  have hl : buf.length = PKey.byteLen 128 5 42 := by rw [hbuf]; exact List.length_replicate
  obtain ⟨b, e, -, -⟩ := C24_format 128 5 rfl pk hseed buf hl
  exact ⟨pk, b, h1, e, C24_decode_encode 128 5 rfl pk hseed ht buf b hl e⟩

/-- Non-vacuity: a two-share raccoon128 key with shares 5 and q−1 satisfies the hypotheses, is serialised and comes back. -/
example : ∃ (sk : SKey 5 4 2) (b : List U8) (p : Prng), sk.pkey.seed.length = 128 / 8 ∧ PVec.Below 128 sk.pkey.t ∧ PVec.Can sk.s ∧
    ((sk.s[0])[1])[0] = ⟨Q - 1⟩ ∧
    sk.toBytes toyE 512 128 42 (List.replicate (SKey.byteLen 128 5 4 2 42) 0xff) (Prng.new toyE [1, 2, 3]) = .ok (b, p) ∧
    b.length = 14816 ∧ ∃ sk' : SKey 5 4 2, SKey.fromBytes toyE 512 128 5 4 2 42 b = .ok sk' ∧ PVec.val sk'.s = PVec.val sk.s := by
  obtain ⟨s, hc, -, hs⟩ := demo_s
  obtain ⟨t, ht, -⟩ := demo_t
  have hl : SKey.byteLen 128 5 4 2 42 = 14816 := by decide
  have hseed : (List.replicate 16 (7 : U8)).length = 128 / 8 := List.length_replicate
  obtain ⟨⟨b, p⟩, e⟩ := C25_total toyE 512 128 5 4 2 rfl (by omega) (fun a b _ _ => toyE_sampleQ a b) ⟨⟨List.replicate 16 7, t⟩, s⟩ hseed hc
    (List.replicate (SKey.byteLen 128 5 4 2 42) 0xff) List.length_replicate (Prng.new toyE [1, 2, 3])
  obtain ⟨h1, sk', h2, -, -, h3, -⟩ := (C25_round_trip toyE 512 512 128 5 4 2 rfl (by omega) (Nat.le_refl _) ⟨⟨List.replicate 16 7, t⟩, s⟩
    hseed ht hc _ List.length_replicate _).2 b p e
  exact ⟨⟨⟨List.replicate 16 7, t⟩, s⟩, b, p, hseed, ht, hc, hs, e, by rw [h1, hl], sk', h2, h3⟩

/-- C26: for every entropy the serialised secret is the plain, unmasked 49-bit encoding of the decoded secret: it does not depend on the
masks. -/
theorem C26_payload_unmasked (E : Ext) (fuel κ k l d : Nat) (h8 : κ % 8 = 0) (hd : 0 < d) (sk : SKey k l d)
    (hseed : sk.pkey.seed.length = κ / 8) (hs : PVec.Can sk.s) (buf : List U8)
    (hb : buf.length = SKey.byteLen κ k l d 42) (prng prng' : Prng) (b : List U8)
    (h : sk.toBytes E fuel κ 42 buf prng = .ok (b, prng')) :
    bytesBits (b.drop (PKey.byteLen κ k 42 + (d - 1) * (κ / 8))) = vecBits 49 (PVec.decode sk.s) := by
  have hsp := skToBytes_spec E fuel h8 hd hseed hs hb prng
  rw [h] at hsp
  obtain ⟨h1, ⟨pkb, hp1, hp2⟩, -⟩ := hsp
  replace hp2 : bytesBits b = _ := hp2
  have hpl : pkb.length = κ / 8 + 448 * k := by
    obtain ⟨_, e1, e2, -⟩ := C24_format κ k h8 sk.pkey hseed (List.replicate (PKey.byteLen κ k 42) 0) (by simp)
    rw [Res.ok.inj (hp1.symm.trans e1), e2, pkLen k h8]
  have hsl : (bytesBits pkb ++ bytesBits ((List.range ((d - 1) * (κ / 8))).map fun i => prng.stream (prng.pos + i))).length =
      8 * (PKey.byteLen κ k 42 + (d - 1) * (κ / 8)) := by
    rw [List.length_append, bytesBits_length, bytesBits_length, List.length_map, List.length_range, hpl, pkLen k h8]; omega
  rw [bytesBits_drop, hp2, List.drop_append_of_le_length (by rw [hsl]), List.drop_of_length_le (by rw [hsl]), List.nil_append]

/-- C26: a deserialised key always has all-zero shares 1..d−1 (its share 0 is the secret itself), whatever bytes it came from. -/
theorem C26_deserialised_unmasked (E : Ext) (fuel κ k l d : Nat) (h8 : κ % 8 = 0) (b : List U8)
    (hb : b.length = SKey.byteLen κ k l d 42) (sk : SKey k l d) (h : SKey.fromBytes E fuel κ k l d 42 b = .ok sk) :
    ∀ r (hr : r < l) j (hj : j < d), 0 < j → sk.s[r][j] = Poly.zero := by
  intro r hr j hj h0
  have hd : 0 < d := by omega
  rw [skLen k l d h8] at hb
  unfold SKey.fromBytes at h
  dsimp only at h
  rw [pkLen k h8, subspan_ok (by omega), Res.ok_bind] at h
  obtain ⟨pk, e1, h⟩ := Res.bind_eq_ok.1 h
  rw [subspan_ok (by omega), Res.ok_bind] at h
  obtain ⟨s, e2, h⟩ := Res.bind_eq_ok.1 h
  have hs := maskDecompress_spec E fuel (l := l) (sc := (b.drop (κ / 8 + 448 * k)).take (b.length - (κ / 8 + 448 * k))) h8 hd
    (by rw [List.length_take, List.length_drop]; omega)
  rw [e2] at hs
  rw [← Res.ok.inj h]
  exact hs.2 r hr j hj h0

end Raccoon
