import Verif.Props.Tests
import Verif.Props.Extra
import Verif.Props.Keys
import Verif.Proofs.KeyGen
import Verif.Props.Sig
/-!
# The repository's own tests: serialization of keys (C71)
-/
namespace Raccoon
attribute [-instance] Monoid.toNPow

theorem randomT_ok (k : Nat) (p : Prng) : (Tests.randomT k 42 p).Ok (fun r => PVec.RowsBelow 128 r.1) := by
  unfold Tests.randomT
  refine forLoop_Ok1 (Nat.zero_le k) (fun _ (s : PVec k 1 × Prng) => PVec.RowsBelow 128 s.1) ?_ ?_
  · intro r hr c hc
    show ((PVec.zero k 1)[r][0][c]).raw.toNat < 128
    unfold PVec.zero MPoly.zero Poly.zero
    rw [Vector.getElem_replicate, Vector.getElem_replicate, Vector.getElem_replicate]
    decide
  · rintro i s - hi hs
    refine forLoop_Ok1 (Nat.zero_le 512) (fun _ (s : PVec k 1 × Prng) => PVec.RowsBelow 128 s.1) hs ?_
    rintro j ⟨t, p⟩ - hj ht
    replace ht : PVec.RowsBelow 128 t := ht
    simp only []
    have hx : ∀ x : U64, (x &&& (((1 : U64) <<< (Q_BIT_WIDTH - 42)) - 1)).toNat < 128 := by
      intro x
      have e : (((1 : U64) <<< (Q_BIT_WIDTH - 42)) - 1) = 127 := by rw [QBW]; decide
      rw [e, BitVec.toNat_and]
      exact Nat.lt_of_le_of_lt Nat.and_le_right (by decide)
    generalize (Zq.random p).1.raw = x
    have h1 : t.rd i = .ok t[i] := by unfold Vector.rd; rw [dif_pos hi]
    have h2 : (t[i]).rd 0 = .ok t[i][0] := by unfold Vector.rd; rw [dif_pos (by omega)]
    rw [h1, Res.ok_bind, h2, Res.ok_bind]
    unfold Vector.wr
    rw [dif_pos hj, Res.ok_bind, dif_pos (by omega), Res.ok_bind, dif_pos hi, Res.ok_bind]
    refine ⟨_, rfl, ?_⟩
    intro r hr c hc
    show ((t.set i _ hi)[r][0][c]).raw.toNat < 128
    by_cases hir : i = r
    · subst hir
      simp only [Vector.getElem_set_self]
      rw [Vector.getElem_set]
      split
      · exact hx x
      · exact ht i hi c hc
    · simp only [Vector.getElem_set_ne _ _ hir]
      exact ht r hr c hc

/-- C71: the public-key serialization test passes on every run, for every seed length that is a whole number of bytes and any number of rows. -/
theorem C71_public_key (E : Ext) (κ k : Nat) (h8 : κ % 8 = 0) (entropy : List U8) : Tests.publicKey E κ k 42 entropy = .ok true := by
  unfold Tests.publicKey
  simp only []
  obtain ⟨⟨t, p'⟩, e, ht⟩ := randomT_ok k ((Prng.new E entropy).read (κ / 8)).2
  replace ht : PVec.RowsBelow 128 t := ht
  have hseed : ((Prng.new E entropy).read (κ / 8)).1.length = κ / 8 := by
    show (List.map _ (List.range _)).length = _
    rw [List.length_map, List.length_range]
  generalize ((Prng.new E entropy).read (κ / 8)).1 = seed at *
  rw [e, Res.ok_bind]
  simp only []
  obtain ⟨b, hb, hbl, -⟩ := C24_format κ k h8 ⟨seed, t⟩ hseed (List.replicate (pkeyByteLen κ k 512 42) 0) (by rw [List.length_replicate]; rfl)
  have hb2 : encodePublicKey 42 seed t (List.replicate (pkeyByteLen κ k 512 42) 0) = .ok b := hb
  have hdec := C24_decode_encode κ k h8 ⟨seed, t⟩ hseed (PVec.below_iff.2 ht) _ b (by rw [List.length_replicate]; rfl) hb
  rw [hb2, Res.ok_bind]
  unfold PKey.fromBytes at hdec
  obtain ⟨⟨s', t'⟩, e1, e2⟩ := Res.bind_eq_ok.1 hdec
  have e3 := Res.ok.inj e2
  injection e3 with e4 e5
  rw [e1, Res.ok_bind, e4, e5, (C49_eq_vec t t).2 rfl]
  show Res.ok (decide (seed = seed) && true) = _
  rw [decide_eq_true rfl]
  rfl

theorem randomS_ok (E : Ext) (entropy : List U8) (l d : Nat) : (Tests.randomS l d (Prng.new E entropy)).Ok (fun r => PVec.Can r.1) := by
  unfold Tests.randomS
  refine Res.Ok.mono (forLoop_Ok1 (Nat.zero_le l) (fun _ (s : PVec l d × Prng) => PVec.Can s.1 ∧ ∃ n, s.2 = (Prng.new E entropy).advance n) ?_ ?_) fun _ h => h.1
  · exact ⟨(PVec.zero_spec l d).1, 0, rfl⟩
  · rintro i s - hi hs
    refine forLoop_Ok1 (Nat.zero_le d) (fun _ (s : PVec l d × Prng) => PVec.Can s.1 ∧ ∃ n, s.2 = (Prng.new E entropy).advance n) hs ?_
    rintro j ⟨v, p⟩ - hj ⟨hv, n, hn⟩
    replace hv : PVec.Can v := hv
    obtain rfl : p = _ := hn
    simp only []
    obtain ⟨f, p', e, hf, hp', -⟩ := C07_random_poly E entropy n
    rw [e, Res.ok_bind]
    simp only []
    unfold Vector.rd Vector.wr
    rw [dif_pos hi, Res.ok_bind, dif_pos hj, Res.ok_bind, dif_pos hi, Res.ok_bind]
    refine ⟨_, rfl, ?_, n + 4096, hp'⟩
    intro r hr c hc
    show Poly.Can ((v.set i _ hi)[r][c])
    by_cases hir : i = r
    · subst hir
      simp only [Vector.getElem_set_self]
      rw [Vector.getElem_set]
      split
      · exact hf
      · exact hv i hi c hc
    · simp only [Vector.getElem_set_ne _ _ hir]
      exact hv r hr c hc

theorem fin_maskCompress_one (E : Ext) (fuel κ : Nat) (s : PVec l 1) (sc : List U8) (prng : Prng) : (maskCompress E fuel κ s sc prng).Fin := by
  unfold maskCompress
  refine (fin_forLoop _ _ (by omega) (fun i s => ?_) _).bind fun _ _ => ?_
  · exact (fin_rd _ _).bind fun _ _ => (fin_rd _ _).bind fun _ _ => (fin_rd _ _).bind fun _ _ => (fin_wr _ _ _).bind fun _ _ => fin_wr _ _ _
  · rw [forLoop_nil (by omega) (by omega), Res.ok_bind]
    exact (fin_forLoop _ _ (by omega) (fun i s => (fin_rd _ _).bind fun _ _ => (fin_rd _ _).bind fun _ _ => fin_packRow _ _) _).bind
      fun _ _ => Res.Fin.ok _

/-- C71: the test that compresses and decompresses an unmasked secret passes on every run. -/
theorem C71_unmasked_secret (E : Ext) (fuel κ l : Nat) (h8 : κ % 8 = 0) (entropy : List U8) : Tests.unmaskedSecret E fuel κ l entropy = .ok true := by
  unfold Tests.unmaskedSecret
  obtain ⟨⟨s, p⟩, e, hs⟩ := randomS_ok E entropy l 1
  replace hs : PVec.Can s := hs
  rw [e, Res.ok_bind]
  simp only []
  have hlen : ((1 - 1) * κ + l * 512 * Q_BIT_WIDTH) / 8 = 3136 * l := by rw [QBW]; omega
  rw [hlen]
  obtain ⟨⟨b, p'⟩, e1, hb, hbits, -⟩ := (maskCompress_spec E fuel h8 hs (by omega) (sc := List.replicate (3136 * l) 0) (prng := p)
    (by rw [List.length_replicate]; omega)).ok (fin_maskCompress_one E fuel κ s _ p)
  rw [e1, Res.ok_bind]
  simp only []
  replace hb : b.length = 3136 * l := by rw [List.length_replicate] at hb; exact hb
  replace hbits : bytesBits b = vecBits 49 (PVec.decode s) := by
    have : bytesBits b = _ := hbits
    rw [this]
    show bytesBits (List.map _ (List.range (0 * _))) ++ _ = _
    rw [Nat.zero_mul]
    rfl
  obtain ⟨s', es⟩ := maskDecompress_ok E fuel (l := l) (d := 1) (sc := b) h8 (by omega) (by omega) (fun j h1 h2 => absurd h2 (by omega))
  have hspec := maskDecompress_spec E fuel (l := l) (d := 1) (sc := b) h8 (by omega) (by omega)
  rw [es] at hspec
  obtain ⟨g1, -⟩ := hspec
  have hdec := PVec.decode_spec hs
  have hds : PVec.decode s = s := PVec.ext_one hdec.1 hs hdec.2
  rw [hds] at hbits
  have hs' : s' = s := by
    apply Vector.ext
    intro r hr
    apply Vector.ext
    intro j hj
    obtain rfl : j = 0 := by omega
    apply Vector.ext
    intro c hc
    apply Zq.ext_nat
    have h0 : b.drop ((1 - 1) * (κ / 8)) = b := by rw [Nat.sub_self, Nat.zero_mul]; rfl
    rw [g1 r hr c hc, h0, hbits, vecBits_group (by omega), bitsVal_natBits, Nat.mod_eq_of_lt (can_below49 hs _ (by omega)), coeffAt_rc hr hc]
  rw [es, Res.ok_bind, hs', (C49_eq_vec s s).2 rfl]

theorem zero_raw {k r c : Nat} (hr : r < k) (hc : c < 512) : ((PVec.zero k 1)[r][0][c]).raw.toNat = 0 := by
  unfold PVec.zero MPoly.zero Poly.zero
  rw [Vector.getElem_replicate, Vector.getElem_replicate, Vector.getElem_replicate]
  rfl

theorem centerVec_zero {q' : U64} (hm : q'.toNat < 2 ^ 62) (h3 : 3 ≤ q'.toNat) (k : Nat) :
    centerVec q' (PVec.zero k 1) = .ok (List.replicate (k * 512) 0) ∧ uncenterVec q' k (List.replicate (k * 512) 0) = .ok (PVec.zero k 1) := by
  have hb : PVec.RowsBelow q'.toNat (PVec.zero k 1) := by
    intro r hr c hc
    have := zero_raw hr hc
    omega
  obtain ⟨L, e, hl, hL⟩ := centerVec_spec hm hb
  have hrep : L = List.replicate (k * 512) 0 := by
    apply List.ext_getElem
    · rw [hl, List.length_replicate]
    · intro n h1 h2
      have hn : n = n / 512 * 512 + n % 512 := by omega
      rw [List.getElem_replicate]
      have h4 : n / 512 * 512 + n % 512 < L.length := by omega
      have := hL (n / 512) (by omega) (n % 512) (by omega) h4
      rw [zero_raw (by omega) (by omega)] at this
      rw [getElem_congr rfl hn.symm] at this
      rw [this]
      unfold Poly.ctr
      rw [if_pos (by omega)]
      rfl
  subst hrep
  exact ⟨e, (uncenter_center hm hb e).2⟩

/-- C71: the signature test (all-zero hint and response) passes on every run, whenever the zero signature fits. -/
theorem C71_zero_signature (E : Ext) (k l κ sigLen : Nat) (hl : 0 < l) (hfit : 8 * (2 * κ / 8) + 512 * k + 41 * (512 * l) ≤ 8 * sigLen)
    (entropy : List U8) : Tests.zeroSignature E k l κ 44 sigLen entropy = .ok true := by
  unfold Tests.zeroSignature
  simp only []
  have h40 : (2 : Nat) ^ 40 = 1099511627776 := by norm_num
  have hc : ((Prng.new E entropy).read (2 * κ / 8)).1.length = 2 * κ / 8 := by
    show (List.map _ (List.range _)).length = _
    rw [List.length_map, List.length_range]
  have hs : (((Prng.new E entropy).read (2 * κ / 8)).2.read sigLen).1.length = sigLen := by
    show (List.map _ (List.range _)).length = _
    rw [List.length_map, List.length_range]
  generalize (((Prng.new E entropy).read (2 * κ / 8)).2.read sigLen).1 = buf at *
  generalize ((Prng.new E entropy).read (2 * κ / 8)).1 = c at *
  obtain ⟨e1, e2⟩ := centerVec_zero lt62_31 (by rw [Q44]; omega) k
  obtain ⟨e3, e4⟩ := centerVec_zero lt62_Q (by rw [Q_toNat]; decide) l
  rw [Sig.mk'_ok e1 e3, Res.ok_bind]
  obtain ⟨b, hb⟩ := C28_in_range c (List.replicate (k * 512) 0) (List.replicate (l * 512) 0) buf (by omega) 0
    (fun x hx => by rw [List.eq_of_mem_replicate hx]; decide)
    (fun x hx => by rw [List.eq_of_mem_replicate hx, h40]; decide) (by rw [List.getLast?_replicate, if_neg (by omega)])
    (by rw [h40]; decide)
  have hfit : 8 * c.length + (sigBits (List.replicate (k * 512) 0) (List.replicate (l * 512) 0)).length ≤ 8 * buf.length := by
    unfold sigBits
    rw [hs, hc, List.length_append, List.length_flatMap, List.length_flatMap, List.map_replicate, List.map_replicate,
      List.sum_replicate, List.sum_replicate, hintBits_length, respBits_length]
    simp
    omega
  rw [decide_eq_true hfit] at hb
  have hb' : Sig.toBytes ⟨c, List.replicate (k * 512) 0, List.replicate (l * 512) 0⟩ buf = .ok (true, b) := hb
  rw [hb', Res.ok_bind]
  simp only []
  rw [C27_api κ k l hl _ hc (by simp) (by simp) buf b hb', Res.ok_bind]
  simp only []
  unfold Sig.getH Sig.getZ
  rw [e2, Res.ok_bind, e4, Res.ok_bind, (C49_eq_vec _ _).2 rfl, (C49_eq_vec _ _).2 rfl]
  rfl

/-- The instances the repository runs (tests/test_serialization.cpp): every one of them passes on every run. -/
example (E : Ext) (fuel : Nat) (x : List U8) : Tests.publicKey E 128 5 42 x = .ok true ∧ Tests.publicKey E 192 7 42 x = .ok true ∧
    Tests.publicKey E 256 9 42 x = .ok true ∧ Tests.unmaskedSecret E fuel 128 5 x = .ok true ∧ Tests.unmaskedSecret E fuel 192 7 x = .ok true ∧
    Tests.unmaskedSecret E fuel 256 9 x = .ok true ∧ Tests.zeroSignature E 5 4 128 44 11524 x = .ok true ∧
    Tests.zeroSignature E 7 5 192 44 14544 x = .ok true ∧ Tests.zeroSignature E 9 7 256 44 20330 x = .ok true :=
  ⟨C71_public_key E 128 5 rfl x, C71_public_key E 192 7 rfl x, C71_public_key E 256 9 rfl x, C71_unmasked_secret E fuel 128 5 rfl x,
    C71_unmasked_secret E fuel 192 7 rfl x, C71_unmasked_secret E fuel 256 9 rfl x, C71_zero_signature E 5 4 128 11524 (by omega) (by omega) x,
    C71_zero_signature E 7 5 192 14544 (by omega) (by omega) x, C71_zero_signature E 9 7 256 20330 (by omega) (by omega) x⟩

end Raccoon
