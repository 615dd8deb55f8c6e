import Verif.Spec.Keys
import Verif.Proofs.BitIO
import Verif.Model.Api
/-!
# Public-key encoding
-/
namespace Raccoon
attribute [-instance] Monoid.toNPow

theorem coeffAt_lt {t : PVec k 1} {i : Nat} (h : i < 512 * k) : coeffAt t i = (t[i / 512][0][i % 512]).raw.toNat := by
  unfold coeffAt; rw [dif_pos h]

theorem coeffAt_rc {t : PVec k 1} {r c : Nat} (hr : r < k) (hc : c < 512) : coeffAt t (512 * r + c) = (t[r][0][c]).raw.toNat := by
  have h : 512 * r + c < 512 * k := by omega
  rw [coeffAt_lt h]
  have e1 : (512 * r + c) / 512 = r := by omega
  have e2 : (512 * r + c) % 512 = c := by omega
  congr 2
  · exact getElem_congr (getElem_congr (getElem_congr rfl e1 _) rfl _) e2 _

theorem PVec.ext_coeff {t t' : PVec k 1} (h : ∀ i < 512 * k, coeffAt t i = coeffAt t' i) : t = t' := by
  apply Vector.ext
  intro r hr
  apply Vector.ext
  intro s hs
  obtain rfl : s = 0 := by omega
  apply Vector.ext
  intro c hc
  apply Zq.ext_nat
  rw [← coeffAt_rc hr hc, ← coeffAt_rc hr hc]
  exact h _ (by omega)

/-- First `m` coefficients, `n` bits each. -/
def vecBitsTo (n : Nat) (t : PVec k 1) (m : Nat) : List Bool := (List.range m).flatMap fun i => natBits n (coeffAt t i)

theorem vecBitsTo_succ (n : Nat) (t : PVec k 1) (m : Nat) : vecBitsTo n t (m + 1) = vecBitsTo n t m ++ natBits n (coeffAt t m) := by
  unfold vecBitsTo; rw [List.range_succ, List.flatMap_append]; simp

theorem vecBitsTo_length (n : Nat) (t : PVec k 1) (m : Nat) : (vecBitsTo n t m).length = n * m := by
  induction m with
  | zero => rfl
  | succ m ih => rw [vecBitsTo_succ, List.length_append, ih, natBits_length, Nat.mul_succ]

theorem lcm78 : Nat.lcm (Q_BIT_WIDTH - 42) 8 = 56 := by rw [QBW]; decide
theorem cb7 : Q_BIT_WIDTH - 42 = 7 := by rw [QBW]

/-- Invariant of the encoder after `m` coefficients. -/
structure PkInv (L seedLen : Nat) (W0 : List Bool) (t : PVec k 1) (m : Nat) (s : PkEncSt) : Prop where
  bw : BW L (W0 ++ vecBitsTo 7 t m) s.pkey s.idx s.buffer s.bitcnt
  cnt : s.bitcnt ≤ 56
  mod7 : s.bitcnt % 7 = 0
  idx : ∃ j, s.idx = seedLen + 7 * j

theorem pkFlush_ok {L seedLen : Nat} {W0 : List Bool} {t : PVec k 1} {m : Nat} {s : PkEncSt} (h : PkInv L seedLen W0 t m s)
    (h0 : W0.length = 8 * seedLen) (hL : 7 * m ≤ 8 * (L - seedLen)) (hs : seedLen ≤ L) :
    (pkFlush 42 s).Ok (fun s' => PkInv L seedLen W0 t m s' ∧ s'.bitcnt < 56) := by
  unfold pkFlush
  rw [lcm78]
  show (if s.bitcnt = 56 then _ else _ : Res _).Ok _
  have hlen := h.bw.length
  rw [List.length_append, vecBitsTo_length, h0] at hlen
  by_cases hc : s.bitcnt = 56
  · rw [if_pos hc]
    obtain ⟨buf', e, hb⟩ := h.bw.flush (n := 7) (by omega) (by omega) (by omega)
    show (putLe s.pkey s.idx 7 s.buffer >>= _).Ok _
    rw [e, Res.ok_bind]
    have hz : s.bitcnt - 8 * 7 = 0 := by omega
    rw [hz] at hb
    have hw := hb.zero.1
    rw [hw] at hb
    obtain ⟨j, hj⟩ := h.idx
    exact ⟨_, rfl, ⟨hb, Nat.zero_le _, rfl, j + 1, by show s.idx + 7 = _; omega⟩, by show 0 < 56; omega⟩
  · rw [if_neg hc]
    have := h.cnt
    exact ⟨_, rfl, h, by omega⟩

theorem pkEncCoeff_ok {L seedLen : Nat} {W0 : List Bool} {t : PVec k 1} {m : Nat} {s : PkEncSt} (h : PkInv L seedLen W0 t m s)
    (h0 : W0.length = 8 * seedLen) (hL : 7 * m ≤ 8 * (L - seedLen)) (hs : seedLen ≤ L) {x : Zq} (hx : x.raw.toNat = coeffAt t m) :
    (pkEncCoeff 42 x s).Ok (PkInv L seedLen W0 t (m + 1)) := by
  unfold pkEncCoeff
  rw [cb7]
  refine Res.Ok.bind (pkFlush_ok h h0 hL hs) ?_
  rintro s' ⟨h', hlt⟩
  have h7 := h'.mod7
  have hwin : Win (natBits 7 (coeffAt t m)) (x.raw &&& ((1 : U64) <<< 7 - 1)) := by
    unfold Win
    rw [mask_and (by omega), bitsVal_natBits, hx]
  show (shl64 (x.raw &&& ((1 : U64) <<< 7 - 1)) s'.bitcnt >>= _).Ok _
  rw [shl64_ok (by omega), Res.ok_bind]
  have hb := h'.bw.append hwin (by rw [natBits_length]; omega)
  rw [natBits_length] at hb
  refine ⟨_, rfl, ?_, ?_, ?_, h'.idx⟩
  · rw [vecBitsTo_succ, ← List.append_assoc]
    exact hb
  · show s'.bitcnt + 7 ≤ 56; omega
  · show (s'.bitcnt + 7) % 7 = 0; omega

theorem encodePublicKey_spec {seed : List U8} {t : PVec k 1} {pkey : List U8} (hl : pkey.length = seed.length + 448 * k) :
    ∃ b, encodePublicKey 42 seed t pkey = .ok b ∧ b.length = pkey.length ∧ bytesBits b = bytesBits seed ++ vecBits 7 t := by
  unfold encodePublicKey
  rw [writeSpan_ok (by omega), Res.ok_bind]
  have h0 : (bytesBits seed).length = 8 * seed.length := bytesBits_length seed
  have hinit : PkInv (seed.length + 448 * k) seed.length (bytesBits seed) t 0
      (⟨pkey.take 0 ++ seed ++ pkey.drop (0 + seed.length), seed.length, 0, 0⟩ : PkEncSt) := by
    refine ⟨⟨?_, by show seed.length ≤ seed.length + 448 * k; omega, [], rfl, Win.nil, ?_⟩, Nat.zero_le _, rfl, 0, rfl⟩
    · show (pkey.take 0 ++ seed ++ pkey.drop (0 + seed.length)).length = _
      simp; omega
    · show bytesBits ((pkey.take 0 ++ seed ++ pkey.drop (0 + seed.length)).take seed.length) ++ [] = _
      rw [take_append_len _ _ (by simp)]
      unfold vecBitsTo
      simp
  have hloop : (forLoop 0 k 1 (fun r s =>
      forLoop 0 512 1 (fun c s => do
        let row ← t.rd r
        let p ← row.rd 0
        let x ← p.rd c
        pkEncCoeff 42 x s) s) (⟨pkey.take 0 ++ seed ++ pkey.drop (0 + seed.length), seed.length, 0, 0⟩ : PkEncSt)).Ok
      (PkInv (seed.length + 448 * k) seed.length (bytesBits seed) t (512 * k)) := by
    refine forLoop_Ok1 (Nat.zero_le k) (fun r s => PkInv (seed.length + 448 * k) seed.length (bytesBits seed) t (512 * r) s) hinit ?_
    intro r s _ hr hs
    refine (forLoop_Ok1 (Nat.zero_le 512) (fun c s => PkInv (seed.length + 448 * k) seed.length (bytesBits seed) t (512 * r + c) s) hs ?_)
    intro c s _ hc hs
    rw [rd_ok hr, Res.ok_bind, rd_ok (by omega), Res.ok_bind, rd_ok hc, Res.ok_bind]
    exact pkEncCoeff_ok hs h0 (by omega) (by omega) (coeffAt_rc hr hc).symm
  obtain ⟨s, e, hs⟩ := hloop
  rw [e, Res.ok_bind]
  obtain ⟨s', e', hs', hlt⟩ := pkFlush_ok hs h0 (by omega) (by omega)
  rw [e', Res.ok_bind]
  have hlen := hs'.bw.length
  rw [List.length_append, vecBitsTo_length, h0] at hlen
  obtain ⟨j, hj⟩ := hs'.idx
  have hz : s'.bitcnt = 0 := by have := hs'.mod7; omega
  have hb := hs'.bw
  rw [hz] at hb hlen
  have hbl := hb.len
  have hbz := hb.zero.2
  rw [List.take_of_length_le (by omega)] at hbz
  exact ⟨s'.pkey, rfl, by omega, hbz⟩

/-! ### decoding -/

theorem shiftRight9 (n : Nat) : n >>> LOG2N = n / 512 := by
  have : LOG2N = 9 := by decide
  rw [this, Nat.shiftRight_eq_div_pow]

theorem and511 (n : Nat) : n &&& (512 - 1) = n % 512 := by
  have := Nat.and_two_pow_sub_one_eq_mod n 9
  exact this

/-- The vector with coefficient `i` replaced. -/
theorem coeffAt_set {t : PVec k 1} {i : Nat} (hi : i < 512 * k) (x : Zq) (h1 : i / 512 < k) (h2 : i % 512 < 512) (j : Nat) :
    coeffAt (t.set (i / 512) ((t[i / 512]).set 0 ((t[i / 512][0]).set (i % 512) x h2) (by omega)) h1) j = if j = i then x.raw.toNat else coeffAt t j := by
  by_cases hj : j < 512 * k
  · rw [coeffAt_lt hj]
    by_cases hr : j / 512 = i / 512
    · have e : (t.set (i / 512) ((t[i / 512]).set 0 ((t[i / 512][0]).set (i % 512) x h2) (by omega)) h1)[j / 512] =
          (t[i / 512]).set 0 ((t[i / 512][0]).set (i % 512) x h2) (by omega) := by
        rw [Vector.getElem_set, if_pos hr.symm]
      have e2 : (t.set (i / 512) ((t[i / 512]).set 0 ((t[i / 512][0]).set (i % 512) x h2) (by omega)) h1)[j / 512][0] =
          (t[i / 512][0]).set (i % 512) x h2 := by
        rw [getElem_congr e rfl (by omega), Vector.getElem_set_self]
      rw [getElem_congr e2 rfl (by omega)]
      by_cases hc : j % 512 = i % 512
      · rw [Vector.getElem_set, if_pos hc.symm, if_pos (by omega)]
      · rw [Vector.getElem_set_ne _ _ (by omega), if_neg (by intro e; exact hc (by rw [e])), coeffAt_lt hj]
        have e3 : t[i / 512] = t[j / 512] := getElem_congr rfl hr.symm _
        have e4 : t[i / 512][0] = t[j / 512][0] := getElem_congr e3 rfl _
        have e5 : t[i / 512][0][j % 512] = t[j / 512][0][j % 512] := getElem_congr e4 rfl _
        rw [e5]
    · rw [if_neg (by intro e; exact hr (by rw [e])), coeffAt_lt hj]
      have e : (t.set (i / 512) ((t[i / 512]).set 0 ((t[i / 512][0]).set (i % 512) x h2) (by omega)) h1)[j / 512] = t[j / 512] := by
        rw [Vector.getElem_set_ne _ _ (by omega)]
      rw [getElem_congr (getElem_congr e rfl (by omega)) rfl (by omega)]
  · rw [if_neg (by omega)]
    unfold coeffAt
    rw [dif_neg hj, dif_neg hj]

theorem bitsVal_lt' (bs : List Bool) {n : Nat} (h : bs.length ≤ n) : bitsVal bs < 2 ^ n :=
  Nat.lt_of_lt_of_le (bitsVal_lt bs) (Nat.pow_le_pow_right (by omega) h)

/-- Decoder invariant: the first `m` coefficients are the first `m` seven-bit groups of `B`. -/
structure PkDec (B : List Bool) (t : PVec k 1) (m : Nat) : Prop where
  bits : vecBitsTo 7 t m = B.take (7 * m)
  lt : ∀ i < m, coeffAt t i < 128

theorem vecBitsTo_congr {n m : Nat} {t t' : PVec k 1} (h : ∀ i < m, coeffAt t i = coeffAt t' i) : vecBitsTo n t m = vecBitsTo n t' m := by
  induction m with
  | zero => rfl
  | succ m ih => rw [vecBitsTo_succ, vecBitsTo_succ, ih (fun i hi => h i (by omega)), h m (by omega)]

theorem pkDecCoeff_ok {B : List Bool} {t : PVec k 1} {m : Nat} (h : PkDec B t m) (hm : m < 512 * k)
    {bs : List Bool} {w : U64} (hw : Win bs w) {rest : List Bool} (hbs : B.drop (7 * m) = bs ++ rest) (hlen : 7 ≤ bs.length) :
    (pkDecCoeff 42 (t, m, w)).Ok (fun s => PkDec B s.1 (m + 1) ∧ s.2.1 = m + 1 ∧ Win (bs.drop 7) s.2.2 ∧
      B.drop (7 * (m + 1)) = bs.drop 7 ++ rest) := by
  unfold pkDecCoeff
  have h1 : m / 512 < k := by omega
  have h2 : m % 512 < 512 := Nat.mod_lt _ (by omega)
  show (t.rd (m >>> LOG2N) >>= _).Ok _
  rw [shiftRight9, and511, cb7, rd_ok h1, Res.ok_bind, rd_ok (by omega), Res.ok_bind, wr_ok h2, Res.ok_bind, wr_ok (by omega),
    Res.ok_bind, wr_ok h1, Res.ok_bind, shr64_ok (by omega), Res.ok_bind]
  refine ⟨_, rfl, ?_, rfl, hw.drop 7, ?_⟩
  · have hc := coeffAt_set (t := t) hm ⟨w &&& ((1 : U64) <<< 7 - 1)⟩ h1 h2
    have hv : (w &&& ((1 : U64) <<< 7 - 1)).toNat = bitsVal (bs.take 7) := by
      rw [mask_and (by omega), hw.low]
    refine ⟨?_, ?_⟩
    · rw [vecBitsTo_succ, vecBitsTo_congr (t' := t) (fun i hi => by rw [hc, if_neg (by omega)]), h.bits, hc, if_pos rfl]
      show _ ++ natBits 7 (w &&& ((1 : U64) <<< 7 - 1)).toNat = _
      rw [hv, natBits_win _ _ (by rw [List.length_take]; omega), List.take_take, Nat.min_self]
      rw [show 7 * (m + 1) = 7 * m + 7 by omega, List.take_add, hbs, List.take_append_of_le_length hlen]
    · intro i hi
      rw [hc]
      by_cases e : i = m
      · rw [if_pos e]
        show (w &&& ((1 : U64) <<< 7 - 1)).toNat < 128
        rw [hv]
        exact bitsVal_lt' _ (n := 7) (by rw [List.length_take]; omega)
      · rw [if_neg e]; exact h.lt i (by omega)
  · rw [show 7 * (m + 1) = 7 * m + 7 by omega, ← List.drop_drop, hbs, List.drop_append_of_le_length hlen]

theorem decodePublicKey_spec {pk : List U8} {seedLen k : Nat} (hl : pk.length = seedLen + 448 * k) :
    ∃ t : PVec k 1, decodePublicKey 42 seedLen k pk = .ok (pk.take seedLen, t) ∧
      vecBits 7 t = bytesBits (pk.drop seedLen) ∧ PVec.Below 128 t := by
  unfold decodePublicKey
  rw [subspan_ok (by omega), Res.ok_bind]
  dsimp only
  rw [lcm78, cb7]
  have hBl : (bytesBits (pk.drop seedLen)).length = 8 * (448 * k) := by
    rw [bytesBits_length, List.length_drop]; omega
  have hloop := forLoop_Ok (lo := seedLen) (hi := pk.length) (step := 56 / 8) (by decide)
    (body := fun off s => do
      let w ← subspan pk off (56 / 8)
      let (t, tIdx, _) ← forLoop 0 (56 / 7) 1 (fun _ s => pkDecCoeff 42 s) (s.1, s.2, fromLeBytes 64 w)
      Res.ok (t, tIdx)) (s := (PVec.zero k 1, 0))
    (fun off (s : PVec k 1 × Nat) => ∃ j, off = seedLen + 7 * j ∧ j ≤ 64 * k ∧ s.2 = 8 * j ∧ PkDec (bytesBits (pk.drop seedLen)) s.1 (8 * j))
    ⟨0, by omega, by omega, rfl, by unfold vecBitsTo; simp, fun i hi => absurd hi (by omega)⟩ ?_
  · obtain ⟨⟨t, tIdx⟩, e, i, h1, -, -, -, j, h2, h3, -, h5⟩ := hloop
    rw [e, Res.ok_bind]
    have hj : 8 * j = 512 * k := by omega
    rw [hj] at h5
    refine ⟨t, ?_, ?_, h5.lt⟩
    · rw [List.drop_zero]
    · have := h5.bits
      rw [List.take_of_length_le (by omega)] at this
      exact this
  · rintro off ⟨t, tIdx⟩ ho1 ho2 - ⟨j, rfl, hj, h1, h2⟩
    replace h1 : tIdx = 8 * j := h1
    subst h1
    have hj' : j < 64 * k := by omega
    show (subspan pk (seedLen + 7 * j) 7 >>= _).Ok _
    rw [subspan_ok (by omega), Res.ok_bind]
    have hwl : (bytesBits ((pk.drop (seedLen + 7 * j)).take 7)).length = 56 := by
      rw [bytesBits_length, List.length_take, List.length_drop]; omega
    have hw : Win (bytesBits ((pk.drop (seedLen + 7 * j)).take 7)) (fromLeBytes 64 ((pk.drop (seedLen + 7 * j)).take 7)) :=
      Win.bytes (by rw [List.length_take]; omega)
    have hinner := forLoop_Ok1 (Nat.zero_le (56 / 7)) (body := fun _ s => pkDecCoeff 42 s)
      (s := (t, 8 * j, fromLeBytes 64 ((pk.drop (seedLen + 7 * j)).take 7)))
      (fun c (s : PVec k 1 × Nat × U64) => PkDec (bytesBits (pk.drop seedLen)) s.1 (8 * j + c) ∧ s.2.1 = 8 * j + c ∧
        Win ((bytesBits ((pk.drop (seedLen + 7 * j)).take 7)).drop (7 * c)) s.2.2 ∧
        (bytesBits (pk.drop seedLen)).drop (7 * (8 * j + c)) =
          (bytesBits ((pk.drop (seedLen + 7 * j)).take 7)).drop (7 * c) ++ bytesBits (pk.drop (seedLen + 7 * j + 7)))
      ⟨h2, rfl, hw, by
        have e : pk.drop (seedLen + 7 * j + 7) = (pk.drop (seedLen + 7 * j)).drop 7 := by rw [List.drop_drop]
        rw [Nat.mul_zero, List.drop_zero, ← bytesBits_append, e, List.take_append_drop, Nat.add_zero,
          show 7 * (8 * j) = 8 * (7 * j) by omega, ← bytesBits_drop, List.drop_drop]⟩ ?_
    · refine Res.Ok.bind hinner ?_
      rintro ⟨t', tIdx', w'⟩ ⟨g1, g2, -, -⟩
      replace g2 : tIdx' = 8 * j + 8 := g2
      refine ⟨_, rfl, j + 1, by omega, by omega, ?_, ?_⟩
      · show tIdx' = _; omega
      · rw [Nat.mul_succ]; exact g1
    · rintro c ⟨t', tIdx', w'⟩ - hc ⟨g1, g2, g3, g4⟩
      replace g2 : tIdx' = 8 * j + c := g2
      subst g2
      replace hc : c < 8 := hc
      refine (pkDecCoeff_ok g1 (by omega) g3 g4 (by rw [List.length_drop, hwl]; omega)).mono ?_
      rintro ⟨t'', tIdx'', w''⟩ ⟨k1, k2, k3, k4⟩
      rw [List.drop_drop] at k3 k4
      exact ⟨k1, k2, k3, k4⟩

end Raccoon
