import Verif.Proofs.PubKey
import Verif.Proofs.Sharing
/-!
# Secret-key encoding
-/
namespace Raccoon
attribute [-instance] Monoid.toNPow
open Finset

theorem Res.Safe.self {α : Type u} {r : Res α} {P : α → Prop} (h : r.Safe P) : r.Safe (fun a => r = .ok a ∧ P a) := by
  cases r with
  | ok a => exact ⟨rfl, h⟩
  | ub => exact h
  | nofuel => trivial

theorem and8_eq (n : Nat) : and8 n = 8 * (n / 8) := by unfold and8; omega

/-! ### packing -/

theorem packCoeff_ok {L : Nat} {W0 : List Bool} {t : PVec k 1} {m : Nat} {sc : List U8} {off : Nat} {w : U64} {bo : Nat}
    (h : BW L (W0 ++ vecBitsTo 49 t m) sc off w bo) (hb : bo < 8) (hL : W0.length + 49 * (m + 1) ≤ 8 * L) {x : Zq}
    (hx : x.raw.toNat = coeffAt t m) :
    (packCoeff x (sc, off, w, bo)).Ok (fun s => BW L (W0 ++ vecBitsTo 49 t (m + 1)) s.1 s.2.1 s.2.2.1 s.2.2.2 ∧ s.2.2.2 < 8) := by
  unfold packCoeff
  have hwin : Win (natBits 49 (coeffAt t m)) (x.raw &&& ((1 : U64) <<< 49 - 1)) := by
    unfold Win
    rw [mask_and (by omega), bitsVal_natBits, hx]
  have hlen := h.length
  rw [List.length_append, vecBitsTo_length] at hlen
  show (shl64 (x.raw &&& ((1 : U64) <<< Q_BIT_WIDTH - 1)) bo >>= _).Ok _
  rw [QBW, shl64_ok (by omega), Res.ok_bind]
  have hb' := h.append hwin (by rw [natBits_length]; omega)
  rw [natBits_length, List.append_assoc, ← vecBitsTo_succ] at hb'
  have e8 : and8 (bo + 49) = 8 * ((bo + 49) / 8) := and8_eq _
  obtain ⟨buf', e, hf⟩ := hb'.flush (n := (bo + 49) / 8) (by omega) (by omega) (by omega)
  dsimp only
  rw [e8, Nat.mul_div_cancel_left _ (by omega), e, Res.ok_bind, shr64_ok (by omega), Res.ok_bind]
  exact ⟨_, rfl, hf, by show bo + 49 - 8 * ((bo + 49) / 8) < 8; omega⟩

theorem packRow_ok {L : Nat} {W0 : List Bool} {t : PVec k 1} {r : Nat} (hr : r < k) {sc : List U8} {off : Nat}
    (h : BW L (W0 ++ vecBitsTo 49 t (512 * r)) sc off 0 0) (hL : W0.length + 49 * (512 * (r + 1)) ≤ 8 * L) (h8 : W0.length % 8 = 0) :
    (packRow (t[r][0]) (sc, off)).Ok (fun s => BW L (W0 ++ vecBitsTo 49 t (512 * (r + 1))) s.1 s.2 0 0) := by
  unfold packRow
  refine Res.Ok.bind (forLoop_Ok1 (Nat.zero_le 512) (fun c (s : List U8 × Nat × U64 × Nat) =>
    BW L (W0 ++ vecBitsTo 49 t (512 * r + c)) s.1 s.2.1 s.2.2.1 s.2.2.2 ∧ s.2.2.2 < 8) ⟨h, by show 0 < 8; omega⟩ ?_) ?_
  · rintro c ⟨sc, off, w, bo⟩ - hc ⟨h1, h2⟩
    rw [rd_ok hc, Res.ok_bind]
    exact packCoeff_ok h1 h2 (by omega) (coeffAt_rc hr hc).symm
  · rintro ⟨sc, off, w, bo⟩ ⟨h1, h2⟩
    replace h1 : BW L (W0 ++ vecBitsTo 49 t (512 * r + 512)) sc off w bo := h1
    replace h2 : bo < 8 := h2
    have hlen := h1.length
    rw [List.length_append, vecBitsTo_length] at hlen
    obtain rfl : bo = 0 := by omega
    have hz := h1.zero.1
    subst hz
    exact ⟨_, rfl, h1⟩

/-! ### unpacking -/

theorem unpackCoeff_ok {sc : List U8} {R : List Bool} {off : Nat} {w : U64} {bo : Nat} (h : BR sc R off w bo) (hb : bo < 8)
    (hR : 49 ≤ R.length) :
    (unpackCoeff sc (off, w, bo)).Ok (fun s => BR sc (R.drop 49) s.2.1 s.2.2.1 s.2.2.2 ∧ s.2.2.2 < 8 ∧ s.1.raw.toNat = bitsVal (R.take 49)) := by
  unfold unpackCoeff
  have hlen := h.length
  have hle := h.off_le
  have e8 : and8 (49 - bo + 7) = 8 * ((49 - bo + 7) / 8) := and8_eq _
  dsimp only
  rw [QBW, e8, Nat.mul_div_cancel_left _ (by omega)]
  obtain ⟨b, e, hf⟩ := h.refill (n := (49 - bo + 7) / 8) (by omega) (by omega)
  rw [e, Res.ok_bind, shl64_ok (by omega), Res.ok_bind, shr64_ok (by omega), Res.ok_bind]
  obtain ⟨h1, h2⟩ := hf.consume (n := 49) (by omega)
  refine ⟨_, rfl, h1, ?_, ?_⟩
  · show bo + 8 * ((49 - bo + 7) / 8) - 49 < 8; omega
  · show (_ &&& ((1 : U64) <<< 49 - 1)).toNat = _
    rw [mask_and (by omega), h2]

theorem unpackRow_ok {sc : List U8} {R : List Bool} {off : Nat} (h : BR sc R off 0 0) (hR : 49 * 512 ≤ R.length) :
    (unpackRow sc off).Ok (fun s => BR sc (R.drop (49 * 512)) s.2 0 0 ∧
      ∀ c (hc : c < 512), (s.1[c]).raw.toNat = bitsVal ((R.drop (49 * c)).take 49)) := by
  unfold unpackRow
  have hlen := h.length
  refine Res.Ok.bind (forLoop_Ok1 (Nat.zero_le 512) (fun i (s : Poly × Nat × U64 × Nat) =>
    BR sc (R.drop (49 * i)) s.2.1 s.2.2.1 s.2.2.2 ∧ s.2.2.2 < 8 ∧
      ∀ c (hc : c < 512), c < i → (s.1[c]).raw.toNat = bitsVal ((R.drop (49 * c)).take 49))
    ⟨h, by show 0 < 8; omega, fun c hc h => absurd h (by omega)⟩ ?_) ?_
  · rintro i ⟨p, off, w, bo⟩ - hi ⟨h1, h2, h3⟩
    refine Res.Ok.bind (unpackCoeff_ok h1 h2 (by rw [List.length_drop]; omega)) ?_
    rintro ⟨x, off', w', bo'⟩ ⟨g1, g2, g3⟩
    show (Vector.wr p i x >>= _).Ok _
    rw [wr_ok hi, Res.ok_bind]
    rw [List.drop_drop] at g1
    refine ⟨_, rfl, g1, g2, ?_⟩
    intro c hc hlt
    show ((p.set i x hi)[c]).raw.toNat = _
    by_cases e : c = i
    · subst e; rw [Vector.getElem_set_self]; exact g3
    · rw [Vector.getElem_set_ne _ _ (by omega)]; exact h3 c hc (by omega)
  · rintro ⟨p, off', w, bo⟩ ⟨h1, h2, h3⟩
    replace h1 : BR sc (R.drop (49 * 512)) off' w bo := h1
    replace h2 : bo < 8 := h2
    have hlen' := h1.length
    rw [List.length_drop] at hlen'
    obtain rfl : bo = 0 := by omega
    have hz : w = 0 := by
      obtain ⟨bs, k1, k2, -⟩ := h1.bits
      have : bs = [] := List.length_eq_zero_iff.1 k1
      subst this
      exact BitVec.eq_of_toNat_eq k2
    subst hz
    exact ⟨_, rfl, h1, fun c hc => h3 c hc hc⟩

/-! ### `mask_compress` -/

/-- Share `j` of row `r`. -/
def shareZ (s : PVec l d) (r : Fin l) (j : Nat) : RPoly := if h : j < d then (s[r.val][j]).toZ else 0

theorem shareZ_sum (s : PVec l d) (r : Fin l) : ∑ j ∈ range d, shareZ s r j = PVec.val s r := by
  unfold PVec.val MPoly.val
  rw [← Fin.sum_univ_eq_sum_range]
  refine Finset.sum_congr rfl fun j _ => ?_
  unfold shareZ
  rw [dif_pos j.isLt]

/-- Share `0` replaced in row `i` of an unmasked vector. -/
theorem set_row_spec {x : PVec l 1} (hx : PVec.Can x) {i : Nat} (hi : i < l) {p : Poly} (hp : p.Can) (hz : 0 < 1) :
    PVec.Can (x.set i ((x[i]).set 0 p hz) hi) ∧
      ∀ r : Fin l, PVec.val (x.set i ((x[i]).set 0 p hz) hi) r = if r.val = i then p.toZ else PVec.val x r := by
  constructor
  · exact PVec.can_set hx hi (MPoly.can_set (hx i hi) _ hp)
  · intro r
    by_cases h : r.val = i
    · rw [if_pos h, PVec.val_set_self hi h, MPoly.val_one, Vector.getElem_set_self]
    · rw [if_neg h, PVec.val_set_ne hi h]

/-- Header of the (discarded) mask for share `sidx`, row `ridx`. -/
def skHdr (sidx ridx : Nat) : List U8 := [0x4b, BitVec.ofNat 8 sidx, BitVec.ofNat 8 ridx, 0, 0, 0, 0, 0]

/-- Seed of share `j`. -/
def skSeed (prng : Prng) (m j : Nat) : List U8 := (List.range m).map fun i => prng.stream (prng.pos + (j - 1) * m + i)

/-- Invariant of the share loop before share `sidx`. -/
structure McInv (E : Ext) (fuel : Nat) (s : PVec l d) (sc0 : List U8) (prng0 : Prng) (m sidx : Nat) (st : PVec l 1 × List U8 × Prng) : Prop where
  can : PVec.Can st.1
  val : ∀ r, PVec.val st.1 r = ∑ j ∈ range sidx, shareZ s r j
  len : st.2.1.length = sc0.length
  seeds : st.2.1.take ((sidx - 1) * m) = (List.range ((sidx - 1) * m)).map (fun i => prng0.stream (prng0.pos + i))
  prng : st.2.2 = prng0.advance ((sidx - 1) * m)
  smp : ∀ j, 1 ≤ j → j < sidx → ∀ r < l, ∃ p, Poly.sampleQ E fuel (skHdr j r) (skSeed prng0 m j) = .ok p

theorem compressShare_spec (E : Ext) (fuel : Nat) {κ : Nat} {s : PVec l d} (hs : PVec.Can s) {sidx : Nat} (h1 : 1 ≤ sidx) (hd : sidx < d)
    {sc0 : List U8} {prng0 : Prng} {st : PVec l 1 × List U8 × Prng} (h : McInv E fuel s sc0 prng0 (κ / 8) sidx st)
    (hL : (d - 1) * (κ / 8) ≤ sc0.length) :
    (compressShare E fuel κ s sidx st).Safe (McInv E fuel s sc0 prng0 (κ / 8) (sidx + 1)) := by
  obtain ⟨x, sc, prng⟩ := st
  obtain ⟨hc, hv, hl, hse, hp, hsm⟩ := h
  replace hc : PVec.Can x := hc
  replace hv : ∀ r, PVec.val x r = ∑ j ∈ range sidx, shareZ s r j := hv
  replace hl : sc.length = sc0.length := hl
  replace hse : sc.take ((sidx - 1) * (κ / 8)) = _ := hse
  replace hp : prng = _ := hp
  have hmul : (sidx + 1 - 1) * (κ / 8) = (sidx - 1) * (κ / 8) + κ / 8 := by
    rw [show sidx + 1 - 1 = (sidx - 1) + 1 by omega, Nat.add_mul, Nat.one_mul]
  have hle : (sidx + 1 - 1) * (κ / 8) ≤ (d - 1) * (κ / 8) := Nat.mul_le_mul_right _ (by omega)
  unfold compressShare
  dsimp only
  rw [Prng.read_eq]
  dsimp only
  rw [List.length_map, List.length_range, writeSpan_ok (by rw [List.length_map, List.length_range]; omega), Res.ok_bind]
  refine Res.Safe.bind (forLoop_Safe1 (Nat.zero_le l) (fun i (x' : PVec l 1) => PVec.Can x' ∧ (∀ r, PVec.val x' r = PVec.val x r) ∧
      ∀ r < i, ∃ p, Poly.sampleQ E fuel (skHdr sidx r) (skSeed prng0 (κ / 8) sidx) = .ok p) ⟨hc, fun _ => rfl, fun r h => absurd h (by omega)⟩ ?_) ?_
  · rintro i x' - hi ⟨g1, g2, g3⟩
    refine Res.Safe.bind (sampleQ_safe E fuel _ _).self ?_
    rintro p ⟨hq, -⟩
    have hq' : Poly.sampleQ E fuel (skHdr sidx i) (skSeed prng0 (κ / 8) sidx) = .ok p := by rw [← hq, hp]; rfl
    rw [rd_ok hi, Res.ok_bind, rd_ok (by omega), Res.ok_bind, wr_ok (by omega), Res.ok_bind, wr_ok hi]
    obtain ⟨k1, k2⟩ := set_row_spec g1 hi (Poly.sub_can (g1 i hi 0 (by omega)) Poly.zero_can) (by omega)
    refine ⟨k1, fun r => ?_, fun r hr => ?_⟩
    rotate_left
    · by_cases e : r = i
      · subst e; exact ⟨p, hq'⟩
      · exact g3 r (by omega)
    rw [k2, ← g2]
    by_cases e : r.val = i
    · rw [if_pos e, Poly.sub_toZ (g1 i hi 0 (by omega)) Poly.zero_can, Poly.zero_toZ, sub_zero]
      unfold PVec.val
      rw [MPoly.val_one]
      have e2 : x'[i] = x'[r.val] := getElem_congr rfl e.symm _
      rw [getElem_congr e2 rfl (by omega)]
    · rw [if_neg e]
  · rintro x1 ⟨g1, g2, g3⟩
    refine Res.Safe.bind (forLoop_Safe1 (Nat.zero_le l) (fun i (x' : PVec l 1) => PVec.Can x' ∧
      ∀ r : Fin l, PVec.val x' r = if r.val < i then PVec.val x r + shareZ s r sidx else PVec.val x r)
      ⟨g1, fun r => by rw [if_neg (by omega)]; exact g2 r⟩ ?_) ?_
    · rintro i x' - hi ⟨k1, k2⟩
      rw [rd_ok hi, Res.ok_bind, rd_ok hd, Res.ok_bind, rd_ok hi, Res.ok_bind, rd_ok (by omega), Res.ok_bind, wr_ok (by omega),
        Res.ok_bind, wr_ok hi]
      obtain ⟨n1, n2⟩ := set_row_spec k1 hi (Poly.add_can (k1 i hi 0 (by omega)) (hs i hi sidx hd)) (by omega)
      refine ⟨n1, fun r => ?_⟩
      rw [n2]
      by_cases e : r.val = i
      · rw [if_pos e, if_pos (by omega), Poly.add_toZ (k1 i hi 0 (by omega)) (hs i hi sidx hd)]
        have hk := k2 r
        rw [if_neg (by omega)] at hk
        unfold PVec.val at hk
        rw [MPoly.val_one] at hk
        have e2 : x'[i] = x'[r.val] := getElem_congr rfl e.symm _
        have e3 : s[i] = s[r.val] := getElem_congr rfl e.symm _
        rw [getElem_congr e2 rfl (by omega), getElem_congr e3 rfl hd, hk]
        unfold shareZ PVec.val
        rw [dif_pos hd]
      · rw [if_neg e, k2]
        by_cases e2 : r.val < i
        · rw [if_pos e2, if_pos (by omega)]
        · rw [if_neg e2, if_neg (by omega)]
    · rintro x2 ⟨k1, k2⟩
      refine ⟨k1, ?_, ?_, ?_, ?_, ?_⟩
      · intro r
        show PVec.val x2 r = _
        rw [k2, if_pos r.isLt, hv, Finset.sum_range_succ]
      · show (sc.take _ ++ _ ++ sc.drop _).length = _
        simp
        omega
      · show (sc.take _ ++ _ ++ sc.drop _).take _ = _
        rw [take_append_len _ _ (by rw [List.length_append, List.length_take, List.length_map, List.length_range, Nat.min_eq_left (by omega)]; exact hmul), hse, hmul, List.range_add, List.map_append, List.map_map, hp]
        refine congrArg _ (List.map_congr_left fun i _ => ?_)
        show prng0.stream (prng0.pos + (sidx - 1) * (κ / 8) + i) = prng0.stream (prng0.pos + ((sidx - 1) * (κ / 8) + i))
        rw [Nat.add_assoc]
      · show prng.advance _ = _
        rw [hp, Prng.advance_advance, hmul]
      · intro j h1 h2 r hr
        by_cases e : j = sidx
        · subst e; exact g3 r hr
        · exact hsm j h1 (by omega) r hr

theorem maskCompress_spec (E : Ext) (fuel : Nat) {κ : Nat} (h8 : κ % 8 = 0) {s : PVec l d} (hs : PVec.Can s) (hd : 0 < d)
    {sc : List U8} {prng : Prng} (hL : sc.length = (d - 1) * (κ / 8) + 3136 * l) :
    (maskCompress E fuel κ s sc prng).Safe (fun r => r.1.length = sc.length ∧
      bytesBits r.1 = bytesBits ((List.range ((d - 1) * (κ / 8))).map fun i => prng.stream (prng.pos + i)) ++ vecBits 49 (PVec.decode s) ∧
      ∀ j, 1 ≤ j → j < d → ∀ r < l, ∃ p, Poly.sampleQ E fuel (skHdr j r) (skSeed prng (κ / 8) j) = .ok p) := by
  unfold maskCompress
  refine Res.Safe.bind (forLoop_Safe1 (Nat.zero_le l) (fun i (x : PVec l 1) => PVec.Can x ∧
      ∀ r : Fin l, r.val < i → PVec.val x r = shareZ s r 0) ⟨(PVec.zero_spec l 1).1, fun r h => absurd h (by omega)⟩ ?_) ?_
  · rintro i x - hi ⟨g1, g2⟩
    rw [rd_ok hi, Res.ok_bind, rd_ok hd, Res.ok_bind, rd_ok hi, Res.ok_bind, wr_ok (by omega), Res.ok_bind, wr_ok hi]
    obtain ⟨n1, n2⟩ := set_row_spec g1 hi (hs i hi 0 hd) (by omega)
    refine ⟨n1, fun r hr => ?_⟩
    rw [n2]
    by_cases e : r.val = i
    · rw [if_pos e]
      unfold shareZ
      rw [dif_pos hd]
      have e3 : s[i] = s[r.val] := getElem_congr rfl e.symm _
      rw [getElem_congr e3 rfl hd]
    · rw [if_neg e]; exact g2 r (by omega)
  · rintro x ⟨g1, g2⟩
    have hi : McInv E fuel s sc prng (κ / 8) 1 (x, sc, prng) := by
      refine ⟨g1, ?_, rfl, ?_, ?_, fun j h1 h2 => absurd h2 (by omega)⟩
      · intro r; show PVec.val x r = _; rw [g2 r r.isLt, Finset.sum_range_one]
      · rw [Nat.sub_self, Nat.zero_mul, List.take_zero]; rfl
      · rw [Nat.sub_self, Nat.zero_mul]; rfl
    refine Res.Safe.bind (forLoop_Safe1 (by omega : 1 ≤ d) (fun sidx st => McInv E fuel s sc prng (κ / 8) sidx st) hi ?_) ?_
    · intro sidx st h1 h2 h3
      exact compressShare_spec E fuel hs h1 h2 h3 (by omega)
    · rintro ⟨x', sc', prng'⟩ ⟨k1, k2, k3, k4, -, k5⟩
      replace k1 : PVec.Can x' := k1
      replace k2 : ∀ r, PVec.val x' r = _ := k2
      replace k3 : sc'.length = sc.length := k3
      replace k4 : sc'.take ((d - 1) * (κ / 8)) = _ := k4
      have hx : x' = PVec.decode s := by
        refine PVec.ext_one k1 (PVec.decode_spec hs).1 ?_
        funext r
        rw [(PVec.decode_spec hs).2, k2, shareZ_sum]
      subst hx
      have hdiv : (d - 1) * κ / 8 = (d - 1) * (κ / 8) := Nat.mul_div_assoc _ (Nat.dvd_of_mod_eq_zero h8)
      dsimp only
      rw [hdiv]
      have hsl : (bytesBits ((List.range ((d - 1) * (κ / 8))).map fun i => prng.stream (prng.pos + i))).length = 8 * ((d - 1) * (κ / 8)) := by
        rw [bytesBits_length, List.length_map, List.length_range]
      refine Res.Safe.bind (Res.Ok.safe (forLoop_Ok1 (Nat.zero_le l) (fun r (st : List U8 × Nat) =>
        BW sc.length (bytesBits ((List.range ((d - 1) * (κ / 8))).map fun i => prng.stream (prng.pos + i)) ++
          vecBitsTo 49 (PVec.decode s) (512 * r)) st.1 st.2 0 0) ?_ ?_)) ?_
      · refine ⟨k3, by show (d - 1) * (κ / 8) ≤ _; omega, [], rfl, Win.nil, ?_⟩
        show bytesBits (sc'.take _) ++ [] = _
        rw [k4]; unfold vecBitsTo; simp
      · rintro r ⟨sc1, off⟩ - hr hb
        rw [rd_ok hr, Res.ok_bind, rd_ok (by omega), Res.ok_bind]
        exact packRow_ok hr hb (by rw [hsl]; omega) (by rw [hsl]; omega)
      · rintro ⟨sc1, off⟩ hb
        replace hb : BW _ _ sc1 off 0 0 := hb
        have hlen := hb.length
        rw [List.length_append, vecBitsTo_length, hsl] at hlen
        have hbl := hb.len
        have hz := hb.zero.2
        rw [List.take_of_length_le (by omega)] at hz
        exact ⟨hbl, hz, k5⟩

/-! ### `mask_decompress` -/

theorem unpackRows_ok {κ l d : Nat} (hd : 0 < d)
    {sc : List U8} (hL : sc.length = (d - 1) * (κ / 8) + 3136 * l) :
    (forLoop 0 l 1 (fun ridx (st : PVec l d × Nat) => do
      let (p, off) ← unpackRow sc st.2
      let row ← Vector.rd st.1 ridx
      let row ← row.wr 0 p
      let s ← Vector.wr st.1 ridx row
      Res.ok (s, off)) (PVec.zero l d, (d - 1) * (κ / 8))).Ok (fun st =>
      (∀ r (hr : r < l) c (hc : c < 512), (st.1[r][0][c]).raw.toNat =
        bitsVal (((bytesBits (sc.drop ((d - 1) * (κ / 8)))).drop (49 * (512 * r + c))).take 49)) ∧
      ∀ r (hr : r < l) j (hj : j < d), 0 < j → st.1[r][j] = Poly.zero) := by
  have hBl : (bytesBits (sc.drop ((d - 1) * (κ / 8)))).length = 8 * (3136 * l) := by
    rw [bytesBits_length, List.length_drop]; omega
  refine Res.Ok.mono (forLoop_Ok1 (Nat.zero_le l) (fun i (st : PVec l d × Nat) =>
    BR sc ((bytesBits (sc.drop ((d - 1) * (κ / 8)))).drop (49 * (512 * i))) st.2 0 0 ∧
      (∀ r (hr : r < l) c (hc : c < 512), r < i → (st.1[r][0][c]).raw.toNat =
        bitsVal (((bytesBits (sc.drop ((d - 1) * (κ / 8)))).drop (49 * (512 * r + c))).take 49)) ∧
      ∀ r (hr : r < l) j (hj : j < d), 0 < j → st.1[r][j] = Poly.zero) ⟨?_, ?_, ?_⟩ ?_) ?_
  · exact BR.start (by omega)
  · intro r _ _ _ h; exact absurd h (by omega)
  · intro r hr j hj _
    show (PVec.zero l d)[r][j] = _
    have e : (PVec.zero l d)[r] = MPoly.zero d := by unfold PVec.zero; rw [Vector.getElem_replicate]
    rw [getElem_congr e rfl hj]; unfold MPoly.zero; rw [Vector.getElem_replicate]
  · rintro i ⟨s, off⟩ - hi ⟨g1, g2, g3⟩
    refine Res.Ok.bind (unpackRow_ok g1 (by rw [List.length_drop]; omega)) ?_
    rintro ⟨p, off'⟩ ⟨k1, k2⟩
    show (Vector.rd s i >>= _).Ok _
    rw [rd_ok hi, Res.ok_bind, wr_ok hd, Res.ok_bind, wr_ok hi, Res.ok_bind]
    rw [List.drop_drop] at k1
    have hset : ∀ r (hr : r < l), (s.set i ((s[i]).set 0 p hd) hi)[r] = if r = i then (s[i]).set 0 p hd else s[r] := by
      intro r hr
      rw [Vector.getElem_set]
      by_cases e : i = r
      · rw [if_pos e, if_pos e.symm]
      · rw [if_neg e, if_neg (fun h => e h.symm)]
    refine ⟨_, rfl, ?_, ?_, ?_⟩
    · rw [show 49 * (512 * (i + 1)) = 49 * (512 * i) + 49 * 512 by omega]; exact k1
    · intro r hr c hc hlt
      show ((s.set i ((s[i]).set 0 p hd) hi)[r][0][c]).raw.toNat = _
      by_cases e : r = i
      · subst e
        have e1 := hset r hr
        rw [if_pos rfl] at e1
        have e2 : (s.set r ((s[r]).set 0 p hd) hi)[r][0] = p := by
          rw [getElem_congr e1 rfl hd, Vector.getElem_set_self]
        rw [getElem_congr e2 rfl hc, Nat.mul_add, ← List.drop_drop]
        exact k2 c hc
      · have e1 := hset r hr
        rw [if_neg e] at e1
        rw [getElem_congr (getElem_congr e1 rfl hd) rfl hc]
        exact g2 r hr c hc (by omega)
    · intro r hr j hj h0
      show (s.set i ((s[i]).set 0 p hd) hi)[r][j] = _
      have e1 := hset r hr
      by_cases e : r = i
      · subst e
        rw [if_pos rfl] at e1
        rw [getElem_congr e1 rfl hj, Vector.getElem_set_ne _ _ (by omega)]
        exact g3 r hr j hj h0
      · rw [if_neg e] at e1
        rw [getElem_congr e1 rfl hj]
        exact g3 r hr j hj h0
  · rintro ⟨s, off⟩ ⟨g1, g2, g3⟩
    exact ⟨fun r hr c hc => g2 r hr c hc hr, g3⟩

theorem seed_bound {d m sidx : Nat} (h1 : 1 ≤ sidx) (h2 : sidx < d) : (sidx - 1) * m + m ≤ (d - 1) * m := by
  calc (sidx - 1) * m + m = (sidx - 1 + 1) * m := by rw [Nat.add_mul, Nat.one_mul]
    _ ≤ (d - 1) * m := Nat.mul_le_mul_right _ (by omega)

theorem maskDecompress_spec (E : Ext) (fuel : Nat) {κ l d : Nat} (h8 : κ % 8 = 0) (hd : 0 < d)
    {sc : List U8} (hL : sc.length = (d - 1) * (κ / 8) + 3136 * l) :
    (maskDecompress E fuel κ l d sc).Safe (fun s =>
      (∀ r (hr : r < l) c (hc : c < 512), (s[r][0][c]).raw.toNat =
        bitsVal (((bytesBits (sc.drop ((d - 1) * (κ / 8)))).drop (49 * (512 * r + c))).take 49)) ∧
      ∀ r (hr : r < l) j (hj : j < d), 0 < j → s[r][j] = Poly.zero) := by
  unfold maskDecompress
  have hdiv : (d - 1) * κ / 8 = (d - 1) * (κ / 8) := Nat.mul_div_assoc _ (Nat.dvd_of_mod_eq_zero h8)
  rw [hdiv]
  refine Res.Safe.bind (unpackRows_ok hd hL).safe ?_
  rintro ⟨s, off⟩ ⟨g2, g3⟩
  refine (forLoop_Safe1 (by omega : 1 ≤ d) (fun _ (s' : PVec l d) => s' = s) rfl ?_).mono ?_
  · rintro sidx s' h1 h2 rfl
    refine forLoop_Safe1 (Nat.zero_le l) (fun _ (s'' : PVec l d) => s'' = s') rfl ?_
    rintro ridx s'' - h3 rfl
    have hle := seed_bound (m := κ / 8) h1 h2
    rw [subspan_ok (by omega), Res.ok_bind]
    refine Res.Safe.bind (sampleQ_safe E fuel _ _) ?_
    intro _ _
    exact rfl
  · rintro s' rfl
    exact ⟨g2, g3⟩

theorem maskDecompress_ok (E : Ext) (fuel : Nat) {κ l d : Nat} (h8 : κ % 8 = 0) (hd : 0 < d)
    {sc : List U8} (hL : sc.length = (d - 1) * (κ / 8) + 3136 * l)
    (hsm : ∀ j, 1 ≤ j → j < d → ∀ r < l, ∃ p, Poly.sampleQ E fuel (skHdr j r) ((sc.drop ((j - 1) * (κ / 8))).take (κ / 8)) = .ok p) :
    ∃ s, maskDecompress E fuel κ l d sc = .ok s := by
  suffices h : (maskDecompress E fuel κ l d sc).Ok (fun _ => True) by
    obtain ⟨s, e, -⟩ := h; exact ⟨s, e⟩
  unfold maskDecompress
  have hdiv : (d - 1) * κ / 8 = (d - 1) * (κ / 8) := Nat.mul_div_assoc _ (Nat.dvd_of_mod_eq_zero h8)
  rw [hdiv]
  refine Res.Ok.bind (unpackRows_ok hd hL) ?_
  rintro ⟨s, off⟩ -
  refine forLoop_Ok1 (by omega : 1 ≤ d) (fun _ (_ : PVec l d) => True) trivial ?_
  rintro sidx s' h1 h2 -
  refine forLoop_Ok1 (Nat.zero_le l) (fun _ (_ : PVec l d) => True) trivial ?_
  rintro ridx s'' - h3 -
  have hle := seed_bound (m := κ / 8) h1 h2
  rw [subspan_ok (by omega), Res.ok_bind]
  obtain ⟨p, e⟩ := hsm sidx h1 h2 ridx h3
  show (Poly.sampleQ E fuel (skHdr sidx ridx) _ >>= _).Ok _
  rw [e, Res.ok_bind]
  exact ⟨_, rfl, trivial⟩

/-- Group `m` of the packed coefficients. -/
theorem vecBits_group {n : Nat} {t : PVec k 1} {m : Nat} (hm : m < 512 * k) :
    ((vecBits n t).drop (n * m)).take n = natBits n (coeffAt t m) := by
  have e : vecBits n t = vecBitsTo n t (512 * k) := rfl
  have key : ∀ M, m < M → ((vecBitsTo n t M).drop (n * m)).take n = natBits n (coeffAt t m) := by
    intro M
    induction M with
    | zero => intro h; exact absurd h (by omega)
    | succ M ih =>
      intro h
      rw [vecBitsTo_succ]
      by_cases h2 : m < M
      · have h3 : n * (m + 1) ≤ n * M := Nat.mul_le_mul_left _ h2
        rw [Nat.mul_succ] at h3
        rw [List.drop_append_of_le_length (by rw [vecBitsTo_length]; omega),
          List.take_append_of_le_length (by rw [List.length_drop, vecBitsTo_length]; omega)]
        exact ih h2
      · obtain rfl : m = M := by omega
        rw [List.drop_append_of_le_length (by rw [vecBitsTo_length]), List.drop_of_length_le (by rw [vecBitsTo_length]),
          List.nil_append, List.take_of_length_le (by rw [natBits_length])]
  rw [e]
  exact key _ hm

end Raccoon
