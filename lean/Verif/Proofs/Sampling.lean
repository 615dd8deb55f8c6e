import Verif.Proofs.Loops
import Verif.Proofs.Bytes
import Verif.Proofs.Field
import Verif.Spec.Xof
import Verif.Spec.Poly
import Verif.Spec.Sampling
import Verif.Model.Masked
import Mathlib.Data.Finset.Card
import Mathlib.Data.Finset.Range
import Mathlib.Tactic.Ring
/-!
# Samplers
-/
namespace Raccoon
attribute [-instance] Monoid.toNPow

theorem accepted_succ (s : Nat → U8) (m : Nat) :
    accepted s (m + 1) = accepted s m ++ (if qWord s m < q then [qWord s m] else []) := by
  unfold accepted
  rw [List.range_succ, List.map_append, List.filter_append]
  apply congrArg
  by_cases h : qWord s m < q <;> simp [h]

theorem accepted_prefix (s : Nat → U8) (m n : Nat) : accepted s m <+: accepted s (m + n) := by
  induction n with
  | zero => exact List.prefix_rfl
  | succ n ih =>
    rw [Nat.add_succ, accepted_succ]
    exact ih.trans (List.prefix_append _ _)

theorem accepted_lt (s : Nat → U8) (m : Nat) : ∀ x ∈ accepted s m, x < q := by
  intro x hx
  unfold accepted at hx
  rw [List.mem_filter] at hx
  simpa using hx.2

theorem listPoly_get (l : List Nat) (i : Nat) (h : i < 512) : ((listPoly l)[i]).raw = BitVec.ofNat 64 (l.getD i 0) := by
  unfold listPoly; rw [Vector.getElem_ofFn]

theorem listPoly_can {l : List Nat} (h : ∀ x ∈ l, x < q) : (listPoly l).Can := by
  intro i hi
  unfold Zq.Can
  rw [listPoly_get l i hi, BitVec.toNat_ofNat]
  refine Nat.lt_of_le_of_lt (Nat.mod_le _ _) ?_
  rw [List.getD_eq_getElem?_getD]
  rcases Nat.lt_or_ge i l.length with h1 | h1
  · rw [List.getElem?_eq_getElem h1]; exact h _ (List.getElem_mem h1)
  · rw [List.getElem?_eq_none h1]; exact q_pos

theorem listPoly_prefix {l l' : List Nat} (h : l <+: l') (hl : 512 ≤ l.length) : listPoly l' = listPoly l := by
  obtain ⟨t, rfl⟩ := h
  apply Vector.ext
  intro i hi
  apply Zq.ext_nat
  rw [listPoly_get _ i hi, listPoly_get _ i hi, List.getD_eq_getElem?_getD, List.getD_eq_getElem?_getD,
    List.getElem?_append_left (by omega)]

theorem mask49_and (v : U64) : (v &&& ((1 : U64) <<< 49 - 1)).toNat = v.toNat % 2 ^ 49 := by
  rw [BitVec.toNat_and]
  have : ((1 : U64) <<< 49 - 1).toNat = 2 ^ 49 - 1 := by decide
  rw [this, Nat.and_two_pow_sub_one_eq_mod]

/-! ### sampleQ -/

/-- Invariant of the `sampleQ` loop after `j` words. -/
structure SqInv (fn : List U8 → Nat → U8) (msg : List U8) (j : Nat) (s : Poly.SampleQSt) : Prop where
  hfn : s.xof.fn = fn
  habs : s.xof.absorbed = msg
  hlen : s.buf.length = 136
  hoff : s.bufOff ≤ 136
  hpos : s.xof.pos + s.bufOff = 7 * j + 136
  hbuf : s.buf.drop s.bufOff = (List.range (136 - s.bufOff)).map fun i => fn msg (7 * j + i)
  hidx : s.coeffIdx = (accepted (fn msg) j).length
  hle : s.coeffIdx ≤ 512
  hres : ∀ i (h : i < 512), i < s.coeffIdx → (s.res[i]).raw.toNat = (accepted (fn msg) j).getD i 0

/-- The second half of the loop body, on a window with at least seven bytes left. -/
theorem sampleQ_take {fn : List U8 → Nat → U8} {msg : List U8} {j : Nat} {s : Poly.SampleQSt} (h : SqInv fn msg j s)
    (hw : s.bufOff + 7 ≤ 136) (hc : s.coeffIdx < 512) :
    (do
      let mask49 : U64 := ((1 : U64) <<< Q_BIT_WIDTH) - 1
      let w ← subspan s.buf s.bufOff ((Q_BIT_WIDTH + 7) / 8)
      let coeff := fromLeBytes 64 w &&& mask49
      let s := { s with bufOff := s.bufOff + ((Q_BIT_WIDTH + 7) / 8) }
      if coeff ≥ Q then Res.ok s
      else do
        let res ← s.res.wr s.coeffIdx ⟨coeff⟩
        .ok { s with res := res, coeffIdx := s.coeffIdx + 1 }).Ok (SqInv fn msg (j + 1)) := by
  rw [QBW]
  have hw' : subspan s.buf s.bufOff ((49 + 7) / 8) = .ok ((List.range 7).map fun i => fn msg (7 * j + i)) := by
    rw [subspan_ok (by rw [h.hlen]; exact hw), h.hbuf, ← List.map_take, List.take_range]
    rw [Nat.min_eq_left (by omega)]
  rw [hw', Res.ok_bind]
  have hword : (fromLeBytes 64 ((List.range 7).map fun i => fn msg (7 * j + i)) &&& ((1 : U64) <<< 49 - 1)).toNat = qWord (fn msg) j := by
    rw [mask49_and, fromLeBytes64 (by simp)]; rfl
  generalize fromLeBytes 64 ((List.range 7).map fun i => fn msg (7 * j + i)) &&& ((1 : U64) <<< 49 - 1) = cf at hword
  have hbuf' : s.buf.drop (s.bufOff + 7) = (List.range (136 - (s.bufOff + 7))).map fun i => fn msg (7 * (j + 1) + i) := by
    rw [← List.drop_drop, h.hbuf, ← List.map_drop]
    rw [List.range_eq_range', List.drop_range', List.range_eq_range', List.range'_eq_map_range, List.range'_eq_map_range,
      List.map_map, List.map_map]
    rw [show 136 - s.bufOff - 7 = 136 - (s.bufOff + 7) by omega]
    apply List.map_congr_left
    intro i _
    show fn msg (7 * j + (0 + 7 * 1 + i)) = fn msg (7 * (j + 1) + (0 + i))
    congr 1
    omega
  have hacc := accepted_succ (fn msg) j
  by_cases hq : cf ≥ Q
  · have hq' : ¬ qWord (fn msg) j < q := by
      rw [← hword, ← Q_toNat]; exact Nat.not_lt.2 hq
    rw [if_neg hq', List.append_nil] at hacc
    show (if cf ≥ Q then _ else _ : Res _).Ok _
    rw [if_pos hq, Res.ok_ok]
    exact ⟨h.hfn, h.habs, h.hlen, hw, by have := h.hpos; show s.xof.pos + (s.bufOff + 7) = _; omega, hbuf', by rw [hacc]; exact h.hidx,
      h.hle, by rw [hacc]; exact h.hres⟩
  · have hq' : qWord (fn msg) j < q := by
      rw [← hword, ← Q_toNat]; exact Nat.not_le.1 hq
    rw [if_pos hq'] at hacc
    show (if cf ≥ Q then _ else _ : Res _).Ok _
    rw [if_neg hq]
    show (s.res.wr s.coeffIdx ⟨cf⟩ >>= _).Ok _
    rw [wr_ok hc, Res.ok_bind, Res.ok_ok]
    refine ⟨h.hfn, h.habs, h.hlen, hw, by have := h.hpos; show s.xof.pos + (s.bufOff + 7) = _; omega, hbuf', ?_, hc, ?_⟩
    · rw [hacc, List.length_append, ← h.hidx]; rfl
    · intro i hi hlt
      replace hlt : i < s.coeffIdx + 1 := hlt
      rw [hacc]
      show ((s.res.set s.coeffIdx ⟨cf⟩ hc)[i]).raw.toNat = _
      rw [List.getD_eq_getElem?_getD]
      rcases Nat.lt_or_ge i s.coeffIdx with h1 | h1
      · rw [Vector.getElem_set_ne _ _ (by omega), h.hres i hi h1, List.getD_eq_getElem?_getD,
          List.getElem?_append_left (by rw [← h.hidx]; exact h1)]
      · have : i = s.coeffIdx := by omega
        subst this
        rw [Vector.getElem_set_self, List.getElem?_append_right (by rw [h.hidx])]
        rw [show s.coeffIdx - (accepted (fn msg) j).length = 0 by rw [h.hidx]; omega]
        exact hword

theorem sampleQStep_ok {fn : List U8 → Nat → U8} {msg : List U8} {j : Nat} {s : Poly.SampleQSt} (h : SqInv fn msg j s)
    (hc : s.coeffIdx < 512) : (Poly.sampleQStep s).Ok (SqInv fn msg (j + 1)) := by
  unfold Poly.sampleQStep
  by_cases hn : s.bufOff + (Q_BIT_WIDTH + 7) / 8 > s.buf.length
  · show (if s.bufOff + (Q_BIT_WIDTH + 7) / 8 > s.buf.length then _ else _ : Res _).Ok _
    rw [if_pos hn]
    have hrem : s.buf.length - s.bufOff < 7 := by rw [QBW] at hn; omega
    have h1 := h.hoff
    have h2 := h.hlen
    have hr : 136 - s.bufOff < 7 := by omega
    have e1 : subspan s.buf s.bufOff (s.buf.length - s.bufOff) = .ok ((List.range (136 - s.bufOff)).map fun i => fn msg (7 * j + i)) := by
      rw [subspan_ok (by omega), h.hbuf, h2, ← List.map_take, List.take_range, Nat.min_self]
    show (subspan s.buf s.bufOff (s.buf.length - s.bufOff) >>= _).Ok _
    rw [e1, Res.ok_bind, h2]
    generalize hT : ((List.range (136 - s.bufOff)).map fun i => fn msg (7 * j + i)) = T
    have hTl : T.length = 136 - s.bufOff := by rw [← hT]; simp
    rw [writeSpan_ok (by omega), Res.ok_bind]
    have hbl : (s.buf.take 0 ++ T ++ s.buf.drop (0 + T.length)).length = 136 := by simp [h2, hTl]
    rw [hbl]
    show (writeSpan (s.buf.take 0 ++ T ++ s.buf.drop (0 + T.length)) (136 - s.bufOff)
      ((List.range (136 - (136 - s.bufOff))).map (fun i => s.xof.fn s.xof.absorbed (s.xof.pos + i))) >>= _).Ok _
    rw [writeSpan_ok (by rw [hbl]; simp)]
    rw [Res.ok_bind, Res.ok_bind]
    generalize hB : ((List.range (136 - (136 - s.bufOff))).map (fun i => s.xof.fn s.xof.absorbed (s.xof.pos + i))) = B
    have hBl : B.length = s.bufOff := by rw [← hB]; simp; omega
    have htake : (s.buf.take 0 ++ T ++ s.buf.drop (0 + T.length)).take (136 - s.bufOff) = T := by
      rw [List.take_zero, List.nil_append, ← hTl, List.take_left]
    have hdrop : (s.buf.take 0 ++ T ++ s.buf.drop (0 + T.length)).drop (136 - s.bufOff + B.length) = [] := by
      apply List.drop_eq_nil_of_le
      rw [hbl, hBl]; omega
    rw [htake, hdrop, List.append_nil]
    refine sampleQ_take (s := { s with buf := T ++ B, xof := { s.xof with pos := s.xof.pos + (136 - (136 - s.bufOff)) }, bufOff := 0 })
      ⟨h.hfn, h.habs, by show (T ++ B).length = 136; rw [List.length_append, hTl, hBl]; omega, by show 0 ≤ 136; omega,
        by have := h.hpos; show s.xof.pos + (136 - (136 - s.bufOff)) + 0 = _; omega, ?_, h.hidx, h.hle, h.hres⟩ (by show 0 + 7 ≤ 136; omega) hc
    show (T ++ B).drop 0 = (List.range 136).map _
    rw [List.drop_zero, ← hT, ← hB, h.hfn, h.habs]
    have e2 : (136 : Nat) = (136 - s.bufOff) + (136 - (136 - s.bufOff)) := by omega
    conv_rhs => rw [e2]
    rw [List.range_add, List.map_append, List.map_map]
    apply congrArg
    apply List.map_congr_left
    intro i _
    show fn msg _ = fn msg (7 * j + (136 - s.bufOff + i))
    have := h.hpos
    congr 1
    omega
  · show (if s.bufOff + (Q_BIT_WIDTH + 7) / 8 > s.buf.length then _ else _ : Res _).Ok _
    rw [if_neg hn, Res.ok_bind]
    refine sampleQ_take h ?_ hc
    rw [QBW, h.hlen] at hn
    omega

theorem sampleQLoop_eq {fn : List U8 → Nat → U8} {msg : List U8} : ∀ (n j : Nat) (s : Poly.SampleQSt), SqInv fn msg j s →
    Poly.sampleQLoop n s = if 512 ≤ (accepted (fn msg) (j + n)).length then .ok (listPoly (accepted (fn msg) (j + n))) else .nofuel := by
  have done : ∀ (n j : Nat) (s : Poly.SampleQSt), SqInv fn msg j s → ¬ s.coeffIdx < 512 →
      Res.ok s.res = if 512 ≤ (accepted (fn msg) (j + n)).length then .ok (listPoly (accepted (fn msg) (j + n))) else .nofuel := by
    intro n j s h hc
    have h5 : s.coeffIdx = 512 := by have := h.hle; omega
    have hl : 512 ≤ (accepted (fn msg) j).length := by rw [← h.hidx, h5]
    have hp := accepted_prefix (fn msg) j n
    rw [if_pos (Nat.le_trans hl hp.length_le), listPoly_prefix hp hl]
    apply congrArg
    apply Vector.ext
    intro i hi
    apply Zq.ext_nat
    rw [h.hres i hi (by omega), listPoly_get _ i hi, BitVec.toNat_ofNat, Nat.mod_eq_of_lt]
    rw [List.getD_eq_getElem?_getD, List.getElem?_eq_getElem (by omega)]
    have := accepted_lt (fn msg) j _ (List.getElem_mem (by omega : i < (accepted (fn msg) j).length))
    have h6 := q_lt
    have h7 : (2:Nat)^63 < 2^64 := by decide
    exact Nat.lt_trans this (Nat.lt_trans h6 h7)
  intro n
  induction n with
  | zero =>
    intro j s h
    unfold Poly.sampleQLoop
    split
    · rename_i hc
      rw [if_neg]
      rw [Nat.add_zero, ← h.hidx]; omega
    · rename_i hc
      exact done 0 j s h hc
  | succ n ih =>
    intro j s h
    unfold Poly.sampleQLoop
    split
    · rename_i hc
      obtain ⟨s', e, h'⟩ := sampleQStep_ok h hc
      rw [e, Res.ok_bind, ih (j + 1) s' h', show j + 1 + n = j + (n + 1) by omega]
    · rename_i hc
      exact done (n + 1) j s h hc

theorem sampleQ_eq (E : Ext) (fuel : Nat) (hdr seed : List U8) :
    Poly.sampleQ E fuel hdr seed =
      if 512 ≤ (accepted (E.shake256 (hdr ++ seed)) fuel).length then .ok (listPoly (accepted (E.shake256 (hdr ++ seed)) fuel))
      else .nofuel := by
  unfold Poly.sampleQ
  have h : SqInv E.shake256 (hdr ++ seed) 0
      { xof := (Xof.squeeze (((Xof.new E.shake256).absorb hdr).absorb seed).finalize 136).2,
        buf := (Xof.squeeze (((Xof.new E.shake256).absorb hdr).absorb seed).finalize 136).1, bufOff := 0, res := Poly.zero, coeffIdx := 0 } := by
    refine ⟨rfl, ?_, ?_, by show 0 ≤ 136; omega, ?_, ?_, rfl, by show 0 ≤ 512; omega, ?_⟩
    · show ([] ++ hdr) ++ seed = _; simp
    · show (List.map _ _).length = _; simp
    · show (0 + 136) + 0 = _; rfl
    · show (List.map _ _).drop 0 = _
      rw [List.drop_zero]
      apply List.map_congr_left
      intro i _
      show E.shake256 (([] ++ hdr) ++ seed) (0 + i) = _
      rw [List.nil_append, Nat.mul_zero]
    · intro i _ hlt; exact absurd hlt (Nat.not_lt_zero _)
  have := sampleQLoop_eq fuel 0 _ h
  rw [Nat.zero_add] at this
  exact this

theorem sampleQ_mono {E : Ext} {fuel fuel' : Nat} {hdr seed : List U8} {p : Poly} (hf : fuel ≤ fuel')
    (h : Poly.sampleQ E fuel hdr seed = .ok p) : Poly.sampleQ E fuel' hdr seed = .ok p := by
  rw [sampleQ_eq] at h ⊢
  obtain ⟨k, rfl⟩ : ∃ k, fuel' = fuel + k := ⟨fuel' - fuel, by omega⟩
  have hp := accepted_prefix (E.shake256 (hdr ++ seed)) fuel k
  split at h
  · rename_i hl
    rw [if_pos (Nat.le_trans hl hp.length_le), listPoly_prefix hp hl]; exact h
  · cases h

theorem sampleQ_can {E : Ext} {fuel : Nat} {hdr seed : List U8} {p : Poly} (h : Poly.sampleQ E fuel hdr seed = .ok p) : p.Can := by
  rw [sampleQ_eq] at h
  split at h
  · rw [← Res.ok.inj h]; exact listPoly_can (accepted_lt _ _)
  · cases h

theorem sampleQ_safe (E : Ext) (fuel : Nat) (hdr seed : List U8) : (Poly.sampleQ E fuel hdr seed).Safe Poly.Can := by
  have := @sampleQ_can E fuel hdr seed
  rw [sampleQ_eq] at this ⊢
  split
  · rename_i h; rw [if_pos h] at this; exact this rfl
  · trivial

/-! ### chalPoly -/

theorem chalPos_lt (s : Nat → U8) (j : Nat) : chalPos s j < 512 := Nat.mod_lt _ (by omega)

theorem chalSign_pos (s : Nat → U8) (j : Nat) : chalSign s j ≠ 0 ∧ chalSign s j < q := by
  unfold chalSign; split <;> decide

theorem chalSpec_get (s : Nat → U8) (m i : Nat) (hi : i < 512) : ((chalSpec s m)[i]).raw.toNat =
    match (List.range m).find? (fun j => chalPos s j == i) with | some j => chalSign s j | none => 0 := by
  unfold chalSpec
  rw [Vector.getElem_ofFn]
  show (BitVec.ofNat 64 _).toNat = _
  rw [BitVec.toNat_ofNat]
  have key : ∀ o : Option Nat, (match o with | some j => chalSign s j | none => 0) < 2 ^ 64 := by
    intro o
    cases o with
    | none => exact Nat.two_pow_pos _
    | some j =>
      have := (chalSign_pos s j).2
      have h6 : q < 2 ^ 64 := by decide
      show chalSign s j < _
      omega
  exact (Nat.mod_eq_of_lt (key _)).trans rfl

theorem chalSpec_zero_iff (s : Nat → U8) (m i : Nat) (hi : i < 512) :
    ((chalSpec s m)[i]).raw.toNat = 0 ↔ ∀ j, j < m → chalPos s j ≠ i := by
  rw [chalSpec_get s m i hi]
  split
  · rename_i j h
    have h1 := List.find?_some h
    have h2 := List.mem_of_find?_eq_some h
    simp only [beq_iff_eq] at h1
    constructor
    · intro h; exact absurd h (chalSign_pos s j).1
    · intro h; exact absurd h1 (h j (List.mem_range.1 h2))
  · rename_i h
    rw [List.find?_eq_none] at h
    simp only [true_iff]
    intro j hj e
    exact h j (List.mem_range.2 hj) (by simpa using e)

theorem chalSpec_succ_old (s : Nat → U8) (m : Nat) (h : ∃ j, j < m ∧ chalPos s j = chalPos s m) :
    chalSpec s (m + 1) = chalSpec s m ∧ chalCount s (m + 1) = chalCount s m := by
  obtain ⟨j, hj, e⟩ := h
  constructor
  · apply Vector.ext
    intro i hi
    apply Zq.ext_nat
    rw [chalSpec_get s (m + 1) i hi, chalSpec_get s m i hi, List.range_succ, List.find?_append]
    cases hf : (List.range m).find? (fun j => chalPos s j == i) with
    | some a => rfl
    | none =>
      rw [List.find?_eq_none] at hf
      have : ¬ (chalPos s m == i) = true := by rw [← e]; exact hf j (List.mem_range.2 hj)
      simp [this]
  · unfold chalCount
    rw [Finset.range_add_one, Finset.image_insert, Finset.insert_eq_of_mem]
    rw [Finset.mem_image]
    exact ⟨j, Finset.mem_range.2 hj, e⟩

theorem chalSpec_succ_new (s : Nat → U8) (m : Nat) (h : ∀ j, j < m → chalPos s j ≠ chalPos s m) (x : Zq)
    (hx : x.raw.toNat = chalSign s m) :
    chalSpec s (m + 1) = (chalSpec s m).set (chalPos s m) x (chalPos_lt s m) ∧ chalCount s (m + 1) = chalCount s m + 1 := by
  constructor
  · apply Vector.ext
    intro i hi
    apply Zq.ext_nat
    rw [chalSpec_get s (m + 1) i hi, List.range_succ, List.find?_append]
    by_cases hm : chalPos s m = i
    · subst hm
      rw [Vector.getElem_set_self, hx]
      have hf : (List.range m).find? (fun j => chalPos s j == chalPos s m) = none := by
        rw [List.find?_eq_none]
        intro j hj
        simpa using h j (List.mem_range.1 hj)
      rw [hf]
      simp
    · rw [Vector.getElem_set_ne _ _ hm, chalSpec_get s m i hi]
      have : ¬ (chalPos s m == i) = true := by simpa using hm
      cases hf : (List.range m).find? (fun j => chalPos s j == i) with
      | some a => rfl
      | none => simp [this]
  · unfold chalCount
    rw [Finset.range_add_one, Finset.image_insert, Finset.card_insert_of_notMem]
    rw [Finset.mem_image]
    rintro ⟨j, hj, e⟩
    exact h j (Finset.mem_range.1 hj) e

theorem chalCount_mono (s : Nat → U8) (m n : Nat) : chalCount s m ≤ chalCount s (m + n) := by
  unfold chalCount
  apply Finset.card_le_card
  apply Finset.image_subset_image
  intro x hx
  rw [Finset.mem_range] at *; omega

/-- Exactly `chalCount` coefficients are non-zero. -/
theorem chalSpec_weight (s : Nat → U8) (m : Nat) :
    (Finset.univ.filter fun i : Fin 512 => (chalSpec s m)[i.val] ≠ ⟨0⟩).card = chalCount s m := by
  unfold chalCount
  have e : (Finset.univ.filter fun i : Fin 512 => (chalSpec s m)[i.val] ≠ ⟨0⟩).image (fun i : Fin 512 => i.val) =
      (Finset.range m).image (chalPos s) := by
    ext i
    simp only [Finset.mem_image, Finset.mem_filter, Finset.mem_univ, true_and, Finset.mem_range]
    constructor
    · rintro ⟨k, hk, rfl⟩
      by_contra hne
      apply hk
      apply Zq.ext_nat
      rw [(chalSpec_zero_iff s m k.val k.isLt).2 (fun j hj e => hne ⟨j, hj, e⟩)]
      rfl
    · rintro ⟨j, hj, rfl⟩
      refine ⟨⟨chalPos s j, chalPos_lt s j⟩, ?_, rfl⟩
      intro h0
      have h1 : ((chalSpec s m)[chalPos s j]'(chalPos_lt s j)).raw.toNat = 0 := by rw [show (chalSpec s m)[chalPos s j]'(chalPos_lt s j) = ⟨0⟩ from h0]; rfl
      exact (chalSpec_zero_iff s m _ (chalPos_lt s j)).1 h1 j hj rfl
  rw [← e, Finset.card_image_of_injective _ Fin.val_injective]

theorem chalStep_eq (fn : List U8 → Nat → U8) (msg : List U8) (j cnt : Nat) (hcnt : cnt = chalCount (fn msg) j) :
    Poly.chalStep (⟨fn, msg, 2 * j⟩, chalSpec (fn msg) j, cnt) =
      .ok (⟨fn, msg, 2 * (j + 1)⟩, chalSpec (fn msg) (j + 1), chalCount (fn msg) (j + 1)) := by
  unfold Poly.chalStep
  show (Vector.rd _ ((fromLeBytes 16 ((List.range 2).map (fun i => fn msg (2 * j + i))) >>> 1) &&& (((1 : BitVec 16) <<< LOG2N) - 1)).toNat >>= _) = _
  have hb : (fromLeBytes 16 ((List.range 2).map (fun i => fn msg (2 * j + i)))).toNat = streamWord (fn msg) 2 j := by
    rw [fromLeBytes_toNat _ (by decide), List.take_of_length_le (by simp)]; rfl
  have hp : ((fromLeBytes 16 ((List.range 2).map (fun i => fn msg (2 * j + i))) >>> 1) &&& (((1 : BitVec 16) <<< LOG2N) - 1)).toNat
      = chalPos (fn msg) j := by
    rw [BitVec.toNat_and, BitVec.toNat_ushiftRight, hb]
    have : (((1 : BitVec 16) <<< LOG2N) - 1).toNat = 2 ^ 9 - 1 := by decide
    rw [this, Nat.and_two_pow_sub_one_eq_mod, Nat.shiftRight_eq_div_pow]
    rfl
  have hs : ∀ b : BitVec 16, b.toNat = streamWord (fn msg) 2 j →
      (Zq.one - ⟨(2 * (b.setWidth 32 &&& (1 : U32))).setWidth 64⟩ : Zq).raw.toNat = chalSign (fn msg) j := by
    intro b hb
    have hb0 : (b.setWidth 32 &&& (1 : U32)).toNat = streamWord (fn msg) 2 j % 2 := by
      rw [BitVec.toNat_and, BitVec.toNat_setWidth, hb]
      have : (1 : U32).toNat = 2 ^ 1 - 1 := by decide
      rw [this, Nat.and_two_pow_sub_one_eq_mod, ← hb]
      have := b.isLt
      rw [Nat.mod_eq_of_lt (show b.toNat < 2 ^ 32 by omega)]
    generalize (b.setWidth 32 &&& (1 : U32)) = b0 at hb0
    have hcase : b0 = 0 ∨ b0 = 1 := by
      have : b0.toNat < 2 := by rw [hb0]; exact Nat.mod_lt _ (by omega)
      rcases (by omega : b0.toNat = 0 ∨ b0.toNat = 1) with h | h
      · left; exact BitVec.eq_of_toNat_eq h
      · right; exact BitVec.eq_of_toNat_eq h
    unfold chalSign
    rw [← hb0]
    rcases hcase with rfl | rfl
    · decide
    · decide
  rw [hp, rd_ok (chalPos_lt _ _), Res.ok_bind]
  by_cases hold : ∃ j', j' < j ∧ chalPos (fn msg) j' = chalPos (fn msg) j
  · have h0 : ¬ (chalSpec (fn msg) j)[chalPos (fn msg) j]'(chalPos_lt _ _) = ⟨0⟩ := by
      intro h0
      obtain ⟨j', hj', e⟩ := hold
      have h1 : ((chalSpec (fn msg) j)[chalPos (fn msg) j]'(chalPos_lt _ _)).raw.toNat = 0 := by rw [h0]; rfl
      exact (chalSpec_zero_iff _ _ _ (chalPos_lt _ _)).1 h1 j' hj' e
    rw [decide_eq_false h0]
    show (Vector.wr _ _ ((chalSpec (fn msg) j)[chalPos (fn msg) j]'(chalPos_lt _ _)) >>= _) = _
    rw [wr_ok (chalPos_lt _ _), Res.ok_bind, Vector.set_getElem_self]
    rw [(chalSpec_succ_old _ _ hold).1, (chalSpec_succ_old _ _ hold).2, hcnt]
    rfl
  · have hnew : ∀ j', j' < j → chalPos (fn msg) j' ≠ chalPos (fn msg) j := fun j' hj' e => hold ⟨j', hj', e⟩
    have h0 : (chalSpec (fn msg) j)[chalPos (fn msg) j]'(chalPos_lt _ _) = ⟨0⟩ := by
      apply Zq.ext_nat
      rw [(chalSpec_zero_iff _ _ _ (chalPos_lt _ _)).2 hnew]; rfl
    rw [decide_eq_true h0]
    show (Vector.wr _ _ (Zq.one - _) >>= _) = _
    rw [wr_ok (chalPos_lt _ _), Res.ok_bind]
    have h1 := chalSpec_succ_new (fn msg) j hnew _ (hs _ hb)
    rw [h1.1, h1.2, hcnt]
    rfl

theorem chalLoop_eq (fn : List U8 → Nat → U8) (msg : List U8) (ω : Nat) : ∀ (n j : Nat), chalCount (fn msg) j ≤ ω →
    (ω ≤ chalCount (fn msg) (j + n) → ∃ m, m ≤ j + n ∧ chalCount (fn msg) m = ω ∧
      Poly.chalLoop ω n (⟨fn, msg, 2 * j⟩, chalSpec (fn msg) j, chalCount (fn msg) j) = .ok (chalSpec (fn msg) m)) ∧
    (¬ ω ≤ chalCount (fn msg) (j + n) →
      Poly.chalLoop ω n (⟨fn, msg, 2 * j⟩, chalSpec (fn msg) j, chalCount (fn msg) j) = .nofuel) := by
  intro n
  induction n with
  | zero =>
    intro j hle
    unfold Poly.chalLoop
    rw [Nat.add_zero]
    constructor
    · intro h
      refine ⟨j, by omega, by omega, ?_⟩
      exact if_neg (Nat.not_lt.2 h)
    · intro h
      exact if_pos (Nat.not_le.1 h)
  | succ n ih =>
    intro j hle
    unfold Poly.chalLoop
    by_cases hlt : chalCount (fn msg) j < ω
    · have e : chalCount (fn msg) (j + 1) ≤ ω := by
        by_cases hold : ∃ j', j' < j ∧ chalPos (fn msg) j' = chalPos (fn msg) j
        · rw [(chalSpec_succ_old _ _ hold).2]; omega
        · rw [(chalSpec_succ_new (fn msg) j (fun j' hj' e => hold ⟨j', hj', e⟩) ⟨BitVec.ofNat 64 (chalSign (fn msg) j)⟩ (by
            show (BitVec.ofNat 64 _).toNat = _
            rw [BitVec.toNat_ofNat, Nat.mod_eq_of_lt]
            have := (chalSign_pos (fn msg) j).2
            have h6 : q < 2 ^ 64 := by decide
            omega)).2]
          omega
      have hh := ih (j + 1) e
      rw [show j + 1 + n = j + (n + 1) by omega] at hh
      rw [if_pos hlt, chalStep_eq fn msg j _ rfl, Res.ok_bind]
      exact hh
    · rw [if_neg hlt]
      constructor
      · intro _
        exact ⟨j, by omega, by omega, rfl⟩
      · intro h
        have := chalCount_mono (fn msg) j (n + 1)
        omega

theorem chalPoly_eq (E : Ext) (fuel ω : Nat) (cHash : List U8) (s : Nat → U8)
    (hs : s = E.shake256 ([0x63, BitVec.ofNat 8 ω, 0, 0, 0, 0, 0, 0] ++ cHash)) :
    (ω ≤ chalCount s fuel → ∃ m, m ≤ fuel ∧ chalCount s m = ω ∧ Poly.chalPoly E fuel ω cHash = .ok (chalSpec s m)) ∧
    (¬ ω ≤ chalCount s fuel → Poly.chalPoly E fuel ω cHash = .nofuel) := by
  have h := chalLoop_eq E.shake256 ([0x63, BitVec.ofNat 8 ω, 0, 0, 0, 0, 0, 0] ++ cHash) ω fuel 0 (by unfold chalCount; simp)
  rw [← hs, Nat.zero_add] at h
  have e : chalSpec s 0 = Poly.zero := by
    apply Vector.ext
    intro i hi
    apply Zq.ext_nat
    rw [chalSpec_get s 0 i hi]
    unfold Poly.zero
    rw [Vector.getElem_replicate]
    rfl
  have e0 : chalCount s 0 = 0 := by unfold chalCount; simp
  rw [e, e0] at h
  exact h

theorem chalLoop_mono (ω : Nat) : ∀ (n k : Nat) (s : Xof × Poly × Nat) (p : Poly), Poly.chalLoop ω n s = .ok p →
    Poly.chalLoop ω (n + k) s = .ok p := by
  intro n
  induction n with
  | zero =>
    intro k s p h
    unfold Poly.chalLoop at h
    split at h
    · cases h
    · rename_i hc
      cases k <;> (unfold Poly.chalLoop; rw [if_neg hc]; exact h)
  | succ n ih =>
    intro k s p h
    rw [show n + 1 + k = (n + k) + 1 by omega]
    unfold Poly.chalLoop at h ⊢
    split at h
    · rename_i hc
      rw [if_pos hc]
      obtain ⟨s', e, h⟩ := Res.bind_eq_ok.1 h
      rw [e, Res.ok_bind]
      exact ih k s' p h
    · rename_i hc
      rw [if_neg hc]; exact h

theorem chalPoly_mono {E : Ext} {fuel fuel' ω : Nat} {cHash : List U8} {p : Poly} (hf : fuel ≤ fuel')
    (h : Poly.chalPoly E fuel ω cHash = .ok p) : Poly.chalPoly E fuel' ω cHash = .ok p := by
  obtain ⟨k, rfl⟩ : ∃ k, fuel' = fuel + k := ⟨fuel' - fuel, by omega⟩
  exact chalLoop_mono ω fuel k _ p h

theorem chalPoly_can {E : Ext} {fuel ω : Nat} {cHash : List U8} {p : Poly} (h : Poly.chalPoly E fuel ω cHash = .ok p) : p.Can := by
  have hh := chalPoly_eq E fuel ω cHash _ rfl
  by_cases hc : ω ≤ chalCount (E.shake256 ([0x63, BitVec.ofNat 8 ω, 0, 0, 0, 0, 0, 0] ++ cHash)) fuel
  · obtain ⟨m, -, -, e⟩ := hh.1 hc
    rw [← Res.ok.inj (e.symm.trans h)]
    intro i hi
    unfold Zq.Can
    rw [chalSpec_get _ _ _ hi]
    split
    · exact (chalSign_pos _ _).2
    · exact q_pos
  · rw [hh.2 hc] at h; cases h

theorem chalPoly_safe (E : Ext) (fuel ω : Nat) (cHash : List U8) : (Poly.chalPoly E fuel ω cHash).Safe Poly.Can := by
  have hh := chalPoly_eq E fuel ω cHash _ rfl
  have hcan := @chalPoly_can E fuel ω cHash
  by_cases hc : ω ≤ chalCount (E.shake256 ([0x63, BitVec.ofNat 8 ω, 0, 0, 0, 0, 0, 0] ++ cHash)) fuel
  · obtain ⟨m, -, -, e⟩ := hh.1 hc
    rw [e] at hcan ⊢
    exact hcan rfl
  · rw [hh.2 hc]; trivial

end Raccoon
