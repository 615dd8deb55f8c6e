import Verif.Spec.Sig
import Verif.Proofs.SecKey
import Verif.Proofs.FieldInv
/-!
# Signature encoding
-/
namespace Raccoon
attribute [-instance] Monoid.toNPow

/-- Unary part and sign. -/
def tailBits (n : Nat) (x : Int) : List Bool := List.replicate n true ++ [false] ++ (if x = 0 then [] else [decide (x < 0)])

theorem hintBits_eq (x : Int) : hintBits x = tailBits x.natAbs x := rfl
theorem respBits_eq (x : Int) : respBits x = natBits 40 (x.natAbs % 2 ^ 40) ++ tailBits (x.natAbs / 2 ^ 40) x := by
  unfold respBits tailBits; simp only [List.append_assoc]

theorem tailBits_length (n : Nat) (x : Int) : (tailBits n x).length = n + 1 + (if x = 0 then 0 else 1) := by
  unfold tailBits
  split <;> simp

theorem tailBits_pos {n : Nat} {x : Int} (h : 0 < x) : tailBits n x = List.replicate n true ++ [false, false] := by
  unfold tailBits
  rw [if_neg (by omega), decide_eq_false (by omega)]; simp

theorem tailBits_neg {n : Nat} {x : Int} (h : x < 0) : tailBits n x = List.replicate n true ++ [false, true] := by
  unfold tailBits
  rw [if_neg (by omega), decide_eq_true (by omega)]; simp

theorem tailBits_zero {n : Nat} : tailBits n 0 = List.replicate n true ++ [false] := by
  unfold tailBits; simp

theorem Win.ones {n : Nat} (h : n < 64) : Win (List.replicate n true) ((1 : U64) <<< n - 1) := by
  unfold Win
  rw [bitsVal_replicate_true]
  have := mask_and h (BitVec.allOnes 64)
  rw [BitVec.allOnes_and] at this
  rw [this, BitVec.toNat_allOnes]
  have h1 : 2 ^ n ∣ 2 ^ 64 := Nat.pow_dvd_pow 2 (by omega)
  obtain ⟨k, hk⟩ := h1
  have hp := Nat.two_pow_pos n
  have h64 : (2 : Nat) ^ 64 = 18446744073709551616 := by norm_num
  have hk0 : 0 < k := by
    rcases Nat.eq_zero_or_pos k with h | h
    · subst h; omega
    · exact h
  obtain ⟨k', rfl⟩ : ∃ k', k = k' + 1 := ⟨k - 1, by omega⟩
  rw [Nat.mul_succ] at hk
  rw [show 2 ^ 64 - 1 = (2 ^ n - 1) + 2 ^ n * k' by omega, Nat.add_mul_mod_self_left, Nat.mod_eq_of_lt (by omega)]

/-- The encoder state: `W` bits have been produced; if the window has not overflowed it holds the pending ones exactly. -/
structure EI (L : Nat) (W : List Bool) (s : EncSt) : Prop where
  len : s.sig.length = L
  off_le : s.off ≤ L
  cnt : W.length = 8 * s.off + s.bitOff
  bw : s.bitOff ≤ 64 → BW L W s.sig s.off s.buffer s.bitOff

theorem EI.append {L : Nat} {W : List Bool} {s : EncSt} (h : EI L W s) {xs : List Bool} {v : U64} (hv : s.bitOff + xs.length ≤ 64 → Win xs v) :
    EI L (W ++ xs) { s with buffer := s.buffer ||| v <<< s.bitOff, bitOff := s.bitOff + xs.length } := by
  refine ⟨h.len, h.off_le, ?_, ?_⟩
  · show (W ++ xs).length = 8 * s.off + (s.bitOff + xs.length)
    rw [List.length_append, h.cnt]; omega
  · intro hb
    replace hb : s.bitOff + xs.length ≤ 64 := hb
    exact (h.bw (by omega)).append (hv hb) hb

theorem encFlush_cases {L : Nat} {W : List Bool} {s : EncSt} (h : EI L W s) :
    (∃ s', encFlush L s = .ok (true, s') ∧ EI L W s' ∧ s'.bitOff = W.length % 8 ∧ s.bitOff < 64) ∨
    (∃ s', encFlush L s = .ok (false, s') ∧ 8 * L < W.length) ∨ (encFlush L s = .ub ∧ ¬ s.bitOff < 64) := by
  have hcnt := h.cnt
  unfold encFlush
  by_cases h8 : s.bitOff ≥ 8
  · rw [if_pos h8]
    dsimp only
    rw [and8_eq, Nat.mul_div_cancel_left _ (by omega)]
    by_cases hL : s.off + s.bitOff / 8 > L
    · rw [if_pos hL]; exact Or.inr (Or.inl ⟨s, rfl, by omega⟩)
    · rw [if_neg hL]
      by_cases h64 : s.bitOff < 64
      · left
        obtain ⟨buf', e, hb⟩ := (h.bw (by omega)).flush (n := s.bitOff / 8) (by omega) (by omega) (by omega)
        refine ⟨⟨buf', s.off + s.bitOff / 8, s.buffer >>> (8 * (s.bitOff / 8)), s.bitOff - 8 * (s.bitOff / 8)⟩, ?_, ⟨hb.len, hb.off_le, hb.length, fun _ => hb⟩, ?_, h64⟩
        · show (putLe s.sig s.off (s.bitOff / 8) s.buffer >>= _) = _
          rw [e, Res.ok_bind, shr64_ok (by omega), Res.ok_bind]
        · show s.bitOff - 8 * (s.bitOff / 8) = _; omega
      · right; right
        refine ⟨?_, h64⟩
        have hlen := h.len
        obtain ⟨b', e, -⟩ := putLe_ok' (buf := s.sig) (off := s.off) (cnt := s.bitOff / 8) (v := s.buffer) (by omega)
        show (putLe s.sig s.off (s.bitOff / 8) s.buffer >>= _) = _
        rw [e, Res.ok_bind, shr64_ub (by omega)]
        rfl
  · rw [if_neg h8]; exact Or.inl ⟨s, rfl, h, by omega, by omega⟩

theorem i64_natAbs_cases (x : Int) : (i64 x.natAbs = .ok (x.natAbs : Int) ∧ x.natAbs < 9223372036854775808) ∨
    (i64 x.natAbs = .ub ∧ 9223372036854775808 ≤ x.natAbs) := by
  by_cases h : x.natAbs < 9223372036854775808
  · exact Or.inl ⟨i64_ok (by omega) (by omega), h⟩
  · right
    refine ⟨?_, by omega⟩
    unfold i64; rw [if_neg]; rw [pow63Z]; omega

/-- The part common to both coefficient encoders. -/
theorem encTail {L : Nat} {W : List Bool} {s : EncSt} (h : EI L W s) (hb : s.bitOff < 64) {n : Nat} {x : Int} (hn : n < 64) (hx : x ≠ 0) (p : U64)
    (hp : p = if x < 0 then 0b10 else 0b00) :
    (do
      let z ← shl64 p n
      let v ← shl64 (z ||| ((1 : U64) <<< n - 1)) s.bitOff
      Res.ok { s with buffer := s.buffer ||| v, bitOff := s.bitOff + (n + 2) }) =
      .ok { s with buffer := s.buffer ||| (p <<< n ||| ((1 : U64) <<< n - 1)) <<< s.bitOff, bitOff := s.bitOff + (tailBits n x).length } ∧
    EI L (W ++ tailBits n x) { s with buffer := s.buffer ||| (p <<< n ||| ((1 : U64) <<< n - 1)) <<< s.bitOff, bitOff := s.bitOff + (tailBits n x).length } := by
  have hl : (tailBits n x).length = n + 2 := by rw [tailBits_length, if_neg hx]
  constructor
  · rw [shl64_ok hn, Res.ok_bind, shl64_ok hb, Res.ok_bind, hl]
  · refine h.append ?_
    intro hle
    rw [hl] at hle
    rw [BitVec.or_comm]
    rcases (by omega : x < 0 ∨ 0 < x) with hneg | hpos
    · rw [tailBits_neg hneg, hp, if_pos hneg]
      exact Win.append' (Win.ones hn) (show Win [false, true] 2 from rfl) (by simp) (by simp; omega)
    · rw [tailBits_pos hpos, hp, if_neg (by omega)]
      exact Win.append' (Win.ones hn) (show Win [false, false] 0 from rfl) (by simp) (by simp; omega)

theorem encHint_cases {L : Nat} {W : List Bool} {s : EncSt} (h : EI L W s) (hb : s.bitOff < 8) (x : Int) :
    (∃ s', encHint x s = .ok s' ∧ EI L (W ++ hintBits x) s' ∧ s'.bitOff = s.bitOff + (hintBits x).length) ∨
    (encHint x s = .ub ∧ 64 ≤ (hintBits x).length) := by
  have hlen : (hintBits x).length = x.natAbs + 1 + (if x = 0 then 0 else 1) := tailBits_length _ _
  unfold encHint
  rcases i64_natAbs_cases x with ⟨e, hx⟩ | ⟨e, hx⟩
  · rw [e, Res.ok_bind]
    dsimp only
    rw [Int.toNat_natCast]
    by_cases hn : x.natAbs < 64
    · rw [shl64_ok hn, Res.ok_bind]
      left
      by_cases h1 : x > 0
      · rw [if_pos h1]
        obtain ⟨e1, e2⟩ := encTail h (by omega) hn (x := x) (by omega) 0b00 (by rw [if_neg (by omega)])
        exact ⟨_, e1, e2, rfl⟩
      · rw [if_neg h1]
        by_cases h2 : x < 0
        · rw [if_pos h2]
          obtain ⟨e1, e2⟩ := encTail h (by omega) hn (x := x) (by omega) 0b10 (by rw [if_pos (by omega)])
          exact ⟨_, e1, e2, rfl⟩
        · rw [if_neg h2]
          obtain rfl : x = 0 := by omega
          rw [shl64_ok (by omega), Res.ok_bind]
          refine ⟨_, rfl, h.append (xs := [false]) fun _ => (show Win [false] 0 from rfl), rfl⟩
    · right
      rw [shl64_ub hn]
      refine ⟨rfl, by omega⟩
  · right
    rw [e]
    exact ⟨rfl, by omega⟩

theorem encResp_cases {L : Nat} {W : List Bool} {s : EncSt} (h : EI L W s) (hb : s.bitOff < 8) (x : Int) :
    (∃ s', encResp x s = .ok s' ∧ EI L (W ++ respBits x) s' ∧ s'.bitOff = s.bitOff + (respBits x).length) ∨
    (encResp x s = .ub ∧ 64 ≤ (respBits x).length) := by
  have hlen : (respBits x).length = 40 + (x.natAbs / 2 ^ 40 + 1 + (if x = 0 then 0 else 1)) := by
    rw [respBits_eq, List.length_append, natBits_length, tailBits_length]
  have h40 : (2 : Nat) ^ 40 = 1099511627776 := by norm_num
  unfold encResp
  rcases i64_natAbs_cases x with ⟨e, hx⟩ | ⟨e, hx⟩
  · rw [e, Res.ok_bind]
    dsimp only
    rw [Int.toNat_natCast, shl64_ok (by omega), Res.ok_bind]
    have ha : x.natAbs % 2 ^ 40 < 2 ^ 40 := Nat.mod_lt _ (by omega)
    have hA := h.append (xs := natBits 40 (x.natAbs % 2 ^ 40)) (v := BitVec.ofNat 64 (x.natAbs % 2 ^ 40)) fun _ => Win.ofNat (by omega) ha
    rw [natBits_length] at hA
    by_cases hn : x.natAbs / 2 ^ 40 < 64
    · rw [shl64_ok hn, Res.ok_bind]
      left
      have hb40 : s.bitOff + 40 < 64 := by omega
      rw [respBits_eq, ← List.append_assoc]
      have hl2 : ∀ t : List Bool, (natBits 40 (x.natAbs % 2 ^ 40) ++ t).length = 40 + t.length := by
        intro t; rw [List.length_append, natBits_length]
      rw [hl2]
      by_cases h1 : x > 0
      · rw [if_pos h1]
        obtain ⟨e1, e2⟩ := encTail hA hb40 hn (x := x) (by omega) 0b00 (by rw [if_neg (by omega)])
        exact ⟨_, e1, e2, Nat.add_assoc _ _ _⟩
      · rw [if_neg h1]
        by_cases h2 : x < 0
        · rw [if_pos h2]
          obtain ⟨e1, e2⟩ := encTail hA hb40 hn (x := x) (by omega) 0b10 (by rw [if_pos (by omega)])
          exact ⟨_, e1, e2, Nat.add_assoc _ _ _⟩
        · rw [if_neg h2]
          obtain rfl : x = 0 := by omega
          refine ⟨_, rfl, ?_, rfl⟩
          have hB := hA.append (xs := [false]) (v := 0) fun _ => (show Win [false] 0 from rfl)
          have ez : ∀ (w : U64) (n : Nat), w ||| (0 : U64) <<< n = w := by
            intro w n; rw [show (0 : U64) = 0#64 from rfl, BitVec.zero_shiftLeft, BitVec.or_zero]
          rw [ez] at hB
          exact hB
    · right
      rw [shl64_ub hn]
      exact ⟨rfl, by omega⟩
  · right
    rw [e]
    exact ⟨rfl, by omega⟩

/-- Bits pending in the window after encoding `xs`, if `b` are pending and `p` bits have been produced before. -/
def pendFrom (e : Int → List Bool) : Nat → Nat → List Int → Nat
  | _, b, [] => b
  | p, _, x :: xs => pendFrom e (p + (e x).length) (p % 8 + (e x).length) xs

/-- The window never fills up while encoding `xs`. -/
def FitFrom (e : Int → List Bool) : Nat → List Int → Prop
  | _, [] => True
  | p, x :: xs => p % 8 + (e x).length < 64 ∧ FitFrom e (p + (e x).length) xs

theorem encLoop_cases {L : Nat} {enc : Int → EncSt → Res EncSt} {e : Int → List Bool}
    (henc : ∀ {W : List Bool} {s : EncSt}, EI L W s → s.bitOff < 8 → ∀ x,
      (∃ s', enc x s = .ok s' ∧ EI L (W ++ e x) s' ∧ s'.bitOff = s.bitOff + (e x).length) ∨ (enc x s = .ub ∧ 64 ≤ (e x).length)) :
    ∀ (xs : List Int) {W : List Bool} {s : EncSt}, EI L W s →
      (∃ s', encLoop L enc xs s = .ok (true, s') ∧ EI L (W ++ xs.flatMap e) s' ∧ s'.bitOff = pendFrom e W.length s.bitOff xs ∧
        (s'.bitOff < 64 ↔ s.bitOff < 64 ∧ FitFrom e W.length xs)) ∨
      (∃ s', encLoop L enc xs s = .ok (false, s') ∧ 8 * L < (W ++ xs.flatMap e).length) ∨
      (encLoop L enc xs s = .ub ∧ ¬ (s.bitOff < 64 ∧ FitFrom e W.length xs)) := by
  intro xs
  induction xs with
  | nil =>
    intro W s h
    left
    refine ⟨s, rfl, ?_, rfl, ?_⟩
    · rw [List.flatMap_nil, List.append_nil]; exact h
    · unfold FitFrom; simp
  | cons x xs ih =>
    intro W s h
    rw [List.flatMap_cons, ← List.append_assoc]
    show (∃ s', (encFlush L s >>= _) = _ ∧ _) ∨ (∃ s', (encFlush L s >>= _) = _ ∧ _) ∨ ((encFlush L s >>= _) = _ ∧ _)
    rcases encFlush_cases h with ⟨s1, e1, h1, hb1, hlt⟩ | ⟨s1, e1, h1⟩ | ⟨e1, h1⟩
    · rw [e1, Res.ok_bind]
      show (∃ s', (enc x s1 >>= _) = _ ∧ _) ∨ (∃ s', (enc x s1 >>= _) = _ ∧ _) ∨ ((enc x s1 >>= _) = _ ∧ _)
      rcases henc h1 (by omega) x with ⟨s2, e2, h2, hb2⟩ | ⟨e2, h2⟩
      · rw [e2, Res.ok_bind]
        have hlen : (W ++ e x).length = W.length + (e x).length := List.length_append
        rw [hb1] at hb2
        rcases ih h2 with ⟨s3, e3, h3, hp3, hf3⟩ | ⟨s3, e3, h3⟩ | ⟨e3, h3⟩
        · left
          refine ⟨s3, e3, h3, ?_, ?_⟩
          · rw [hp3, hb2, hlen]; rfl
          · rw [hf3, hb2, hlen]
            exact ⟨fun ⟨a, b⟩ => ⟨hlt, a, b⟩, fun ⟨_, a, b⟩ => ⟨a, b⟩⟩
        · exact Or.inr (Or.inl ⟨s3, e3, h3⟩)
        · refine Or.inr (Or.inr ⟨e3, ?_⟩)
          rw [hb2, hlen] at h3
          unfold FitFrom
          exact fun ⟨_, a, b⟩ => h3 ⟨a, b⟩
      · right; right
        rw [e2]
        refine ⟨rfl, ?_⟩
        unfold FitFrom
        intro ⟨_, a, _⟩
        omega
    · right; left
      rw [e1, Res.ok_bind]
      refine ⟨s1, rfl, ?_⟩
      rw [List.length_append, List.length_append]; omega
    · right; right
      rw [e1]
      exact ⟨rfl, fun ⟨a, _⟩ => h1 a⟩

theorem encFinish_cases {L : Nat} {W : List Bool} {s : EncSt} (h : EI L W s) :
    (∃ s', encFinish L s = .ok (true, s') ∧ s'.sig.length = L ∧ s'.off ≤ L ∧ s.bitOff ≤ 56 ∧
      ∃ pad, bytesBits (s'.sig.take s'.off) = W ++ List.replicate pad false) ∨
    (∃ s', encFinish L s = .ok (false, s') ∧ 8 * L < W.length) ∨ (encFinish L s = .ub ∧ ¬ s.bitOff ≤ 56) := by
  have hcnt := h.cnt
  unfold encFinish
  by_cases h0 : s.bitOff > 0
  · rw [if_pos h0]
    dsimp only
    rw [and8_eq, Nat.mul_div_cancel_left _ (by omega)]
    by_cases hL : s.off + (s.bitOff + 7) / 8 > L
    · rw [if_pos hL]; exact Or.inr (Or.inl ⟨s, rfl, by omega⟩)
    · rw [if_neg hL]
      by_cases h56 : s.bitOff ≤ 56
      · left
        obtain ⟨buf', e, hb, hbits⟩ := (h.bw (by omega)).finish (n := (s.bitOff + 7) / 8) (by omega) (by omega) (by omega)
        refine ⟨⟨buf', s.off + (s.bitOff + 7) / 8, s.buffer >>> (8 * ((s.bitOff + 7) / 8)), 0⟩, ?_, hb, by show s.off + _ ≤ L; omega, h56, _, hbits⟩
        show (putLe s.sig s.off ((s.bitOff + 7) / 8) s.buffer >>= _) = _
        rw [e, Res.ok_bind, shr64_ok (by omega), Res.ok_bind]
      · right; right
        refine ⟨?_, h56⟩
        have hlen := h.len
        obtain ⟨b', e, -⟩ := putLe_ok' (buf := s.sig) (off := s.off) (cnt := (s.bitOff + 7) / 8) (v := s.buffer) (by omega)
        show (putLe s.sig s.off ((s.bitOff + 7) / 8) s.buffer >>= _) = _
        rw [e, Res.ok_bind, shr64_ub (by omega)]
        rfl
  · rw [if_neg h0]
    have hz : s.bitOff = 0 := by omega
    have hb := h.bw (by omega)
    rw [hz] at hb
    exact Or.inl ⟨s, rfl, h.len, h.off_le, by omega, 0, by rw [List.replicate_zero, List.append_nil]; exact hb.zero.2⟩

/-- The window never fills up and the last flush is in range. -/
def FitSig (h z : List Int) : Prop :=
  FitFrom hintBits 0 h ∧ FitFrom respBits (h.flatMap hintBits).length z ∧
    pendFrom respBits (h.flatMap hintBits).length (pendFrom hintBits 0 0 h) z ≤ 56

theorem fitFrom_shift (e : Int → List Bool) : ∀ (xs : List Int) (p k : Nat), FitFrom e (8 * k + p) xs ↔ FitFrom e p xs := by
  intro xs
  induction xs with
  | nil => intro p k; exact Iff.rfl
  | cons x xs ih =>
    intro p k
    unfold FitFrom
    rw [Nat.add_assoc, ih, show (8 * k + p) % 8 = p % 8 by omega]

theorem pendFrom_shift (e : Int → List Bool) : ∀ (xs : List Int) (p b k : Nat), pendFrom e (8 * k + p) b xs = pendFrom e p b xs := by
  intro xs
  induction xs with
  | nil => intro p b k; rfl
  | cons x xs ih =>
    intro p b k
    unfold pendFrom
    rw [Nat.add_assoc, ih, show (8 * k + p) % 8 = p % 8 by omega]

theorem encodeSig_cases (c : List U8) (h z : List Int) (sig : List U8) (hc : c.length ≤ sig.length) :
    (∃ b, encodeSig c h z sig = .ok (true, b) ∧ IsSigEncoding c h z sig.length b ∧ FitSig h z) ∨
    (∃ b, encodeSig c h z sig = .ok (false, b) ∧ 8 * sig.length < 8 * c.length + (sigBits h z).length) ∨
    (encodeSig c h z sig = .ub ∧ ¬ FitSig h z) := by
  unfold encodeSig
  rw [writeSpan_ok (by omega), Res.ok_bind]
  have hlc : (bytesBits c).length = 8 * c.length + 0 := bytesBits_length c
  have h0 : EI sig.length (bytesBits c) ⟨sig.take 0 ++ c ++ sig.drop (0 + c.length), c.length, 0, 0⟩ := by
    have hl : (sig.take 0 ++ c ++ sig.drop (0 + c.length)).length = sig.length := by simp; omega
    refine ⟨hl, hc, hlc, fun _ => ⟨hl, hc, [], rfl, Win.nil, ?_⟩⟩
    show bytesBits ((sig.take 0 ++ c ++ sig.drop (0 + c.length)).take c.length) ++ [] = _
    rw [take_append_len _ _ (by simp), List.append_nil, List.take_zero, List.nil_append]
  have hpos : (0 : Nat) < 64 := by omega
  rcases encLoop_cases (fun h hb x => encHint_cases h hb x) h h0 with ⟨s1, e1, i1, p1, f1⟩ | ⟨s1, e1, i1⟩ | ⟨e1, i1⟩
  · rw [e1, Res.ok_bind]
    rw [hlc, pendFrom_shift] at p1
    rw [hlc, fitFrom_shift] at f1
    replace f1 : s1.bitOff < 64 ↔ (0 : Nat) < 64 ∧ FitFrom hintBits 0 h := f1
    replace p1 : s1.bitOff = pendFrom hintBits 0 0 h := p1
    have hl1 : (bytesBits c ++ h.flatMap hintBits).length = 8 * c.length + (h.flatMap hintBits).length := by
      rw [List.length_append, bytesBits_length]
    show (∃ b, (encLoop sig.length encResp z s1 >>= _) = _ ∧ _) ∨ (∃ b, (encLoop sig.length encResp z s1 >>= _) = _ ∧ _) ∨
      ((encLoop sig.length encResp z s1 >>= _) = _ ∧ _)
    rcases encLoop_cases (fun h hb x => encResp_cases h hb x) z i1 with ⟨s2, e2, i2, p2, f2⟩ | ⟨s2, e2, i2⟩ | ⟨e2, i2⟩
    · rw [e2, Res.ok_bind]
      rw [hl1, pendFrom_shift, p1] at p2
      rw [hl1, fitFrom_shift, f1] at f2
      show (∃ b, (encFinish sig.length s2 >>= _) = _ ∧ _) ∨ (∃ b, (encFinish sig.length s2 >>= _) = _ ∧ _) ∨
        ((encFinish sig.length s2 >>= _) = _ ∧ _)
      rcases encFinish_cases i2 with ⟨s3, e3, l3, o3, b3, pad, w3⟩ | ⟨s3, e3, i3⟩ | ⟨e3, i3⟩
      · rw [e3, Res.ok_bind]
        left
        refine ⟨s3.sig.take s3.off ++ List.replicate (sig.length - s3.off) 0, ?_, ⟨?_, ?_⟩, ?_⟩
        · show (writeSpan s3.sig s3.off (List.replicate (sig.length - s3.off) 0) >>= _) = _
          rw [writeSpan_ok (by rw [List.length_replicate]; omega), Res.ok_bind, List.length_replicate,
            List.drop_of_length_le (by omega), List.append_nil]
        · rw [List.length_append, List.length_take, List.length_replicate]; omega
        · refine ⟨pad + 8 * (sig.length - s3.off), ?_⟩
          rw [bytesBits_append, w3, bytesBits_replicate_zero, List.append_assoc, List.replicate_append_replicate]
          unfold sigBits
          rw [List.append_assoc, List.append_assoc, List.append_assoc, List.append_assoc]
        · have := f2.1 (by omega)
          exact ⟨this.1.2, this.2, by rw [← p2]; exact b3⟩
      · rw [e3, Res.ok_bind]
        refine Or.inr (Or.inl ⟨_, rfl, ?_⟩)
        rw [List.append_assoc, List.length_append, bytesBits_length] at i3
        exact i3
      · rw [e3]
        refine Or.inr (Or.inr ⟨rfl, fun hf => i3 ?_⟩)
        rw [p2]; exact hf.2.2
    · rw [e2, Res.ok_bind]
      refine Or.inr (Or.inl ⟨_, rfl, ?_⟩)
      rw [List.append_assoc, List.length_append, bytesBits_length] at i2
      exact i2
    · rw [e2]
      refine Or.inr (Or.inr ⟨rfl, fun hf => i2 ?_⟩)
      rw [hl1, fitFrom_shift, f1]
      exact ⟨⟨hpos, hf.1⟩, hf.2.1⟩
  · rw [e1, Res.ok_bind]
    refine Or.inr (Or.inl ⟨_, rfl, ?_⟩)
    rw [List.length_append, bytesBits_length] at i1
    unfold sigBits
    rw [List.length_append]; omega
  · rw [e1]
    refine Or.inr (Or.inr ⟨rfl, fun hf => i1 ⟨hpos, ?_⟩⟩)
    rw [hlc, fitFrom_shift]; exact hf.1

end Raccoon
