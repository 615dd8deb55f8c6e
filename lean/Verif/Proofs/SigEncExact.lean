import Verif.Spec.SigWindow
import Verif.Proofs.SigEnc
/-!
# Signature encoding, exactly
-/
namespace Raccoon
attribute [-instance] Monoid.toNPow

/-- The decisions of the encoder: code words are pairs (ones, bits), `p` bits have been produced, `b` of them are pending. -/
def absRun (L : Nat) : Nat → Nat → List (Nat × Nat) → Res Bool
  | p, b, [] => if (p + 7) / 8 ≤ L then (if b ≤ 56 then .ok true else .ub) else .ok false
  | p, b, x :: xs => if p / 8 ≤ L then (if b < 64 then (if x.1 < 64 then absRun L (p + x.2) (p % 8 + x.2) xs else .ub) else .ub) else .ok false

theorem absRun_cons (L p b : Nat) (x : Nat × Nat) (xs : List (Nat × Nat)) : absRun L p b (x :: xs) =
    if p / 8 ≤ L then (if b < 64 then (if x.1 < 64 then absRun L (p + x.2) (p % 8 + x.2) xs else .ub) else .ub) else .ok false := rfl

theorem absRun_shift (k : Nat) : ∀ (xs : List (Nat × Nat)) (L p b : Nat), absRun (k + L) (8 * k + p) b xs = absRun L p b xs := by
  intro xs
  induction xs with
  | nil =>
    intro L p b
    unfold absRun
    by_cases h : (p + 7) / 8 ≤ L
    · rw [if_pos h, if_pos (by omega)]
    · rw [if_neg h, if_neg (by omega)]
  | cons x xs ih =>
    intro L p b
    unfold absRun
    rw [Nat.add_assoc, ih, show (8 * k + p) % 8 = p % 8 by omega]
    by_cases h : p / 8 ≤ L
    · rw [if_pos h, if_pos (by omega)]
    · rw [if_neg h, if_neg (by omega)]

def lens (xs : List (Nat × Nat)) : Nat := (xs.map Prod.snd).sum

/-- No code word fills the window. -/
def StrictC : Nat → List (Nat × Nat) → Prop
  | _, [] => True
  | p, x :: xs => p % 8 + x.2 < 64 ∧ StrictC (p + x.2) xs

theorem absRun_ub (L : Nat) : ∀ (xs : List (Nat × Nat)) (p b : Nat), absRun L p b xs = .ub ↔
    (xs ≠ [] ∧ p / 8 ≤ L ∧ 64 ≤ b) ∨ (xs = [] ∧ (p + 7) / 8 ≤ L ∧ 56 < b) ∨
    ∃ x1 x x2, xs = x1 ++ x :: x2 ∧ StrictC p x1 ∧ EncCodeTrap L (p + lens x1) x.1 x.2 (x2 = []) := by
  intro xs
  induction xs with
  | nil =>
    intro p b
    have hno : ∀ x1 (x : Nat × Nat) x2, ([] : List (Nat × Nat)) ≠ x1 ++ x :: x2 := by
      intro x1 x x2 e
      have := congrArg List.length e
      simp at this
    unfold absRun
    by_cases h1 : (p + 7) / 8 ≤ L
    · rw [if_pos h1]
      by_cases h2 : b ≤ 56
      · rw [if_pos h2]
        refine ⟨fun h => (nomatch h), ?_⟩
        rintro (⟨h, -⟩ | ⟨-, -, h⟩ | ⟨x1, x, x2, e, -⟩)
        · exact absurd rfl h
        · omega
        · exact absurd e (hno _ _ _)
      · rw [if_neg h2]
        exact ⟨fun _ => Or.inr (Or.inl ⟨rfl, h1, by omega⟩), fun _ => rfl⟩
    · rw [if_neg h1]
      refine ⟨fun h => (nomatch h), ?_⟩
      rintro (⟨h, -⟩ | ⟨-, h, -⟩ | ⟨x1, x, x2, e, -⟩)
      · exact absurd rfl h
      · omega
      · exact absurd e (hno _ _ _)
  | cons x xs ih =>
    intro p b
    unfold absRun
    by_cases h1 : p / 8 ≤ L
    · rw [if_pos h1]
      by_cases h2 : b < 64
      · rw [if_pos h2]
        by_cases h3 : x.1 < 64
        · rw [if_pos h3, ih]
          constructor
          · rintro (⟨g1, g2, g3⟩ | ⟨g1, g2, g3⟩ | ⟨x1, y, x2, rfl, g2, g3⟩)
            · refine Or.inr (Or.inr ⟨[], x, xs, rfl, trivial, h1, Or.inr (Or.inl ⟨g1, g3, g2⟩)⟩)
            · refine Or.inr (Or.inr ⟨[], x, xs, rfl, trivial, h1, Or.inr (Or.inr ⟨g1, g3, g2⟩)⟩)
            · by_cases hs : p % 8 + x.2 < 64
              · refine Or.inr (Or.inr ⟨x :: x1, y, x2, rfl, ⟨hs, g2⟩, ?_⟩)
                have : p + lens (x :: x1) = p + x.2 + lens x1 := by unfold lens; rw [List.map_cons, List.sum_cons, Nat.add_assoc]
                rw [this]
                exact g3
              · refine Or.inr (Or.inr ⟨[], x, x1 ++ y :: x2, rfl, trivial, h1, Or.inr (Or.inl ⟨by simp, ?_, ?_⟩)⟩)
                · show 64 ≤ (p + 0) % 8 + x.2
                  rw [show p + 0 = p from rfl]; omega
                · show (p + 0 + x.2) / 8 ≤ L
                  have := g3.1
                  rw [show p + 0 = p from rfl]
                  omega
          · rintro (⟨g1, g2, g3⟩ | ⟨g1, g2, g3⟩ | ⟨x1, y, x2, e, g2, g3⟩)
            · omega
            · cases g1
            · cases x1 with
              | nil =>
                obtain ⟨rfl, rfl⟩ := List.cons.inj e
                obtain ⟨-, g | ⟨g1, g2, g3⟩ | ⟨g1, g2, g3⟩⟩ := g3
                · omega
                · exact Or.inl ⟨g1, g3, g2⟩
                · exact Or.inr (Or.inl ⟨g1, g3, g2⟩)
              | cons x' x1 =>
                obtain ⟨rfl, rfl⟩ := List.cons.inj e
                refine Or.inr (Or.inr ⟨x1, y, x2, rfl, g2.2, ?_⟩)
                have : p + lens (x :: x1) = p + x.2 + lens x1 := by unfold lens; rw [List.map_cons, List.sum_cons, Nat.add_assoc]
                rw [this] at g3
                exact g3
        · rw [if_neg h3]
          exact ⟨fun _ => Or.inr (Or.inr ⟨[], x, xs, rfl, trivial, h1, Or.inl (by omega)⟩), fun _ => rfl⟩
      · rw [if_neg h2]
        exact ⟨fun _ => Or.inl ⟨by simp, h1, by omega⟩, fun _ => rfl⟩
    · rw [if_neg h1]
      refine ⟨fun h => (nomatch h), ?_⟩
      rintro (⟨-, h, -⟩ | ⟨h, -⟩ | ⟨x1, y, x2, e, -, h, -⟩)
      · omega
      · cases h
      · have : p / 8 ≤ (p + lens x1) / 8 := Nat.div_le_div_right (Nat.le_add_right ..)
        omega

/-! ### The code against `absRun` -/

theorem encFlush_exact {L : Nat} {W : List Bool} {s : EncSt} (h : EI L W s) :
    (∃ s', encFlush L s = .ok (true, s') ∧ EI L W s' ∧ s'.bitOff = W.length % 8 ∧ s.bitOff < 64 ∧ W.length / 8 ≤ L) ∨
    (∃ s', encFlush L s = .ok (false, s') ∧ ¬ W.length / 8 ≤ L) ∨ (encFlush L s = .ub ∧ ¬ s.bitOff < 64 ∧ W.length / 8 ≤ L) := by
  have hcnt := h.cnt
  have hol := h.off_le
  by_cases hL : W.length / 8 ≤ L
  · rcases encFlush_cases h with ⟨s', e, h1, h2, h3⟩ | ⟨s', e, h1⟩ | ⟨e, h1⟩
    · exact Or.inl ⟨s', e, h1, h2, h3, hL⟩
    · exfalso
      unfold encFlush at e
      by_cases h8 : s.bitOff ≥ 8
      · rw [if_pos h8] at e
        dsimp only at e
        rw [and8_eq, Nat.mul_div_cancel_left _ (by omega), if_neg (by omega)] at e
        obtain ⟨sig, -, e⟩ := Res.bind_eq_ok.1 e
        obtain ⟨bu, -, e⟩ := Res.bind_eq_ok.1 e
        cases e
      · rw [if_neg h8] at e
        cases e
    · exact Or.inr (Or.inr ⟨e, h1, hL⟩)
  · refine Or.inr (Or.inl ⟨s, ?_, hL⟩)
    unfold encFlush
    rw [if_pos (by omega)]
    dsimp only
    rw [and8_eq, Nat.mul_div_cancel_left _ (by omega), if_pos (by omega)]

theorem encFinish_exact {L : Nat} {W : List Bool} {s : EncSt} (h : EI L W s) :
    (∃ s', encFinish L s = .ok (true, s') ∧ s.bitOff ≤ 56 ∧ (W.length + 7) / 8 ≤ L ∧ s'.off ≤ L ∧ s'.sig.length = L) ∨
    (∃ s', encFinish L s = .ok (false, s') ∧ ¬ (W.length + 7) / 8 ≤ L) ∨ (encFinish L s = .ub ∧ ¬ s.bitOff ≤ 56 ∧ (W.length + 7) / 8 ≤ L) := by
  have hcnt := h.cnt
  have hol := h.off_le
  by_cases hL : (W.length + 7) / 8 ≤ L
  · rcases encFinish_cases h with ⟨s', e, h1, h2, h3, -⟩ | ⟨s', e, h1⟩ | ⟨e, h1⟩
    · exact Or.inl ⟨s', e, h3, hL, h2, h1⟩
    · omega
    · exact Or.inr (Or.inr ⟨e, h1, hL⟩)
  · refine Or.inr (Or.inl ⟨s, ?_, hL⟩)
    unfold encFinish
    rw [if_pos (by omega)]
    dsimp only
    rw [and8_eq, Nat.mul_div_cancel_left _ (by omega), if_pos (by omega)]

/-- What is left of the decision after the loop over `xs`. -/
theorem encLoop_exact {L : Nat} {enc : Int → EncSt → Res EncSt} {e : Int → List Bool} {u : Int → Nat}
    (henc : ∀ {W : List Bool} {s : EncSt}, EI L W s → s.bitOff < 8 → ∀ x,
      (∃ s', enc x s = .ok s' ∧ EI L (W ++ e x) s' ∧ s'.bitOff = s.bitOff + (e x).length ∧ u x < 64) ∨ (enc x s = .ub ∧ ¬ u x < 64)) :
    ∀ (xs : List Int) (rest : List (Nat × Nat)) {W : List Bool} {s : EncSt}, EI L W s →
      (∃ s', encLoop L enc xs s = .ok (true, s') ∧ EI L (W ++ xs.flatMap e) s' ∧
        absRun L W.length s.bitOff (xs.map (fun x => (u x, (e x).length)) ++ rest) = absRun L (W ++ xs.flatMap e).length s'.bitOff rest) ∨
      (∃ s', encLoop L enc xs s = .ok (false, s') ∧ absRun L W.length s.bitOff (xs.map (fun x => (u x, (e x).length)) ++ rest) = .ok false) ∨
      (encLoop L enc xs s = .ub ∧ absRun L W.length s.bitOff (xs.map (fun x => (u x, (e x).length)) ++ rest) = .ub) := by
  intro xs
  induction xs with
  | nil =>
    intro rest W s h
    left
    refine ⟨s, rfl, ?_, ?_⟩
    · rw [List.flatMap_nil, List.append_nil]; exact h
    · rw [List.flatMap_nil, List.append_nil]; rfl
  | cons x xs ih =>
    intro rest W s h
    rw [List.flatMap_cons, ← List.append_assoc, List.map_cons, List.cons_append]
    show (∃ s', (encFlush L s >>= _) = _ ∧ _) ∨ (∃ s', (encFlush L s >>= _) = _ ∧ _) ∨ ((encFlush L s >>= _) = _ ∧ _)
    rw [absRun_cons]
    rcases encFlush_exact h with ⟨s1, e1, h1, hb1, hlt, hL⟩ | ⟨s1, e1, h1⟩ | ⟨e1, h1, hL⟩
    · rw [e1, Res.ok_bind, if_pos hL, if_pos hlt]
      show (∃ s', (enc x s1 >>= _) = _ ∧ _) ∨ (∃ s', (enc x s1 >>= _) = _ ∧ _) ∨ ((enc x s1 >>= _) = _ ∧ _)
      rcases henc h1 (by omega) x with ⟨s2, e2, h2, hb2, hu⟩ | ⟨e2, hu⟩
      · rw [e2, Res.ok_bind]
        rw [if_pos hu]
        have hlen : (W ++ e x).length = W.length + (e x).length := List.length_append
        rw [hb1] at hb2
        have := ih rest h2
        rw [hb2, hlen] at this
        exact this
      · right; right
        rw [e2, if_neg hu]
        exact ⟨rfl, rfl⟩
    · right; left
      rw [e1, Res.ok_bind, if_neg h1]
      exact ⟨s1, rfl, rfl⟩
    · right; right
      rw [e1, if_pos hL, if_neg h1]
      exact ⟨rfl, rfl⟩

theorem encHint_exact {L : Nat} {W : List Bool} {s : EncSt} (h : EI L W s) (hb : s.bitOff < 8) (x : Int) :
    (∃ s', encHint x s = .ok s' ∧ EI L (W ++ hintBits x) s' ∧ s'.bitOff = s.bitOff + (hintBits x).length ∧ x.natAbs < 64) ∨
    (encHint x s = .ub ∧ ¬ x.natAbs < 64) := by
  by_cases hn : x.natAbs < 64
  · rcases encHint_cases h hb x with ⟨s', e, h1, h2⟩ | ⟨e, -⟩
    · exact Or.inl ⟨s', e, h1, h2, hn⟩
    · exfalso
      unfold encHint at e
      rcases i64_natAbs_cases x with ⟨e0, hx⟩ | ⟨e0, hx⟩
      · rw [e0, Res.ok_bind] at e
        dsimp only at e
        rw [Int.toNat_natCast, shl64_ok hn, Res.ok_bind] at e
        by_cases h1 : x > 0
        · rw [if_pos h1, shl64_ok hn, Res.ok_bind, shl64_ok (by omega)] at e; cases e
        · rw [if_neg h1] at e
          by_cases h2 : x < 0
          · rw [if_pos h2, shl64_ok hn, Res.ok_bind, shl64_ok (by omega)] at e; cases e
          · rw [if_neg h2, shl64_ok (by omega)] at e; cases e
      · omega
  · refine Or.inr ⟨?_, hn⟩
    unfold encHint
    rcases i64_natAbs_cases x with ⟨e0, hx⟩ | ⟨e0, hx⟩
    · rw [e0, Res.ok_bind]
      dsimp only
      rw [Int.toNat_natCast, shl64_ub hn]; rfl
    · rw [e0]; rfl

theorem encResp_exact {L : Nat} {W : List Bool} {s : EncSt} (h : EI L W s) (hb : s.bitOff < 8) (x : Int) :
    (∃ s', encResp x s = .ok s' ∧ EI L (W ++ respBits x) s' ∧ s'.bitOff = s.bitOff + (respBits x).length ∧ x.natAbs / 2 ^ 40 < 64) ∨
    (encResp x s = .ub ∧ ¬ x.natAbs / 2 ^ 40 < 64) := by
  have h40 : (2 : Nat) ^ 40 = 1099511627776 := by norm_num
  by_cases hn : x.natAbs / 2 ^ 40 < 64
  · rcases encResp_cases h hb x with ⟨s', e, h1, h2⟩ | ⟨e, -⟩
    · exact Or.inl ⟨s', e, h1, h2, hn⟩
    · exfalso
      unfold encResp at e
      rcases i64_natAbs_cases x with ⟨e0, hx⟩ | ⟨e0, hx⟩
      · rw [e0, Res.ok_bind] at e
        dsimp only at e
        rw [Int.toNat_natCast, shl64_ok (by omega), Res.ok_bind, shl64_ok hn, Res.ok_bind] at e
        by_cases h1 : x > 0
        · rw [if_pos h1, shl64_ok hn, Res.ok_bind, shl64_ok (by omega)] at e; cases e
        · rw [if_neg h1] at e
          by_cases h2 : x < 0
          · rw [if_pos h2, shl64_ok hn, Res.ok_bind, shl64_ok (by omega)] at e; cases e
          · rw [if_neg h2] at e; cases e
      · rw [h40] at hn; omega
  · refine Or.inr ⟨?_, hn⟩
    unfold encResp
    rcases i64_natAbs_cases x with ⟨e0, hx⟩ | ⟨e0, hx⟩
    · rw [e0, Res.ok_bind]
      dsimp only
      rw [Int.toNat_natCast, shl64_ok (by omega), Res.ok_bind, shl64_ub hn]; rfl
    · rw [e0]; rfl

/-- Code words as pairs. -/
def hintC (x : Int) : Nat × Nat := (x.natAbs, (hintBits x).length)
def respC (x : Int) : Nat × Nat := (x.natAbs / 2 ^ 40, (respBits x).length)

theorem encodeSig_abs (c : List U8) (h z : List Int) (sig : List U8) (hc : c.length ≤ sig.length) :
    (∃ b, encodeSig c h z sig = .ok (true, b) ∧ absRun (sig.length - c.length) 0 0 (h.map hintC ++ z.map respC) = .ok true) ∨
    (∃ b, encodeSig c h z sig = .ok (false, b) ∧ absRun (sig.length - c.length) 0 0 (h.map hintC ++ z.map respC) = .ok false) ∨
    (encodeSig c h z sig = .ub ∧ absRun (sig.length - c.length) 0 0 (h.map hintC ++ z.map respC) = .ub) := by
  rw [← absRun_shift c.length, show c.length + (sig.length - c.length) = sig.length by omega]
  unfold encodeSig
  rw [writeSpan_ok (by omega), Res.ok_bind]
  have hlc : (bytesBits c).length = 8 * c.length + 0 := bytesBits_length c
  have h0 : EI sig.length (bytesBits c) ⟨sig.take 0 ++ c ++ sig.drop (0 + c.length), c.length, 0, 0⟩ := by
    have hl : (sig.take 0 ++ c ++ sig.drop (0 + c.length)).length = sig.length := by simp; omega
    refine ⟨hl, hc, hlc, fun _ => ⟨hl, hc, [], rfl, Win.nil, ?_⟩⟩
    show bytesBits ((sig.take 0 ++ c ++ sig.drop (0 + c.length)).take c.length) ++ [] = _
    rw [take_append_len _ _ (by simp), List.append_nil, List.take_zero, List.nil_append]
  rw [← hlc]
  rcases encLoop_exact (u := Int.natAbs) (fun h hb x => encHint_exact h hb x) h (z.map respC) h0 with ⟨s1, e1, i1, a1⟩ | ⟨s1, e1, a1⟩ | ⟨e1, a1⟩
  · rw [e1, Res.ok_bind]
    replace a1 : absRun sig.length (bytesBits c).length 0 (h.map hintC ++ z.map respC) = _ := a1
    rw [a1]
    show (∃ b, (encLoop sig.length encResp z s1 >>= _) = _ ∧ _) ∨ (∃ b, (encLoop sig.length encResp z s1 >>= _) = _ ∧ _) ∨
      ((encLoop sig.length encResp z s1 >>= _) = _ ∧ _)
    rcases encLoop_exact (u := fun x => x.natAbs / 2 ^ 40) (fun h hb x => encResp_exact h hb x) z [] i1 with ⟨s2, e2, i2, a2⟩ | ⟨s2, e2, a2⟩ | ⟨e2, a2⟩
    · rw [e2, Res.ok_bind]
      rw [List.append_nil] at a2
      replace a2 : absRun sig.length _ s1.bitOff (z.map respC) = _ := a2
      rw [a2]
      show (∃ b, (encFinish sig.length s2 >>= _) = _ ∧ _) ∨ (∃ b, (encFinish sig.length s2 >>= _) = _ ∧ _) ∨
        ((encFinish sig.length s2 >>= _) = _ ∧ _)
      unfold absRun
      rcases encFinish_exact i2 with ⟨s3, e3, b3, l3, o3, g3⟩ | ⟨s3, e3, i3⟩ | ⟨e3, i3, l3⟩
      · rw [e3, Res.ok_bind, if_pos l3, if_pos b3]
        left
        have e4 := writeSpan_ok (buf := s3.sig) (off := s3.off) (bs := List.replicate (sig.length - s3.off) 0) (by rw [List.length_replicate]; omega)
        refine ⟨s3.sig.take s3.off ++ List.replicate (sig.length - s3.off) 0 ++ s3.sig.drop (s3.off + (List.replicate (sig.length - s3.off) (0 : U8)).length), ?_, rfl⟩
        show (writeSpan s3.sig s3.off (List.replicate (sig.length - s3.off) 0) >>= _) = _
        rw [e4, Res.ok_bind]
      · rw [e3, Res.ok_bind, if_neg i3]
        exact Or.inr (Or.inl ⟨_, rfl, rfl⟩)
      · rw [e3, if_pos l3, if_neg i3]
        exact Or.inr (Or.inr ⟨rfl, rfl⟩)
    · rw [e2, Res.ok_bind]
      rw [List.append_nil] at a2
      exact Or.inr (Or.inl ⟨_, rfl, a2⟩)
    · rw [e2]
      rw [List.append_nil] at a2
      exact Or.inr (Or.inr ⟨rfl, a2⟩)
  · rw [e1, Res.ok_bind]
    exact Or.inr (Or.inl ⟨_, rfl, a1⟩)
  · rw [e1]
    exact Or.inr (Or.inr ⟨rfl, a1⟩)

/-! ### From `absRun` to the specification -/

theorem lens_map (e : Int → List Bool) (f : Int → Nat × Nat) (hf : ∀ x, (f x).2 = (e x).length) (xs : List Int) : lens (xs.map f) = (xs.flatMap e).length := by
  induction xs with
  | nil => rfl
  | cons x xs ih =>
    rw [List.flatMap_cons, List.length_append, ← ih, ← hf]
    unfold lens
    rw [List.map_cons, List.map_cons, List.sum_cons]

theorem strictC_map (e : Int → List Bool) (f : Int → Nat × Nat) (hf : ∀ x, (f x).2 = (e x).length) : ∀ (xs : List Int) (p : Nat) (rest : List (Nat × Nat)),
    StrictC p (xs.map f ++ rest) ↔ StrictWindowFrom e p xs ∧ StrictC (p + (xs.flatMap e).length) rest := by
  intro xs
  induction xs with
  | nil => intro p rest; exact ⟨fun h => ⟨trivial, h⟩, fun h => h.2⟩
  | cons x xs ih =>
    intro p rest
    rw [List.map_cons, List.cons_append, List.flatMap_cons, List.length_append, ← Nat.add_assoc]
    show (p % 8 + (f x).2 < 64 ∧ StrictC (p + (f x).2) (xs.map f ++ rest)) ↔ (p % 8 + (e x).length < 64 ∧ StrictWindowFrom e (p + (e x).length) xs) ∧ _
    rw [hf, ih, and_assoc]

theorem lens_append (xs ys : List (Nat × Nat)) : lens (xs ++ ys) = lens xs + lens ys := by
  unfold lens; rw [List.map_append, List.sum_append]

theorem append_split {α : Type} {a b x1 x2 : List α} {x : α} (h : a ++ b = x1 ++ x :: x2) :
    (∃ a2, a = x1 ++ x :: a2 ∧ x2 = a2 ++ b) ∨ ∃ b1, b = b1 ++ x :: x2 ∧ x1 = a ++ b1 := by
  rcases List.append_eq_append_iff.1 h with ⟨as, h1, h2⟩ | ⟨bs, h1, h2⟩
  · exact Or.inr ⟨as, h2, h1⟩
  · cases bs with
    | nil => rw [List.append_nil] at h1; exact Or.inr ⟨[], h2.symm, by rw [h1, List.append_nil]⟩
    | cons y ys =>
      rw [List.cons_append] at h2
      obtain ⟨rfl, rfl⟩ := List.cons.inj h2
      exact Or.inl ⟨ys, h1, rfl⟩

theorem encTrap_iff (L : Nat) (h z : List Int) (hz : z ≠ []) : absRun L 0 0 (h.map hintC ++ z.map respC) = .ub ↔ EncTrap L h z := by
  have fh : ∀ x, (hintC x).2 = (hintBits x).length := fun _ => rfl
  have fr : ∀ x, (respC x).2 = (respBits x).length := fun _ => rfl
  have hne : h.map hintC ++ z.map respC ≠ [] := by
    intro e
    rw [List.append_eq_nil_iff, List.map_eq_nil_iff, List.map_eq_nil_iff] at e
    exact hz e.2
  rw [absRun_ub]
  unfold EncTrap
  constructor
  · rintro (⟨-, -, g⟩ | ⟨g, -⟩ | ⟨x1, x, x2, e, s, t⟩)
    · omega
    · exact absurd g hne
    · rcases append_split e with ⟨a2, e1, e2⟩ | ⟨b1, e1, rfl⟩
      · left
        obtain ⟨h1, h', rfl, rfl, e1'⟩ := List.map_eq_append_iff.1 e1
        obtain ⟨y, h2, rfl, rfl, rfl⟩ := List.map_eq_cons_iff.1 e1'
        have s' := (strictC_map hintBits hintC fh h1 0 []).1 (by rw [List.append_nil]; exact s)
        refine ⟨h1, y, h2, rfl, s'.1, ?_⟩
        rw [lens_map hintBits hintC fh, Nat.zero_add] at t
        have hf : (x2 = []) = False := by
          rw [e2]
          apply eq_false
          intro e
          rw [List.append_eq_nil_iff, List.map_eq_nil_iff, List.map_eq_nil_iff] at e
          exact hz e.2
        rw [hf] at t
        exact t
      · right
        obtain ⟨z1, z', rfl, rfl, e1'⟩ := List.map_eq_append_iff.1 e1
        obtain ⟨y, z2, rfl, rfl, rfl⟩ := List.map_eq_cons_iff.1 e1'
        obtain ⟨s1, s2⟩ := (strictC_map hintBits hintC fh h 0 _).1 s
        rw [Nat.zero_add] at s2
        have s2' := (strictC_map respBits respC fr z1 _ []).1 (by rw [List.append_nil]; exact s2)
        refine ⟨z1, y, z2, rfl, s1, s2'.1, ?_⟩
        rw [lens_append, lens_map hintBits hintC fh, lens_map respBits respC fr, Nat.zero_add, ← List.length_append] at t
        rw [List.map_eq_nil_iff] at t
        exact t
  · rintro (⟨h1, x, h2, rfl, s, t⟩ | ⟨z1, x, z2, rfl, s1, s2, t⟩)
    · refine Or.inr (Or.inr ⟨h1.map hintC, hintC x, h2.map hintC ++ z.map respC, ?_, ?_, ?_⟩)
      · rw [List.map_append, List.map_cons, List.append_assoc, List.cons_append]
      · have := (strictC_map hintBits hintC fh h1 0 []).2 ⟨s, trivial⟩
        rw [List.append_nil] at this
        exact this
      · have hf : (h2.map hintC ++ z.map respC = []) = False := by
          apply eq_false
          intro e
          rw [List.append_eq_nil_iff, List.map_eq_nil_iff, List.map_eq_nil_iff] at e
          exact hz e.2
        rw [lens_map hintBits hintC fh, Nat.zero_add, hf]
        exact t
    · refine Or.inr (Or.inr ⟨h.map hintC ++ z1.map respC, respC x, z2.map respC, ?_, ?_, ?_⟩)
      · rw [List.map_append, List.map_cons, List.append_assoc]
      · refine (strictC_map hintBits hintC fh h 0 _).2 ⟨s1, ?_⟩
        rw [Nat.zero_add]
        have := (strictC_map respBits respC fr z1 (h.flatMap hintBits).length []).2 ⟨s2, trivial⟩
        rw [List.append_nil] at this
        exact this
      · rw [lens_append, lens_map hintBits hintC fh, lens_map respBits respC fr, Nat.zero_add, ← List.length_append]
        rw [List.map_eq_nil_iff]
        exact t

/-- The encoder is undefined exactly on the traps. -/
theorem encodeSig_ub_iff (c : List U8) (h z : List Int) (sig : List U8) (hc : c.length ≤ sig.length) (hz : z ≠ []) :
    encodeSig c h z sig = .ub ↔ EncTrap (sig.length - c.length) h z := by
  rw [← encTrap_iff _ h z hz]
  rcases encodeSig_abs c h z sig hc with ⟨b, e, a⟩ | ⟨b, e, a⟩ | ⟨e, a⟩
  · rw [e, a]; exact ⟨fun h => (nomatch h), fun h => (nomatch h)⟩
  · rw [e, a]; exact ⟨fun h => (nomatch h), fun h => (nomatch h)⟩
  · rw [e, a]; exact ⟨fun _ => rfl, fun _ => rfl⟩

end Raccoon
