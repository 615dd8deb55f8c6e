import Verif.Proofs.SigEnc
/-!
# Signature decoding
-/
namespace Raccoon
attribute [-instance] Monoid.toNPow

/-! ### The unary code -/

theorem getBitAt_ok {w : U64} {i : Nat} (h : i < 64) : getBitAt w i = .ok (w >>> i &&& 1) := by
  unfold getBitAt; rw [shr64_ok h, Res.ok_bind]

theorem bit_eq_one {w : U64} {i : Nat} : (w >>> i &&& 1 = (1 : U64)) ↔ w.getLsbD i = true := by
  have h : (w >>> i &&& 1 : U64).toNat = (w.getLsbD i).toNat := by
    rw [BitVec.toNat_and, BitVec.toNat_ushiftRight]
    show (w.toNat >>> i) &&& 1 = (w.toNat.testBit i).toNat
    rw [Nat.and_one_is_mod, Nat.testBit_eq_decide_div_mod_eq, Nat.shiftRight_eq_div_pow]
    have : w.toNat / 2 ^ i % 2 < 2 := Nat.mod_lt _ (by omega)
    by_cases e : w.toNat / 2 ^ i % 2 = 1
    · rw [e]; rfl
    · rw [show w.toNat / 2 ^ i % 2 = 0 by omega]; rfl
  constructor
  · intro e
    rw [e] at h
    cases hb : w.getLsbD i
    · rw [hb] at h; exact absurd h (by decide)
    · rfl
  · intro e
    rw [e] at h
    exact BitVec.eq_of_toNat_eq h

theorem Win.high {bs : List Bool} {w : U64} (h : Win bs w) {i : Nat} (hi : bs.length ≤ i) : w.getLsbD i = false := by
  show w.toNat.testBit i = false
  apply Nat.testBit_lt_two_pow
  rw [h]
  exact bitsVal_lt' bs hi

theorem scanOnes_eq {bs : List Bool} {w : U64} (hw : Win bs w) (h64 : bs.length ≤ 64) : ∀ (fuel n m : Nat) (rest : List Bool),
    bs.drop n = List.replicate m true ++ rest → (∀ r, rest ≠ true :: r) → m < fuel →
    scanOnes w bs.length fuel n = .ok (n + m) := by
  intro fuel
  induction fuel with
  | zero => intro n m rest _ _ h; exact absurd h (by omega)
  | succ fuel ih =>
    intro n m rest hd hr hm
    unfold scanOnes
    have hlen := congrArg List.length hd
    rw [List.length_drop, List.length_append, List.length_replicate] at hlen
    by_cases hlt : n < bs.length
    · rw [if_pos hlt, getBitAt_ok (by omega), Res.ok_bind]
      have hget : bs.drop n = bs[n] :: bs.drop (n + 1) := List.drop_eq_getElem_cons hlt
      have hbit := hw.getLsbD n hlt
      cases m with
      | zero =>
        rw [List.replicate_zero, List.nil_append] at hd
        have hf : bs[n] = false := by
          cases e : bs[n]
          · rfl
          · rw [hget, e] at hd; exact absurd hd.symm (hr _)
        show (if _ = (1 : U64) then _ else _ : Res Nat) = _
        rw [if_neg (by rw [bit_eq_one, hbit, hf]; decide)]
        rfl
      | succ m =>
        rw [List.replicate_succ, List.cons_append, hget] at hd
        obtain ⟨h1, h2⟩ := List.cons.inj hd
        show (if _ = (1 : U64) then _ else _ : Res Nat) = _
        rw [if_pos (by rw [bit_eq_one, hbit, h1]), ih (n + 1) m rest h2 hr (by omega)]
        congr 1; omega
    · rw [if_neg hlt]
      have : m = 0 := by omega
      rw [this, Nat.add_zero]

/-- The common shape of both coefficient decoders. -/
def decTail (F : Nat → Int) (v0 : Int) (buffer : U64) (bitOff : Nat) : Res (Int × Nat) := do
  let idx ← scanOnes buffer bitOff 65 0
  if idx = bitOff then .ok (v0, 0)
  else
    if F idx > 0 then do
      let b ← getBitAt buffer (idx + 1)
      .ok (if b = 1 then -F idx else F idx, idx + 1 + 1)
    else .ok (F idx, idx + 1)

theorem decodeHintCoeff_eq (w : U64) (b : Nat) : decodeHintCoeff w b = decTail (fun n => (n : Int)) 0 w b := rfl
theorem decodeRespCoeff_eq (w : U64) (b a : Nat) : decodeRespCoeff w b a = decTail (fun n => (((n <<< 40) ||| a : Nat) : Int)) (a : Int) w b := rfl

theorem decTail_eq {F : Nat → Int} {v0 : Int} {n : Nat} {x : Int} {rest : List Bool} {w : U64} (hw : Win (tailBits n x ++ rest) w)
    {b : Nat} (hb : (tailBits n x ++ rest).length = b) (h64 : b ≤ 64) (hx : F n = (x.natAbs : Int)) :
    decTail F v0 w b = .ok (x, (tailBits n x).length) := by
  subst hb
  have hlen : (tailBits n x ++ rest).length = n + 1 + (if x = 0 then 0 else 1) + rest.length := by
    rw [List.length_append, tailBits_length]
  unfold decTail
  have hsplit : tailBits n x ++ rest = List.replicate n true ++ (false :: ((if x = 0 then [] else [decide (x < 0)]) ++ rest)) := by
    unfold tailBits; simp
  have hs := scanOnes_eq hw h64 65 0 n _ hsplit (by intro r e; cases e) (by omega)
  rw [Nat.zero_add] at hs
  rw [hs, Res.ok_bind, if_neg (by omega), hx]
  by_cases h0 : x = 0
  · subst h0
    rw [if_neg (by simp), tailBits_length]
    rfl
  · rw [if_neg h0] at hlen
    rw [if_pos (by omega), getBitAt_ok (by omega), Res.ok_bind, tailBits_length, if_neg h0]
    have hbit := hw.getLsbD (n + 1) (by omega)
    have hg : (tailBits n x ++ rest)[n + 1] = decide (x < 0) := by
      rw [if_neg h0] at hsplit
      rw [List.getElem_of_eq hsplit, List.getElem_append_right (by simp)]
      simp
    rw [hg] at hbit
    congr 2
    by_cases hneg : x < 0
    · rw [if_pos (by rw [bit_eq_one, hbit]; simpa using hneg)]; omega
    · rw [if_neg (by rw [bit_eq_one, hbit]; simpa using hneg)]; omega

theorem ones_split : ∀ bs : List Bool, bs = List.replicate bs.length true ∨ ∃ n rest, bs = List.replicate n true ++ false :: rest := by
  intro bs
  induction bs with
  | nil => exact Or.inl rfl
  | cons b bs ih =>
    cases b with
    | false => exact Or.inr ⟨0, bs, rfl⟩
    | true =>
      rcases ih with h | ⟨n, rest, h⟩
      · left; rw [List.length_cons, List.replicate_succ, ← h]
      · exact Or.inr ⟨n + 1, rest, by rw [h, List.replicate_succ, List.cons_append]⟩

theorem decTail_cases {F : Nat → Int} {v0 : Int} {bs : List Bool} {w : U64} (hw : Win bs w) {b : Nat} (hb : bs.length = b) (h64 : b ≤ 64)
    (hF : ∀ n, 0 ≤ F n) :
    (decTail F v0 w b = .ok (v0, 0) ∧ bs = List.replicate bs.length true) ∨
    (∃ n x rest, bs = tailBits n x ++ rest ∧ F n = (x.natAbs : Int) ∧ decTail F v0 w b = .ok (x, (tailBits n x).length)) ∨
    (∃ n, 0 < F n ∧ bs = List.replicate n true ++ [false] ∧ (n = 63 ∧ decTail F v0 w b = .ub ∨ n < 63 ∧ decTail F v0 w b = .ok (F n, b + 1))) := by
  subst hb
  rcases ones_split bs with h | ⟨n, rest, h⟩
  · left
    refine ⟨?_, h⟩
    unfold decTail
    have hs := scanOnes_eq hw h64 65 0 bs.length [] (by rw [List.drop_zero, List.append_nil]; exact h) (by intro r e; cases e) (by omega)
    rw [hs, Res.ok_bind, if_pos (by omega)]
  · right
    have hlen := congrArg List.length h
    rw [List.length_append, List.length_replicate, List.length_cons] at hlen
    rcases (show F n = 0 ∨ 0 < F n by have := hF n; omega) with h0 | hpos
    · left
      refine ⟨n, 0, rest, ?_, h0, ?_⟩
      · rw [tailBits_zero, h]; simp
      · refine decTail_eq ?_ ?_ h64 h0 (rest := rest)
        · rw [tailBits_zero, List.append_assoc]; exact h ▸ hw
        · rw [tailBits_zero, List.append_assoc, h]; rfl
    · cases rest with
      | cons s rest =>
        left
        cases s with
        | true =>
          have e : bs = tailBits n (-(F n)) ++ rest := by rw [tailBits_neg (by omega), h]; simp
          have hx : F n = ((-(F n)).natAbs : Int) := by omega
          refine ⟨n, -(F n), rest, e, hx, ?_⟩
          exact decTail_eq (e ▸ hw) (by rw [e]) h64 hx
        | false =>
          have e : bs = tailBits n (F n) ++ rest := by rw [tailBits_pos hpos, h]; simp
          have hx : F n = ((F n).natAbs : Int) := by omega
          refine ⟨n, F n, rest, e, hx, ?_⟩
          exact decTail_eq (e ▸ hw) (by rw [e]) h64 hx
      | nil =>
        right
        refine ⟨n, hpos, h, ?_⟩
        rw [List.length_nil] at hlen
        have hs := scanOnes_eq hw h64 65 0 n [false] h (by intro r e; cases e) (by omega)
        rw [Nat.zero_add] at hs
        unfold decTail
        rw [hs, Res.ok_bind, if_neg (by omega), if_pos hpos]
        by_cases h63 : n = 63
        · left
          refine ⟨h63, ?_⟩
          unfold getBitAt
          rw [shr64_ub (by omega)]
          rfl
        · right
          refine ⟨by omega, ?_⟩
          rw [getBitAt_ok (by omega), Res.ok_bind, if_neg]
          · rw [hlen]
          · rw [bit_eq_one, hw.high (by omega)]; decide

/-- What the response decoder computes from unary part `n` and low bits `a`. -/
theorem shl_or_eq {n a : Nat} (ha : a < 2 ^ 40) : (n <<< 40) ||| a = n * 2 ^ 40 + a := by
  rw [Nat.shiftLeft_eq, Nat.mul_comm, ← Nat.two_pow_add_eq_or_of_lt ha]

theorem respBits_of {n a : Nat} {x : Int} (ha : a < 2 ^ 40) (hx : x.natAbs = n * 2 ^ 40 + a) : natBits 40 a ++ tailBits n x = respBits x := by
  have h40 : (2 : Nat) ^ 40 = 1099511627776 := by norm_num
  rw [respBits_eq]
  congr 1
  · congr 1; omega
  · congr 1; omega

/-! ### Refilling the window -/

theorem and_neg8 (x : U64) : (x &&& (-8 : U64)).toNat = 8 * (x.toNat / 8) := by
  have e : x &&& (-8 : U64) = (x >>> 3) <<< 3 := by
    apply BitVec.eq_of_getLsbD_eq
    intro i hi
    rw [BitVec.getLsbD_and, BitVec.getLsbD_shiftLeft, BitVec.getLsbD_ushiftRight]
    have h8 : ∀ i < 64, (-8 : U64).getLsbD i = decide (3 ≤ i) := by decide
    rw [h8 i hi]
    by_cases h3 : 3 ≤ i
    · rw [decide_eq_true h3, decide_eq_true hi, decide_eq_false (by omega), show 3 + (i - 3) = i by omega]; simp
    · rw [decide_eq_false h3, decide_eq_true (by omega : i < 3)]; simp
  have hx := x.isLt
  rw [e, BitVec.toNat_shiftLeft, BitVec.toNat_ushiftRight, Nat.shiftRight_eq_div_pow, Nat.shiftLeft_eq]
  rw [pow64] at hx ⊢
  show x.toNat / 8 * 8 % 18446744073709551616 = _
  omega

theorem decRefill_ub {sig : List U8} {s : DecSt} (h : ¬ s.bitOff.toNat < 64) : decRefill sig s = .ub := by
  unfold decRefill
  dsimp only
  unfold subspan
  split
  · rw [Res.ok_bind, shl64_ub h]; rfl
  · rfl

/-- Bits in the window after a refill. -/
theorem decRefill_ok {sig : List U8} {s : DecSt} {R : List Bool} (h : BR sig R s.off s.buffer s.bitOff.toNat) (hb : s.bitOff.toNat < 64) :
    ∃ n s', decRefill sig s = .ok (n, s') ∧ s'.off = s.off ∧ s'.out = s.out ∧ BR sig R (s.off + n) s'.buffer s'.bitOff.toNat ∧
      s'.bitOff.toNat ≤ 64 ∧
      (R.length ≤ 8 * sig.length → (s.off + n = sig.length ∧ s'.bitOff.toNat = R.length) ∨ s'.bitOff.toNat = 64 - (8 * sig.length - R.length) % 8) ∧
      (s.off + n = sig.length ∨ 57 ≤ s'.bitOff.toNat) := by
  have hle := h.off_le
  have hlen := h.length
  unfold decRefill
  dsimp only
  have e1 : ((64 : U64) - s.bitOff).toNat = 64 - s.bitOff.toNat := by
    rw [BitVec.toNat_sub, pow64]
    show (18446744073709551616 - s.bitOff.toNat + 64) % 18446744073709551616 = _
    omega
  have e2 : ((((64 : U64) - s.bitOff) &&& (-8)) / 8).toNat = (64 - s.bitOff.toNat) / 8 := by
    rw [BitVec.toNat_udiv, and_neg8, e1]
    show 8 * _ / 8 = _
    omega
  rw [e2]
  obtain ⟨m, hm⟩ : ∃ m, m = min ((64 - s.bitOff.toNat) / 8) (sig.length - s.off) := ⟨_, rfl⟩
  rw [← hm]
  have hm1 : m ≤ (64 - s.bitOff.toNat) / 8 := by omega
  have hm2 : m ≤ sig.length - s.off := by omega
  have hm3 : m = (64 - s.bitOff.toNat) / 8 ∨ m = sig.length - s.off := by omega
  clear hm
  obtain ⟨b, e, hf⟩ := h.refill (n := m) (by omega) (by omega)
  rw [e, Res.ok_bind, shl64_ok hb, Res.ok_bind]
  have e3 : (s.bitOff + BitVec.ofNat 64 (m * 8)).toNat = s.bitOff.toNat + 8 * m := by
    rw [BitVec.toNat_add, BitVec.toNat_ofNat, pow64]; omega
  refine ⟨_, _, rfl, rfl, rfl, ?_, ?_, ?_, ?_⟩
  · show BR sig R _ _ (s.bitOff + BitVec.ofNat 64 _).toNat
    rw [e3]; exact hf
  · show (s.bitOff + BitVec.ofNat 64 _).toNat ≤ 64
    rw [e3]; omega
  · show _ → (_ ∧ (s.bitOff + BitVec.ofNat 64 (m * 8)).toNat = _) ∨ (s.bitOff + BitVec.ofNat 64 (m * 8)).toNat = _
    rw [e3]
    intro hR
    have hl2 := hf.length
    rcases hm3 with hm3 | hm3 <;> omega
  · show _ ∨ 57 ≤ (s.bitOff + BitVec.ofNat 64 _).toNat
    rw [e3]; rcases hm3 with hm3 | hm3 <;> omega

/-! ### The hint loop -/

theorem sub_toNat {a : U64} {n : Nat} (h : n ≤ a.toNat) : (a - BitVec.ofNat 64 n).toNat = a.toNat - n := by
  have := a.isLt
  rw [pow64] at this
  rw [BitVec.toNat_sub, BitVec.toNat_ofNat, pow64]; omega

theorem sub_wrap {a : U64} (_h : a.toNat ≤ 64) : ¬ (a - BitVec.ofNat 64 (a.toNat + 1)).toNat < 64 := by
  rw [BitVec.toNat_sub, BitVec.toNat_ofNat, pow64]; omega

/-- One accepted hint step. -/
theorem decHLoop_succ (sig : List U8) (n : Nat) (s : DecSt) : decHLoop sig (n + 1) s =
    if s.off < sig.length then do
      let (toBuf, s) ← decRefill sig s
      let (coeff, consumed) ← decodeHintCoeff s.buffer s.bitOff.toNat
      if consumed > 0 then do
        let bitOff := s.bitOff - BitVec.ofNat 64 consumed
        let buffer ← shr64 s.buffer consumed
        decHLoop sig n ⟨s.off + toBuf, buffer, bitOff, s.out ++ [coeff]⟩
      else .ok none
    else .ok (some (n + 1, s)) := rfl

/-- Everything one iteration can do, in terms of the bits still to be read. -/
theorem decH_step {sig : List U8} {n : Nat} {s : DecSt} {R : List Bool} (h : BR sig R s.off s.buffer s.bitOff.toNat) (hb : s.bitOff.toNat < 64)
    (hoff : s.off < sig.length) :
    decHLoop sig (n + 1) s = .ok none ∨
    (decHLoop sig (n + 1) s = .ub ∧ ∃ m R', 62 ≤ m ∧ R = List.replicate m true ++ R') ∨
    (∃ x R' s', R = hintBits x ++ R' ∧ decHLoop sig (n + 1) s = decHLoop sig n s' ∧ s'.out = s.out ++ [x] ∧
      BR sig R' s'.off s'.buffer s'.bitOff.toNat ∧ s'.bitOff.toNat < 64 ∧ (hintBits x).length < 64) ∨
    (∃ x s' m, decHLoop sig (n + 1) s = decHLoop sig n s' ∧ s'.out = s.out ++ [x] ∧ ¬ s'.bitOff.toNat < 64 ∧ 0 < m ∧
      R = List.replicate m true ++ false :: bytesBits (sig.drop s'.off) ∧ (s'.off = sig.length ∨ 56 ≤ m)) := by
  rw [decHLoop_succ, if_pos hoff]
  obtain ⟨m, s1, e1, ho, hout, hbr, h64, -, h56⟩ := decRefill_ok h hb
  rw [e1, Res.ok_bind]
  dsimp only
  obtain ⟨bs, k1, k2, k3⟩ := hbr.bits
  rw [decodeHintCoeff_eq]
  rcases decTail_cases (F := fun n => (n : Int)) (v0 := 0) k2 k1 h64 (fun n => Int.natCast_nonneg n) with ⟨e, -⟩ | ⟨n', x, rest, hbs, hx, e⟩ | ⟨n', hn', hbs, ⟨h63, e⟩ | ⟨h63, e⟩⟩
  · left; rw [e, Res.ok_bind]; rfl
  · have hx' : n' = x.natAbs := by omega
    subst hx'
    rw [e, Res.ok_bind]
    have hl := tailBits_length x.natAbs x
    have hpos : (tailBits x.natAbs x).length > 0 := by omega
    have hble : (tailBits x.natAbs x).length ≤ s1.bitOff.toNat := by rw [← k1, hbs, List.length_append]; omega
    have hR : R = hintBits x ++ (rest ++ bytesBits (sig.drop (s.off + m))) := by
      rw [← k3, hbs, hintBits_eq, List.append_assoc]
    show (if (tailBits x.natAbs x).length > 0 then _ else _ : Res _) = _ ∨ ((if (tailBits x.natAbs x).length > 0 then _ else _ : Res _) = _ ∧ _) ∨
      (∃ x R' s', _ ∧ (if (tailBits _ _).length > 0 then _ else _ : Res _) = _ ∧ _) ∨ (∃ x s' m, (if (tailBits _ _).length > 0 then _ else _ : Res _) = _ ∧ _)
    rw [if_pos hpos]
    by_cases hc : (tailBits x.natAbs x).length < 64
    · right; right; left
      rw [shr64_ok hc, Res.ok_bind]
      refine ⟨x, rest ++ bytesBits (sig.drop (s.off + m)), _, hR, rfl, by show s1.out ++ [x] = _; rw [hout], ?_, ?_, hc⟩
      · show BR sig _ (s1.off + m) (s1.buffer >>> (tailBits x.natAbs x).length) (s1.bitOff - BitVec.ofNat 64 _).toNat
        rw [sub_toNat hble, ho]
        have := (hbr.consume hble).1
        rw [hR, hintBits_eq, List.drop_left] at this
        exact this
      · show (s1.bitOff - BitVec.ofNat 64 _).toNat < 64
        rw [sub_toNat hble]; omega
    · right; left
      rw [shr64_ub hc]
      refine ⟨rfl, x.natAbs, [false] ++ ((if x = 0 then [] else [decide (x < 0)]) ++ (rest ++ bytesBits (sig.drop (s.off + m)))), ?_, ?_⟩
      · split at hl <;> omega
      · rw [hR]; unfold hintBits; simp only [List.append_assoc]
  · right; left; rw [e]
    refine ⟨rfl, n', [false] ++ bytesBits (sig.drop (s.off + m)), by omega, ?_⟩
    rw [← k3, hbs, List.append_assoc]
  · rw [e, Res.ok_bind]
    have hc : s1.bitOff.toNat + 1 < 64 ∨ ¬ s1.bitOff.toNat + 1 < 64 := by omega
    have hlen : s1.bitOff.toNat = n' + 1 := by rw [← k1, hbs]; simp
    have hR : R = List.replicate n' true ++ false :: bytesBits (sig.drop (s.off + m)) := by
      rw [← k3, hbs, List.append_assoc]; rfl
    show (if s1.bitOff.toNat + 1 > 0 then _ else _ : Res _) = _ ∨ ((if s1.bitOff.toNat + 1 > 0 then _ else _ : Res _) = _ ∧ _) ∨
      (∃ x R' s', _ ∧ (if s1.bitOff.toNat + 1 > 0 then _ else _ : Res _) = _ ∧ _) ∨ (∃ x s' m, (if s1.bitOff.toNat + 1 > 0 then _ else _ : Res _) = _ ∧ _)
    rw [if_pos (by omega)]
    rcases hc with hc | hc
    · right; right; right
      rw [shr64_ok hc, Res.ok_bind]
      refine ⟨(n' : Int), _, n', rfl, by show s1.out ++ [_] = _; rw [hout], sub_wrap h64, by omega, ?_, ?_⟩
      · show R = _ ++ false :: bytesBits (sig.drop (s1.off + m))
        rw [ho]; exact hR
      · show s1.off + m = _ ∨ _
        rw [ho]
        rcases h56 with h56 | h56
        · exact Or.inl h56
        · right; omega
    · right; left
      rw [shr64_ub hc]; exact ⟨rfl, n', _, by omega, hR⟩

theorem decHLoop_wrapped {sig : List U8} {n : Nat} {s s' : DecSt} (hb : ¬ s.bitOff.toNat < 64)
    (e : decHLoop sig n s = .ok (some (0, s'))) : n = 0 ∧ s' = s := by
  cases n with
  | zero => exact ⟨rfl, (Prod.mk.inj (Option.some.inj (Res.ok.inj e))).2.symm⟩
  | succ n =>
    rw [decHLoop_succ] at e
    by_cases ho : s.off < sig.length
    · rw [if_pos ho, decRefill_ub hb] at e; cases e
    · rw [if_neg ho] at e
      have := (Prod.mk.inj (Option.some.inj (Res.ok.inj e))).1
      omega

/-- If the hint loop reads everything, the bits it read are the encodings of its output (or the bit counter has wrapped around). -/
theorem decHLoop_par {sig : List U8} : ∀ (n : Nat) {s s' : DecSt} {R : List Bool}, BR sig R s.off s.buffer s.bitOff.toNat → s.bitOff.toNat < 64 →
    decHLoop sig n s = .ok (some (0, s')) →
    ∃ xs, s'.out = s.out ++ xs ∧ xs.length = n ∧
      ((∃ R', R = xs.flatMap hintBits ++ R' ∧ BR sig R' s'.off s'.buffer s'.bitOff.toNat ∧ s'.bitOff.toNat < 64) ∨ ¬ s'.bitOff.toNat < 64) := by
  intro n
  induction n with
  | zero =>
    intro s s' R h hb e
    have := (Prod.mk.inj (Option.some.inj (Res.ok.inj e))).2
    subst this
    exact ⟨[], by simp, rfl, Or.inl ⟨R, rfl, h, hb⟩⟩
  | succ n ih =>
    intro s s' R h hb e
    by_cases hoff : s.off < sig.length
    · rcases decH_step (n := n) h hb hoff with e1 | ⟨e1, -⟩ | ⟨x, R1, s1, hR, e1, ho1, hb1, hlt1, -⟩ | ⟨x, s1, -, e1, ho1, hlt1, -⟩
      · rw [e1] at e; cases e
      · rw [e1] at e; cases e
      · rw [e1] at e
        obtain ⟨xs, g1, g2, g3⟩ := ih hb1 hlt1 e
        refine ⟨x :: xs, by rw [g1, ho1, List.append_assoc]; rfl, by rw [List.length_cons, g2], ?_⟩
        rcases g3 with ⟨R', g3, g4⟩ | g3
        · left
          refine ⟨R', ?_, g4⟩
          rw [hR, g3, List.flatMap_cons, List.append_assoc]
        · exact Or.inr g3
      · rw [e1] at e
        obtain ⟨rfl, rfl⟩ := decHLoop_wrapped hlt1 e
        exact ⟨[x], ho1, rfl, Or.inr hlt1⟩
    · rw [decHLoop_succ, if_neg hoff] at e
      have := (Prod.mk.inj (Option.some.inj (Res.ok.inj e))).1
      omega

/-- One hint step on a properly encoded coefficient. -/
theorem decH_ok {sig : List U8} {n : Nat} {s : DecSt} {R R' : List Bool} {x : Int} (h : BR sig R s.off s.buffer s.bitOff.toNat)
    (hb : s.bitOff.toNat < 64) (hoff : s.off < sig.length) (hR8 : R.length ≤ 8 * sig.length) (hR : R = hintBits x ++ R')
    (hfit : (8 * sig.length - R.length) % 8 + (hintBits x).length < 64) :
    ∃ s', decHLoop sig (n + 1) s = decHLoop sig n s' ∧ s'.out = s.out ++ [x] ∧
      BR sig R' s'.off s'.buffer s'.bitOff.toNat ∧ s'.bitOff.toNat < 64 := by
  rw [decHLoop_succ, if_pos hoff]
  obtain ⟨m, s1, e1, ho, hout, hbr, h64, hw, -⟩ := decRefill_ok h hb
  rw [e1, Res.ok_bind]
  dsimp only
  obtain ⟨bs, k1, k2, k3⟩ := hbr.bits
  have hlR : R.length = (hintBits x).length + R'.length := by rw [hR, List.length_append]
  have hpos : 0 < (hintBits x).length := by rw [hintBits_eq, tailBits_length]; omega
  have hle : (hintBits x).length ≤ s1.bitOff.toNat := by
    rcases hw hR8 with ⟨-, hw⟩ | hw <;> omega
  obtain ⟨rest, hrest⟩ : ∃ rest, bs = tailBits x.natAbs x ++ rest := by
    refine ⟨bs.drop (hintBits x).length, ?_⟩
    rw [← hintBits_eq]
    have : bs.take (hintBits x).length = hintBits x := by
      rw [← List.take_append_of_le_length (l₂ := bytesBits (sig.drop (s.off + m))) (by omega), k3, hR]
      exact List.take_left
    conv_lhs => rw [← List.take_append_drop (hintBits x).length bs, this]
  rw [decodeHintCoeff_eq, decTail_eq (hrest ▸ k2) (hrest ▸ k1) h64 rfl, Res.ok_bind, ← hintBits_eq]
  show ∃ s', (if (hintBits x).length > 0 then _ else _ : Res _) = _ ∧ _
  rw [if_pos hpos, shr64_ok (by omega), Res.ok_bind]
  refine ⟨_, rfl, by show s1.out ++ [x] = _; rw [hout], ?_, ?_⟩
  · show BR sig _ (s1.off + m) (s1.buffer >>> (hintBits x).length) (s1.bitOff - BitVec.ofNat 64 _).toNat
    rw [sub_toNat hle, ho]
    have := (hbr.consume hle).1
    rw [hR, List.drop_left] at this
    exact this
  · show (s1.bitOff - BitVec.ofNat 64 _).toNat < 64
    rw [sub_toNat hle]; omega

/-! ### The response loop -/

theorem decZLoop_succ (sig : List U8) (fuel n : Nat) (s : DecSt) : decZLoop sig (fuel + 1) n s =
    if s.off < sig.length ∧ 0 < n then do
      let (toBuf, s) ← decRefill sig s
      if s.bitOff > 40 then do
        let a := (s.buffer &&& (((1 : U64) <<< 40) - 1)).toNat
        let buffer ← shr64 s.buffer 40
        let bitOff := s.bitOff - 40
        let (coeff, consumed) ← decodeRespCoeff buffer bitOff.toNat a
        if consumed > 0 then do
          let bitOff := bitOff - BitVec.ofNat 64 consumed
          let buffer ← shr64 buffer consumed
          decZLoop sig fuel (n - 1) ⟨s.off + toBuf, buffer, bitOff, s.out ++ [coeff]⟩
        else .ok none
      else decZLoop sig fuel n { s with off := s.off + toBuf }
    else .ok (some (n, s)) := rfl

theorem gt40 {a : U64} : a > 40 ↔ 40 < a.toNat := Iff.rfl

theorem sub40 {a : U64} (h : 40 ≤ a.toNat) : (a - 40).toNat = a.toNat - 40 := sub_toNat (n := 40) h

/-- Everything one iteration can do. -/
theorem decZ_step {sig : List U8} {fuel n : Nat} {s : DecSt} {R : List Bool} (h : BR sig R s.off s.buffer s.bitOff.toNat) (hb : s.bitOff.toNat < 64)
    (hoff : s.off < sig.length) :
    decZLoop sig (fuel + 1) (n + 1) s = .ok none ∨
    (∃ s', decZLoop sig (fuel + 1) (n + 1) s = decZLoop sig fuel (n + 1) s' ∧ s'.off = sig.length ∧ R.length ≤ 40) ∨
    (∃ x R' s', R = respBits x ++ R' ∧ decZLoop sig (fuel + 1) (n + 1) s = decZLoop sig fuel n s' ∧ s'.out = s.out ++ [x] ∧
      BR sig R' s'.off s'.buffer s'.bitOff.toNat ∧ s'.bitOff.toNat ≤ 23 ∧ (respBits x).length ≤ 64) ∨
    (∃ x s' a m, decZLoop sig (fuel + 1) (n + 1) s = decZLoop sig fuel n s' ∧ s'.out = s.out ++ [x] ∧ ¬ s'.bitOff.toNat < 64 ∧
      a < 2 ^ 40 ∧ 0 < m * 2 ^ 40 + a ∧
      R = natBits 40 a ++ (List.replicate m true ++ false :: bytesBits (sig.drop s'.off)) ∧ (s'.off = sig.length ∨ 16 ≤ m)) := by
  have h40 : (2 : Nat) ^ 40 = 1099511627776 := by norm_num
  rw [decZLoop_succ, if_pos ⟨hoff, Nat.succ_pos n⟩]
  obtain ⟨m, s1, e1, ho, hout, hbr, h64, -, h56⟩ := decRefill_ok h hb
  rw [e1, Res.ok_bind]
  dsimp only
  by_cases hgt : s1.bitOff > 40
  · rw [gt40] at hgt
    rw [if_pos (gt40.2 hgt), shr64_ok (by omega), Res.ok_bind, mask_and (by omega)]
    obtain ⟨c1, c2⟩ := hbr.consume (n := 40) (by omega)
    obtain ⟨a, ha⟩ : ∃ a, s1.buffer.toNat % 2 ^ 40 = a := ⟨_, rfl⟩
    have halt : a < 2 ^ 40 := by rw [← ha]; exact Nat.mod_lt _ (by omega)
    rw [ha] at c2 ⊢
    have hlenR := hbr.length
    have htk : R.take 40 = natBits 40 a := by
      rw [c2, natBits_win _ _ (by rw [List.length_take]; omega), List.take_take, Nat.min_self]
    have hRsplit : R = natBits 40 a ++ R.drop 40 := by rw [← htk, List.take_append_drop]
    obtain ⟨bs, k1, k2, k3⟩ := c1.bits
    have hs40 := sub40 (a := s1.bitOff) (by omega)
    rw [decodeRespCoeff_eq, hs40]
    have hF : ∀ n' : Nat, ((n' <<< 40 ||| a : Nat) : Int) = ((n' * 2 ^ 40 + a : Nat) : Int) := fun n' => by rw [shl_or_eq halt]
    rcases decTail_cases (F := fun n => ((n <<< 40 ||| a : Nat) : Int)) (v0 := (a : Int)) k2 k1 (by omega) (fun n => Int.natCast_nonneg _) with ⟨e, -⟩ | ⟨n', x, rest, hbs, hx, e⟩ | ⟨n', hn', hbs, ⟨h63, e⟩ | ⟨h63, e⟩⟩
    · left; rw [e, Res.ok_bind]; rfl
    · rw [hF] at hx
      have hx' : x.natAbs = n' * 2 ^ 40 + a := by omega
      rw [e, Res.ok_bind]
      have hl := tailBits_length n' x
      have hpos : (tailBits n' x).length > 0 := by omega
      have hble : (tailBits n' x).length ≤ s1.bitOff.toNat - 40 := by rw [← k1, hbs, List.length_append]; omega
      have hR : R = respBits x ++ (rest ++ bytesBits (sig.drop (s.off + m))) := by
        rw [← respBits_of halt hx', hRsplit, ← k3, hbs]; simp only [List.append_assoc]
      show (if (tailBits n' x).length > 0 then _ else _ : Res _) = _ ∨ (∃ s', (if (tailBits n' x).length > 0 then _ else _ : Res _) = _ ∧ _) ∨
        (∃ x R' s', _ ∧ (if (tailBits _ _).length > 0 then _ else _ : Res _) = _ ∧ _) ∨ (∃ x s' a m, (if (tailBits _ _).length > 0 then _ else _ : Res _) = _ ∧ _)
      rw [if_pos hpos, shr64_ok (by omega), Res.ok_bind]
      right; right; left
      refine ⟨x, rest ++ bytesBits (sig.drop (s.off + m)), _, hR, rfl, by show s1.out ++ [x] = _; rw [hout], ?_, ?_, ?_⟩
      · show BR sig _ (s1.off + m) (s1.buffer >>> 40 >>> (tailBits n' x).length) (s1.bitOff - 40 - BitVec.ofNat 64 _).toNat
        rw [sub_toNat (by omega), hs40, ho]
        have := (c1.consume hble).1
        rw [← k3, hbs, List.append_assoc, List.drop_left] at this
        exact this
      · show (s1.bitOff - 40 - BitVec.ofNat 64 _).toNat ≤ 23
        rw [sub_toNat (by omega), hs40]; omega
      · rw [← respBits_of halt hx', List.length_append, natBits_length]; omega
    · have := congrArg List.length hbs
      rw [k1] at this
      simp at this
      omega
    · rw [e, Res.ok_bind]
      have hlen : s1.bitOff.toNat - 40 = n' + 1 := by rw [← k1, hbs]; simp
      have hR : R = natBits 40 a ++ (List.replicate n' true ++ false :: bytesBits (sig.drop (s.off + m))) := by
        rw [hRsplit, ← k3, hbs]; simp only [List.append_assoc]; rfl
      rw [hF] at hn'
      show (if s1.bitOff.toNat - 40 + 1 > 0 then _ else _ : Res _) = _ ∨ (∃ s', (if s1.bitOff.toNat - 40 + 1 > 0 then _ else _ : Res _) = _ ∧ _) ∨
        (∃ x R' s', _ ∧ (if s1.bitOff.toNat - 40 + 1 > 0 then _ else _ : Res _) = _ ∧ _) ∨ (∃ x s' a m, (if s1.bitOff.toNat - 40 + 1 > 0 then _ else _ : Res _) = _ ∧ _)
      rw [if_pos (by omega), shr64_ok (by omega), Res.ok_bind]
      right; right; right
      refine ⟨_, _, a, n', rfl, by show s1.out ++ [_] = _; rw [hout], ?_, halt, by omega, ?_, ?_⟩
      · show ¬ (s1.bitOff - 40 - BitVec.ofNat 64 _).toNat < 64
        rw [← hs40]
        exact sub_wrap (by omega)
      · show R = _ ++ (_ ++ false :: bytesBits (sig.drop (s1.off + m)))
        rw [ho]; exact hR
      · show s1.off + m = _ ∨ _
        rw [ho]
        rcases h56 with h56 | h56
        · exact Or.inl h56
        · right; omega
  · have hgt' : ¬ 40 < s1.bitOff.toNat := hgt
    rw [if_neg hgt]
    right; left
    have hend : s.off + m = sig.length := by omega
    have hlenR := hbr.length
    refine ⟨_, rfl, ?_, by omega⟩
    show s1.off + m = sig.length
    rw [ho]; exact hend

theorem decZ_ok {sig : List U8} {fuel n : Nat} {s : DecSt} {R R' : List Bool} {x : Int} (h : BR sig R s.off s.buffer s.bitOff.toNat)
    (hb : s.bitOff.toNat < 64) (hoff : s.off < sig.length) (hR8 : R.length ≤ 8 * sig.length) (hR : R = respBits x ++ R')
    (hfit : (8 * sig.length - R.length) % 8 + (respBits x).length < 64) :
    ∃ s', decZLoop sig (fuel + 1) (n + 1) s = decZLoop sig fuel n s' ∧ s'.out = s.out ++ [x] ∧
      BR sig R' s'.off s'.buffer s'.bitOff.toNat ∧ s'.bitOff.toNat ≤ 23 := by
  have h40 : (2 : Nat) ^ 40 = 1099511627776 := by norm_num
  rw [decZLoop_succ, if_pos ⟨hoff, Nat.succ_pos n⟩]
  obtain ⟨m, s1, e1, ho, hout, hbr, h64, hw, -⟩ := decRefill_ok h hb
  rw [e1, Res.ok_bind]
  dsimp only
  have hlx : (respBits x).length = 40 + (tailBits (x.natAbs / 2 ^ 40) x).length := by
    rw [respBits_eq, List.length_append, natBits_length]
  have hlt := tailBits_length (x.natAbs / 2 ^ 40) x
  have hlR : R.length = (respBits x).length + R'.length := by rw [hR, List.length_append]
  have hle : (respBits x).length ≤ s1.bitOff.toNat := by
    rcases hw hR8 with ⟨-, hw⟩ | hw <;> omega
  have hgt : 40 < s1.bitOff.toNat := by omega
  rw [if_pos (gt40.2 hgt), shr64_ok (by omega), Res.ok_bind, mask_and (by omega)]
  obtain ⟨c1, c2⟩ := hbr.consume (n := 40) (by omega)
  have hdrop : R.drop 40 = tailBits (x.natAbs / 2 ^ 40) x ++ R' := by
    rw [hR, respBits_eq, List.append_assoc, List.drop_append_of_le_length (by rw [natBits_length]), List.drop_of_length_le (by rw [natBits_length]), List.nil_append]
  have ha : s1.buffer.toNat % 2 ^ 40 = x.natAbs % 2 ^ 40 := by
    rw [c2, hR, respBits_eq, List.append_assoc, take_append_len _ _ (by rw [natBits_length]), bitsVal_natBits, Nat.mod_mod]
  rw [ha]
  have halt : x.natAbs % 2 ^ 40 < 2 ^ 40 := Nat.mod_lt _ (by omega)
  obtain ⟨bs, k1, k2, k3⟩ := c1.bits
  have hs40 := sub40 (a := s1.bitOff) (by omega)
  obtain ⟨rest, hrest⟩ : ∃ rest, bs = tailBits (x.natAbs / 2 ^ 40) x ++ rest := by
    refine ⟨bs.drop (tailBits (x.natAbs / 2 ^ 40) x).length, ?_⟩
    have : bs.take (tailBits (x.natAbs / 2 ^ 40) x).length = tailBits (x.natAbs / 2 ^ 40) x := by
      rw [← List.take_append_of_le_length (l₂ := bytesBits (sig.drop (s.off + m))) (by omega), k3, hdrop]
      exact List.take_left
    conv_lhs => rw [← List.take_append_drop (tailBits (x.natAbs / 2 ^ 40) x).length bs, this]
  rw [decodeRespCoeff_eq, hs40, decTail_eq (hrest ▸ k2) (hrest ▸ k1) (by omega) (by
    show ((_ : Nat) : Int) = _
    rw [shl_or_eq halt, Nat.div_add_mod']), Res.ok_bind]
  show ∃ s', (if (tailBits (x.natAbs / 2 ^ 40) x).length > 0 then _ else _ : Res _) = _ ∧ _
  rw [if_pos (by omega), shr64_ok (by omega), Res.ok_bind]
  refine ⟨_, rfl, by show s1.out ++ [x] = _; rw [hout], ?_, ?_⟩
  · show BR sig _ (s1.off + m) (s1.buffer >>> 40 >>> _) (s1.bitOff - 40 - BitVec.ofNat 64 _).toNat
    rw [sub_toNat (by omega), hs40, ho]
    have := (c1.consume (n := (tailBits (x.natAbs / 2 ^ 40) x).length) (by omega)).1
    rw [hdrop, List.drop_left] at this
    exact this
  · show (s1.bitOff - 40 - BitVec.ofNat 64 _).toNat ≤ 23
    rw [sub_toNat (by omega), hs40]; omega

end Raccoon
