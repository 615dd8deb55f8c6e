import Verif.Proofs.Bytes
import Verif.Proofs.Loops
import Verif.Proofs.Field
/-!
# Bit windows: 64-bit words holding a bit string
-/
namespace Raccoon
attribute [-instance] Monoid.toNPow

/-- The word `w` holds exactly the bit string `bs`. -/
def Win (bs : List Bool) (w : U64) : Prop := w.toNat = bitsVal bs

theorem Win.nil : Win [] 0 := rfl

theorem pow_le_64 {n : Nat} (h : n ≤ 64) : 2 ^ n ≤ 2 ^ 64 := Nat.pow_le_pow_right (by omega) h

theorem Win.shl {xs : List Bool} {v : U64} (h : Win xs v) {n : Nat} (hn : n + xs.length ≤ 64) :
    (v <<< n).toNat = 2 ^ n * bitsVal xs := by
  rw [BitVec.toNat_shiftLeft, h, Nat.shiftLeft_eq, Nat.mul_comm, Nat.mod_eq_of_lt]
  calc 2 ^ n * bitsVal xs < 2 ^ n * 2 ^ xs.length := Nat.mul_lt_mul_of_pos_left (bitsVal_lt xs) (Nat.two_pow_pos n)
    _ = 2 ^ (n + xs.length) := by rw [Nat.pow_add]
    _ ≤ 2 ^ 64 := pow_le_64 hn

theorem Win.append {bs xs : List Bool} {w v : U64} (h : Win bs w) (h' : Win xs v) (hn : bs.length + xs.length ≤ 64) :
    Win (bs ++ xs) (w ||| v <<< bs.length) := by
  unfold Win
  rw [BitVec.toNat_or, h'.shl hn, h, Nat.or_comm, ← Nat.two_pow_add_eq_or_of_lt (bitsVal_lt bs), bitsVal_append, Nat.add_comm]

theorem Win.append' {bs xs : List Bool} {w v : U64} (h : Win bs w) (h' : Win xs v) {n : Nat} (hb : bs.length = n)
    (hn : n + xs.length ≤ 64) : Win (bs ++ xs) (w ||| v <<< n) := by
  subst hb; exact h.append h' hn

theorem Win.drop {bs : List Bool} {w : U64} (h : Win bs w) (n : Nat) : Win (bs.drop n) (w >>> n) := by
  unfold Win
  rw [BitVec.toNat_ushiftRight, h, bitsVal_drop, Nat.shiftRight_eq_div_pow]

theorem Win.bytes {b : List U8} (h : b.length ≤ 8) : Win (bytesBits b) (fromLeBytes 64 b) := by
  unfold Win; rw [fromLeBytes64 h, bitsVal_bytesBits]

theorem Win.of_nat {n : Nat} {v : U64} (h : v.toNat < 2 ^ n) : Win (natBits n v.toNat) v := by
  unfold Win; rw [bitsVal_natBits, Nat.mod_eq_of_lt h]

theorem Win.ofNat {n v : Nat} (hn : n ≤ 64) (h : v < 2 ^ n) : Win (natBits n v) (BitVec.ofNat 64 v) := by
  unfold Win
  rw [bitsVal_natBits, Nat.mod_eq_of_lt h, BitVec.toNat_ofNat, Nat.mod_eq_of_lt (Nat.lt_of_lt_of_le h (pow_le_64 hn))]

theorem Win.low {bs : List Bool} {w : U64} (h : Win bs w) (n : Nat) : w.toNat % 2 ^ n = bitsVal (bs.take n) := by
  rw [h, bitsVal_take]

theorem Win.getLsbD {bs : List Bool} {w : U64} (h : Win bs w) (i : Nat) (hi : i < bs.length) : w.getLsbD i = bs[i] := by
  have : w.getLsbD i = w.toNat.testBit i := rfl
  rw [this, h]
  clear h this
  induction bs generalizing i with
  | nil => exact absurd hi (Nat.not_lt_zero _)
  | cons b bs ih =>
    cases i with
    | zero =>
      rw [Nat.testBit_zero]
      show decide ((b.toNat + 2 * bitsVal bs) % 2 = 1) = b
      cases b
      · show decide ((0 + 2 * bitsVal bs) % 2 = 1) = false; rw [decide_eq_false]; omega
      · show decide ((1 + 2 * bitsVal bs) % 2 = 1) = true; rw [decide_eq_true]; omega
    | succ i =>
      rw [Nat.testBit_succ]
      have hi' : i < bs.length := Nat.lt_of_succ_lt_succ hi
      show ((b.toNat + 2 * bitsVal bs) / 2).testBit i = bs[i]
      rw [show (b.toNat + 2 * bitsVal bs) / 2 = bitsVal bs by cases b <;> simp [Bool.toNat] <;> omega]
      exact ih i _

theorem natBits_win (bs : List Bool) (n : Nat) (h : n ≤ bs.length) : natBits n (bitsVal bs) = bs.take n := by
  apply bitsVal_inj (by simp [h])
  rw [bitsVal_natBits, bitsVal_take]

theorem natBits_win_pad (bs : List Bool) (n : Nat) (h : bs.length ≤ n) : natBits n (bitsVal bs) = bs ++ List.replicate (n - bs.length) false := by
  apply bitsVal_inj (by simp; omega)
  rw [bitsVal_natBits, bitsVal_append, bitsVal_replicate_false, Nat.mul_zero, Nat.add_zero, Nat.mod_eq_of_lt]
  exact Nat.lt_of_lt_of_le (bitsVal_lt bs) (Nat.pow_le_pow_right (by omega) h)

theorem take_append_len {α : Type} (a b : List α) {n : Nat} (h : n = a.length) : (a ++ b).take n = a := by
  subst h; exact List.take_left

/-- Writing whole bytes out of the window. -/
theorem Win.put {bs : List Bool} {w : U64} (h : Win bs w) {buf : List U8} {off n : Nat} (hl : off + n ≤ buf.length)
    (hn : 8 * n ≤ bs.length) (hn' : n ≤ 8) :
    ∃ buf', putLe buf off n w = .ok buf' ∧ buf'.length = buf.length ∧
      bytesBits (buf'.take (off + n)) = bytesBits (buf.take off) ++ bs.take (8 * n) := by
  refine ⟨_, putLe_ok hl hn', ?_, ?_⟩
  · simp; omega
  · rw [take_append_len _ _ (by simp; omega), bytesBits_append, bytesBits_leBytes, h, natBits_win _ _ hn]

/-- Writing out the rest of the window, padded to whole bytes. -/
theorem Win.put_pad {bs : List Bool} {w : U64} (h : Win bs w) {buf : List U8} {off n : Nat} (hl : off + n ≤ buf.length)
    (hn : bs.length ≤ 8 * n) (hn' : n ≤ 8) :
    ∃ buf', putLe buf off n w = .ok buf' ∧ buf'.length = buf.length ∧
      bytesBits (buf'.take (off + n)) = bytesBits (buf.take off) ++ bs ++ List.replicate (8 * n - bs.length) false := by
  refine ⟨_, putLe_ok hl hn', ?_, ?_⟩
  · simp; omega
  · rw [take_append_len _ _ (by simp; omega), bytesBits_append, bytesBits_leBytes, h, natBits_win_pad _ _ hn, List.append_assoc]

/-- State of a bit writer: `W` are the bits written so far, the first `off` bytes are final, the rest is in the window. -/
structure BW (L : Nat) (W : List Bool) (buf : List U8) (off : Nat) (w : U64) (bitOff : Nat) : Prop where
  len : buf.length = L
  off_le : off ≤ L
  bits : ∃ bs, bs.length = bitOff ∧ Win bs w ∧ bytesBits (buf.take off) ++ bs = W

theorem BW.length {L : Nat} {W : List Bool} {buf : List U8} {off : Nat} {w : U64} {bitOff : Nat} (h : BW L W buf off w bitOff) :
    W.length = 8 * off + bitOff := by
  obtain ⟨bs, h1, h2, h3⟩ := h.bits
  have h4 := h.len
  have h5 := h.off_le
  rw [← h3, List.length_append, bytesBits_length, List.length_take, h1]
  omega

theorem BW.append {L : Nat} {W : List Bool} {buf : List U8} {off : Nat} {w : U64} {bitOff : Nat} (h : BW L W buf off w bitOff)
    {xs : List Bool} {v : U64} (hv : Win xs v) (hn : bitOff + xs.length ≤ 64) :
    BW L (W ++ xs) buf off (w ||| v <<< bitOff) (bitOff + xs.length) := by
  obtain ⟨bs, h1, h2, h3⟩ := h.bits
  refine ⟨h.len, h.off_le, bs ++ xs, by rw [List.length_append, h1], h2.append' hv h1 hn, ?_⟩
  rw [← List.append_assoc, h3]

theorem BW.flush {L : Nat} {W : List Bool} {buf : List U8} {off : Nat} {w : U64} {bitOff : Nat} (h : BW L W buf off w bitOff)
    {n : Nat} (hl : off + n ≤ L) (hn : 8 * n ≤ bitOff) (hn' : n ≤ 8) :
    ∃ buf', putLe buf off n w = .ok buf' ∧ BW L W buf' (off + n) (w >>> (8 * n)) (bitOff - 8 * n) := by
  obtain ⟨bs, h1, h2, h3⟩ := h.bits
  obtain ⟨buf', e1, e2, e3⟩ := h2.put (buf := buf) (off := off) (n := n) (by rw [h.len]; exact hl) (by omega) hn'
  refine ⟨buf', e1, by rw [e2, h.len], hl, bs.drop (8 * n), by rw [List.length_drop, h1], h2.drop _, ?_⟩
  rw [e3, List.append_assoc, List.take_append_drop, h3]

theorem BW.finish {L : Nat} {W : List Bool} {buf : List U8} {off : Nat} {w : U64} {bitOff : Nat} (h : BW L W buf off w bitOff)
    {n : Nat} (hl : off + n ≤ L) (hn : bitOff ≤ 8 * n) (hn' : n ≤ 8) :
    ∃ buf', putLe buf off n w = .ok buf' ∧ buf'.length = L ∧
      bytesBits (buf'.take (off + n)) = W ++ List.replicate (8 * n - bitOff) false := by
  obtain ⟨bs, h1, h2, h3⟩ := h.bits
  obtain ⟨buf', e1, e2, e3⟩ := h2.put_pad (buf := buf) (off := off) (n := n) (by rw [h.len]; exact hl) (by omega) hn'
  refine ⟨buf', e1, by rw [e2, h.len], ?_⟩
  rw [e3, h3, h1]

theorem BW.zero {L : Nat} {W : List Bool} {buf : List U8} {off : Nat} {w : U64} (h : BW L W buf off w 0) :
    w = 0 ∧ bytesBits (buf.take off) = W := by
  obtain ⟨bs, h1, h2, h3⟩ := h.bits
  have : bs = [] := List.length_eq_zero_iff.1 h1
  subst this
  exact ⟨BitVec.eq_of_toNat_eq h2, by rw [List.append_nil] at h3; exact h3⟩

/-- State of a bit reader: `R` are the bits still to be read, `bitOff` of them in the window. -/
structure BR (src : List U8) (R : List Bool) (off : Nat) (w : U64) (bitOff : Nat) : Prop where
  off_le : off ≤ src.length
  bits : ∃ bs, bs.length = bitOff ∧ Win bs w ∧ bs ++ bytesBits (src.drop off) = R

theorem BR.start {src : List U8} {off : Nat} (h : off ≤ src.length) : BR src (bytesBits (src.drop off)) off 0 0 :=
  ⟨h, [], rfl, Win.nil, rfl⟩

theorem BR.length {src : List U8} {R : List Bool} {off : Nat} {w : U64} {bitOff : Nat} (h : BR src R off w bitOff) :
    R.length = bitOff + 8 * (src.length - off) := by
  obtain ⟨bs, h1, h2, h3⟩ := h.bits
  rw [← h3, List.length_append, bytesBits_length, List.length_drop, h1]

theorem BR.refill {src : List U8} {R : List Bool} {off : Nat} {w : U64} {bitOff : Nat} (h : BR src R off w bitOff)
    {n : Nat} (hn : off + n ≤ src.length) (hb : bitOff + 8 * n ≤ 64) :
    ∃ b, subspan src off n = .ok b ∧ BR src R (off + n) (w ||| fromLeBytes 64 b <<< bitOff) (bitOff + 8 * n) := by
  obtain ⟨bs, h1, h2, h3⟩ := h.bits
  refine ⟨_, subspan_ok hn, hn, bs ++ bytesBits ((src.drop off).take n), ?_, ?_, ?_⟩
  · rw [List.length_append, bytesBits_length, List.length_take, List.length_drop, h1]; omega
  · refine h2.append' (Win.bytes ?_) h1 ?_
    · rw [List.length_take, List.length_drop]; omega
    · rw [bytesBits_length, List.length_take, List.length_drop]; omega
  · rw [List.append_assoc, ← List.drop_drop, ← bytesBits_append, List.take_append_drop, h3]

theorem BR.consume {src : List U8} {R : List Bool} {off : Nat} {w : U64} {bitOff : Nat} (h : BR src R off w bitOff)
    {n : Nat} (hn : n ≤ bitOff) : BR src (R.drop n) off (w >>> n) (bitOff - n) ∧ w.toNat % 2 ^ n = bitsVal (R.take n) := by
  obtain ⟨bs, h1, h2, h3⟩ := h.bits
  refine ⟨⟨h.off_le, bs.drop n, by rw [List.length_drop, h1], h2.drop n, ?_⟩, ?_⟩
  · rw [← h3, List.drop_append_of_le_length (by omega)]
  · rw [h2.low, ← h3, List.take_append_of_le_length (by omega)]

theorem mask_and {n : Nat} (hn : n < 64) (v : U64) : (v &&& ((1 : U64) <<< n - 1)).toNat = v.toNat % 2 ^ n := by
  rw [BitVec.toNat_and]
  have h2 : ((1 : U64) <<< n).toNat = 2 ^ n := by
    rw [BitVec.toNat_shiftLeft, Nat.shiftLeft_eq]
    show (1 * 2 ^ n) % 2 ^ 64 = _
    rw [Nat.one_mul, Nat.mod_eq_of_lt (Nat.pow_lt_pow_right (by omega) hn)]
  have h3 : ((1 : U64) <<< n - 1).toNat = 2 ^ n - 1 := by
    rw [BitVec.toNat_sub, h2]
    show (2 ^ 64 - 1 + 2 ^ n) % 2 ^ 64 = _
    have h4 := Nat.two_pow_pos n
    have h5 : 2 ^ n < 2 ^ 64 := Nat.pow_lt_pow_right (by omega) hn
    have e : 2 ^ 64 - 1 + 2 ^ n = (2 ^ n - 1) + 2 ^ 64 := by
      rw [pow64]; omega
    rw [e, Nat.add_mod_right, Nat.mod_eq_of_lt]
    omega
  rw [h3, Nat.and_two_pow_sub_one_eq_mod]

theorem shl64_ok {x : U64} {n : Nat} (h : n < 64) : shl64 x n = .ok (x <<< n) := by unfold shl64; rw [if_pos h]
theorem shr64_ok {x : U64} {n : Nat} (h : n < 64) : shr64 x n = .ok (x >>> n) := by unfold shr64; rw [if_pos h]
theorem shl64_ub {x : U64} {n : Nat} (h : ¬ n < 64) : shl64 x n = .ub := by unfold shl64; rw [if_neg h]
theorem shr64_ub {x : U64} {n : Nat} (h : ¬ n < 64) : shr64 x n = .ub := by unfold shr64; rw [if_neg h]

end Raccoon
