import Verif.Spec.Bytes
import Verif.Proofs.Loops
import Verif.Proofs.U128
/-!
# Byte and bit strings
-/
namespace Raccoon
attribute [-instance] Monoid.toNPow

@[simp] theorem natBits_length (n v : Nat) : (natBits n v).length = n := by
  induction n generalizing v with
  | zero => rfl
  | succ n ih => simp [natBits, ih]

theorem bitsVal_natBits (n v : Nat) : bitsVal (natBits n v) = v % 2 ^ n := by
  induction n generalizing v with
  | zero => simp [natBits, bitsVal, Nat.mod_one]
  | succ n ih =>
    simp only [natBits, bitsVal, ih]
    rw [Nat.pow_succ, Nat.mul_comm (2 ^ n) 2, Nat.mod_mul]
    have : (decide (v % 2 = 1)).toNat = v % 2 := by
      rcases Nat.mod_two_eq_zero_or_one v with h | h <;> simp [h]
    rw [this]

theorem bitsVal_append (a b : List Bool) : bitsVal (a ++ b) = bitsVal a + 2 ^ a.length * bitsVal b := by
  induction a with
  | nil => simp [bitsVal]
  | cons x a ih => simp only [List.cons_append, bitsVal, ih, List.length_cons, Nat.pow_succ]; ring

theorem bitsVal_lt (a : List Bool) : bitsVal a < 2 ^ a.length := by
  induction a with
  | nil => simp [bitsVal]
  | cons x a ih =>
    simp only [bitsVal, List.length_cons, Nat.pow_succ]
    have : x.toNat ≤ 1 := Bool.toNat_le x
    omega

theorem bitsVal_inj {a b : List Bool} (hl : a.length = b.length) (h : bitsVal a = bitsVal b) : a = b := by
  induction a generalizing b with
  | nil => cases b with | nil => rfl | cons => simp at hl
  | cons x a ih =>
    cases b with
    | nil => simp at hl
    | cons y b =>
      simp only [bitsVal] at h
      have hx : x.toNat ≤ 1 := Bool.toNat_le x
      have hy : y.toNat ≤ 1 := Bool.toNat_le y
      have h1 : x.toNat = y.toNat := by omega
      have h2 : bitsVal a = bitsVal b := by omega
      have h3 : x = y := by cases x <;> cases y <;> simp_all
      rw [ih (by simpa using hl) h2, h3]

theorem natBits_bitsVal (a : List Bool) : natBits a.length (bitsVal a) = a := by
  apply bitsVal_inj (by simp)
  rw [bitsVal_natBits, Nat.mod_eq_of_lt (bitsVal_lt a)]

theorem bitsVal_drop (a : List Bool) (n : Nat) : bitsVal (a.drop n) = bitsVal a / 2 ^ n := by
  rcases Nat.lt_or_ge n a.length with h | h
  · have e := bitsVal_append (a.take n) (a.drop n)
    rw [List.take_append_drop] at e
    have hl : (a.take n).length = n := by rw [List.length_take]; omega
    rw [hl] at e
    have := bitsVal_lt (a.take n)
    rw [hl] at this
    rw [e, Nat.add_comm, Nat.mul_add_div (Nat.two_pow_pos n), Nat.div_eq_of_lt this, Nat.add_zero]
  · rw [List.drop_eq_nil_of_le h]
    have : bitsVal a < 2 ^ n := Nat.lt_of_lt_of_le (bitsVal_lt a) (Nat.pow_le_pow_right (by omega) h)
    rw [Nat.div_eq_of_lt this]; rfl

theorem bitsVal_take (a : List Bool) (n : Nat) : bitsVal (a.take n) = bitsVal a % 2 ^ n := by
  rcases Nat.lt_or_ge n a.length with h | h
  · have e := bitsVal_append (a.take n) (a.drop n)
    rw [List.take_append_drop] at e
    have hl : (a.take n).length = n := by rw [List.length_take]; omega
    rw [hl] at e
    have := bitsVal_lt (a.take n)
    rw [hl] at this
    rw [e, Nat.add_mul_mod_self_left, Nat.mod_eq_of_lt this]
  · rw [List.take_of_length_le h]
    have : bitsVal a < 2 ^ n := Nat.lt_of_lt_of_le (bitsVal_lt a) (Nat.pow_le_pow_right (by omega) h)
    rw [Nat.mod_eq_of_lt this]

theorem bitsVal_replicate_false (n : Nat) : bitsVal (List.replicate n false) = 0 := by
  induction n with
  | zero => rfl
  | succ n ih => simp [List.replicate_succ, bitsVal, ih]

theorem bitsVal_replicate_true (n : Nat) : bitsVal (List.replicate n true) = 2 ^ n - 1 := by
  induction n with
  | zero => rfl
  | succ n ih =>
    simp only [List.replicate_succ, bitsVal, ih, Nat.pow_succ]
    have := Nat.two_pow_pos n
    simp; omega

theorem natBits_append (m n v : Nat) : natBits (m + n) v = natBits m v ++ natBits n (v / 2 ^ m) := by
  apply bitsVal_inj (by simp)
  rw [bitsVal_append, bitsVal_natBits, bitsVal_natBits, bitsVal_natBits, natBits_length, Nat.pow_add, Nat.mod_mul]

/-! ### bytes -/

@[simp] theorem bytesBits_length (bs : List U8) : (bytesBits bs).length = 8 * bs.length := by
  induction bs with
  | nil => rfl
  | cons b bs ih => simp [bytesBits, ih]; omega

@[simp] theorem bytesBits_append (a b : List U8) : bytesBits (a ++ b) = bytesBits a ++ bytesBits b := by
  induction a with
  | nil => rfl
  | cons x a ih => simp [bytesBits, ih]

theorem bitsVal_bytesBits (bs : List U8) : bitsVal (bytesBits bs) = leVal bs := by
  induction bs with
  | nil => rfl
  | cons b bs ih =>
    simp only [bytesBits, bitsVal_append, natBits_length, bitsVal_natBits, ih, leVal]
    rw [Nat.mod_eq_of_lt b.isLt]

theorem leVal_lt (bs : List U8) : leVal bs < 2 ^ (8 * bs.length) := by
  rw [← bitsVal_bytesBits]
  have := bitsVal_lt (bytesBits bs)
  rwa [bytesBits_length] at this

theorem bytesBits_inj {a b : List U8} (h : bytesBits a = bytesBits b) : a = b := by
  induction a generalizing b with
  | nil =>
    cases b with
    | nil => rfl
    | cons y b => have := congrArg List.length h; simp at this
  | cons x a ih =>
    cases b with
    | nil => have := congrArg List.length h; simp at this
    | cons y b =>
      simp only [bytesBits] at h
      have := List.append_inj h (by simp)
      have h1 := congrArg bitsVal this.1
      rw [bitsVal_natBits, bitsVal_natBits, Nat.mod_eq_of_lt x.isLt, Nat.mod_eq_of_lt y.isLt] at h1
      rw [ih this.2, BitVec.eq_of_toNat_eq h1]

@[simp] theorem leBytes_length (n v : Nat) : (leBytes n v).length = n := by
  induction n generalizing v with
  | zero => rfl
  | succ n ih => simp [leBytes, ih]

theorem bytesBits_leBytes (n v : Nat) : bytesBits (leBytes n v) = natBits (8 * n) v := by
  induction n generalizing v with
  | zero => rfl
  | succ n ih =>
    have : 8 * (n + 1) = 8 + 8 * n := by omega
    rw [this, natBits_append, leBytes, bytesBits, ih]
    congr 1
    apply bitsVal_inj (by simp)
    rw [bitsVal_natBits, bitsVal_natBits, BitVec.toNat_ofNat, Nat.mod_mod]

theorem leVal_leBytes (n v : Nat) : leVal (leBytes n v) = v % 2 ^ (8 * n) := by
  rw [← bitsVal_bytesBits, bytesBits_leBytes, bitsVal_natBits]

theorem leBytes_leVal (bs : List U8) : leBytes bs.length (leVal bs) = bs := by
  apply bytesBits_inj
  rw [bytesBits_leBytes, ← bitsVal_bytesBits, ← bytesBits_length, natBits_bitsVal]

theorem bytesBits_replicate_zero (n : Nat) : bytesBits (List.replicate n 0) = List.replicate (8 * n) false := by
  apply bitsVal_inj (by simp)
  rw [bitsVal_replicate_false, bitsVal_bytesBits]
  induction n with
  | zero => rfl
  | succ n ih => rw [List.replicate_succ, leVal, ih]; rfl

theorem bytesBits_drop (bs : List U8) (n : Nat) : bytesBits (bs.drop n) = (bytesBits bs).drop (8 * n) := by
  induction n generalizing bs with
  | zero => simp
  | succ n ih =>
    cases bs with
    | nil => simp [bytesBits]
    | cons b bs =>
      have : 8 * (n + 1) = 8 + 8 * n := by omega
      rw [List.drop_succ_cons, ih, bytesBits, this, ← List.drop_drop, List.drop_left' (by simp)]

theorem bytesBits_take (bs : List U8) (n : Nat) : bytesBits (bs.take n) = (bytesBits bs).take (8 * n) := by
  induction n generalizing bs with
  | zero => simp [bytesBits]
  | succ n ih =>
    cases bs with
    | nil => simp [bytesBits]
    | cons b bs =>
      have : 8 * (n + 1) = 8 + 8 * n := by omega
      rw [List.take_succ_cons, bytesBits, ih, bytesBits, this, List.take_append, natBits_length,
        List.take_of_length_le (l := natBits 8 b.toNat) (by simp)]
      congr 2; omega

/-! ### `from_le_bytes`, `to_le_bytes` -/

theorem fromLe_fold {w : Nat} : ∀ (bs : List U8) (k : Nat) (acc : BitVec w), acc.toNat < 2 ^ (8 * k) → 8 * (k + bs.length) ≤ w →
    ((bs.zipIdx k).foldl (fun (res : BitVec w) (bi : U8 × Nat) =>
      res ||| ((bi.1.setWidth w : BitVec w) <<< (bi.2 * 8))) acc).toNat = acc.toNat + 2 ^ (8 * k) * leVal bs := by
  intro bs
  induction bs with
  | nil => intro k acc h1 h2; simp [leVal]
  | cons b bs ih =>
    intro k acc h1 h2
    rw [List.zipIdx_cons, List.foldl_cons]
    rw [List.length_cons] at h2
    have hb := b.isLt
    have e1 : ((b.setWidth w : BitVec w) <<< (k * 8)).toNat = 2 ^ (8 * k) * b.toNat := by
      have h256 : (2 : Nat) ^ 8 ≤ 2 ^ w := Nat.pow_le_pow_right (by omega) (by omega)
      rw [BitVec.toNat_shiftLeft, BitVec.toNat_setWidth, Nat.mod_eq_of_lt (Nat.lt_of_lt_of_le hb h256), Nat.shiftLeft_eq,
        Nat.mul_comm k 8, Nat.mul_comm, Nat.mod_eq_of_lt]
      calc 2 ^ (8 * k) * b.toNat < 2 ^ (8 * k) * 2 ^ 8 := Nat.mul_lt_mul_of_pos_left hb (Nat.two_pow_pos _)
        _ = 2 ^ (8 * k + 8) := by rw [← Nat.pow_add]
        _ ≤ 2 ^ w := Nat.pow_le_pow_right (by omega) (by omega)
    have e2 : (acc ||| ((b.setWidth w : BitVec w) <<< (k * 8))).toNat = acc.toNat + 2 ^ (8 * k) * b.toNat := by
      rw [BitVec.toNat_or, e1, Nat.or_comm, ← Nat.two_pow_add_eq_or_of_lt h1, Nat.add_comm]
    have hpow : 2 ^ (8 * (k + 1)) = 2 ^ (8 * k) * 256 := by
      rw [Nat.mul_add, Nat.pow_add]
    rw [ih (k + 1) _ ?_ (by omega), e2, leVal, hpow]
    · ring
    · rw [e2, hpow]
      calc acc.toNat + 2 ^ (8 * k) * b.toNat < 2 ^ (8 * k) + 2 ^ (8 * k) * b.toNat := by omega
        _ = 2 ^ (8 * k) * (b.toNat + 1) := by ring
        _ ≤ 2 ^ (8 * k) * 256 := Nat.mul_le_mul_left _ hb

theorem fromLeBytes_toNat {w : Nat} (bs : List U8) (h8 : 8 ∣ w) :
    (fromLeBytes w bs).toNat = leVal (bs.take (w / 8)) := by
  unfold fromLeBytes
  rw [fromLe_fold (bs.take (w / 8)) 0 0 (by simp) ?_]
  · simp
  · rw [List.length_take]; omega

theorem fromLeBytes64 {bs : List U8} (h : bs.length ≤ 8) : (fromLeBytes 64 bs).toNat = leVal bs := by
  rw [fromLeBytes_toNat bs (by decide), List.take_of_length_le (by omega)]

theorem leBytes_eq_map (n v : Nat) : leBytes n v = (List.range n).map (fun i => BitVec.ofNat 8 (v / 2 ^ (i * 8))) := by
  induction n generalizing v with
  | zero => rfl
  | succ n ih =>
    rw [leBytes, ih, List.range_succ_eq_map, List.map_cons, List.map_map]
    congr 1
    · simp
    · apply List.map_congr_left
      intro i _
      show BitVec.ofNat 8 (v / 256 / 2 ^ (i * 8)) = BitVec.ofNat 8 (v / 2 ^ ((i + 1) * 8))
      rw [Nat.div_div_eq_div_mul, Nat.add_mul, Nat.one_mul, Nat.pow_add, Nat.mul_comm]

theorem toLeBytes_eq (v : U64) (span : List U8) :
    toLeBytes v span = leBytes (min 8 span.length) v.toNat ++ span.drop (min 8 span.length) := by
  unfold toLeBytes
  rw [leBytes_eq_map]
  congr 1
  apply List.map_congr_left
  intro i _
  apply BitVec.eq_of_toNat_eq
  rw [BitVec.toNat_setWidth, BitVec.toNat_ushiftRight, Nat.shiftRight_eq_div_pow, BitVec.toNat_ofNat]

/-! ### spans -/

theorem subspan_ok {α : Type} {buf : List α} {off cnt : Nat} (h : off + cnt ≤ buf.length) :
    subspan buf off cnt = .ok ((buf.drop off).take cnt) := by unfold subspan; rw [if_pos h]

theorem writeSpan_ok {buf : List U8} {off : Nat} {bs : List U8} (h : off + bs.length ≤ buf.length) :
    writeSpan buf off bs = .ok (buf.take off ++ bs ++ buf.drop (off + bs.length)) := by unfold writeSpan; rw [if_pos h]

theorem subspan_eq_ok {α : Type} {buf : List α} {off cnt : Nat} {r : List α} :
    subspan buf off cnt = .ok r ↔ off + cnt ≤ buf.length ∧ r = (buf.drop off).take cnt := by
  unfold subspan
  split
  · next h => simp only [Res.ok.injEq, h, true_and]; exact eq_comm
  · next h => simp [h]

theorem writeSpan_eq_ok {buf : List U8} {off : Nat} {bs r : List U8} :
    writeSpan buf off bs = .ok r ↔ off + bs.length ≤ buf.length ∧ r = buf.take off ++ bs ++ buf.drop (off + bs.length) := by
  unfold writeSpan
  split
  · next h => simp only [Res.ok.injEq, h, true_and]; exact eq_comm
  · next h => simp [h]

theorem putLe_ok {buf : List U8} {off cnt : Nat} {v : U64} (h : off + cnt ≤ buf.length) (hc : cnt ≤ 8) :
    putLe buf off cnt v = .ok (buf.take off ++ leBytes cnt v.toNat ++ buf.drop (off + cnt)) := by
  unfold putLe
  have hl : ((buf.drop off).take cnt).length = cnt := by simp; omega
  rw [subspan_ok h, Res.ok_bind, toLeBytes_eq, hl, Nat.min_eq_right hc, List.drop_eq_nil_of_le (by omega), List.append_nil,
    writeSpan_ok (by rw [leBytes_length]; exact h), leBytes_length]

/-- For counts above eight the span keeps its content beyond the eighth byte. -/
theorem putLe_ok' {buf : List U8} {off cnt : Nat} {v : U64} (h : off + cnt ≤ buf.length) :
    ∃ r, putLe buf off cnt v = .ok r ∧ r.length = buf.length ∧ r.take off = buf.take off := by
  unfold putLe
  have hl : ((buf.drop off).take cnt).length = cnt := by simp; omega
  rw [subspan_ok h, Res.ok_bind, toLeBytes_eq, hl, writeSpan_ok]
  · refine ⟨_, rfl, ?_, ?_⟩
    · simp; omega
    · rw [List.append_assoc, List.take_append_of_le_length (by simp; omega), List.take_take]
      simp
  · simp; omega

end Raccoon
