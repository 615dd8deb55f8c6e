import Verif.Proofs.Field
import Verif.Proofs.Loops
import Mathlib.Data.Int.GCD
import Mathlib.Tactic.LinearCombination
import Mathlib.Data.ZMod.Coprime
/-!
# Extended Euclid, inversion, exponentiation, shift
-/
namespace Raccoon
attribute [-instance] Monoid.toNPow

theorem pow63Z : (2 : Int) ^ 63 = 9223372036854775808 := by norm_num

theorem i64_ok {x : Int} (h1 : -9223372036854775808 ≤ x) (h2 : x < 9223372036854775808) : i64 x = .ok x := by
  unfold i64; rw [if_pos]; rw [pow63Z]; exact ⟨h1, h2⟩

/-- Loop invariant of the extended Euclidean algorithm. -/
structure XInv (x y : Nat) (s : XgcdSt) (A A' B B' G G' : Nat) (e : Int) : Prop where
  he : e = 1 ∨ e = -1
  h1 : s.old_a = e * A
  h2 : s.a = -(e * A')
  h3 : s.old_b = -(e * B)
  h4 : s.b = e * B'
  h5 : s.old_g = G
  h6 : s.g = G'
  bz : x * s.old_a + y * s.old_b = s.old_g
  bz' : x * s.a + y * s.b = s.g
  sa : A' * G + A * G' = y
  sb : B' * G + B * G' = x
  gc : Nat.gcd G G' = Nat.gcd x y
  gl : G < 2 ^ 63
  gl' : G' < 2 ^ 63
  al : A ≤ max 1 y
  al' : A' ≤ y

theorem XInv.step {x y : Nat} {s : XgcdSt} {A A' B B' G G' : Nat} {e : Int} (hx : x < 2 ^ 63) (hy : y < 2 ^ 63)
    (I : XInv x y s A A' B B' G G' e) (h0 : 0 < G') :
    ∃ s', xgcdStep s = .ok s' ∧ XInv x y s' A' (A + G / G' * A') B' (B + G / G' * B') G' (G % G') (-e) := by
  obtain ⟨he, h1, h2, h3, h4, h5, h6, bz, bz', sa, sb, gc, gl, gl', al, al'⟩ := I
  have hk : G / G' * G' + G % G' = G := Nat.div_add_mod' G G'
  have hkle : G / G' ≤ G := Nat.div_le_self _ _
  generalize hK : G / G' = k at *
  generalize hM : G % G' = m at *
  have hA : A + k * A' ≤ y := by
    refine Nat.le_trans (Nat.le_mul_of_pos_right _ h0) ?_
    calc (A + k * A') * G' = A' * (k * G') + A * G' := by ring
      _ ≤ A' * G + A * G' := Nat.add_le_add_right (Nat.mul_le_mul_left _ (by omega)) _
      _ = y := sa
  have hB : B + k * B' ≤ x := by
    refine Nat.le_trans (Nat.le_mul_of_pos_right _ h0) ?_
    calc (B + k * B') * G' = B' * (k * G') + B * G' := by ring
      _ ≤ B' * G + B * G' := Nat.add_le_add_right (Nat.mul_le_mul_left _ (by omega)) _
      _ = x := sb
  rw [pow63] at hx hy gl gl'
  have hq : s.old_g.tdiv s.g = k := by
    rw [h5, h6, ← hK]; exact (Int.ofNat_tdiv G G').symm ▸ rfl
  have eqa : (k : Int) * s.a = -(e * (k * A' : Nat)) := by rw [h2]; push_cast; ring
  have ea : s.old_a - -(e * (k * A' : Nat)) = e * (A + k * A' : Nat) := by rw [h1]; push_cast; ring
  have eqb : (k : Int) * s.b = e * (k * B' : Nat) := by rw [h4]; push_cast; ring
  have eb : s.old_b - e * (k * B' : Nat) = -(e * (B + k * B' : Nat)) := by rw [h3]; push_cast; ring
  have eqg : (k : Int) * s.g = (k * G' : Nat) := by rw [h6]; push_cast; ring
  have eg : s.old_g - (k * G' : Nat) = (m : Int) := by rw [h5]; omega
  have step : xgcdStep s = .ok ⟨s.a, e * (A + k * A' : Nat), s.b, -(e * (B + k * B' : Nat)), s.g, m⟩ := by
    unfold xgcdStep
    rw [hq, i64_ok (by omega) (by omega), Res.ok_bind, eqa,
      i64_ok (by rcases he with rfl | rfl <;> omega) (by rcases he with rfl | rfl <;> omega), Res.ok_bind, ea,
      i64_ok (by rcases he with rfl | rfl <;> omega) (by rcases he with rfl | rfl <;> omega), Res.ok_bind, eqb,
      i64_ok (by rcases he with rfl | rfl <;> omega) (by rcases he with rfl | rfl <;> omega), Res.ok_bind, eb,
      i64_ok (by rcases he with rfl | rfl <;> omega) (by rcases he with rfl | rfl <;> omega), Res.ok_bind, eqg,
      i64_ok (by omega) (by omega), Res.ok_bind, eg, i64_ok (by omega) (by omega), Res.ok_bind]
  refine ⟨_, step, ?_⟩
  refine ⟨by rcases he with rfl | rfl <;> simp, ?_, ?_, ?_, ?_, h6, rfl, bz', ?_, ?_, ?_, ?_, ?_, ?_, ?_, hA⟩
  · rw [h2]; ring
  · ring
  · rw [h4]; ring
  · ring
  · rw [← ea, ← eb, ← eg, ← eqa, ← eqb, ← eqg]
    linear_combination bz - (k : Int) * bz'
  · rw [← sa, ← hk]; ring
  · rw [← sb, ← hk]; ring
  · rw [← gc, ← hM, Nat.gcd_comm, ← Nat.gcd_rec, Nat.gcd_comm]
  · rw [pow63]; omega
  · rw [pow63]; omega
  · omega

theorem XInv.loop {x y : Nat} (hx : x < 2 ^ 63) (hy : y < 2 ^ 63) : ∀ (n : Nat) {s : XgcdSt} {A A' B B' G G' : Nat} {e : Int},
    XInv x y s A A' B B' G G' e → G' < n →
    ∃ s' A A' B B' G e, xgcdLoop n s = .ok s' ∧ XInv x y s' A A' B B' G 0 e := by
  intro n
  induction n with
  | zero => intro s A A' B B' G G' e I h; omega
  | succ n ih =>
    intro s A A' B B' G G' e I h
    unfold xgcdLoop
    by_cases h0 : G' = 0
    · subst h0
      have : s.g = 0 := by rw [I.h6]; rfl
      simp only [this, ne_eq, not_true_eq_false, if_false]
      exact ⟨s, A, A', B, B', G, e, rfl, I⟩
    · have hg : s.g ≠ 0 := by rw [I.h6]; exact_mod_cast h0
      obtain ⟨s', h1, I'⟩ := I.step hx hy (by omega)
      rw [if_pos hg, h1, Res.ok_bind]
      exact ih I' (by have := Nat.mod_lt G (show 0 < G' by omega); omega)

theorem toInt_small {x : U64} (h : x.toNat < 2 ^ 63) : x.toInt = x.toNat := by
  rw [BitVec.toInt_eq_toNat_of_lt]
  rw [pow63] at h; omega

/-- `xgcd` terminates without overflow and returns Bézout coefficients of the gcd, of bounded size. -/
theorem xgcd_spec {x y : U64} (hx : x.toNat < 2 ^ 63) (hy : y.toNat < 2 ^ 63) :
    ∃ a b : Int, xgcd x y = .ok (a, b, (Nat.gcd x.toNat y.toNat : Int)) ∧
      x.toNat * a + y.toNat * b = (Nat.gcd x.toNat y.toNat : Int) ∧ a.natAbs ≤ max 1 y.toNat := by
  have I : XInv x.toNat y.toNat ⟨1, 0, 0, 1, x.toInt, y.toInt⟩ 1 0 0 1 x.toNat y.toNat 1 := by
    constructor <;> simp [toInt_small hx, toInt_small hy]
    · exact hx
    · exact hy
  obtain ⟨s', A, A', B, B', G, e, h1, I'⟩ := I.loop hx hy (y.toNat + 2) (by omega)
  have hG : G = Nat.gcd x.toNat y.toNat := by rw [← I'.gc, Nat.gcd_zero_right]
  refine ⟨s'.old_a, s'.old_b, ?_, ?_, ?_⟩
  · unfold xgcd
    rw [h1, Res.ok_bind, I'.h5, hG]
  · rw [I'.bz, I'.h5, hG]
  · rw [I'.h1]
    have := I'.al
    rcases I'.he with rfl | rfl <;> omega

namespace Zq

theorem Q_toInt : Q.toInt = 549824583172097 := by
  rw [toInt_small (by rw [Q_toNat]; exact q_lt), Q_toNat]; rfl

theorem inv_spec {x : Zq} (hx : x.Can) :
    ∃ r f, x.inv = .ok (r, f) ∧ (f = true ↔ Nat.Coprime x.raw.toNat q) ∧ r.Can ∧
      (f = true → r.toZ * x.toZ = 1) ∧ (f = false → r = zero) := by
  unfold Can at hx
  by_cases h0 : x.raw = 0
  · refine ⟨zero, false, by unfold inv; rw [if_pos h0]; rfl, ?_, zero_can, by simp, by simp⟩
    have : x.raw.toNat = 0 := by rw [h0]; rfl
    rw [this]
    simp only [Nat.Coprime, Nat.gcd_zero_left]
    decide
  · obtain ⟨a, b, h1, h2, h3⟩ := xgcd_spec (x := x.raw) (y := Q)
      (Nat.lt_trans hx q_lt) (by rw [Q_toNat]; exact q_lt)
    rw [Q_toNat] at h1 h2 h3
    by_cases hg : Nat.gcd x.raw.toNat q = 1
    · have h3' : a.natAbs ≤ 549824583172097 := by
        refine Nat.le_trans h3 (by decide)
      let a1 : Int := a + (if a < 0 then (Q.toInt : Int) else 0)
      let a2 : Int := a1 - (if a1 ≥ Q.toInt then (Q.toInt : Int) else 0)
      have b1 : 0 ≤ a1 ∧ a1 ≤ 549824583172097 := by
        show 0 ≤ (a + _ : Int) ∧ (a + _ : Int) ≤ _
        rw [Q_toInt]; split <;> omega
      have b2 : 0 ≤ a2 ∧ a2 < 549824583172097 := by
        show 0 ≤ (a1 - _ : Int) ∧ (a1 - _ : Int) < _
        rw [Q_toInt]; split <;> omega
      have e1 : (a1 : ZMod q) = (a : ZMod q) := by
        have : ((549824583172097 : ℤ) : ZMod q) = 0 := by
          have := ZMod.natCast_self q; unfold q at *; exact_mod_cast this
        show ((a + _ : Int) : ZMod q) = _
        rw [Q_toInt]
        split <;> push_cast [this] <;> simp
        exact_mod_cast this
      have e2 : (a2 : ZMod q) = (a : ZMod q) := by
        have : ((549824583172097 : ℤ) : ZMod q) = 0 := by
          have := ZMod.natCast_self q; unfold q at *; exact_mod_cast this
        rw [← e1]
        show ((a1 - _ : Int) : ZMod q) = _
        rw [Q_toInt]
        split <;> push_cast [this] <;> simp
        exact_mod_cast this
      have hn : (BitVec.ofInt 64 a2).toNat = a2.toNat := by
        rw [BitVec.toNat_ofInt]
        omega
      refine ⟨⟨BitVec.ofInt 64 a2⟩, true, ?_, ?_, ?_, ?_, by simp⟩
      · unfold inv
        rw [if_neg h0, h1, Res.ok_bind]
        simp only [hg, Nat.cast_one, ne_eq, not_true_eq_false, if_false]
        rw [i64_ok (by show _ ≤ a1; omega) (by show a1 < _; omega), Res.ok_bind]
        rw [i64_ok (by show _ ≤ a2; omega) (by show a2 < _; omega), Res.ok_bind]
      · simp only [Nat.Coprime, hg]
      · show (BitVec.ofInt 64 a2).toNat < q
        rw [hn]; unfold q; omega
      · intro _
        have e3 : (⟨BitVec.ofInt 64 a2⟩ : Zq).toZ = (a : ZMod q) := by
          show (((BitVec.ofInt 64 a2).toNat : ℕ) : ZMod q) = _
          rw [hn, ← e2]
          have : ((a2.toNat : ℤ) : ZMod q) = (a2 : ZMod q) := by
            rw [Int.toNat_of_nonneg b2.1]
          exact_mod_cast this
        rw [e3]
        have h4 := congrArg (fun z : ℤ => (z : ZMod q)) h2
        simp only [hg] at h4
        push_cast at h4
        rw [ZMod.natCast_self, zero_mul, add_zero] at h4
        rw [mul_comm]
        exact h4
    · refine ⟨zero, false, ?_, ?_, zero_can, by simp, by simp⟩
      · unfold inv
        rw [if_neg h0, h1, Res.ok_bind]
        have : ((Nat.gcd x.raw.toNat q : ℕ) : ℤ) ≠ 1 := by exact_mod_cast hg
        simp only [if_pos this]; rfl
      · simp only [Nat.Coprime, hg]; simp

theorem powStep_foldl {x : Zq} (hx : x.Can) (n : U64) : ∀ (c k : Nat) (b r : Zq), b.Can → r.Can →
    b.toZ = x.toZ ^ (2 ^ k) → r.toZ = x.toZ ^ (n.toNat % 2 ^ (k + 1)) →
    ((List.range' (k + 1) c).foldl (fun s i => powStep n i s) (b, r)).2.Can ∧
    ((List.range' (k + 1) c).foldl (fun s i => powStep n i s) (b, r)).2.toZ = x.toZ ^ (n.toNat % 2 ^ (k + 1 + c)) := by
  intro c
  induction c with
  | zero => intro k b r hb hr h1 h2; exact ⟨hr, h2⟩
  | succ c ih =>
    intro k b r hb hr h1 h2
    rw [List.range'_succ, List.foldl_cons]
    have hb2 := mul_can hb hb
    have e1 : (b * b).toZ = x.toZ ^ (2 ^ (k + 1)) := by
      rw [mul_toZ hb hb, h1, ← pow_add]; congr 1; rw [Nat.pow_succ]; omega
    have hbit : ((n >>> (k + 1)) &&& 1).toNat = n.toNat / 2 ^ (k + 1) % 2 := by
      rw [BitVec.toNat_and, BitVec.toNat_ushiftRight, Nat.shiftRight_eq_div_pow]
      exact Nat.and_one_is_mod _
    have hexp : n.toNat % 2 ^ (k + 1 + 1) = n.toNat % 2 ^ (k + 1) + 2 ^ (k + 1) * (n.toNat / 2 ^ (k + 1) % 2) := by
      rw [Nat.pow_succ 2 (k+1), Nat.mod_mul]
    have e : k + 1 + (c + 1) = k + 1 + 1 + c := by omega
    rw [e]
    show _ ∧ _ = _
    by_cases hz : (n >>> (k + 1)) &&& 1 = 0
    · have hz' : n.toNat / 2 ^ (k + 1) % 2 = 0 := by rw [← hbit, hz]; rfl
      have : powStep n (k + 1) (b, r) = (b * b, r * one) := by
        unfold powStep; simp only [hz, if_true]
      rw [this]
      refine ih (k + 1) _ _ hb2 (mul_can hr one_can) e1 ?_
      rw [mul_toZ hr one_can, h2, one_toZ, mul_one, hexp, hz', Nat.mul_zero]; rfl
    · have hz' : n.toNat / 2 ^ (k + 1) % 2 = 1 := by
        have h3 : n.toNat / 2 ^ (k + 1) % 2 ≠ 0 := by
          intro h; rw [← hbit] at h
          exact hz (BitVec.eq_of_toNat_eq h)
        omega
      have : powStep n (k + 1) (b, r) = (b * b, r * (b * b)) := by
        unfold powStep; simp only [hz, if_false]
      rw [this]
      refine ih (k + 1) _ _ hb2 (mul_can hr hb2) e1 ?_
      rw [mul_toZ hr hb2, h2, e1, hexp, hz', Nat.mul_one, ← pow_add]

theorem countlZero_le (n : U64) : countlZero n ≤ 64 := by unfold countlZero; split <;> omega

theorem lt_pow_bits (n : U64) : n.toNat < 2 ^ (64 - countlZero n) := by
  unfold countlZero
  split
  · next h => rw [h]; decide
  · next h =>
    have h0 : n.toNat ≠ 0 := by
      intro hh; exact h (BitVec.eq_of_toNat_eq hh)
    have h1 := Nat.lt_log2_self (n := n.toNat)
    have h2 : Nat.log2 n.toNat < 64 := (Nat.log2_lt h0).2 n.isLt
    have : 64 - (63 - n.toNat.log2) = n.toNat.log2 + 1 := by omega
    rw [this]; exact h1

theorem pow_spec {x : Zq} (hx : x.Can) (n : U64) : (x.pow n).Can ∧ (x.pow n).toZ = x.toZ ^ n.toNat := by
  unfold pow
  generalize hr : (if n &&& 1 = 0 then one else x) = r
  have hbit : (n &&& 1).toNat = n.toNat % 2 := by
    rw [BitVec.toNat_and]; exact Nat.and_one_is_mod _
  have hrr : r.Can ∧ r.toZ = x.toZ ^ (n.toNat % 2 ^ (0 + 1)) := by
    rw [Nat.zero_add, Nat.pow_one]
    split at hr
    · next h =>
      rw [h] at hbit
      rw [← hbit, ← hr]
      exact ⟨one_can, by simp⟩
    · next h =>
      have h3 : n.toNat % 2 ≠ 0 := by
        intro hh; rw [← hbit] at hh; exact h (BitVec.eq_of_toNat_eq hh)
      have h4 : n.toNat % 2 = 1 := by omega
      rw [h4, ← hr]; exact ⟨hx, by rw [pow_one]⟩
  have h := powStep_foldl hx n (64 - countlZero n - 1) 0 x r hx hrr.1 (by simp) hrr.2
  refine ⟨h.1, ?_⟩
  rw [h.2]
  congr 1
  apply Nat.mod_eq_of_lt
  refine Nat.lt_of_lt_of_le (lt_pow_bits n) (Nat.pow_le_pow_right (by norm_num) (by omega))

theorem shl_spec {x : Zq} {off : Nat} (ho : off < 64) :
    x.shl off = .ok ⟨barrettReduce (U128.from (x.raw <<< off))⟩ ∧
    (barrettReduce (U128.from (x.raw <<< off))).toNat = (x.raw.toNat * 2 ^ off % 2 ^ 64) % q := by
  constructor
  · unfold shl shl64; rw [if_pos ho]; rfl
  · rw [barrettReduce_toNat, U128.val_from, BitVec.toNat_shiftLeft, Nat.shiftLeft_eq]
    rw [U128.val_from]
    exact Nat.lt_of_lt_of_le (BitVec.isLt _) (by norm_num)

end Zq
end Raccoon
