import Verif.Spec.Sig
import Verif.Model.Api
import Verif.Proofs.Field
import Verif.Proofs.FieldInv
import Verif.Proofs.BitIO
/-!
# The norm check
-/
namespace Raccoon
attribute [-instance] Monoid.toNPow

theorem ofInt_natCast_toNat {n : Nat} (h : n < 9223372036854775808) : (BitVec.ofInt 64 (n : Int)).toNat = n := by
  rw [BitVec.toNat_ofInt]
  show ((n : Int) % ((2 ^ 64 : Nat) : Int)).toNat = n
  rw [pow64]; omega

theorem hNorm_fold : ∀ (h : List Int) (s : U64 × U64), (∀ x ∈ h, x.natAbs < 2 ^ 63) →
    ∃ s', h.foldlM hNormStep s = .ok s' ∧ (∀ B : Nat, s'.1.toNat ≤ B ↔ s.1.toNat ≤ B ∧ ∀ x ∈ h, x.natAbs ≤ B) ∧
      s'.2.toNat = (s.2.toNat + sqSum h) % 2 ^ 64 := by
  intro h
  induction h with
  | nil =>
    intro s _
    refine ⟨s, rfl, fun B => by simp, ?_⟩
    show _ = (s.2.toNat + 0) % _
    rw [Nat.add_zero, Nat.mod_eq_of_lt s.2.isLt]
  | cons x h ih =>
    intro s hx
    have h63 := hx x (by simp)
    rw [pow63] at h63
    obtain ⟨a, ha⟩ : ∃ a : U64, a = BitVec.ofInt 64 ((x.natAbs : Nat) : Int) := ⟨_, rfl⟩
    have ha' : a.toNat = x.natAbs := by rw [ha]; exact ofInt_natCast_toNat h63
    have e : hNormStep s x = .ok (if s.1 < a then a else s.1, s.2 + a * a) := by
      unfold hNormStep
      rw [i64_ok (by omega) (by omega), Res.ok_bind, ← ha]
    obtain ⟨s', e', h1, h2⟩ := ih (if s.1 < a then a else s.1, s.2 + a * a) fun y hy => hx y (List.mem_cons_of_mem _ hy)
    refine ⟨s', ?_, ?_, ?_⟩
    · rw [List.foldlM_cons, e]; exact e'
    · intro B
      rw [h1]
      have hm : (if s.1 < a then a else s.1).toNat ≤ B ↔ s.1.toNat ≤ B ∧ x.natAbs ≤ B := by
        rw [← ha']
        by_cases hlt : s.1 < a
        · rw [if_pos hlt]; have : s.1.toNat < a.toNat := hlt; omega
        · rw [if_neg hlt]; have : ¬ s.1.toNat < a.toNat := hlt; omega
      show (if s.1 < a then a else s.1).toNat ≤ B ∧ _ ↔ _
      rw [hm]
      constructor
      · rintro ⟨⟨a1, a2⟩, a3⟩
        exact ⟨a1, fun y hy => (List.mem_cons.1 hy).elim (fun e => e ▸ a2) (a3 y)⟩
      · rintro ⟨a1, a2⟩
        exact ⟨⟨a1, a2 x (by simp)⟩, fun y hy => a2 y (List.mem_cons_of_mem _ hy)⟩
    · rw [h2]
      show ((s.2 + a * a).toNat + sqSum h) % 2 ^ 64 = (s.2.toNat + (x.natAbs * x.natAbs + sqSum h)) % 2 ^ 64
      rw [BitVec.toNat_add, BitVec.toNat_mul, ha']
      simp only [Nat.add_mod_mod, Nat.mod_add_mod, Nat.add_assoc]

/-- Conversion of a centered coefficient and its absolute value. -/
theorem zAbs {x : Int} (hx : x.natAbs ≤ 274912291586048) :
    ∃ v, fromCenteredToZq x = .ok v ∧ ((if v.gt ⟨Q / 2⟩ then -v else v : Zq)).raw.toNat = x.natAbs := by
  have hq : q = 549824583172097 := rfl
  have hQi : (Q.toInt : Int) = 549824583172097 := by decide
  have hQ2 : (Q / 2).toNat = 274912291586048 := by decide
  unfold fromCenteredToZq
  by_cases hneg : x < 0
  · dsimp only
    rw [if_pos hneg, BitVec.and_allOnes, hQi, i64_ok (by omega) (by omega), Res.ok_bind]
    obtain ⟨n, hn⟩ : ∃ n : Nat, x + 549824583172097 = (n : Int) := ⟨(x + 549824583172097).toNat, by omega⟩
    rw [hn]
    have hr := ofInt_natCast_toNat (n := n) (by omega)
    refine ⟨_, rfl, ?_⟩
    have hgt : Zq.gt ⟨BitVec.ofInt 64 (n : Int)⟩ ⟨Q / 2⟩ = true := by
      unfold Zq.gt
      apply decide_eq_true
      show (Q / 2).toNat < (BitVec.ofInt 64 (n : Int)).toNat
      rw [hr, hQ2]; omega
    rw [if_pos hgt, Zq.neg_raw (by show (BitVec.ofInt 64 (n : Int)).toNat ≤ q; omega)]
    show q - (BitVec.ofInt 64 (n : Int)).toNat = _
    omega
  · dsimp only
    rw [if_neg hneg, show Q &&& (0 : U64) = 0 by decide]
    show ∃ v, (i64 (x + (0 : Int)) >>= _) = _ ∧ _
    rw [i64_ok (by omega) (by omega), Res.ok_bind]
    obtain ⟨n, hn⟩ : ∃ n : Nat, x + 0 = (n : Int) := ⟨x.toNat, by omega⟩
    rw [hn]
    have hr := ofInt_natCast_toNat (n := n) (by omega)
    refine ⟨_, rfl, ?_⟩
    have hgt : ¬ Zq.gt ⟨BitVec.ofInt 64 (n : Int)⟩ ⟨Q / 2⟩ = true := by
      unfold Zq.gt
      rw [decide_eq_true_iff]
      show ¬ (Q / 2).toNat < (BitVec.ofInt 64 (n : Int)).toNat
      rw [hr, hQ2]; omega
    rw [if_neg hgt]
    show (BitVec.ofInt 64 (n : Int)).toNat = _
    omega

theorem zNorm_fold : ∀ (z : List Int) (s : Zq × Zq), (∀ x ∈ z, x.natAbs ≤ 274912291586048) → s.2.raw.toNat + scaledSqSum z < q →
    ∃ s', z.foldlM zNormStep s = .ok s' ∧ (∀ B : Nat, s'.1.raw.toNat ≤ B ↔ s.1.raw.toNat ≤ B ∧ ∀ x ∈ z, x.natAbs ≤ B) ∧
      s'.2.raw.toNat = s.2.raw.toNat + scaledSqSum z := by
  have hq : q = 549824583172097 := rfl
  intro z
  induction z with
  | nil => intro s _ _; exact ⟨s, rfl, fun B => by simp, rfl⟩
  | cons x z ih =>
    intro s hx hs
    replace hs : s.2.raw.toNat + (x.natAbs / 2 ^ 32 * (x.natAbs / 2 ^ 32) + scaledSqSum z) < q := hs
    have hxb := hx x (by simp)
    obtain ⟨v, e1, e2⟩ := zAbs hxb
    obtain ⟨a, ha⟩ : ∃ a : Zq, a = (if v.gt ⟨Q / 2⟩ then -v else v : Zq) := ⟨_, rfl⟩
    rw [← ha] at e2
    have hsh : (⟨a.raw >>> 32⟩ : Zq).raw.toNat = x.natAbs / 2 ^ 32 := by
      show (a.raw >>> 32).toNat = _
      rw [BitVec.toNat_ushiftRight, Nat.shiftRight_eq_div_pow, e2]
    obtain ⟨w, hw⟩ : ∃ w, w = x.natAbs / 2 ^ 32 := ⟨_, rfl⟩
    rw [← hw] at hsh hs
    have hwb : w ≤ 64008 := by rw [hw, pow32]; omega
    have hww : w * w ≤ 64008 * 64008 := Nat.mul_le_mul hwb hwb
    have hmul : ((⟨a.raw >>> 32⟩ : Zq) * ⟨a.raw >>> 32⟩).raw.toNat = w * w := by
      rw [Zq.mul_raw (by unfold Zq.Can; omega) (by unfold Zq.Can; omega), hsh, Nat.mod_eq_of_lt (by omega)]
    have hadd : (s.2 + (⟨a.raw >>> 32⟩ : Zq) * ⟨a.raw >>> 32⟩).raw.toNat = s.2.raw.toNat + w * w := by
      rw [Zq.add_raw (by omega), hmul, Nat.mod_eq_of_lt (by omega)]
    have e : zNormStep s x = .ok (Zq.max s.1 a, s.2 + (⟨a.raw >>> 32⟩ : Zq) * ⟨a.raw >>> 32⟩) := by
      unfold zNormStep
      dsimp only
      rw [e1, Res.ok_bind, ← ha]
      unfold Zq.shr
      rw [shr64_ok (by omega)]
      rfl
    obtain ⟨s', e', h1, h2⟩ := ih (Zq.max s.1 a, s.2 + (⟨a.raw >>> 32⟩ : Zq) * ⟨a.raw >>> 32⟩) (fun y hy => hx y (List.mem_cons_of_mem _ hy)) (by
      show (s.2 + _ : Zq).raw.toNat + _ < q
      rw [hadd]; omega)
    refine ⟨s', ?_, ?_, ?_⟩
    · rw [List.foldlM_cons, e]; exact e'
    · intro B
      rw [h1]
      have hm : (Zq.max s.1 a).raw.toNat ≤ B ↔ s.1.raw.toNat ≤ B ∧ x.natAbs ≤ B := by
        rw [← e2]
        unfold Zq.max
        by_cases hlt : s.1.raw < a.raw
        · rw [if_pos hlt]; have : s.1.raw.toNat < a.raw.toNat := hlt; omega
        · rw [if_neg hlt]; have : ¬ s.1.raw.toNat < a.raw.toNat := hlt; omega
      show (Zq.max s.1 a).raw.toNat ≤ B ∧ _ ↔ _
      rw [hm]
      constructor
      · rintro ⟨⟨a1, a2⟩, a3⟩
        exact ⟨a1, fun y hy => (List.mem_cons.1 hy).elim (fun e => e ▸ a2) (a3 y)⟩
      · rintro ⟨a1, a2⟩
        exact ⟨⟨a1, a2 x (by simp)⟩, fun y hy => a2 y (List.mem_cons_of_mem _ hy)⟩
    · rw [h2]
      show (s.2 + _ : Zq).raw.toNat + _ = s.2.raw.toNat + (x.natAbs / 2 ^ 32 * (x.natAbs / 2 ^ 32) + scaledSqSum z)
      rw [hadd, ← hw]; omega

theorem scaledSqSum_le : ∀ (z : List Int), (∀ x ∈ z, x.natAbs ≤ 274912291586048) → scaledSqSum z ≤ z.length * 4097024064 := by
  intro z
  induction z with
  | nil => intro _; exact Nat.le_refl _
  | cons x z ih =>
    intro hx
    have h1 := ih fun y hy => hx y (List.mem_cons_of_mem _ hy)
    have h2 := hx x (by simp)
    show x.natAbs / 2 ^ 32 * (x.natAbs / 2 ^ 32) + scaledSqSum z ≤ _
    have hw : x.natAbs / 2 ^ 32 ≤ 64008 := by rw [pow32]; omega
    have := Nat.mul_le_mul hw hw
    rw [List.length_cons]; omega

theorem sqSum_le {B : Nat} : ∀ (h : List Int), (∀ x ∈ h, x.natAbs ≤ B) → sqSum h ≤ h.length * (B * B) := by
  intro h
  induction h with
  | nil => intro _; exact Nat.zero_le _
  | cons x h ih =>
    intro hx
    have h1 := ih fun y hy => hx y (List.mem_cons_of_mem _ hy)
    have h2 := hx x (by simp)
    show x.natAbs * x.natAbs + sqSum h ≤ _
    have := Nat.mul_le_mul h2 h2
    rw [List.length_cons, Nat.add_mul]; omega

instance (νw Binf B22 : Nat) (h z : List Int) : Decidable (NormsOK νw Binf B22 h z) := by unfold NormsOK; infer_instance

theorem checkBounds_eq (Binf B22 : U64) (hB : Binf.toNat < 2 ^ 46) (s : Sig) (hh : ∀ x ∈ s.h, x.natAbs < 2 ^ 63) (hhl : s.h.length ≤ 8192)
    (hz : ∀ x ∈ s.z, x.natAbs ≤ 274912291586048) (hzl : s.z.length ≤ 8192) :
    s.checkBounds 44 Binf B22 = .ok (decide (NormsOK 44 Binf.toNat B22.toNat s.h s.z)) := by
  have hq : q = 549824583172097 := rfl
  have h44 : (2 : Nat) ^ 44 = 17592186044416 := by norm_num
  have h46 : (2 : Nat) ^ 46 = 70368744177664 := by norm_num
  have h24 : (2 : Nat) ^ (2 * 44 - 64) = 16777216 := by norm_num
  rw [h46] at hB
  have hzs := scaledSqSum_le s.z hz
  obtain ⟨⟨a, b⟩, e1, i1, j1⟩ := hNorm_fold s.h (0, 0) hh
  obtain ⟨⟨c, d⟩, e2, i2, j2⟩ := zNorm_fold s.z (Zq.zero, Zq.zero) hz (by show 0 + _ < q; omega)
  have hBs : (Binf >>> 44).toNat = Binf.toNat / 2 ^ 44 := by rw [BitVec.toNat_ushiftRight, Nat.shiftRight_eq_div_pow]
  replace i1 : a.toNat ≤ Binf.toNat / 2 ^ 44 ↔ _ := i1 _
  replace i2 : c.raw.toNat ≤ Binf.toNat ↔ _ := i2 _
  replace j1 : b.toNat = (0 + sqSum s.h) % 2 ^ 64 := j1
  replace j2 : d.raw.toNat = 0 + scaledSqSum s.z := j2
  unfold Sig.checkBounds
  rw [e1, Res.ok_bind]
  show (List.foldlM zNormStep (Zq.zero, Zq.zero) s.z >>= _) = _
  rw [e2, Res.ok_bind]
  show (if a > Binf >>> 44 then _ else _ : Res Bool) = _
  by_cases c1 : a > Binf >>> 44
  · rw [if_pos c1]
    replace c1 : (Binf >>> 44).toNat < a.toNat := c1
    rw [decide_eq_false]
    intro hn
    have := i1.2 ⟨Nat.zero_le _, hn.1⟩
    omega
  · rw [if_neg c1]
    replace c1 : ¬ (Binf >>> 44).toNat < a.toNat := c1
    have n1 := (i1.1 (by omega)).2
    by_cases c2 : c.gt ⟨Binf⟩
    · rw [if_pos c2]
      unfold Zq.gt at c2
      rw [decide_eq_true_iff] at c2
      replace c2 : Binf.toNat < c.raw.toNat := c2
      rw [decide_eq_false]
      intro hn
      have := i2.2 ⟨Nat.zero_le _, hn.2.1⟩
      omega
    · rw [if_neg c2]
      unfold Zq.gt at c2
      rw [decide_eq_true_iff] at c2
      replace c2 : ¬ Binf.toNat < c.raw.toNat := c2
      have n2 := (i2.1 (by omega)).2
      have hB3 : Binf.toNat / 2 ^ 44 ≤ 3 := by rw [h44]; omega
      have hsq := sqSum_le (B := 3) s.h fun x hx => Nat.le_trans (n1 x hx) hB3
      have hb : b.toNat = sqSum s.h := by rw [j1, pow64]; omega
      have hsc : (b * ((1 : U64) <<< (2 * 44 - 64))).toNat = 16777216 * sqSum s.h := by
        rw [BitVec.toNat_mul, hb, show ((1 : U64) <<< (2 * 44 - 64)).toNat = 16777216 by decide, pow64]; omega
      have hadd : ((⟨b * ((1 : U64) <<< (2 * 44 - 64))⟩ : Zq) + d).raw.toNat = 16777216 * sqSum s.h + scaledSqSum s.z := by
        rw [Zq.add_raw (by show (b * ((1 : U64) <<< (2 * 44 - 64))).toNat + _ < _; omega)]
        show ((b * ((1 : U64) <<< (2 * 44 - 64))).toNat + _) % q = _
        rw [hsc, j2, Nat.mod_eq_of_lt (by omega)]; omega
      show (if ((⟨b * ((1 : U64) <<< (2 * 44 - 64))⟩ : Zq) + d).gt ⟨B22⟩ then _ else _ : Res Bool) = _
      obtain ⟨y, hy⟩ : ∃ y, y = (⟨b * ((1 : U64) <<< (2 * 44 - 64))⟩ : Zq) + d := ⟨_, rfl⟩
      rw [← hy] at hadd ⊢
      by_cases c3 : y.gt ⟨B22⟩
      · rw [if_pos c3]
        unfold Zq.gt at c3
        rw [decide_eq_true_iff] at c3
        replace c3 : B22.toNat < y.raw.toNat := c3
        rw [decide_eq_false]
        intro hn
        have := hn.2.2
        rw [h24] at this
        omega
      · rw [if_neg c3]
        unfold Zq.gt at c3
        rw [decide_eq_true_iff] at c3
        replace c3 : ¬ B22.toNat < y.raw.toNat := c3
        rw [decide_eq_true]
        refine ⟨n1, n2, ?_⟩
        rw [h24]; omega

end Raccoon
