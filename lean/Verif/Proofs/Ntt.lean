import Verif.Proofs.NttLoop
import Verif.Proofs.FieldInv
import Mathlib.Tactic.LinearCombination
import Mathlib.Algebra.BigOperators.Ring.Finset
/-!
# Number-theoretic transform
-/
namespace Raccoon
attribute [-instance] Monoid.toNPow
open Finset

/-- Computable form of `bitrev9`. -/
def br9 (v : Nat) : Nat :=
  v % 2 * 256 + v / 2 % 2 * 128 + v / 4 % 2 * 64 + v / 8 % 2 * 32 + v / 16 % 2 * 16 + v / 32 % 2 * 8 + v / 64 % 2 * 4 +
    v / 128 % 2 * 2 + v / 256 % 2

theorem bitrev9_eq (v : Nat) : bitrev9 v = br9 v := by
  simp [bitrev9, br9, Finset.sum_range_succ]

theorem bitRev_toNat : ∀ i, i < 512 → (bitRev (BitVec.ofNat 64 i)).toNat = br9 i := by decide +kernel

theorem br9_lt : ∀ i, i < 512 → br9 i < 512 := by decide +kernel

theorem zeta_can : zeta.Can := by unfold Zq.Can; decide
theorem zeta_toZ : zeta.toZ = zetaZ := by
  unfold Zq.toZ zetaZ zeta
  have : (358453792785495 : U64).toNat = 358453792785495 := by decide
  show (((358453792785495 : U64).toNat : ℕ) : ZMod q) = _
  rw [this]; norm_cast

theorem zeta_512 : zetaZ ^ 512 = -1 := by
  have h := (Zq.pow_spec zeta_can 512).2
  rw [zeta_toZ] at h
  have e : (512 : U64).toNat = 512 := by decide
  rw [e] at h
  rw [← h]
  have e2 : Zq.pow zeta 512 = ⟨549824583172096⟩ := by decide +kernel
  rw [e2]
  have e3 : Zq.toZ ⟨549824583172096⟩ + 1 = 0 := by
    unfold Zq.toZ
    have : (549824583172096 : U64).toNat = 549824583172096 := by decide
    show (((549824583172096 : U64).toNat : ℕ) : ZMod q) + 1 = 0
    rw [this]
    have h2 : ((549824583172096 + 1 : ℕ) : ZMod q) = 0 := ZMod.natCast_self q
    push_cast at h2 ⊢
    exact h2
  exact eq_neg_of_add_eq_zero_left e3

theorem zeta_1024 : zetaZ ^ 1024 = 1 := by
  have : (1024 : ℕ) = 512 * 2 := by norm_num
  rw [this, pow_mul, zeta_512]; norm_num

theorem zeta_mod {a b : Nat} (h : a % 1024 = b % 1024) : zetaZ ^ a = zetaZ ^ b := by
  rw [← Nat.div_add_mod a 1024, ← Nat.div_add_mod b 1024, pow_add, pow_add, pow_mul, pow_mul, zeta_1024, one_pow, one_pow, h]

theorem zeta_unit (a : Nat) : IsUnit (zetaZ ^ a) := by
  apply IsUnit.pow
  refine IsUnit.of_mul_eq_one (zetaZ ^ 1023) ?_
  rw [← pow_succ', zeta_1024]

instance : Fact (1 < q) := ⟨by decide⟩

/-! ### Tables -/

theorem genPowers_get {n b j : Nat} (h : j < n) :
    (genPowers n b)[j] = Zq.pow zeta (bitRev (BitVec.ofNat 64 (b + j))) := by
  simp [genPowers]

theorem POWERS_get {k : Nat} (h : k < 512) : POWERS[k] = Zq.pow zeta (bitRev (BitVec.ofNat 64 k)) := by
  unfold POWERS
  rw [Vector.getElem_append]
  split
  · next h1 =>
    rw [Vector.getElem_append]
    split
    · next h2 =>
      rw [Vector.getElem_append]
      split
      · next h3 => rw [genPowers_get, Nat.zero_add]
      · next h3 => rw [genPowers_get]; exact congrArg (fun a => Zq.pow zeta (bitRev (BitVec.ofNat 64 a))) (by omega)
    · next h2 => rw [genPowers_get]; exact congrArg (fun a => Zq.pow zeta (bitRev (BitVec.ofNat 64 a))) (by omega)
  · next h1 => rw [genPowers_get]; exact congrArg (fun a => Zq.pow zeta (bitRev (BitVec.ofNat 64 a))) (by omega)

theorem POWERS_spec {k : Nat} (h : k < 512) : (POWERS[k]).Can ∧ (POWERS[k]).toZ = zetaZ ^ br9 k := by
  have := Zq.pow_spec zeta_can (bitRev (BitVec.ofNat 64 k))
  rw [POWERS_get h]
  refine ⟨this.1, ?_⟩
  rw [this.2, bitRev_toNat k h, zeta_toZ]

theorem Zq.neg_can {a : Zq} (ha : a.Can) (h : a.toZ ≠ 0) : (-a).Can := by
  have ha' := ha
  unfold Zq.Can at *
  rw [Zq.neg_raw (by omega)]
  have : a.raw.toNat ≠ 0 := by
    intro hh; apply h; unfold Zq.toZ; rw [hh]; simp
  omega

theorem NEG_POWERS_spec {k : Nat} (h : k < 512) : (NEG_POWERS[k]).Can ∧ (NEG_POWERS[k]).toZ = -zetaZ ^ br9 k := by
  have := POWERS_spec h
  unfold NEG_POWERS
  rw [Vector.getElem_map]
  refine ⟨Zq.neg_can this.1 ?_, by rw [Zq.neg_toZ this.1, this.2]⟩
  rw [this.2]
  exact (zeta_unit _).ne_zero

namespace Poly

theorem Can.at0 {p : Poly} (h : p.Can) (i : Nat) : (p.at0 i).Can := by
  unfold Poly.at0
  split
  · exact h i _
  · exact Zq.zero_can

theorem can_of_at0 {p : Poly} (h : ∀ i, i < 512 → (p.at0 i).Can) : p.Can := by
  intro i hi
  have := h i hi
  rwa [at0_lt hi] at this

/-! ### Layers -/

theorem nttButterfly_eq {len : Nat} (hl : 0 < len) (z : Zq) (i : Nat) (f : Poly) :
    nttButterfly len z i f = bfly (fun z x y => x + z * y) (fun z x y => x - z * y) len z i f := by
  unfold nttButterfly bfly
  by_cases h : i + len < 512
  · have hi : i < 512 := by omega
    rw [dif_pos h, rd_ok h, Res.ok_bind, rd_ok hi, Res.ok_bind, wr_ok h, Res.ok_bind, rd_ok hi, Res.ok_bind, wr_ok hi,
      at0_lt hi, at0_lt h, Vector.getElem_set_ne _ _ (by omega)]
  · rw [dif_neg h]
    have : f.rd (i + len) = .ub := by unfold Vector.rd; rw [dif_neg h]
    rw [this]; rfl

theorem inttButterfly_eq {len : Nat} (hl : 0 < len) (z : Zq) (i : Nat) (f : Poly) :
    inttButterfly len z i f = bfly (fun _ x y => x + y) (fun z x y => (x - y) * z) len z i f := by
  unfold inttButterfly bfly
  by_cases h : i + len < 512
  swap
  · rw [dif_neg h]
    have e : f.rd (i + len) = .ub := by unfold Vector.rd; rw [dif_neg h]
    by_cases hi : i < 512
    · rw [rd_ok hi, Res.ok_bind, Res.ok_bind, e]; rfl
    · have e' : f.rd i = .ub := by unfold Vector.rd; rw [dif_neg hi]
      rw [e']; rfl
  have hi : i < 512 := by omega
  rw [dif_pos h, rd_ok hi, Res.ok_bind, Res.ok_bind, rd_ok h, Res.ok_bind, wr_ok hi, Res.ok_bind, rd_ok h, Res.ok_bind,
    wr_ok h, Res.ok_bind, rd_ok h, Res.ok_bind, wr_ok h, at0_lt hi, at0_lt h, Vector.getElem_set_ne _ _ (by omega)]
  congr 1
  apply ext_at0
  intro j hj
  rw [at0_set, at0_set, at0_set, at0_set, at0_set, Vector.getElem_set_self]
  by_cases c1 : j = i
  · subst c1
    rw [if_neg (by omega), if_neg (by omega), if_pos rfl, if_pos rfl]
  · by_cases c2 : j = i + len
    · rw [if_pos c2, if_neg c1, if_pos c2]
    · rw [if_neg c2, if_neg c2, if_neg c1, if_neg c1, if_neg c2]

theorem l_facts : ∀ l, l < 9 → 512 >>> (l + 1) = 2 ^ (8 - l) ∧ 2 ^ (8 - l) * 2 ^ (l + 1) = 512 ∧ 2 * 2 ^ l ∣ 512 ∧
    2 ^ (8 - l) ≤ 256 ∧ (512 >>> l) - 1 = 2 ^ (9 - l) - 1 ∧ 2 ^ (9 - l) = 2 * 2 ^ (8 - l) := by decide

/-- Twiddle of block `b` in forward layer `l`. -/
def twF (l b : Nat) : Zq := POWERS.getD (2 ^ (8 - l) + b) Zq.zero
/-- Twiddle of block `b` in inverse layer `l`. -/
def twI (l b : Nat) : Zq := NEG_POWERS.getD (2 ^ (9 - l) - 1 - b) Zq.zero

theorem blk_lt {l start : Nat} (hl : l < 9) (hs : start < 512) : start / 2 ^ (l + 1) < 2 ^ (8 - l) := by
  apply Nat.div_lt_of_lt_mul
  have := (l_facts l hl).2.1
  rw [Nat.mul_comm]; omega

theorem getD_lt {α : Type} {n : Nat} (v : Vector α n) {i : Nat} (d : α) (h : i < n) : v.getD i d = v[i] := by
  simp [Vector.getD, h]

theorem nttLayer_eq {l : Nat} (hl : l < 9) (f : Poly) :
    nttLayer l f = forLoop 0 512 (2 * 2 ^ l) (fun start g => forLoop start (start + 2 ^ l) 1
      (fun i g => bfly (fun z x y => x + z * y) (fun z x y => x - z * y) (2 ^ l) (twF l (start / (2 * 2 ^ l))) i g) g) f := by
  obtain ⟨f1, f2, f3, f4, f5, f6⟩ := l_facts l hl
  unfold nttLayer
  have hp : 0 < 2 ^ l := Nat.two_pow_pos l
  simp only [Nat.shiftLeft_eq, Nat.one_mul, Nat.pow_one, Nat.mul_comm (2 ^ l) 2, f1]
  apply forLoop_congr (by omega)
  intro start g h0 h1
  have hb := blk_lt hl h1
  rw [Nat.shiftRight_eq_div_pow, rd_ok (by omega), Res.ok_bind]
  have e : 2 * 2 ^ l = 2 ^ (l + 1) := by rw [Nat.pow_succ, Nat.mul_comm]
  apply forLoop_congr (by omega)
  intro i g h2 h3
  rw [nttButterfly_eq hp]
  unfold twF
  rw [e, getD_lt _ _ (by omega)]

theorem inttLayer_eq {l : Nat} (hl : l < 9) (f : Poly) :
    inttLayer l f = forLoop 0 512 (2 * 2 ^ l) (fun start g => forLoop start (start + 2 ^ l) 1
      (fun i g => bfly (fun _ x y => x + y) (fun z x y => (x - y) * z) (2 ^ l) (twI l (start / (2 * 2 ^ l))) i g) g) f := by
  obtain ⟨f1, f2, f3, f4, f5, f6⟩ := l_facts l hl
  unfold inttLayer
  have hp : 0 < 2 ^ l := Nat.two_pow_pos l
  simp only [Nat.shiftLeft_eq, Nat.one_mul, Nat.pow_one, Nat.mul_comm (2 ^ l) 2, f5]
  apply forLoop_congr (by omega)
  intro start g h0 h1
  have hb := blk_lt hl h1
  have e : 2 * 2 ^ l = 2 ^ (l + 1) := by rw [Nat.pow_succ, Nat.mul_comm]
  rw [Nat.shiftRight_eq_div_pow, e]
  generalize start / 2 ^ (l + 1) = b at *
  rw [rd_ok (by omega), Res.ok_bind]
  apply forLoop_congr (by omega)
  intro i g h2 h3
  rw [inttButterfly_eq hp]
  unfold twI
  rw [getD_lt _ _ (by omega)]

theorem twF_spec {l b : Nat} (hl : l < 9) (hb : b < 2 ^ (8 - l)) :
    (twF l b).Can ∧ (twF l b).toZ = zetaZ ^ br9 (2 ^ (8 - l) + b) := by
  obtain ⟨f1, f2, f3, f4, f5, f6⟩ := l_facts l hl
  unfold twF
  rw [getD_lt _ _ (by omega)]
  exact POWERS_spec (by omega)

theorem twI_spec {l b : Nat} (hl : l < 9) (hb : b < 2 ^ (8 - l)) :
    (twI l b).Can ∧ (twI l b).toZ = -zetaZ ^ br9 (2 ^ (9 - l) - 1 - b) := by
  obtain ⟨f1, f2, f3, f4, f5, f6⟩ := l_facts l hl
  unfold twI
  rw [getD_lt _ _ (by omega)]
  exact NEG_POWERS_spec (by omega)

theorem brv_pair : ∀ l, l < 9 → ∀ b, b < 2 ^ (8 - l) → br9 (2 ^ (8 - l) + b) + br9 (2 ^ (9 - l) - 1 - b) = 512 := by
  decide +kernel

/-- The twiddles of corresponding forward and inverse blocks are inverse to each other. -/
theorem tw_inv {l b : Nat} (hl : l < 9) (hb : b < 2 ^ (8 - l)) : (twF l b).toZ * (twI l b).toZ = 1 := by
  rw [(twF_spec hl hb).2, (twI_spec hl hb).2, mul_neg, ← pow_add, brv_pair l hl b hb, zeta_512, neg_neg]

theorem brv_eval : ∀ l, l < 9 → ∀ i, i < 512 →
    ((2 * br9 i + 1) * 2 ^ l) % 1024 = (br9 (2 ^ (8 - l) + i / 2 ^ (l + 1)) + 512 * (i / 2 ^ l % 2)) % 1024 := by
  decide +kernel

/-- Evaluation point of output slot `i`. -/
def rho (i : Nat) : ZMod q := zetaZ ^ (2 * br9 i + 1)

theorem rho_pow {l i : Nat} (hl : l < 9) (hi : i < 512) :
    rho i ^ 2 ^ l = (if i / 2 ^ l % 2 = 0 then (twF l (i / 2 ^ (l + 1))).toZ else -(twF l (i / 2 ^ (l + 1))).toZ) := by
  rw [(twF_spec hl (blk_lt hl hi)).2]
  unfold rho
  rw [← pow_mul, zeta_mod (brv_eval l hl i hi), pow_add]
  have : i / 2 ^ l % 2 = 0 ∨ i / 2 ^ l % 2 = 1 := by omega
  rcases this with h | h
  · rw [h, if_pos rfl, Nat.mul_zero, pow_zero, mul_one]
  · rw [h, if_neg (by omega), Nat.mul_one, zeta_512, mul_neg, mul_one]

theorem rho_512 {i : Nat} : rho i ^ 512 = -1 := by
  unfold rho
  have : zetaZ ^ ((2 * br9 i + 1) * 512) = zetaZ ^ 512 := zeta_mod (by omega)
  rw [← pow_mul, this, zeta_512]

/-- Forward layer on residues. -/
def fwdZ (l : Nat) (f : Nat → ZMod q) (p : Nat) : ZMod q :=
  if p / 2 ^ l % 2 = 0 then f p + (twF l (p / (2 * 2 ^ l))).toZ * f (p + 2 ^ l)
  else f (p - 2 ^ l) - (twF l (p / (2 * 2 ^ l))).toZ * f p
/-- Inverse layer on residues. -/
def bwdZ (l : Nat) (f : Nat → ZMod q) (p : Nat) : ZMod q :=
  if p / 2 ^ l % 2 = 0 then f p + f (p + 2 ^ l)
  else (f (p - 2 ^ l) - f p) * (twI l (p / (2 * 2 ^ l))).toZ

/-- Residues of the coefficients, indexed by all naturals. -/
def cz (f : Poly) (i : Nat) : ZMod q := (f.at0 i).toZ

theorem nttLayer_spec {l : Nat} (hl : l < 9) {f : Poly} (hf : f.Can) :
    (nttLayer l f).Ok (fun r => r.Can ∧ ∀ p, p < 512 → r.cz p = fwdZ l f.cz p) := by
  obtain ⟨f1, f2, f3, f4, f5, f6⟩ := l_facts l hl
  rw [nttLayer_eq hl]
  refine (layer_spec (tw := twF l) (Nat.two_pow_pos l) f3 f).mono fun r hr => ?_
  have key : ∀ p, p < 512 → (r.at0 p).Can ∧ (r.at0 p).toZ = fwdZ l f.cz p := by
    intro p hp
    have hb := blk_lt hl hp
    have e : 2 * 2 ^ l = 2 ^ (l + 1) := by rw [Nat.pow_succ, Nat.mul_comm]
    have ht := (twF_spec hl hb).1
    rw [hr p hp]
    unfold newAt fwdZ cz
    rw [e]
    split
    · exact ⟨Zq.add_can (hf.at0 _) (Zq.mul_can ht (hf.at0 _)),
        by rw [Zq.add_toZ (hf.at0 _) (Zq.mul_can ht (hf.at0 _)), Zq.mul_toZ ht (hf.at0 _)]⟩
    · exact ⟨Zq.sub_can (hf.at0 _) (Zq.mul_can ht (hf.at0 _)),
        by rw [Zq.sub_toZ (hf.at0 _) (Zq.mul_can ht (hf.at0 _)), Zq.mul_toZ ht (hf.at0 _)]⟩
  exact ⟨can_of_at0 fun p hp => (key p hp).1, fun p hp => (key p hp).2⟩

theorem inttLayer_spec {l : Nat} (hl : l < 9) {f : Poly} (hf : f.Can) :
    (inttLayer l f).Ok (fun r => r.Can ∧ ∀ p, p < 512 → r.cz p = bwdZ l f.cz p) := by
  obtain ⟨f1, f2, f3, f4, f5, f6⟩ := l_facts l hl
  rw [inttLayer_eq hl]
  refine (layer_spec (tw := twI l) (Nat.two_pow_pos l) f3 f).mono fun r hr => ?_
  have key : ∀ p, p < 512 → (r.at0 p).Can ∧ (r.at0 p).toZ = bwdZ l f.cz p := by
    intro p hp
    have hb := blk_lt hl hp
    have e : 2 * 2 ^ l = 2 ^ (l + 1) := by rw [Nat.pow_succ, Nat.mul_comm]
    have ht := (twI_spec hl hb).1
    rw [hr p hp]
    unfold newAt bwdZ cz
    rw [e]
    split
    · exact ⟨Zq.add_can (hf.at0 _) (hf.at0 _), by rw [Zq.add_toZ (hf.at0 _) (hf.at0 _)]⟩
    · exact ⟨Zq.mul_can (Zq.sub_can (hf.at0 _) (hf.at0 _)) ht,
        by rw [Zq.mul_toZ (Zq.sub_can (hf.at0 _) (hf.at0 _)) ht, Zq.sub_toZ (hf.at0 _) (hf.at0 _)]⟩
  exact ⟨can_of_at0 fun p hp => (key p hp).1, fun p hp => (key p hp).2⟩

/-! ### Position arithmetic inside a layer -/

theorem pos_even {l p : Nat} (hl : l < 9) (hp : p < 512) (h : p / 2 ^ l % 2 = 0) :
    p + 2 ^ l < 512 ∧ (p + 2 ^ l) / 2 ^ l % 2 = 1 ∧ (p + 2 ^ l) / (2 * 2 ^ l) = p / (2 * 2 ^ l) := by
  obtain ⟨f1, f2, f3, f4, f5, f6⟩ := l_facts l hl
  have hpos : 0 < 2 ^ l := Nat.two_pow_pos l
  have e1 : (p + 2 ^ l) / 2 ^ l = p / 2 ^ l + 1 := Nat.add_div_right _ hpos
  have e2 : (p + 2 ^ l) / (2 * 2 ^ l) = p / (2 * 2 ^ l) := by
    rw [Nat.mul_comm, ← Nat.div_div_eq_div_mul, ← Nat.div_div_eq_div_mul, e1]; omega
  refine ⟨?_, by rw [e1]; omega, e2⟩
  have hb := blk_lt hl hp
  have e : 2 * 2 ^ l = 2 ^ (l + 1) := by rw [Nat.pow_succ, Nat.mul_comm]
  rw [← e, ← e2] at hb
  have h2 := Nat.lt_mul_of_div_lt hb (by omega)
  rw [e, f2] at h2
  exact h2

theorem pos_odd {l p : Nat} (hl : l < 9) (hp : p < 512) (h : p / 2 ^ l % 2 ≠ 0) :
    2 ^ l ≤ p ∧ (p - 2 ^ l) / 2 ^ l % 2 = 0 ∧ (p - 2 ^ l) / (2 * 2 ^ l) = p / (2 * 2 ^ l) := by
  have hpos : 0 < 2 ^ l := Nat.two_pow_pos l
  have hle : 2 ^ l ≤ p := by
    rcases Nat.lt_or_ge p (2 ^ l) with h1 | h1
    · rw [Nat.div_eq_of_lt h1] at h; omega
    · exact h1
  have e1 : (p - 2 ^ l) / 2 ^ l = p / 2 ^ l - 1 := by
    have := Nat.sub_mul_div p (2 ^ l) 1
    rw [Nat.mul_one] at this; exact this
  have e2 : (p - 2 ^ l) / (2 * 2 ^ l) = p / (2 * 2 ^ l) := by
    rw [Nat.mul_comm, ← Nat.div_div_eq_div_mul, ← Nat.div_div_eq_div_mul, e1]; clear e1; generalize p / 2 ^ l = x at *; omega
  refine ⟨hle, ?_, e2⟩
  rw [e1]; clear e1 e2; generalize p / 2 ^ l = x at *; omega

theorem bwd_fwd {l : Nat} (hl : l < 9) {c : ZMod q} {f g h : Nat → ZMod q}
    (hg : ∀ p, p < 512 → g p = fwdZ l f p) (hh : ∀ p, p < 512 → h p = c * g p) :
    ∀ p, p < 512 → bwdZ l h p = 2 * c * f p := by
  intro p hp
  have e : 2 * 2 ^ l = 2 ^ (l + 1) := by rw [Nat.pow_succ, Nat.mul_comm]
  have ht := tw_inv hl (blk_lt hl hp)
  rw [← e] at ht
  unfold bwdZ
  split
  · next h0 =>
    obtain ⟨k1, k2, k3⟩ := pos_even hl hp h0
    rw [hh p hp, hh _ k1, hg p hp, hg _ k1]
    unfold fwdZ
    rw [if_pos h0, if_neg (by omega), k3, Nat.add_sub_cancel]
    ring
  · next h0 =>
    obtain ⟨k1, k2, k3⟩ := pos_odd hl hp h0
    rw [hh p hp, hh _ (by omega), hg p hp, hg _ (by omega)]
    unfold fwdZ
    rw [if_neg h0, if_pos k2, k3, Nat.sub_add_cancel k1]
    linear_combination 2 * c * f p * ht

theorem fwd_bwd {l : Nat} (hl : l < 9) {c : ZMod q} {f g h : Nat → ZMod q}
    (hg : ∀ p, p < 512 → g p = bwdZ l f p) (hh : ∀ p, p < 512 → h p = c * g p) :
    ∀ p, p < 512 → fwdZ l h p = 2 * c * f p := by
  intro p hp
  have e : 2 * 2 ^ l = 2 ^ (l + 1) := by rw [Nat.pow_succ, Nat.mul_comm]
  have ht := tw_inv hl (blk_lt hl hp)
  rw [← e] at ht
  unfold fwdZ
  split
  · next h0 =>
    obtain ⟨k1, k2, k3⟩ := pos_even hl hp h0
    rw [hh p hp, hh _ k1, hg p hp, hg _ k1]
    unfold bwdZ
    rw [if_pos h0, if_neg (by omega), k3, Nat.add_sub_cancel]
    linear_combination c * (f p - f (p + 2 ^ l)) * ht
  · next h0 =>
    obtain ⟨k1, k2, k3⟩ := pos_odd hl hp h0
    rw [hh p hp, hh _ (by omega), hg p hp, hg _ (by omega)]
    unfold bwdZ
    rw [if_neg h0, if_pos k2, Nat.sub_add_cancel k1]
    linear_combination (-c) * (f (p - 2 ^ l) - f p) * ht

/-! ### Whole transforms -/

/-- Layers `n-1, …, 0`. -/
def nttL : Nat → Poly → Res Poly
  | 0, f => .ok f
  | n + 1, f => do let f ← nttLayer n f; nttL n f
/-- Layers `0, …, n-1` of a family. -/
def upL (L : Nat → Poly → Res Poly) : Nat → Poly → Res Poly
  | 0, f => .ok f
  | n + 1, f => do let f ← upL L n f; L n f
/-- Inverse layers `0, …, n-1`. -/
def inttL (n : Nat) (f : Poly) : Res Poly := upL inttLayer n f
theorem inttL_zero (f : Poly) : inttL 0 f = .ok f := rfl
theorem inttL_succ (n : Nat) (f : Poly) : inttL (n + 1) f = (do let f ← inttL n f; inttLayer n f) := rfl
theorem upL9 (L : Nat → Poly → Res Poly) (f : Poly) : forLoop 0 9 1 (fun l f => L l f) f = upL L 9 f := by
  have : (Res.ok : Poly → Res Poly) = pure := rfl
  simp only [forLoop]
  simp [List.range', upL]
  simp only [this, bind_pure]

theorem forLoop9 {σ : Type} (body : Nat → σ → Res σ) (s : σ) :
    forLoop 0 9 1 body s = (body 0 s >>= body 1 >>= body 2 >>= body 3 >>= body 4 >>= body 5 >>= body 6 >>= body 7 >>= body 8) := by
  have : (Res.ok : σ → Res σ) = pure := rfl
  simp only [forLoop]
  simp [List.range']
  simp only [this, bind_pure]

theorem ntt_eq (f : Poly) : ntt f = nttL 9 f := by
  unfold ntt
  rw [forLoop9]
  simp only [nttL, bind_assoc]
  have : (Res.ok : Poly → Res Poly) = pure := rfl
  simp only [this, bind_pure]

theorem intt_eq (f : Poly) : intt f = (do let f ← inttL 9 f; .ok (f.map fun c => c * INV_N)) := by
  unfold intt
  rw [upL9]
  rfl

theorem nttL_can : ∀ n, n ≤ 9 → ∀ f : Poly, f.Can → (nttL n f).Ok (fun r => r.Can) := by
  intro n
  induction n with
  | zero => intro _ f hf; simpa [nttL] using hf
  | succ n ih => intro hn f hf; exact (nttLayer_spec (by omega) hf).bind fun r hr => ih (by omega) r hr.1

theorem inttL_can : ∀ n, n ≤ 9 → ∀ f : Poly, f.Can → (inttL n f).Ok (fun r => r.Can) := by
  intro n
  induction n with
  | zero => intro _ f hf; simpa [inttL_zero] using hf
  | succ n ih => intro hn f hf; rw [inttL_succ]; exact (ih (by omega) f hf).bind fun r hr => (inttLayer_spec (by omega) hr).mono fun _ h => h.1

theorem inttL_nttL : ∀ n, n ≤ 9 → ∀ (c : ZMod q) (f f' g : Poly), f.Can → g.Can → nttL n f = .ok f' →
    (∀ p, p < 512 → g.cz p = c * f'.cz p) →
    (inttL n g).Ok (fun h => h.Can ∧ ∀ p, p < 512 → h.cz p = 2 ^ n * c * f.cz p) := by
  intro n
  induction n with
  | zero =>
    intro _ c f f' g hf hg h1 h2
    simp only [nttL, Res.ok.injEq] at h1
    subst h1
    simp only [inttL_zero, inttL_succ, Res.ok_ok, pow_zero, one_mul]
    exact ⟨hg, h2⟩
  | succ n ih =>
    intro hn c f f' g hf hg h1 h2
    obtain ⟨f1, h3, hf1, h4⟩ := nttLayer_spec (l := n) (by omega) hf
    simp only [nttL, h3, Res.ok_bind] at h1
    rw [inttL_succ]
    refine (ih (by omega) c f1 f' g hf1 hg h1 h2).bind fun h hh => ?_
    refine (inttLayer_spec (by omega) hh.1).mono fun r hr => ⟨hr.1, fun p hp => ?_⟩
    rw [hr.2 p hp, bwd_fwd (by omega) h4 hh.2 p hp, pow_succ]
    ring

theorem nttL_inttL : ∀ n, n ≤ 9 → ∀ (c : ZMod q) (f f' g : Poly), f.Can → g.Can → inttL n f = .ok f' →
    (∀ p, p < 512 → g.cz p = c * f'.cz p) →
    (nttL n g).Ok (fun h => h.Can ∧ ∀ p, p < 512 → h.cz p = 2 ^ n * c * f.cz p) := by
  intro n
  induction n with
  | zero =>
    intro _ c f f' g hf hg h1 h2
    simp only [inttL_zero, inttL_succ, Res.ok.injEq] at h1
    subst h1
    simp only [nttL, Res.ok_ok, pow_zero, one_mul]
    exact ⟨hg, h2⟩
  | succ n ih =>
    intro hn c f f' g hf hg h1 h2
    obtain ⟨f1, h3, hf1⟩ := inttL_can n (by omega) f hf
    simp only [inttL_zero, inttL_succ, h3, Res.ok_bind] at h1
    obtain ⟨f2, h4, hf2, h5⟩ := inttLayer_spec (l := n) (by omega) hf1
    rw [h4] at h1
    simp only [Res.ok.injEq] at h1
    subst h1
    refine (nttLayer_spec (by omega) hg).bind fun h hh => ?_
    refine (ih (by omega) (2 * c) f f1 h hf hh.1 h3 fun p hp => ?_).mono fun r hr => ⟨hr.1, fun p hp => ?_⟩
    · rw [hh.2 p hp, fwd_bwd (by omega) h5 h2 p hp]
    · rw [hr.2 p hp, pow_succ]; ring

theorem INV_N_spec : INV_N.Can ∧ INV_N.toZ * 2 ^ 9 = 1 := by
  have h512 : Zq.Can ⟨512⟩ := by unfold Zq.Can; decide
  obtain ⟨r, f, h1, h2, h3, h4, h5⟩ := Zq.inv_spec h512
  have hf : f = true := h2.2 (by decide)
  subst hf
  have e : INV_N = r := by unfold INV_N; rw [h1]
  rw [e]
  refine ⟨h3, ?_⟩
  have := h4 rfl
  have e2 : Zq.toZ ⟨512⟩ = 2 ^ 9 := by
    unfold Zq.toZ
    have : (512 : U64).toNat = 512 := by decide
    show (((512 : U64).toNat : ℕ) : ZMod q) = _
    rw [this]; norm_num
  rwa [e2] at this

theorem cz_ext {f g : Poly} (hf : f.Can) (hg : g.Can) (h : ∀ p, p < 512 → f.cz p = g.cz p) : f = g := by
  apply ext_at0
  intro i hi
  exact (Zq.toZ_inj (hf.at0 i) (hg.at0 i)).1 (h i hi)

theorem intt_spec {f : Poly} (hf : f.Can) : (intt f).Ok (fun r => r.Can ∧ ∃ g, inttL 9 f = .ok g ∧ g.Can ∧
    ∀ p, p < 512 → r.cz p = INV_N.toZ * g.cz p) := by
  rw [intt_eq]
  obtain ⟨g, h1, hg⟩ := inttL_can 9 (by omega) f hf
  rw [h1, Res.ok_bind]
  simp only [Res.ok_ok]
  have hi := INV_N_spec.1
  have key : ∀ p (hp : p < 512), at0 (g.map fun c => c * INV_N) p = g.at0 p * INV_N := by
    intro p hp
    rw [at0_lt hp, at0_lt hp, Vector.getElem_map]
  refine ⟨can_of_at0 fun p hp => ?_, g, rfl, hg, fun p hp => ?_⟩
  · rw [key p hp]; exact Zq.mul_can (hg.at0 p) hi
  · unfold cz; rw [key p hp, Zq.mul_toZ (hg.at0 p) hi, mul_comm]

theorem ntt_can {f : Poly} (hf : f.Can) : (ntt f).Ok (fun r => r.Can) := by
  rw [ntt_eq]; exact nttL_can 9 (by omega) f hf

theorem intt_ntt {f : Poly} (hf : f.Can) : (do let g ← ntt f; intt g) = .ok f := by
  rw [ntt_eq]
  obtain ⟨g, h1, hg⟩ := nttL_can 9 (by omega) f hf
  rw [h1, Res.ok_bind]
  obtain ⟨r, h2, hr, g', h3, hg', h4⟩ := intt_spec hg
  rw [h2]
  refine congrArg Res.ok ?_
  obtain ⟨h, h5, -, h6⟩ := inttL_nttL 9 (by omega) 1 f g g hf hg h1 (fun p _ => by rw [one_mul])
  rw [h3] at h5
  simp only [Res.ok.injEq] at h5
  subst h5
  apply cz_ext hr hf
  intro p hp
  rw [h4 p hp, h6 p hp]
  linear_combination f.cz p * INV_N_spec.2

theorem ntt_intt {f : Poly} (hf : f.Can) : (do let g ← intt f; ntt g) = .ok f := by
  obtain ⟨r, h2, hr, g', h3, hg', h4⟩ := intt_spec hf
  rw [h2, Res.ok_bind, ntt_eq]
  obtain ⟨h, h5, hh, h6⟩ := nttL_inttL 9 (by omega) INV_N.toZ f g' r hf hr h3 h4
  rw [h5]
  refine congrArg Res.ok ?_
  apply cz_ext hh hf
  intro p hp
  rw [h6 p hp]
  linear_combination f.cz p * INV_N_spec.2

/-! ### Evaluation -/

/-- Partial evaluation invariant: the block of size `2^L` around `i` evaluates to `v`. -/
def blockEval (L : Nat) (f : Nat → ZMod q) (i : Nat) : ZMod q :=
  ∑ t ∈ range (2 ^ L), f (i / 2 ^ L * 2 ^ L + t) * rho i ^ t

theorem blockEval_fwd {l : Nat} (hl : l < 9) {f g : Nat → ZMod q} (hg : ∀ p, p < 512 → g p = fwdZ l f p) {i : Nat}
    (hi : i < 512) : blockEval l g i = blockEval (l + 1) f i := by
  unfold blockEval
  obtain ⟨f1, f2, f3, f4, f5, f6⟩ := l_facts l hl
  have hpos : 0 < 2 ^ l := Nat.two_pow_pos l
  have e : 2 ^ (l + 1) = 2 ^ l + 2 ^ l := by rw [Nat.pow_succ]; omega
  have hdd : i / 2 ^ (l + 1) = i / 2 ^ l / 2 := by rw [Nat.pow_succ, Nat.div_div_eq_div_mul]
  rw [e, sum_range_add, ← sum_add_distrib]
  apply sum_congr rfl
  intro t ht
  rw [mem_range] at ht
  have hb := blk_lt hl hi
  rw [hdd] at hb
  rw [← e, hdd]
  have hrho := rho_pow hl hi
  rw [hdd] at hrho
  -- the block of size 2^l containing i
  have hc : i / 2 ^ l = 2 * (i / 2 ^ l / 2) + i / 2 ^ l % 2 := (Nat.div_add_mod _ 2).symm
  generalize hB : i / 2 ^ l / 2 = b at *
  generalize hP : i / 2 ^ l % 2 = h at *
  have hh : h = 0 ∨ h = 1 := by omega
  have hbound : 2 ^ (l + 1) * b + 2 ^ (l + 1) ≤ 512 := by
    calc 2 ^ (l + 1) * b + 2 ^ (l + 1) = (b + 1) * 2 ^ (l + 1) := by ring
      _ ≤ 2 ^ (8 - l) * 2 ^ (l + 1) := Nat.mul_le_mul_right _ hb
      _ = 512 := f2
  have e3 : b * 2 ^ (l + 1) = 2 * 2 ^ l * b := by rw [Nat.pow_succ]; ring
  have e4 : (2 * b + h) * 2 ^ l = 2 * 2 ^ l * b + h * 2 ^ l := by ring
  have e5 : 2 ^ (l + 1) = 2 * 2 ^ l := by rw [Nat.pow_succ, Nat.mul_comm]
  rw [hc, e4, e3]
  rw [e5] at hbound
  have hS : ∀ u, u < 2 * 2 ^ l → (2 * 2 ^ l * b + u) / (2 * 2 ^ l) = b := by
    intro u hu
    rw [Nat.mul_add_div (by omega), Nat.div_eq_of_lt hu, Nat.add_zero]
  have hS2 : ∀ u, (2 * 2 ^ l * b + u) / 2 ^ l = 2 * b + u / 2 ^ l := by
    intro u
    have : 2 * 2 ^ l * b + u = 2 ^ l * (2 * b) + u := by ring
    rw [this, Nat.mul_add_div hpos]
  rcases hh with rfl | rfl
  · rw [Nat.zero_mul, Nat.add_zero, hg _ (by omega)]
    unfold fwdZ
    rw [hS2, Nat.div_eq_of_lt ht, Nat.add_zero, if_pos (by omega), hS t (by omega)]
    rw [if_pos rfl] at hrho
    rw [← hrho, pow_add]
    have e6 : 2 * 2 ^ l * b + t + 2 ^ l = 2 * 2 ^ l * b + (2 ^ l + t) := by omega
    rw [e6]; ring
  · rw [Nat.one_mul, Nat.add_assoc, hg _ (by omega)]
    unfold fwdZ
    have e7 : (2 ^ l + t) / 2 ^ l = 1 := by
      rw [Nat.add_div_left _ hpos, Nat.div_eq_of_lt ht]
    rw [hS2, e7, if_neg (by omega), hS _ (by omega)]
    rw [if_neg (by omega)] at hrho
    have e6 : 2 * 2 ^ l * b + (2 ^ l + t) - 2 ^ l = 2 * 2 ^ l * b + t := by omega
    rw [e6, pow_add, hrho]; ring

theorem nttL_eval : ∀ n, n ≤ 9 → ∀ (f f' : Poly), f.Can → nttL n f = .ok f' →
    ∀ i, i < 512 → f'.cz i = blockEval n f.cz i := by
  intro n
  induction n with
  | zero =>
    intro _ f f' hf h i hi
    simp only [nttL, Res.ok.injEq] at h
    subst h
    simp [blockEval]
  | succ n ih =>
    intro hn f f' hf h i hi
    obtain ⟨f1, h3, hf1, h4⟩ := nttLayer_spec (l := n) (by omega) hf
    simp only [nttL, h3, Res.ok_bind] at h
    rw [ih (by omega) f1 f' hf1 h i hi, blockEval_fwd (by omega) h4 hi]

theorem ntt_eval {f f' : Poly} (hf : f.Can) (h : ntt f = .ok f') {i : Nat} (hi : i < 512) :
    f'.cz i = ∑ t ∈ range 512, f.cz t * rho i ^ t := by
  rw [ntt_eq] at h
  rw [nttL_eval 9 (by omega) f f' hf h i hi]
  unfold blockEval
  have : i / 2 ^ 9 = 0 := Nat.div_eq_of_lt hi
  rw [this]
  simp

end Poly
end Raccoon
