import Verif.Proofs.PolyOps
/-!
# Rounding, centering, arithmetic modulo a smaller modulus
-/
namespace Raccoon
attribute [-instance] Monoid.toNPow

theorem pow62 : (2 : Nat) ^ 62 = 4611686018427387904 := by norm_num

namespace Poly

theorem shift_q : ∀ ν, 1 ≤ ν → ν ≤ 47 → (Q >>> ν).toNat = q / 2 ^ ν ∧ 1 < q / 2 ^ ν := by decide

theorem roundingShr_coeff {ν : Nat} (h1 : 1 ≤ ν) (h2 : ν ≤ 47) {x : U64} (hx : x.toNat < q) :
    (reduceOnceMod (Q >>> ν) ((x + ((1 : U64) <<< (ν - 1))) >>> ν)).toNat = (x.toNat + 2 ^ (ν - 1)) / 2 ^ ν % (q / 2 ^ ν) := by
  obtain ⟨e1, e2⟩ := shift_q ν h1 h2
  have hs : ((1 : U64) <<< (ν - 1)).toNat = 2 ^ (ν - 1) := by
    rw [BitVec.toNat_shiftLeft, Nat.shiftLeft_eq]
    have : (1 : U64).toNat = 1 := rfl
    rw [this, Nat.one_mul, Nat.mod_eq_of_lt (Nat.pow_lt_pow_right (by norm_num) (by omega))]
  have hle : (2 : Nat) ^ (ν - 1) ≤ 2 ^ 46 := Nat.pow_le_pow_right (by norm_num) (by omega)
  have h46 : (2 : Nat) ^ 46 = 70368744177664 := by norm_num
  have hsum : (x + ((1 : U64) <<< (ν - 1))).toNat = x.toNat + 2 ^ (ν - 1) := by
    rw [BitVec.toNat_add, hs, Nat.mod_eq_of_lt]
    unfold q at hx
    rw [pow64]; omega
  have hv : ((x + ((1 : U64) <<< (ν - 1))) >>> ν).toNat = (x.toNat + 2 ^ (ν - 1)) / 2 ^ ν := by
    rw [BitVec.toNat_ushiftRight, hsum, Nat.shiftRight_eq_div_pow]
  have hpos : 0 < 2 ^ ν := Nat.two_pow_pos ν
  have hpw : 2 ^ ν = 2 * 2 ^ (ν - 1) := by rw [← Nat.pow_succ']; congr 1; omega
  have hbound : (x.toNat + 2 ^ (ν - 1)) / 2 ^ ν ≤ q / 2 ^ ν + 1 := by
    rw [← Nat.add_div_right _ hpos]
    apply Nat.div_le_div_right
    omega
  rw [reduceOnceMod_mod (by rw [e1]; omega) (by
    rw [e1]; exact Nat.lt_of_le_of_lt (Nat.div_le_self _ _) q_lt) (by rw [hv, e1]; omega), hv, e1]

theorem roundingShr_get {ν : Nat} (a : Poly) {i : Nat} (hi : i < 512) : (roundingShr ν a)[i] =
    ⟨reduceOnceMod (Q >>> ν) ((a[i].raw + ((1 : U64) <<< (ν - 1))) >>> ν)⟩ := by
  unfold roundingShr; rw [Vector.getElem_map]

theorem roundingShr_spec {ν : Nat} (h1 : 1 ≤ ν) (h2 : ν ≤ 47) {a : Poly} (ha : a.Can) {i : Nat} (hi : i < 512) :
    ((roundingShr ν a)[i]).raw.toNat = ((a[i]).raw.toNat + 2 ^ (ν - 1)) / 2 ^ ν % (q / 2 ^ ν) := by
  rw [roundingShr_get a hi]
  exact roundingShr_coeff h1 h2 (ha i hi)

theorem roundingShr_below {ν : Nat} (h1 : 1 ≤ ν) (h2 : ν ≤ 47) {a : Poly} (ha : a.Can) :
    (roundingShr ν a).Below (q / 2 ^ ν) := by
  intro i hi
  rw [roundingShr_spec h1 h2 ha hi]
  exact Nat.mod_lt _ (by have := (shift_q ν h1 h2).2; omega)

theorem addMod_spec {q' : U64} (hm : q'.toNat < 2 ^ 62) {a b : Poly} (ha : a.Below q'.toNat) (hb : b.Below q'.toNat)
    {i : Nat} (hi : i < 512) :
    ((addMod q' a b)[i]).raw.toNat = ((a[i]).raw.toNat + (b[i]).raw.toNat) % q'.toNat := by
  have h1 := ha i hi; have h2 := hb i hi
  unfold addMod
  rw [Vector.getElem_zipWith]
  have e : ((a[i]).raw + (b[i]).raw).toNat = (a[i]).raw.toNat + (b[i]).raw.toNat := by
    rw [BitVec.toNat_add, Nat.mod_eq_of_lt]
    rw [pow62] at hm; rw [pow64]; omega
  show (reduceOnceMod q' _).toNat = _
  rw [reduceOnceMod_mod (by omega) (by rw [pow62] at hm; rw [pow63]; omega) (by rw [e]; omega), e]

theorem subMod_spec {q' : U64} (hm : q'.toNat < 2 ^ 62) {a b : Poly} (ha : a.Below q'.toNat) (hb : b.Below q'.toNat)
    {i : Nat} (hi : i < 512) :
    ((subMod q' a b)[i]).raw.toNat = ((a[i]).raw.toNat + (q'.toNat - (b[i]).raw.toNat)) % q'.toNat := by
  have h1 := ha i hi; have h2 := hb i hi
  unfold subMod
  rw [Vector.getElem_zipWith]
  have e0 : (q' - (b[i]).raw).toNat = q'.toNat - (b[i]).raw.toNat := by
    rw [BitVec.toNat_sub]
    have := q'.isLt
    generalize q'.toNat = x at *
    generalize (b[i]).raw.toNat = y at *
    rw [pow64] at *; omega
  have e : ((a[i]).raw + (q' - (b[i]).raw)).toNat = (a[i]).raw.toNat + (q'.toNat - (b[i]).raw.toNat) := by
    rw [BitVec.toNat_add, e0, Nat.mod_eq_of_lt]
    rw [pow62] at hm; rw [pow64]; omega
  show (reduceOnceMod q' _).toNat = _
  rw [reduceOnceMod_mod (by omega) (by rw [pow62] at hm; rw [pow63]; omega) (by rw [e]; omega), e]

theorem addMod_below {q' : U64} (hm : q'.toNat < 2 ^ 62) {a b : Poly} (ha : a.Below q'.toNat) (hb : b.Below q'.toNat) :
    (addMod q' a b).Below q'.toNat := by
  intro i hi; rw [addMod_spec hm ha hb hi]; have := ha i hi; exact Nat.mod_lt _ (by omega)
theorem subMod_below {q' : U64} (hm : q'.toNat < 2 ^ 62) {a b : Poly} (ha : a.Below q'.toNat) (hb : b.Below q'.toNat) :
    (subMod q' a b).Below q'.toNat := by
  intro i hi; rw [subMod_spec hm ha hb hi]; have := ha i hi; exact Nat.mod_lt _ (by omega)

theorem add_sub_mod {q' : U64} (hm : q'.toNat < 2 ^ 62) {w y : Poly} (hw : w.Below q'.toNat) (hy : y.Below q'.toNat) :
    addMod q' y (subMod q' w y) = w := by
  apply Vector.ext
  intro i hi
  apply Zq.ext_nat
  rw [addMod_spec hm hy (subMod_below hm hw hy) hi, subMod_spec hm hw hy hi]
  have h1 := hw i hi; have h2 := hy i hi
  generalize (w[i]).raw.toNat = a at *
  generalize (y[i]).raw.toNat = b at *
  generalize q'.toNat = m at *
  rw [Nat.add_mod_mod]
  have : b + (a + (m - b)) = a + m := by omega
  rw [this, Nat.add_mod_right, Nat.mod_eq_of_lt h1]

theorem div2_toNat (q' : U64) : (q' / 2).toNat = q'.toNat / 2 := by
  rw [BitVec.toNat_udiv]; rfl

/-- Representative of `x` (`0 ≤ x < m`) around zero. -/
def ctr (m x : Nat) : Int := if x + m / 2 < m then (x : Int) else (x : Int) - m

theorem centerCoeff_spec {q' x : U64} (hm : q'.toNat < 2 ^ 62) (hx : x.toNat < q'.toNat) :
    centerCoeff q' x = .ok (ctr q'.toNat x.toNat) := by
  have hd := div2_toNat q'
  have e : (x + q' / 2).toNat = x.toNat + q'.toNat / 2 := by
    rw [BitVec.toNat_add, hd, Nat.mod_eq_of_lt]
    rw [pow62] at hm; rw [pow64]; omega
  have hr := reduceOnceMod_toNat (m := q') (v := x + q' / 2) (by rw [pow62] at hm; rw [pow63]; omega)
    (by rw [e]; rw [pow62] at hm; rw [pow63]; omega)
  have hres : (reduceOnceMod q' (x + q' / 2)).toNat < 2 ^ 63 := by
    rw [hr, e]; rw [pow62] at hm; rw [pow63]; split <;> omega
  have heq : centerCoeff q' x = i64 ((reduceOnceMod q' (x + q' / 2)).toInt - (q' / 2).toInt) := by
    unfold centerCoeff reduceOnceMod
    simp only [BitVec.and_comm]
  rw [heq, toInt_small hres, toInt_small (by rw [hd]; rw [pow62] at hm; rw [pow63]; omega), hr, e, hd]
  rw [pow62] at hm
  unfold ctr
  rw [i64_ok]
  · congr 1
    split <;> split <;> omega
  · split <;> omega
  · split <;> omega

theorem ctr_range {m x : Nat} (hx : x < m) : -((m / 2 : Nat) : Int) ≤ ctr m x ∧ ctr m x ≤ ((m - 1) / 2 : Nat) ∧
    ctr m x % m = x := by
  unfold ctr
  split
  · refine ⟨by omega, by omega, ?_⟩
    exact_mod_cast Nat.mod_eq_of_lt hx
  · refine ⟨by omega, by omega, ?_⟩
    rw [Int.sub_emod_right]
    exact_mod_cast Nat.mod_eq_of_lt hx

/-- Representative of `c` in `[0,m)` for a centered `c`. -/
def unctr (m : Nat) (c : Int) : Int := if c < 0 then c + m else c

theorem fromCenteredCoeff_spec {q' : U64} {c : Int} (hm : q'.toNat < 2 ^ 62) (h1 : -(q'.toNat : Int) ≤ c)
    (h2 : c < q'.toNat) :
    (fromCenteredCoeff q' c).Ok (fun r => (r.raw.toNat : Int) = unctr q'.toNat c) := by
  unfold fromCenteredCoeff unctr
  have hq' : q'.toInt = q'.toNat := toInt_small (by rw [pow62] at hm; rw [pow63]; omega)
  rw [pow62] at hm
  by_cases h : c < 0
  · simp only [if_pos h]
    rw [BitVec.and_comm, BitVec.and_allOnes, hq', i64_ok (by omega) (by omega), Res.ok_bind]
    simp only [Res.ok_ok]
    rw [BitVec.toNat_ofInt]; omega
  · simp only [if_neg h]
    have e : ((0 : U64) &&& q').toInt = 0 := by
      have : (0 : U64) &&& q' = 0 := BitVec.zero_and
      rw [this]; rfl
    rw [e, i64_ok (by omega) (by omega), Res.ok_bind]
    simp only [Res.ok_ok]
    rw [BitVec.toNat_ofInt]; omega

theorem unctr_ctr {m x : Nat} (hx : x < m) : unctr m (ctr m x) = x := by
  unfold unctr ctr
  split <;> split <;> omega

theorem ctr_unctr {m : Nat} {c : Int} (h1 : -((m / 2 : Nat) : Int) ≤ c) (h2 : c ≤ ((m - 1) / 2 : Nat)) (hm : 0 < m) :
    ctr m (unctr m c).toNat = c := by
  unfold unctr ctr
  split <;> split <;> omega

theorem center_spec {q' : U64} (hm : q'.toNat < 2 ^ 62) {a : Poly} (ha : a.Below q'.toNat) :
    ∃ v, center q' a = .ok v ∧ ∀ i (hi : i < 512), v[i] = ctr q'.toNat (a[i]).raw.toNat := by
  refine ⟨a.map fun c => ctr q'.toNat c.raw.toNat, ?_, fun i hi => by rw [Vector.getElem_map]⟩
  unfold center
  exact mapR_ok fun i hi => centerCoeff_spec hm (ha i hi)

theorem fromCentered_spec {q' : U64} (hm : q'.toNat < 2 ^ 62) {v : Vector Int 512}
    (hv : ∀ i (hi : i < 512), -(q'.toNat : Int) ≤ v[i] ∧ v[i] < (q'.toNat : Int)) :
    ∃ a, fromCentered q' v = .ok a ∧ ∀ i (hi : i < 512), ((a[i]).raw.toNat : Int) = unctr q'.toNat v[i] := by
  let g : Int → Zq := fun c => match fromCenteredCoeff q' c with | .ok r => r | _ => Zq.zero
  have hg : ∀ i (hi : i < 512), fromCenteredCoeff q' v[i] = .ok (g v[i]) ∧ ((g v[i]).raw.toNat : Int) = unctr q'.toNat v[i] := by
    intro i hi
    obtain ⟨r, h1, h2⟩ := fromCenteredCoeff_spec hm (hv i hi).1 (hv i hi).2
    have : g v[i] = r := by show (match fromCenteredCoeff q' v[i] with | .ok r => r | _ => Zq.zero) = r; rw [h1]
    rw [this]; exact ⟨h1, h2⟩
  refine ⟨v.map g, ?_, fun i hi => by rw [Vector.getElem_map]; exact (hg i hi).2⟩
  unfold fromCentered
  exact mapR_ok fun i hi => (hg i hi).1

end Poly
end Raccoon
