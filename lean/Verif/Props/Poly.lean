import Verif.Proofs.PolySmall
import Verif.Model.Masked
/-!
# C14–C16, C49: rounding, centering, small moduli, equality (`polynomial/poly.hpp`)
-/
namespace Raccoon
attribute [-instance] Monoid.toNPow

/-- C14: rounding shift right by any template constant 1..47 (the library uses 42 and 44). -/
theorem C14_rounding_shr (ν : Nat) (h1 : 1 ≤ ν) (h2 : ν ≤ 47) (a : Poly) (ha : a.Can) (i : Nat) (hi : i < 512) :
    ((Poly.roundingShr ν a)[i]).raw.toNat = ((a[i]).raw.toNat + 2 ^ (ν - 1)) / 2 ^ ν % (q / 2 ^ ν) ∧
    ((Poly.roundingShr ν a)[i]).raw.toNat < q / 2 ^ ν :=
  ⟨Poly.roundingShr_spec h1 h2 ha hi, Poly.roundingShr_below h1 h2 ha i hi⟩

/-- C14: 48 really is outside the correct range (the conditional subtraction would have to happen twice). -/
theorem C14_limit : ∃ a : Poly, a.Can ∧
    ((Poly.roundingShr 48 a)[0]).raw.toNat ≠ ((a[0]).raw.toNat + 2 ^ 47) / 2 ^ 48 % (q / 2 ^ 48) := by
  refine ⟨Poly.fillWith ⟨549824583172096⟩, ?_, ?_⟩
  · intro i hi; unfold Poly.fillWith; rw [Vector.getElem_replicate]; unfold Zq.Can; decide
  · rw [Poly.roundingShr_get _ (by omega)]
    unfold Poly.fillWith
    rw [Vector.getElem_replicate]
    decide

/-- C15: `center` is defined and returns, for each coefficient `x < q'`, the representative of `x` modulo `q'` in
`[-(q'/2), (q'-1)/2]`; `from_centered` maps it back. Any modulus below 2^62. -/
theorem C15_center (q' : U64) (hm : q'.toNat < 2 ^ 62) (a : Poly) (ha : a.Below q'.toNat) :
    ∃ v, Poly.center q' a = .ok v ∧ Poly.fromCentered q' v = .ok a ∧
      ∀ i (hi : i < 512), -((q'.toNat / 2 : Nat) : Int) ≤ v[i] ∧ v[i] ≤ (((q'.toNat - 1) / 2 : Nat) : Int) ∧
        v[i] % (q'.toNat : Int) = (a[i]).raw.toNat := by
  obtain ⟨v, h1, h2⟩ := Poly.center_spec hm ha
  have hr : ∀ i (hi : i < 512), -((q'.toNat / 2 : Nat) : Int) ≤ v[i] ∧ v[i] ≤ (((q'.toNat - 1) / 2 : Nat) : Int) ∧
        v[i] % (q'.toNat : Int) = (a[i]).raw.toNat := by
    intro i hi; rw [h2 i hi]; exact Poly.ctr_range (ha i hi)
  refine ⟨v, h1, ?_, hr⟩
  obtain ⟨b, h3, h4⟩ := Poly.fromCentered_spec hm (v := v) (fun i hi => by
    obtain ⟨h5, h6, -⟩ := hr i hi
    have := ha i hi
    constructor <;> omega)
  rw [h3]
  refine congrArg Res.ok (Vector.ext fun i hi => Zq.ext_nat ?_)
  have := h4 i hi
  rw [h2 i hi, Poly.unctr_ctr (ha i hi)] at this
  exact_mod_cast this

/-- C15: and the other way round, un-centering then centering is the identity on centered vectors. -/
theorem C15_uncenter (q' : U64) (h0 : 0 < q'.toNat) (hm : q'.toNat < 2 ^ 62) (v : Vector Int 512)
    (hv : ∀ i (hi : i < 512), -((q'.toNat / 2 : Nat) : Int) ≤ v[i] ∧ v[i] ≤ (((q'.toNat - 1) / 2 : Nat) : Int)) :
    ∃ a, Poly.fromCentered q' v = .ok a ∧ a.Below q'.toNat ∧ Poly.center q' a = .ok v := by
  obtain ⟨a, h3, h4⟩ := Poly.fromCentered_spec hm (v := v) (fun i hi => by
    obtain ⟨h5, h6⟩ := hv i hi
    constructor <;> omega)
  have hb : a.Below q'.toNat := by
    intro i hi
    have h5 := h4 i hi
    obtain ⟨h6, h7⟩ := hv i hi
    unfold Poly.unctr at h5
    split at h5 <;> omega
  refine ⟨a, h3, hb, ?_⟩
  obtain ⟨w, h1, h2⟩ := Poly.center_spec hm hb
  rw [h1]
  refine congrArg Res.ok (Vector.ext fun i hi => ?_)
  rw [h2 i hi]
  have h5 := h4 i hi
  have := Poly.ctr_unctr (hv i hi).1 (hv i hi).2 h0
  rw [← h5] at this
  exact this

/-- C16: addition and subtraction modulo `q'` on `[0,q')`. -/
theorem C16_small_mod (q' : U64) (hm : q'.toNat < 2 ^ 62) (a b : Poly) (ha : a.Below q'.toNat) (hb : b.Below q'.toNat)
    (i : Nat) (hi : i < 512) :
    ((Poly.addMod q' a b)[i]).raw.toNat = ((a[i]).raw.toNat + (b[i]).raw.toNat) % q'.toNat ∧
    (((Poly.subMod q' a b)[i]).raw.toNat : Int) = ((a[i]).raw.toNat - (b[i]).raw.toNat : Int) % q'.toNat := by
  refine ⟨Poly.addMod_spec hm ha hb hi, ?_⟩
  rw [Poly.subMod_spec hm ha hb hi]
  have h1 := ha i hi; have h2 := hb i hi
  generalize (a[i]).raw.toNat = x at *
  generalize (b[i]).raw.toNat = y at *
  generalize q'.toNat = m at *
  push_cast
  rw [Nat.cast_sub (by omega)]
  have : (x : Int) + (m - y) = (x - y) + m := by ring
  rw [this, Int.add_emod_right]

/-- C16: adding back the difference recovers the minuend — the hint makes the verifier recover the commitment. -/
theorem C16_hint_recovers (q' : U64) (hm : q'.toNat < 2 ^ 62) (w y : Poly) (hw : w.Below q'.toNat) (hy : y.Below q'.toNat) :
    Poly.addMod q' y (Poly.subMod q' w y) = w :=
  Poly.add_sub_mod hm hw hy

theorem foldl_and {α : Type} (f : α → Bool) (l : List α) (b : Bool) :
    (l.foldl (fun r x => r && f x) b = true) ↔ (b = true ∧ ∀ x ∈ l, f x = true) := by
  induction l generalizing b with
  | nil => simp
  | cons a l ih => rw [List.foldl_cons, ih]; simp [and_assoc]

/-- C49: equality tests are exactly equality of the stored words. -/
theorem C49_eq (a b : Poly) : Poly.eq a b = true ↔ a = b := by
  unfold Poly.eq
  rw [foldl_and]
  constructor
  · rintro ⟨-, h⟩
    apply Vector.ext
    intro i hi
    simpa using h ⟨i, hi⟩ (List.mem_finRange _)
  · rintro rfl; simp

theorem C49_eq_masked {d : Nat} (a b : MPoly d) : MPoly.eq a b = true ↔ a = b := by
  unfold MPoly.eq
  rw [foldl_and]
  constructor
  · rintro ⟨-, h⟩
    apply Vector.ext
    intro i hi
    exact (C49_eq _ _).1 (h ⟨i, hi⟩ (List.mem_finRange _))
  · rintro rfl; simp [C49_eq]

theorem C49_eq_vec {rows d : Nat} (a b : PVec rows d) : PVec.eq a b = true ↔ a = b := by
  unfold PVec.eq
  rw [foldl_and]
  constructor
  · rintro ⟨-, h⟩
    apply Vector.ext
    intro i hi
    exact (C49_eq_masked _ _).1 (h ⟨i, hi⟩ (List.mem_finRange _))
  · rintro rfl; simp [C49_eq_masked]

/-! ### Non-vacuity: the instances used by the library. -/
example : (1 : Nat) ≤ 42 ∧ 42 ≤ 47 ∧ 1 ≤ 44 ∧ 44 ≤ 47 := by decide
example : (Q >>> 44).toNat = 31 ∧ (Q >>> 42).toNat = 125 ∧ Q.toNat < 2 ^ 62 ∧ (Q >>> 44).toNat < 2 ^ 62 := by decide
example : (Poly.fillWith (⟨30⟩ : Zq)).Below (Q >>> 44).toNat := by
  intro i hi; unfold Poly.fillWith; rw [Vector.getElem_replicate]; decide
example : Poly.center (Q >>> 44) (Poly.fillWith ⟨30⟩) = .ok (Vector.replicate 512 (-1)) := by
  obtain ⟨v, h1, h2⟩ := Poly.center_spec (q' := Q >>> 44) (by decide) (a := Poly.fillWith ⟨30⟩) (by
    intro i hi; unfold Poly.fillWith; rw [Vector.getElem_replicate]; decide)
  rw [h1]
  refine congrArg Res.ok (Vector.ext fun i hi => ?_)
  rw [h2 i hi]
  unfold Poly.fillWith
  rw [Vector.getElem_replicate, Vector.getElem_replicate]
  decide

end Raccoon
