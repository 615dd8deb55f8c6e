import Verif.Proofs.Sampling
import Verif.Proofs.FieldInv
import Verif.Proofs.PolySmall
import Mathlib.Data.Nat.Bitwise
import Mathlib.Algebra.Ring.Int.Defs
/-!
# Noise sampler, mask sampler
-/
namespace Raccoon
attribute [-instance] Monoid.toNPow

theorem bmod_split (w M : Nat) (hM : 0 < M) :
    ((w : Int)).bmod (2 * M) = ((w % M : Nat) : Int) - ((w / M % 2 * M : Nat) : Int) := by
  have h1 := Nat.div_add_mod w M
  have h2 := Nat.div_add_mod (w / M) 2
  have h3 := Nat.mod_lt w hM
  have h4 : w % (2 * M) = w % M + M * (w / M % 2) := by
    rw [Nat.mul_comm 2 M, Nat.mod_mul]
  rw [Int.bmod_def]
  have e : ((w : Int) % ((2 * M : Nat) : Int)) = ((w % (2 * M) : Nat) : Int) := by push_cast; rfl
  rw [e, h4]
  rcases (by omega : w / M % 2 = 0 ∨ w / M % 2 = 1) with h | h
  · rw [h]
    rw [if_pos (by omega)]
    simp
  · rw [h]
    rw [if_neg (by omega)]
    push_cast
    omega

theorem sampleUCoeff_eq {u : Nat} (hu : 0 < u) (hu' : u ≤ 63) {b : List U8} (hb : b.length ≤ 8) :
    MPoly.sampleUCoeff u b = .ok ((leVal b : Int).bmod (2 ^ u)) := by
  unfold MPoly.sampleUCoeff
  have hw := fromLeBytes64 hb
  generalize fromLeBytes 64 b = w at hw
  have hp : 2 ^ (u - 1) ≤ 2 ^ 62 := Nat.pow_le_pow_right (by omega) (by omega)
  have hp0 : 0 < 2 ^ (u - 1) := Nat.two_pow_pos _
  have hm : ((1 : U64) <<< (u - 1)).toNat = 2 ^ (u - 1) := by
    rw [BitVec.toNat_shiftLeft, Nat.shiftLeft_eq]
    have : (1 : U64).toNat = 1 := rfl
    rw [this, Nat.one_mul, Nat.mod_eq_of_lt]
    refine Nat.lt_of_le_of_lt hp ?_
    decide
  have hl : ((1 : U64) <<< (u - 1) - 1).toNat = 2 ^ (u - 1) - 1 := by
    rw [BitVec.toNat_sub, hm]
    have : (1 : U64).toNat = 1 := rfl
    rw [this]
    generalize 2 ^ (u - 1) = p at *
    rw [pow64]; rw [pow62] at hp; omega
  have h1 : (w &&& (1 : U64) <<< (u - 1)).toNat = w.toNat / 2 ^ (u - 1) % 2 * 2 ^ (u - 1) := by
    rw [BitVec.toNat_and, hm, Nat.and_two_pow, Nat.testBit_eq_decide_div_mod_eq]
    congr 1
    rcases (by omega : w.toNat / 2 ^ (u - 1) % 2 = 0 ∨ w.toNat / 2 ^ (u - 1) % 2 = 1) with h | h <;> rw [h] <;> rfl
  have h2 : (w &&& ((1 : U64) <<< (u - 1) - 1)).toNat = w.toNat % 2 ^ (u - 1) := by
    rw [BitVec.toNat_and, hl, Nat.and_two_pow_sub_one_eq_mod]
  have h3 : w.toNat / 2 ^ (u - 1) % 2 * 2 ^ (u - 1) ≤ 2 ^ 62 := by
    rcases (by omega : w.toNat / 2 ^ (u - 1) % 2 = 0 ∨ w.toNat / 2 ^ (u - 1) % 2 = 1) with h | h <;> rw [h]
    · simp
    · rw [Nat.one_mul]; exact hp
  have h4 : w.toNat % 2 ^ (u - 1) < 2 ^ 62 := Nat.lt_of_lt_of_le (Nat.mod_lt _ hp0) hp
  have e : (2 : Nat) ^ u = 2 * 2 ^ (u - 1) := by
    rw [← Nat.pow_succ']; congr 1; omega
  rw [e, ← hw, bmod_split _ _ hp0]
  show i64 ((w &&& ((1 : U64) <<< (u - 1) - 1)).toInt - (w &&& (1 : U64) <<< (u - 1)).toInt) = _
  have t1 : (w &&& ((1 : U64) <<< (u - 1) - 1)).toInt = ((w.toNat % 2 ^ (u - 1) : Nat) : Int) := by
    rw [BitVec.toInt_eq_toNat_of_lt, h2]
    rw [h2]; generalize w.toNat % 2 ^ (u - 1) = x at *; rw [pow62] at h4; rw [pow64]; omega
  have t2 : (w &&& (1 : U64) <<< (u - 1)).toInt = ((w.toNat / 2 ^ (u - 1) % 2 * 2 ^ (u - 1) : Nat) : Int) := by
    rw [BitVec.toInt_eq_toNat_of_lt, h1]
    rw [h1]; generalize w.toNat / 2 ^ (u - 1) % 2 * 2 ^ (u - 1) = x at *; rw [pow62] at h3; rw [pow64]; omega
  rw [t1, t2]
  generalize w.toNat % 2 ^ (u - 1) = x at *
  generalize w.toNat / 2 ^ (u - 1) % 2 * 2 ^ (u - 1) = y at *
  rw [pow62] at *
  unfold i64
  rw [if_pos]
  constructor <;> omega

/-- The noise polynomial denoted by a byte stream. -/
theorem sampleU_eq (E : Ext) {u : Nat} (hu : 0 < u) (hu' : u ≤ 63) (hdr seed : List U8) :
    MPoly.sampleU E u hdr seed =
      .ok (Vector.ofFn fun i : Fin 512 => ((streamWord (E.shake256 (hdr ++ seed)) ((u + 7) / 8) i.val : Nat) : Int).bmod (2 ^ u)) := by
  unfold MPoly.sampleU
  have hn : 0 < (u + 7) / 8 := by omega
  have hn8 : (u + 7) / 8 ≤ 8 := by omega
  generalize hnn : (u + 7) / 8 = n at hn hn8
  have hbytes : ((((Xof.new E.shake256).absorb hdr).absorb seed).finalize.squeeze (n * 512)).1 =
      (List.range (n * 512)).map (E.shake256 (hdr ++ seed)) := by
    show (List.range (n * 512)).map (fun i => E.shake256 (([] ++ hdr) ++ seed) (0 + i)) = _
    apply List.map_congr_left
    intro i _
    rw [List.nil_append, Nat.zero_add]
  generalize E.shake256 (hdr ++ seed) = s at hbytes
  have H := forLoop_Ok (lo := 0) (hi := n * 512) hn (body := fun offset (st : Vector Int 512 × Nat) => do
      let b ← subspan ((List.range (n * 512)).map s) offset n
      let c ← MPoly.sampleUCoeff u b
      let f ← st.1.wr st.2 c
      Res.ok (f, st.2 + 1)) (s := (Vector.replicate 512 0, 0))
    (fun i st => i = n * st.2 ∧ ∀ k (hk : k < 512), k < st.2 → st.1[k] = ((streamWord s n k : Nat) : Int).bmod (2 ^ u))
    ⟨by simp, fun k _ h => absurd h (Nat.not_lt_zero _)⟩
    (by
      rintro i ⟨f, c⟩ - hi - ⟨h1, h2⟩
      replace h1 : i = n * c := h1
      have hc : c < 512 := by
        rw [h1] at hi; exact Nat.lt_of_mul_lt_mul_left hi
      have hle : i + n ≤ n * 512 := by
        have : n * (c + 1) ≤ n * 512 := Nat.mul_le_mul_left _ hc
        rw [Nat.mul_succ] at this; omega
      have hb : subspan ((List.range (n * 512)).map s) i n = .ok ((List.range n).map fun k => s (n * c + k)) := by
        rw [subspan_ok (by simpa using hle)]
        apply congrArg
        apply List.ext_getElem
        · simp; omega
        · intro k h3 h4
          simp [h1]
      show (subspan ((List.range (n * 512)).map s) i n >>= _).Ok _
      rw [hb, Res.ok_bind, sampleUCoeff_eq hu hu' (by simp; omega), Res.ok_bind]
      show (f.wr c _ >>= _).Ok _
      rw [wr_ok hc, Res.ok_bind, Res.ok_ok]
      refine ⟨?_, ?_⟩
      · show i + n = n * (c + 1)
        rw [Nat.mul_succ, h1]
      · intro k hk hlt
        replace hlt : k < c + 1 := hlt
        show (f.set c _ hc)[k] = _
        rcases Nat.lt_or_ge k c with h | h
        · rw [Vector.getElem_set_ne _ _ (by omega)]
          exact h2 k hk h
        · have : k = c := by omega
          subst this
          rw [Vector.getElem_set_self]
          rfl)
  obtain ⟨⟨f, c⟩, e, i, hi1, hi2, -, -, hI, hf⟩ := H
  replace hI : i = n * c := hI
  have hc : 512 ≤ c := by
    rw [hI] at hi1; exact Nat.le_of_mul_le_mul_left hi1 hn
  show (forLoop 0 (n * 512) n _ _ >>= _) = _
  rw [hbytes]
  rw [e, Res.ok_bind]
  refine congrArg Res.ok ?_
  apply Vector.ext
  intro k hk
  rw [Vector.getElem_ofFn]
  exact hf k hk (by show k < c; omega)

/-- Sampled noise is in the centered interval. -/
theorem bmod_range (x : Int) {u : Nat} (hu : 0 < u) : -(2 ^ (u - 1) : Int) ≤ x.bmod (2 ^ u) ∧ x.bmod (2 ^ u) < (2 ^ (u - 1) : Int) := by
  have e : (2 : Nat) ^ u = 2 * 2 ^ (u - 1) := by
    rw [← Nat.pow_succ']; congr 1; omega
  have e2 : ((2 : Int) ^ (u - 1)) = ((2 ^ (u - 1) : Nat) : Int) := by push_cast; rfl
  rw [e, e2]
  have hp0 : 0 < 2 ^ (u - 1) := Nat.two_pow_pos _
  generalize 2 ^ (u - 1) = p at *
  have h1 := Int.le_bmod (x := x) (m := 2 * p) (by omega)
  have h2 := Int.bmod_lt (x := x) (m := 2 * p) (by omega)
  push_cast at h1 h2
  omega

/-! ### mask sampler -/

theorem samplePolyLoop_safe (E : Ext) {d : Nat} (idx : Nat) : ∀ (n : Nat) (m : Mrng d) (res : Poly) (ci : Nat), ci ≤ 512 → res.Can →
    (Poly.samplePolyLoop E idx n m res ci).Safe (fun r => r.1.Can) := by
  intro n
  induction n with
  | zero =>
    intro m res ci hci hres
    unfold Poly.samplePolyLoop
    split
    · trivial
    · exact hres
  | succ n ih =>
    intro m res ci hci hres
    unfold Poly.samplePolyLoop
    split
    · rename_i hc
      show (if (m.get E idx).1 &&& _ < Q then _ else _ : Res _).Safe _
      split
      · rename_i hlt
        rw [wr_ok hc]
        show (Poly.samplePolyLoop E idx n _ (res.set ci _ hc) (ci + 1)).Safe _
        refine ih _ _ _ hc ?_
        intro i hi
        by_cases h : i = ci
        · subst h
          rw [Vector.getElem_set_self]
          unfold Zq.Can
          rw [← Q_toNat]
          exact hlt
        · rw [Vector.getElem_set_ne _ _ (by omega)]
          exact hres i hi
      · exact ih _ _ _ hci hres
    · exact hres

theorem Poly.zero_can' : Poly.zero.Can := by
  intro i hi
  unfold Poly.zero
  rw [Vector.getElem_replicate]
  exact Zq.zero_can

theorem samplePolynomial_safe (E : Ext) {d : Nat} (fuel idx : Nat) (m : Mrng d) :
    (Poly.samplePolynomial E fuel idx m).Safe (fun r => r.1.Can) := by
  unfold Poly.samplePolynomial
  split
  · exact Poly.zero_can'
  · exact samplePolyLoop_safe E idx fuel m Poly.zero 0 (by omega) Poly.zero_can'

end Raccoon
