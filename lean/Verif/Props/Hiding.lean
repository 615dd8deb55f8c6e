import Verif.Proofs.Hiding
import Verif.Proofs.UniformMask
/-!
# C56 (mask sampler), C57: what the masks of a refresh hide
-/
namespace Raccoon
attribute [-instance] Monoid.toNPow
open Finset

/-- C56: the mask sampler returns every polynomial with canonical coefficients equally often, when the 64-bit words its generator produces are
counted. `E W`, `g W` is any family of generators of which the one for `W` produces the words `W`. -/
theorem C56_mask (m : Nat) {d idx : Nat} (h : idx < d - 1) (E : (Fin m → U64) → Ext) (g : (Fin m → U64) → Mrng d)
    (hg : ∀ (W : Fin m → U64) (j : Fin m), ((E W).asconP6^[j.val] (g W).state[idx])[0] = W j) (p p' : Poly) (hp : p.Can) (hp' : p'.Can) :
    Nat.card { W : Fin m → U64 // ∃ g', Poly.samplePolynomial (E W) m idx (g W) = .ok (p, g') } =
      Nat.card { W : Fin m → U64 // ∃ g', Poly.samplePolynomial (E W) m idx (g W) = .ok (p', g') } :=
  samplePolynomial_uniform m h E g hg p p' hp hp'

/-- Non-vacuity: a permutation that counts in its second word and shows word number (counter) of `W` in its first. -/
example (m : Nat) (hm : m < 2 ^ 64) (E : Ext) : ∃ (E' : (Fin m → U64) → Ext) (g : (Fin m → U64) → Mrng 2),
    ∀ (W : Fin m → U64) (j : Fin m), ((E' W).asconP6^[j.val] (g W).state[0])[0] = W j := by
  let word : (Fin m → U64) → Nat → U64 := fun W i => if h : i < m then W ⟨i, h⟩ else 0
  let P : (Fin m → U64) → AsconState → AsconState := fun W st => #v[word W (st[1].toNat + 1), st[1] + 1, 0, 0, 0]
  let s0 : (Fin m → U64) → AsconState := fun W => #v[word W 0, 0, 0, 0, 0]
  refine ⟨fun W => { E with asconP6 := P W }, fun W => ⟨#v[s0 W]⟩, fun W j => ?_⟩
  have key : ∀ k, k < m → (P W)^[k] (s0 W) = #v[word W k, BitVec.ofNat 64 k, 0, 0, 0] := by
    intro k
    induction k with
    | zero => intro _; rfl
    | succ k ih =>
      intro hk
      rw [Function.iterate_succ_apply', ih (by omega)]
      have hk' : (BitVec.ofNat 64 k).toNat = k := by
        rw [BitVec.toNat_ofNat, Nat.mod_eq_of_lt (by omega)]
      show #v[word W ((BitVec.ofNat 64 k).toNat + 1), BitVec.ofNat 64 k + 1, 0, 0, 0] = _
      have h1 : BitVec.ofNat 64 k + 1 = BitVec.ofNat 64 (k + 1) := by
        rw [BitVec.ofNat_add]
        rfl
      rw [hk', h1]
  show ((P W)^[j.val] (s0 W))[0] = W j
  rw [key j.val j.isLt]
  exact dif_pos j.isLt

/-! ### C57 -/

/-- C57: the shares of a zero encoding are exactly `maskedShare` of the masks drawn: one mask per request of the schedule (`C20_schedule_bounds` says
which these are), each drawn from the generator of the first share of its request, the generators being used in that order. -/
theorem C57_zero_encoding (E : Ext) (fuel m : Nat) (g : Mrng (2 ^ m)) (v : MPoly (2 ^ m)) (g' : Mrng (2 ^ m)) (h : MPoly.zeroEncoding E fuel g = .ok (v, g')) :
    ∃ ρ : Fin (maskSchedule m).length → Poly, Drawn E fuel (maskSchedule m) g (List.ofFn ρ) g' ∧ (∀ t, (ρ t).Can) ∧
      ∀ (s : Nat) (hs : s < 2 ^ m), (v[s]).toZ = maskedShare (maskSchedule m) (fun t => (ρ t).toZ) s :=
  zeroEncoding_masks E fuel m g v g' h

/-- C57: refreshing adds that to the shares. -/
theorem C57_refresh (E : Ext) (fuel m : Nat) (a : MPoly (2 ^ m)) (ha : MPoly.Can a) (g : Mrng (2 ^ m)) (v : MPoly (2 ^ m)) (g' : Mrng (2 ^ m)) (h : MPoly.refresh E fuel a g = .ok (v, g')) :
    ∃ ρ : Fin (maskSchedule m).length → Poly, Drawn E fuel (maskSchedule m) g (List.ofFn ρ) g' ∧ (∀ t, (ρ t).Can) ∧
      ∀ (s : Nat) (hs : s < 2 ^ m), (v[s]).toZ = (a[s]).toZ + maskedShare (maskSchedule m) (fun t => (ρ t).toZ) s := by
  unfold MPoly.refresh at h
  obtain ⟨⟨z, g1⟩, e, h⟩ := Res.bind_eq_ok.1 h
  obtain ⟨rfl, rfl⟩ := Prod.mk.inj (Res.ok.inj h)
  obtain ⟨ρ, h1, h2, h3⟩ := zeroEncoding_masks E fuel m g z g1 e
  refine ⟨ρ, h1, h2, fun s hs => ?_⟩
  have hz : MPoly.Can z := ((C20_zero_encoding E fuel (2 ^ m) ⟨m, rfl⟩ g).2 z g1 e).1
  unfold MPoly.add
  rw [Vector.getElem_zipWith, Poly.add_toZ (ha s hs) (hz s hs), h3 s hs]

/-- C57: every tuple of shares with sum 0 is produced by the same number of choices of the masks, and by at least one. -/
theorem C57_uniform (m : Nat) (S S' : Fin (2 ^ m) → RPoly) (h : ∑ s, S s = 0) (h' : ∑ s, S' s = 0) :
    Nat.card { ρ : Fin (maskSchedule m).length → RPoly // ∀ s : Fin (2 ^ m), maskedShare (maskSchedule m) ρ s.val = S s } =
      Nat.card { ρ : Fin (maskSchedule m).length → RPoly // ∀ s : Fin (2 ^ m), maskedShare (maskSchedule m) ρ s.val = S' s } ∧
    0 < Nat.card { ρ : Fin (maskSchedule m).length → RPoly // ∀ s : Fin (2 ^ m), maskedShare (maskSchedule m) ρ s.val = S s } := by
  refine ⟨masks_uniform m S S' h h', ?_⟩
  obtain ⟨ρ, e⟩ := masks_onto m S h
  have : Nonempty { ρ : Fin (maskSchedule m).length → RPoly // ∀ s : Fin (2 ^ m), maskedShare (maskSchedule m) ρ s.val = S s } := ⟨⟨ρ, fun s => congrFun e s⟩⟩
  exact Nat.card_pos

/-- C57: all shares but one hide the secret. Whatever is shared (`a`, `a'`), whichever share `i` is left out, and whatever values `w`, `w'` the others
are to take: the number of choices of the masks for which the refreshed shares take them is the same, and is not 0. -/
theorem C57_hides (m : Nat) (i : Fin (2 ^ m)) (a a' w w' : Fin (2 ^ m) → RPoly) :
    Nat.card { ρ : Fin (maskSchedule m).length → RPoly // ∀ s, s ≠ i → a s + maskedShare (maskSchedule m) ρ s.val = w s } =
      Nat.card { ρ : Fin (maskSchedule m).length → RPoly // ∀ s, s ≠ i → a' s + maskedShare (maskSchedule m) ρ s.val = w' s } ∧
    0 < Nat.card { ρ : Fin (maskSchedule m).length → RPoly // ∀ s, s ≠ i → a s + maskedShare (maskSchedule m) ρ s.val = w s } := by
  have e : ∀ a w : Fin (2 ^ m) → RPoly, ∃ S : Fin (2 ^ m) → RPoly, ∑ s, S s = 0 ∧
      Nat.card { ρ : Fin (maskSchedule m).length → RPoly // ∀ s, s ≠ i → a s + maskedShare (maskSchedule m) ρ s.val = w s } =
        Nat.card { ρ : Fin (maskSchedule m).length → RPoly // ∀ s : Fin (2 ^ m), maskedShare (maskSchedule m) ρ s.val = S s } := by
    intro a w
    obtain ⟨S, h1, h2⟩ := masks_miss m i (w - a)
    refine ⟨S, h1, Nat.card_congr (Equiv.subtypeEquivRight fun ρ => ?_)⟩
    rw [← h2 ρ]
    refine forall_congr' fun s => imp_congr_right fun _ => ?_
    rw [Pi.sub_apply, eq_sub_iff_add_eq, add_comm]
  obtain ⟨S, h1, e1⟩ := e a w
  obtain ⟨S', h1', e1'⟩ := e a' w'
  rw [e1, e1']
  exact C57_uniform m S S' h1 h1'

/-- Non-vacuity: with four shares, the sharings (0,0,0,0) and (f,−f,0,0) of zero are equally likely. -/
example (f : RPoly) : ∑ s, (![0, 0, 0, 0] : Fin (2 ^ 2) → RPoly) s = 0 ∧ ∑ s, (![f, -f, 0, 0] : Fin (2 ^ 2) → RPoly) s = 0 := by
  constructor
  · exact (Fin.sum_univ_four (f := (![0, 0, 0, 0] : Fin 4 → RPoly))).trans (by simp)
  · exact (Fin.sum_univ_four (f := (![f, -f, 0, 0] : Fin 4 → RPoly))).trans (by simp)

end Raccoon
