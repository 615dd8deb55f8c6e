import Verif.Proofs.Uniform
import Verif.Proofs.MaskSampler
/-!
# Counting lemmas for the mask sampler
-/
namespace Raccoon
attribute [-instance] Monoid.toNPow
open Finset

/-- Candidate of the mask sampler carried by one 64-bit word. -/
def mCand (w : U64) : Option Nat := if w.toNat % 2 ^ 49 < q then some (w.toNat % 2 ^ 49) else none

theorem card_bv_mod (n w M k v : Nat) (hw : w = 8 * n) (h : 2 ^ (8 * n) = M * k) (hv : v < M) : Nat.card { x : BitVec w // x.toNat % M = v } = k := by
  subst hw
  rw [← card_word_mod n M k v h hv]
  refine Nat.card_congr (((⟨BitVec.toFin, BitVec.ofFin, fun _ => rfl, fun _ => rfl⟩ : BitVec (8 * n) ≃ Fin (2 ^ (8 * n))).trans (wordEquiv n).symm).subtypeEquiv fun x => ?_)
  have e : wordVal ((wordEquiv n).symm x.toFin) = x.toNat := congrArg Fin.val (Equiv.apply_symm_apply (wordEquiv n) x.toFin)
  show _ ↔ wordVal ((wordEquiv n).symm x.toFin) % M = v
  rw [e]

theorem card_mCand (v : Nat) (hv : v < q) : Nat.card { w : U64 // mCand w = some v } = 2 ^ 15 := by
  have h49 : q < 2 ^ 49 := by unfold q; norm_num
  rw [← card_bv_mod 8 64 (2 ^ 49) (2 ^ 15) v (by norm_num) (by norm_num) (Nat.lt_trans hv h49)]
  refine Nat.card_congr (Equiv.subtypeEquivRight fun w => ?_)
  unfold mCand
  constructor
  · intro h
    split at h
    · exact Option.some.inj h
    · cases h
  · intro h
    rw [h, if_pos hv]

theorem filter_cand {α : Type} (f : α → Nat) : ∀ l : List α, (l.map f).filter (fun x => decide (x < q)) = l.filterMap fun a => if f a < q then some (f a) else none
  | [] => rfl
  | a :: l => by
    rw [List.map_cons]
    by_cases hw : f a < q
    · rw [List.filter_cons_of_pos (by exact decide_eq_true hw), List.filterMap_cons_some (f := fun a => if f a < q then some (f a) else none) (b := f a) (if_pos hw), filter_cand f l]
    · rw [List.filter_cons_of_neg (by simpa using hw), List.filterMap_cons_none (f := fun a => if f a < q then some (f a) else none) (if_neg hw), filter_cand f l]

theorem acceptedMasks_words (E : Ext) (st : AsconState) (m : Nat) (W : Fin m → U64) (h : ∀ j : Fin m, (E.asconP6^[j.val] st)[0] = W j) :
    acceptedMasks E st m = (List.ofFn W).filterMap mCand := by
  have e : (List.range m).map (maskWord E st) = (List.ofFn W).map fun w => w.toNat % 2 ^ 49 := by
    apply List.ext_getElem
    · rw [List.length_map, List.length_range, List.length_map, List.length_ofFn]
    · intro j h1 h2
      have hj : j < m := by rwa [List.length_map, List.length_range] at h1
      rw [List.getElem_map, List.getElem_range, List.getElem_map, List.getElem_ofFn]
      unfold maskWord
      rw [h ⟨j, hj⟩]
  unfold acceptedMasks
  rw [e, filter_cand]
  rfl

theorem listPoly_eq_iff (l : List Nat) (hl : ∀ x ∈ l, x < q) (h5 : 512 ≤ l.length) (p : Poly) : listPoly l = p ↔ polyNats p <+: l := by
  have hq : q < 2 ^ 64 := by unfold q; norm_num
  have hlen : (polyNats p).length = 512 := List.length_ofFn
  have hget := polyNats_get p _ rfl
  generalize polyNats p = c at hlen hget
  constructor
  · intro e
    rw [List.prefix_iff_eq_take, hlen]
    apply List.ext_getElem
    · rw [hlen, List.length_take, Nat.min_eq_left h5]
    · intro i h1 h2
      have hi : i < 512 := by rwa [hlen] at h1
      have h3 := hget i h1 hi
      subst e
      rw [h3, listPoly_get _ _ hi, List.getElem_take, BitVec.toNat_ofNat, List.getD_eq_getElem?_getD, List.getElem?_eq_getElem (by omega), Option.getD_some]
      exact Nat.mod_eq_of_lt (Nat.lt_trans (hl _ (List.getElem_mem _)) hq)
  · intro h
    apply Vector.ext
    intro i hi
    have hc : i < c.length := by omega
    have h1 := List.prefix_iff_getElem?.1 h i hc
    apply Zq.ext_nat
    rw [listPoly_get _ _ hi, BitVec.toNat_ofNat, List.getD_eq_getElem?_getD, h1, Option.getD_some, hget i hc hi]
    exact Nat.mod_eq_of_lt (p[i]).raw.isLt

theorem samplePolynomial_ok_iff (E : Ext) {d : Nat} (fuel : Nat) {idx : Nat} (h : idx < d - 1) (g : Mrng d) (p : Poly) :
    (∃ g', Poly.samplePolynomial E fuel idx g = .ok (p, g')) ↔ polyNats p <+: acceptedMasks E g.state[idx] fuel := by
  have hh := samplePolynomial_eq E fuel h g
  have hlen : (polyNats p).length = 512 := List.length_ofFn
  by_cases h5 : 512 ≤ (acceptedMasks E g.state[idx] fuel).length
  · obtain ⟨k, hk, h1, -, e⟩ := hh.1 h5
    have hp : listPoly (acceptedMasks E g.state[idx] fuel) = listPoly (acceptedMasks E g.state[idx] k) := by
      obtain ⟨n, rfl⟩ : ∃ n, fuel = k + n := ⟨fuel - k, by omega⟩
      exact listPoly_prefix (acceptedMasks_prefix E _ k n) (le_of_eq h1.symm)
    rw [← listPoly_eq_iff _ (acceptedMasks_lt _ _ _) h5, hp, e]
    constructor
    · rintro ⟨g', h⟩
      exact (Prod.mk.inj (Res.ok.inj h)).1
    · intro h
      rw [h]
      exact ⟨_, rfl⟩
  · rw [hh.2 h5]
    constructor
    · rintro ⟨_, h⟩; cases h
    · intro h
      exact absurd (hlen ▸ h.length_le) h5

theorem samplePolynomial_uniform (m : Nat) {d idx : Nat} (h : idx < d - 1) (E : (Fin m → U64) → Ext) (g : (Fin m → U64) → Mrng d)
    (hg : ∀ (W : Fin m → U64) (j : Fin m), ((E W).asconP6^[j.val] (g W).state[idx])[0] = W j) (p p' : Poly) (hp : p.Can) (hp' : p'.Can) :
    Nat.card { W : Fin m → U64 // ∃ g', Poly.samplePolynomial (E W) m idx (g W) = .ok (p, g') } =
      Nat.card { W : Fin m → U64 // ∃ g', Poly.samplePolynomial (E W) m idx (g W) = .ok (p', g') } := by
  have e : ∀ p : Poly, Nat.card { W : Fin m → U64 // ∃ g', Poly.samplePolynomial (E W) m idx (g W) = .ok (p, g') } =
      Nat.card { W : Fin m → U64 // polyNats p <+: (List.ofFn W).filterMap mCand } := by
    intro p
    refine Nat.card_congr (Equiv.subtypeEquivRight fun W => ?_)
    rw [samplePolynomial_ok_iff _ _ h, acceptedMasks_words _ _ _ W (hg W)]
  have hc : ∀ p : Poly, p.Can → ∀ v ∈ polyNats p, v < q := by
    intro p hp v hv
    obtain ⟨i, rfl⟩ := List.mem_ofFn.1 hv
    exact hp i.val i.isLt
  rw [e, e]
  exact card_prefix mCand (· < q) (2 ^ 15) card_mCand m _ _ (List.length_ofFn.trans List.length_ofFn.symm) (hc p hp) (hc p' hp')

end Raccoon
