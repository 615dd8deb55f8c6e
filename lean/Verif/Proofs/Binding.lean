import Verif.Spec.Binding
import Verif.Proofs.Wire
import Verif.Proofs.IntResp
/-!
# Injectivity of the hashed strings, shortness of the difference of two responses
-/
namespace Raccoon
attribute [-instance] Monoid.toNPow
open Finset

theorem xofOut_length (fn : List U8 → Nat → U8) (m : List U8) (n : Nat) : (xofOut fn m n).length = n := by
  unfold xofOut
  rw [List.length_map, List.length_range]

theorem wBytes_length (w : Fin k → Fin 512 → Nat) :
    ((List.finRange k).flatMap fun r => (List.finRange 512).map fun i => BitVec.ofNat 8 (w r i)).length = k * 512 := by
  rw [List.length_flatMap]
  simp

theorem flatMap_inj_fixed {α β : Type} (n : Nat) : ∀ (l : List α) (f g : α → List β), (∀ x, (f x).length = n) → (∀ x, (g x).length = n) →
    l.flatMap f = l.flatMap g → ∀ x ∈ l, f x = g x
  | [], _, _, _, _, _, _, hx => by cases hx
  | y :: l, f, g, hf, hg, h, x, hx => by
    rw [List.flatMap_cons, List.flatMap_cons] at h
    obtain ⟨h1, h2⟩ := List.append_inj h (by rw [hf, hg])
    rcases List.mem_cons.1 hx with rfl | hx
    · exact h1
    · exact flatMap_inj_fixed n l f g hf hg h2 x hx

theorem hashInput_inj {w w' : Fin k → Fin 512 → Nat} {μ μ' : List U8} (hw : ∀ r i, w r i < 256) (hw' : ∀ r i, w' r i < 256)
    (h : hashInput w μ = hashInput w' μ') : w = w' ∧ μ = μ' := by
  unfold hashInput at h
  rw [List.append_assoc, List.append_assoc] at h
  obtain ⟨-, h⟩ := List.append_inj h rfl
  obtain ⟨h1, h2⟩ := List.append_inj h (by rw [wBytes_length, wBytes_length])
  refine ⟨?_, h2⟩
  funext r i
  have h3 := flatMap_inj_fixed 512 _ _ _ (fun x => by simp) (fun x => by simp) h1 r (List.mem_finRange r)
  have h4 := List.map_inj_left.1 h3 i (List.mem_finRange i)
  have h5 := congrArg BitVec.toNat h4
  rwa [BitVec.toNat_ofNat, BitVec.toNat_ofNat, Nat.mod_eq_of_lt (hw r i), Nat.mod_eq_of_lt (hw' r i)] at h5

theorem recomputed_lt (νw νt : Nat) (hν : νw = 44) (a : Fin k → Fin l → RPoly) (t : Fin k → RPoly) (c : RPoly) (h z : List Int) (r : Fin k) (i : Fin 512) :
    recomputed νw νt a t c h z r i < 31 := by
  subst hν
  have e : q / 2 ^ 44 = 31 := by norm_num [q]
  unfold recomputed
  rw [e]
  generalize ((commitY 44 νt a t c (vecR (unflatten l z)) r i : Int) + unflatten k h r i) = x
  omega

/-- Two residues whose roundings differ by a small amount modulo ⌊q/2^44⌋ are close. -/
theorem round_close_mod (u u' : ZMod q) (h h' : Int) (hb : h.natAbs ≤ 2) (hb' : h'.natAbs ≤ 2)
    (e : (((roundZ 44 u : Nat) : Int) + h) % (31 : Nat) = (((roundZ 44 u' : Nat) : Int) + h') % (31 : Nat)) :
    (u - u').valMinAbs.natAbs ≤ ((h - h').natAbs + 2) * 2 ^ 44 := by
  have p44 : (2 : Nat) ^ 44 = 17592186044416 := by norm_num
  have p43 : (2 : Nat) ^ (44 - 1) = 8796093022208 := by norm_num
  have hq : q = 549824583172097 := rfl
  unfold roundZ at e
  rw [p44, p43, show q / 17592186044416 = 31 from rfl] at e
  rw [p44]
  have h1 := ZMod.val_lt u
  have h2 := ZMod.val_lt u'
  -- a representative of the difference
  have key : ∃ D : Int, ((D : Int) : ZMod q) = u - u' ∧ D.natAbs ≤ ((h - h').natAbs + 2) * 17592186044416 := by
    have cast : ∀ j : Int, (((u.val : Int) - (u'.val : Int) - j * (q : Int) : Int) : ZMod q) = u - u' := by
      intro j
      push_cast
      rw [ZMod.natCast_zmod_val, ZMod.natCast_zmod_val]
      simp
    have : ∃ j : Int, ((u.val : Int) - (u'.val : Int) - j * (q : Int)).natAbs ≤ ((h - h').natAbs + 2) * 17592186044416 := by
      revert e h1 h2
      generalize u.val = x
      generalize u'.val = y
      intro e h1 h2
      rw [hq] at h1 h2 ⊢
      clear cast hq
      have k1 : ∃ R : Nat, R = (x + 8796093022208) / 17592186044416 := ⟨_, rfl⟩
      have k2 : ∃ R : Nat, R = (y + 8796093022208) / 17592186044416 := ⟨_, rfl⟩
      obtain ⟨R, hR⟩ := k1
      obtain ⟨R', hR'⟩ := k2
      rw [← hR, ← hR'] at e
      have a1 : 17592186044416 * R ≤ x + 8796093022208 ∧ x + 8796093022208 < 17592186044416 * R + 17592186044416 := by omega
      have a2 : 17592186044416 * R' ≤ y + 8796093022208 ∧ y + 8796093022208 < 17592186044416 * R' + 17592186044416 := by omega
      have b1 : R ≤ 31 := by omega
      have b2 : R' ≤ 31 := by omega
      have : ∃ j : Int, (R : Int) - R' = h' - h + 31 * j ∧ -1 ≤ j ∧ j ≤ 1 := by
        refine ⟨((R : Int) - R' - (h' - h)) / 31, ?_, ?_, ?_⟩ <;> omega
      obtain ⟨j, hj, hj1, hj2⟩ := this
      refine ⟨j, ?_⟩
      clear e hR hR'
      have : j = -1 ∨ j = 0 ∨ j = 1 := by omega
      rcases this with rfl | rfl | rfl <;> omega
    obtain ⟨j, hj⟩ := this
    exact ⟨_, cast j, hj⟩
  obtain ⟨D, hD, hDb⟩ := key
  rw [← hD]
  refine Nat.le_trans ?_ hDb
  have := ZMod.natAbs_valMinAbs_le (n := q) (x := ((D : Int) : ZMod q)) 
  exact (ZMod.natAbs_min_of_le_div_two q _ _ (by simp) this)

end Raccoon
