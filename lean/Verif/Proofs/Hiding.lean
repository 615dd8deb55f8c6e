import Verif.Spec.Hiding
import Verif.Props.Masked
import Mathlib.Data.ZMod.Basic
import Mathlib.Algebra.BigOperators.Fin
import Mathlib.Algebra.BigOperators.Group.Finset.Piecewise
/-!
# The masks of a zero encoding are linear, onto the sharings of zero, and hide
-/
namespace Raccoon
attribute [-instance] Monoid.toNPow
open Finset

section lin
variable {R : Type} [AddCommGroup R]

/-- `maskedShare` as a homomorphism. -/
def maskHom (R : Type) [AddCommGroup R] (sch : List (Nat × Nat)) (d : Nat) : (Fin sch.length → R) →+ (Fin d → R) where
  toFun ρ s := maskedShare sch ρ s.val
  map_zero' := by
    funext s
    unfold maskedShare
    refine Finset.sum_eq_zero fun t _ => ?_
    simp
  map_add' a b := by
    funext s
    show maskedShare sch (a + b) s.val = maskedShare sch a s.val + maskedShare sch b s.val
    unfold maskedShare
    rw [← Finset.sum_add_distrib]
    refine Finset.sum_congr rfl fun t _ => ?_
    simp only [Pi.add_apply]
    split <;> split <;> abel

theorem maskedShare_cons (p : Nat × Nat) (ps : List (Nat × Nat)) (ρ : Fin (p :: ps).length → R) (s : Nat) :
    maskedShare (p :: ps) ρ s = ((if p.1 = s then ρ 0 else 0) - (if p.1 + p.2 = s then ρ 0 else 0)) + maskedShare ps (fun t => ρ t.succ) s := by
  unfold maskedShare
  exact Fin.sum_univ_succ (n := ps.length) (fun t : Fin (ps.length + 1) => ((if ((p :: ps)[t.val]'t.isLt).1 = s then ρ t else 0) - (if ((p :: ps)[t.val]'t.isLt).1 + ((p :: ps)[t.val]'t.isLt).2 = s then ρ t else 0)))

theorem maskedShare_sum (sch : List (Nat × Nat)) (d : Nat) (h : ∀ p ∈ sch, p.1 < d ∧ p.1 + p.2 < d) (ρ : Fin sch.length → R) :
    ∑ s : Fin d, maskedShare sch ρ s.val = 0 := by
  unfold maskedShare
  rw [Finset.sum_comm]
  refine Finset.sum_eq_zero fun t _ => ?_
  obtain ⟨h1, h2⟩ := h _ (List.getElem_mem t.isLt)
  have key : ∀ (a : Nat) (ha : a < d) (x : R), ∑ s : Fin d, (if a = s.val then x else 0) = x := by
    intro a ha x
    rw [Finset.sum_eq_single (⟨a, ha⟩ : Fin d)]
    · rw [if_pos rfl]
    · intro b _ hb
      rw [if_neg]
      intro e
      exact hb (Fin.ext e.symm)
    · intro hn; exact absurd (mem_univ _) hn
  rw [Finset.sum_sub_distrib, key _ h1, key _ h2, sub_self]

/-- One request, one mask. -/
theorem mask_single (sch : List (Nat × Nat)) (t : Fin sch.length) (a : R) (s : Nat) :
    maskedShare sch (fun t' => if t' = t then a else 0) s = (if sch[t.val].1 = s then a else 0) - (if sch[t.val].1 + sch[t.val].2 = s then a else 0) := by
  unfold maskedShare
  rw [Finset.sum_eq_single t]
  · dsimp only
    rw [if_pos rfl]
  · intro b _ hb
    dsimp only
    rw [if_neg hb]
    simp
  · intro hn; exact absurd (mem_univ _) hn

/-- a at position `s` and −a at position 0. -/
def moved (d : Nat) (s : Nat) (a : R) : Fin d → R := fun i => (if s = i.val then a else 0) - (if 0 = i.val then a else 0)

theorem moved_mem (m : Nat) : ∀ (s : Nat), s < 2 ^ m → ∀ a : R, moved (2 ^ m) s a ∈ (maskHom R (maskSchedule m) (2 ^ m)).range := by
  intro s
  induction s using Nat.strong_induction_on with
  | _ s ih =>
    intro hs a
    by_cases h0 : s = 0
    · subst h0
      refine ⟨0, ?_⟩
      rw [map_zero]
      funext i
      unfold moved
      rw [sub_self]; rfl
    · obtain ⟨j, hj⟩ : ∃ j, s / 2 ^ j % 2 = 1 := by
        refine ⟨Nat.log2 s, ?_⟩
        have h1 := Nat.log2_self_le h0
        have h2 := Nat.lt_log2_self (n := s)
        have hpos : 0 < 2 ^ Nat.log2 s := Nat.two_pow_pos _
        rw [Nat.pow_succ] at h2
        have : s / 2 ^ Nat.log2 s = 1 := by
          apply Nat.div_eq_of_lt_le <;> omega
        rw [this]
      have hle : 2 ^ j ≤ s := by
        by_contra hlt
        rw [Nat.div_eq_of_lt (by omega)] at hj
        omega
      have hjm : j < m := by
        by_contra hge
        have : 2 ^ m ≤ 2 ^ j := Nat.pow_le_pow_right (by omega) (by omega)
        omega
      have hpos : 0 < 2 ^ j := Nat.two_pow_pos _
      have hmem := (C20_schedule_bounds m).2.1 s hs j hjm
      rw [if_neg (by omega)] at hmem
      obtain ⟨t, ht, e⟩ := List.getElem_of_mem hmem
      have h1 := ih (s - 2 ^ j) (by omega) (by omega) a
      have h2 : maskHom R (maskSchedule m) (2 ^ m) (fun t' => if t' = ⟨t, ht⟩ then a else 0) ∈ (maskHom R (maskSchedule m) (2 ^ m)).range := ⟨_, rfl⟩
      have h3 := sub_mem h1 h2
      convert h3 using 1
      funext i
      show _ = moved (2 ^ m) (s - 2 ^ j) a i - maskedShare (maskSchedule m) (fun t' => if t' = ⟨t, ht⟩ then a else 0) i.val
      rw [mask_single]
      dsimp only
      rw [e]
      unfold moved
      dsimp only
      rw [Nat.sub_add_cancel hle]
      abel

theorem masks_onto (m : Nat) (S : Fin (2 ^ m) → R) (h : ∑ s, S s = 0) : ∃ ρ, maskHom R (maskSchedule m) (2 ^ m) ρ = S := by
  have hsum : S = ∑ s : Fin (2 ^ m), moved (2 ^ m) s.val (S s) := by
    funext i
    rw [Finset.sum_apply]
    unfold moved
    rw [Finset.sum_sub_distrib]
    have e1 : ∑ s : Fin (2 ^ m), (if s.val = i.val then S s else 0) = S i := by
      rw [Finset.sum_eq_single i]
      · rw [if_pos rfl]
      · intro b _ hb
        rw [if_neg]
        intro e; exact hb (Fin.ext e)
      · intro hn; exact absurd (mem_univ _) hn
    have e2 : ∑ s : Fin (2 ^ m), (if 0 = i.val then S s else 0) = 0 := by
      split
      · exact h
      · exact Finset.sum_const_zero
    rw [e1, e2, sub_zero]
  have : S ∈ (maskHom R (maskSchedule m) (2 ^ m)).range := by
    rw [hsum]
    exact sum_mem fun s _ => moved_mem m s.val s.isLt _
  exact this

/-- Fibres of a homomorphism over values it takes are equally large. -/
theorem card_fibre {A B : Type} [AddCommGroup A] [AddCommGroup B] (f : A →+ B) (x y : B) (hx : ∃ a, f a = x) (hy : ∃ a, f a = y) :
    Nat.card { a // f a = x } = Nat.card { a // f a = y } := by
  obtain ⟨a, rfl⟩ := hx
  obtain ⟨b, rfl⟩ := hy
  refine Nat.card_congr ((Equiv.addRight (b - a)).subtypeEquiv fun c => ?_)
  rw [Equiv.coe_addRight, map_add, map_sub]
  constructor
  · intro h; rw [h]; abel
  · intro h
    have : f c = f c + (f b - f a) + f a - f b := by abel
    rw [this, h]; abel

theorem schedule_in (m : Nat) : ∀ p ∈ maskSchedule m, p.1 < 2 ^ m ∧ p.1 + p.2 < 2 ^ m := fun p hp => by
  obtain ⟨h1, h2, -⟩ := (C20_schedule_bounds m).1 p hp
  exact ⟨by omega, h2⟩

theorem masks_uniform (m : Nat) (S S' : Fin (2 ^ m) → R) (h : ∑ s, S s = 0) (h' : ∑ s, S' s = 0) :
    Nat.card { ρ : Fin (maskSchedule m).length → R // ∀ s : Fin (2 ^ m), maskedShare (maskSchedule m) ρ s.val = S s } =
      Nat.card { ρ : Fin (maskSchedule m).length → R // ∀ s : Fin (2 ^ m), maskedShare (maskSchedule m) ρ s.val = S' s } := by
  have e : ∀ S : Fin (2 ^ m) → R, Nat.card { ρ : Fin (maskSchedule m).length → R // ∀ s : Fin (2 ^ m), maskedShare (maskSchedule m) ρ s.val = S s } =
      Nat.card { ρ // maskHom R (maskSchedule m) (2 ^ m) ρ = S } := fun S =>
    Nat.card_congr (Equiv.subtypeEquivRight fun ρ => ⟨fun h => funext h, fun h s => congrFun h s⟩)
  rw [e, e]
  exact card_fibre _ _ _ (masks_onto m S h) (masks_onto m S' h')

/-- The zero-sum completion of shares that miss one. -/
theorem masks_miss (m : Nat) (i : Fin (2 ^ m)) (x : Fin (2 ^ m) → R) :
    ∃ S : Fin (2 ^ m) → R, ∑ s, S s = 0 ∧ ∀ ρ : Fin (maskSchedule m).length → R,
      (∀ s, s ≠ i → maskedShare (maskSchedule m) ρ s.val = x s) ↔ ∀ s : Fin (2 ^ m), maskedShare (maskSchedule m) ρ s.val = S s := by
  have hsplit : ∀ y : Fin (2 ^ m) → R, ∑ s, y s = y i + ∑ s ∈ univ.erase i, y s := fun y => (Finset.add_sum_erase univ y (mem_univ i)).symm
  refine ⟨Function.update x i (-∑ s ∈ univ.erase i, x s), ?_, fun ρ => ⟨fun h s => ?_, fun h s hs => ?_⟩⟩
  · rw [hsplit, Function.update_self]
    have : ∑ s ∈ univ.erase i, Function.update x i (-∑ s ∈ univ.erase i, x s) s = ∑ s ∈ univ.erase i, x s :=
      Finset.sum_congr rfl fun s hs => Function.update_of_ne (Finset.ne_of_mem_erase hs) _ _
    rw [this, neg_add_cancel]
  · by_cases hs : s = i
    · subst hs
      rw [Function.update_self]
      have h1 := maskedShare_sum (maskSchedule m) (2 ^ m) (schedule_in m) ρ
      rw [Finset.sum_congr rfl (fun s _ => rfl), hsplit (fun s => maskedShare (maskSchedule m) ρ s.val)] at h1
      have h2 : ∑ s' ∈ univ.erase s, maskedShare (maskSchedule m) ρ s'.val = ∑ s' ∈ univ.erase s, x s' :=
        Finset.sum_congr rfl fun s' hs' => h s' (Finset.ne_of_mem_erase hs')
      rw [h2] at h1
      exact eq_neg_of_add_eq_zero_left h1
    · rw [Function.update_of_ne hs, h s hs]
  · rw [h s, Function.update_of_ne hs]

end lin

/-! ### The code -/

theorem maskPair_inv (E : Ext) (fuel : Nat) {d sidx off : Nat} (hoff : 0 < off) (hd : sidx + off < d) (v : MPoly d) (g : Mrng d) (hv : MPoly.Can v)
    (v' : MPoly d) (g' : Mrng d) (h : MPoly.maskPair E fuel sidx off (v, g) = .ok (v', g')) :
    ∃ r, Poly.samplePolynomial E fuel sidx g = .ok (r, g') ∧ r.Can ∧ MPoly.Can v' ∧
      ∀ (s : Nat) (hs : s < d), (v'[s]).toZ = (v[s]).toZ + ((if sidx = s then r.toZ else 0) - (if sidx + off = s then r.toZ else 0)) := by
  have hs1 : sidx < d := by omega
  unfold MPoly.maskPair at h
  obtain ⟨⟨r, g1⟩, e1, h⟩ := Res.bind_eq_ok.1 h
  have hr : r.Can := by
    have := samplePolynomial_safe E fuel sidx g
    rw [e1] at this
    exact this
  dsimp only at h
  rw [rd_ok hs1, Res.ok_bind, wr_ok hs1, Res.ok_bind, rd_ok hd, Res.ok_bind, wr_ok hd, Res.ok_bind] at h
  have h := Res.ok.inj h
  obtain ⟨rfl, rfl⟩ := Prod.mk.inj h
  rw [Vector.getElem_set_ne _ _ (by omega)]
  refine ⟨r, e1, hr, ?_, ?_⟩
  · intro s hs
    by_cases h1 : sidx + off = s
    · subst h1
      rw [Vector.getElem_set_self]
      exact Poly.sub_can (hv _ _) hr
    · rw [Vector.getElem_set_ne _ _ h1]
      by_cases h2 : sidx = s
      · subst h2
        rw [Vector.getElem_set_self]
        exact Poly.add_can (hv _ _) hr
      · rw [Vector.getElem_set_ne _ _ h2]
        exact hv _ _
  · intro s hs
    by_cases h1 : sidx + off = s
    · subst h1
      rw [Vector.getElem_set_self, Poly.sub_toZ (hv _ _) hr, if_neg (by omega), if_pos rfl]
      abel
    · rw [Vector.getElem_set_ne _ _ h1, if_neg h1]
      by_cases h2 : sidx = s
      · subst h2
        rw [Vector.getElem_set_self, Poly.add_toZ (hv _ _) hr, if_pos rfl, sub_zero]
      · rw [Vector.getElem_set_ne _ _ h2, if_neg h2, sub_zero, add_zero]

theorem foldl_masks (E : Ext) (fuel : Nat) {d : Nat} : ∀ (sch : List (Nat × Nat)), (∀ p ∈ sch, p.1 + p.2 < d ∧ 0 < p.2) → ∀ (v : MPoly d) (g : Mrng d), MPoly.Can v → ∀ (v' : MPoly d) (g' : Mrng d),
    sch.foldlM (fun s (p : Nat × Nat) => MPoly.maskPair E fuel p.1 p.2 s) (v, g) = .ok (v', g') →
    ∃ ρ : Fin sch.length → Poly, Drawn E fuel sch g (List.ofFn ρ) g' ∧ (∀ t, (ρ t).Can) ∧
      ∀ (s : Nat) (hs : s < d), (v'[s]).toZ = (v[s]).toZ + maskedShare sch (fun t => (ρ t).toZ) s := by
  intro sch
  induction sch with
  | nil =>
    intro _ v g hv v' g' h
    rw [List.foldlM_nil] at h
    obtain ⟨rfl, rfl⟩ := Prod.mk.inj (Res.ok.inj h)
    refine ⟨fun t => t.elim0, Drawn.nil _, fun t => t.elim0, fun s hs => ?_⟩
    unfold maskedShare
    rw [show ∑ t : Fin ([] : List (Nat × Nat)).length, _ = (0 : RPoly) from Finset.sum_empty, add_zero]
  | cons p ps ih =>
    intro hp v g hv v' g' h
    rw [List.foldlM_cons] at h
    obtain ⟨⟨v1, g1⟩, e1, h⟩ := Res.bind_eq_ok.1 h
    obtain ⟨h1, h2⟩ := hp p (List.mem_cons_self ..)
    obtain ⟨r, er, hr, hv1, hval⟩ := maskPair_inv E fuel h2 h1 v g hv v1 g1 e1
    obtain ⟨ρ, hD, hρ, hsum⟩ := ih (fun x hx => hp x (List.mem_cons_of_mem _ hx)) v1 g1 hv1 v' g' h
    refine ⟨(Fin.cons r ρ : Fin (ps.length + 1) → Poly), ?_, ?_, fun s hs => ?_⟩
    · have e : List.ofFn (Fin.cons r ρ : Fin (ps.length + 1) → Poly) = r :: List.ofFn ρ := by
        rw [List.ofFn_succ]
        rfl
      have := Drawn.cons er hD
      rw [← e] at this
      exact this
    · intro t
      refine Fin.cases ?_ (fun t => ?_) t
      · exact hr
      · exact hρ t
    · rw [hsum s hs, hval s hs, maskedShare_cons, add_assoc]
      rfl

theorem zeroEncoding_masks (E : Ext) (fuel m : Nat) (g : Mrng (2 ^ m)) (v : MPoly (2 ^ m)) (g' : Mrng (2 ^ m)) (h : MPoly.zeroEncoding E fuel g = .ok (v, g')) :
    ∃ ρ : Fin (maskSchedule m).length → Poly, Drawn E fuel (maskSchedule m) g (List.ofFn ρ) g' ∧ (∀ t, (ρ t).Can) ∧
      ∀ (s : Nat) (hs : s < 2 ^ m), (v[s]).toZ = maskedShare (maskSchedule m) (fun t => (ρ t).toZ) s := by
  rw [C20_schedule] at h
  have hz : MPoly.Can (MPoly.zero (2 ^ m)) := by
    intro s hs
    unfold MPoly.zero
    rw [Vector.getElem_replicate]
    exact Poly.zero_can
  obtain ⟨ρ, h1, h2, h3⟩ := foldl_masks E fuel (maskSchedule m) (fun p hp => ((C20_schedule_bounds m).1 p hp).2) _ g hz v g' h
  refine ⟨ρ, h1, h2, fun s hs => ?_⟩
  rw [h3 s hs]
  have : ((MPoly.zero (2 ^ m))[s]).toZ = 0 := by
    unfold MPoly.zero
    rw [Vector.getElem_replicate]
    exact Poly.zero_toZ
  rw [this, zero_add]

end Raccoon
