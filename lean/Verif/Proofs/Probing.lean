import Verif.Spec.Probing
import Verif.Proofs.Hiding
import Verif.Proofs.Layers
/-!
# From the layered description to the schedule of the code
-/
namespace Raccoon
attribute [-instance] Monoid.toNPow
open Finset

section
variable {R : Type} [AddCommGroup R]

/-- Contribution of a request to share `s`, masks given by round and first share. -/
def reqVal (r : Nat → Nat → R) (s : Nat) (p : Nat × Nat) : R :=
  (if p.1 = s then r (Nat.log2 p.2) p.1 else 0) - (if p.1 + p.2 = s then r (Nat.log2 p.2) p.1 else 0)

theorem sum_upto (f : Nat × Nat → R) : ∀ (l : List (Nat × Nat)) (t : Nat), ∑ u : Fin l.length, (if u.val < t then f l[u.val] else 0) = ((l.take t).map f).sum := by
  intro l
  induction l with
  | nil => intro t; rw [List.take_nil]; rfl
  | cons p l ih =>
    intro t
    rw [show ∑ u : Fin (p :: l).length, (if u.val < t then f (p :: l)[u.val] else 0) = _ from
      Fin.sum_univ_succ (n := l.length) (fun u : Fin (l.length + 1) => if u.val < t then f ((p :: l)[u.val]'u.isLt) else 0)]
    cases t with
    | zero =>
      rw [List.take_zero]
      refine (congrArg₂ (· + ·) (if_neg (by omega)) (Finset.sum_eq_zero fun u _ => if_neg (by omega))).trans ?_
      rw [add_zero]; rfl
    | succ t =>
      rw [List.take_succ_cons, List.map_cons, List.sum_cons, ← ih t]
      refine congrArg₂ (· + ·) (if_pos (by simp)) (Finset.sum_congr rfl fun u _ => ?_)
      have hv : u.succ.val = u.val + 1 := Fin.val_succ u
      by_cases h : u.val < t
      · rw [if_pos h, if_pos (by omega)]
        rfl
      · rw [if_neg h, if_neg (by omega)]

theorem sum_ite_eq (e : Nat) (c : R) : ∀ l : List Nat, l.Nodup → (l.map (fun i => if i = e then c else 0)).sum = if e ∈ l then c else 0 := by
  intro l
  induction l with
  | nil => intro _; simp
  | cons a l ih =>
    intro h
    rw [List.map_cons, List.sum_cons, ih (List.nodup_cons.1 h).2]
    by_cases he : a = e
    · subst he
      rw [if_pos rfl, if_neg (List.nodup_cons.1 h).1, if_pos (List.mem_cons_self ..), add_zero]
    · rw [if_neg he, zero_add]
      have : e ∈ a :: l ↔ e ∈ l := by
        rw [List.mem_cons]
        exact ⟨fun h => h.resolve_left (Ne.symm he), Or.inr⟩
      simp only [this]

/-- The first share of the pair in which share `s` takes part in round `j`. -/
def partner (j s : Nat) : Nat := if s / 2 ^ j % 2 = 0 then s else s - 2 ^ j

theorem reqVal_round (r : Nat → Nat → R) (j s i : Nat) (hi : i / 2 ^ j % 2 = 0) :
    reqVal r s (i, 2 ^ j) = if i = partner j s then (if s / 2 ^ j % 2 = 0 then r j s else - r j (s - 2 ^ j)) else 0 := by
  have hpos : 0 < 2 ^ j := Nat.two_pow_pos j
  have hlog : Nat.log2 (2 ^ j) = j := Nat.log2_two_pow
  have hup : (i + 2 ^ j) / 2 ^ j % 2 = 1 := by rw [Nat.add_div_right _ hpos]; omega
  unfold reqVal partner
  dsimp only
  rw [hlog]
  by_cases hs : s / 2 ^ j % 2 = 0
  · rw [if_pos hs, if_pos hs, if_neg (c := i + 2 ^ j = s) (fun e => by rw [e] at hup; omega), sub_zero]
    by_cases e : i = s
    · rw [if_pos e, if_pos e, e]
    · rw [if_neg e, if_neg e]
  · have hle : 2 ^ j ≤ s := by
      by_contra hlt
      rw [Nat.div_eq_of_lt (by omega)] at hs
      omega
    rw [if_neg hs, if_neg hs, if_neg (c := i = s) (fun e => by rw [e] at hi; exact hs hi), zero_sub]
    by_cases e : i = s - 2 ^ j
    · rw [if_pos (by omega), if_pos e, e]
    · rw [if_neg (by omega), if_neg e, neg_zero]

/-- The requests of round `j`. -/
def round (m j : Nat) : List (Nat × Nat) := ((List.range (2 ^ m)).filter (fun i => i / 2 ^ j % 2 = 0)).map fun i => (i, 2 ^ j)

theorem round_take (m j t s : Nat) :
    (∃ b : Bool, ∀ r : Nat → Nat → R, (((round m j).take t).map (reqVal r s)).sum = if b then (if s / 2 ^ j % 2 = 0 then r j s else - r j (s - 2 ^ j)) else 0) := by
  refine ⟨decide (partner j s ∈ ((List.range (2 ^ m)).filter (fun i => i / 2 ^ j % 2 = 0)).take t), fun r => ?_⟩
  unfold round
  rw [← List.map_take, List.map_map]
  obtain ⟨L, hL⟩ : ∃ L, L = ((List.range (2 ^ m)).filter (fun i => decide (i / 2 ^ j % 2 = 0))).take t := ⟨_, rfl⟩
  rw [← hL]
  have hb : ∀ i ∈ L, i / 2 ^ j % 2 = 0 := fun i hi => by
    rw [hL] at hi
    have := (List.mem_filter.1 (List.mem_of_mem_take hi)).2
    simpa using this
  have hnd : L.Nodup := by
    rw [hL]
    exact (List.nodup_range.filter _).sublist (List.take_sublist _ _)
  have e : L.map (reqVal r s ∘ fun i => (i, 2 ^ j)) = L.map (fun i => if i = partner j s then (if s / 2 ^ j % 2 = 0 then r j s else - r j (s - 2 ^ j)) else 0) :=
    List.map_congr_left fun i hi => reqVal_round r j s i (hb i hi)
  rw [e, sum_ite_eq _ _ L hnd]
  by_cases h : partner j s ∈ L
  · rw [if_pos h, decide_eq_true h, if_pos rfl]
  · rw [if_neg h, decide_eq_false h]
    rfl

theorem round_full (m j s : Nat) (hs : s < 2 ^ m) (r : Nat → Nat → R) :
    ((round m j).map (reqVal r s)).sum = if s / 2 ^ j % 2 = 0 then r j s else - r j (s - 2 ^ j) := by
  unfold round
  rw [List.map_map]
  have e : ((List.range (2 ^ m)).filter (fun i => decide (i / 2 ^ j % 2 = 0))).map (reqVal r s ∘ fun i => (i, 2 ^ j)) =
      ((List.range (2 ^ m)).filter (fun i => decide (i / 2 ^ j % 2 = 0))).map (fun i => if i = partner j s then (if s / 2 ^ j % 2 = 0 then r j s else - r j (s - 2 ^ j)) else 0) :=
    List.map_congr_left fun i hi => reqVal_round r j s i (by simpa using (List.mem_filter.1 hi).2)
  rw [e, sum_ite_eq _ _ _ (List.nodup_range.filter _), if_pos]
  rw [List.mem_filter, List.mem_range]
  unfold partner
  have hpos : 0 < 2 ^ j := Nat.two_pow_pos j
  split
  · next h => exact ⟨hs, by simpa using h⟩
  · next h =>
    have hle : 2 ^ j ≤ s := by
      by_contra hlt
      rw [Nat.div_eq_of_lt (by omega)] at h
      omega
    have e2 : s / 2 ^ j = (s - 2 ^ j) / 2 ^ j + 1 := by
      conv_lhs => rw [show s = (s - 2 ^ j) + 2 ^ j by omega]
      rw [Nat.add_div_right _ hpos]
    exact ⟨by omega, by rw [decide_eq_true]; omega⟩

theorem rounds_full (m s : Nat) (hs : s < 2 ^ m) (r : Nat → Nat → R) : ∀ k, (((List.range k).flatMap (round m)).map (reqVal r s)).sum = layerVal r k s := by
  intro k
  induction k with
  | zero => rfl
  | succ k ih =>
    rw [List.range_succ, List.flatMap_append, List.map_append, List.sum_append, ih, List.flatMap_singleton, round_full m k s hs]
    unfold layerVal
    rw [Finset.sum_range_succ]

theorem rounds_take (m s : Nat) (hs : s < 2 ^ m) : ∀ k t, ∃ j ≤ k, ∀ r : Nat → Nat → R,
    ((((List.range k).flatMap (round m)).take t).map (reqVal r s)).sum = layerVal r j s := by
  intro k
  induction k with
  | zero => intro t; exact ⟨0, le_refl _, fun r => by rw [List.range_zero, List.flatMap_nil, List.take_nil]; rfl⟩
  | succ k ih =>
    intro t
    by_cases ht : t ≤ ((List.range k).flatMap (round m)).length
    · obtain ⟨j, hj, h⟩ := ih t
      refine ⟨j, by omega, fun r => ?_⟩
      rw [List.range_succ, List.flatMap_append, List.take_append_of_le_length ht]
      exact h r
    · obtain ⟨b, hb⟩ := round_take (R := R) m k (t - ((List.range k).flatMap (round m)).length) s
      refine ⟨if b then k + 1 else k, by split <;> omega, fun r => ?_⟩
      rw [List.range_succ, List.flatMap_append, List.flatMap_singleton, List.take_append, List.take_of_length_le (by omega), List.map_append, List.sum_append,
        rounds_full m s hs r k, hb r]
      cases b with
      | true =>
        rw [if_pos rfl, if_pos rfl]
        unfold layerVal
        rw [Finset.sum_range_succ]
      | false =>
        rw [if_neg (by decide), if_neg (by decide), add_zero]

theorem schedule_rounds (m : Nat) : maskSchedule m = (List.range m).flatMap (round m) := rfl

/-- Masks by request from masks by round. -/
def ofRounds (m : Nat) (r : Nat → Nat → R) : Fin (maskSchedule m).length → R := fun u =>
  r (Nat.log2 ((maskSchedule m)[u.val]).2) ((maskSchedule m)[u.val]).1

theorem maskedUpto_rounds (m t s : Nat) (hs : s < 2 ^ m) : ∃ j ≤ m, ∀ r : Nat → Nat → R, maskedUpto (maskSchedule m) (ofRounds m r) t s = layerVal r j s := by
  obtain ⟨j, hj, h⟩ := rounds_take (R := R) m s hs m t
  refine ⟨j, hj, fun r => ?_⟩
  rw [← h r, ← schedule_rounds, ← sum_upto]
  rfl

theorem maskedShare_upto (sch : List (Nat × Nat)) (ρ : Fin sch.length → R) (s : Nat) : maskedShare sch ρ s = maskedUpto sch ρ sch.length s := by
  unfold maskedShare maskedUpto
  refine Finset.sum_congr rfl fun u _ => ?_
  rw [if_pos u.isLt]

theorem maskedShare_rounds (m s : Nat) (hs : s < 2 ^ m) (r : Nat → Nat → R) : maskedShare (maskSchedule m) (ofRounds m r) s = layerVal r m s := by
  rw [maskedShare_upto, ← rounds_full m s hs r m, ← schedule_rounds]
  refine (sum_upto (reqVal r s) (maskSchedule m) (maskSchedule m).length).trans ?_
  rw [List.take_length]

theorem maskedUpto_add (sch : List (Nat × Nat)) (ρ ρ' : Fin sch.length → R) (t s : Nat) :
    maskedUpto sch (fun u => ρ u + ρ' u) t s = maskedUpto sch ρ t s + maskedUpto sch ρ' t s := by
  unfold maskedUpto
  rw [← Finset.sum_add_distrib]
  refine Finset.sum_congr rfl fun u _ => ?_
  split
  · split <;> split
    · rw [add_sub_add_comm]
    · rw [sub_zero, sub_zero, sub_zero]
    · rw [zero_sub, zero_sub, zero_sub, neg_add]
    · rw [sub_zero, add_zero]
  · rw [add_zero]

theorem Wire.val_add {m : Nat} (a a' : Fin (2 ^ m) → R) (ρ ρ' : Fin (maskSchedule m).length → R) (x : Wire m) :
    x.val (fun s => a s + a' s) (fun u => ρ u + ρ' u) = x.val a ρ + x.val a' ρ' := by
  cases x with
  | input s => rfl
  | mask t => rfl
  | share t s => exact maskedUpto_add _ ρ ρ' t s.val

theorem refreshed_add {m : Nat} (a a' : Fin (2 ^ m) → R) (ρ ρ' : Fin (maskSchedule m).length → R) (s : Fin (2 ^ m)) :
    refreshed (fun s => a s + a' s) (fun u => ρ u + ρ' u) s = refreshed a ρ s + refreshed a' ρ' s := by
  unfold refreshed
  rw [maskedShare_upto, maskedShare_upto, maskedShare_upto, maskedUpto_add, add_add_add_comm]

/-- The combinatorial heart: for any observed places there are few shares such that every change of the sharing that does not touch these shares, nor the
shared value, is invisible at the observed places and in the refreshed shares, after a suitable change of the masks. -/
theorem hide_change (m : Nat) (P : Finset (Wire m)) : ∃ I : Finset (Fin (2 ^ m)), I.card ≤ P.card ∧ (∀ s, Wire.input s ∈ P → s ∈ I) ∧ ∀ δ : Fin (2 ^ m) → R, ∑ s, δ s = 0 → (∀ s ∈ I, δ s = 0) →
    ∃ ρ : Fin (maskSchedule m).length → R, (∀ x ∈ P, x.val δ ρ = 0) ∧ ∀ s, refreshed δ ρ s = 0 := by
  classical
  choose jOf hj1 hj2 using fun (t : Nat) (s : Fin (2 ^ m)) => maskedUpto_rounds (R := R) m t s.val s.isLt
  let fM : Wire m → Finset (Nat × Nat) := fun x => match x with
    | .mask t => {(Nat.log2 ((maskSchedule m)[t.val]).2, ((maskSchedule m)[t.val]).1)}
    | _ => ∅
  let fV : Wire m → Finset (Nat × Nat) := fun x => match x with
    | .share t s => {(jOf t s, s.val)}
    | _ => ∅
  let fI : Wire m → Finset (Fin (2 ^ m)) := fun x => match x with
    | .input s => {s}
    | _ => ∅
  have hcard : (P.biUnion fM).card + (P.biUnion fV).card + (P.biUnion fI).card ≤ P.card := by
    have h1 := Finset.card_biUnion_le (s := P) (t := fM)
    have h2 := Finset.card_biUnion_le (s := P) (t := fV)
    have h3 := Finset.card_biUnion_le (s := P) (t := fI)
    have h4 : ∑ x ∈ P, (fM x).card + ∑ x ∈ P, (fV x).card + ∑ x ∈ P, (fI x).card = P.card := by
      rw [← Finset.sum_add_distrib, ← Finset.sum_add_distrib, Finset.card_eq_sum_ones]
      refine Finset.sum_congr rfl fun x _ => ?_
      cases x <;> rfl
    omega
  have hPM : ∀ x ∈ P.biUnion fM, x.1 < m := by
    intro x hx
    obtain ⟨w, -, hw⟩ := Finset.mem_biUnion.1 hx
    cases w with
    | input s => exact absurd hw (Finset.notMem_empty _)
    | share t s => exact absurd hw (Finset.notMem_empty _)
    | mask t =>
      rw [Finset.mem_singleton.1 hw]
      have : (maskSchedule m)[t.val] ∈ maskSchedule m := List.getElem_mem t.isLt
      unfold maskSchedule at this
      obtain ⟨j, hj, h⟩ := List.mem_flatMap.1 this
      obtain ⟨i, -, h⟩ := List.mem_map.1 h
      have e : ((maskSchedule m)[t.val]).2 = 2 ^ j := (congrArg Prod.snd h).symm
      show Nat.log2 _ < m
      rw [e, Nat.log2_two_pow]
      exact List.mem_range.1 hj
  have hPV : ∀ x ∈ P.biUnion fV, x.1 ≤ m ∧ x.2 < 2 ^ m := by
    intro x hx
    obtain ⟨w, -, hw⟩ := Finset.mem_biUnion.1 hx
    cases w with
    | input s => exact absurd hw (Finset.notMem_empty _)
    | mask t => exact absurd hw (Finset.notMem_empty _)
    | share t s =>
      rw [Finset.mem_singleton.1 hw]
      exact ⟨hj1 t s, s.isLt⟩
  obtain ⟨I, hI, hS⟩ := shift_exists (R := R) m (P.biUnion fM) (P.biUnion fV) hPM hPV
  refine ⟨(univ.filter fun s : Fin (2 ^ m) => s.val ∈ I) ∪ P.biUnion fI, ?_, fun s hs => Finset.mem_union_right _ (Finset.mem_biUnion.2 ⟨_, hs, Finset.mem_singleton_self _⟩), fun δ hsum hδ => ?_⟩
  · have h1 := Finset.card_union_le (univ.filter fun s : Fin (2 ^ m) => s.val ∈ I) (P.biUnion fI)
    have h2 : (univ.filter fun s : Fin (2 ^ m) => s.val ∈ I).card ≤ I.card :=
      Finset.card_le_card_of_injOn (fun s => s.val) (fun s hs => (Finset.mem_filter.1 hs).2) (fun a _ b _ h => Fin.ext h)
    omega
  · let δ' : Nat → R := fun s => if h : s < 2 ^ m then - δ ⟨s, h⟩ else 0
    have hδ' : ∀ s : Fin (2 ^ m), δ' s.val = - δ s := fun s => dif_pos s.isLt
    obtain ⟨r, h1, h2, h3⟩ := hS δ' (by
      rw [Finset.sum_range, Finset.sum_congr rfl (fun s _ => hδ' s), Finset.sum_neg_distrib, hsum, neg_zero]) (fun s hs => by
      by_cases h : s < 2 ^ m
      · have := hδ ⟨s, h⟩ (Finset.mem_union_left _ (Finset.mem_filter.2 ⟨mem_univ _, hs⟩))
        rw [show δ' s = - δ ⟨s, h⟩ from dif_pos h, this, neg_zero]
      · exact dif_neg h)
    refine ⟨ofRounds m r, fun x hx => ?_, fun s => ?_⟩
    · cases x with
      | input s => exact hδ s (Finset.mem_union_right _ (Finset.mem_biUnion.2 ⟨_, hx, Finset.mem_singleton_self _⟩))
      | mask t => exact h1 _ (Finset.mem_biUnion.2 ⟨_, hx, Finset.mem_singleton_self _⟩)
      | share t s =>
        show maskedUpto _ _ _ _ = _
        rw [hj2 t s r]
        exact h2 _ (Finset.mem_biUnion.2 ⟨_, hx, Finset.mem_singleton_self _⟩)
    · unfold refreshed
      rw [maskedShare_rounds m s.val s.isLt, h3 s.val s.isLt, hδ', add_neg_cancel]

/-- A single share changed by `c`. -/
def bump {d : Nat} (k : Fin d) (c : R) : Fin d → R := fun s => if s = k then c else 0

theorem bump_sum {d : Nat} (k : Fin d) (c : R) : ∑ s, bump k c s = c := by
  unfold bump
  rw [Finset.sum_ite_eq' univ k (fun _ => c), if_pos (mem_univ k)]

theorem bump_ne {d : Nat} {k s : Fin d} (c : R) (h : s ≠ k) : bump k c s = 0 := if_neg h

/-- A change of the shared value can be moved into any single refreshed share outside `I`. -/
theorem hide_move (m : Nat) (P : Finset (Wire m)) : ∃ I : Finset (Fin (2 ^ m)), I.card ≤ P.card ∧ (∀ s, Wire.input s ∈ P → s ∈ I) ∧
    ∀ δ : Fin (2 ^ m) → R, (∀ s ∈ I, δ s = 0) → ∀ k : Fin (2 ^ m), k ∉ I →
    ∃ ρ : Fin (maskSchedule m).length → R, (∀ x ∈ P, x.val δ ρ = 0) ∧ ∀ s, refreshed δ ρ s = bump k (∑ i, δ i) s := by
  obtain ⟨I, h1, h2, h3⟩ := hide_change (R := R) m P
  refine ⟨I, h1, h2, fun δ hδ k hk => ?_⟩
  obtain ⟨ρ, k1, k2⟩ := h3 (fun s => δ s - bump k (∑ i, δ i) s) (by
    rw [Finset.sum_sub_distrib, bump_sum, sub_self]) (fun s hs => by
    rw [hδ s hs, bump_ne (s := s) (k := k) _ (fun e => hk (e ▸ hs)), sub_zero])
  refine ⟨ρ, fun x hx => ?_, fun s => ?_⟩
  · cases x with
    | input s => exact hδ s (h2 s hx)
    | mask t => exact k1 _ hx
    | share t s => exact k1 _ hx
  · have := k2 s
    unfold refreshed at this ⊢
    rw [sub_add_eq_add_sub, sub_eq_zero] at this
    exact this

/-- The code's state after `t` requests. -/
theorem foldl_upto (E : Ext) (fuel : Nat) {d : Nat} : ∀ (sch : List (Nat × Nat)), (∀ p ∈ sch, p.1 + p.2 < d ∧ 0 < p.2) → ∀ (v : MPoly d) (g : Mrng d), MPoly.Can v → ∀ (v' : MPoly d) (g' : Mrng d),
    sch.foldlM (fun s (p : Nat × Nat) => MPoly.maskPair E fuel p.1 p.2 s) (v, g) = .ok (v', g') →
    ∃ ρ : Fin sch.length → Poly, Drawn E fuel sch g (List.ofFn ρ) g' ∧ (∀ t, (ρ t).Can) ∧
      ∀ t, ∃ (vt : MPoly d) (gt : Mrng d), (sch.take t).foldlM (fun s (p : Nat × Nat) => MPoly.maskPair E fuel p.1 p.2 s) (v, g) = .ok (vt, gt) ∧
        ∀ (s : Nat) (hs : s < d), (vt[s]).toZ = (v[s]).toZ + maskedUpto sch (fun t => (ρ t).toZ) t s := by
  intro sch
  induction sch with
  | nil =>
    intro _ v g hv v' g' h
    rw [List.foldlM_nil] at h
    obtain ⟨rfl, rfl⟩ := Prod.mk.inj (Res.ok.inj h)
    refine ⟨fun t => t.elim0, Drawn.nil _, fun t => t.elim0, fun t => ⟨v, g, by rw [List.take_nil]; rfl, fun s hs => ?_⟩⟩
    unfold maskedUpto
    rw [show ∑ t : Fin ([] : List (Nat × Nat)).length, _ = (0 : RPoly) from Finset.sum_empty, add_zero]
  | cons p ps ih =>
    intro hp v g hv v' g' h
    rw [List.foldlM_cons] at h
    obtain ⟨⟨v1, g1⟩, e1, h⟩ := Res.bind_eq_ok.1 h
    obtain ⟨h1, h2⟩ := hp p (List.mem_cons_self ..)
    obtain ⟨r, er, hr, hv1, hval⟩ := maskPair_inv E fuel h2 h1 v g hv v1 g1 e1
    obtain ⟨ρ, hD, hρ, hsum⟩ := ih (fun x hx => hp x (List.mem_cons_of_mem _ hx)) v1 g1 hv1 v' g' h
    refine ⟨(Fin.cons r ρ : Fin (ps.length + 1) → Poly), ?_, ?_, fun t => ?_⟩
    · have e : List.ofFn (Fin.cons r ρ : Fin (ps.length + 1) → Poly) = r :: List.ofFn ρ := by
        rw [List.ofFn_succ]
        rfl
      have := Drawn.cons er hD
      rw [← e] at this
      exact this
    · intro t
      refine Fin.cases ?_ (fun t => ?_) t
      · exact hr
      · exact hρ t
    · have cons : ∀ t s, maskedUpto (p :: ps) (fun t => ((Fin.cons r ρ : Fin (ps.length + 1) → Poly) t).toZ) (t + 1) s =
          ((if p.1 = s then r.toZ else 0) - (if p.1 + p.2 = s then r.toZ else 0)) + maskedUpto ps (fun t => (ρ t).toZ) t s := by
        intro t s
        unfold maskedUpto
        refine (Fin.sum_univ_succ (n := ps.length) _).trans ?_
        refine congrArg₂ (· + ·) (if_pos (by simp)) (Finset.sum_congr rfl fun u _ => ?_)
        have hv : u.succ.val = u.val + 1 := Fin.val_succ u
        by_cases h : u.val < t
        · rw [if_pos h, if_pos (by omega)]
          rfl
        · rw [if_neg h, if_neg (by omega)]
      cases t with
      | zero =>
        refine ⟨v, g, by rw [List.take_zero]; rfl, fun s hs => ?_⟩
        unfold maskedUpto
        rw [Finset.sum_eq_zero (fun u _ => if_neg (by omega)), add_zero]
      | succ t =>
        obtain ⟨vt, gt, e2, h3⟩ := hsum t
        refine ⟨vt, gt, ?_, fun s hs => ?_⟩
        · rw [List.take_succ_cons, List.foldlM_cons, e1]
          exact e2
        · rw [h3 s hs, hval s hs, cons, add_assoc]

end
end Raccoon
