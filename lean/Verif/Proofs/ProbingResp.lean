import Verif.Proofs.Probing
/-!
# Observing the computation of a response
-/
namespace Raccoon
attribute [-instance] Monoid.toNPow
open Finset

section
variable {R : Type} [Ring R]

theorem respIn_add {m : Nat} (c : R) (a a' b b' : Fin (2 ^ m) → R) (ρ ρ' : Masks3 m R) :
    respIn c (fun s => a s + a' s) (fun s => b s + b' s) (fun i u => ρ i u + ρ' i u) = fun s => respIn c a b ρ s + respIn c a' b' ρ' s := by
  funext s
  unfold respIn
  rw [refreshed_add, refreshed_add, add_mul, add_add_add_comm]

theorem respOut_add {m : Nat} (c : R) (a a' b b' : Fin (2 ^ m) → R) (ρ ρ' : Masks3 m R) (s : Fin (2 ^ m)) :
    respOut c (fun s => a s + a' s) (fun s => b s + b' s) (fun i u => ρ i u + ρ' i u) s = respOut c a b ρ s + respOut c a' b' ρ' s := by
  unfold respOut
  rw [respIn_add]
  exact refreshed_add _ _ _ _ s

theorem RespWire.val_add {m : Nat} (c : R) (a a' b b' : Fin (2 ^ m) → R) (ρ ρ' : Masks3 m R) (x : RespWire m) :
    x.val c (fun s => a s + a' s) (fun s => b s + b' s) (fun i u => ρ i u + ρ' i u) = x.val c a b ρ + x.val c a' b' ρ' := by
  cases x with
  | s x => exact Wire.val_add a a' _ _ x
  | r x => exact Wire.val_add b b' _ _ x
  | sOut i => exact refreshed_add a a' _ _ i
  | rOut i => exact refreshed_add b b' _ _ i
  | prod i =>
    show refreshed _ _ i * c = refreshed _ _ i * c + refreshed _ _ i * c
    rw [← add_mul]
    exact congrArg (· * c) (refreshed_add a a' _ _ i)
  | z x =>
    show x.val (respIn c _ _ _) _ = _
    rw [respIn_add]
    exact Wire.val_add _ _ _ _ x

/-- A place outside two small sets. -/
theorem exists_outside {n : Nat} (I O : Finset (Fin n)) (h : I.card + O.card < n) : ∃ k, k ∉ I ∧ k ∉ O := by
  by_contra hn
  push Not at hn
  have h4 : (univ : Finset (Fin n)).card ≤ (I ∪ O).card := Finset.card_le_card fun s _ => by
    rw [Finset.mem_union]
    by_cases hs : s ∈ I
    · exact Or.inl hs
    · exact Or.inr (hn s hs)
  have h5 := Finset.card_union_le I O
  rw [Finset.card_univ, Fintype.card_fin] at h4
  omega

/-- One row of the response: changes of the two sharings outside few shares, that leave the response as it is, can be hidden. -/
theorem resp_hide (m : Nat) (P : Finset (RespWire m)) (h : P.card < 2 ^ m) : ∃ I J : Finset (Fin (2 ^ m)), I.card + J.card ≤ P.card ∧
    ∀ (c : R) (δa δb : Fin (2 ^ m) → R), (∀ s ∈ I, δa s = 0) → (∀ s ∈ J, δb s = 0) → (∑ s, δa s) * c + ∑ s, δb s = 0 →
    ∃ ρ : Masks3 m R, (∀ x ∈ P, x.val c δa δb ρ = 0) ∧ ∀ s, respOut c δa δb ρ s = 0 := by
  classical
  let fs : RespWire m → Finset (Wire m) := fun x => match x with
    | .s x => {x}
    | _ => ∅
  let fr : RespWire m → Finset (Wire m) := fun x => match x with
    | .r x => {x}
    | _ => ∅
  let fz : RespWire m → Finset (Wire m) := fun x => match x with
    | .z x => {x}
    | _ => ∅
  let fo : RespWire m → Finset (Fin (2 ^ m)) := fun x => match x with
    | .sOut i => {i}
    | .rOut i => {i}
    | .prod i => {i}
    | _ => ∅
  have hcard : (P.biUnion fs).card + (P.biUnion fr).card + (P.biUnion fz).card + (P.biUnion fo).card ≤ P.card := by
    have h1 := Finset.card_biUnion_le (s := P) (t := fs)
    have h2 := Finset.card_biUnion_le (s := P) (t := fr)
    have h3 := Finset.card_biUnion_le (s := P) (t := fz)
    have h4 := Finset.card_biUnion_le (s := P) (t := fo)
    have h5 : ∑ x ∈ P, (fs x).card + ∑ x ∈ P, (fr x).card + ∑ x ∈ P, (fz x).card + ∑ x ∈ P, (fo x).card = P.card := by
      rw [← Finset.sum_add_distrib, ← Finset.sum_add_distrib, ← Finset.sum_add_distrib, Finset.card_eq_sum_ones]
      refine Finset.sum_congr rfl fun x _ => ?_
      cases x <;> rfl
    omega
  obtain ⟨I1, a1, -, a3⟩ := hide_move (R := R) m (P.biUnion fs)
  obtain ⟨I2, b1, -, b3⟩ := hide_move (R := R) m (P.biUnion fr)
  obtain ⟨I3, z1, -, z3⟩ := hide_change (R := R) m (P.biUnion fz)
  have hO := Finset.card_union_le I3 (P.biUnion fo)
  obtain ⟨k, k1, k2⟩ := exists_outside I1 (I3 ∪ P.biUnion fo) (by omega)
  obtain ⟨k', k1', k2'⟩ := exists_outside I2 (I3 ∪ P.biUnion fo) (by omega)
  refine ⟨I1, I2, by omega, fun c δa δb ha hb hsum => ?_⟩
  obtain ⟨ρ0, p1, p2⟩ := a3 δa ha k k1
  obtain ⟨ρ1, q1, q2⟩ := b3 δb hb k' k1'
  have za : ∀ s ∈ I3 ∪ P.biUnion fo, refreshed δa ρ0 s = 0 := fun s hs => by
    rw [p2 s, bump_ne (k := k) (s := s) _ (fun e => k2 (e ▸ hs))]
  have zb : ∀ s ∈ I3 ∪ P.biUnion fo, refreshed δb ρ1 s = 0 := fun s hs => by
    rw [q2 s, bump_ne (k := k') (s := s) _ (fun e => k2' (e ▸ hs))]
  obtain ⟨ρ2, r1, r2⟩ := z3 (fun s => refreshed δa ρ0 s * c + refreshed δb ρ1 s) (by
      rw [Finset.sum_add_distrib, ← Finset.sum_mul, Finset.sum_congr rfl (fun s _ => p2 s), Finset.sum_congr rfl (fun s _ => q2 s), bump_sum, bump_sum, hsum])
    (fun s hs => by rw [za s (Finset.mem_union_left _ hs), zb s (Finset.mem_union_left _ hs), zero_mul, add_zero])
  refine ⟨fun i => match i with | 0 => ρ0 | 1 => ρ1 | 2 => ρ2, fun x hx => ?_, fun s => r2 s⟩
  cases x with
  | s x => exact p1 x (Finset.mem_biUnion.2 ⟨_, hx, Finset.mem_singleton_self _⟩)
  | r x => exact q1 x (Finset.mem_biUnion.2 ⟨_, hx, Finset.mem_singleton_self _⟩)
  | sOut i => exact za i (Finset.mem_union_right _ (Finset.mem_biUnion.2 ⟨_, hx, Finset.mem_singleton_self _⟩))
  | rOut i => exact zb i (Finset.mem_union_right _ (Finset.mem_biUnion.2 ⟨_, hx, Finset.mem_singleton_self _⟩))
  | prod i =>
    show refreshed δa ρ0 i * c = 0
    rw [za i (Finset.mem_union_right _ (Finset.mem_biUnion.2 ⟨_, hx, Finset.mem_singleton_self _⟩)), zero_mul]
  | z x => exact r1 x (Finset.mem_biUnion.2 ⟨_, hx, Finset.mem_singleton_self _⟩)

/-- What `P` observes in row `r`. -/
def rowOf {l : Nat} {α : Type} [DecidableEq α] (P : Finset (Fin l × α)) (r : Fin l) : Finset α := (P.filter fun x => x.1 = r).image Prod.snd

theorem mem_rowOf {l : Nat} {α : Type} [DecidableEq α] {P : Finset (Fin l × α)} {r : Fin l} {x : α} : x ∈ rowOf P r ↔ (r, x) ∈ P := by
  unfold rowOf
  rw [Finset.mem_image]
  constructor
  · rintro ⟨⟨r', y⟩, hy, rfl⟩
    obtain ⟨h1, rfl⟩ := Finset.mem_filter.1 hy
    exact h1
  · intro h
    exact ⟨(r, x), Finset.mem_filter.2 ⟨h, rfl⟩, rfl⟩

theorem rowOf_card {l : Nat} {α : Type} [DecidableEq α] (P : Finset (Fin l × α)) (r : Fin l) : (rowOf P r).card ≤ (P.filter fun x => x.1 = r).card := Finset.card_image_le

theorem rows_card {l : Nat} {α : Type} [DecidableEq α] (P : Finset (Fin l × α)) : ∑ r, (P.filter fun x => x.1 = r).card = P.card :=
  (Finset.card_eq_sum_card_fiberwise (f := Prod.fst) (t := univ) (fun x _ => mem_univ x.1)).symm

theorem row_card_le {l : Nat} {α : Type} [DecidableEq α] (P : Finset (Fin l × α)) (r : Fin l) : (rowOf P r).card ≤ P.card :=
  (rowOf_card P r).trans (Finset.card_filter_le _ _)

/-- The set of the pairs `(r, s)` with `s ∈ I r`. -/
def ofRows {l : Nat} {α : Type} [DecidableEq α] (I : Fin l → Finset α) : Finset (Fin l × α) := univ.biUnion fun r => (I r).image (Prod.mk r)

theorem mem_ofRows {l : Nat} {α : Type} [DecidableEq α] {I : Fin l → Finset α} {r : Fin l} {s : α} : (r, s) ∈ ofRows I ↔ s ∈ I r := by
  unfold ofRows
  rw [Finset.mem_biUnion]
  constructor
  · rintro ⟨r', -, h⟩
    obtain ⟨s', hs, e⟩ := Finset.mem_image.1 h
    obtain ⟨rfl, rfl⟩ := Prod.mk.inj e
    exact hs
  · intro h
    exact ⟨r, mem_univ _, Finset.mem_image.2 ⟨s, h, rfl⟩⟩

theorem ofRows_card {l : Nat} {α : Type} [DecidableEq α] (I : Fin l → Finset α) : (ofRows I).card ≤ ∑ r, (I r).card :=
  Finset.card_biUnion_le.trans (Finset.sum_le_sum fun _ _ => Finset.card_image_le)

end

/-- The generators between the rows of a refreshed vector. -/
theorem PVec.refresh_rows (E : Ext) (fuel : Nat) {rows d : Nat} (a : PVec rows d) (g : Mrng d) (v : PVec rows d) (g' : Mrng d) (h : PVec.refresh E fuel a g = .ok (v, g')) :
    ∃ G : Nat → Mrng d, G 0 = g ∧ G rows = g' ∧ ∀ (i : Nat) (hi : i < rows), MPoly.refresh E fuel a[i] (G i) = .ok (v[i], G (i + 1)) := by
  unfold PVec.refresh at h
  suffices H : ∀ n i (u : PVec rows d) (m : Mrng d), i + n = rows → (∀ j (hj : j < rows), i ≤ j → u[j] = a[j]) →
      forLoop i rows 1 (fun ridx (s : PVec rows d × Mrng d) => do
        let x ← s.1.rd ridx
        let (x, m) ← MPoly.refresh E fuel x s.2
        let v ← s.1.wr ridx x
        Res.ok (v, m)) (u, m) = .ok (v, g') →
      (∀ j (hj : j < rows), j < i → v[j] = u[j]) ∧
      ∃ G : Nat → Mrng d, G i = m ∧ G rows = g' ∧ ∀ (j : Nat) (hj : j < rows), i ≤ j → MPoly.refresh E fuel a[j] (G j) = .ok (v[j], G (j + 1)) by
    obtain ⟨-, G, h1, h2, h3⟩ := H rows 0 a g (by omega) (fun j hj _ => rfl) h
    exact ⟨G, h1, h2, fun i hi => h3 i hi (Nat.zero_le _)⟩
  intro n
  induction n with
  | zero =>
    intro i u m hi hu h
    rw [forLoop_nil (by omega) (by omega)] at h
    obtain ⟨rfl, rfl⟩ := Prod.mk.inj (Res.ok.inj h)
    exact ⟨fun j hj _ => rfl, fun _ => m, rfl, rfl, fun j hj hij => by omega⟩
  | succ n ih =>
    intro i u m hi hu h
    have hlt : i < rows := by omega
    rw [forLoop_cons hlt (by omega)] at h
    obtain ⟨⟨u1, m1⟩, e1, h⟩ := Res.bind_eq_ok.1 h
    obtain ⟨x, ex, e1⟩ := Res.bind_eq_ok.1 e1
    rw [rd_ok hlt] at ex
    obtain rfl := Res.ok.inj ex
    obtain ⟨⟨y, m2⟩, ey, e1⟩ := Res.bind_eq_ok.1 e1
    obtain ⟨w, ew, e1⟩ := Res.bind_eq_ok.1 e1
    rw [wr_ok hlt] at ew
    obtain rfl := Res.ok.inj ew
    obtain ⟨rfl, rfl⟩ := Prod.mk.inj (Res.ok.inj e1)
    obtain ⟨k1, G, k2, k3, k4⟩ := ih (i + 1) _ _ (by omega) (fun j hj hij => by
      rw [Vector.getElem_set_ne _ _ (by omega)]
      exact hu j hj (by omega)) h
    refine ⟨fun j hj hji => ?_, fun j => if j = i then m else G j, if_pos rfl, ?_, fun j hj hij => ?_⟩
    · rw [k1 j hj (by omega), Vector.getElem_set_ne _ _ (by omega)]
    · show (if rows = i then m else G rows) = g'
      rw [if_neg (by omega)]
      exact k3
    · show MPoly.refresh E fuel a[j] (if j = i then m else G j) = Res.ok (v[j], if j + 1 = i then m else G (j + 1))
      by_cases hji : j = i
      · subst hji
        rw [if_pos rfl, if_neg (by omega), k1 j hj (by omega), Vector.getElem_set_self, k2, ← hu j hj (le_refl _)]
        exact ey
      · rw [if_neg hji, if_neg (by omega)]
        exact k4 j hj (by omega)

end Raccoon
