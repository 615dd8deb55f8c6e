import Verif.Proofs.Hiding
import Verif.Proofs.UniformMask
import Mathlib.Logic.Equiv.Sum
/-!
# Counting the words of the mask generators
-/
namespace Raccoon
attribute [-instance] Monoid.toNPow
open Finset

/-- Read words, at most `fuel` of them, for the wanted masks; the words left. -/
def scan : Nat → List Nat → List U64 → Option (List U64)
  | _, [], l => some l
  | 0, _ :: _, _ => none
  | _ + 1, _ :: _, [] => none
  | f + 1, v :: c, w :: l => match mCand w with
    | none => scan f (v :: c) l
    | some u => if u = v then scan f c l else none

theorem scan_nil (f : Nat) (l : List U64) : scan f [] l = some l := by cases f <;> rfl

/-- `P` and `P'` hold equally often among the tapes of given lengths. -/
def SameCount {G : Type} (P P' : (G → List U64) → Prop) : Prop :=
  ∀ n : G → Nat, Nonempty ({ L : G → List U64 // (∀ i, (L i).length = n i) ∧ P L } ≃ { L : G → List U64 // (∀ i, (L i).length = n i) ∧ P' L })

theorem mCand_equiv (v v' : Nat) (h : v < q) (h' : v' < q) : Nonempty ({ w : U64 // mCand w = some v } ≃ { w : U64 // mCand w = some v' }) := by
  have e := (card_mCand v h).trans (card_mCand v' h').symm
  have : Finite U64 := Finite.of_injective BitVec.toFin (fun a b h => BitVec.eq_of_toFin_eq h)
  exact (Finite.card_eq).1 e

section
variable {G : Type} [DecidableEq G]

/-- Split off the first word of one tape. -/
def consEquiv (i : G) (n : G → Nat) (k : Nat) (hk : n i = k + 1) (A B : (G → List U64) → Prop) (v : Nat) :
    { L : G → List U64 // (∀ j, (L j).length = n j) ∧ ∃ w l, L i = w :: l ∧ ((mCand w = none ∧ A (Function.update L i l)) ∨ (mCand w = some v ∧ B (Function.update L i l))) } ≃
    { p : U64 × (G → List U64) // (mCand p.1 = none ∧ ((∀ j, (p.2 j).length = Function.update n i k j) ∧ A p.2)) ∨ (mCand p.1 = some v ∧ ((∀ j, (p.2 j).length = Function.update n i k j) ∧ B p.2)) } where
  toFun L := ⟨((L.1 i).headD 0, Function.update L.1 i (L.1 i).tail), by
    obtain ⟨L, hn, w, l, e, h⟩ := L
    have hl : l.length = k := by
      have := hn i
      rw [e, List.length_cons] at this
      omega
    have hlen : ∀ j, (Function.update L i l j).length = Function.update n i k j := by
      intro j
      by_cases hj : j = i
      · subst hj; rw [Function.update_self, Function.update_self]; exact hl
      · rw [Function.update_of_ne hj, Function.update_of_ne hj]; exact hn j
    have e1 : (L i).headD 0 = w := by rw [e]; rfl
    have e2 : (L i).tail = l := by rw [e]; rfl
    show (mCand ((L i).headD 0) = none ∧ (∀ j, (Function.update L i (L i).tail j).length = Function.update n i k j) ∧ A (Function.update L i (L i).tail)) ∨
      (mCand ((L i).headD 0) = some v ∧ (∀ j, (Function.update L i (L i).tail j).length = Function.update n i k j) ∧ B (Function.update L i (L i).tail))
    rw [e1, e2]
    rcases h with ⟨h1, h2⟩ | ⟨h1, h2⟩
    · exact .inl ⟨h1, hlen, h2⟩
    · exact .inr ⟨h1, hlen, h2⟩⟩
  invFun p := ⟨Function.update p.1.2 i (p.1.1 :: p.1.2 i), by
    obtain ⟨⟨w, L⟩, h⟩ := p
    have hlen : ∀ j, (L j).length = Function.update n i k j := h.elim (fun h => h.2.1) (fun h => h.2.1)
    refine ⟨fun j => ?_, w, L i, Function.update_self _ _ _, ?_⟩
    · by_cases hj : j = i
      · subst hj
        show (Function.update L j (w :: L j) j).length = n j
        rw [Function.update_self, List.length_cons, hlen j, Function.update_self, hk]
      · show (Function.update L i (w :: L i) j).length = n j
        rw [Function.update_of_ne hj, hlen j, Function.update_of_ne hj]
    · show (_ ∧ A (Function.update (Function.update L i (w :: L i)) i (L i))) ∨ (_ ∧ B (Function.update (Function.update L i (w :: L i)) i (L i)))
      rw [Function.update_idem, Function.update_eq_self]
      exact h.imp (fun h => ⟨h.1, h.2.2⟩) (fun h => ⟨h.1, h.2.2⟩)⟩
  left_inv := by
    rintro ⟨L, hn, w, l, e, h⟩
    apply Subtype.ext
    show Function.update (Function.update L i (L i).tail) i ((L i).headD 0 :: Function.update L i (L i).tail i) = L
    rw [Function.update_self, Function.update_idem, e]
    show Function.update L i (w :: l) = L
    rw [← e, Function.update_eq_self]
  right_inv := by
    rintro ⟨⟨w, L⟩, h⟩
    apply Subtype.ext
    show ((Function.update L i (w :: L i) i).headD 0, Function.update (Function.update L i (w :: L i)) i (Function.update L i (w :: L i) i).tail) = (w, L)
    rw [Function.update_self, Function.update_idem, List.tail_cons, Function.update_eq_self]
    rfl

theorem split_equiv {α β : Type} (a b : α → Prop) (hd : ∀ x, a x → b x → False) (A B : β → Prop) :
    Nonempty ({ p : α × β // (a p.1 ∧ A p.2) ∨ (b p.1 ∧ B p.2) } ≃ ({ x // a x } × { y // A y }) ⊕ ({ x // b x } × { y // B y })) := by
  classical
  have hdis : Disjoint (fun p : α × β => a p.1 ∧ A p.2) (fun p : α × β => b p.1 ∧ B p.2) := by
    rw [Pi.disjoint_iff]
    intro p
    rw [Prop.disjoint_iff]
    intro h
    exact hd _ h.1.1 h.2.1
  exact ⟨(subtypeOrEquiv _ _ hdis).trans (Equiv.sumCongr Equiv.subtypeProdEquivProd Equiv.subtypeProdEquivProd)⟩

/-- One request. -/
theorem scan_same (i : G) (P P' : (G → List U64) → Prop) (hP : SameCount P P') : ∀ (f : Nat) (c c' : List Nat), c.length = c'.length → (∀ v ∈ c, v < q) → (∀ v ∈ c', v < q) →
    SameCount (fun L => ∃ l, scan f c (L i) = some l ∧ P (Function.update L i l)) (fun L => ∃ l, scan f c' (L i) = some l ∧ P' (Function.update L i l)) := by
  have base : ∀ (f : Nat) (P : (G → List U64) → Prop) (L : G → List U64), (∃ l, scan f [] (L i) = some l ∧ P (Function.update L i l)) ↔ P L := by
    intro f P L
    rw [scan_nil]
    constructor
    · rintro ⟨l, e, h⟩
      rw [← Option.some.inj e, Function.update_eq_self] at h
      exact h
    · intro h
      exact ⟨_, rfl, by rw [Function.update_eq_self]; exact h⟩
  intro f
  induction f with
  | zero =>
    intro c c' hl _ _ n
    cases c with
    | nil =>
      obtain rfl : c' = [] := List.eq_nil_of_length_eq_zero hl.symm
      obtain ⟨e⟩ := hP n
      refine ⟨(Equiv.subtypeEquivRight fun L => ?_).trans (e.trans (Equiv.subtypeEquivRight fun L => ?_))⟩
      · exact and_congr_right fun _ => base _ _ _
      · exact and_congr_right fun _ => (base _ _ _).symm
    | cons v c =>
      cases c' with
      | nil => cases hl
      | cons v' c' =>
        have h0 : ∀ (v : Nat) (c : List Nat) (l : List U64), scan 0 (v :: c) l = none := fun _ _ _ => rfl
        refine ⟨Equiv.subtypeEquivRight fun L => ?_⟩
        simp only [h0]
        constructor
        · rintro ⟨_, l, e, _⟩; cases e
        · rintro ⟨_, l, e, _⟩; cases e
  | succ f ih =>
    intro c c' hl hc hc' n
    cases c with
    | nil =>
      obtain rfl : c' = [] := List.eq_nil_of_length_eq_zero hl.symm
      obtain ⟨e⟩ := hP n
      refine ⟨(Equiv.subtypeEquivRight fun L => ?_).trans (e.trans (Equiv.subtypeEquivRight fun L => ?_))⟩
      · exact and_congr_right fun _ => base _ _ _
      · exact and_congr_right fun _ => (base _ _ _).symm
    | cons v c =>
      cases c' with
      | nil => cases hl
      | cons v' c' =>
        have hlen : c.length = c'.length := Nat.succ.inj hl
        have step : ∀ (v : Nat) (c : List Nat) (P : (G → List U64) → Prop) (L : G → List U64),
            (∃ l, scan (f + 1) (v :: c) (L i) = some l ∧ P (Function.update L i l)) ↔
            ∃ w l, L i = w :: l ∧ ((mCand w = none ∧ (fun L => ∃ l, scan f (v :: c) (L i) = some l ∧ P (Function.update L i l)) (Function.update L i l)) ∨
              (mCand w = some v ∧ (fun L => ∃ l, scan f c (L i) = some l ∧ P (Function.update L i l)) (Function.update L i l))) := by
          intro v c P L
          cases hL : L i with
          | nil =>
            constructor
            · rintro ⟨l, e, _⟩; cases e
            · rintro ⟨w, l, e, _⟩; cases e
          | cons w l =>
            have hs : scan (f + 1) (v :: c) (w :: l) = match mCand w with
              | none => scan f (v :: c) l
              | some u => if u = v then scan f c l else none := rfl
            rw [hs]
            constructor
            · rintro ⟨l', e, h⟩
              refine ⟨w, l, rfl, ?_⟩
              cases hw : mCand w with
              | none =>
                rw [hw] at e
                refine .inl ⟨rfl, l', ?_, ?_⟩
                · rw [Function.update_self]; exact e
                · rw [Function.update_idem]; exact h
              | some u =>
                rw [hw] at e
                dsimp only at e
                split at e
                · rename_i hu
                  subst hu
                  refine .inr ⟨rfl, l', ?_, ?_⟩
                  · rw [Function.update_self]; exact e
                  · rw [Function.update_idem]; exact h
                · cases e
            · rintro ⟨w', l', e, h⟩
              obtain ⟨rfl, rfl⟩ := List.cons.inj e
              rcases h with ⟨hw, l', e, h⟩ | ⟨hw, l', e, h⟩
              · rw [Function.update_self] at e
                rw [Function.update_idem] at h
                rw [hw]
                exact ⟨l', e, h⟩
              · rw [Function.update_self] at e
                rw [Function.update_idem] at h
                rw [hw]
                dsimp only
                rw [if_pos rfl]
                exact ⟨l', e, h⟩
        rcases Nat.eq_zero_or_pos (n i) with h0 | h0
        · have em : ∀ (v : Nat) (c : List Nat) (P : (G → List U64) → Prop), IsEmpty { L : G → List U64 // (∀ j, (L j).length = n j) ∧ ∃ l, scan (f + 1) (v :: c) (L i) = some l ∧ P (Function.update L i l) } := by
            intro v c P
            refine ⟨?_⟩
            rintro ⟨L, hn, h⟩
            obtain ⟨w, l, e, _⟩ := (step v c P L).1 h
            have := hn i
            rw [h0, e, List.length_cons] at this
            omega
          have := em v c P
          have := em v' c' P'
          exact ⟨Equiv.equivOfIsEmpty _ _⟩
        · obtain ⟨k, hk⟩ : ∃ k, n i = k + 1 := ⟨n i - 1, by omega⟩
          have go : ∀ (v : Nat) (c : List Nat) (P : (G → List U64) → Prop), Nonempty (
              { L : G → List U64 // (∀ j, (L j).length = n j) ∧ ∃ l, scan (f + 1) (v :: c) (L i) = some l ∧ P (Function.update L i l) } ≃
              ({ w : U64 // mCand w = none } × { L : G → List U64 // (∀ j, (L j).length = Function.update n i k j) ∧ ∃ l, scan f (v :: c) (L i) = some l ∧ P (Function.update L i l) }) ⊕
              ({ w : U64 // mCand w = some v } × { L : G → List U64 // (∀ j, (L j).length = Function.update n i k j) ∧ ∃ l, scan f c (L i) = some l ∧ P (Function.update L i l) })) := by
            intro v c P
            obtain ⟨e⟩ := split_equiv (fun w : U64 => mCand w = none) (fun w => mCand w = some v) (fun w h1 h2 => by rw [h1] at h2; cases h2)
              (fun L : G → List U64 => (∀ j, (L j).length = Function.update n i k j) ∧ ∃ l, scan f (v :: c) (L i) = some l ∧ P (Function.update L i l))
              (fun L : G → List U64 => (∀ j, (L j).length = Function.update n i k j) ∧ ∃ l, scan f c (L i) = some l ∧ P (Function.update L i l))
            refine ⟨(Equiv.subtypeEquivRight fun L => ?_).trans ((consEquiv i n k hk (fun L => ∃ l, scan f (v :: c) (L i) = some l ∧ P (Function.update L i l)) (fun L => ∃ l, scan f c (L i) = some l ∧ P (Function.update L i l)) v).trans e)⟩
            exact and_congr_right fun _ => step _ _ _ _
          obtain ⟨e1⟩ := go v c P
          obtain ⟨e2⟩ := go v' c' P'
          obtain ⟨m⟩ := mCand_equiv v v' (hc v (List.mem_cons_self ..)) (hc' v' (List.mem_cons_self ..))
          obtain ⟨r1⟩ := ih (v :: c) (v' :: c') hl hc hc' (Function.update n i k)
          obtain ⟨r2⟩ := ih c c' hlen (fun x hx => hc x (List.mem_cons_of_mem _ hx)) (fun x hx => hc' x (List.mem_cons_of_mem _ hx)) (Function.update n i k)
          exact ⟨e1.trans ((Equiv.sumCongr (Equiv.prodCongr (Equiv.refl _) r1) (Equiv.prodCongr m r2)).trans e2.symm)⟩

/-- Requests, one after the other. -/
def runs (f : Nat) : List (G × List Nat) → (G → List U64) → Prop
  | [], _ => True
  | (i, c) :: rs, L => ∃ l, scan f c (L i) = some l ∧ runs f rs (Function.update L i l)

theorem runs_same (f : Nat) : ∀ (reqs : List G) (cs cs' : List (List Nat)), cs.length = reqs.length → cs'.length = reqs.length →
    (∀ c ∈ cs, c.length = 512 ∧ ∀ v ∈ c, v < q) → (∀ c ∈ cs', c.length = 512 ∧ ∀ v ∈ c, v < q) → SameCount (runs f (reqs.zip cs)) (runs f (reqs.zip cs')) := by
  intro reqs
  induction reqs with
  | nil => intro cs cs' _ _ _ _ n; exact ⟨Equiv.refl _⟩
  | cons i reqs ih =>
    intro cs cs' h h' hc hc'
    cases cs with
    | nil => cases h
    | cons c cs =>
      cases cs' with
      | nil => cases h'
      | cons c' cs' =>
        have h1 := hc c (List.mem_cons_self ..)
        have h2 := hc' c' (List.mem_cons_self ..)
        exact scan_same i _ _ (ih cs cs' (Nat.succ.inj h) (Nat.succ.inj h') (fun c hc1 => hc c (List.mem_cons_of_mem _ hc1)) (fun c hc1 => hc' c (List.mem_cons_of_mem _ hc1)))
          f c c' (h1.1.trans h2.1.symm) h1.2 h2.2

end

/-! ### The words of the generators -/

/-- Lane `i` of the generators will produce these words next. -/
def Lane (E : Ext) {d : Nat} (g : Mrng d) (i : Nat) (hi : i < d - 1) (l : List U64) : Prop :=
  ∀ (j : Nat) (hj : j < l.length), (E.asconP6^[j] g.state[i])[0] = l[j]

theorem Mrng.get_eq (E : Ext) {d : Nat} (g : Mrng d) {idx : Nat} (h : idx < d - 1) : g.get E idx = ((g.state[idx])[0], ⟨g.state.set idx (E.asconP6 g.state[idx])⟩) := by
  unfold Mrng.get
  rw [dif_neg (by omega)]

theorem Lane.next {E : Ext} {d : Nat} {g : Mrng d} {i : Nat} {hi : i < d - 1} {w : U64} {l : List U64} (h : Lane E g i hi (w :: l)) :
    (g.state[i])[0] = w ∧ Lane E ⟨g.state.set i (E.asconP6 g.state[i])⟩ i hi l := by
  refine ⟨h 0 (Nat.succ_pos _), fun j hj => ?_⟩
  have := h (j + 1) (Nat.succ_lt_succ hj)
  rw [Function.iterate_succ_apply] at this
  show (E.asconP6^[j] (g.state.set i (E.asconP6 g.state[i]))[i])[0] = _
  rw [Vector.getElem_set_self]
  exact this

theorem polyNats_drop (p : Poly) (ci : Nat) (h : ci < 512) : (polyNats p).drop ci = (p[ci]).raw.toNat :: (polyNats p).drop (ci + 1) := by
  have hlen : (polyNats p).length = 512 := List.length_ofFn
  rw [List.drop_eq_getElem_cons (by omega), polyNats_get p _ rfl ci (by omega) h]

theorem polyNats_drop_all (p : Poly) (ci : Nat) (h : 512 ≤ ci) : (polyNats p).drop ci = [] := by
  have hlen : (polyNats p).length = 512 := List.length_ofFn
  exact List.drop_eq_nil_of_le (by omega)

theorem mCand_of_lt (w : U64) : mCand w = if (w &&& ((1 : U64) <<< Q_BIT_WIDTH - 1)) < Q then some (w &&& ((1 : U64) <<< Q_BIT_WIDTH - 1)).toNat else none := by
  have hw : (w &&& ((1 : U64) <<< Q_BIT_WIDTH - 1)).toNat = w.toNat % 2 ^ 49 := by rw [QBW, mask49_and]
  unfold mCand
  have : ((w &&& ((1 : U64) <<< Q_BIT_WIDTH - 1)) < Q) ↔ w.toNat % 2 ^ 49 < q := by rw [← hw, ← Q_toNat]; rfl
  by_cases h : w.toNat % 2 ^ 49 < q
  · rw [if_pos h, if_pos (this.2 h), hw]
  · rw [if_neg h, if_neg (fun h' => h (this.1 h'))]

theorem samplePolyLoop_scan (E : Ext) {d : Nat} {idx : Nat} (h : idx < d - 1) (p : Poly) : ∀ (n : Nat) (g : Mrng d) (res : Poly) (ci : Nat) (l : List U64), ci ≤ 512 → n ≤ l.length → Lane E g idx h l →
    (∀ g', Poly.samplePolyLoop E idx n g res ci = .ok (p, g') → (∀ (i : Nat) (hi : i < 512), i < ci → res[i] = p[i]) ∧
      ∃ rest, scan n ((polyNats p).drop ci) l = some rest ∧ Lane E g' idx h rest ∧ l.length ≤ rest.length + n ∧ ∀ (i : Nat) (hi : i < d - 1), i ≠ idx → g'.state[i] = g.state[i]) ∧
    (∀ rest, (∀ (i : Nat) (hi : i < 512), i < ci → res[i] = p[i]) → scan n ((polyNats p).drop ci) l = some rest → ∃ g', Poly.samplePolyLoop E idx n g res ci = .ok (p, g')) := by
  intro n
  have full : ∀ (n : Nat) (g : Mrng d) (res : Poly) (ci : Nat) (l : List U64), 512 ≤ ci → Lane E g idx h l → Poly.samplePolyLoop E idx n g res ci = .ok (res, g) →
    (∀ g', Poly.samplePolyLoop E idx n g res ci = .ok (p, g') → (∀ (i : Nat) (hi : i < 512), i < ci → res[i] = p[i]) ∧
      ∃ rest, scan n ((polyNats p).drop ci) l = some rest ∧ Lane E g' idx h rest ∧ l.length ≤ rest.length + n ∧ ∀ (i : Nat) (hi : i < d - 1), i ≠ idx → g'.state[i] = g.state[i]) ∧
    (∀ rest, (∀ (i : Nat) (hi : i < 512), i < ci → res[i] = p[i]) → scan n ((polyNats p).drop ci) l = some rest → ∃ g', Poly.samplePolyLoop E idx n g res ci = .ok (p, g')) := by
    intro n g res ci l hci hl e
    rw [e, polyNats_drop_all p ci hci, scan_nil]
    constructor
    · intro g' hg
      obtain ⟨rfl, rfl⟩ := Prod.mk.inj (Res.ok.inj hg)
      exact ⟨fun _ _ _ => rfl, l, rfl, hl, Nat.le_add_right _ _, fun _ _ _ => rfl⟩
    · intro rest hres _
      have : res = p := Vector.ext fun i hi => hres i hi (by omega)
      exact ⟨g, by rw [this]⟩
  induction n with
  | zero =>
    intro g res ci l hci hn hl
    by_cases hc : ci < 512
    · unfold Poly.samplePolyLoop
      rw [if_pos hc, polyNats_drop p ci hc]
      constructor
      · intro g' hg; cases hg
      · intro rest _ hs; cases hs
    · refine full 0 g res ci l (by omega) hl ?_
      unfold Poly.samplePolyLoop
      rw [if_neg hc]
  | succ n ih =>
    intro g res ci l hci hn hl
    by_cases hc : ci < 512
    · cases l with
      | nil => exact absurd hn (by simp)
      | cons w l =>
        obtain ⟨hw, hl'⟩ := hl.next
        have hn' : n ≤ l.length := Nat.le_of_succ_le_succ hn
        unfold Poly.samplePolyLoop
        rw [if_pos hc, Mrng.get_eq E g h, polyNats_drop p ci hc]
        have hs : scan (n + 1) ((p[ci]).raw.toNat :: (polyNats p).drop (ci + 1)) (w :: l) = match mCand w with
              | none => scan n ((p[ci]).raw.toNat :: (polyNats p).drop (ci + 1)) l
              | some u => if u = (p[ci]).raw.toNat then scan n ((polyNats p).drop (ci + 1)) l else none := rfl
        rw [hs, mCand_of_lt w]
        dsimp only
        rw [hw]
        have other : ∀ (i : Nat) (hi : i < d - 1), i ≠ idx → (g.state.set idx (E.asconP6 g.state[idx]))[i] = g.state[i] := fun i hi hne => Vector.getElem_set_ne _ _ (Ne.symm hne)
        generalize hcf : w &&& ((1 : U64) <<< Q_BIT_WIDTH - 1) = cf
        by_cases hq : cf < Q
        · rw [if_pos hq, if_pos hq, wr_ok hc, Res.ok_bind]
          dsimp only
          obtain ⟨f1, f2⟩ := ih ⟨g.state.set idx (E.asconP6 g.state[idx])⟩ (res.set ci ⟨cf⟩ hc) (ci + 1) l hc hn' hl'
          constructor
          · intro g' hg
            obtain ⟨h1, rest, h2, h3, h4, h5⟩ := f1 g' hg
            have h6 := h1 ci hc (Nat.lt_succ_self _)
            rw [Vector.getElem_set_self] at h6
            refine ⟨fun i hi hlt => ?_, rest, ?_, h3, ?_, fun i hi hne => (h5 i hi hne).trans (other i hi hne)⟩
            · have := h1 i hi (by omega)
              rw [Vector.getElem_set_ne _ _ (by omega)] at this
              exact this
            · rw [if_pos (by rw [← h6])]
              exact h2
            · rw [List.length_cons]; omega
          · intro rest hres hr
            split at hr
            · rename_i hu
              refine f2 rest (fun i hi hlt => ?_) hr
              rcases Nat.lt_or_ge i ci with h1 | h1
              · rw [Vector.getElem_set_ne _ _ (by omega)]
                exact hres i hi h1
              · have : i = ci := by omega
                subst this
                rw [Vector.getElem_set_self]
                exact Zq.ext_nat hu
            · cases hr
        · rw [if_neg hq, if_neg hq]
          dsimp only
          obtain ⟨f1, f2⟩ := ih ⟨g.state.set idx (E.asconP6 g.state[idx])⟩ res ci l hci hn' hl'
          rw [polyNats_drop p ci hc] at f1 f2
          refine ⟨fun g' hg => ?_, f2⟩
          obtain ⟨h1, rest, h2, h3, h4, h5⟩ := f1 g' hg
          exact ⟨h1, rest, h2, h3, by rw [List.length_cons]; omega, fun i hi hne => (h5 i hi hne).trans (other i hi hne)⟩
    · refine full (n + 1) g res ci l (by omega) hl ?_
      unfold Poly.samplePolyLoop
      rw [if_neg hc]

/-- The generators will produce these words. -/
def Tapes (E : Ext) {d : Nat} (g : Mrng d) (L : Fin (d - 1) → List U64) : Prop := ∀ i : Fin (d - 1), Lane E g i.val i.isLt (L i)

/-- The masks drawn and the words of the generators. -/
theorem drawn_runs (E : Ext) (fuel : Nat) {d : Nat} : ∀ (sch : List (Nat × Nat)) (_ : ∀ p ∈ sch, p.1 < d - 1) (reqs : List (Fin (d - 1))), reqs.map Fin.val = sch.map Prod.fst →
    ∀ (g : Mrng d) (L : Fin (d - 1) → List U64), Tapes E g L → (∀ i, sch.length * fuel ≤ (L i).length) → ∀ ρ : List Poly, ρ.length = sch.length →
    ((∃ g', Drawn E fuel sch g ρ g') ↔ runs fuel (reqs.zip (ρ.map polyNats)) L) := by
  intro sch
  induction sch with
  | nil =>
    intro _ reqs hr g L _ _ ρ hρ
    obtain rfl : ρ = [] := List.eq_nil_of_length_eq_zero hρ
    obtain rfl : reqs = [] := List.map_eq_nil_iff.1 hr
    exact ⟨fun _ => trivial, fun _ => ⟨g, Drawn.nil g⟩⟩
  | cons p sch ih =>
    intro hs reqs hr g L hT hL ρ hρ
    cases ρ with
    | nil => cases hρ
    | cons r ρ =>
    cases reqs with
    | nil => cases hr
    | cons i reqs =>
    obtain ⟨hi, hr'⟩ := List.cons.inj hr
    have hlt : p.1 < d - 1 := hs p (List.mem_cons_self ..)
    obtain rfl : i = ⟨p.1, hlt⟩ := Fin.ext hi
    have hlen : ∀ i, sch.length * fuel + fuel ≤ (L i).length := by
      intro i
      have := hL i
      rw [List.length_cons, Nat.add_mul, Nat.one_mul] at this
      exact this
    obtain ⟨f1, f2⟩ := samplePolyLoop_scan E hlt r fuel g Poly.zero 0 (L ⟨p.1, hlt⟩) (Nat.zero_le _) (Nat.le_trans (Nat.le_add_left _ _) (hlen _)) (hT ⟨p.1, hlt⟩)
    rw [List.drop_zero] at f1 f2
    have hsp : Poly.samplePolynomial E fuel p.1 g = Poly.samplePolyLoop E p.1 fuel g Poly.zero 0 := by
      unfold Poly.samplePolynomial
      rw [if_neg (by omega)]
    have key : ∀ g₁, Poly.samplePolynomial E fuel p.1 g = .ok (r, g₁) → ∃ l, scan fuel (polyNats r) (L ⟨p.1, hlt⟩) = some l ∧
        ((∃ g', Drawn E fuel sch g₁ ρ g') ↔ runs fuel (reqs.zip (ρ.map polyNats)) (Function.update L ⟨p.1, hlt⟩ l)) := by
      intro g₁ e
      rw [hsp] at e
      obtain ⟨-, l, h1, h2, h3, h4⟩ := f1 g₁ e
      refine ⟨l, h1, ih (fun x hx => hs x (List.mem_cons_of_mem _ hx)) reqs hr' g₁ _ (fun j => ?_) (fun j => ?_) ρ (Nat.succ.inj hρ)⟩
      · by_cases hj : j = ⟨p.1, hlt⟩
        · subst hj
          rw [Function.update_self]
          exact h2
        · rw [Function.update_of_ne hj]
          intro k hk
          rw [h4 j.val j.isLt (fun e => hj (Fin.ext e))]
          exact hT j k hk
      · by_cases hj : j = ⟨p.1, hlt⟩
        · subst hj
          rw [Function.update_self]
          have := hlen ⟨p.1, hlt⟩
          omega
        · rw [Function.update_of_ne hj]
          have := hlen j
          omega
    constructor
    · rintro ⟨g', hD⟩
      cases hD with
      | cons h hD =>
        obtain ⟨l, h1, h2⟩ := key _ h
        exact ⟨l, h1, h2.1 ⟨g', hD⟩⟩
    · rintro ⟨l, h1, h2⟩
      obtain ⟨g₁, e⟩ := f2 l (fun i _ hi => absurd hi (Nat.not_lt_zero _)) h1
      rw [← hsp] at e
      obtain ⟨l', h1', h2'⟩ := key _ e
      have : l' = l := Option.some.inj (h1'.symm.trans h1)
      subst this
      obtain ⟨g', hD⟩ := h2'.2 h2
      exact ⟨g', Drawn.cons e hD⟩

/-- Tables of words and lists of words. -/
def tapeEquiv (G : Type) (M : Nat) (P : (G → List U64) → Prop) :
    { W : G → Fin M → U64 // P fun i => List.ofFn (W i) } ≃ { L : G → List U64 // (∀ i, (L i).length = M) ∧ P L } where
  toFun W := ⟨fun i => List.ofFn (W.1 i), fun _ => List.length_ofFn, W.2⟩
  invFun L := ⟨fun i j => (L.1 i)[j.val]'(by rw [L.2.1 i]; exact j.isLt), by
    have : (fun i => List.ofFn fun j : Fin M => (L.1 i)[j.val]'(by rw [L.2.1 i]; exact j.isLt)) = L.1 := by
      funext i
      apply List.ext_getElem
      · rw [List.length_ofFn, L.2.1 i]
      · intro j h1 h2
        rw [List.getElem_ofFn]
    rw [this]
    exact L.2.2⟩
  left_inv W := by
    apply Subtype.ext
    funext i j
    exact List.getElem_ofFn _
  right_inv L := by
    apply Subtype.ext
    funext i
    apply List.ext_getElem
    · show (List.ofFn _).length = _
      rw [List.length_ofFn, L.2.1 i]
    · intro j h1 h2
      show (List.ofFn _)[j] = _
      rw [List.getElem_ofFn]

/-- Every list of masks is drawn equally often. -/
theorem drawn_uniform (fuel : Nat) {d : Nat} (sch : List (Nat × Nat)) (hs : ∀ p ∈ sch, p.1 < d - 1) (M : Nat) (hM : sch.length * fuel ≤ M)
    (E : (Fin (d - 1) → Fin M → U64) → Ext) (g : (Fin (d - 1) → Fin M → U64) → Mrng d)
    (hg : ∀ (W : Fin (d - 1) → Fin M → U64) (i : Fin (d - 1)) (j : Fin M), ((E W).asconP6^[j.val] (g W).state[i.val])[0] = W i j)
    (ρ ρ' : List Poly) (h : ρ.length = sch.length) (h' : ρ'.length = sch.length) (hc : ∀ p ∈ ρ, p.Can) (hc' : ∀ p ∈ ρ', p.Can) :
    Nat.card { W : Fin (d - 1) → Fin M → U64 // ∃ g', Drawn (E W) fuel sch (g W) ρ g' } = Nat.card { W : Fin (d - 1) → Fin M → U64 // ∃ g', Drawn (E W) fuel sch (g W) ρ' g' } := by
  let reqs : List (Fin (d - 1)) := sch.pmap (fun p hp => ⟨p.1, hp⟩) hs
  have hr : reqs.map Fin.val = sch.map Prod.fst := by
    show (sch.pmap (fun p hp => (⟨p.1, hp⟩ : Fin (d - 1))) hs).map Fin.val = _
    rw [List.map_pmap]
    exact List.pmap_eq_map _
  have hl : reqs.length = sch.length := List.length_pmap
  have e : ∀ ρ : List Poly, ρ.length = sch.length → Nonempty ({ W : Fin (d - 1) → Fin M → U64 // ∃ g', Drawn (E W) fuel sch (g W) ρ g' } ≃
      { L : Fin (d - 1) → List U64 // (∀ i, (L i).length = M) ∧ runs fuel (reqs.zip (ρ.map polyNats)) L }) := by
    intro ρ hρ
    refine ⟨(Equiv.subtypeEquivRight fun W => ?_).trans (tapeEquiv (Fin (d - 1)) M (runs fuel (reqs.zip (ρ.map polyNats))))⟩
    refine drawn_runs (E W) fuel sch hs reqs hr (g W) _ (fun i j hj => ?_) (fun i => ?_) ρ hρ
    · rw [List.getElem_ofFn]
      exact hg W i ⟨j, by rwa [List.length_ofFn] at hj⟩
    · rw [List.length_ofFn]
      exact hM
  have hcan : ∀ ρ : List Poly, (∀ p ∈ ρ, p.Can) → ∀ c ∈ ρ.map polyNats, c.length = 512 ∧ ∀ v ∈ c, v < q := by
    intro ρ hρ c hc
    obtain ⟨p, hp, rfl⟩ := List.mem_map.1 hc
    refine ⟨List.length_ofFn, fun v hv => ?_⟩
    obtain ⟨i, rfl⟩ := List.mem_ofFn.1 hv
    exact hρ p hp i.val i.isLt
  obtain ⟨e1⟩ := e ρ h
  obtain ⟨e2⟩ := e ρ' h'
  obtain ⟨e3⟩ := runs_same fuel reqs (ρ.map polyNats) (ρ'.map polyNats) (by rw [List.length_map, h, hl]) (by rw [List.length_map, h', hl]) (hcan ρ hc) (hcan ρ' hc') (fun _ => M)
  exact Nat.card_congr (e1.trans (e3.trans e2.symm))

theorem Drawn.det {E : Ext} {fuel d : Nat} {sch : List (Nat × Nat)} {g g' : Mrng d} {ρ : List Poly} (h : Drawn E fuel sch g ρ g') : ∀ {ρ' : List Poly} {g'' : Mrng d}, Drawn E fuel sch g ρ' g'' → ρ = ρ' ∧ g' = g'' := by
  induction h with
  | nil g => intro ρ' g'' h; cases h; exact ⟨rfl, rfl⟩
  | cons h hs ih =>
    intro ρ' g'' h2
    cases h2 with
    | cons h' hs' =>
      obtain ⟨rfl, rfl⟩ := Prod.mk.inj (Res.ok.inj (h.symm.trans h'))
      obtain ⟨rfl, rfl⟩ := ih hs'
      exact ⟨rfl, rfl⟩

theorem scan_zero : ∀ (c n f : Nat), c ≤ n → c ≤ f → scan f (List.replicate c 0) (List.replicate n 0) = some (List.replicate (n - c) 0) := by
  have h0 : mCand 0 = some 0 := by
    unfold mCand q
    rfl
  intro c
  induction c with
  | zero => intro n f _ _; exact scan_nil _ _
  | succ c ih =>
    intro n f hn hf
    obtain ⟨n, rfl⟩ : ∃ n', n = n' + 1 := ⟨n - 1, by omega⟩
    obtain ⟨f, rfl⟩ : ∃ f', f = f' + 1 := ⟨f - 1, by omega⟩
    rw [List.replicate_succ, List.replicate_succ]
    show (match mCand 0 with
      | none => scan f (0 :: List.replicate c 0) (List.replicate n 0)
      | some u => if u = 0 then scan f (List.replicate c 0) (List.replicate n 0) else none) = _
    rw [h0]
    dsimp only
    rw [if_pos rfl, ih n f (by omega) (by omega)]
    congr 2
    omega

theorem runs_zero {G : Type} [DecidableEq G] (c fuel : Nat) (hf : c ≤ fuel) : ∀ (reqs : List G) (k : G → Nat), (∀ i, reqs.length * fuel ≤ k i) →
    runs fuel (reqs.zip (List.replicate reqs.length (List.replicate c 0))) (fun i => List.replicate (k i) 0) := by
  intro reqs
  induction reqs with
  | nil => intro _ _; trivial
  | cons i reqs ih =>
    intro k hk
    have hk' : ∀ j, reqs.length * fuel + fuel ≤ k j := by
      intro j
      have := hk j
      rw [List.length_cons, Nat.add_mul, Nat.one_mul] at this
      exact this
    refine ⟨List.replicate (k i - c) 0, scan_zero c (k i) fuel (by have := hk' i; omega) hf, ?_⟩
    have e : Function.update (fun i => List.replicate (k i) (0 : U64)) i (List.replicate (k i - c) 0) = fun j => List.replicate (Function.update k i (k i - c) j) 0 := by
      funext j
      by_cases hj : j = i
      · subst hj; rw [Function.update_self, Function.update_self]
      · rw [Function.update_of_ne hj, Function.update_of_ne hj]
    show runs fuel (reqs.zip (List.replicate reqs.length (List.replicate c 0))) _
    rw [e]
    refine ih _ fun j => ?_
    by_cases hj : j = i
    · subst hj
      rw [Function.update_self]
      have := hk' j
      omega
    · rw [Function.update_of_ne hj]
      have := hk' j
      omega

theorem polyNats_zero : polyNats Poly.zero = List.replicate 512 0 := by
  rw [List.eq_replicate_iff]
  refine ⟨List.length_ofFn, fun v hv => ?_⟩
  obtain ⟨i, rfl⟩ := List.mem_ofFn.1 hv
  have h : ∀ (i : Nat) (h : i < 512), (Poly.zero[i]).raw.toNat = 0 := by
    intro i h
    unfold Poly.zero
    rw [Vector.getElem_replicate]
    rfl
  exact h _ _

theorem drawn_zero (fuel : Nat) (hf : 512 ≤ fuel) {d : Nat} (sch : List (Nat × Nat)) (hs : ∀ p ∈ sch, p.1 < d - 1) (M : Nat) (hM : sch.length * fuel ≤ M) (E : Ext) (g : Mrng d)
    (hg : ∀ (i : Fin (d - 1)) (j : Fin M), (E.asconP6^[j.val] g.state[i.val])[0] = 0) : ∃ g', Drawn E fuel sch g (List.replicate sch.length Poly.zero) g' := by
  let reqs : List (Fin (d - 1)) := sch.pmap (fun p hp => ⟨p.1, hp⟩) hs
  have hr : reqs.map Fin.val = sch.map Prod.fst := by
    show (sch.pmap (fun p hp => (⟨p.1, hp⟩ : Fin (d - 1))) hs).map Fin.val = _
    rw [List.map_pmap]
    exact List.pmap_eq_map _
  have hl : reqs.length = sch.length := List.length_pmap
  refine (drawn_runs E fuel sch hs reqs hr g (fun _ => List.replicate M 0) (fun i j hj => ?_) (fun i => ?_) _ List.length_replicate).2 ?_
  · rw [List.getElem_replicate]
    exact hg i ⟨j, by rwa [List.length_replicate] at hj⟩
  · rw [List.length_replicate]; exact hM
  · rw [List.map_replicate, polyNats_zero, ← hl]
    exact runs_zero 512 fuel hf reqs (fun _ => M) fun _ => by rw [hl]; exact hM

/-- Counting words is counting masks: `T` is any finite collection of lists of masks. -/
theorem drawn_count (fuel : Nat) {d : Nat} (sch : List (Nat × Nat)) (hs : ∀ p ∈ sch, p.1 < d - 1) (M : Nat) (hM : sch.length * fuel ≤ M)
    (E : (Fin (d - 1) → Fin M → U64) → Ext) (g : (Fin (d - 1) → Fin M → U64) → Mrng d)
    (hg : ∀ (W : Fin (d - 1) → Fin M → U64) (i : Fin (d - 1)) (j : Fin M), ((E W).asconP6^[j.val] (g W).state[i.val])[0] = W i j) :
    ∃ N : Nat, (512 ≤ fuel → 0 < N) ∧ ∀ (T : Type) [Finite T] (list : T → List Poly), Function.Injective list → (∀ t, (list t).length = sch.length) → (∀ t, ∀ p ∈ list t, p.Can) →
      Nat.card { W : Fin (d - 1) → Fin M → U64 // ∃ t g', Drawn (E W) fuel sch (g W) (list t) g' } = Nat.card T * N := by
  have hfin : Finite U64 := Finite.of_injective BitVec.toFin (fun a b h => BitVec.eq_of_toFin_eq h)
  refine ⟨Nat.card { W : Fin (d - 1) → Fin M → U64 // ∃ g', Drawn (E W) fuel sch (g W) (List.replicate sch.length Poly.zero) g' }, fun hf => ?_, fun T _ list hinj hlen hcan => ?_⟩
  · have : Nonempty { W : Fin (d - 1) → Fin M → U64 // ∃ g', Drawn (E W) fuel sch (g W) (List.replicate sch.length Poly.zero) g' } :=
      ⟨⟨fun _ _ => 0, drawn_zero fuel hf sch hs M hM _ _ (fun i j => hg _ i j)⟩⟩
    exact Nat.card_pos
  · classical
    have : Fintype T := Fintype.ofFinite _
    let F : T → Type := fun t => { W : Fin (d - 1) → Fin M → U64 // ∃ g', Drawn (E W) fuel sch (g W) (list t) g' }
    have hF : ∀ t, Nat.card (F t) = Nat.card { W : Fin (d - 1) → Fin M → U64 // ∃ g', Drawn (E W) fuel sch (g W) (List.replicate sch.length Poly.zero) g' } := by
      intro t
      refine drawn_uniform fuel sch hs M hM E g hg _ _ (hlen t) List.length_replicate (hcan t) (fun p hp => ?_)
      rw [List.eq_of_mem_replicate hp]
      exact Poly.zero_can
    have e : { W : Fin (d - 1) → Fin M → U64 // ∃ t g', Drawn (E W) fuel sch (g W) (list t) g' } ≃ Sigma F := by
      refine (Equiv.ofBijective (fun x : Sigma F => ⟨x.2.1, x.1, x.2.2⟩) ⟨?_, ?_⟩).symm
      · rintro ⟨t, ⟨W, g1, h1⟩⟩ ⟨t', ⟨W', g2, h2⟩⟩ h
        have hW : W = W' := congrArg Subtype.val h
        subst hW
        obtain rfl := hinj (h1.det h2).1
        rfl
      · rintro ⟨W, t, hD⟩
        exact ⟨⟨t, ⟨W, hD⟩⟩, rfl⟩
    rw [Nat.card_congr e, Nat.card_sigma]
    rw [Finset.sum_congr rfl (fun ρ _ => hF ρ), Finset.sum_const, smul_eq_mul, Finset.card_univ, Nat.card_eq_fintype_card (α := T)]

/-! ### The requests of a vector -/

theorem Drawn.append {E : Ext} {fuel d : Nat} : ∀ {s s' : List (Nat × Nat)} {g g₁ g' : Mrng d} {ρ ρ' : List Poly}, Drawn E fuel s g ρ g₁ → Drawn E fuel s' g₁ ρ' g' → Drawn E fuel (s ++ s') g (ρ ++ ρ') g' := by
  intro s s' g g₁ g' ρ ρ' h h'
  induction h with
  | nil g => exact h'
  | cons h hs ih => exact Drawn.cons h (ih h')

theorem Drawn.split {E : Ext} {fuel d : Nat} : ∀ {s s' : List (Nat × Nat)} {ρ ρ' : List Poly}, ρ.length = s.length → ∀ {g g' : Mrng d}, Drawn E fuel (s ++ s') g (ρ ++ ρ') g' →
    ∃ g₁, Drawn E fuel s g ρ g₁ ∧ Drawn E fuel s' g₁ ρ' g' := by
  intro s
  induction s with
  | nil =>
    intro s' ρ ρ' hl g g' h
    obtain rfl : ρ = [] := List.eq_nil_of_length_eq_zero hl
    exact ⟨g, Drawn.nil g, h⟩
  | cons p s ih =>
    intro s' ρ ρ' hl g g' h
    cases ρ with
    | nil => cases hl
    | cons r ρ =>
      cases h with
      | cons h hs =>
        obtain ⟨g₁, h1, h2⟩ := ih (Nat.succ.inj hl) hs
        exact ⟨g₁, Drawn.cons h h1, h2⟩

/-- When the masks are drawn the code gets through. -/
theorem foldl_drawn (E : Ext) (fuel : Nat) {d : Nat} : ∀ (sch : List (Nat × Nat)), (∀ p ∈ sch, p.1 + p.2 < d ∧ 0 < p.2) → ∀ (v : MPoly d) (g g' : Mrng d) (ρ : List Poly), Drawn E fuel sch g ρ g' →
    ∃ v', sch.foldlM (fun s (p : Nat × Nat) => MPoly.maskPair E fuel p.1 p.2 s) (v, g) = .ok (v', g') := by
  intro sch
  induction sch with
  | nil =>
    intro _ v g g' ρ h
    cases h
    exact ⟨v, rfl⟩
  | cons p ps ih =>
    intro hp v g g' ρ h
    cases h with
    | @cons _ _ _ g₁ _ r rs h hs =>
      obtain ⟨h1, h2⟩ := hp p (List.mem_cons_self ..)
      have hs1 : p.1 < d := by omega
      have : ∃ v1, MPoly.maskPair E fuel p.1 p.2 (v, g) = .ok (v1, g₁) := by
        unfold MPoly.maskPair
        rw [h, Res.ok_bind]
        dsimp only
        rw [rd_ok hs1, Res.ok_bind, wr_ok hs1, Res.ok_bind, rd_ok h1, Res.ok_bind, wr_ok h1, Res.ok_bind]
        exact ⟨_, rfl⟩
      obtain ⟨v1, e⟩ := this
      rw [List.foldlM_cons, e, Res.ok_bind]
      exact ih (fun x hx => hp x (List.mem_cons_of_mem _ hx)) v1 g₁ g' rs hs

/-- `zero_encoding` returns exactly what the masks drawn say. -/
theorem zeroEncoding_iff (E : Ext) (fuel m : Nat) (g : Mrng (2 ^ m)) (v : MPoly (2 ^ m)) (hv : MPoly.Can v) (g' : Mrng (2 ^ m)) :
    MPoly.zeroEncoding E fuel g = .ok (v, g') ↔ ∃ ρ : Fin (maskSchedule m).length → RPoly, Drawn E fuel (maskSchedule m) g (List.ofFn fun t => Poly.ofZ (ρ t)) g' ∧
      ∀ s : Fin (2 ^ m), (v[s.val]).toZ = maskedShare (maskSchedule m) ρ s.val := by
  have hz : MPoly.Can (MPoly.zero (2 ^ m)) := by
    intro s hs
    unfold MPoly.zero
    rw [Vector.getElem_replicate]
    exact Poly.zero_can
  constructor
  · intro h
    obtain ⟨ρ, h1, h2, h3⟩ := zeroEncoding_masks E fuel m g v g' h
    refine ⟨fun t => (ρ t).toZ, ?_, fun s => h3 s.val s.isLt⟩
    have : (fun t => Poly.ofZ (ρ t).toZ) = ρ := funext fun t => Poly.toZ_ofZ (h2 t)
    show Drawn E fuel (maskSchedule m) g (List.ofFn fun t => Poly.ofZ (ρ t).toZ) g'
    rw [this]
    exact h1
  · rintro ⟨ρ, h1, h2⟩
    obtain ⟨v', e⟩ := foldl_drawn E fuel (maskSchedule m) (fun p hp => ((C20_schedule_bounds m).1 p hp).2) (MPoly.zero (2 ^ m)) g g' _ h1
    have e' : MPoly.zeroEncoding E fuel g = .ok (v', g') := by rw [C20_schedule]; exact e
    obtain ⟨ρ', k1, k2, k3⟩ := zeroEncoding_masks E fuel m g v' g' e'
    have hρ : (fun t => Poly.ofZ (ρ t)) = ρ' := List.ofFn_injective (h1.det k1).1
    have hρ' : (fun t => (ρ' t).toZ) = ρ := by
      rw [← hρ]
      exact funext fun t => Poly.ofZ_toZ _
    have hv' : MPoly.Can v' := ((C20_zero_encoding E fuel (2 ^ m) ⟨m, rfl⟩ g).2 v' g' e').1
    have : v' = v := by
      apply Vector.ext
      intro s hs
      refine (Poly.toZ_inj (hv' s hs) (hv s hs)).1 ?_
      rw [k3 s hs, hρ']
      exact (h2 ⟨s, hs⟩).symm
    rw [e', this]

end Raccoon
