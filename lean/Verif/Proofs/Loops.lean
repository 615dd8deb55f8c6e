import Verif.Model.Basic
/-!
# Reasoning principles for outcomes and loops
-/
namespace Raccoon

namespace Res

/-- Defined, finished, and the result satisfies `P`. -/
def Ok (r : Res α) (P : α → Prop) : Prop := ∃ a, r = .ok a ∧ P a
/-- No undefined behaviour; if finished, the result satisfies `P`. -/
def Safe (r : Res α) (P : α → Prop) : Prop :=
  match r with
  | .ok a => P a
  | .ub => False
  | .nofuel => True
/-- If defined and finished, the result satisfies `P`. -/
def Par (r : Res α) (P : α → Prop) : Prop := ∀ a, r = .ok a → P a

theorem Ok.safe {r : Res α} {P : α → Prop} (h : r.Ok P) : r.Safe P := by
  obtain ⟨a, rfl, h⟩ := h; exact h
theorem Safe.par {r : Res α} {P : α → Prop} (h : r.Safe P) : r.Par P := by
  rintro a rfl; exact h
theorem Ok.par {r : Res α} {P : α → Prop} (h : r.Ok P) : r.Par P := h.safe.par

@[simp] theorem safe_ok {a : α} {P : α → Prop} : (Res.ok a).Safe P ↔ P a := Iff.rfl
@[simp] theorem safe_ub {P : α → Prop} : (Res.ub : Res α).Safe P ↔ False := Iff.rfl
@[simp] theorem safe_nofuel {P : α → Prop} : (Res.nofuel : Res α).Safe P ↔ True := Iff.rfl
@[simp] theorem ok_ok {a : α} {P : α → Prop} : (Res.ok a).Ok P ↔ P a := by simp [Ok]
@[simp] theorem par_ok {a : α} {P : α → Prop} : (Res.ok a).Par P ↔ P a := by simp [Par]

theorem Safe.mono {r : Res α} {P R : α → Prop} (h : r.Safe P) (hi : ∀ a, P a → R a) : r.Safe R := by
  cases r <;> simp_all
theorem Ok.mono {r : Res α} {P R : α → Prop} (h : r.Ok P) (hi : ∀ a, P a → R a) : r.Ok R := by
  obtain ⟨a, h1, h2⟩ := h; exact ⟨a, h1, hi a h2⟩
theorem Par.mono {r : Res α} {P R : α → Prop} (h : r.Par P) (hi : ∀ a, P a → R a) : r.Par R :=
  fun a ha => hi a (h a ha)

theorem Safe.bind {r : Res α} {f : α → Res β} {P : α → Prop} {R : β → Prop}
    (h : r.Safe P) (hf : ∀ a, P a → (f a).Safe R) : (r >>= f).Safe R := by
  cases r <;> simp_all
theorem Ok.bind {r : Res α} {f : α → Res β} {P : α → Prop} {R : β → Prop}
    (h : r.Ok P) (hf : ∀ a, P a → (f a).Ok R) : (r >>= f).Ok R := by
  obtain ⟨a, rfl, h⟩ := h; exact hf a h
theorem Par.bind {r : Res α} {f : α → Res β} {P : α → Prop} {R : β → Prop}
    (h : r.Par P) (hf : ∀ a, P a → (f a).Par R) : (r >>= f).Par R := by
  intro b hb
  obtain ⟨a, h1, h2⟩ := bind_eq_ok.1 hb
  exact hf a (h a h1) b h2

theorem Safe.and {r : Res α} {P R : α → Prop} (h : r.Safe P) (h' : r.Safe R) : r.Safe (fun a => P a ∧ R a) := by
  cases r <;> simp_all
theorem Safe.ne_ub {r : Res α} {P : α → Prop} (h : r.Safe P) : r ≠ .ub := by
  rintro rfl; exact h

end Res

/-! ### `forLoop` -/

theorem forLoop_nil {σ : Type u} {lo hi step : Nat} (h : hi ≤ lo) (hst : 0 < step) (body : Nat → σ → Res σ) (s : σ) :
    forLoop lo hi step body s = .ok s := by
  have : (hi - lo + step - 1) / step = 0 := Nat.div_eq_of_lt (by omega)
  simp [forLoop, this]

theorem forLoop_cons {σ : Type u} {lo hi step : Nat} (h : lo < hi) (hst : 0 < step) (body : Nat → σ → Res σ) (s : σ) :
    forLoop lo hi step body s = body lo s >>= forLoop (lo + step) hi step body := by
  have h1 : (hi - lo + step - 1) / step = (hi - (lo + step) + step - 1) / step + 1 := by
    rcases Nat.lt_or_ge (lo + step) hi with h2 | h2
    · have : hi - lo + step - 1 = (hi - (lo + step) + step - 1) + step := by omega
      rw [this, Nat.add_div_right _ hst]
    · have e1 : hi - (lo + step) + step - 1 = step - 1 := by omega
      rw [e1, Nat.div_eq_of_lt (by omega : step - 1 < step)]
      have : hi - lo + step - 1 = (hi - lo - 1) + step := by omega
      rw [this, Nat.add_div_right _ hst, Nat.div_eq_of_lt (by omega)]
  simp only [forLoop, h1, List.range'_succ, List.foldlM_cons]
  rfl

/-- Total rule: the invariant is indexed by the loop counter. -/
theorem forLoop_Ok {σ : Type u} {lo hi step : Nat} (hst : 0 < step) {body : Nat → σ → Res σ} {s : σ}
    (I : Nat → σ → Prop) (h0 : I lo s)
    (hs : ∀ i s, lo ≤ i → i < hi → step ∣ i - lo → I i s → (body i s).Ok (I (i + step))) :
    (forLoop lo hi step body s).Ok (fun s' => ∃ i, hi ≤ i ∧ (i = lo ∨ i < hi + step) ∧ step ∣ i - lo ∧ lo ≤ i ∧ I i s') := by
  suffices H : ∀ n i s, hi - i ≤ n → lo ≤ i → (i = lo ∨ i < hi + step) → step ∣ i - lo → I i s →
      (forLoop i hi step body s).Ok (fun s' => ∃ i, hi ≤ i ∧ (i = lo ∨ i < hi + step) ∧ step ∣ i - lo ∧ lo ≤ i ∧ I i s') from
    H (hi - lo) lo s (Nat.le_refl _) (Nat.le_refl _) (Or.inl rfl) (by simp) h0
  intro n
  induction n with
  | zero =>
    intro i s h1 h2 h3 h4 h5
    rw [forLoop_nil (by omega) hst]
    simp only [Res.ok_ok]
    exact ⟨i, by omega, h3, h4, h2, h5⟩
  | succ n ih =>
    intro i s h1 h2 h3 h4 h5
    rcases Nat.lt_or_ge i hi with hlt | hge
    · rw [forLoop_cons hlt hst]
      refine (hs i s h2 hlt h4 h5).bind fun s' h' => ?_
      refine ih _ _ (by omega) (by omega) (by omega) ?_ h'
      have : i + step - lo = (i - lo) + step := by omega
      rw [this]; exact Nat.dvd_add h4 (Nat.dvd_refl _)
    · rw [forLoop_nil hge hst]
      simp only [Res.ok_ok]
      exact ⟨i, hge, h3, h4, h2, h5⟩

/-- Total rule for step 1. -/
theorem forLoop_Ok1 {σ : Type u} {lo hi : Nat} (hle : lo ≤ hi) {body : Nat → σ → Res σ} {s : σ}
    (I : Nat → σ → Prop) (h0 : I lo s)
    (hs : ∀ i s, lo ≤ i → i < hi → I i s → (body i s).Ok (I (i + 1))) :
    (forLoop lo hi 1 body s).Ok (I hi) := by
  refine (forLoop_Ok (by omega) I h0 fun i s h1 h2 _ h3 => hs i s h1 h2 h3).mono ?_
  rintro a ⟨i, h1, h2, -, h3, h4⟩
  have : i = hi := by omega
  exact this ▸ h4

/-- No-UB rule for step 1. -/
theorem forLoop_Safe1 {σ : Type u} {lo hi : Nat} (hle : lo ≤ hi) {body : Nat → σ → Res σ} {s : σ}
    (I : Nat → σ → Prop) (h0 : I lo s)
    (hs : ∀ i s, lo ≤ i → i < hi → I i s → (body i s).Safe (I (i + 1))) :
    (forLoop lo hi 1 body s).Safe (I hi) := by
  suffices H : ∀ n i s, hi - i ≤ n → lo ≤ i → i ≤ hi → I i s → (forLoop i hi 1 body s).Safe (I hi) from
    H (hi - lo) lo s (Nat.le_refl _) (Nat.le_refl _) hle h0
  intro n
  induction n with
  | zero =>
    intro i s h1 h2 h3 h4
    have : i = hi := by omega
    rw [forLoop_nil (by omega) (by omega)]
    exact this ▸ h4
  | succ n ih =>
    intro i s h1 h2 h3 h4
    rcases Nat.lt_or_ge i hi with hlt | hge
    · rw [forLoop_cons hlt (by omega)]
      exact (hs i s h2 hlt h4).bind fun s' h' => ih _ _ (by omega) (by omega) (by omega) h'
    · have : i = hi := by omega
      rw [forLoop_nil hge (by omega)]
      exact this ▸ h4

/-- Partial-correctness rule for step 1. -/
theorem forLoop_Par1 {σ : Type u} {lo hi : Nat} (hle : lo ≤ hi) {body : Nat → σ → Res σ} {s : σ}
    (I : Nat → σ → Prop) (h0 : I lo s)
    (hs : ∀ i s, lo ≤ i → i < hi → I i s → (body i s).Par (I (i + 1))) :
    (forLoop lo hi 1 body s).Par (I hi) := by
  suffices H : ∀ n i s, hi - i ≤ n → lo ≤ i → i ≤ hi → I i s → (forLoop i hi 1 body s).Par (I hi) from
    H (hi - lo) lo s (Nat.le_refl _) (Nat.le_refl _) hle h0
  intro n
  induction n with
  | zero =>
    intro i s h1 h2 h3 h4
    have : i = hi := by omega
    rw [forLoop_nil (by omega) (by omega)]
    simpa using this ▸ h4
  | succ n ih =>
    intro i s h1 h2 h3 h4
    rcases Nat.lt_or_ge i hi with hlt | hge
    · rw [forLoop_cons hlt (by omega)]
      exact (hs i s h2 hlt h4).bind fun s' h' => ih _ _ (by omega) (by omega) (by omega) h'
    · have : i = hi := by omega
      rw [forLoop_nil hge (by omega)]
      simpa using this ▸ h4

/-- No-UB rule for an arbitrary positive step. -/
theorem forLoop_Safe {σ : Type u} {lo hi step : Nat} (hst : 0 < step) {body : Nat → σ → Res σ} {s : σ}
    (I : σ → Prop) (h0 : I s)
    (hs : ∀ i s, lo ≤ i → i < hi → step ∣ i - lo → I s → (body i s).Safe I) :
    (forLoop lo hi step body s).Safe I := by
  suffices H : ∀ n i s, hi - i ≤ n → lo ≤ i → step ∣ i - lo → I s → (forLoop i hi step body s).Safe I from
    H (hi - lo) lo s (Nat.le_refl _) (Nat.le_refl _) (by simp) h0
  intro n
  induction n with
  | zero =>
    intro i s h1 h2 h3 h4
    rw [forLoop_nil (by omega) hst]
    exact h4
  | succ n ih =>
    intro i s h1 h2 h3 h4
    rcases Nat.lt_or_ge i hi with hlt | hge
    · rw [forLoop_cons hlt hst]
      refine (hs i s h2 hlt h3 h4).bind fun s' h' => ih _ _ (by omega) (by omega) ?_ h'
      have : i + step - lo = (i - lo) + step := by omega
      rw [this]; exact Nat.dvd_add h3 (Nat.dvd_refl _)
    · rw [forLoop_nil hge hst]
      exact h4

/-- If the body never fails, the loop is a plain fold. -/
theorem forLoop_pure {σ : Type u} {lo hi step : Nat} {body : Nat → σ → Res σ} {f : Nat → σ → σ} {s : σ}
    (h : ∀ i s, body i s = .ok (f i s)) :
    forLoop lo hi step body s =
      .ok ((List.range' lo ((hi - lo + step - 1) / step) step).foldl (fun s i => f i s) s) := by
  unfold forLoop
  generalize List.range' lo ((hi - lo + step - 1) / step) step = L
  induction L generalizing s with
  | nil => rfl
  | cons a L ih => rw [List.foldlM_cons, h a s, Res.ok_bind, ih]; rfl

/-- Congruence: bodies agreeing on the visited indices give the same loop. -/
theorem forLoop_congr {σ : Type u} {lo hi step : Nat} (hst : 0 < step) {b1 b2 : Nat → σ → Res σ} {s : σ}
    (h : ∀ i s, lo ≤ i → i < hi → b1 i s = b2 i s) : forLoop lo hi step b1 s = forLoop lo hi step b2 s := by
  suffices H : ∀ n i s, hi - i ≤ n → lo ≤ i → forLoop i hi step b1 s = forLoop i hi step b2 s from
    H (hi - lo) lo s (Nat.le_refl _) (Nat.le_refl _)
  intro n
  induction n with
  | zero => intro i s h1 h2; rw [forLoop_nil (by omega) hst, forLoop_nil (by omega) hst]
  | succ n ih =>
    intro i s h1 h2
    rcases Nat.lt_or_ge i hi with hlt | hge
    · rw [forLoop_cons hlt hst, forLoop_cons hlt hst, h i s h2 hlt]
      cases b2 i s with
      | ok a => exact ih _ _ (by omega) (by omega)
      | ub => rfl
      | nofuel => rfl
    · rw [forLoop_nil hge hst, forLoop_nil hge hst]

/-! ### `Vector.rd`, `wr`, `mapR` -/

theorem rd_ok {α : Type u} {n : Nat} {v : Vector α n} {i : Nat} (h : i < n) : v.rd i = .ok v[i] := by
  simp [Vector.rd, h]
theorem wr_ok {α : Type u} {n : Nat} {v : Vector α n} {i : Nat} {x : α} (h : i < n) : v.wr i x = .ok (v.set i x h) := by
  simp [Vector.wr, h]
theorem rd_eq_ok {α : Type u} {n : Nat} {v : Vector α n} {i : Nat} {a : α} :
    v.rd i = .ok a ↔ ∃ h : i < n, v[i] = a := by
  unfold Vector.rd
  split
  · simp_all
  · constructor
    · intro h; cases h
    · rintro ⟨h, _⟩; contradiction

theorem list_mapM_ok {α β : Type u} {f : α → Res β} {g : α → β} {l : List α} (h : ∀ a ∈ l, f a = .ok (g a)) :
    l.mapM f = .ok (l.map g) := by
  induction l with
  | nil => rfl
  | cons a l ih =>
    rw [List.mapM_cons, h a (by simp), ih fun b hb => h b (by simp [hb])]
    simp

theorem mapR_ok {α β : Type u} {n : Nat} {f : α → Res β} {g : α → β} {v : Vector α n}
    (h : ∀ i (hi : i < n), f v[i] = .ok (g v[i])) : v.mapR f = .ok (v.map g) := by
  have h' : ∀ a ∈ v.toArray.toList, f a = .ok (g a) := by
    intro a ha
    obtain ⟨i, hi, rfl⟩ := List.mem_iff_getElem.1 ha
    have hi' : i < n := by simpa using hi
    simpa using h i hi'
  have e1 : Vector.toArray <$> v.mapM f = .ok (v.toArray.map g) := by
    rw [Vector.toArray_mapM, Array.mapM_eq_mapM_toList, list_mapM_ok h']
    simp only [Res.ok_map, Res.ok.injEq]
    apply Array.toList_inj.1
    simp
  unfold Vector.mapR
  cases hm : v.mapM f with
  | ok w =>
    rw [hm] at e1
    simp only [Res.ok_map, Res.ok.injEq] at e1
    congr 1
    apply Vector.toArray_inj.1
    rw [e1]; simp
  | ub => rw [hm] at e1; cases e1
  | nofuel => rw [hm] at e1; cases e1

theorem list_mapM_eq_ok {α β : Type u} {f : α → Res β} {l : List α} {r : List β} :
    l.mapM f = .ok r ↔ l.map f = r.map Res.ok := by
  induction l generalizing r with
  | nil => cases r <;> simp
  | cons a l ih =>
    rw [List.mapM_cons, Res.bind_eq_ok]
    constructor
    · rintro ⟨b, h1, h2⟩
      obtain ⟨bs, h3, h4⟩ := Res.bind_eq_ok.1 h2
      simp at h4; subst h4
      simp [h1, ih.1 h3]
    · intro h
      cases r with
      | nil => simp at h
      | cons b bs =>
        simp at h
        exact ⟨b, h.1, by rw [ih.2 h.2]; simp⟩

theorem mapR_eq_ok {α β : Type u} {n : Nat} {f : α → Res β} {v : Vector α n} {w : Vector β n} :
    v.mapR f = .ok w ↔ ∀ i (hi : i < n), f v[i] = .ok w[i] := by
  have e : Vector.toArray <$> v.mapM f = Array.mapM f v.toArray := Vector.toArray_mapM
  have key : v.mapR f = .ok w ↔ v.toArray.toList.map f = w.toArray.toList.map Res.ok := by
    rw [← list_mapM_eq_ok]
    unfold Vector.mapR
    rw [Array.mapM_eq_mapM_toList] at e
    constructor
    · intro h
      rw [h] at e
      cases h2 : List.mapM f v.toArray.toList with
      | ok r => rw [h2] at e; simp at e; simp [e]
      | ub => rw [h2] at e; cases e
      | nofuel => rw [h2] at e; cases e
    · intro h
      rw [h] at e
      cases h2 : v.mapM f with
      | ok r =>
        rw [h2] at e; simp at e
        rw [e]
      | ub => rw [h2] at e; cases e
      | nofuel => rw [h2] at e; cases e
  rw [key]
  constructor
  · intro h i hi
    have := congrArg (fun l => l[i]?) h
    simpa [hi] using this
  · intro h
    apply List.ext_getElem
    · simp
    · intro i h1 h2
      have hi : i < n := by simpa using h1
      simpa using h i hi

theorem mapR_safe {α β : Type u} {n : Nat} {f : α → Res β} {v : Vector α n} (P : Nat → β → Prop)
    (h : ∀ i (hi : i < n), (f v[i]).Safe (P i)) : (v.mapR f).Safe (fun w => ∀ i (hi : i < n), P i w[i]) := by
  cases hm : v.mapR f with
  | ok w =>
    intro i hi
    have := h i hi
    rw [(mapR_eq_ok.1 hm) i hi] at this
    exact this
  | nofuel => trivial
  | ub =>
    exfalso
    have e : Vector.toArray <$> v.mapM f = Array.mapM f v.toArray := Vector.toArray_mapM
    unfold Vector.mapR at hm
    rw [hm, Array.mapM_eq_mapM_toList] at e
    have hl : ∀ l : List α, (∀ a ∈ l, ∃ i, ∃ hi : i < n, v[i] = a) → l.mapM f ≠ .ub := by
      intro l
      induction l with
      | nil => intro _ hh; cases hh
      | cons a l ih =>
        intro ha hh
        rw [List.mapM_cons] at hh
        obtain ⟨i, hi, hia⟩ := ha a (by simp)
        have h1 := h i hi
        rw [hia] at h1
        cases hfa : f a with
        | ok b =>
          rw [hfa] at hh
          simp only [Res.ok_bind] at hh
          cases hl : l.mapM f with
          | ok r => rw [hl] at hh; cases hh
          | nofuel => rw [hl] at hh; cases hh
          | ub => exact ih (fun b hb => ha b (by simp [hb])) hl
        | ub => rw [hfa] at h1; exact h1
        | nofuel => rw [hfa] at hh; cases hh
    apply hl v.toArray.toList
    · intro a ha
      obtain ⟨i, hi, rfl⟩ := List.mem_iff_getElem.1 ha
      exact ⟨i, by simpa using hi, by simp⟩
    · cases h2 : List.mapM f v.toArray.toList with
      | ok r => rw [h2] at e; cases e
      | ub => rfl
      | nofuel => rw [h2] at e; cases e

end Raccoon
