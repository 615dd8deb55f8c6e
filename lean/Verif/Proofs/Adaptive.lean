import Verif.Spec.Adaptive
import Verif.Proofs.Simulate
/-!
# Games with an attacker
-/
namespace Raccoon
attribute [-instance] Monoid.toNPow
open Finset

theorem foldl_play {O : Type} {M : Nat} (step : Fin M → List O → O) : ∀ (is : List (Fin M)) (v : List O),
    ∃ w, is.foldl (fun v n => v ++ [step n v]) v = v ++ w ∧ w.length = is.length ∧
      ∀ j (hj : j < is.length) (hw : j < w.length), w[j] = step is[j] (v ++ w.take j)
  | [], v => ⟨[], by simp, rfl, fun j hj => absurd hj (Nat.not_lt_zero _)⟩
  | i :: is, v => by
    obtain ⟨w, e, hl, hw⟩ := foldl_play step is (v ++ [step i v])
    refine ⟨step i v :: w, ?_, by simp [hl], ?_⟩
    · rw [List.foldl_cons, e, List.append_assoc]; rfl
    · intro j hj hj'
      cases j with
      | zero => simp
      | succ j =>
        have hj2 : j < is.length := by rw [List.length_cons] at hj; omega
        have := hw j hj2 (by omega)
        simp only [List.getElem_cons_succ, List.take_succ_cons]
        rw [this, List.append_assoc]; rfl

/-- What a game shows: in every step what the step function says. -/
theorem play_spec {O : Type} {M : Nat} (step : Fin M → List O → O) : (play step).length = M ∧
    ∀ n (hn : n < M) (h : n < (play step).length), (play step)[n] = step ⟨n, hn⟩ ((play step).take n) := by
  obtain ⟨w, e, hl, hw⟩ := foldl_play step (List.finRange M) []
  have e' : play step = w := by unfold play; rw [e]; rfl
  rw [e']
  rw [List.length_finRange] at hl
  refine ⟨hl, fun n hn h => ?_⟩
  have := hw n (by rw [List.length_finRange]; exact hn) h
  rw [this, List.getElem_finRange]; rfl

/-- A list of outcomes in which every step is as the step function says is the game. -/
theorem play_unique {O : Type} {M : Nat} (step : Fin M → List O → O) (v : List O) (hl : v.length = M)
    (h : ∀ n (hn : n < M) (hv : n < v.length), v[n] = step ⟨n, hn⟩ (v.take n)) : v = play step := by
  obtain ⟨hl', h'⟩ := play_spec step
  have key : ∀ n, n ≤ M → v.take n = (play step).take n := by
    intro n
    induction n with
    | zero => intro _; rfl
    | succ n ih =>
      intro hn
      have e := ih (by omega)
      rw [List.take_succ_eq_append_getElem (by omega : n < v.length), List.take_succ_eq_append_getElem (by omega : n < (play step).length), e,
        h n (by omega) (by omega), h' n (by omega) (by omega), e]
  have := key M (Nat.le_refl _)
  rwa [List.take_of_length_le (by omega), List.take_of_length_le (by omega)] at this

/-- Oracle answers at points chosen along the way, if these are different from each other, are independent uniform values. -/
theorem oracle_count_adaptive {Ω A C V : Type} [Fintype Ω] [Fintype A] [DecidableEq A] [Fintype C] [DecidableEq C] {N : Nat}
    (real : Ω → (A → C) → V) (given : Ω → (Fin N → C) → V) (ans : V → Fin N → C) (p : V → Fin N → A)
    (h1 : ∀ w H, real w H = given w (ans (real w H)) ∧ ∀ n, H (p (real w H) n) = ans (real w H) n)
    (h2 : ∀ w c, ans (given w c) = c) (h3 : ∀ w H c, (∀ n, H (p (given w c) n) = c n) → real w H = given w c)
    (Q : V → Prop) (hQ : ∀ w c, Q (given w c) → Function.Injective (p (given w c))) :
    Nat.card {x : Ω × (A → C) // Q (real x.1 x.2)} * Fintype.card C ^ N = Nat.card {x : Ω × (Fin N → C) // Q (given x.1 x.2)} * Fintype.card (A → C) := by
  classical
  have e1 : Nat.card {x : Ω × (A → C) // Q (real x.1 x.2)} =
      ∑ x : Ω × (Fin N → C), if Q (given x.1 x.2) then (univ.filter fun H : A → C => ∀ n, H (p (given x.1 x.2) n) = x.2 n).card else 0 := by
    rw [Nat.card_eq_fintype_card, Fintype.card_subtype, ← Finset.sum_filter]
    rw [Finset.card_eq_sum_card_fiberwise (f := fun x : Ω × (A → C) => (x.1, ans (real x.1 x.2))) (t := univ.filter fun x : Ω × (Fin N → C) => Q (given x.1 x.2))]
    · refine Finset.sum_congr rfl fun y hy => ?_
      obtain ⟨w, c⟩ := y
      refine Finset.card_bij' (fun x _ => x.2) (fun H _ => (w, H)) ?_ ?_ ?_ ?_
      · rintro ⟨w', H⟩ hx
        obtain ⟨-, hx⟩ := Finset.mem_filter.1 hx
        obtain ⟨rfl, h4⟩ := Prod.mk.inj hx
        replace h4 : ans (real w' H) = c := h4
        obtain ⟨k1, k2⟩ := h1 w' H
        rw [h4] at k1 k2
        exact Finset.mem_filter.2 ⟨Finset.mem_univ _, fun n => by rw [← k1]; exact k2 n⟩
      · intro H hH
        obtain ⟨-, hH⟩ := Finset.mem_filter.1 hH
        have e : real w H = given w c := h3 w H c hH
        refine Finset.mem_filter.2 ⟨Finset.mem_filter.2 ⟨Finset.mem_univ _, ?_⟩, ?_⟩
        · show Q (real w H)
          rw [e]; exact (Finset.mem_filter.1 hy).2
        · show (w, ans (real w H)) = (w, c)
          rw [e, h2]
      · rintro ⟨w', H⟩ hx
        obtain ⟨-, hx⟩ := Finset.mem_filter.1 hx
        obtain ⟨rfl, hx⟩ := Prod.mk.inj hx
        rfl
      · intro H _; rfl
    · intro x hx
      refine Finset.mem_coe.2 (Finset.mem_filter.2 ⟨Finset.mem_univ _, ?_⟩)
      show Q (given x.1 (ans (real x.1 x.2)))
      rw [← (h1 x.1 x.2).1]
      exact (Finset.mem_filter.1 (Finset.mem_coe.1 hx)).2
  rw [e1, Finset.sum_mul, Nat.card_eq_fintype_card, Fintype.card_subtype, Finset.card_filter, Finset.sum_mul]
  refine Finset.sum_congr rfl fun x _ => ?_
  split
  · next h => rw [card_points (p (given x.1 x.2)) (hQ x.1 x.2 h), one_mul]
  · rw [zero_mul, zero_mul]

section
variable {k l u ν M : Nat} {κ C D : Type} [Fintype κ]

/-- The game against the signer, with given hash values. -/
def givenGame (A : Attacker k l ν C D) (hν : 0 < q / 2 ^ ν) (a : Fin k → Fin l → RPoly) (s : Fin l → Fin 512 → Int) (ch : C → Fin 512 → Int) (c : Fin M → C)
    (W : NoiseTable M l k u κ) : List (Outcome k l ν C) :=
  play fun (n : Fin M) v =>
    (if A.signs n then signerW ν hν a (maskOf W n) (errorOf W n) else A.commitment v, c n,
      if A.signs n then some fun j x => negacyclicZ (s j) (ch (c n)) x + maskOf W n j x else none)

/-- The game as a function of responses and errors. -/
def gameOf (A : Attacker k l ν C D) (hν : 0 < q / 2 ^ ν) (a : Fin k → Fin l → RPoly) (b : Fin k → RPoly) (ch : C → Fin 512 → Int) (c : Fin M → C)
    (y : Fin M × (Fin l ⊕ Fin k) × Fin 512 → Int) : List (Outcome k l ν C) :=
  play fun (n : Fin M) v =>
    (if A.signs n then simulatorW ν hν a b (ch (c n)) (fun j x => y (n, Sum.inl j, x)) (fun i x => y (n, Sum.inr i, x)) else A.commitment v, c n,
      if A.signs n then some fun j x => y (n, Sum.inl j, x) else none)

/-- What secret and error contribute, in signing steps. -/
def gameShift (A : Attacker k l ν C D) (s : Fin l → Fin 512 → Int) (e₀ : Fin k → Fin 512 → Int) (ch : C → Fin 512 → Int) (c : Fin M → C) :
    Fin M × (Fin l ⊕ Fin k) × Fin 512 → Int := fun i => if A.signs i.1 then shiftOf s e₀ ch c i else 0

theorem simulatedGame_eq (A : Attacker k l ν C D) (hν : 0 < q / 2 ^ ν) (a : Fin k → Fin l → RPoly) (b : Fin k → RPoly) (ch : C → Fin 512 → Int) (c : Fin M → C)
    (W : NoiseTable M l k u κ) : simulatedGame A hν a b ch c W = gameOf A hν a b ch c (0 + tableSum u W) := by
  rw [zero_add]; rfl

theorem givenGame_eq (A : Attacker k l ν C D) (hν : 0 < q / 2 ^ ν) (a : Fin k → Fin l → RPoly) (s : Fin l → Fin 512 → Int) (e₀ : Fin k → Fin 512 → Int)
    (ch : C → Fin 512 → Int) (c : Fin M → C) (W : NoiseTable M l k u κ) :
    givenGame A hν a s ch c W = gameOf A hν a (publicB a s e₀) ch c (gameShift A s e₀ ch c + tableSum u W) := by
  unfold givenGame gameOf
  refine congrArg (play (O := Outcome k l ν C) (M := M)) ?_
  funext n v
  by_cases h : A.signs n = true
  · have e1 : (fun (j : Fin l) (x : Fin 512) => (gameShift A s e₀ ch c + tableSum u W) (n, Sum.inl j, x)) =
        fun j x => negacyclicZ (s j) (ch (c n)) x + maskOf W n j x := by
      funext j x
      rw [Pi.add_apply]
      unfold gameShift
      rw [if_pos h]; rfl
    have e2 : (fun (j : Fin k) (x : Fin 512) => (gameShift A s e₀ ch c + tableSum u W) (n, Sum.inr j, x)) =
        fun j x => negacyclicZ (e₀ j) (ch (c n)) x + errorOf W n j x := by
      funext j x
      rw [Pi.add_apply]
      unfold gameShift
      rw [if_pos h]; rfl
    rw [if_pos h, if_pos h, if_pos h, if_pos h, e1, e2, signerW_eq hν a s e₀ (ch (c n))]
  · rw [if_neg h, if_neg h, if_neg h, if_neg h]

/-- The distance for given hash values; only signing steps count. -/
theorem game_close [DecidableEq κ] (A : Attacker k l ν C D) (hu : 0 < u) (k0 : κ) (hν : 0 < q / 2 ^ ν) (a : Fin k → Fin l → RPoly) (s : Fin l → Fin 512 → Int)
    (e₀ : Fin k → Fin 512 → Int) (ω B : Nat) (ch : C → Fin 512 → Int) (hch : ∀ c, ∑ i, |ch c i| = ω) (hs : ∀ j x, |s j x| ≤ B) (he : ∀ j x, |e₀ j x| ≤ B) (c : Fin M → C)
    (T : Set (List (Outcome k l ν C))) :
    |((Nat.card {W : NoiseTable M l k u κ // givenGame A hν a s ch c W ∈ T} : Nat) : Int) -
        (Nat.card {W : NoiseTable M l k u κ // simulatedGame A hν a (publicB a s e₀) ch c W ∈ T} : Nat)| * 2 ^ u ≤
      ((univ.filter fun n : Fin M => A.signs n = true).card * ((l + k) * 512) * (ω * B) : Nat) * (Fintype.card (NoiseTable M l k u κ) : Nat) := by
  have h1 : Nat.card {W : NoiseTable M l k u κ // givenGame A hν a s ch c W ∈ T} =
      respCount (κ := κ) u (gameShift A s e₀ ch c) (gameOf A hν a (publicB a s e₀) ch c ⁻¹' T) := by
    unfold respCount
    simp only [givenGame_eq A hν a s e₀ ch c, Set.mem_preimage]
  have h2 : Nat.card {W : NoiseTable M l k u κ // simulatedGame A hν a (publicB a s e₀) ch c W ∈ T} =
      respCount (κ := κ) u 0 (gameOf A hν a (publicB a s e₀) ch c ⁻¹' T) := by
    unfold respCount
    simp only [simulatedGame_eq A hν a (publicB a s e₀) ch c, Set.mem_preimage]
  rw [h1, h2]
  refine le_trans (respCount_close hu k0 _ _ _) (mul_le_mul_of_nonneg_right ?_ (Int.natCast_nonneg _))
  have key : ∀ i : Fin M × (Fin l ⊕ Fin k) × Fin 512, |gameShift A s e₀ ch c i - (0 : Fin M × (Fin l ⊕ Fin k) × Fin 512 → Int) i| ≤
      if A.signs i.1 = true then ((ω * B : Nat) : Int) else 0 := by
    rintro ⟨n, j, x⟩
    show |(if A.signs n = true then shiftOf s e₀ ch c (n, j, x) else 0) - 0| ≤ if A.signs n = true then ((ω * B : Nat) : Int) else 0
    rw [sub_zero]
    by_cases h : A.signs n = true
    · rw [if_pos h, if_pos h]
      rcases j with j | j
      · have h := negacyclicZ_bound (g := ch (c n)) (hs j) x
        rw [hch] at h
        push_cast
        rw [mul_comm]; exact h
      · have h := negacyclicZ_bound (g := ch (c n)) (he j) x
        rw [hch] at h
        push_cast
        rw [mul_comm]; exact h
    · rw [if_neg h, if_neg h, abs_zero]
  refine le_trans (Finset.sum_le_sum fun i _ => key i) ?_
  rw [Fintype.sum_prod_type]
  have hin : ∀ n : Fin M, (∑ _y : (Fin l ⊕ Fin k) × Fin 512, if A.signs n = true then ((ω * B : Nat) : Int) else 0) =
      if A.signs n = true then (((l + k) * 512 * (ω * B) : Nat) : Int) else 0 := by
    intro n
    rw [Finset.sum_const, Finset.card_univ, Fintype.card_prod, Fintype.card_sum, Fintype.card_fin, Fintype.card_fin, Fintype.card_fin, nsmul_eq_mul]
    split
    · push_cast; rfl
    · rw [mul_zero]
  refine le_of_eq ((Finset.sum_congr rfl fun n _ => hin n).trans ?_)
  rw [← Finset.sum_filter, Finset.sum_const, nsmul_eq_mul]
  push_cast
  ring

theorem realGame_spec (A : Attacker k l ν C D) (hν : 0 < q / 2 ^ ν) (a : Fin k → Fin l → RPoly) (s : Fin l → Fin 512 → Int) (ch : C → Fin 512 → Int)
    (H : D × Commitment k ν → C) (W : NoiseTable M l k u κ) (v : List (Outcome k l ν C)) : v = realGame A hν a s ch H W ↔ v.length = M ∧
    ∀ n (hn : n < M) (h : n < v.length), v[n] = (if A.signs n then signerW ν hν a (maskOf W ⟨n, hn⟩) (errorOf W ⟨n, hn⟩) else A.commitment (v.take n),
      H (A.digest (v.take n), if A.signs n then signerW ν hν a (maskOf W ⟨n, hn⟩) (errorOf W ⟨n, hn⟩) else A.commitment (v.take n)),
      if A.signs n then some fun j x => negacyclicZ (s j)
        (ch (H (A.digest (v.take n), if A.signs n then signerW ν hν a (maskOf W ⟨n, hn⟩) (errorOf W ⟨n, hn⟩) else A.commitment (v.take n)))) x +
          maskOf W ⟨n, hn⟩ j x else none) := by
  constructor
  · rintro rfl; exact play_spec _
  · rintro ⟨h1, h2⟩; exact play_unique _ v h1 h2

theorem givenGame_spec (A : Attacker k l ν C D) (hν : 0 < q / 2 ^ ν) (a : Fin k → Fin l → RPoly) (s : Fin l → Fin 512 → Int) (ch : C → Fin 512 → Int)
    (c : Fin M → C) (W : NoiseTable M l k u κ) (v : List (Outcome k l ν C)) : v = givenGame A hν a s ch c W ↔ v.length = M ∧
    ∀ n (hn : n < M) (h : n < v.length), v[n] = (if A.signs n then signerW ν hν a (maskOf W ⟨n, hn⟩) (errorOf W ⟨n, hn⟩) else A.commitment (v.take n), c ⟨n, hn⟩,
      if A.signs n then some fun j x => negacyclicZ (s j) (ch (c ⟨n, hn⟩)) x + maskOf W ⟨n, hn⟩ j x else none) := by
  constructor
  · rintro rfl; exact play_spec _
  · rintro ⟨h1, h2⟩; exact play_unique _ v h1 h2

/-- The pairs hashed in the course of a game. -/
def askedAt (A : Attacker k l ν C D) (w0 : Commitment k ν) (v : List (Outcome k l ν C)) (n : Fin M) : D × Commitment k ν :=
  (A.digest (v.take n), (v.map Prod.fst).getD n w0)
def answerAt (c0 : C) (v : List (Outcome k l ν C)) (n : Fin M) : C := (v.map fun o => o.2.1).getD n c0

theorem asked_eq (A : Attacker k l ν C D) (w0 : Commitment k ν) (v : List (Outcome k l ν C)) (n : Fin M) (h : n.val < v.length) :
    askedAt A w0 v n = (A.digest (v.take n), v[n.val].1) := by
  unfold askedAt
  rw [List.getD_eq_getElem _ _ (by rw [List.length_map]; exact h), List.getElem_map]
theorem answer_eq (c0 : C) (v : List (Outcome k l ν C)) (n : Fin M) (h : n.val < v.length) : answerAt c0 v n = v[n.val].2.1 := by
  unfold answerAt
  rw [List.getD_eq_getElem _ _ (by rw [List.length_map]; exact h), List.getElem_map]

theorem fresh_injective (A : Attacker k l ν C D) (w0 : Commitment k ν) (v : List (Outcome k l ν C)) (hl : v.length = M) (h : Fresh A v) :
    Function.Injective (askedAt (M := M) A w0 v) := by
  have key : ∀ n m : Fin M, n < m → askedAt A w0 v n ≠ askedAt A w0 v m := by
    intro n m hnm
    rw [asked_eq A w0 v n (by omega), asked_eq A w0 v m (by omega)]
    exact h n m (by omega) (by omega) hnm
  intro n m e
  rcases lt_trichotomy n m with hh | hh | hh
  · exact absurd e (key n m hh)
  · exact hh
  · exact absurd e.symm (key m n hh)

/-- Games with an oracle are games with given hash values, counted. -/
theorem game_oracle [Fintype C] [DecidableEq C] [Fintype D] [DecidableEq D] [DecidableEq κ] (A : Attacker k l ν C D) (c0 : C) (hν : 0 < q / 2 ^ ν) (a : Fin k → Fin l → RPoly)
    (s : Fin l → Fin 512 → Int) (ch : C → Fin 512 → Int) (T : Set (List (Outcome k l ν C))) :
    Nat.card {x : NoiseTable M l k u κ × (D × Commitment k ν → C) // realGame A hν a s ch x.2 x.1 ∈ T ∧ Fresh A (realGame A hν a s ch x.2 x.1)} * Fintype.card C ^ M =
      Nat.card {x : NoiseTable M l k u κ × (Fin M → C) // givenGame A hν a s ch x.2 x.1 ∈ T ∧ Fresh A (givenGame A hν a s ch x.2 x.1)} *
        Fintype.card (D × Commitment k ν → C) := by
  let w0 : Commitment k ν := fun _ _ => ⟨0, hν⟩
  refine oracle_count_adaptive (Ω := NoiseTable M l k u κ) (A := D × Commitment k ν) (C := C) (V := List (Outcome k l ν C)) (N := M)
    (fun W H => realGame A hν a s ch H W) (fun W c => givenGame A hν a s ch c W) (answerAt c0) (askedAt A w0) ?_ ?_ ?_ (fun v => v ∈ T ∧ Fresh A v) ?_
  · intro W H
    obtain ⟨v, hv⟩ : ∃ v, v = realGame A hν a s ch H W := ⟨_, rfl⟩
    show realGame A hν a s ch H W = givenGame A hν a s ch (answerAt c0 (realGame A hν a s ch H W)) W ∧
      ∀ n, H (askedAt A w0 (realGame A hν a s ch H W) n) = answerAt c0 (realGame A hν a s ch H W) n
    obtain ⟨hl, hg⟩ := (realGame_spec A hν a s ch H W v).1 hv
    rw [← hv]
    have hans : ∀ n : Fin M, H (askedAt A w0 v n) = answerAt c0 v n := by
      intro n
      have hn : n.val < v.length := by rw [hl]; exact n.isLt
      rw [asked_eq A w0 v n hn, answer_eq c0 v n hn, hg n n.isLt hn]
    refine ⟨(givenGame_spec A hν a s ch _ W v).2 ⟨hl, fun n hn hv => ?_⟩, hans⟩
    have e1 := hans ⟨n, hn⟩
    rw [asked_eq A w0 v ⟨n, hn⟩ hv] at e1
    dsimp only at e1
    rw [hg n hn hv] at e1 ⊢
    dsimp only at e1
    rw [e1]
  · intro W c
    obtain ⟨v, hv⟩ : ∃ v, v = givenGame A hν a s ch c W := ⟨_, rfl⟩
    show answerAt c0 (givenGame A hν a s ch c W) = c
    obtain ⟨hl, hg⟩ := (givenGame_spec A hν a s ch c W v).1 hv
    rw [← hv]
    funext n
    have hn : n.val < v.length := by rw [hl]; exact n.isLt
    rw [answer_eq c0 v n hn, hg n n.isLt hn]
  · intro W H c h
    obtain ⟨v, hv⟩ : ∃ v, v = givenGame A hν a s ch c W := ⟨_, rfl⟩
    obtain ⟨hl, hg⟩ := (givenGame_spec A hν a s ch c W v).1 hv
    show realGame A hν a s ch H W = givenGame A hν a s ch c W
    replace h : ∀ n, H (askedAt A w0 (givenGame A hν a s ch c W) n) = c n := h
    rw [← hv] at h ⊢
    refine ((realGame_spec A hν a s ch H W v).2 ⟨hl, fun n hn hv => ?_⟩).symm
    have e1 := h ⟨n, hn⟩
    rw [asked_eq A w0 v ⟨n, hn⟩ hv] at e1
    dsimp only at e1
    rw [hg n hn hv] at e1 ⊢
    dsimp only at e1
    rw [e1]
  · intro W c hf
    exact fresh_injective A w0 _ (play_spec _).1 hf.2

end

end Raccoon
