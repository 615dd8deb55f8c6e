import Verif.Spec.Unforgeable
import Verif.Proofs.EntropyGame
/-!
# The careful attacker sees what the attacker sees
-/
namespace Raccoon
attribute [-instance] Monoid.toNPow
open Finset

section
variable {k l u ν M : Nat} {κ C D : Type} [Fintype κ] [DecidableEq D]

theorem memory_snoc (A : Attacker k l ν C D) (v : List (Outcome k l ν C)) (o : Outcome k l ν C) : A.memory (v ++ [o]) = A.learn (A.memory v) o := by
  unfold Attacker.memory
  rw [List.foldl_append]; rfl

theorem memory_length (A : Attacker k l ν C D) (v : List (Outcome k l ν C)) : (A.memory v).view.length = v.length ∧ (A.memory v).log.length = v.length := by
  induction v using List.reverseRecOn with
  | nil => exact ⟨rfl, rfl⟩
  | append_singleton v o ih =>
    rw [memory_snoc]
    unfold Attacker.learn
    exact ⟨by rw [List.length_append, ih.1, List.length_append]; rfl, by rw [List.length_cons, ih.2, List.length_append]; rfl⟩

/-- The log is the list of the pairs hashed, with their hash values. -/
theorem memory_log (A : Attacker k l ν C D) (v : List (Outcome k l ν C)) (e : (D × Commitment k ν) × C) :
    e ∈ (A.memory v).log ↔ ∃ m, ∃ hm : m < v.length, e = ((A.careful.digest (v.take m), v[m].1), v[m].2.1) := by
  induction v using List.reverseRecOn with
  | nil => exact ⟨fun h => absurd h List.not_mem_nil, fun ⟨m, hm, _⟩ => absurd hm (Nat.not_lt_zero m)⟩
  | append_singleton v o ih =>
    rw [memory_snoc]
    unfold Attacker.learn
    rw [List.mem_cons, ih]
    constructor
    · rintro (h | ⟨m, hm, h⟩)
      · refine ⟨v.length, by rw [List.length_append]; exact Nat.lt_succ_self _, ?_⟩
        rw [h]
        simp only [List.take_left, List.getElem_concat_length]
        rfl
      · refine ⟨m, by rw [List.length_append]; exact Nat.lt_succ_of_lt hm, ?_⟩
        rw [List.take_append_of_le_length hm.le, List.getElem_append_left hm]
        exact h
    · rintro ⟨m, hm, h⟩
      rw [List.length_append, List.length_singleton] at hm
      rcases Nat.lt_or_ge m v.length with h1 | h1
      · right
        refine ⟨m, h1, ?_⟩
        rw [List.take_append_of_le_length h1.le, List.getElem_append_left h1] at h
        exact h
      · left
        obtain rfl : m = v.length := by omega
        simp only [List.take_left, List.getElem_concat_length] at h
        exact h

theorem known_some {st : Memory k l ν C D} {x : D × Commitment k ν} {c : C} (h : st.known x = some c) : (x, c) ∈ st.log := by
  unfold Memory.known at h
  rw [Option.map_eq_some_iff] at h
  obtain ⟨⟨y, c'⟩, h1, rfl⟩ := h
  have h2 := List.find?_some h1
  simp only [decide_eq_true_eq] at h2
  subst h2
  exact List.mem_of_find?_eq_some h1

theorem known_none {st : Memory k l ν C D} {x : D × Commitment k ν} (h : st.known x = none) : ∀ e ∈ st.log, e.1 ≠ x := by
  unfold Memory.known at h
  rw [Option.map_eq_none_iff, List.find?_eq_none] at h
  intro e he
  have := h e he
  simpa using this

theorem unknown_spec [Fintype D] (A : Attacker k l ν C D) (log : List ((D × Commitment k ν) × C)) (h : log.length < Fintype.card (D × Commitment k ν)) :
    ∀ e ∈ log, e.1 ≠ A.unknown log := by
  classical
  have hx : ∃ x, ∀ e ∈ log, e.1 ≠ x := by
    by_contra hn
    push Not at hn
    have h1 : (univ : Finset (D × Commitment k ν)) ⊆ (log.map Prod.fst).toFinset := fun x _ => by
      obtain ⟨e, he, rfl⟩ := hn x
      exact List.mem_toFinset.2 (List.mem_map_of_mem he)
    have h2 := Finset.card_le_card h1
    have h3 := List.toFinset_card_le (log.map Prod.fst)
    rw [List.length_map] at h3
    rw [Finset.card_univ] at h2
    omega
  unfold Attacker.unknown
  rw [dif_pos hx]
  exact hx.choose_spec

/-- The careful attacker never asks twice. -/
theorem careful_never [Fintype D] (A : Attacker k l ν C D) (hM : M ≤ Fintype.card (D × Commitment k ν)) : NeverAsksTwice A.careful M := by
  intro v hv hs m hm e
  have hmem : (((A.careful.digest (v.take m), v[m].1), v[m].2.1) : (D × Commitment k ν) × C) ∈ (A.memory v).log := (memory_log A v _).2 ⟨m, hm, rfl⟩
  obtain ⟨l1, l2⟩ := memory_length A v
  rw [e] at hmem
  have hs' : A.signs (A.memory v).view.length = false := by rw [l1]; exact hs
  have e2 : ((A.careful.digest v, A.careful.commitment v) : D × Commitment k ν) = A.ask (A.memory v) := rfl
  rw [e2] at hmem
  have hask : ∀ e ∈ (A.memory v).log, e.1 ≠ A.ask (A.memory v) := by
    unfold Attacker.ask
    rw [if_neg (by rw [hs']; exact Bool.false_ne_true)]
    cases hk : (A.memory v).known (A.wish (A.memory v)) with
    | some c => exact unknown_spec A _ (by omega)
    | none => exact known_none hk
  exact hask _ hmem rfl

/-- In the game the careful attacker's memory is the game of the attacker it works for, and its log is right. -/
theorem careful_view (A : Attacker k l ν C D) (hν : 0 < q / 2 ^ ν) (a : Fin k → Fin l → RPoly) (s : Fin l → Fin 512 → Int) (ch : C → Fin 512 → Int)
    (H : D × Commitment k ν → C) (W : NoiseTable M l k u κ) (n : Nat) (hn : n ≤ M) :
    (A.memory ((realGame A.careful hν a s ch H W).take n)).view = (realGame A hν a s ch H W).take n ∧
    ∀ e ∈ (A.memory ((realGame A.careful hν a s ch H W).take n)).log, H e.1 = e.2 := by
  obtain ⟨hl', hp'⟩ := (realGame_spec A.careful hν a s ch H W _).1 rfl
  obtain ⟨hl, hp⟩ := (realGame_spec A hν a s ch H W _).1 rfl
  generalize realGame A.careful hν a s ch H W = v' at *
  generalize realGame A hν a s ch H W = v at *
  induction n with
  | zero => exact ⟨rfl, fun e he => absurd he List.not_mem_nil⟩
  | succ n ih =>
    obtain ⟨h1, h2⟩ := ih (by omega)
    have g' := hp' n (by omega) (by omega)
    have g := hp n (by omega) (by omega)
    rw [List.take_succ_eq_append_getElem (by omega : n < v'.length), List.take_succ_eq_append_getElem (by omega : n < v.length), memory_snoc]
    have hlen : (A.memory (v'.take n)).view.length = n := by rw [(memory_length A _).1, List.length_take]; omega
    have hw : A.wish (A.memory (v'.take n)) = (A.digest (v.take n), A.commitment (v.take n)) := by unfold Attacker.wish; rw [h1]
    have hd : A.careful.digest (v'.take n) = (A.ask (A.memory (v'.take n))).1 := rfl
    have hc : A.careful.commitment (v'.take n) = (A.ask (A.memory (v'.take n))).2 := rfl
    have hs' : A.careful.signs n = A.signs n := rfl
    rw [hd, hc, hs'] at g'
    unfold Attacker.learn
    rw [hlen, h1]
    have hlog : H (((A.ask (A.memory (v'.take n))).1, v'[n].1)) = v'[n].2.1 := by rw [g']
    refine ⟨?_, ?_⟩
    · by_cases hs : A.signs n = true
      · rw [if_pos hs, g', g]
        have e : A.ask (A.memory (v'.take n)) = A.wish (A.memory (v'.take n)) := by unfold Attacker.ask; rw [hlen, if_pos hs]
        simp only [if_pos hs, e, hw]
      · rw [if_neg hs]
        cases hk : (A.memory (v'.take n)).known (A.wish (A.memory (v'.take n))) with
        | some c =>
          have := h2 _ (known_some hk)
          rw [hw] at this ⊢
          simp only [if_neg hs] at g
          rw [g]
          simp only at this
          rw [this]
        | none =>
          have e : A.ask (A.memory (v'.take n)) = A.wish (A.memory (v'.take n)) := by
            unfold Attacker.ask
            rw [hlen, if_neg hs, hk]; rfl
          rw [e, hw] at g'
          simp only [if_neg hs] at g g'
          rw [g, g']
    · intro e he
      rcases List.mem_cons.1 he with rfl | he
      · exact hlog
      · exact h2 e he

theorem careful_view_all (A : Attacker k l ν C D) (hν : 0 < q / 2 ^ ν) (a : Fin k → Fin l → RPoly) (s : Fin l → Fin 512 → Int) (ch : C → Fin 512 → Int)
    (H : D × Commitment k ν → C) (W : NoiseTable M l k u κ) : (A.memory (realGame A.careful hν a s ch H W)).view = realGame A hν a s ch H W := by
  have h := (careful_view A hν a s ch H W M le_rfl).1
  obtain ⟨hl', -⟩ := (realGame_spec A.careful hν a s ch H W _).1 rfl
  obtain ⟨hl, -⟩ := (realGame_spec A hν a s ch H W _).1 rfl
  rwa [List.take_of_length_le hl'.le, List.take_of_length_le hl.le] at h

/-- Forging at a step the pair of which is not that of a signing attempt. -/
def ForgesNew (A : Attacker k l ν C D) (νt Binf B22 : Nat) (a : Fin k → Fin l → RPoly) (t : Fin k → RPoly) (ch : C → Fin 512 → Int)
    (out : List (Outcome k l ν C) → D × List Int × List Int) (v : List (Outcome k l ν C)) : Prop :=
  ∃ n, ∃ hn : n < v.length, A.signs n = false ∧ A.digest (v.take n) = (out v).1 ∧ (out v).2.1.length = k * 512 ∧ (out v).2.2.length = l * 512 ∧
    NormsOK ν Binf B22 (out v).2.1 (out v).2.2 ∧
    (∀ r i, ((v[n].1 r i).val : Int) =
      ((commitY ν νt a t (toR (ch v[n].2.1)) (vecR (unflatten l (out v).2.2)) r i : Int) + unflatten k (out v).2.1 r i) % (q / 2 ^ ν : Nat)) ∧
    ∀ m (hm : m < v.length), A.signs m = true → (A.digest (v.take m), v[m].1) ≠ (A.digest (v.take n), v[n].1)

/-- Such a forgery is a forgery of the careful attacker. -/
theorem careful_forges (A : Attacker k l ν C D) (hν : 0 < q / 2 ^ ν) (νt Binf B22 : Nat) (a : Fin k → Fin l → RPoly) (t : Fin k → RPoly) (s : Fin l → Fin 512 → Int) (ch : C → Fin 512 → Int)
    (H : D × Commitment k ν → C) (W : NoiseTable M l k u κ) (out : List (Outcome k l ν C) → D × List Int × List Int)
    (h : ForgesNew A νt Binf B22 a t ch out (realGame A hν a s ch H W)) :
    Forges A.careful νt Binf B22 a t ch (fun v => out (A.memory v).view) (realGame A.careful hν a s ch H W) := by
  have hall := careful_view_all A hν a s ch H W
  have hview := careful_view A hν a s ch H W
  obtain ⟨hl', hp'⟩ := (realGame_spec A.careful hν a s ch H W _).1 rfl
  obtain ⟨hl, hp⟩ := (realGame_spec A hν a s ch H W _).1 rfl
  obtain ⟨n, hn, f1, f2, f3, f4, f5, f6, f7⟩ := h
  unfold Forges
  simp only [hall]
  generalize realGame A.careful hν a s ch H W = v' at *
  generalize realGame A hν a s ch H W = v at *
  have hnM : n < M := by omega
  have g' := hp' n (by omega) (by omega)
  have g := hp n (by omega) (by omega)
  obtain ⟨h1, h2⟩ := hview n (by omega)
  have hlen : (A.memory (v'.take n)).view.length = n := by rw [(memory_length A _).1, List.length_take]; omega
  have hw : A.wish (A.memory (v'.take n)) = (A.digest (v.take n), A.commitment (v.take n)) := by unfold Attacker.wish; rw [h1]
  have hs : ¬ A.signs n = true := by rw [f1]; exact Bool.false_ne_true
  have key : ∃ m, ∃ hm : m < v'.length, A.signs m = false ∧ A.careful.digest (v'.take m) = A.digest (v.take n) ∧ v'[m].1 = v[n].1 ∧ v'[m].2.1 = v[n].2.1 := by
    simp only [if_neg hs] at g
    cases hk : (A.memory (v'.take n)).known (A.wish (A.memory (v'.take n))) with
    | some c =>
      have hm := known_some hk
      have hc := h2 _ hm
      rw [memory_log] at hm
      obtain ⟨m, hm, e⟩ := hm
      rw [List.length_take] at hm
      have hmn : m < n := by omega
      rw [List.take_take, Nat.min_eq_left hmn.le, List.getElem_take, hw] at e
      rw [hw] at hc
      obtain ⟨e1, e3⟩ := Prod.mk.inj e
      obtain ⟨e1, e2⟩ := Prod.mk.inj e1
      have hms : A.signs m = false := by
        rw [← Bool.not_eq_true]
        intro hms
        refine f7 m (by omega) hms ?_
        have gm := hp m (by omega) (by omega)
        have gm' := hp' m (by omega) (by omega)
        have e0 : v[m].1 = v'[m].1 := by
          have hs'' : A.careful.signs m = true := hms
          rw [gm, gm', hs'', hms]
          rfl
        have hg1 : v[n].1 = A.commitment (v.take n) := by rw [g]
        rw [e0, ← e2, hg1]
        refine Prod.ext ?_ rfl
        show A.digest (v.take m) = A.digest (v.take n)
        rw [e1]
        have hlm : (A.memory (v'.take m)).view.length = m := by rw [(memory_length A _).1, List.length_take]; omega
        show _ = (A.ask (A.memory (v'.take m))).1
        unfold Attacker.ask
        rw [hlm, if_pos hms]
        unfold Attacker.wish
        rw [(hview m (by omega)).1]
      refine ⟨m, by omega, hms, e1.symm, ?_, ?_⟩
      · rw [g]; exact e2.symm
      · rw [g, ← e3]; exact hc.symm
    | none =>
      have e : A.ask (A.memory (v'.take n)) = A.wish (A.memory (v'.take n)) := by
        unfold Attacker.ask
        rw [hlen, if_neg hs, hk]; rfl
      have hd : A.careful.digest (v'.take n) = (A.ask (A.memory (v'.take n))).1 := rfl
      have hc : A.careful.commitment (v'.take n) = (A.ask (A.memory (v'.take n))).2 := rfl
      have hs' : A.careful.signs n = A.signs n := rfl
      rw [hd, hc, hs', e, hw] at g'
      simp only [if_neg hs] at g'
      refine ⟨n, by omega, f1, ?_, ?_, ?_⟩
      · rw [hd, e, hw]
      · rw [g, g']
      · rw [g, g']
  obtain ⟨m, hm, k1, k2, k3, k4⟩ := key
  refine ⟨m, hm, k1, k2.trans f2, f3, f4, f5, fun r i => ?_⟩
  rw [k3, k4]
  exact f6 r i

end

section
variable {k l u ν M : Nat} {κ C D : Type} [Fintype κ]

/-- The noise words of all steps but the last. -/
def firstRows (W : NoiseTable (M + 1) l k u κ) : NoiseTable M l k u κ := fun x => W (x.1.castSucc, x.2)

theorem firstRows_card [Finite C] [Finite κ] [Finite D] [Fintype (NoiseTable M l k u κ)] (O : Type) [Finite O] (F : NoiseTable M l k u κ × O → Prop) :
    Nat.card {x : NoiseTable (M + 1) l k u κ × O // F (firstRows x.1, x.2)} * Nat.card (NoiseTable M l k u κ × O) =
      Nat.card {x : NoiseTable M l k u κ × O // F x} * Nat.card (NoiseTable (M + 1) l k u κ × O) := by
  let e : NoiseTable (M + 1) l k u κ × O ≃ (NoiseTable M l k u κ × O) × NoiseTable 1 l k u κ :=
    ⟨fun x => ((firstRows x.1, x.2), fun y => x.1 (Fin.last M, y.2)),
     fun y => (fun x => Fin.lastCases (motive := fun _ => κ → Fin (2 ^ u)) (y.2 (0, x.2)) (fun n => y.1.1 (n, x.2)) x.1, y.1.2),
     fun x => by
      refine Prod.ext (funext fun y => ?_) rfl
      obtain ⟨n, y⟩ := y
      refine Fin.lastCases ?_ (fun m => ?_) n
      · simp only [Fin.lastCases_last]
      · simp only [Fin.lastCases_castSucc]; rfl,
     fun y => by
      refine Prod.ext (Prod.ext (funext fun z => ?_) rfl) (funext fun z => ?_)
      · simp only [firstRows, Fin.lastCases_castSucc]
      · obtain ⟨n, z⟩ := z
        obtain rfl : n = 0 := Subsingleton.elim _ _
        simp only [Fin.lastCases_last]⟩
  have h1 : Nat.card (NoiseTable (M + 1) l k u κ × O) = Nat.card (NoiseTable M l k u κ × O) * Nat.card (NoiseTable 1 l k u κ) := by
    rw [Nat.card_congr e, Nat.card_prod]
  have e2 : {x : NoiseTable (M + 1) l k u κ × O // F (firstRows x.1, x.2)} ≃ {x : NoiseTable M l k u κ × O // F x} × NoiseTable 1 l k u κ :=
    (e.subtypeEquiv (q := fun y => F y.1) fun _ => Iff.rfl).trans
      ⟨fun y => (⟨y.1.1, y.2⟩, y.1.2), fun y => ⟨(y.1.1, y.2), y.1.2⟩, fun _ => rfl, fun _ => rfl⟩
  rw [Nat.card_congr e2, Nat.card_prod, h1]
  ring

/-- The first M steps of the finishing attacker are those of the attacker. -/
theorem finishing_take (A : Attacker k l ν C D) (hν : 0 < q / 2 ^ ν) (νt : Nat) (a : Fin k → Fin l → RPoly) (t : Fin k → RPoly) (s : Fin l → Fin 512 → Int) (ch : C → Fin 512 → Int)
    (H : D × Commitment k ν → C) (out : List (Outcome k l ν C) → Forgery C D) (W : NoiseTable (M + 1) l k u κ) :
    (realGame (A.finishing M hν νt a t ch out) hν a s ch H W).take M = realGame A hν a s ch H (firstRows W) := by
  obtain ⟨hl, hp⟩ := (realGame_spec (A.finishing M hν νt a t ch out) hν a s ch H W _).1 rfl
  generalize realGame (A.finishing M hν νt a t ch out) hν a s ch H W = v at *
  rw [realGame_spec]
  refine ⟨by rw [List.length_take]; omega, fun n hn h => ?_⟩
  rw [List.getElem_take, List.take_take, Nat.min_eq_left hn.le, hp n (by omega) (by omega)]
  have h1 : (v.take n).length < M := by rw [List.length_take]; omega
  have s1 : (A.finishing M hν νt a t ch out).signs n = A.signs n := by
    unfold Attacker.finishing
    simp only [hn, decide_true, Bool.true_and]
  have s2 : (A.finishing M hν νt a t ch out).digest (v.take n) = A.digest (v.take n) := if_pos h1
  have s3 : (A.finishing M hν νt a t ch out).commitment (v.take n) = A.commitment (v.take n) := if_pos h1
  rw [s1, s2, s3]
  rfl

/-- An attacker that wins has, finishing, asked for the hash value of its forgery. -/
theorem finishing_forges (A : Attacker k l ν C D) (hν : 0 < q / 2 ^ ν) (νt Binf B22 : Nat) (a : Fin k → Fin l → RPoly) (t : Fin k → RPoly) (s : Fin l → Fin 512 → Int)
    (ch : C → Fin 512 → Int) (H : D × Commitment k ν → C) (out : List (Outcome k l ν C) → Forgery C D) (W : NoiseTable (M + 1) l k u κ)
    (h : Wins A νt Binf B22 a t ch H out (realGame A hν a s ch H (firstRows W))) :
    ForgesNew (A.finishing M hν νt a t ch out) νt Binf B22 a t ch (fun v => ((out (v.take M)).1, (out (v.take M)).2.2)) (realGame (A.finishing M hν νt a t ch out) hν a s ch H W) := by
  have htake := finishing_take A hν νt a t s ch H out W
  obtain ⟨hl, hp⟩ := (realGame_spec (A.finishing M hν νt a t ch out) hν a s ch H W _).1 rfl
  rw [← htake] at h
  generalize realGame (A.finishing M hν νt a t ch out) hν a s ch H W = v at *
  have hlM : (v.take M).length = M := by rw [List.length_take]; omega
  have s1 : (A.finishing M hν νt a t ch out).signs M = false := by
    unfold Attacker.finishing
    simp only [lt_self_iff_false, decide_false, Bool.false_and]
  have s2 : (A.finishing M hν νt a t ch out).digest (v.take M) = (out (v.take M)).1 := if_neg (by omega)
  have s3 : (A.finishing M hν νt a t ch out).commitment (v.take M) = recomputedW hν νt a t ch (out (v.take M)) := if_neg (by omega)
  obtain ⟨w, hw, hH, hnew⟩ := h.hash
  have hw' : recomputedW hν νt a t ch (out (v.take M)) = w := by
    funext r i
    refine Fin.ext ?_
    show recomputed _ _ _ _ _ _ _ r i % (q / 2 ^ ν) = _
    rw [← hw r i]
    exact Nat.mod_eq_of_lt (w r i).isLt
  have g := hp M (by omega) (by omega)
  rw [s1, s2, s3, hw'] at g
  simp only [Bool.false_eq_true, if_false] at g
  refine ⟨M, by omega, s1, s2, h.lengths.1, h.lengths.2, h.norms, fun r i => ?_, fun m hm hs => ?_⟩
  · rw [g]
    show ((w r i).val : Int) = (((commitY ν νt a t (toR (ch (H ((out (v.take M)).1, w)))) _ r i : Int) + _) % _)
    rw [hH, hw r i]
    unfold recomputed
    rw [Int.toNat_of_nonneg (Int.emod_nonneg _ (by exact_mod_cast hν.ne'))]
  · unfold Attacker.finishing at hs
    simp only [Bool.and_eq_true, decide_eq_true_eq] at hs
    have h1 : (v.take m).length < M := by rw [List.length_take]; omega
    have s2' : (A.finishing M hν νt a t ch out).digest (v.take m) = A.digest (v.take m) := if_pos h1
    have hc : v[M].1 = w := by rw [g]
    rw [s2', s2, hc]
    have := hnew m (by omega) hs.2
    rwa [List.take_take, Nat.min_eq_left hs.1.le, List.getElem_take] at this

end

end Raccoon
