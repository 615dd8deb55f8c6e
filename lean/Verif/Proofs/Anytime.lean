import Verif.Spec.Anytime
import Verif.Proofs.Unforgeable
/-!
# The timetable suits every attacker
-/
namespace Raccoon
attribute [-instance] Monoid.toNPow
open Finset

section
variable {k l u ν M N : Nat} {κ C D : Type} [Fintype κ]

theorem listen_count (A : FreeAttacker k l ν C D) (v : List (Outcome k l ν C)) : (v.foldl (A.listen M N) (0, [])).1 = v.length := by
  induction v using List.reverseRecOn with
  | nil => rfl
  | append_singleton v o ih =>
    rw [List.foldl_append, List.length_append]
    show (v.foldl (A.listen M N) (0, [])).1 + 1 = _
    rw [ih]; rfl

theorem seen_snoc (A : FreeAttacker k l ν C D) (v : List (Outcome k l ν C)) (o : Outcome k l ν C) :
    A.seen M N (v ++ [o]) = if (A.seen M N v).length < M ∧ A.asksToSign N (A.seen M N v) = decide (v.length % (M + 1) = M) then A.seen M N v ++ [o] else A.seen M N v := by
  unfold FreeAttacker.seen
  rw [List.foldl_append, ← listen_count (M := M) (N := N) A v]
  rfl

theorem freeGame_spec (A : FreeAttacker k l ν C D) (hν : 0 < q / 2 ^ ν) (a : Fin k → Fin l → RPoly) (s : Fin l → Fin 512 → Int) (ch : C → Fin 512 → Int)
    (H : D × Commitment k ν → C) (W : NoiseTable N l k u κ) :
    (freeGame A M N hν a s ch H W).length = M ∧
    ∀ n (_ : n < M) (h : n < (freeGame A M N hν a s ch H W).length),
      (∀ _ : A.asksToSign N ((freeGame A M N hν a s ch H W).take n) = true, ∃ hc : signCount ((freeGame A M N hν a s ch H W).take n) < N,
        (freeGame A M N hν a s ch H W)[n] =
          (signerW ν hν a (maskOf W ⟨_, hc⟩) (errorOf W ⟨_, hc⟩), H (A.digest ((freeGame A M N hν a s ch H W).take n), signerW ν hν a (maskOf W ⟨_, hc⟩) (errorOf W ⟨_, hc⟩)),
            some fun j x => negacyclicZ (s j) (ch (H (A.digest ((freeGame A M N hν a s ch H W).take n), signerW ν hν a (maskOf W ⟨_, hc⟩) (errorOf W ⟨_, hc⟩)))) x + maskOf W ⟨_, hc⟩ j x)) ∧
      (A.asksToSign N ((freeGame A M N hν a s ch H W).take n) = false → (freeGame A M N hν a s ch H W)[n] =
        (A.commitment ((freeGame A M N hν a s ch H W).take n), H (A.digest ((freeGame A M N hν a s ch H W).take n), A.commitment ((freeGame A M N hν a s ch H W).take n)), none)) := by
  have hp := play_spec (M := M) fun (_ : Fin M) v => freeStep A N hν a s ch H W v
  change (freeGame A M N hν a s ch H W).length = M ∧ _ at hp
  refine ⟨hp.1, fun n hn h => ?_⟩
  have g : (freeGame A M N hν a s ch H W)[n] = freeStep A N hν a s ch H W ((freeGame A M N hν a s ch H W).take n) := hp.2 n hn h
  rw [g]
  generalize (freeGame A M N hν a s ch H W).take n = v
  unfold freeStep FreeAttacker.asksToSign
  constructor
  · intro hs
    rw [Bool.and_eq_true, decide_eq_true_eq] at hs
    rw [dif_pos hs]
    exact ⟨hs.2, rfl⟩
  · intro hs
    rw [dif_neg]
    rintro ⟨h1, h2⟩
    rw [h1, decide_eq_true h2] at hs
    exact Bool.noConfusion hs

/-- The rows of the signing steps of the timetable. -/
def signRows (W : NoiseTable (N * (M + 1) + M) l k u κ) : NoiseTable N l k u κ := fun x => W (⟨x.1.val * (M + 1) + M, by
  have := Nat.mul_le_mul_right (M + 1) (Nat.succ_le_of_lt x.1.isLt)
  rw [Nat.succ_mul] at this
  omega⟩, x.2)

theorem mod_slot {M b r : Nat} (h : r ≤ M) : (b * (M + 1) + r) % (M + 1) = r := by
  exact Nat.mul_add_mod_of_lt (Nat.lt_succ_of_le h)

theorem scheduled_view [Nontrivial D] (A : FreeAttacker k l ν C D) (hν : 0 < q / 2 ^ ν) (a : Fin k → Fin l → RPoly) (s : Fin l → Fin 512 → Int) (ch : C → Fin 512 → Int)
    (H : D × Commitment k ν → C) (out : List (Outcome k l ν C) → Forgery C D) (W : NoiseTable (N * (M + 1) + M) l k u κ) (n : Nat) (hn : n ≤ N * (M + 1) + M) :
    ∃ b r, r ≤ M ∧ n = b * (M + 1) + r ∧
      (A.seen M N ((realGame (A.scheduled M N out) hν a s ch H W).take n)).length ≤ M ∧
      A.seen M N ((realGame (A.scheduled M N out) hν a s ch H W).take n) =
        (freeGame A M N hν a s ch H (signRows W)).take (A.seen M N ((realGame (A.scheduled M N out) hν a s ch H W).take n)).length ∧
      ((A.seen M N ((realGame (A.scheduled M N out) hν a s ch H W).take n)).length < M → signCount (A.seen M N ((realGame (A.scheduled M N out) hν a s ch H W).take n)) = b ∧
        (A.asksToSign N (A.seen M N ((realGame (A.scheduled M N out) hν a s ch H W).take n)) = true ∨ r ≤ (A.seen M N ((realGame (A.scheduled M N out) hν a s ch H W).take n)).length)) := by
  obtain ⟨hl', hp'⟩ := (realGame_spec (A.scheduled M N out) hν a s ch H W _).1 rfl
  obtain ⟨hl, hp⟩ := freeGame_spec (M := M) A hν a s ch H (signRows W)
  generalize realGame (A.scheduled M N out) hν a s ch H W = v' at *
  generalize freeGame A M N hν a s ch H (signRows W) = G at *
  induction n with
  | zero => exact ⟨0, 0, Nat.zero_le _, by omega, Nat.zero_le _, rfl, fun _ => ⟨rfl, Or.inr le_rfl⟩⟩
  | succ n ih =>
    obtain ⟨b, r, hr, hnb, i1, i2, i3⟩ := ih (by omega)
    have g' := hp' n (by omega) (by omega)
    rw [List.take_succ_eq_append_getElem (by omega : n < v'.length)]
    have hlt : (v'.take n).length = n := by rw [List.length_take]; omega
    have hmod : n % (M + 1) = r := by rw [hnb]; exact mod_slot hr
    rw [seen_snoc, hlt, hmod]
    have hsg : (A.scheduled M N out).signs n = decide (r = M) := by rw [← hmod]; rfl
    have hcm : (A.scheduled M N out).commitment (v'.take n) = A.commitment (A.seen M N (v'.take n)) := rfl
    have hdg : (A.seen M N (v'.take n)).length < M → (A.scheduled M N out).digest (v'.take n) = A.digest (A.seen M N (v'.take n)) := fun h => if_pos h
    rw [hsg, hcm] at g'
    generalize A.seen M N (v'.take n) = x at *
    by_cases hx : x.length < M
    · obtain ⟨j1, j2⟩ := i3 hx
      rw [hdg hx] at g'
      obtain ⟨hp1, hp2⟩ := hp x.length hx (by omega)
      rw [← i2] at hp1 hp2
      rcases Nat.lt_or_ge r M with hrM | hrM
      · -- a hash step
        have e : decide (r = M) = false := decide_eq_false (by omega)
        rw [e] at g' ⊢
        simp only [Bool.false_eq_true, if_false] at g'
        refine ⟨b, r + 1, hrM, by omega, ?_⟩
        cases hs : A.asksToSign N x with
        | true =>
          rw [if_neg (fun h => Bool.noConfusion h.2)]
          exact ⟨i1, i2, fun _ => ⟨j1, Or.inl hs⟩⟩
        | false =>
          rw [if_pos ⟨hx, rfl⟩, g', ← hp2 hs, List.length_append, List.length_singleton]
          refine ⟨hx, ?_, fun _ => ⟨?_, Or.inr ?_⟩⟩
          · rw [List.take_succ_eq_append_getElem (by omega), ← i2]
          · unfold signCount at j1 ⊢
            rw [List.countP_append, j1, hp2 hs]; rfl
          · rcases j2 with h | h
            · rw [hs] at h; exact absurd h Bool.false_ne_true
            · omega
      · -- a signing step
        obtain rfl : r = M := by omega
        have hs : A.asksToSign N x = true := by
          rcases j2 with h | h
          · exact h
          · omega
        rw [decide_eq_true rfl] at g' ⊢
        simp only [if_true] at g'
        obtain ⟨hc, hp1⟩ := hp1 hs
        have hrow : ∀ (W1 : NoiseTable (N * (r + 1) + r) l k u κ) (h2 : n < N * (r + 1) + r), maskOf W1 ⟨n, h2⟩ = maskOf (signRows W1) ⟨signCount x, hc⟩ ∧ errorOf W1 ⟨n, h2⟩ = errorOf (signRows W1) ⟨signCount x, hc⟩ := by
          intro W1 h2
          have e1 : (⟨n, h2⟩ : Fin (N * (r + 1) + r)) = ⟨signCount x * (r + 1) + r, by rw [j1]; omega⟩ := Fin.ext (by show n = signCount x * (r + 1) + r; rw [j1]; exact hnb)
          rw [e1]
          exact ⟨rfl, rfl⟩
        rw [(hrow W (by omega)).1, (hrow W (by omega)).2] at g'
        refine ⟨b + 1, 0, Nat.zero_le _, by rw [Nat.succ_mul]; omega, ?_⟩
        rw [if_pos ⟨hx, hs⟩, g', ← hp1, List.length_append, List.length_singleton]
        refine ⟨hx, ?_, fun _ => ⟨?_, Or.inr (Nat.zero_le _)⟩⟩
        · rw [List.take_succ_eq_append_getElem (by omega), ← i2]
        · unfold signCount at j1 ⊢
          rw [List.countP_append, j1, hp1]; rfl
    · rw [if_neg (fun h => hx h.1)]
      rcases Nat.lt_or_ge r M with hrM | hrM
      · exact ⟨b, r + 1, hrM, by omega, i1, i2, fun h => absurd h hx⟩
      · exact ⟨b + 1, 0, Nat.zero_le _, by rw [Nat.succ_mul]; omega, i1, i2, fun h => absurd h hx⟩

/-- After the last step of the timetable the game is over. -/
theorem scheduled_view_all [Nontrivial D] (A : FreeAttacker k l ν C D) (hν : 0 < q / 2 ^ ν) (a : Fin k → Fin l → RPoly) (s : Fin l → Fin 512 → Int) (ch : C → Fin 512 → Int)
    (H : D × Commitment k ν → C) (out : List (Outcome k l ν C) → Forgery C D) (W : NoiseTable (N * (M + 1) + M) l k u κ) :
    A.seen M N (realGame (A.scheduled M N out) hν a s ch H W) = freeGame A M N hν a s ch H (signRows W) := by
  obtain ⟨hl', -⟩ := (realGame_spec (A.scheduled M N out) hν a s ch H W _).1 rfl
  obtain ⟨hl, -⟩ := freeGame_spec (M := M) A hν a s ch H (signRows W)
  obtain ⟨b, r, hr, hnb, i1, i2, i3⟩ := scheduled_view A hν a s ch H out W _ le_rfl
  rw [List.take_of_length_le hl'.le] at i1 i2 i3
  generalize A.seen M N (realGame (A.scheduled M N out) hν a s ch H W) = x at *
  have hx : ¬ x.length < M := fun hx => by
    obtain ⟨j1, j2⟩ := i3 hx
    have e1 : (N * (M + 1) + M) % (M + 1) = (b * (M + 1) + r) % (M + 1) := by rw [← hnb]
    rw [mod_slot le_rfl, mod_slot hr] at e1
    subst e1
    have hbN : N = b := by
      have := Nat.add_right_cancel hnb
      exact Nat.eq_of_mul_eq_mul_right (Nat.succ_pos M) this
    rcases j2 with h | h
    · unfold FreeAttacker.asksToSign at h
      rw [Bool.and_eq_true, decide_eq_true_eq] at h
      omega
    · omega
  have e : x.length = M := by omega
  rw [i2, e, List.take_of_length_le hl.le]

/-- An attacker that wins also wins on the timetable. -/
theorem scheduled_wins [Nontrivial D] (A : FreeAttacker k l ν C D) (hν : 0 < q / 2 ^ ν) (νt Binf B22 : Nat) (a : Fin k → Fin l → RPoly) (t : Fin k → RPoly) (s : Fin l → Fin 512 → Int)
    (ch : C → Fin 512 → Int) (H : D × Commitment k ν → C) (out : List (Outcome k l ν C) → Forgery C D) (W : NoiseTable (N * (M + 1) + M) l k u κ)
    (h : FreeWins A νt Binf B22 a t ch H out (freeGame A M N hν a s ch H (signRows W))) :
    Wins (A.scheduled M N out) νt Binf B22 a t ch H (fun v => out (A.seen M N v)) (realGame (A.scheduled M N out) hν a s ch H W) := by
  have hall := scheduled_view_all A hν a s ch H out W
  obtain ⟨w, w1, w2, w3⟩ := h.hash
  refine ⟨by rw [hall]; exact h.lengths, by rw [hall]; exact h.norms, w, by rw [hall]; exact w1, by rw [hall]; exact w2, fun m hm hs => ?_⟩
  rw [hall]
  obtain ⟨hl', -⟩ := (realGame_spec (A.scheduled M N out) hν a s ch H W _).1 rfl
  obtain ⟨hl, hp⟩ := freeGame_spec (M := M) A hν a s ch H (signRows W)
  obtain ⟨b, r, hr, hnb, i1, i2, i3⟩ := scheduled_view A hν a s ch H out W m (by omega)
  obtain ⟨-, -, -, -, -, i2', -⟩ := scheduled_view A hν a s ch H out W (m + 1) (by omega)
  have hmod : m % (M + 1) = r := by rw [hnb]; exact mod_slot hr
  have hrM : r = M := by rw [← hmod]; exact of_decide_eq_true hs
  have hlt : ((realGame (A.scheduled M N out) hν a s ch H W).take m).length = m := by rw [List.length_take]; omega
  rw [List.take_succ_eq_append_getElem hm, seen_snoc, hlt, hmod, decide_eq_true hrM] at i2'
  have hdig : (A.scheduled M N out).digest ((realGame (A.scheduled M N out) hν a s ch H W).take m) =
    if (A.seen M N ((realGame (A.scheduled M N out) hν a s ch H W).take m)).length < M then A.digest (A.seen M N ((realGame (A.scheduled M N out) hν a s ch H W).take m))
    else (exists_ne (out (A.seen M N ((realGame (A.scheduled M N out) hν a s ch H W).take m))).1).choose := rfl
  rw [hdig]
  generalize A.seen M N ((realGame (A.scheduled M N out) hν a s ch H W).take m) = x at *
  by_cases hx : x.length < M
  · rw [if_pos hx]
    obtain ⟨j1, j2⟩ := i3 hx
    have hsx : A.asksToSign N x = true := by
      rcases j2 with h | h
      · exact h
      · omega
    have hG : (realGame (A.scheduled M N out) hν a s ch H W)[m] = (freeGame A M N hν a s ch H (signRows W))[x.length]'(by omega) := by
      rw [if_pos ⟨hx, hsx⟩, List.length_append, List.length_singleton, List.take_succ_eq_append_getElem (by omega), ← i2] at i2'
      exact List.singleton_inj.1 (List.append_cancel_left i2')
    rw [i2] at hsx
    obtain ⟨hc, g⟩ := (hp x.length hx (by omega)).1 hsx
    have := w3 x.length (by omega) (by rw [g]; rfl)
    rw [← i2, ← hG] at this
    exact this
  · rw [if_neg hx]
    have e : x.length = M := by omega
    rw [e, List.take_of_length_le hl.le] at i2
    rw [i2]
    exact fun e => (exists_ne (out (freeGame A M N hν a s ch H (signRows W))).1).choose_spec (congrArg Prod.fst e)

omit [Fintype κ] in
theorem signRows_card [Finite κ] (O : Type) [Finite O] (F : NoiseTable N l k u κ × O → Prop) :
    Nat.card {x : NoiseTable (N * (M + 1) + M) l k u κ × O // F (signRows x.1, x.2)} * Nat.card (NoiseTable N l k u κ × O) =
      Nat.card {x : NoiseTable N l k u κ × O // F x} * Nat.card (NoiseTable (N * (M + 1) + M) l k u κ × O) := by
  classical
  let J := Fin (N * (M + 1) + M) × (Fin l ⊕ Fin k) × Fin 512
  let I := Fin N × (Fin l ⊕ Fin k) × Fin 512
  let g : I → J := fun x => (⟨x.1.val * (M + 1) + M, by
    have := Nat.mul_le_mul_right (M + 1) (Nat.succ_le_of_lt x.1.isLt)
    rw [Nat.succ_mul] at this
    omega⟩, x.2)
  have hg : Function.Injective g := fun x y e => by
    obtain ⟨e1, e2⟩ := Prod.mk.inj e
    have e1 := congrArg Fin.val e1
    simp only at e1
    have := Nat.eq_of_mul_eq_mul_right (Nat.succ_pos M) (Nat.add_right_cancel e1)
    exact Prod.ext (Fin.ext this) e2
  let e0 : NoiseTable (N * (M + 1) + M) l k u κ ≃ NoiseTable N l k u κ × ({j : J // ¬ j ∈ Set.range g} → κ → Fin (2 ^ u)) :=
    (Equiv.piEquivPiSubtypeProd (fun j : J => j ∈ Set.range g) fun _ => κ → Fin (2 ^ u)).trans
      ((Equiv.arrowCongr (Equiv.ofInjective g hg).symm (Equiv.refl _)).prodCongr (Equiv.refl _))
  have he0 : ∀ W, (e0 W).1 = signRows W := fun W => rfl
  let R := {j : J // ¬ j ∈ Set.range g} → κ → Fin (2 ^ u)
  let e : NoiseTable (N * (M + 1) + M) l k u κ × O ≃ (NoiseTable N l k u κ × O) × R :=
    ((e0.prodCongr (Equiv.refl O)).trans (Equiv.prodAssoc _ _ _)).trans (((Equiv.refl _).prodCongr (Equiv.prodComm R O)).trans (Equiv.prodAssoc _ _ _).symm)
  have h1 : Nat.card (NoiseTable (N * (M + 1) + M) l k u κ × O) = Nat.card (NoiseTable N l k u κ × O) * Nat.card R := by
    rw [Nat.card_congr e, Nat.card_prod]
  have e2 : {x : NoiseTable (N * (M + 1) + M) l k u κ × O // F (signRows x.1, x.2)} ≃ {x : NoiseTable N l k u κ × O // F x} × R :=
    (e.subtypeEquiv (q := fun y => F y.1) fun _ => Iff.rfl).trans
      ⟨fun y => (⟨y.1.1, y.2⟩, y.1.2), fun y => ⟨(y.1.1, y.2), y.1.2⟩, fun _ => rfl, fun _ => rfl⟩
  rw [Nat.card_congr e2, Nat.card_prod, h1]
  ring

theorem schedule_counts : (univ.filter fun n : Fin (N * (M + 1) + M) => decide (n.val % (M + 1) = M) = true).card = N ∧
    (univ.filter fun n : Fin (N * (M + 1) + M) => decide (n.val % (M + 1) = M) = false).card = (N + 1) * M := by
  have h1 : (univ.filter fun n : Fin (N * (M + 1) + M) => decide (n.val % (M + 1) = M) = true).card = N := by
    let f : Fin N → Fin (N * (M + 1) + M) := fun j => ⟨j.val * (M + 1) + M, by
      have := Nat.mul_le_mul_right (M + 1) (Nat.succ_le_of_lt j.isLt)
      rw [Nat.succ_mul] at this
      omega⟩
    have hf : Function.Injective f := fun x y e => by
      have e1 := congrArg Fin.val e
      exact Fin.ext (Nat.eq_of_mul_eq_mul_right (Nat.succ_pos M) (Nat.add_right_cancel e1))
    have e : (univ.filter fun n : Fin (N * (M + 1) + M) => decide (n.val % (M + 1) = M) = true) = univ.image f := by
      ext n
      simp only [Finset.mem_filter, Finset.mem_univ, true_and, decide_eq_true_eq, Finset.mem_image]
      constructor
      · intro h
        have h2 := Nat.div_add_mod n.val (M + 1)
        rw [h] at h2
        have h3 : n.val / (M + 1) < N := by
          by_contra hc
          have h4 := Nat.mul_le_mul_left (M + 1) (not_lt.1 hc)
          have h5 := n.isLt
          rw [Nat.mul_comm (M + 1) N] at h4
          omega
        exact ⟨⟨_, h3⟩, Fin.ext (by show n.val / (M + 1) * (M + 1) + M = n.val; rw [Nat.mul_comm]; exact h2)⟩
      · rintro ⟨j, rfl⟩
        show (j.val * (M + 1) + M) % (M + 1) = M
        exact mod_slot le_rfl
    rw [e, Finset.card_image_of_injective _ hf, Finset.card_univ, Fintype.card_fin]
  refine ⟨h1, ?_⟩
  have h2 := Finset.card_filter_add_card_filter_not (s := (univ : Finset (Fin (N * (M + 1) + M)))) (fun n => decide (n.val % (M + 1) = M) = true)
  rw [h1, Finset.card_univ, Fintype.card_fin] at h2
  have h3 : (univ.filter fun n : Fin (N * (M + 1) + M) => decide (n.val % (M + 1) = M) = false) = univ.filter fun n : Fin (N * (M + 1) + M) => ¬ decide (n.val % (M + 1) = M) = true :=
    Finset.filter_congr fun n _ => Bool.not_eq_true _ |>.symm.to_iff
  rw [h3]
  refine Nat.add_left_cancel (n := N) (h2.trans ?_)
  ring

end

end Raccoon
