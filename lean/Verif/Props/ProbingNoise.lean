import Verif.Props.Probing
import Verif.Proofs.ProbingNoise
/-!
# C64: what an observer of the addition of noise learns
-/
namespace Raccoon
attribute [-instance] Monoid.toNPow
open Finset

/-- C64 (link to the code): in repetition `i`, `add_rep_noise` adds the noise polynomial derived from the next seed bytes (`noiseAt`) to each share and refreshes; the
shares at the start of repetition `i` are `noisy … i`, for every `i`, and the values inside the refresh are those of `C62_values`, with the same masks. -/
theorem C64_values (E : Ext) (fuel m u κ rep idx : Nat) (hu : 0 < u) (hu' : u ≤ 49) (v : MPoly (2 ^ m)) (hv : MPoly.Can v) (prng p' : Prng) (g g' : Mrng (2 ^ m)) (v' : MPoly (2 ^ m))
    (h : MPoly.addRepNoise E fuel u rep κ idx v prng g = .ok (v', p', g')) :
    ∃ (ρ : Fin rep → Fin (maskSchedule m).length → Poly) (G : Nat → Mrng (2 ^ m)) (X Y : Nat → MPoly (2 ^ m)), G 0 = g ∧ G rep = g' ∧ X 0 = v ∧ X rep = v' ∧
      (∀ i : Fin rep, MPoly.refresh E fuel (Y i.val) (G i.val) = .ok (X (i.val + 1), G (i.val + 1))) ∧
      (∀ i : Fin rep, Drawn E fuel (maskSchedule m) (G i.val) (List.ofFn (ρ i)) (G (i.val + 1)) ∧ ∀ t, (ρ i t).Can) ∧
      let n : Fin rep → Fin (2 ^ m) → RPoly := fun i s => toR (noiseAt E u κ (2 ^ m) idx prng.stream prng.pos i.val s.val)
      let see : Fin rep → NoiseWire m → RPoly := fun i x => x.val (fun s => (v[s.val]).toZ) (pad n) (pad fun i t => (ρ i t).toZ) i.val
      (∀ (i : Fin rep) (s : Fin (2 ^ m)), see i (.noise s) = n i s ∧ see i (.old s) = ((X i.val)[s.val]).toZ ∧ see i (.ref (.input s)) = ((Y i.val)[s.val]).toZ) ∧
      ∀ s : Fin (2 ^ m), (v'[s.val]).toZ = noisy (fun s => (v[s.val]).toZ) (pad n) (pad fun i t => (ρ i t).toZ) rep s := by
  have hd : PowTwo (2 ^ m) := ⟨m, rfl⟩
  obtain ⟨X, G, x1, x2, g1, g2, hX, hstep⟩ := addRepNoise_trace E fuel hd hu hu' v prng g hv v' p' g' h
  choose Y y1 y2 y3 using fun i : Fin rep => hstep i.val i.isLt
  choose ρ r1 r2 _ r4 using fun i : Fin rep => C62_values E fuel m (Y i) (y1 i) (G i.val) (X (i.val + 1)) _ (y3 i)
  let n : Fin rep → Fin (2 ^ m) → RPoly := fun i s => toR (noiseAt E u κ (2 ^ m) idx prng.stream prng.pos i.val s.val)
  have key : ∀ i, i ≤ rep → ∀ s : Fin (2 ^ m), ((X i)[s.val]).toZ = noisy (fun s => (v[s.val]).toZ) (pad n) (pad fun i t => (ρ i t).toZ) i s := by
    intro i
    induction i with
    | zero => intro _ s; rw [x1]; rfl
    | succ i ih =>
      intro hi s
      refine (r4 ⟨i, hi⟩ s).trans ?_
      show refreshed _ _ s = refreshed (fun s => noisy _ _ _ i s + pad n i s) (pad (fun i t => (ρ i t).toZ) i) s
      rw [show pad (fun i t => (ρ i t).toZ) i = fun t => (ρ ⟨i, hi⟩ t).toZ from dif_pos hi]
      refine congrArg (fun f => refreshed f (fun t => (ρ ⟨i, hi⟩ t).toZ) s) (funext fun k => ?_)
      rw [y2 ⟨i, hi⟩ k.val k.isLt, ih (by omega) k, show pad n i = n ⟨i, hi⟩ from dif_pos hi]
  refine ⟨ρ, G, X, fun i => if h : i < rep then Y ⟨i, h⟩ else v, g1, g2, x1, x2, fun i => ?_, fun i => ⟨r1 i, r2 i⟩, fun i s => ⟨?_, (key i.val (by omega) s).symm, ?_⟩, fun s => ?_⟩
  · show MPoly.refresh E fuel (if h : i.val < rep then Y ⟨i.val, h⟩ else v) (G i.val) = _
    rw [dif_pos i.isLt]
    exact y3 i
  · exact congrFun (pad_at n i) s
  · show noisy (fun s => (v[s.val]).toZ) (pad n) (pad fun i t => (ρ i t).toZ) i.val s + pad n i.val s = ((if h : i.val < rep then Y ⟨i.val, h⟩ else v)[s.val]).toZ
    rw [dif_pos i.isLt, ← key i.val (by omega) s, pad_at n i]
    exact (y2 i s.val s.isLt).symm
  · rw [← x2]
    exact key rep (le_refl _) s

/-- C64: an observer that picks fewer places than there are shares, anywhere in the course of adding noise, and is shown all shares at the end on top, learns nothing
but the result and at most as many of the noise terms, and of the shares of the argument, as it picked places: if two sharings and two noise vectors agree on these and have the same
total, every observation is equally likely. -/
theorem C64_noise (m rep : Nat) (hrep : 0 < rep) (P : Finset (Fin rep × NoiseWire m)) (h : P.card < 2 ^ m) :
    ∃ (V : Finset (Fin (2 ^ m))) (I : Finset (Fin rep × Fin (2 ^ m))), V.card ≤ P.card ∧ I.card ≤ P.card ∧
    ∀ (v v' : Fin (2 ^ m) → RPoly) (n n' : Fin rep → Fin (2 ^ m) → RPoly), (∀ s ∈ V, v s = v' s) → (∀ x ∈ I, n x.1 x.2 = n' x.1 x.2) →
      ∑ s, v s + ∑ i, ∑ s, n i s = ∑ s, v' s + ∑ i, ∑ s, n' i s → ∀ w o,
      Nat.card { ρ : Fin rep → Fin (maskSchedule m).length → RPoly // NoiseSeen P w o v n ρ } =
        Nat.card { ρ : Fin rep → Fin (maskSchedule m).length → RPoly // NoiseSeen P w o v' n' ρ } := by
  obtain ⟨V, I, h1, h2, h3⟩ := noise_hide (R := RPoly) m rep hrep P h
  refine ⟨V, I, h1, h2, fun v v' n n' hv hn hs w o => ?_⟩
  obtain ⟨σ, k1, k2⟩ := h3 (fun s => v' s - v s) (fun i s => n' i s - n i s) (fun s hs => by rw [hv s hs, sub_self]) (fun x hx => by rw [hn x hx, sub_self]) (by
    rw [Finset.sum_sub_distrib, Finset.sum_congr rfl (fun i _ => Finset.sum_sub_distrib (fun s => n' i s) (fun s => n i s)), Finset.sum_sub_distrib, sub_add_sub_comm, hs, sub_self])
  have Ev : v' = fun s => v s + (v' s - v s) := by funext s; rw [add_sub_cancel]
  have En : n' = fun i s => n i s + (n' i s - n i s) := by funext i s; rw [add_sub_cancel]
  refine Nat.card_congr ((Equiv.addRight σ).subtypeEquiv fun ρ => ?_)
  have ep : ∀ i, pad ((Equiv.addRight σ) ρ) i = fun t => pad ρ i t + pad σ i t := fun i => congrFun (pad_add ρ σ) i
  have e0 : pad ((Equiv.addRight σ) ρ) = fun i t => pad ρ i t + pad σ i t := funext ep
  have e1 : ∀ x ∈ P, x.2.val v' (pad n') (pad ((Equiv.addRight σ) ρ)) x.1.val = x.2.val v (pad n) (pad ρ) x.1.val := fun x hx => by
    rw [e0]
    conv_lhs => rw [Ev, En, pad_add]
    refine (NoiseWire.val_add v _ _ _ (pad ρ) (pad σ) x.1.val x.2).trans ?_
    rw [k1 x hx, add_zero]
  have e2 : ∀ s, noisy v' (pad n') (pad ((Equiv.addRight σ) ρ)) rep s = noisy v (pad n) (pad ρ) rep s := fun s => by
    rw [e0]
    conv_lhs => rw [Ev, En, pad_add]
    refine (noisy_add v _ _ _ (pad ρ) (pad σ) rep s).trans ?_
    rw [k2 s, add_zero]
  constructor
  · rintro ⟨p1, p2⟩
    exact ⟨fun x hx => (e1 x hx).trans (p1 x hx), fun s => (e2 s).trans (p2 s)⟩
  · rintro ⟨p1, p2⟩
    exact ⟨fun x hx => (e1 x hx).symm.trans (p1 x hx), fun s => (e2 s).symm.trans (p2 s)⟩

/-- Non-vacuity: four shares, two repetitions, three places; and the noise vectors `n`, `n'` that differ in two terms have the same total. -/
example : let P : Finset (Fin 2 × NoiseWire 2) := {(0, .noise 1), (1, .old 3), (1, .ref (.mask ⟨0, by decide⟩))}
    P.card < 2 ^ 2 ∧ ∃ n n' : Fin 2 → Fin (2 ^ 2) → RPoly, n ≠ n' ∧ ∑ i, ∑ s, n i s = ∑ i, ∑ s, n' i s := by
  intro P
  refine ⟨by decide, fun i => bump (if i = 0 then 0 else 1) 1, fun i => bump 2 1, ?_, ?_⟩
  · intro e
    have := congrFun (congrFun e 0) 2
    exact one_ne_zero (α := RPoly) this.symm
  · refine Finset.sum_congr rfl fun i _ => ?_
    rw [bump_sum, bump_sum]

end Raccoon
