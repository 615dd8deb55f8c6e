import Verif.Proofs.Probing
/-!
# C62: what an observer of intermediate values of a refresh learns
-/
namespace Raccoon
attribute [-instance] Monoid.toNPow
open Finset

/-- C62 (link to the code): while `refresh` runs, the masks it draws are one per request of the schedule; after `t` requests the shares of the encoding of zero
under construction are `maskedUpto … t`, for every `t`, and the shares it returns are `refreshed`. So `Wire` lists every ring element that is stored in the course
of `zero_encoding` and `refresh`. -/
theorem C62_values (E : Ext) (fuel m : Nat) (a : MPoly (2 ^ m)) (ha : MPoly.Can a) (g : Mrng (2 ^ m)) (v : MPoly (2 ^ m)) (g' : Mrng (2 ^ m)) (h : MPoly.refresh E fuel a g = .ok (v, g')) :
    ∃ ρ : Fin (maskSchedule m).length → Poly, Drawn E fuel (maskSchedule m) g (List.ofFn ρ) g' ∧ (∀ t, (ρ t).Can) ∧
      (∀ t, ∃ vt gt, ((maskSchedule m).take t).foldlM (fun s (p : Nat × Nat) => MPoly.maskPair E fuel p.1 p.2 s) (MPoly.zero (2 ^ m), g) = .ok (vt, gt) ∧
        ∀ s : Fin (2 ^ m), (vt[s.val]).toZ = (Wire.share t s).val (fun i => (a[i.val]).toZ) (fun t => (ρ t).toZ)) ∧
      ∀ s : Fin (2 ^ m), (v[s.val]).toZ = refreshed (fun i => (a[i.val]).toZ) (fun t => (ρ t).toZ) s := by
  unfold MPoly.refresh at h
  obtain ⟨⟨z, g1⟩, e, h⟩ := Res.bind_eq_ok.1 h
  obtain ⟨rfl, rfl⟩ := Prod.mk.inj (Res.ok.inj h)
  have hzc : MPoly.Can z := ((C20_zero_encoding E fuel (2 ^ m) ⟨m, rfl⟩ g).2 z g1 e).1
  have e' := e
  rw [C20_schedule] at e'
  have hz : MPoly.Can (MPoly.zero (2 ^ m)) := by
    intro s hs
    unfold MPoly.zero
    rw [Vector.getElem_replicate]
    exact Poly.zero_can
  have hz0 : ∀ (s : Nat) (hs : s < 2 ^ m), ((MPoly.zero (2 ^ m))[s]).toZ = 0 := by
    intro s hs
    unfold MPoly.zero
    rw [Vector.getElem_replicate]
    exact Poly.zero_toZ
  obtain ⟨ρ, h1, h2, h3⟩ := foldl_upto E fuel (maskSchedule m) (fun p hp => ((C20_schedule_bounds m).1 p hp).2) _ g hz z g1 e'
  refine ⟨ρ, h1, h2, fun t => ?_, fun s => ?_⟩
  · obtain ⟨vt, gt, e2, h4⟩ := h3 t
    refine ⟨vt, gt, e2, fun s => ?_⟩
    rw [h4 s.val s.isLt, hz0, zero_add]
    rfl
  · obtain ⟨vt, gt, e2, h4⟩ := h3 (maskSchedule m).length
    rw [List.take_length, e'] at e2
    obtain ⟨rfl, rfl⟩ := Prod.mk.inj (Res.ok.inj e2)
    unfold MPoly.add refreshed
    rw [Vector.getElem_zipWith, Poly.add_toZ (ha _ _) (hzc _ _), h4 s.val s.isLt, hz0, zero_add, ← maskedShare_upto]

/-- C62: whatever places an observer chooses, there are at most as many shares of the argument such that everything it sees there *together with all refreshed
shares* depends on nothing but these shares and the shared value: two sharings of one value that agree on them give every observation equally often. -/
theorem C62_refresh (m : Nat) (P : Finset (Wire m)) : ∃ I : Finset (Fin (2 ^ m)), I.card ≤ P.card ∧
    ∀ a a' : Fin (2 ^ m) → RPoly, ∑ s, a s = ∑ s, a' s → (∀ s ∈ I, a s = a' s) → ∀ (w : Wire m → RPoly) (o : Fin (2 ^ m) → RPoly),
      Nat.card { ρ : Fin (maskSchedule m).length → RPoly // (∀ x ∈ P, x.val a ρ = w x) ∧ ∀ s, refreshed a ρ s = o s } =
        Nat.card { ρ : Fin (maskSchedule m).length → RPoly // (∀ x ∈ P, x.val a' ρ = w x) ∧ ∀ s, refreshed a' ρ s = o s } := by
  obtain ⟨I, h1, -, h3⟩ := hide_change (R := RPoly) m P
  refine ⟨I, h1, fun a a' hsum hI w o => ?_⟩
  obtain ⟨σ, k1, k2⟩ := h3 (fun s => a' s - a s) (by rw [Finset.sum_sub_distrib, hsum, sub_self]) (fun s hs => by rw [hI s hs, sub_self])
  have ea : a' = fun s => a s + (a' s - a s) := by funext s; rw [add_sub_cancel]
  refine Nat.card_congr ((Equiv.addRight σ).subtypeEquiv fun ρ => ?_)
  have e1 : ∀ x ∈ P, x.val a' ((Equiv.addRight σ) ρ) = x.val a ρ := fun x hx => by
    conv_lhs => rw [ea]
    exact (Wire.val_add a _ ρ σ x).trans (by rw [k1 x hx, add_zero])
  have e2 : ∀ s, refreshed a' ((Equiv.addRight σ) ρ) s = refreshed a ρ s := fun s => by
    conv_lhs => rw [ea]
    exact (refreshed_add a _ ρ σ s).trans (by rw [k2 s, add_zero])
  constructor
  · rintro ⟨p1, p2⟩
    exact ⟨fun x hx => (e1 x hx).trans (p1 x hx), fun s => (e2 s).trans (p2 s)⟩
  · rintro ⟨p1, p2⟩
    exact ⟨fun x hx => (e1 x hx).symm.trans (p1 x hx), fun s => (e2 s).symm.trans (p2 s)⟩

/-- C62: refresh is strongly non-interfering: if the observed places `P` and the observed refreshed shares `O` together number less than the shares, then what is
seen depends only on as many shares of the argument as there are places in `P`, whatever value is shared. -/
theorem C62_strong_non_interference (m : Nat) (P : Finset (Wire m)) (O : Finset (Fin (2 ^ m))) (h : P.card + O.card < 2 ^ m) : ∃ I : Finset (Fin (2 ^ m)), I.card ≤ P.card ∧
    ∀ a a' : Fin (2 ^ m) → RPoly, (∀ s ∈ I, a s = a' s) → ∀ (w : Wire m → RPoly) (o : Fin (2 ^ m) → RPoly),
      Nat.card { ρ : Fin (maskSchedule m).length → RPoly // (∀ x ∈ P, x.val a ρ = w x) ∧ ∀ s ∈ O, refreshed a ρ s = o s } =
        Nat.card { ρ : Fin (maskSchedule m).length → RPoly // (∀ x ∈ P, x.val a' ρ = w x) ∧ ∀ s ∈ O, refreshed a' ρ s = o s } := by
  obtain ⟨I, h1, -, h3⟩ := hide_move (R := RPoly) m P
  refine ⟨I, h1, fun a a' hI w o => ?_⟩
  obtain ⟨k, hk⟩ : ∃ k, k ∉ I ∪ O := by
    by_contra hn
    push Not at hn
    have h4 : (univ : Finset (Fin (2 ^ m))).card ≤ (I ∪ O).card := Finset.card_le_card fun s _ => hn s
    have h5 := Finset.card_union_le I O
    rw [Finset.card_univ, Fintype.card_fin] at h4
    omega
  obtain ⟨σ, k1, k2⟩ := h3 (fun s => a' s - a s) (fun s hs => by rw [hI s hs, sub_self]) k (fun hn => hk (Finset.mem_union_left _ hn))
  have ea : a' = fun s => a s + (a' s - a s) := by funext s; rw [add_sub_cancel]
  refine Nat.card_congr ((Equiv.addRight σ).subtypeEquiv fun ρ => ?_)
  have e1 : ∀ x ∈ P, x.val a' ((Equiv.addRight σ) ρ) = x.val a ρ := fun x hx => by
    conv_lhs => rw [ea]
    exact (Wire.val_add a _ ρ σ x).trans (by rw [k1 x hx, add_zero])
  have e2 : ∀ s ∈ O, refreshed a' ((Equiv.addRight σ) ρ) s = refreshed a ρ s := fun s hs => by
    conv_lhs => rw [ea]
    exact (refreshed_add a _ ρ σ s).trans (by
      rw [k2 s, bump_ne (k := k) (s := s) _ (fun e => hk (e ▸ Finset.mem_union_right _ hs)), add_zero])
  constructor
  · rintro ⟨p1, p2⟩
    exact ⟨fun x hx => (e1 x hx).trans (p1 x hx), fun s hs => (e2 s hs).trans (p2 s hs)⟩
  · rintro ⟨p1, p2⟩
    exact ⟨fun x hx => (e1 x hx).symm.trans (p1 x hx), fun s hs => (e2 s hs).symm.trans (p2 s hs)⟩

/-- Non-vacuity: with four shares an observer may pick a mask, a share of the encoding under construction and one refreshed share. -/
example : let P : Finset (Wire 2) := {.mask ⟨0, by decide⟩, .share 2 1}
    let O : Finset (Fin (2 ^ 2)) := {2}
    P.card + O.card < 2 ^ 2 := by
  intro P O
  decide

end Raccoon
