import Verif.Proofs.WordMasks
import Verif.Proofs.ProbingLifeCode
/-!
# Counting the words of the mask generators: vectors
-/
namespace Raccoon
attribute [-instance] Monoid.toNPow
open Finset

/-- The requests of a vector of sharings: those of one sharing, for each row. -/
def vecReqs (m rows : Nat) : List (Nat × Nat) := (List.replicate rows (maskSchedule m)).flatten

/-- The masks of a vector of sharings, in the order of the requests. -/
def vecMasks {m rows : Nat} (ρ : Fin rows → Fin (maskSchedule m).length → RPoly) : List Poly := (List.ofFn fun r => List.ofFn fun t => Poly.ofZ (ρ r t)).flatten

theorem vecReqs_length (m rows : Nat) : (vecReqs m rows).length = rows * (maskSchedule m).length := by
  unfold vecReqs
  rw [List.length_flatten, List.map_replicate, List.sum_replicate, smul_eq_mul]

theorem vecReqs_succ (m rows : Nat) : vecReqs m (rows + 1) = maskSchedule m ++ vecReqs m rows := by
  unfold vecReqs
  rw [List.replicate_succ, List.flatten_cons]

theorem vecMasks_succ {m rows : Nat} (ρ : Fin (rows + 1) → Fin (maskSchedule m).length → RPoly) :
    vecMasks ρ = (List.ofFn fun t => Poly.ofZ (ρ 0 t)) ++ vecMasks (fun r : Fin rows => ρ r.succ) := by
  unfold vecMasks
  rw [List.ofFn_succ, List.flatten_cons]

theorem vecMasks_length {m : Nat} : ∀ {rows : Nat} (ρ : Fin rows → Fin (maskSchedule m).length → RPoly), (vecMasks ρ).length = (vecReqs m rows).length
  | 0, _ => rfl
  | rows + 1, ρ => by rw [vecMasks_succ, vecReqs_succ, List.length_append, List.length_append, List.length_ofFn, vecMasks_length]

theorem vecMasks_can {m rows : Nat} (ρ : Fin rows → Fin (maskSchedule m).length → RPoly) : ∀ p ∈ vecMasks ρ, p.Can := by
  intro p hp
  unfold vecMasks at hp
  obtain ⟨l, hl, hp⟩ := List.mem_flatten.1 hp
  obtain ⟨r, rfl⟩ := List.mem_ofFn.1 hl
  obtain ⟨t, rfl⟩ := List.mem_ofFn.1 hp
  exact Poly.ofZ_can _

theorem ofFn_ofZ_inj {n : Nat} {ρ ρ' : Fin n → RPoly} (h : (List.ofFn fun t => Poly.ofZ (ρ t)) = List.ofFn fun t => Poly.ofZ (ρ' t)) : ρ = ρ' := by
  have h' := List.ofFn_injective h
  funext t
  have := congrFun h' t
  rw [← Poly.ofZ_toZ (ρ t), this, Poly.ofZ_toZ]

theorem vecMasks_inj {m : Nat} : ∀ {rows : Nat}, Function.Injective (vecMasks (m := m) (rows := rows))
  | 0, ρ, ρ', _ => funext fun r => r.elim0
  | rows + 1, ρ, ρ', h => by
    rw [vecMasks_succ, vecMasks_succ] at h
    obtain ⟨h1, h2⟩ := List.append_inj h (by rw [List.length_ofFn, List.length_ofFn])
    have e1 := ofFn_ofZ_inj h1
    have e2 := vecMasks_inj h2
    funext r
    refine Fin.cases e1 (fun r => ?_) r
    exact congrFun e2 r

theorem vecReqs_mem {m rows : Nat} : ∀ p ∈ vecReqs m rows, p ∈ maskSchedule m := by
  intro p hp
  unfold vecReqs at hp
  obtain ⟨l, hl, hp⟩ := List.mem_flatten.1 hp
  rw [List.eq_of_mem_replicate hl] at hp
  exact hp

theorem drawn_rows (E : Ext) (fuel m : Nat) : ∀ (rows : Nat) (ρ : Fin rows → Fin (maskSchedule m).length → RPoly) (g g' : Mrng (2 ^ m)),
    Drawn E fuel (vecReqs m rows) g (vecMasks ρ) g' ↔
      ∃ G : Nat → Mrng (2 ^ m), G 0 = g ∧ G rows = g' ∧ ∀ r : Fin rows, Drawn E fuel (maskSchedule m) (G r.val) (List.ofFn fun t => Poly.ofZ (ρ r t)) (G (r.val + 1)) := by
  intro rows
  induction rows with
  | zero =>
    intro ρ g g'
    constructor
    · intro h
      have h : Drawn E fuel [] g [] g' := h
      cases h
      exact ⟨fun _ => g, rfl, rfl, fun r => r.elim0⟩
    · rintro ⟨G, rfl, rfl, _⟩
      exact Drawn.nil _
  | succ rows ih =>
    intro ρ g g'
    rw [vecReqs_succ, vecMasks_succ]
    constructor
    · intro h
      obtain ⟨g₁, h1, h2⟩ := Drawn.split (by rw [List.length_ofFn]) h
      obtain ⟨G, e1, e2, h3⟩ := (ih _ _ _).1 h2
      refine ⟨fun i => if i = 0 then g else G (i - 1), if_pos rfl, ?_, fun r => ?_⟩
      · show (if rows + 1 = 0 then g else G (rows + 1 - 1)) = g'
        rw [if_neg (by omega)]
        exact e2
      · refine Fin.cases ?_ (fun r => ?_) r
        · show Drawn E fuel _ g _ (G 0)
          rw [e1]
          exact h1
        · show Drawn E fuel _ (if r.val + 1 = 0 then g else G (r.val + 1 - 1)) _ (if r.val + 1 + 1 = 0 then g else G (r.val + 1 + 1 - 1))
          rw [if_neg (by omega), if_neg (by omega)]
          exact h3 r
    · rintro ⟨G, rfl, rfl, h⟩
      exact Drawn.append (h 0) ((ih (fun r => ρ r.succ) (G 1) (G (rows + 1))).2 ⟨fun i => G (i + 1), rfl, rfl, fun r => h r.succ⟩)

/-- `zero_encoding` on vectors returns exactly what the masks drawn say. -/
theorem PVec.zeroEncoding_iff (E : Ext) (fuel m rows : Nat) (g : Mrng (2 ^ m)) (v : PVec rows (2 ^ m)) (hv : PVec.Can v) (g' : Mrng (2 ^ m)) :
    PVec.zeroEncoding E fuel rows g = .ok (v, g') ↔ ∃ ρ : Fin rows → Fin (maskSchedule m).length → RPoly, Drawn E fuel (vecReqs m rows) g (vecMasks ρ) g' ∧
      ∀ (r : Fin rows) (s : Fin (2 ^ m)), (v[r.val][s.val]).toZ = maskedShare (maskSchedule m) (ρ r) s.val := by
  have fwd : ∀ (v : PVec rows (2 ^ m)) (g' : Mrng (2 ^ m)), PVec.Can v → PVec.zeroEncoding E fuel rows g = .ok (v, g') → ∃ ρ : Fin rows → Fin (maskSchedule m).length → RPoly, Drawn E fuel (vecReqs m rows) g (vecMasks ρ) g' ∧
      ∀ (r : Fin rows) (s : Fin (2 ^ m)), (v[r.val][s.val]).toZ = maskedShare (maskSchedule m) (ρ r) s.val := by
    intro v g' hv h
    obtain ⟨G, h1, h2, h3⟩ := PVec.zeroEncoding_rows E fuel g v g' h
    have h4 := fun r : Fin rows => (Raccoon.zeroEncoding_iff E fuel m (G r.val) v[r.val] (hv r.val r.isLt) (G (r.val + 1))).1 (h3 r.val r.isLt)
    choose ρ h5 h6 using h4
    exact ⟨ρ, (drawn_rows E fuel m rows ρ g g').2 ⟨G, h1, h2, h5⟩, h6⟩
  refine ⟨fwd v g' hv, ?_⟩
  rintro ⟨ρ, hD, hs⟩
  obtain ⟨G, h1, h2, h3⟩ := (drawn_rows E fuel m rows ρ g g').1 hD
  have hrow : ∀ r : Fin rows, ∃ z, MPoly.zeroEncoding E fuel (G r.val) = .ok (z, G (r.val + 1)) := by
    intro r
    obtain ⟨z, e⟩ := foldl_drawn E fuel (maskSchedule m) (fun p hp => ((C20_schedule_bounds m).1 p hp).2) (MPoly.zero (2 ^ m)) _ _ _ (h3 r)
    exact ⟨z, by rw [C20_schedule]; exact e⟩
  have hok : (PVec.zeroEncoding E fuel rows g).Ok (fun s => s.2 = G rows) := by
    unfold PVec.zeroEncoding
    refine forLoop_Ok1 (Nat.zero_le rows) (fun i (s : PVec rows (2 ^ m) × Mrng (2 ^ m)) => s.2 = G i) h1.symm ?_
    rintro i ⟨u, gi⟩ - hi h
    replace h : gi = G i := h
    subst h
    obtain ⟨z, e⟩ := hrow ⟨i, hi⟩
    replace e : MPoly.zeroEncoding E fuel (G i) = .ok (z, G (i + 1)) := e
    show (MPoly.zeroEncoding E fuel (G i) >>= _).Ok _
    rw [e, Res.ok_bind]
    show (u.wr i z >>= _).Ok _
    rw [wr_ok hi, Res.ok_bind]
    exact ⟨_, rfl, rfl⟩
  obtain ⟨⟨v', g''⟩, e, hg⟩ := hok
  replace hg : g'' = G rows := hg
  rw [hg, h2] at e
  have hv' : PVec.Can v' := by
    have := PVec.zeroEncoding_spec E fuel rows (⟨m, rfl⟩ : PowTwo (2 ^ m)) g
    rw [e] at this
    exact this.1
  obtain ⟨ρ', hD', hs'⟩ := fwd v' g' hv' e
  obtain rfl := vecMasks_inj (hD.det hD').1
  have : v' = v := by
    apply Vector.ext
    intro r hr
    apply Vector.ext
    intro s hs2
    exact (Poly.toZ_inj (hv' r hr s hs2) (hv r hr s hs2)).1 ((hs' ⟨r, hr⟩ ⟨s, hs2⟩).trans (hs ⟨r, hr⟩ ⟨s, hs2⟩).symm)
  rw [e, this]

/-- How many masks give wanted shares, row by row. -/
theorem card_rows {m rows : Nat} (Q : Fin rows → (Fin (maskSchedule m).length → RPoly) → Prop) (c : Nat) (hQ : ∀ r, Nat.card { ρ // Q r ρ } = c) :
    Nat.card { ρ : Fin rows → Fin (maskSchedule m).length → RPoly // ∀ r, Q r (ρ r) } = c ^ rows := by
  rw [Nat.card_congr (Equiv.subtypePiEquivPi (β := fun _ : Fin rows => Fin (maskSchedule m).length → RPoly) (p := fun {r} ρ => Q r ρ)), Nat.card_pi, Finset.prod_congr rfl (fun r _ => hQ r), Finset.prod_const,
    Finset.card_univ, Fintype.card_fin]

/-- Counting the words for which the masks of an encoding of the zero vector have a property. -/
theorem zero_words (fuel m rows : Nat) (M : Nat) (hM : rows * (maskSchedule m).length * fuel ≤ M)
    (E : (Fin (2 ^ m - 1) → Fin M → U64) → Ext) (g : (Fin (2 ^ m - 1) → Fin M → U64) → Mrng (2 ^ m))
    (hg : ∀ (W : Fin (2 ^ m - 1) → Fin M → U64) (i : Fin (2 ^ m - 1)) (j : Fin M), ((E W).asconP6^[j.val] (g W).state[i.val])[0] = W i j) :
    ∃ N : Nat, (512 ≤ fuel → 0 < N) ∧ ∀ P : (Fin rows → Fin (maskSchedule m).length → RPoly) → Prop,
      Nat.card { W : Fin (2 ^ m - 1) → Fin M → U64 // ∃ ρ, P ρ ∧ ∃ g', Drawn (E W) fuel (vecReqs m rows) (g W) (vecMasks ρ) g' } = Nat.card { ρ // P ρ } * N := by
  obtain ⟨N, h1, h2⟩ := drawn_count fuel (vecReqs m rows) (fun p hp => ((C20_schedule_bounds m).1 p (vecReqs_mem p hp)).1) M (by rw [vecReqs_length]; exact hM) E g hg
  refine ⟨N, h1, fun P => ?_⟩
  rw [← h2 { ρ // P ρ } (fun ρ => vecMasks ρ.1) (fun a b h => Subtype.ext (vecMasks_inj h)) (fun ρ => vecMasks_length ρ.1) (fun ρ => vecMasks_can ρ.1)]
  refine Nat.card_congr (Equiv.subtypeEquivRight fun W => ?_)
  constructor
  · rintro ⟨ρ, h, g', hD⟩
    exact ⟨⟨ρ, h⟩, g', hD⟩
  · rintro ⟨⟨ρ, h⟩, g', hD⟩
    exact ⟨ρ, h, g', hD⟩

end Raccoon
