import Verif.Proofs.ProbingLife
import Verif.Proofs.Sign
/-!
# Rows and shares of the vectors handled by key generation and signing
-/
namespace Raccoon
attribute [-instance] Monoid.toNPow
open Finset

/-- The generators between the rows of an encoding of the zero vector. -/
theorem PVec.zeroEncoding_rows (E : Ext) (fuel : Nat) {rows d : Nat} (g : Mrng d) (v : PVec rows d) (g' : Mrng d) (h : PVec.zeroEncoding E fuel rows g = .ok (v, g')) :
    ∃ G : Nat → Mrng d, G 0 = g ∧ G rows = g' ∧ ∀ (i : Nat) (hi : i < rows), MPoly.zeroEncoding E fuel (G i) = .ok (v[i], G (i + 1)) := by
  unfold PVec.zeroEncoding at h
  suffices H : ∀ n i (u : PVec rows d) (m : Mrng d), i + n = rows →
      forLoop i rows 1 (fun ridx (s : PVec rows d × Mrng d) => do
        let (z, m) ← MPoly.zeroEncoding E fuel s.2
        let v ← s.1.wr ridx z
        Res.ok (v, m)) (u, m) = .ok (v, g') →
      (∀ j (hj : j < rows), j < i → v[j] = u[j]) ∧
      ∃ G : Nat → Mrng d, G i = m ∧ G rows = g' ∧ ∀ (j : Nat) (hj : j < rows), i ≤ j → MPoly.zeroEncoding E fuel (G j) = .ok (v[j], G (j + 1)) by
    obtain ⟨-, G, h1, h2, h3⟩ := H rows 0 _ g (by omega) h
    exact ⟨G, h1, h2, fun i hi => h3 i hi (Nat.zero_le _)⟩
  intro n
  induction n with
  | zero =>
    intro i u m hi h
    rw [forLoop_nil (by omega) (by omega)] at h
    obtain ⟨rfl, rfl⟩ := Prod.mk.inj (Res.ok.inj h)
    exact ⟨fun j hj _ => rfl, fun _ => m, rfl, rfl, fun j hj hij => by omega⟩
  | succ n ih =>
    intro i u m hi h
    have hlt : i < rows := by omega
    rw [forLoop_cons hlt (by omega)] at h
    obtain ⟨⟨u1, m1⟩, e1, h⟩ := Res.bind_eq_ok.1 h
    obtain ⟨⟨y, m2⟩, ey, e1⟩ := Res.bind_eq_ok.1 e1
    obtain ⟨w, ew, e1⟩ := Res.bind_eq_ok.1 e1
    rw [wr_ok hlt] at ew
    obtain rfl := Res.ok.inj ew
    obtain ⟨rfl, rfl⟩ := Prod.mk.inj (Res.ok.inj e1)
    obtain ⟨k1, G, k2, k3, k4⟩ := ih (i + 1) _ _ (by omega) h
    refine ⟨fun j hj hji => ?_, fun j => if j = i then m else G j, if_pos rfl, ?_, fun j hj hij => ?_⟩
    · rw [k1 j hj (by omega), Vector.getElem_set_ne _ _ (by omega)]
    · show (if rows = i then m else G rows) = g'
      rw [if_neg (by omega)]
      exact k3
    · show MPoly.zeroEncoding E fuel (if j = i then m else G j) = Res.ok (v[j], if j + 1 = i then m else G (j + 1))
      by_cases hji : j = i
      · subst hji
        rw [if_pos rfl, if_neg (by omega), k1 j hj (by omega), Vector.getElem_set_self, k2]
        exact ey
      · rw [if_neg hji, if_neg (by omega)]
        exact k4 j hj (by omega)

/-- The generators between the rows when noise is added to a vector. -/
theorem PVec.addRepNoise_rows (E : Ext) (fuel u rep κ : Nat) {rows d : Nat} (a : PVec rows d) (p : Prng) (g : Mrng d) (v : PVec rows d) (p' : Prng) (g' : Mrng d)
    (h : PVec.addRepNoise E fuel u rep κ a p g = .ok (v, p', g')) :
    ∃ (Q : Nat → Prng) (G : Nat → Mrng d), Q 0 = p ∧ Q rows = p' ∧ G 0 = g ∧ G rows = g' ∧
      ∀ (i : Nat) (hi : i < rows), MPoly.addRepNoise E fuel u rep κ i a[i] (Q i) (G i) = .ok (v[i], Q (i + 1), G (i + 1)) := by
  unfold PVec.addRepNoise at h
  suffices H : ∀ n i (w : PVec rows d) (q : Prng) (m : Mrng d), i + n = rows → (∀ j (hj : j < rows), i ≤ j → w[j] = a[j]) →
      forLoop i rows 1 (fun ridx (s : PVec rows d × Prng × Mrng d) => do
        let x ← s.1.rd ridx
        let (x, prng, m) ← MPoly.addRepNoise E fuel u rep κ ridx x s.2.1 s.2.2
        let v ← s.1.wr ridx x
        Res.ok (v, prng, m)) (w, q, m) = .ok (v, p', g') →
      (∀ j (hj : j < rows), j < i → v[j] = w[j]) ∧
      ∃ (Q : Nat → Prng) (G : Nat → Mrng d), Q i = q ∧ Q rows = p' ∧ G i = m ∧ G rows = g' ∧
        ∀ (j : Nat) (hj : j < rows), i ≤ j → MPoly.addRepNoise E fuel u rep κ j a[j] (Q j) (G j) = .ok (v[j], Q (j + 1), G (j + 1)) by
    obtain ⟨-, Q, G, h1, h2, h3, h4, h5⟩ := H rows 0 a p g (by omega) (fun j hj _ => rfl) h
    exact ⟨Q, G, h1, h2, h3, h4, fun i hi => h5 i hi (Nat.zero_le _)⟩
  intro n
  induction n with
  | zero =>
    intro i w q m hi hu h
    rw [forLoop_nil (by omega) (by omega)] at h
    have hp := Res.ok.inj h
    simp only [Prod.mk.injEq] at hp
    obtain ⟨rfl, rfl, rfl⟩ := hp
    exact ⟨fun j hj _ => rfl, fun _ => q, fun _ => m, rfl, rfl, rfl, rfl, fun j hj hij => by omega⟩
  | succ n ih =>
    intro i w q m hi hu h
    have hlt : i < rows := by omega
    rw [forLoop_cons hlt (by omega)] at h
    obtain ⟨⟨u1, q1, m1⟩, e1, h⟩ := Res.bind_eq_ok.1 h
    obtain ⟨x, ex, e1⟩ := Res.bind_eq_ok.1 e1
    rw [rd_ok hlt] at ex
    obtain rfl := Res.ok.inj ex
    obtain ⟨⟨y, q2, m2⟩, ey, e1⟩ := Res.bind_eq_ok.1 e1
    obtain ⟨w', ew, e1⟩ := Res.bind_eq_ok.1 e1
    rw [wr_ok hlt] at ew
    obtain rfl := Res.ok.inj ew
    have hp := Res.ok.inj e1
    simp only [Prod.mk.injEq] at hp
    obtain ⟨rfl, rfl, rfl⟩ := hp
    obtain ⟨k1, Q, G, k2, k3, k4, k5, k6⟩ := ih (i + 1) _ _ _ (by omega) (fun j hj hij => by
      rw [Vector.getElem_set_ne _ _ (by omega)]
      exact hu j hj (by omega)) h
    refine ⟨fun j hj hji => ?_, fun j => if j = i then q else Q j, fun j => if j = i then m else G j, if_pos rfl, ?_, if_pos rfl, ?_, fun j hj hij => ?_⟩
    · rw [k1 j hj (by omega), Vector.getElem_set_ne _ _ (by omega)]
    · show (if rows = i then q else Q rows) = p'
      rw [if_neg (by omega)]
      exact k3
    · show (if rows = i then m else G rows) = g'
      rw [if_neg (by omega)]
      exact k5
    · show MPoly.addRepNoise E fuel u rep κ j a[j] (if j = i then q else Q j) (if j = i then m else G j) = Res.ok (v[j], (if j + 1 = i then q else Q (j + 1)), if j + 1 = i then m else G (j + 1))
      by_cases hji : j = i
      · subst hji
        rw [if_pos rfl, if_pos rfl, if_neg (by omega), if_neg (by omega), k1 j hj (by omega), Vector.getElem_set_self, k2, k4, ← hu j hj (le_refl _)]
        exact ey
      · rw [if_neg hji, if_neg hji, if_neg (by omega), if_neg (by omega)]
        exact k6 j hj (by omega)

/-- Where the seed bytes for row `i` are read. -/
theorem PVec.addRepNoise_pos (E : Ext) (fuel : Nat) {u rep κ rows d : Nat} (hd : PowTwo d) (hu : 0 < u) (hu' : u ≤ 49) {a v : PVec rows d} (ha : PVec.Can a) (Q : Nat → Prng) (G : Nat → Mrng d)
    (h : ∀ (i : Nat) (hi : i < rows), MPoly.addRepNoise E fuel u rep κ i a[i] (Q i) (G i) = .ok (v[i], Q (i + 1), G (i + 1))) : ∀ i, i ≤ rows → Q i = (Q 0).advance (i * (rep * d * (κ / 8))) := by
  intro i
  induction i with
  | zero => intro _; rw [Nat.zero_mul]; rfl
  | succ i ih =>
    intro hi
    have hs := MPoly.addRepNoise_spec E fuel (u := u) (κ := κ) (rep := rep) (idx := i) hd hu hu' (Q i) (G i) (ha i (by omega))
    rw [h i (by omega)] at hs
    refine hs.2.2.trans ?_
    rw [ih (by omega), Prng.advance_advance, Nat.add_mul, Nat.one_mul]

theorem PVec.ntt_shares {v r : PVec rows d} (hv : PVec.Can v) (h : v.ntt = .ok r) (j : Nat) (hj : j < rows) (s : Nat) (hs : s < d) : (r[j][s]).toZ = nttR (v[j][s]).toZ := by
  unfold PVec.ntt MPoly.ntt at h
  have h1 := (mapR_eq_ok.1 h) j hj
  have h2 := (mapR_eq_ok.1 h1) s hs
  obtain ⟨x, e, -, e2⟩ := Raccoon.ntt_spec (hv j hj s hs)
  rw [h2] at e
  obtain rfl := Res.ok.inj e
  exact e2

theorem PVec.intt_shares {v r : PVec rows d} (hv : PVec.Can v) (h : v.intt = .ok r) (j : Nat) (hj : j < rows) (s : Nat) (hs : s < d) : nttR (r[j][s]).toZ = (v[j][s]).toZ := by
  unfold PVec.intt MPoly.intt at h
  have h1 := (mapR_eq_ok.1 h) j hj
  have h2 := (mapR_eq_ok.1 h1) s hs
  obtain ⟨x, e, -, e2⟩ := Raccoon.intt_spec (hv j hj s hs)
  rw [h2] at e
  obtain rfl := Res.ok.inj e
  exact e2

/-- The accumulator of the matrix product after `c` columns. -/
theorem foldl_add_take (f : Fin n → Poly) (hf : ∀ j, (f j).Can) : ∀ c, (((List.finRange n).take c).foldl (fun acc j => Poly.add acc (f j)) Poly.zero).Can ∧
    (((List.finRange n).take c).foldl (fun acc j => Poly.add acc (f j)) Poly.zero).toZ = ∑ j : Fin n, if j.val < c then (f j).toZ else 0 := by
  intro c
  induction c with
  | zero =>
    rw [List.take_zero]
    refine ⟨Poly.zero_can, ?_⟩
    rw [Finset.sum_eq_zero (fun j _ => if_neg (by omega))]
    exact Poly.zero_toZ
  | succ c ih =>
    by_cases hc : c < n
    · rw [List.take_succ_eq_append_getElem (by rw [List.length_finRange]; exact hc), List.foldl_append, List.getElem_finRange]
      refine ⟨Poly.add_can ih.1 (hf _), ?_⟩
      show (Poly.add _ _).toZ = _
      rw [Poly.add_toZ ih.1 (hf _), ih.2]
      have e : ∀ j : Fin n, (if j.val < c + 1 then (f j).toZ else 0) = (if j.val < c then (f j).toZ else 0) + if j = ⟨c, hc⟩ then (f ⟨c, hc⟩).toZ else 0 := fun j => by
        by_cases h1 : j.val < c
        · rw [if_pos h1, if_pos (by omega), if_neg (fun e => by rw [e] at h1; exact absurd h1 (lt_irrefl c)), add_zero]
        · by_cases h2 : j = ⟨c, hc⟩
          · subst h2
            rw [if_neg h1, if_pos rfl, if_pos (Nat.lt_succ_self c), zero_add]
          · rw [if_neg h1, if_neg h2, if_neg (fun h3 => h2 (Fin.ext (by show j.val = c; omega))), add_zero]
      rw [Finset.sum_congr rfl (fun j _ => e j), Finset.sum_add_distrib, Finset.sum_ite_eq' univ (⟨c, hc⟩ : Fin n) (fun _ => (f ⟨c, hc⟩).toZ), if_pos (mem_univ _)]
      rfl
    · rw [List.take_of_length_le (by rw [List.length_finRange]; omega)]
      rw [List.take_of_length_le (by rw [List.length_finRange]; omega)] at ih
      refine ⟨ih.1, ih.2.trans (Finset.sum_congr rfl fun j _ => ?_)⟩
      rw [if_pos (by omega), if_pos (by omega)]

end Raccoon
