import Verif.Proofs.IntResp
/-!
# Hints of generated keys are small
-/
namespace Raccoon
attribute [-instance] Monoid.toNPow
open Finset

/-- Rounding off the 42 low bits of a public key coefficient moves it by at most 2^41 + (q − 125·2^42) (modulo q). -/
theorem round_t (x : ZMod q) : ∃ δ : Int, |δ| ≤ 2 ^ 41 + (q - 125 * 2 ^ 42) ∧ ((2 ^ 42 : ZMod q) * (roundZ 42 x : ZMod q)) = x + (δ : ZMod q) := by
  have hq : q = 549824583172097 := rfl
  have hv : x.val < q := ZMod.val_lt x
  have hx : ((x.val : Int) : ZMod q) = x := by rw [Int.cast_natCast, ZMod.natCast_zmod_val]
  have e41 : (2 : Nat) ^ 41 = 2199023255552 := by norm_num
  have e42 : (2 : Nat) ^ 42 = 4398046511104 := by norm_num
  have i41 : (2 : Int) ^ 41 = 2199023255552 := by norm_num
  have i42 : (2 : Int) ^ 42 = 4398046511104 := by norm_num
  have hr : roundZ 42 x = (x.val + 2199023255552) / 4398046511104 % 125 := by
    unfold roundZ
    rw [show 42 - 1 = 41 from rfl, e41, e42]
    rfl
  have hc : ((2 ^ 42 : ZMod q) * (roundZ 42 x : ZMod q)) = (((4398046511104 * roundZ 42 x : Nat) : Int) : ZMod q) := by
    rw [Int.cast_natCast, Nat.cast_mul]
    congr 1
  rw [hc]
  by_cases hlt : (x.val + 2199023255552) / 4398046511104 < 125
  · refine ⟨(4398046511104 * roundZ 42 x : Nat) - x.val, ?_, ?_⟩
    · rw [abs_le]; omega
    · rw [Int.cast_sub, hx]; ring
  · refine ⟨(4398046511104 * roundZ 42 x : Nat) - x.val + q, ?_, ?_⟩
    · rw [abs_le]; omega
    · rw [Int.cast_add, Int.cast_sub, hx, Int.cast_natCast q, ZMod.natCast_self]; ring

theorem round_int (xv yv : Nat) (D ε : Int) (hx : xv < 549824583172097) (hy : yv < 549824583172097) (hD : |D| < 549824583172097)
    (hε : (xv : Int) - yv - D = 549824583172097 * ε) :
    ∃ m : Int, 17592186044416 * |m| < |D| + 4466815795201 + 17592186044416 ∧
      ((((xv + 8796093022208) / 17592186044416 % 31 : Nat) : Int) - ((yv + 8796093022208) / 17592186044416 % 31 : Nat) - m) % 31 = 0 := by
  rw [abs_lt] at hD
  have h1 : -2 < ε := by omega
  have h2 : ε < 2 := by omega
  obtain ⟨X, hX⟩ : ∃ X, X = (xv + 8796093022208) / 17592186044416 := ⟨_, rfl⟩
  obtain ⟨Y, hY⟩ : ∃ Y, Y = (yv + 8796093022208) / 17592186044416 := ⟨_, rfl⟩
  rw [← hX, ← hY]
  refine ⟨(X : Int) - Y - 31 * ε, ?_, by clear * -; omega⟩
  have x1 : 17592186044416 * X ≤ xv + 8796093022208 ∧ xv + 8796093022208 < 17592186044416 * X + 17592186044416 := by omega
  have y1 : 17592186044416 * Y ≤ yv + 8796093022208 ∧ yv + 8796093022208 < 17592186044416 * Y + 17592186044416 := by omega
  clear hX hY
  obtain ⟨m, hm⟩ : ∃ m : Int, m = (X : Int) - Y - 31 * ε := ⟨_, rfl⟩
  rw [← hm]
  rcases abs_cases m with ⟨em, -⟩ | ⟨em, -⟩ <;> rcases abs_cases D with ⟨ed, sd⟩ | ⟨ed, sd⟩ <;> rw [em, ed] <;> clear em ed <;>
    rcases (by clear * - h1 h2; omega : ε = -1 ∨ ε = 0 ∨ ε = 1) with rfl | rfl | rfl <;> omega

theorem roundZ44 (u : ZMod q) : roundZ 44 u = (u.val + 8796093022208) / 17592186044416 % 31 := by
  have e43 : (2 : Nat) ^ 43 = 8796093022208 := by norm_num
  have e44 : (2 : Nat) ^ 44 = 17592186044416 := by norm_num
  unfold roundZ
  rw [show 44 - 1 = 43 from rfl, e43, e44]
  rfl

/-- Close residues have close roundings, modulo 31. -/
theorem round_close (x y : ZMod q) (D : Int) (hD : |D| < q) (h : x = y + (D : ZMod q)) :
    ∃ m : Int, 17592186044416 * |m| < |D| + 4466815795201 + 17592186044416 ∧ ((roundZ 44 x : Int) - roundZ 44 y - m) % 31 = 0 := by
  have hx : ((x.val : Int) : ZMod q) = x := by rw [Int.cast_natCast, ZMod.natCast_zmod_val]
  have hy : ((y.val : Int) : ZMod q) = y := by rw [Int.cast_natCast, ZMod.natCast_zmod_val]
  have hdvd : (q : Int) ∣ (x.val : Int) - y.val - D := by
    have : (((x.val : Int) - y.val - D : Int) : ZMod q) = 0 := by
      rw [Int.cast_sub, Int.cast_sub, hx, hy, h]; ring
    exact (ZMod.intCast_zmod_eq_zero_iff_dvd _ q).1 this
  obtain ⟨ε, hε⟩ := hdvd
  rw [roundZ44, roundZ44]
  exact round_int x.val y.val D ε (ZMod.val_lt x) (ZMod.val_lt y) hD hε

theorem nttR_smul (k : ZMod q) (f : RPoly) : nttR (k • f) = k • nttR f := by
  funext i
  simp only [nttR, evalR, Pi.smul_apply, smul_eq_mul, Finset.mul_sum, mul_assoc]

/-- What the verifier rounds: `a z − 2^νt c t = a r − c·(e + δ)` when `z = c s + r` and `2^νt t = a s + e + δ`. -/
theorem commit_diff (a : Fin k → Fin l → RPoly) (s r z : Fin l → RPoly) (t e : Fin k → RPoly) (c : RPoly) (κ : ZMod q)
    (hz : z = fun j => negacyclic (s j) c + r j) (ht : ∀ i, κ • t i = ringMatVec a s i + e i) (i : Fin k) :
    ringMatVec a z i - κ • negacyclic (t i) c = ringMatVec a r i - negacyclic (e i) c := by
  apply nttR_inj
  have h1 : κ • nttR (t i) = nttR (ringMatVec a s i) + nttR (e i) := by rw [← nttR_smul, ht i, nttR_add]
  rw [nttR_sub, nttR_sub, nttR_smul, nttR_negacyclic, nttR_negacyclic]
  have h2 : κ • (nttR (t i) * nttR c) = (κ • nttR (t i)) * nttR c := by rw [smul_mul_assoc]
  rw [h2, h1]
  unfold ringMatVec
  rw [nttR_sum, nttR_sum, nttR_sum, add_mul, Finset.sum_mul, hz, sub_eq_sub_iff_add_eq_add]
  have h3 : ∀ j, nttR (negacyclic (a i j) (negacyclic (s j) c + r j)) = nttR (negacyclic (a i j) (s j)) * nttR c + nttR (negacyclic (a i j) (r j)) := by
    intro j
    rw [nttR_negacyclic, nttR_add, nttR_negacyclic, nttR_negacyclic, nttR_negacyclic]
    ring
  simp only [h3]
  rw [Finset.sum_add_distrib]
  ring

/-- The hint of a key whose public vector belongs to its short secret. -/
theorem IsSigOf.hint_small {E : Ext} {κ : Nat} {a : Fin k → Fin l → RPoly} {t : Fin k → RPoly} {s : Fin l → RPoly} {c : Poly} {μ : List U8}
    {r : Fin l → RPoly} {e1 e0 : Fin k → Fin 512 → Int} {cHash : List U8} {h z : List Int} (i : IsSigOf E κ 44 42 a t s c.toZ μ r (vecR e1) cHash h z)
    (ht : ∀ x y, t x y = (roundZ 42 ((ringMatVec a s x + vecR e0 x) y) : ZMod q))
    {B G : Int} {ω : Nat} (h0 : ∀ j x, |e0 j x| ≤ B) (h1 : ∀ j x, |e1 j x| ≤ G) (hc : ∑ x, |Poly.centered c x| = ω)
    (hb : G + (B + (2 ^ 41 + (q - 125 * 2 ^ 42))) * ω + 4466815795201 < 14 * 17592186044416) (x : Fin k) (y : Fin 512) :
    17592186044416 * |unflatten k h x y| < G + (B + (2 ^ 41 + (q - 125 * 2 ^ 42))) * ω + 4466815795201 + 17592186044416 := by
  have hq : (q : Int) = 549824583172097 := rfl
  choose δ hδ1 hδ2 using fun (x : Fin k) (y : Fin 512) => round_t ((ringMatVec a s x + vecR e0 x) y)
  have hs : ∀ x, (2 ^ 42 : ZMod q) • t x = ringMatVec a s x + toR (fun y => e0 x y + δ x y) := by
    intro x
    funext y
    rw [Pi.smul_apply, smul_eq_mul, ht x y, hδ2 x y, Pi.add_apply, Pi.add_apply]
    show _ + ((e0 x y : Int) : ZMod q) + _ = _ + ((e0 x y + δ x y : Int) : ZMod q)
    rw [Int.cast_add, add_assoc]
  have hY := commit_diff a s r (vecR (unflatten l z)) t (fun x => toR (fun y => e0 x y + δ x y)) c.toZ (2 ^ 42) i.resp hs x
  rw [← centered_toR, ← toR_negacyclicZ] at hY
  have hDb : |e1 x y + negacyclicZ (fun y => e0 x y + δ x y) (Poly.centered c) y| ≤ G + (B + (2 ^ 41 + (q - 125 * 2 ^ 42))) * ω := by
    refine le_trans (abs_add_le _ _) (add_le_add (h1 x y) ?_)
    rw [← hc]
    exact negacyclicZ_bound (fun y => le_trans (abs_add_le _ _) (add_le_add (h0 x y) (hδ1 x y))) y
  obtain ⟨D, hD⟩ : ∃ D, D = e1 x y + negacyclicZ (fun y => e0 x y + δ x y) (Poly.centered c) y := ⟨_, rfl⟩
  rw [← hD] at hDb
  obtain ⟨T, hT⟩ : ∃ T : Int, T = G + (B + (2 ^ 41 + (q - 125 * 2 ^ 42))) * ω := ⟨_, rfl⟩
  rw [← hT] at hDb hb ⊢
  have hx : (ringMatVec a r x + vecR e1 x) y = (ringMatVec a (vecR (unflatten l z)) x - (2 ^ 42 : ZMod q) • negacyclic (t x) (toR (Poly.centered c))) y + (D : ZMod q) := by
    rw [hY, hD, Pi.sub_apply, Pi.add_apply, Int.cast_add]
    show _ + ((e1 x y : Int) : ZMod q) = _ - ((negacyclicZ _ _ y : Int) : ZMod q) + _
    ring
  obtain ⟨m, m1, m2⟩ := round_close _ _ D (by rw [hq]; omega) hx
  have hm : unflatten k h x y = m := by
    refine int_eq_of_emod (m := 31) ?_ ?_ ?_
    · exact i.hcent _ (mem_unflatten x y i.hlen)
    · have : |m| < 15 := by clear * - m1 hb hDb; omega
      rw [abs_lt] at this
      clear * - this; omega
    · have := i.hint x y
      rw [← centered_toR] at this
      have e31 : ((q / 2 ^ 44 : Nat) : Int) = 31 := rfl
      rw [e31] at this
      have e1 : commitW 44 a r (vecR e1) x y = roundZ 44 ((ringMatVec a r x + vecR e1 x) y) := rfl
      have e2 : commitY 44 42 a t (toR (Poly.centered c)) (vecR (unflatten l z)) x y = roundZ 44 ((ringMatVec a (vecR (unflatten l z)) x - (2 ^ 42 : ZMod q) • negacyclic (t x) (toR (Poly.centered c))) y) := rfl
      rw [e1, e2] at this
      have h5 := dvd_add (Int.dvd_of_emod_eq_zero this) (Int.dvd_of_emod_eq_zero m2)
      refine Int.emod_eq_zero_of_dvd ?_
      have e3 : ∀ a b c d : Int, a - (b - c) + (b - c - d) = a - d := by intros; ring
      rw [e3] at h5
      exact h5
  rw [hm]
  clear * - m1 hDb; omega

end Raccoon
