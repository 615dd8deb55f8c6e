import Verif.Props.Probing
import Verif.Proofs.ProbingResp
import Verif.Proofs.Sign
/-!
# C63: what an observer of the computation of a response learns
-/
namespace Raccoon
attribute [-instance] Monoid.toNPow
open Finset

/-- C63 (link to the code): every attempt of `sign` that comes to an end refreshes the sharing `st.s` of the secret it was given and the sharing `b` of its
ephemeral vector, forms `s * c + r` share by share, and refreshes the result; the refreshed secret is what the next attempt starts with. -/
theorem C63_sign (P : Par) (E : Ext) (fuel m uw rep : Nat) (hu : 0 < uw) (hu' : uw ≤ 49) (A : PMat P.k P.l) (t : PVec P.k 1) (μ : List U8) (st : SignSt P.l (2 ^ m))
    (done : Bool) (st' : SignSt P.l (2 ^ m)) (h : signAttempt P E fuel (2 ^ m) uw rep A t μ st = .ok (done, st')) :
    ∃ (b r z : PVec P.l (2 ^ m)) (c : Poly) (g g1 g2 : Mrng (2 ^ m)), PVec.Can b ∧ c.Can ∧
      PVec.refresh E fuel st.s g = .ok (st'.s, g1) ∧ PVec.refresh E fuel b g1 = .ok (r, g2) ∧ PVec.refresh E fuel ((st'.s.mulPoly c).add r) g2 = .ok (z, st'.m) := by
  have hd : PowTwo (2 ^ m) := ⟨m, rfl⟩
  rw [signAttempt_eq] at h
  obtain ⟨⟨sig, s', p', m'⟩, hc, h⟩ := Res.bind_eq_ok.1 h
  have hst : st'.s = s' ∧ st'.m = m' := by
    unfold signFinish at h
    obtain ⟨⟨e1, e2⟩, -, h⟩ := Res.bind_eq_ok.1 h
    dsimp only at h
    split at h
    · obtain ⟨-, rfl⟩ := Prod.mk.inj (Res.ok.inj h)
      exact ⟨rfl, rfl⟩
    · obtain ⟨ib, -, h⟩ := Res.bind_eq_ok.1 h
      split at h
      · obtain ⟨-, rfl⟩ := Prod.mk.inj (Res.ok.inj h)
        exact ⟨rfl, rfl⟩
      · obtain ⟨-, rfl⟩ := Prod.mk.inj (Res.ok.inj h)
        exact ⟨rfl, rfl⟩
  rw [hst.1, hst.2]
  unfold signCore at hc
  obtain ⟨⟨r0, m1⟩, e0, hc⟩ := Res.bind_eq_ok.1 hc
  have s0 := PVec.zeroEncoding_spec E fuel P.l hd st.m
  rw [e0] at s0
  obtain ⟨⟨r1, p1, m2⟩, e1, hc⟩ := Res.bind_eq_ok.1 hc
  have s1 := PVec.addRepNoise_spec E fuel (u := uw) (κ := P.κ) (rep := rep) hd hu hu' st.prng m1 s0.1
  rw [e1] at s1
  obtain ⟨r2, e2, hc⟩ := Res.bind_eq_ok.1 hc
  obtain ⟨r2', e2', s2, -⟩ := PVec.ntt_spec s1.1
  rw [e2] at e2'
  obtain rfl := Res.ok.inj e2'
  obtain ⟨w0, -, hc⟩ := Res.bind_eq_ok.1 hc
  obtain ⟨⟨w1, p2, m3⟩, -, hc⟩ := Res.bind_eq_ok.1 hc
  obtain ⟨cH, -, hc⟩ := Res.bind_eq_ok.1 hc
  obtain ⟨c0, ec, hc⟩ := Res.bind_eq_ok.1 hc
  obtain ⟨c, ecn, hc⟩ := Res.bind_eq_ok.1 hc
  obtain ⟨cn, ecn', hcan, -⟩ := ntt_ex (chalPoly_can ec)
  rw [ecn] at ecn'
  obtain rfl := Res.ok.inj ecn'
  obtain ⟨⟨s3, m4⟩, es, hc⟩ := Res.bind_eq_ok.1 hc
  obtain ⟨⟨r3, m5⟩, er, hc⟩ := Res.bind_eq_ok.1 hc
  obtain ⟨⟨z, m6⟩, ez, hc⟩ := Res.bind_eq_ok.1 hc
  obtain ⟨y, -, hc⟩ := Res.bind_eq_ok.1 hc
  obtain ⟨z', -, hc⟩ := Res.bind_eq_ok.1 hc
  obtain ⟨sg, -, hc⟩ := Res.bind_eq_ok.1 hc
  have hp := Res.ok.inj hc
  simp only [Prod.mk.injEq] at hp
  obtain ⟨-, rfl, -, rfl⟩ := hp
  exact ⟨r2, r3, z, c, m3, m4, m5, s2, hcan, es, er, ez⟩

/-- C63 (link to the code): the values those lines handle are, row by row, the ones `RespWire` lists (inside the three refreshes: `C62_values` for each row, with the
same masks), and the shares added up in the end are `respOut`. -/
theorem C63_values (E : Ext) (fuel m l : Nat) (a b s r z : PVec l (2 ^ m)) (ha : PVec.Can a) (hb : PVec.Can b) (c : Poly) (hc : c.Can) (g g1 g2 g3 : Mrng (2 ^ m))
    (h1 : PVec.refresh E fuel a g = .ok (s, g1)) (h2 : PVec.refresh E fuel b g1 = .ok (r, g2)) (h3 : PVec.refresh E fuel ((s.mulPoly c).add r) g2 = .ok (z, g3)) :
    ∃ (ρ : Fin l → Fin 3 → Fin (maskSchedule m).length → Poly) (G : Fin 3 → Nat → Mrng (2 ^ m)),
      (G 0 0 = g ∧ G 0 l = g1 ∧ G 1 0 = g1 ∧ G 1 l = g2 ∧ G 2 0 = g2 ∧ G 2 l = g3) ∧
      (∀ i n, Drawn E fuel (maskSchedule m) (G n i.val) (List.ofFn (ρ i n)) (G n (i.val + 1)) ∧ ∀ t, (ρ i n t).Can) ∧
      ∀ (i : Fin l) (j : Fin (2 ^ m)),
        let see : RespWire m → RPoly := fun x => x.val c.toZ (fun k => (a[i.val][k.val]).toZ) (fun k => (b[i.val][k.val]).toZ) (fun n t => (ρ i n t).toZ)
        (a[i.val][j.val]).toZ = see (.s (.input j)) ∧ (b[i.val][j.val]).toZ = see (.r (.input j)) ∧
        (s[i.val][j.val]).toZ = see (.sOut j) ∧ (r[i.val][j.val]).toZ = see (.rOut j) ∧ ((s.mulPoly c)[i.val][j.val]).toZ = see (.prod j) ∧
        (((s.mulPoly c).add r)[i.val][j.val]).toZ = see (.z (.input j)) ∧
        (z[i.val][j.val]).toZ = respOut c.toZ (fun k => (a[i.val][k.val]).toZ) (fun k => (b[i.val][k.val]).toZ) (fun n t => (ρ i n t).toZ) j := by
  have hd : PowTwo (2 ^ m) := ⟨m, rfl⟩
  have hs := PVec.refresh_spec E fuel hd ha g
  rw [h1] at hs
  have hs : PVec.Can s := hs.1
  have hr := PVec.refresh_spec E fuel hd hb g1
  rw [h2] at hr
  have hr : PVec.Can r := hr.1
  have hp : PVec.Can (s.mulPoly c) := (PVec.mulPoly_spec hs hc).1
  have hq : PVec.Can ((s.mulPoly c).add r) := (PVec.add_spec hp hr).1
  obtain ⟨G0, a1, a2, a3⟩ := PVec.refresh_rows E fuel a g s g1 h1
  obtain ⟨G1, b1, b2, b3⟩ := PVec.refresh_rows E fuel b g1 r g2 h2
  obtain ⟨G2, c1, c2, c3⟩ := PVec.refresh_rows E fuel _ g2 z g3 h3
  choose ρ0 p1 p2 _ p4 using fun i : Fin l => C62_values E fuel m a[i.val] (ha i.val i.isLt) (G0 i.val) s[i.val] _ (a3 i.val i.isLt)
  choose ρ1 q1 q2 _ q4 using fun i : Fin l => C62_values E fuel m b[i.val] (hb i.val i.isLt) (G1 i.val) r[i.val] _ (b3 i.val i.isLt)
  choose ρ2 r1 r2 _ r4 using fun i : Fin l => C62_values E fuel m ((s.mulPoly c).add r)[i.val] (hq i.val i.isLt) (G2 i.val) z[i.val] _ (c3 i.val i.isLt)
  refine ⟨fun i n => match n with | 0 => ρ0 i | 1 => ρ1 i | 2 => ρ2 i, fun n => match n with | 0 => G0 | 1 => G1 | 2 => G2, ⟨a1, a2, b1, b2, c1, c2⟩, fun i n => ?_, fun i j => ?_⟩
  · match n with
    | 0 => exact ⟨p1 i, p2 i⟩
    | 1 => exact ⟨q1 i, q2 i⟩
    | 2 => exact ⟨r1 i, r2 i⟩
  · have em : ∀ k : Fin (2 ^ m), ((s.mulPoly c)[i.val][k.val]).toZ = refreshed (fun k => (a[i.val][k.val]).toZ) (fun t => (ρ0 i t).toZ) k * c.toZ := fun k => by
      unfold PVec.mulPoly
      rw [Vector.getElem_map, Vector.getElem_map, Poly.mul_toZ (hs _ _ _ _) hc, p4 i k]
    have ez : ∀ k : Fin (2 ^ m), (((s.mulPoly c).add r)[i.val][k.val]).toZ = refreshed (fun k => (a[i.val][k.val]).toZ) (fun t => (ρ0 i t).toZ) k * c.toZ +
        refreshed (fun k => (b[i.val][k.val]).toZ) (fun t => (ρ1 i t).toZ) k := fun k => by
      rw [← em k, ← q4 i k]
      unfold PVec.add MPoly.add
      rw [Vector.getElem_zipWith, Vector.getElem_zipWith]
      exact Poly.add_toZ (hp _ _ _ _) (hr _ _ _ _)
    refine ⟨rfl, rfl, p4 i j, q4 i j, em j, ez j, ?_⟩
    refine (r4 i j).trans ?_
    unfold respOut
    exact congrArg (fun f => refreshed f (fun t => (ρ2 i t).toZ) j) (funext fun k => ez k)

/-- All rows together: if few places are observed, then changes outside few shares that leave the response as it is can be hidden. -/
theorem resp_hide_rows (m l : Nat) (P : Finset (Fin l × RespWire m)) (h : P.card < 2 ^ m) : ∃ I J : Finset (Fin l × Fin (2 ^ m)), I.card + J.card ≤ P.card ∧
    ∀ (c : RPoly) (a a' b b' : Fin l → Fin (2 ^ m) → RPoly), (∀ x ∈ I, a x.1 x.2 = a' x.1 x.2) → (∀ x ∈ J, b x.1 x.2 = b' x.1 x.2) →
      (∀ i, (∑ j, a i j) * c + ∑ j, b i j = (∑ j, a' i j) * c + ∑ j, b' i j) →
      ∃ σ : Fin l → Masks3 m RPoly, ∀ w o ρ, RespSeen P c w o a b ρ ↔ RespSeen P c w o a' b' (fun i n t => ρ i n t + σ i n t) := by
  choose I J hc hI using fun i : Fin l => resp_hide (R := RPoly) m (rowOf P i) (lt_of_le_of_lt (row_card_le P i) h)
  refine ⟨ofRows I, ofRows J, ?_, fun c a a' b b' ea eb es => ?_⟩
  · have h1 := ofRows_card I
    have h2 := ofRows_card J
    have h3 : ∑ i, (I i).card + ∑ i, (J i).card ≤ ∑ i, (rowOf P i).card := by
      rw [← Finset.sum_add_distrib]
      exact Finset.sum_le_sum fun i _ => hc i
    have h4 : ∑ i, (rowOf P i).card ≤ ∑ i, (P.filter fun x => x.1 = i).card := Finset.sum_le_sum fun i _ => rowOf_card P i
    rw [rows_card] at h4
    omega
  · choose σ k1 k2 using fun i : Fin l => hI i c (fun j => a' i j - a i j) (fun j => b' i j - b i j)
      (fun j hj => by rw [ea (i, j) (mem_ofRows.2 hj), sub_self]) (fun j hj => by rw [eb (i, j) (mem_ofRows.2 hj), sub_self])
      (by rw [Finset.sum_sub_distrib, Finset.sum_sub_distrib, sub_mul, sub_add_sub_comm, es i, sub_self])
    have Ea : ∀ i, a' i = fun j => a i j + (a' i j - a i j) := fun i => by funext j; rw [add_sub_cancel]
    have Eb : ∀ i, b' i = fun j => b i j + (b' i j - b i j) := fun i => by funext j; rw [add_sub_cancel]
    refine ⟨σ, fun w o ρ => ?_⟩
    have e1 : ∀ x ∈ P, x.2.val c (a' x.1) (b' x.1) (fun n t => ρ x.1 n t + σ x.1 n t) = x.2.val c (a x.1) (b x.1) (ρ x.1) := fun x hx => by
      rw [Ea, Eb]
      refine (RespWire.val_add c _ _ _ _ (ρ x.1) (σ x.1) x.2).trans ?_
      rw [k1 x.1 x.2 (mem_rowOf.2 hx), add_zero]
    have e2 : ∀ i j, respOut c (a' i) (b' i) (fun n t => ρ i n t + σ i n t) j = respOut c (a i) (b i) (ρ i) j := fun i j => by
      rw [Ea, Eb]
      refine (respOut_add c _ _ _ _ (ρ i) (σ i) j).trans ?_
      rw [k2 i j, add_zero]
    constructor
    · rintro ⟨p1, p2⟩
      exact ⟨fun x hx => (e1 x hx).trans (p1 x hx), fun i j => (e2 i j).trans (p2 i j)⟩
    · rintro ⟨p1, p2⟩
      exact ⟨fun x hx => (e1 x hx).symm.trans (p1 x hx), fun i j => (e2 i j).symm.trans (p2 i j)⟩

/-- C63: an observer that picks fewer places than there are shares, anywhere in the computation of the response, and is shown *all final shares of the response* on
top, learns nothing but the response itself and the values of some shares of the secret and of the ephemeral, together no more than the places it picked: any two
pairs of sharings that agree on these shares and yield the same response give it every observation equally often. -/
theorem C63_response (m l : Nat) (P : Finset (Fin l × RespWire m)) (h : P.card < 2 ^ m) : ∃ I J : Finset (Fin l × Fin (2 ^ m)), I.card + J.card ≤ P.card ∧
    ∀ (c : RPoly) (a a' b b' : Fin l → Fin (2 ^ m) → RPoly), (∀ x ∈ I, a x.1 x.2 = a' x.1 x.2) → (∀ x ∈ J, b x.1 x.2 = b' x.1 x.2) →
      (∀ i, (∑ j, a i j) * c + ∑ j, b i j = (∑ j, a' i j) * c + ∑ j, b' i j) → ∀ w o,
      Nat.card { ρ : Fin l → Masks3 m RPoly // RespSeen P c w o a b ρ } = Nat.card { ρ : Fin l → Masks3 m RPoly // RespSeen P c w o a' b' ρ } := by
  obtain ⟨I, J, h1, h2⟩ := resp_hide_rows m l P h
  refine ⟨I, J, h1, fun c a a' b b' ea eb es w o => ?_⟩
  obtain ⟨σ, k⟩ := h2 c a a' b b' ea eb es
  exact Nat.card_congr ((Equiv.addRight σ).subtypeEquiv fun ρ => k w o ρ)

/-- C63: seen from outside, with the sharings themselves random: whatever the secret `S` and the ephemeral `R` are, the same observations are equally likely for
any other secret and ephemeral with the same response `S * c + R`. In this sense fewer than `2 ^ m` observed values tell nothing about the secret
that the response does not tell. -/
theorem C63_secret_independent (m l : Nat) (P : Finset (Fin l × RespWire m)) (h : P.card < 2 ^ m) (c : RPoly) (S S' R R' : Fin l → RPoly)
    (hz : ∀ i, S i * c + R i = S' i * c + R' i) (w : Fin l × RespWire m → RPoly) (o : Fin l → Fin (2 ^ m) → RPoly) :
    Nat.card { x : (Fin l → Fin (2 ^ m) → RPoly) × (Fin l → Fin (2 ^ m) → RPoly) × (Fin l → Masks3 m RPoly) //
        (∀ i, ∑ j, x.1 i j = S i) ∧ (∀ i, ∑ j, x.2.1 i j = R i) ∧ RespSeen P c w o x.1 x.2.1 x.2.2 } =
      Nat.card { x : (Fin l → Fin (2 ^ m) → RPoly) × (Fin l → Fin (2 ^ m) → RPoly) × (Fin l → Masks3 m RPoly) //
        (∀ i, ∑ j, x.1 i j = S' i) ∧ (∀ i, ∑ j, x.2.1 i j = R' i) ∧ RespSeen P c w o x.1 x.2.1 x.2.2 } := by
  choose I J hc hI using fun i : Fin l => resp_hide (R := RPoly) m (rowOf P i) (lt_of_le_of_lt (row_card_le P i) h)
  have hcard : ∀ i, (I i).card + (J i).card < 2 ^ m := fun i => lt_of_le_of_lt ((hc i).trans (row_card_le P i)) h
  choose ka hka _ using fun i => exists_outside (I i) (J i) (hcard i)
  choose kb hkb _ using fun i => exists_outside (J i) (I i) (by have := hcard i; omega)
  choose σ k1 k2 using fun i : Fin l => hI i c (bump (ka i) (S' i - S i)) (bump (kb i) (R' i - R i))
    (fun j hj => bump_ne (k := ka i) (s := j) _ (fun e => hka i (e ▸ hj))) (fun j hj => bump_ne (k := kb i) (s := j) _ (fun e => hkb i (e ▸ hj)))
    (by rw [bump_sum, bump_sum, sub_mul, sub_add_sub_comm, hz i, sub_self])
  let τ : (Fin l → Fin (2 ^ m) → RPoly) × (Fin l → Fin (2 ^ m) → RPoly) × (Fin l → Masks3 m RPoly) :=
    (fun i => bump (ka i) (S' i - S i), fun i => bump (kb i) (R' i - R i), σ)
  refine Nat.card_congr ((Equiv.addRight τ).subtypeEquiv fun x => ?_)
  obtain ⟨a, b, ρ⟩ := x
  have sa : ∀ i, ∑ j, (a i j + bump (ka i) (S' i - S i) j) = S' i ↔ ∑ j, a i j = S i := fun i => by
    rw [Finset.sum_add_distrib, bump_sum, ← add_sub_assoc, add_sub_right_comm, add_eq_right, sub_eq_zero]
  have sb : ∀ i, ∑ j, (b i j + bump (kb i) (R' i - R i) j) = R' i ↔ ∑ j, b i j = R i := fun i => by
    rw [Finset.sum_add_distrib, bump_sum, ← add_sub_assoc, add_sub_right_comm, add_eq_right, sub_eq_zero]
  have e1 : ∀ y ∈ P, y.2.val c (fun j => a y.1 j + bump (ka y.1) (S' y.1 - S y.1) j) (fun j => b y.1 j + bump (kb y.1) (R' y.1 - R y.1) j) (fun n t => ρ y.1 n t + σ y.1 n t) =
      y.2.val c (a y.1) (b y.1) (ρ y.1) := fun y hy => by
    refine (RespWire.val_add c _ _ _ _ (ρ y.1) (σ y.1) y.2).trans ?_
    rw [k1 y.1 y.2 (mem_rowOf.2 hy), add_zero]
  have e2 : ∀ i j, respOut c (fun j => a i j + bump (ka i) (S' i - S i) j) (fun j => b i j + bump (kb i) (R' i - R i) j) (fun n t => ρ i n t + σ i n t) j =
      respOut c (a i) (b i) (ρ i) j := fun i j => by
    refine (respOut_add c _ _ _ _ (ρ i) (σ i) j).trans ?_
    rw [k2 i j, add_zero]
  constructor
  · rintro ⟨p1, p2, p3, p4⟩
    exact ⟨fun i => (sa i).2 (p1 i), fun i => (sb i).2 (p2 i), fun y hy => (e1 y hy).trans (p3 y hy), fun i j => (e2 i j).trans (p4 i j)⟩
  · rintro ⟨p1, p2, p3, p4⟩
    exact ⟨fun i => (sa i).1 (p1 i), fun i => (sb i).1 (p2 i), fun y hy => (e1 y hy).symm.trans (p3 y hy), fun i j => (e2 i j).symm.trans (p4 i j)⟩

/-- Non-vacuity: with four shares an observer may look at a share of the secret, a share of the refreshed ephemeral and a mask of the last refresh, and there are
secrets it cannot tell apart (`S = 0`, `R = c` and `S = 1`, `R = 0`). -/
example (c : RPoly) : let P : Finset (Fin 1 × RespWire 2) := {(0, .s (.input 1)), (0, .rOut 3), (0, .z (.mask ⟨0, by decide⟩))}
    P.card < 2 ^ 2 ∧ (0 : RPoly) * c + c = 1 * c + 0 := by
  intro P
  refine ⟨by decide, by rw [zero_mul, one_mul, zero_add, add_zero]⟩

end Raccoon
