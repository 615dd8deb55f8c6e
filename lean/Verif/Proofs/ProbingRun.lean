import Verif.Spec.ProbingRun
import Verif.Proofs.ProbingLifeCode
import Verif.Props.ProbingNoise
import Verif.Props.ProbingResp
/-!
# The code holds, place by place, what the lists of places say: proofs
-/
namespace Raccoon
attribute [-instance] Monoid.toNPow
open Finset

theorem zero_run (E : Ext) (fuel m : Nat) (g : Mrng (2 ^ m)) (z : MPoly (2 ^ m)) (g' : Mrng (2 ^ m)) (h : MPoly.zeroEncoding E fuel g = .ok (z, g')) : ∃ ρ, ZeroRun E fuel g z g' ρ := by
  have e' := h
  rw [C20_schedule] at e'
  have hz : MPoly.Can (MPoly.zero (2 ^ m)) := by
    intro s hs
    unfold MPoly.zero
    rw [Vector.getElem_replicate]
    exact Poly.zero_can
  have hz0 : ∀ (s : Nat) (hs : s < 2 ^ m), ((MPoly.zero (2 ^ m))[s]).toZ = 0 := by
    intro s hs
    unfold MPoly.zero
    rw [Vector.getElem_replicate]
    exact Poly.zero_toZ
  obtain ⟨ρ, h1, h2, h3⟩ := foldl_upto E fuel (maskSchedule m) (fun p hp => ((C20_schedule_bounds m).1 p hp).2) _ g hz z g' e'
  refine ⟨fun t => (ρ t).toZ, h, ⟨ρ, h1, fun t => ⟨h2 t, rfl⟩⟩, fun t => ?_, fun s => ?_⟩
  · obtain ⟨vt, gt, e2, h4⟩ := h3 t
    refine ⟨vt, gt, e2, fun s => ?_⟩
    rw [h4 s.val s.isLt, hz0, zero_add]
    rfl
  · obtain ⟨vt, gt, e2, h4⟩ := h3 (maskSchedule m).length
    rw [List.take_length, e'] at e2
    obtain ⟨rfl, rfl⟩ := Prod.mk.inj (Res.ok.inj e2)
    unfold refreshed
    rw [h4 s.val s.isLt, hz0, zero_add, zero_add, ← maskedShare_upto]

theorem refresh_run (E : Ext) (fuel m : Nat) (a : MPoly (2 ^ m)) (ha : MPoly.Can a) (g : Mrng (2 ^ m)) (v : MPoly (2 ^ m)) (g' : Mrng (2 ^ m)) (h : MPoly.refresh E fuel a g = .ok (v, g')) :
    ∃ ρ, RefreshRun E fuel a g v g' ρ := by
  have h' := h
  unfold MPoly.refresh at h
  obtain ⟨⟨z, g1⟩, e, h⟩ := Res.bind_eq_ok.1 h
  obtain ⟨rfl, rfl⟩ := Prod.mk.inj (Res.ok.inj h)
  obtain ⟨ρ, hρ⟩ := zero_run E fuel m g z g1 e
  have hzc : MPoly.Can z := ((C20_zero_encoding E fuel (2 ^ m) ⟨m, rfl⟩ g).2 z g1 e).1
  refine ⟨ρ, h', ⟨z, hρ, rfl⟩, fun s => ?_⟩
  unfold MPoly.add
  rw [Vector.getElem_zipWith, Poly.add_toZ (ha _ _) (hzc _ _), hρ.out s]
  unfold refreshed
  rw [zero_add]

theorem noise_run (E : Ext) (fuel m u κ rep idx : Nat) (hu : 0 < u) (hu' : u ≤ 49) (v : MPoly (2 ^ m)) (hv : MPoly.Can v) (prng p' : Prng) (g g' : Mrng (2 ^ m)) (v' : MPoly (2 ^ m))
    (h : MPoly.addRepNoise E fuel u rep κ idx v prng g = .ok (v', p', g')) :
    ∃ ρ : Fin rep → Mask m, NoiseRun E fuel u κ idx v prng g v' p' g' (fun r s => toR (noiseAt E u κ (2 ^ m) idx prng.stream prng.pos r.val s.val)) ρ := by
  have hd : PowTwo (2 ^ m) := ⟨m, rfl⟩
  have hp : p' = prng.advance (rep * 2 ^ m * (κ / 8)) := by
    have hs := MPoly.addRepNoise_spec E fuel (u := u) (κ := κ) (rep := rep) (idx := idx) hd hu hu' prng g hv
    rw [h] at hs
    exact hs.2.2
  obtain ⟨X, G, x1, x2, g1, g2, hX, hstep⟩ := addRepNoise_trace E fuel hd hu hu' v prng g hv v' p' g' h
  choose Y y1 y2 y3 using fun i : Fin rep => hstep i.val i.isLt
  choose ρ hρ using fun i : Fin rep => refresh_run E fuel m (Y i) (y1 i) (G i.val) (X (i.val + 1)) _ (y3 i)
  let n : Fin rep → Fin (2 ^ m) → RPoly := fun i s => toR (noiseAt E u κ (2 ^ m) idx prng.stream prng.pos i.val s.val)
  have key : ∀ i, i ≤ rep → ∀ s : Fin (2 ^ m), ((X i)[s.val]).toZ = noisy (fun s => (v[s.val]).toZ) (pad n) (pad ρ) i s := by
    intro i
    induction i with
    | zero => intro _ s; rw [x1]; rfl
    | succ i ih =>
      intro hi s
      refine ((hρ ⟨i, hi⟩).out s).trans ?_
      show refreshed _ _ s = refreshed (fun s => noisy _ _ _ i s + pad n i s) (pad ρ i) s
      have e1 : (fun j : Fin (2 ^ m) => ((Y ⟨i, hi⟩)[j.val]).toZ) = fun s => noisy (fun s => (v[s.val]).toZ) (pad n) (pad ρ) i s + pad n i s := by
        funext j
        rw [y2 ⟨i, hi⟩ j.val j.isLt, ih (by omega) j]
        unfold pad
        rw [dif_pos (show i < rep from hi)]
      have e2 : pad ρ i = ρ ⟨i, hi⟩ := by
        unfold pad
        rw [dif_pos (show i < rep from hi)]
      rw [e1, e2]
  refine ⟨ρ, h, fun _ _ => rfl, hp, ⟨G, X, fun i => if hi : i < rep then Y ⟨i, hi⟩ else v, g1, g2, x1, x2, fun r => ?_⟩, fun s => by rw [← x2]; exact key rep (le_refl _) s⟩
  dsimp only
  rw [dif_pos r.isLt]
  refine ⟨hρ r, fun s => ⟨key r.val r.isLt.le s, ?_⟩⟩
  refine (y2 r s.val s.isLt).trans ?_
  show _ = noisy (fun s => (v[s.val]).toZ) (pad n) (pad ρ) r.val s + pad n r.val s
  rw [← key r.val r.isLt.le s]
  unfold pad
  rw [dif_pos r.isLt]

theorem PVec.refresh_can (E : Ext) (fuel m : Nat) {l : Nat} {a v : PVec l (2 ^ m)} (ha : PVec.Can a) (g g' : Mrng (2 ^ m)) (h : PVec.refresh E fuel a g = .ok (v, g')) : PVec.Can v := by
  have hs := PVec.refresh_spec E fuel (⟨m, rfl⟩ : PowTwo (2 ^ m)) ha g
  rw [h] at hs
  exact hs.1

theorem com_run (E : Ext) (fuel u κ m rep : Nat) {l k : Nat} (hu : 0 < u) (hu' : u ≤ 49) (A : PMat k l) (hA : PMat.Can A) (a : Fin k → Fin l → RPoly) (ha : A.Is a) (prng p1 p2 : Prng)
    (g g1 g2 g3 : Mrng (2 ^ m)) (x0 x1 xh : PVec l (2 ^ m)) (w t : PVec k (2 ^ m)) (h0 : PVec.zeroEncoding E fuel l g = .ok (x0, g1))
    (h1 : x0.addRepNoise E fuel u rep κ prng g1 = .ok (x1, p1, g2)) (h2 : x1.ntt = .ok xh) (h3 : (A.mulVec xh).intt = .ok w)
    (h4 : w.addRepNoise E fuel u rep κ p1 g2 = .ok (t, p2, g3)) :
    ∃ ρ : ComMasks m l k rep, ComRun E fuel u κ A a prng g xh t p2 g3 (comNoiseOf E u κ m l k rep prng) ρ := by
  have hd : PowTwo (2 ^ m) := ⟨m, rfl⟩
  have s0 := PVec.zeroEncoding_spec E fuel l hd g
  rw [h0] at s0
  have c0 : PVec.Can x0 := s0.1
  have s1 := PVec.addRepNoise_spec E fuel (u := u) (κ := κ) (rep := rep) hd hu hu' prng g1 c0
  rw [h1] at s1
  have c1 : PVec.Can x1 := s1.1
  obtain ⟨r2, e2, ch, -⟩ := PVec.ntt_spec c1
  rw [h2] at e2
  obtain rfl := Res.ok.inj e2
  have cm := (PMat.mulVec_spec hA ch).1
  obtain ⟨r3, e3, cw, -⟩ := PVec.intt_spec cm
  rw [h3] at e3
  obtain rfl := Res.ok.inj e3
  obtain ⟨Gz, z1, z2, z3⟩ := PVec.zeroEncoding_rows E fuel g x0 g1 h0
  obtain ⟨Px, Gx, px1, px2, gx1, gx2, hx⟩ := PVec.addRepNoise_rows E fuel u rep κ x0 prng g1 x1 p1 g2 h1
  obtain ⟨Py, Gy, py1, py2, gy1, gy2, hy⟩ := PVec.addRepNoise_rows E fuel u rep κ w p1 g2 t p2 g3 h4
  have posx := PVec.addRepNoise_pos E fuel hd hu hu' c0 Px Gx hx
  have posy := PVec.addRepNoise_pos E fuel hd hu hu' cw Py Gy hy
  choose ρz hz using fun j : Fin l => zero_run E fuel m _ _ _ (z3 j.val j.isLt)
  choose ρx hρx using fun j : Fin l => noise_run E fuel m u κ rep j.val hu hu' _ (c0 j.val j.isLt) _ _ _ _ _ (hx j.val j.isLt)
  choose ρy hρy using fun j : Fin k => noise_run E fuel m u κ rep j.val hu hu' _ (cw j.val j.isLt) _ _ _ _ _ (hy j.val j.isLt)
  have enx : ∀ j : Fin l, (fun (r : Fin rep) (s : Fin (2 ^ m)) => toR (noiseAt E u κ (2 ^ m) j.val (Px j.val).stream (Px j.val).pos r.val s.val)) = (comNoiseOf E u κ m l k rep prng).x j := fun j => by
    rw [posx j.val j.isLt.le, px1]
    rfl
  have eny : ∀ j : Fin k, (fun (r : Fin rep) (s : Fin (2 ^ m)) => toR (noiseAt E u κ (2 ^ m) j.val (Py j.val).stream (Py j.val).pos r.val s.val)) = (comNoiseOf E u κ m l k rep prng).y j := fun j => by
    rw [posy j.val j.isLt.le, py1, ← px2, posx l (le_refl _), px1]
    show (fun (r : Fin rep) (s : Fin (2 ^ m)) => toR (noiseAt E u κ (2 ^ m) j.val prng.stream (prng.pos + l * (rep * 2 ^ m * (κ / 8)) + j.val * (rep * 2 ^ m * (κ / 8))) r.val s.val)) = _
    rw [Nat.add_assoc, ← Nat.add_mul]
    rfl
  replace hρx : ∀ j : Fin l, NoiseRun E fuel u κ j.val x0[j.val] (Px j.val) (Gx j.val) x1[j.val] (Px (j.val + 1)) (Gx (j.val + 1)) ((comNoiseOf E u κ m l k rep prng).x j) (ρx j) := fun j => by
    rw [← enx j]; exact hρx j
  replace hρy : ∀ j : Fin k, NoiseRun E fuel u κ j.val w[j.val] (Py j.val) (Gy j.val) t[j.val] (Py (j.val + 1)) (Gy (j.val + 1)) ((comNoiseOf E u κ m l k rep prng).y j) (ρy j) := fun j => by
    rw [← eny j]; exact hρy j
  generalize comNoiseOf E u κ m l k rep prng = n at hρx hρy
  let ρ : ComMasks m l k rep := (ρz, ρx, ρy)
  have v1 : ∀ (j : Fin l) (s : Fin (2 ^ m)), (x1[j.val][s.val]).toZ = comX n ρ j s := fun j s => by
    refine ((hρx j).out s).trans ?_
    refine congrArg (fun f => noisy f (pad (n.x j)) (pad (ρx j)) rep s) (funext fun i => (hz j).out i)
  have v2 : ∀ (j : Fin l) (s : Fin (2 ^ m)), (xh[j.val][s.val]).toZ = nttR (comX n ρ j s) := fun j s => by
    rw [PVec.ntt_shares c1 h2 j.val j.isLt s.val s.isLt, v1]
  have v3 : ∀ (i : Fin k) (j : Fin l) (s : Fin (2 ^ m)), ((A.at' i j).mul xh[j.val][s.val]).toZ = nttR (a i j) * nttR (comX n ρ j s) := fun i j s => by
    rw [Poly.mul_toZ (PMat.at_can hA _ _) (ch _ _ _ _), v2, ha i j]
    rfl
  have v4 : ∀ (i : Fin k) (c : Nat) (s : Fin (2 ^ m)), (((List.finRange l).take c).foldl (fun acc j => Poly.add acc ((A.at' i j).mul xh[j.val][s.val])) Poly.zero).toZ =
      ∑ j : Fin l, if j.val < c then nttR (a i j) * nttR (comX n ρ j s) else 0 := fun i c s => by
    rw [(foldl_add_take (fun j => (A.at' i j).mul xh[j.val][s.val]) (fun j => Poly.mul_can (PMat.at_can hA _ _) (ch _ _ _ _)) c).2]
    exact Finset.sum_congr rfl fun j _ => by rw [v3]
  have v5 : ∀ (i : Fin k) (s : Fin (2 ^ m)), (w[i.val][s.val]).toZ = comU a n ρ i s := fun i s => by
    refine nttR_inj ?_
    rw [PVec.intt_shares cm h3 i.val i.isLt s.val s.isLt]
    have e : ((A.mulVec xh)[i.val][s.val]).toZ = ∑ j : Fin l, nttR (a i j) * nttR (comX n ρ j s) := by
      have := v4 i l s
      rw [List.take_of_length_le (by rw [List.length_finRange])] at this
      unfold PMat.mulVec
      rw [Vector.getElem_ofFn, Vector.getElem_ofFn]
      refine this.trans (Finset.sum_congr rfl fun j _ => if_pos j.isLt)
    rw [e]
    unfold comU ringMatVec
    rw [nttR_sum]
    exact Finset.sum_congr rfl fun j _ => (nttR_negacyclic _ _).symm
  refine ⟨ρ, ⟨x0, x1, w, Gz, Gx, Gy, Px, Py, ⟨z1, z2.trans gx1.symm, gx2.trans gy1.symm, gy2⟩, ⟨px1, px2.trans py1.symm, py2⟩, hz, hρx, v1, h2, v2, v3, v4, h3, v5, hρy⟩, fun i s => ?_⟩
  refine ((hρy i).out s).trans ?_
  exact congrArg (fun f => noisy f (pad (n.y i)) (pad (ρy i)) rep s) (funext fun s => v5 i s)

theorem resp_run (E : Ext) (fuel m l : Nat) (a b s r z : PVec l (2 ^ m)) (ha : PVec.Can a) (hb : PVec.Can b) (c : Poly) (hc : c.Can) (g g1 g2 g3 : Mrng (2 ^ m))
    (h1 : PVec.refresh E fuel a g = .ok (s, g1)) (h2 : PVec.refresh E fuel b g1 = .ok (r, g2)) (h3 : PVec.refresh E fuel ((s.mulPoly c).add r) g2 = .ok (z, g3)) :
    ∃ ρ : Fin l → Masks3 m RPoly, RespRun E fuel c a b g s z g3 ρ := by
  have hs := PVec.refresh_can E fuel m ha g g1 h1
  have hr := PVec.refresh_can E fuel m hb g1 g2 h2
  have hp : PVec.Can (s.mulPoly c) := (PVec.mulPoly_spec hs hc).1
  have hq : PVec.Can ((s.mulPoly c).add r) := (PVec.add_spec hp hr).1
  obtain ⟨G0, a1, a2, a3⟩ := PVec.refresh_rows E fuel a g s g1 h1
  obtain ⟨G1, b1, b2, b3⟩ := PVec.refresh_rows E fuel b g1 r g2 h2
  obtain ⟨G2, c1, c2, c3⟩ := PVec.refresh_rows E fuel _ g2 z g3 h3
  choose ρ0 p using fun i : Fin l => refresh_run E fuel m a[i.val] (ha i.val i.isLt) (G0 i.val) s[i.val] _ (a3 i.val i.isLt)
  choose ρ1 q using fun i : Fin l => refresh_run E fuel m b[i.val] (hb i.val i.isLt) (G1 i.val) r[i.val] _ (b3 i.val i.isLt)
  choose ρ2 u using fun i : Fin l => refresh_run E fuel m ((s.mulPoly c).add r)[i.val] (hq i.val i.isLt) (G2 i.val) z[i.val] _ (c3 i.val i.isLt)
  have em : ∀ (i : Fin l) (k : Fin (2 ^ m)), ((s.mulPoly c)[i.val][k.val]).toZ = refreshed (fun k => (a[i.val][k.val]).toZ) (ρ0 i) k * c.toZ := fun i k => by
    unfold PVec.mulPoly
    rw [Vector.getElem_map, Vector.getElem_map, Poly.mul_toZ (hs _ _ _ _) hc, (p i).out k]
  have ez : ∀ (i : Fin l) (k : Fin (2 ^ m)), (((s.mulPoly c).add r)[i.val][k.val]).toZ = refreshed (fun k => (a[i.val][k.val]).toZ) (ρ0 i) k * c.toZ +
      refreshed (fun k => (b[i.val][k.val]).toZ) (ρ1 i) k := fun i k => by
    rw [← em i k, ← (q i).out k]
    unfold PVec.add MPoly.add
    rw [Vector.getElem_zipWith, Vector.getElem_zipWith]
    exact Poly.add_toZ (hp _ _ _ _) (hr _ _ _ _)
  refine ⟨fun i n => match n with | 0 => ρ0 i | 1 => ρ1 i | 2 => ρ2 i, ⟨r, (s.mulPoly c).add r, fun n => match n with | 0 => G0 | 1 => G1 | 2 => G2, ⟨a1, a2.trans b1.symm, b2.trans c1.symm, c2⟩, rfl,
    fun j => ⟨p j, q j, u j, fun i => ⟨rfl, rfl, (p j).out i, (q j).out i, em j i, ez j i⟩⟩⟩, fun j i => ?_⟩
  refine ((u j).out i).trans ?_
  unfold respOut
  exact congrArg (fun f => refreshed f (ρ2 j) i) (funext fun k => ez j k)

end Raccoon
