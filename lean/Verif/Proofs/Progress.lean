import Verif.Proofs.Total
import Verif.Proofs.KeyGen
/-!
# When the samplers finish, so does everything up to the signing loop
-/
namespace Raccoon
attribute [-instance] Monoid.toNPow
open Finset

/-- Not out of budget, and `P` of the result if there is one (nothing is said about undefined behaviour). -/
def Res.Good (r : Res α) (P : α → Prop) : Prop := r ≠ .nofuel ∧ ∀ a, r = .ok a → P a

theorem Res.Good.ok {a : α} {P : α → Prop} (h : P a) : (Res.ok a).Good P := ⟨(nomatch ·), fun _ e => Res.ok.inj e ▸ h⟩
theorem Res.Good.ub {P : α → Prop} : (Res.ub : Res α).Good P := ⟨fun h => (nomatch h), fun _ h => (nomatch h)⟩
theorem Res.Fin.good {r : Res α} (h : r.Fin) : r.Good (fun _ => True) := ⟨h, fun _ _ => trivial⟩

theorem Res.Good.bind {r : Res α} {f : α → Res β} {P : α → Prop} {R : β → Prop} (h : r.Good P) (hf : ∀ a, P a → (f a).Good R) : (r >>= f).Good R := by
  cases r with
  | ok a => exact hf a (h.2 a rfl)
  | ub => exact Res.Good.ub
  | nofuel => exact absurd rfl h.1

theorem Res.Ok.good {r : Res α} {P : α → Prop} (h : r.Ok P) : r.Good P := by
  obtain ⟨a, rfl, ha⟩ := h
  exact Res.Good.ok ha

theorem Res.Safe.okGood {r : Res α} {P R : α → Prop} (h : r.Safe P) (h' : r.Good R) : r.Ok (fun a => P a ∧ R a) := by
  obtain ⟨a, e, ha⟩ := h.ok h'.1
  exact ⟨a, e, ha, h'.2 a e⟩

theorem good_forLoop {σ : Type u} (lo hi : Nat) {step : Nat} (hst : 0 < step) {body : Nat → σ → Res σ} (I : σ → Prop)
    (h : ∀ i s, I s → (body i s).Good I) (s : σ) (hs : I s) : (forLoop lo hi step body s).Good I := by
  suffices H : ∀ n i s, hi - i ≤ n → I s → (forLoop i hi step body s).Good I from H (hi - lo) lo s (Nat.le_refl _) hs
  intro n
  induction n with
  | zero => intro i s h1 hs; rw [forLoop_nil (by omega) hst]; exact Res.Good.ok hs
  | succ n ih =>
    intro i s h1 hs
    rcases Nat.lt_or_ge i hi with hlt | hge
    · rw [forLoop_cons hlt hst]; exact (h i s hs).bind fun s' hs' => ih _ _ (by omega) hs'
    · rw [forLoop_nil hge hst]; exact Res.Good.ok hs

theorem good_foldlM {σ α : Type} {f : σ → α → Res σ} (I : σ → Prop) : ∀ (l : List α) (_ : ∀ x ∈ l, ∀ s, I s → (f s x).Good I) (s : σ), I s → (l.foldlM f s).Good I := by
  intro l
  induction l with
  | nil => intro _ s hs; exact Res.Good.ok hs
  | cons x l ih =>
    intro h s hs
    rw [List.foldlM_cons]
    exact (h x (by simp) s hs).bind fun s' hs' => ih (fun y hy => h y (by simp [hy])) s' hs'

/-- Every generator is in a state reachable from the all-zero state. -/
def Mrng.Reach (E : Ext) (m : Mrng d) : Prop := ∀ i (h : i < d - 1), ∃ n, m.state[i] = E.asconP6^[n] (Vector.replicate 5 0)

/-- The mask sampler finishes within the budget from every state the generators reach. -/
def MaskFin (E : Ext) (fuel : Nat) : Prop := ∀ n, 512 ≤ (acceptedMasks E (E.asconP6^[n] (Vector.replicate 5 0)) fuel).length

theorem Mrng.reach_new (E : Ext) (d : Nat) : (Mrng.new E d).Reach E := by
  intro i h
  refine ⟨0, ?_⟩
  unfold Mrng.new
  have : ∀ (l : List Nat) (v : Vector AsconState (d - 1)), l.foldl (fun (st : Vector AsconState (d - 1)) _ => st) v = v := by
    intro l; induction l with
    | nil => intro v; rfl
    | cons x l ih => intro v; exact ih v
  dsimp only
  rw [this]
  rw [Vector.getElem_replicate]; rfl

theorem Mrng.Reach.used {E : Ext} {m : Mrng d} (hm : m.Reach E) {idx n : Nat} (h : idx < d - 1) : (m.used E idx n h).Reach E := by
  intro i hi
  unfold Mrng.used
  rw [Vector.getElem_set]
  split
  · obtain ⟨k, hk⟩ := hm idx h
    refine ⟨n + k, ?_⟩
    rw [hk, ← Function.iterate_add_apply]
  · exact hm i hi

theorem good_samplePolynomial {E : Ext} {fuel d : Nat} (hf : MaskFin E fuel) (idx : Nat) (m : Mrng d) (hm : m.Reach E) :
    (Poly.samplePolynomial E fuel idx m).Good (fun r => r.2.Reach E) := by
  by_cases h : idx < d - 1
  · obtain ⟨n, hn⟩ := hm idx h
    obtain ⟨k, -, -, -, e⟩ := (samplePolynomial_eq E fuel h m).1 (by rw [hn]; exact hf n)
    rw [e]
    exact Res.Good.ok (hm.used h)
  · unfold Poly.samplePolynomial
    rw [if_pos (by omega)]
    exact Res.Good.ok hm

theorem good_maskPair {E : Ext} {fuel d : Nat} (hf : MaskFin E fuel) (i off : Nat) (s : MPoly d × Mrng d) (hm : s.2.Reach E) :
    (MPoly.maskPair E fuel i off s).Good (fun r => r.2.Reach E) := by
  unfold MPoly.maskPair
  refine (good_samplePolynomial hf i s.2 hm).bind fun r hr => ?_
  obtain ⟨r, m⟩ := r
  refine (fin_rd _ _).good.bind fun _ _ => ?_
  refine (fin_wr _ _ _).good.bind fun _ _ => ?_
  refine (fin_rd _ _).good.bind fun _ _ => ?_
  refine (fin_wr _ _ _).good.bind fun _ _ => ?_
  exact Res.Good.ok hr

theorem good_zeroEncoding {E : Ext} {fuel d : Nat} (hf : MaskFin E fuel) (hd : PowTwo d) (m : Mrng d) (hm : m.Reach E) :
    (MPoly.zeroEncoding E fuel m).Good (fun r => r.2.Reach E) := by
  obtain ⟨k, rfl⟩ := hd
  rw [zeroEncoding_schedule]
  exact good_foldlM (fun r : MPoly (2 ^ k) × Mrng (2 ^ k) => r.2.Reach E) _ (fun p _ s hs => good_maskPair hf _ _ _ hs) _ hm

theorem good_refresh {E : Ext} {fuel d : Nat} (hf : MaskFin E fuel) (hd : PowTwo d) (a : MPoly d) (m : Mrng d) (hm : m.Reach E) :
    (MPoly.refresh E fuel a m).Good (fun r => r.2.Reach E) := by
  unfold MPoly.refresh
  refine (good_zeroEncoding hf hd m hm).bind fun r hr => ?_
  obtain ⟨z, m'⟩ := r
  exact Res.Good.ok hr

theorem good_vecZeroEncoding {E : Ext} {fuel d : Nat} (hf : MaskFin E fuel) (hd : PowTwo d) (rows : Nat) (m : Mrng d) (hm : m.Reach E) :
    (PVec.zeroEncoding E fuel rows m).Good (fun r => r.2.Reach E) := by
  unfold PVec.zeroEncoding
  refine good_forLoop _ _ Nat.one_pos (fun r : PVec rows d × Mrng d => r.2.Reach E) (fun i s hs => ?_) _ hm
  refine (good_zeroEncoding hf hd s.2 hs).bind fun r hr => ?_
  obtain ⟨z, m'⟩ := r
  exact (fin_wr _ _ _).good.bind fun _ _ => Res.Good.ok hr

theorem good_vecRefresh {E : Ext} {fuel d rows : Nat} (hf : MaskFin E fuel) (hd : PowTwo d) (a : PVec rows d) (m : Mrng d) (hm : m.Reach E) :
    (PVec.refresh E fuel a m).Good (fun r => r.2.Reach E) := by
  unfold PVec.refresh
  refine good_forLoop _ _ Nat.one_pos (fun r : PVec rows d × Mrng d => r.2.Reach E) (fun i s hs => ?_) _ hm
  refine (fin_rd _ _).good.bind fun x _ => ?_
  refine (good_refresh hf hd x s.2 hs).bind fun r hr => ?_
  obtain ⟨z, m'⟩ := r
  exact (fin_wr _ _ _).good.bind fun _ _ => Res.Good.ok hr

theorem fin_i64 (x : Int) : (i64 x).Fin := by
  unfold i64; split
  · exact Res.Fin.ok _
  · exact Res.Fin.ub

theorem fin_mapM {α β : Type u} {f : α → Res β} (h : ∀ a, (f a).Fin) : ∀ (l : List α), (l.mapM f).Fin := by
  intro l
  induction l with
  | nil => exact Res.Fin.ok _
  | cons a l ih =>
    rw [List.mapM_cons]
    exact (h a).bind fun _ _ => ih.bind fun _ _ => Res.Fin.ok _

theorem fin_mapR {α β : Type u} {n : Nat} {f : α → Res β} (h : ∀ a, (f a).Fin) (v : Vector α n) : (v.mapR f).Fin := by
  intro hn
  have e1 : Vector.toArray <$> v.mapM f = List.toArray <$> v.toArray.toList.mapM f := by
    rw [Vector.toArray_mapM, Array.mapM_eq_mapM_toList]
  unfold Vector.mapR at hn
  rw [hn] at e1
  have := fin_mapM h v.toArray.toList
  cases hx : v.toArray.toList.mapM f with
  | ok a => rw [hx] at e1; cases e1
  | ub => rw [hx] at e1; cases e1
  | nofuel => exact this hx

theorem fin_addNoiseCoeff (x : Zq) (n : Int) : (MPoly.addNoiseCoeff x n).Fin := by
  unfold MPoly.addNoiseCoeff
  refine (fin_i64 _).bind fun _ _ => ?_
  refine (fin_i64 _).bind fun _ _ => ?_
  refine (fin_i64 _).bind fun _ _ => ?_
  exact Res.Fin.ok _

theorem fin_sampleU (E : Ext) (u : Nat) (hu : 0 < u) (hdr seed : List U8) : (MPoly.sampleU E u hdr seed).Fin := by
  unfold MPoly.sampleU
  dsimp only
  refine Res.Fin.bind (fin_forLoop _ _ (by omega) (fun i s => ?_) _) (fun _ _ => Res.Fin.ok _)
  refine (fin_subspan _ _ _).bind fun _ _ => ?_
  refine (by unfold MPoly.sampleUCoeff; exact fin_i64 _ : (MPoly.sampleUCoeff _ _).Fin).bind fun _ _ => ?_
  exact (fin_wr _ _ _).bind fun _ _ => Res.Fin.ok _

theorem good_noiseRep {E : Ext} {fuel d : Nat} (hf : MaskFin E fuel) (hd : PowTwo d) (u κ idx iRep : Nat) (hu : 0 < u) (s : MPoly d × Prng × Mrng d) (hm : s.2.2.Reach E) :
    (MPoly.noiseRep E fuel u κ idx iRep s).Good (fun r => r.2.2.Reach E) := by
  unfold MPoly.noiseRep
  refine (fin_forLoop 0 d (by omega) (fun sidx s => ?_) (s.1, s.2.1)).good.bind fun r _ => ?_
  · unfold MPoly.noiseShare
    refine (fin_sampleU E u hu _ _).bind fun _ _ => ?_
    refine (fin_rd _ _).bind fun _ _ => ?_
    refine (by unfold MPoly.addNoisePoly; exact fin_mapR (fun _ => fin_addNoiseCoeff _ _) _ : (MPoly.addNoisePoly _ _).Fin).bind fun _ _ => ?_
    exact (fin_wr _ _ _).bind fun _ _ => Res.Fin.ok _
  · obtain ⟨v, p⟩ := r
    refine (good_refresh hf hd v s.2.2 hm).bind fun r hr => ?_
    obtain ⟨z, m'⟩ := r
    exact Res.Good.ok hr

theorem good_addRepNoise {E : Ext} {fuel d : Nat} (hf : MaskFin E fuel) (hd : PowTwo d) (u rep κ idx : Nat) (hu : 0 < u) (a : MPoly d) (p : Prng) (m : Mrng d) (hm : m.Reach E) :
    (MPoly.addRepNoise E fuel u rep κ idx a p m).Good (fun r => r.2.2.Reach E) := by
  unfold MPoly.addRepNoise
  exact good_forLoop _ _ Nat.one_pos (fun r : MPoly d × Prng × Mrng d => r.2.2.Reach E) (fun i s hs => good_noiseRep hf hd u κ idx i hu s hs) _ hm

theorem good_vecAddRepNoise {E : Ext} {fuel d rows : Nat} (hf : MaskFin E fuel) (hd : PowTwo d) (u rep κ : Nat) (hu : 0 < u) (a : PVec rows d) (p : Prng) (m : Mrng d) (hm : m.Reach E) :
    (PVec.addRepNoise E fuel u rep κ a p m).Good (fun r => r.2.2.Reach E) := by
  unfold PVec.addRepNoise
  refine good_forLoop _ _ Nat.one_pos (fun r : PVec rows d × Prng × Mrng d => r.2.2.Reach E) (fun i s hs => ?_) _ hm
  refine (fin_rd _ _).good.bind fun x _ => ?_
  refine (good_addRepNoise hf hd u rep κ i hu x s.2.1 s.2.2 hs).bind fun r hr => ?_
  obtain ⟨z, p', m'⟩ := r
  exact (fin_wr _ _ _).good.bind fun _ _ => Res.Good.ok hr

/-! ### transforms, hash, centering -/

theorem fin_ntt (f : Poly) : (Poly.ntt f).Fin := by
  unfold Poly.ntt
  refine fin_forLoop _ _ (by omega) (fun j f => ?_) _
  unfold Poly.nttLayer
  dsimp only
  refine fin_forLoop _ _ (by rw [Nat.shiftLeft_eq, Nat.one_shiftLeft]; positivity) (fun i f => ?_) _
  refine (fin_rd _ _).bind fun z _ => ?_
  refine fin_forLoop _ _ (by omega) (fun i f => ?_) _
  unfold Poly.nttButterfly
  refine (fin_rd _ _).bind fun _ _ => (fin_rd _ _).bind fun _ _ => (fin_wr _ _ _).bind fun _ _ => (fin_rd _ _).bind fun _ _ => fin_wr _ _ _

theorem fin_intt (f : Poly) : (Poly.intt f).Fin := by
  unfold Poly.intt
  refine (fin_forLoop _ _ (by omega) (fun j f => ?_) _).bind fun _ _ => Res.Fin.ok _
  unfold Poly.inttLayer
  dsimp only
  refine fin_forLoop _ _ (by rw [Nat.shiftLeft_eq, Nat.one_shiftLeft]; positivity) (fun i f => ?_) _
  refine (fin_rd _ _).bind fun z _ => ?_
  refine fin_forLoop _ _ (by omega) (fun i f => ?_) _
  unfold Poly.inttButterfly
  refine (fin_rd _ _).bind fun _ _ => (fin_rd _ _).bind fun _ _ => (fin_rd _ _).bind fun _ _ => (fin_wr _ _ _).bind fun _ _ => (fin_rd _ _).bind fun _ _ =>
    (fin_wr _ _ _).bind fun _ _ => (fin_rd _ _).bind fun _ _ => fin_wr _ _ _

theorem fin_vecNtt (a : PVec rows d) : (PVec.ntt a).Fin := fin_mapR (fun m => fin_mapR (fun p => fin_ntt p) m) a
theorem fin_vecIntt (a : PVec rows d) : (PVec.intt a).Fin := fin_mapR (fun m => fin_mapR (fun p => fin_intt p) m) a

theorem fin_centerVec (q' : U64) (v : PVec k 1) : (centerVec q' v).Fin := by
  unfold centerVec
  refine fin_forLoop _ _ (by omega) (fun r acc => ?_) _
  refine (fin_rd _ _).bind fun _ _ => (fin_rd _ _).bind fun _ _ => ?_
  refine (by unfold Poly.center; exact fin_mapR (fun c => by unfold Poly.centerCoeff; exact fin_i64 _) _ : (Poly.center _ _).Fin).bind fun _ _ => Res.Fin.ok _

theorem fin_sigMk (νw : Nat) (c : List U8) (h : PVec k 1) (z : PVec l 1) : (Sig.mk' νw c h z).Fin := by
  unfold Sig.mk'
  exact (fin_centerVec _ _).bind fun _ _ => (fin_centerVec _ _).bind fun _ _ => Res.Fin.ok _

/-! ### one attempt -/

theorem good_signCore {P : Par} {E : Ext} {fuel d : Nat} (hf : MaskFin E fuel) (hd : PowTwo d) (uw rep : Nat) (hu : 0 < uw)
    (hc : ∀ c : List U8, c.length = 2 * P.κ / 8 → ∃ p, Poly.chalPoly E fuel P.ω c = .ok p)
    (A : PMat P.k P.l) (t : PVec P.k 1) (μ : List U8) (s : PVec P.l d) (p : Prng) (m : Mrng d) (hm : m.Reach E) :
    (signCore P E fuel d uw rep A t μ s p m).Good (fun r => r.2.2.2.Reach E) := by
  unfold signCore
  refine (good_vecZeroEncoding hf hd _ m hm).bind fun r hr => ?_
  obtain ⟨r1, m1⟩ := r
  refine (good_vecAddRepNoise hf hd _ _ _ hu _ _ m1 hr).bind fun r hr => ?_
  obtain ⟨r2, p2, m2⟩ := r
  refine (fin_vecNtt _).good.bind fun r3 _ => ?_
  refine (fin_vecIntt _).good.bind fun w _ => ?_
  refine (good_vecAddRepNoise hf hd _ _ _ hu _ _ m2 hr).bind fun r hr => ?_
  obtain ⟨w2, p3, m3⟩ := r
  dsimp only
  rw [chalHash_eq, Res.ok_bind]
  obtain ⟨c, ec⟩ := hc (challengeHash E P.κ (fun r i => (((PVec.roundingShr P.νw (PVec.decode w2)))[r.val][0][i.val]).raw.toNat) μ) (by
    unfold challengeHash xofOut; rw [List.length_map, List.length_range])
  rw [ec, Res.ok_bind]
  refine (fin_ntt _).good.bind fun c' _ => ?_
  refine (good_vecRefresh hf hd _ _ hr).bind fun r hr => ?_
  obtain ⟨s4, m4⟩ := r
  refine (good_vecRefresh hf hd _ _ hr).bind fun r hr => ?_
  obtain ⟨s5, m5⟩ := r
  refine (good_vecRefresh hf hd _ _ hr).bind fun r hr => ?_
  obtain ⟨s6, m6⟩ := r
  refine (fin_vecIntt _).good.bind fun y _ => ?_
  refine (fin_vecIntt _).good.bind fun z _ => ?_
  refine (fin_sigMk _ _ _ _).good.bind fun sg _ => ?_
  exact Res.Good.ok hr

end Raccoon
