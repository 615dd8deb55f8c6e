import Verif.Proofs.ProbingRun
import Mathlib.Data.List.Forall2
/-!
# The history of a key, as the code runs it
-/
namespace Raccoon
attribute [-instance] Monoid.toNPow
open Finset

/-- A signing attempt that comes to an end goes as listed. -/
theorem attempt_run (P : Par) (E : Ext) (fuel m uw rep : Nat) (hu : 0 < uw) (hu' : uw ≤ 49) (A : PMat P.k P.l) (hA : PMat.Can A) (a : Fin P.k → Fin P.l → RPoly) (ha : A.Is a) (t : PVec P.k 1)
    (μ : List U8) (st : SignSt P.l (2 ^ m)) (hs : PVec.Can st.s) (done : Bool) (st' : SignSt P.l (2 ^ m)) (h : signAttempt P E fuel (2 ^ m) uw rep A t μ st = .ok (done, st')) :
    PVec.Can st'.s ∧ ∃ (c : RPoly) (n : ComNoise m P.l P.k rep) (ρ : ComMasks m P.l P.k rep) (ρ3 : Fin P.l → Masks3 m RPoly), AttemptRun P E fuel uw A a t μ st st' c n ρ ρ3 := by
  have hd : PowTwo (2 ^ m) := ⟨m, rfl⟩
  have h' := h
  rw [signAttempt_eq] at h
  obtain ⟨⟨sig, s', p', m'⟩, hc, h⟩ := Res.bind_eq_ok.1 h
  have hst : st'.s = s' ∧ st'.prng = p' ∧ st'.m = m' := by
    unfold signFinish at h
    obtain ⟨⟨e1, e2⟩, -, h⟩ := Res.bind_eq_ok.1 h
    dsimp only at h
    split at h
    · obtain ⟨-, rfl⟩ := Prod.mk.inj (Res.ok.inj h)
      exact ⟨rfl, rfl, rfl⟩
    · obtain ⟨ib, -, h⟩ := Res.bind_eq_ok.1 h
      split at h
      · obtain ⟨-, rfl⟩ := Prod.mk.inj (Res.ok.inj h)
        exact ⟨rfl, rfl, rfl⟩
      · obtain ⟨-, rfl⟩ := Prod.mk.inj (Res.ok.inj h)
        exact ⟨rfl, rfl, rfl⟩
  unfold signCore at hc
  obtain ⟨⟨r0, m1⟩, e0, hc⟩ := Res.bind_eq_ok.1 hc
  have s0 := PVec.zeroEncoding_spec E fuel P.l hd st.m
  rw [e0] at s0
  obtain ⟨⟨r1, p1, m2⟩, e1, hc⟩ := Res.bind_eq_ok.1 hc
  have s1 := PVec.addRepNoise_spec E fuel (u := uw) (κ := P.κ) (rep := rep) hd hu hu' st.prng m1 s0.1
  rw [e1] at s1
  obtain ⟨r2, e2, hc⟩ := Res.bind_eq_ok.1 hc
  obtain ⟨r2', e2', s2, -⟩ := PVec.ntt_spec s1.1
  rw [e2] at e2'
  obtain rfl := Res.ok.inj e2'
  obtain ⟨w0, ew0, hc⟩ := Res.bind_eq_ok.1 hc
  obtain ⟨⟨w1, p2, m3⟩, ew1, hc⟩ := Res.bind_eq_ok.1 hc
  obtain ⟨cH, ech, hc⟩ := Res.bind_eq_ok.1 hc
  obtain ⟨c0, ec, hc⟩ := Res.bind_eq_ok.1 hc
  obtain ⟨c, ecn, hc⟩ := Res.bind_eq_ok.1 hc
  obtain ⟨cn, ecn', hcan, -⟩ := ntt_ex (chalPoly_can ec)
  rw [ecn] at ecn'
  obtain rfl := Res.ok.inj ecn'
  obtain ⟨⟨s3, m4⟩, es, hc⟩ := Res.bind_eq_ok.1 hc
  obtain ⟨⟨r3, m5⟩, er, hc⟩ := Res.bind_eq_ok.1 hc
  obtain ⟨⟨z, m6⟩, ez, hc⟩ := Res.bind_eq_ok.1 hc
  obtain ⟨y, -, hc⟩ := Res.bind_eq_ok.1 hc
  obtain ⟨z', -, hc⟩ := Res.bind_eq_ok.1 hc
  obtain ⟨sg, -, hc⟩ := Res.bind_eq_ok.1 hc
  have hp := Res.ok.inj hc
  simp only [Prod.mk.injEq] at hp
  obtain ⟨-, rfl, rfl, rfl⟩ := hp
  obtain ⟨ρ, hρ⟩ := com_run E fuel uw P.κ m rep hu hu' A hA a ha st.prng p1 p2 st.m m1 m2 m3 r0 r1 r2 w0 w1 e0 e1 e2 ew0 ew1
  obtain ⟨ρ3, hρ3⟩ := resp_run E fuel m P.l st.s r2 s3 r3 z hs s2 c hcan m3 m4 m5 m6 es er ez
  refine ⟨?_, c0.toZ, _, ρ, ρ3, ⟨done, h'⟩, rfl, r2, z, w1, cH, c0, c, m3, ?_, ech, ec, rfl, ecn, ?_⟩
  · rw [hst.1]
    exact PVec.refresh_can E fuel m hs _ _ es
  · rw [hst.2.1]; exact hρ
  · rw [hst.1, hst.2.2]; exact hρ3

theorem refresh_vec_run (E : Ext) (fuel m l : Nat) (x x' : PVec l (2 ^ m)) (hx : PVec.Can x) (g g' : Mrng (2 ^ m)) (h : PVec.refresh E fuel x g = .ok (x', g')) :
    ∃ ρ, RefreshVecRun E fuel x g x' g' ρ := by
  obtain ⟨G, h1, h2, h3⟩ := PVec.refresh_rows E fuel x g x' g' h
  choose ρ hρ using fun j : Fin l => refresh_run E fuel m x[j.val] (hx j.val j.isLt) (G j.val) x'[j.val] _ (h3 j.val j.isLt)
  exact ⟨ρ, h, G, h1, h2, hρ⟩

/-- What is recorded of one use. -/
structure UseRec (m l k rep : Nat) where
  op : KeyOp
  src : Nat
  out : PVec l (2 ^ m)
  n : ComNoise m l k rep
  ρ : ComMasks m l k rep
  ρ3 : Fin l → Masks3 m RPoly

/-- The use went as recorded, from the sharing `x`. -/
def UseRec.Run (P : Par) (E : Ext) (fuel uw : Nat) {m rep : Nat} (A : PMat P.k P.l) (a : Fin P.k → Fin P.l → RPoly) (r : UseRec m P.l P.k rep) (x : PVec P.l (2 ^ m)) : Prop :=
  (∀ c, r.op = .sign c → ∃ (t : PVec P.k 1) (μ : List U8) (st st' : SignSt P.l (2 ^ m)), st.s = x ∧ st'.s = r.out ∧ AttemptRun P E fuel uw A a t μ st st' c r.n r.ρ r.ρ3) ∧
  (r.op = .refresh → ∃ g', RefreshVecRun E fuel x (Mrng.new E (2 ^ m)) r.out g' (fun j => r.ρ3 j 0))

/-- Sharing number `v`. -/
def shOf {m l k rep : Nat} (s0 : PVec l (2 ^ m)) (R : List (UseRec m l k rep)) : Nat → PVec l (2 ^ m)
  | 0 => s0
  | v + 1 => if h : v < R.length then R[v].out else s0

theorem shOf_append {m l k rep : Nat} (s0 : PVec l (2 ^ m)) (R R' : List (UseRec m l k rep)) (v : Nat) (hv : v ≤ R.length) : shOf s0 (R ++ R') v = shOf s0 R v := by
  cases v with
  | zero => rfl
  | succ v =>
    dsimp only [shOf]
    rw [dif_pos (by rw [List.length_append]; omega), dif_pos (by omega), List.getElem_append_left]

theorem shOf_last {m l k rep : Nat} (s0 : PVec l (2 ^ m)) (R : List (UseRec m l k rep)) (r : UseRec m l k rep) : shOf s0 (R ++ [r]) (R.length + 1) = r.out := by
  dsimp only [shOf]
  rw [dif_pos (by rw [List.length_append]; exact Nat.lt_succ_self _), List.getElem_append_right (le_refl _)]
  simp only [Nat.sub_self, List.getElem_cons_zero]

section
variable (P : Par) (E : Ext) (fuel uw : Nat) {m rep : Nat} (A : PMat P.k P.l) (a : Fin P.k → Fin P.l → RPoly) (s0 : PVec P.l (2 ^ m)) {seed : List U8}

/-- All uses went as recorded. -/
def GoodRecs (R : List (UseRec m P.l P.k rep)) : Prop :=
  (∀ v, PVec.Can (shOf s0 R v)) ∧ ∀ b (h : b < R.length), R[b].src ≤ b ∧ R[b].Run P E fuel uw A a (shOf s0 R R[b].src)

variable {P E fuel uw A a s0}

theorem GoodRecs.append {R : List (UseRec m P.l P.k rep)} (h : GoodRecs P E fuel uw A a s0 R) {r : UseRec m P.l P.k rep} (hs : r.src ≤ R.length) (hc : PVec.Can r.out)
    (hr : r.Run P E fuel uw A a (shOf s0 R r.src)) : GoodRecs P E fuel uw A a s0 (R ++ [r]) := by
  refine ⟨fun v => ?_, fun b hb => ?_⟩
  · by_cases hv : v ≤ R.length
    · rw [shOf_append s0 R [r] v hv]; exact h.1 v
    · by_cases hv' : v = R.length + 1
      · subst hv'
        rw [shOf_last]; exact hc
      · cases v with
        | zero => omega
        | succ v =>
          dsimp only [shOf]
          rw [dif_neg (by rw [List.length_append]; show ¬ v < R.length + 1; omega)]
          exact h.1 0
  · by_cases hb' : b < R.length
    · rw [List.getElem_append_left hb', shOf_append s0 R [r] _ (by have := (h.2 b hb').1; omega)]
      exact h.2 b hb'
    · have : b = R.length := by rw [List.length_append] at hb; have : b < R.length + 1 := hb; omega
      subst this
      rw [List.getElem_append_right (le_refl _)]
      simp only [Nat.sub_self, List.getElem_cons_zero]
      rw [shOf_append s0 R [r] _ hs]
      exact ⟨hs, hr⟩

theorem signLoop_recs (hu : 0 < uw) (hu' : uw ≤ 49) (hA : PMat.Can A) (ha : A.Is a) (t : PVec P.k 1) (μ sig : List U8) : ∀ (i : Nat) (st : SignSt P.l (2 ^ m)),
    signLoop P E fuel (2 ^ m) uw rep A t μ i st = .ok sig → ∀ (R : List (UseRec m P.l P.k rep)) (v : Nat), GoodRecs P E fuel uw A a s0 R → v ≤ R.length → st.s = shOf s0 R v →
    ∃ (cs : List RPoly) (R' : List (UseRec m P.l P.k rep)), cs ≠ [] ∧ GoodRecs P E fuel uw A a s0 (R ++ R') ∧ R'.map (fun r => (r.op, r.src)) = attemptUses v (R.length + 1) cs := by
  intro i
  induction i with
  | zero => intro st h; exact nomatch h
  | succ i ih =>
    intro st h R v hR hv hst
    obtain ⟨⟨done, st'⟩, e, h⟩ := Res.bind_eq_ok.1 h
    obtain ⟨hc, c, n, ρ, ρ3, hrun⟩ := attempt_run P E fuel m uw rep hu hu' A hA a ha t μ st (by rw [hst]; exact hR.1 v) done st' e
    have hG : GoodRecs P E fuel uw A a s0 (R ++ [⟨.sign c, v, st'.s, n, ρ, ρ3⟩]) :=
      hR.append hv hc ⟨fun c' hc' => by
        obtain rfl := KeyOp.sign.inj hc'
        exact ⟨t, μ, st, st', hst, rfl, hrun⟩, fun hc' => nomatch hc'⟩
    dsimp only at h
    cases done with
    | true => exact ⟨[c], [⟨.sign c, v, st'.s, n, ρ, ρ3⟩], List.cons_ne_nil _ _, hG, rfl⟩
    | false =>
      obtain ⟨cs, R', -, h1, h2⟩ := ih st' h _ (R.length + 1) hG (by rw [List.length_append]; exact le_refl _) (shOf_last s0 R ⟨.sign c, v, st'.s, n, ρ, ρ3⟩).symm
      refine ⟨c :: cs, ⟨.sign c, v, st'.s, n, ρ, ρ3⟩ :: R', List.cons_ne_nil _ _, ?_, ?_⟩
      · rw [List.append_assoc] at h1
        exact h1
      · rw [List.map_cons, h2, List.length_append]
        rfl

theorem calls_recs (hu : 0 < uw) (hu' : uw ≤ 49) (hA : PMat.Can A) (ha : A.Is a) {seed : List U8} (hseed : PMat.expandA E fuel P.k P.l seed = .ok A) : ∀ (calls : List ApiCall) (sk : SKey P.k P.l (2 ^ m)) (sigs : List (List U8)),
    sk.pkey.seed = seed → SKey.calls P E fuel (2 ^ m) uw rep sk calls = .ok sigs → ∀ (R : List (UseRec m P.l P.k rep)) (cur : Nat), GoodRecs P E fuel uw A a s0 R → cur ≤ R.length → sk.s = shOf s0 R cur →
    ∃ (ks : List KeyCall) (R' : List (UseRec m P.l P.k rep)), List.Forall₂ ApiCall.Does calls ks ∧ GoodRecs P E fuel uw A a s0 (R ++ R') ∧
      R'.map (fun r => (r.op, r.src)) = usesOf cur (R.length + 1) ks := by
  intro calls
  induction calls with
  | nil => intro sk sigs _ _ R cur hR _ _; exact ⟨[], [], .nil, by rw [List.append_nil]; exact hR, rfl⟩
  | cons x calls ih =>
    intro sk sigs hsd h R cur hR hcur hsk
    cases x with
    | sign entropy msg buf =>
      obtain ⟨sig, e, h⟩ := Res.bind_eq_ok.1 h
      obtain ⟨sigs', e2, h⟩ := Res.bind_eq_ok.1 h
      unfold SKey.sign at e
      obtain ⟨t1, -, e⟩ := Res.bind_eq_ok.1 e
      obtain ⟨t2, -, e⟩ := Res.bind_eq_ok.1 e
      obtain ⟨pkb, -, e⟩ := Res.bind_eq_ok.1 e
      obtain ⟨A', eA, e⟩ := Res.bind_eq_ok.1 e
      rw [hsd, hseed] at eA
      obtain rfl := Res.ok.inj eA
      obtain ⟨cs, R1, hne, h1, h2⟩ := signLoop_recs hu hu' hA ha t2 _ sig fuel _ e R cur hR hcur hsk
      obtain ⟨ks, R2, k1, k2, k3⟩ := ih sk sigs' hsd e2 (R ++ R1) cur h1 (by rw [List.length_append]; omega) (by rw [shOf_append s0 R R1 cur hcur]; exact hsk)
      refine ⟨.sign cs :: ks, R1 ++ R2, .cons hne k1, by rw [← List.append_assoc]; exact k2, ?_⟩
      have hl : (attemptUses cur (R.length + 1) cs).length = R1.length := by rw [← h2, List.length_map]
      rw [List.map_append, h2, k3]
      show _ = attemptUses cur (R.length + 1) cs ++ usesOf cur (R.length + 1 + (attemptUses cur (R.length + 1) cs).length) ks
      rw [hl, List.length_append]
      congr 2
      omega
    | refresh =>
      obtain ⟨sk', e, h⟩ := Res.bind_eq_ok.1 h
      unfold SKey.refresh at e
      obtain ⟨⟨s', g'⟩, e1, e⟩ := Res.bind_eq_ok.1 e
      obtain rfl := Res.ok.inj e
      have hcan : PVec.Can sk.s := by rw [hsk]; exact hR.1 cur
      obtain ⟨ρ, hρ⟩ := refresh_vec_run E fuel m P.l sk.s s' hcan _ g' e1
      have hG : GoodRecs P E fuel uw A a s0 (R ++ [⟨.refresh, cur, s', ⟨fun _ _ _ => 0, fun _ _ _ => 0⟩, (fun _ => 0, fun _ _ => 0, fun _ _ => 0), fun j _ => ρ j⟩]) :=
        hR.append hcur (PVec.refresh_can E fuel m hcan _ _ e1) ⟨fun c' hc' => (nomatch hc'), fun _ => ⟨g', by rw [← hsk]; exact hρ⟩⟩
      obtain ⟨ks, R2, k1, k2, k3⟩ := ih ⟨sk.pkey, s'⟩ sigs hsd h _ (R.length + 1) hG (by rw [List.length_append]; exact le_refl _) (shOf_last s0 R ⟨.refresh, cur, s', ⟨fun _ _ _ => 0, fun _ _ _ => 0⟩, (fun _ => 0, fun _ _ => 0, fun _ _ => 0), fun j _ => ρ j⟩).symm
      refine ⟨.refresh :: ks, ⟨.refresh, cur, s', ⟨fun _ _ _ => 0, fun _ _ _ => 0⟩, (fun _ => 0, fun _ _ => 0, fun _ _ => 0), fun j _ => ρ j⟩ :: R2, .cons trivial k1, ?_, ?_⟩
      · rw [List.append_assoc] at k2
        exact k2
      · rw [List.map_cons, k3, List.length_append]
        rfl

/-- Putting the records together. -/
theorem life_of_recs (hA : PMat.expandA E fuel P.k P.l seed = .ok A) (ha : A.Is a) {ut : Nat} {entropy : List U8} {t : PVec P.k (2 ^ m)} {p' : Prng} {g' : Mrng (2 ^ m)} {ρ0 : ComMasks m P.l P.k rep}
    (h0 : ComRun E fuel ut P.κ A a (Prng.new E entropy) (Mrng.new E (2 ^ m)) s0 t p' g' (comNoiseOf E ut P.κ m P.l P.k rep (Prng.new E entropy)) ρ0) (sk : SKey P.k P.l (2 ^ m)) (hs : sk.s = s0)
    (hpk : sk.pkey.t = t.decode.roundingShr P.νt) (R : List (UseRec m P.l P.k rep)) (hR : GoodRecs P E fuel uw A a s0 R) (ks : List KeyCall) (hk : R.map (fun r => (r.op, r.src)) = usesOf 0 1 ks) :
    ∃ n ρ, LifeRun P E fuel ut uw entropy seed sk (lifeOf ks) a n (ρ : LifeMasks m P.l P.k rep (usesOf 0 1 ks).length) (shOf s0 R) := by
  have hN : (usesOf 0 1 ks).length = R.length := by rw [← hk, List.length_map]
  have hop : ∀ b : Fin (usesOf 0 1 ks).length, (lifeOf ks).op b = (R[b.val]'(hN ▸ b.isLt)).op ∧ (lifeOf ks).src b.val = (R[b.val]'(hN ▸ b.isLt)).src := fun b => by
    have e : (usesOf 0 1 ks)[b.val] = ((R[b.val]'(hN ▸ b.isLt)).op, (R[b.val]'(hN ▸ b.isLt)).src) := by
      simp only [← hk, List.getElem_map]
    refine ⟨congrArg Prod.fst e, ?_⟩
    show (if h : b.val < (usesOf 0 1 ks).length then (usesOf 0 1 ks)[b.val].2 else 0) = _
    rw [dif_pos b.isLt]
    exact congrArg Prod.snd e
  let n : LifeNoise m P.l P.k rep (usesOf 0 1 ks).length := Fin.cons (comNoiseOf E ut P.κ m P.l P.k rep (Prng.new E entropy)) fun b => (R[b.val]'(hN ▸ b.isLt)).n
  let ρ : LifeMasks m P.l P.k rep (usesOf 0 1 ks).length := (Fin.cons ρ0 fun b => (R[b.val]'(hN ▸ b.isLt)).ρ, fun b => (R[b.val]'(hN ▸ b.isLt)).ρ3)
  have hS : ∀ b : Fin (usesOf 0 1 ks).length, shOf s0 R (b.val + 1) = (R[b.val]'(hN ▸ b.isLt)).out := fun b => by
    dsimp only [shOf]
    rw [dif_pos (hN ▸ b.isLt)]
  have hsign : ∀ b c, (lifeOf ks).op b = .sign c → ∃ (A : PMat P.k P.l) (t : PVec P.k 1) (μ : List U8) (st st' : SignSt P.l (2 ^ m)), PMat.expandA E fuel P.k P.l seed = .ok A ∧
      st.s = shOf s0 R ((lifeOf ks).src b.val) ∧ st'.s = shOf s0 R (b.val + 1) ∧ AttemptRun P E fuel uw A a t μ st st' c (n b.succ) (ρ.1 b.succ) (ρ.2 b) := fun b c hb => by
    obtain ⟨t, μ, st, st', h1, h2, h3⟩ := (hR.2 b.val (hN ▸ b.isLt)).2.1 c (by rw [← (hop b).1]; exact hb)
    exact ⟨A, t, μ, st, st', hA, by rw [h1, (hop b).2], by rw [h2, hS], h3⟩
  have href : ∀ b, (lifeOf ks).op b = .refresh → ∃ g', RefreshVecRun E fuel (shOf s0 R ((lifeOf ks).src b.val)) (Mrng.new E (2 ^ m)) (shOf s0 R (b.val + 1)) g' (fun j => ρ.2 b j 0) := fun b hb => by
    obtain ⟨g', h1⟩ := (hR.2 b.val (hN ▸ b.isLt)).2.2 (by rw [← (hop b).1]; exact hb)
    rw [(hop b).2, hS]
    exact ⟨g', h1⟩
  refine ⟨n, ρ, ⟨A, t, p', g', hA, ha, rfl, h0, hs, hpk⟩, hsign, href, ?_⟩
  intro v
  induction v using Nat.strongRecOn with
  | _ v ih =>
    intro hv j s
    cases v with
    | zero =>
      rw [skShares_zero]
      obtain ⟨x0, x1, w, Gz, Gx, Gy, Px, Py, -, -, -, -, -, -, hh, -⟩ := h0.run
      exact hh j s
    | succ b =>
      rw [skShares_succ]
      have hb : b < (usesOf 0 1 ks).length := hv
      have hlt := (lifeOf ks).older b
      have hsrc := ih ((lifeOf ks).src b) (by omega) (by omega) j
      have e : refreshed (skShares (lifeOf ks) n ρ ((lifeOf ks).src b) j) (pad ρ.2 b j 0) s =
          refreshed (fun s => ((shOf s0 R ((lifeOf ks).src b))[j.val][s.val]).toZ) (ρ.2 ⟨b, hb⟩ j 0) s := by
        have e1 : pad ρ.2 b = ρ.2 ⟨b, hb⟩ := dif_pos hb
        rw [e1]
        exact congrArg (fun f => refreshed f (ρ.2 ⟨b, hb⟩ j 0) s) (funext fun s => (hsrc s).symm)
      refine Eq.trans ?_ e.symm
      cases hop' : (lifeOf ks).op ⟨b, hb⟩ with
      | sign c =>
        obtain ⟨A', t', μ, st, st', -, h1, h2, h3⟩ := hsign ⟨b, hb⟩ c hop'
        obtain ⟨-, -, bb, z, w, cH, c0, cn, g1, -, -, -, -, -, hresp⟩ := h3
        obtain ⟨r, y, G, -, -, hj⟩ := hresp.run
        have := (hj j).1.out s
        rw [h1, h2] at this
        exact this
      | refresh =>
        obtain ⟨g'', -, G, -, -, hj⟩ := href ⟨b, hb⟩ hop'
        exact (hj j).out s

end

end Raccoon
