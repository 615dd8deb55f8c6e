import Verif.Proofs.ProbingHistory
import Verif.Proofs.KeyGen
import Mathlib.Algebra.BigOperators.Fin
import Mathlib.Algebra.Group.Prod
/-!
# C65: what an observer of the whole life of a key learns
-/
namespace Raccoon
attribute [-instance] Monoid.toNPow
open Finset

set_option synthInstance.maxSize 1024

theorem negacyclic_add_left (f g h : RPoly) : negacyclic (f + g) h = negacyclic f h + negacyclic g h :=
  nttR_inj (by rw [nttR_add, nttR_negacyclic, nttR_negacyclic, nttR_negacyclic, nttR_add, add_mul])

theorem life_shift {m l k rep N : Nat} (hrep : 0 < rep) (H : KeyUse N) (P : Finset (LifeWire m l k rep N)) (h : FewPlaces P H) :
    ∃ I : Finset (NoiseTerm m l k rep N), (∀ p, (I.filter fun x => x.phase = p).card ≤ (P.filter fun x => x.phase = p).card) ∧
    ∀ (a : Fin k → Fin l → RPoly) (n n' : LifeNoise m l k rep N), (∀ x ∈ I, x.val n = x.val n') → SamePublic a H n n' →
      ∃ σ : LifeMasks m l k rep N, ∀ ρ, ∀ x : LifeWire m l k rep N, x ∈ P ∨ x.Final → x.val a H n' (ρ + σ) = x.val a H n ρ := by
  obtain ⟨I, h1, h2⟩ := life_hide hrep H P h
  refine ⟨I, h1, fun a n n' hI hs => ?_⟩
  let δ : LifeNoise m l k rep N := fun p => ⟨fun j r s => (n' p).x j r s - (n p).x j r s, fun i r s => (n' p).y i r s - (n p).y i r s⟩
  have en : n' = fun p => (n p).plus (δ p) := by
    funext p
    show n' p = ⟨fun j r s => (n p).x j r s + ((n' p).x j r s - (n p).x j r s), fun j r s => (n p).y j r s + ((n' p).y j r s - (n p).y j r s)⟩
    simp only [add_sub_cancel]
  have hx : ∀ p, (n' p).xSum = fun j => (n p).xSum j + (δ p).xSum j := fun p => by rw [en]; exact ComNoise.xSum_plus _ _
  have hy : ∀ p, (n' p).ySum = fun j => (n p).ySum j + (δ p).ySum j := fun p => by rw [en]; exact ComNoise.ySum_plus _ _
  have hδ : NoChange a H δ := by
    refine ⟨fun p hp i => ?_, fun b c hb j => ?_⟩
    · have := hs.com p hp i
      rw [hx, hy, ringMatVec_add] at this
      have e : (ringMatVec a (n p).xSum i + (n p).ySum i) + (ringMatVec a (δ p).xSum i + (δ p).ySum i) = ringMatVec a (n p).xSum i + (n p).ySum i := by
        rw [add_add_add_comm]; exact this.symm
      exact add_eq_left.1 e
    · have := hs.resp b c hb j
      rw [hx, hx, negacyclic_add_left] at this
      have e : (negacyclic ((n 0).xSum j) c + (n b.succ).xSum j) + (negacyclic ((δ 0).xSum j) c + (δ b.succ).xSum j) = negacyclic ((n 0).xSum j) c + (n b.succ).xSum j := by
        rw [add_add_add_comm]; exact this.symm
      exact add_eq_left.1 e
  obtain ⟨σ, hσ⟩ := h2 a δ (fun x hxI => by
    have := hI x hxI
    cases x with
    | x p j r s => exact sub_eq_zero.2 this.symm
    | y p j r s => exact sub_eq_zero.2 this.symm) hδ
  exact ⟨σ, fun ρ x hxP => by rw [en, LifeWire.val_add, hσ x hxP, add_zero]⟩

/-- C65: an observer watches key generation and any number of signing attempts and refreshes, picking places anywhere - but fewer than there are shares for every sharing of the
secret that exists on the way (`FewPlaces`) -, and is shown *all final shares* of the public key, the commitments and the responses on top. It learns nothing but the public results
and the values of some noise terms, in every phase no more than the places it picked there: two choices of noise that agree on these terms and have the same public results give it
every observation equally often. -/
theorem C65_lifetime {m l k rep N : Nat} (hrep : 0 < rep) (H : KeyUse N) (P : Finset (LifeWire m l k rep N)) (h : FewPlaces P H) :
    ∃ I : Finset (NoiseTerm m l k rep N), (∀ p, (I.filter fun x => x.phase = p).card ≤ (P.filter fun x => x.phase = p).card) ∧
    ∀ (a : Fin k → Fin l → RPoly) (n n' : LifeNoise m l k rep N), (∀ x ∈ I, x.val n = x.val n') → SamePublic a H n n' → ∀ w,
      Nat.card { ρ : LifeMasks m l k rep N // LifeSeen P a H n w ρ } = Nat.card { ρ : LifeMasks m l k rep N // LifeSeen P a H n' w ρ } := by
  obtain ⟨I, h1, h2⟩ := life_shift hrep H P h
  refine ⟨I, h1, fun a n n' hI hs w => ?_⟩
  obtain ⟨σ, hσ⟩ := h2 a n n' hI hs
  refine Nat.card_congr ((Equiv.addRight σ).subtypeEquiv fun ρ => ?_)
  constructor
  · exact fun p x hxP => (hσ ρ x hxP).trans (p x hxP)
  · exact fun p x hxP => (hσ ρ x hxP).symm.trans (p x hxP)

/-- C65: the same for an observer that sees, instead of the values themselves, anything that is computed from the values at the picked places and the final shares (`g`): single
coefficients or bits of them, what is held while one of them is transformed, multiplied by something public or packed. -/
theorem C65_computed {m l k rep N : Nat} (hrep : 0 < rep) (H : KeyUse N) (P : Finset (LifeWire m l k rep N)) (h : FewPlaces P H) :
    ∃ I : Finset (NoiseTerm m l k rep N), (∀ p, (I.filter fun x => x.phase = p).card ≤ (P.filter fun x => x.phase = p).card) ∧
    ∀ (a : Fin k → Fin l → RPoly) (n n' : LifeNoise m l k rep N), (∀ x ∈ I, x.val n = x.val n') → SamePublic a H n n' →
      ∀ {T : Type} (g : ({ x : LifeWire m l k rep N // x ∈ P ∨ x.Final } → RPoly) → T) (w : T),
        Nat.card { ρ : LifeMasks m l k rep N // g (fun x => x.val.val a H n ρ) = w } = Nat.card { ρ : LifeMasks m l k rep N // g (fun x => x.val.val a H n' ρ) = w } := by
  obtain ⟨I, h1, h2⟩ := life_shift hrep H P h
  refine ⟨I, h1, fun a n n' hI hs T g w => ?_⟩
  obtain ⟨σ, hσ⟩ := h2 a n n' hI hs
  refine Nat.card_congr ((Equiv.addRight σ).subtypeEquiv fun ρ => ?_)
  have e : (fun x : { x : LifeWire m l k rep N // x ∈ P ∨ x.Final } => x.val.val a H n' (ρ + σ)) = fun x => x.val.val a H n ρ := funext fun x => hσ ρ x.val x.property
  show _ ↔ g (fun x => x.val.val a H n' (ρ + σ)) = w
  rw [e]

/-- C65 (link to the code): a key is generated and then used by any number of calls of `sign` and `refresh`, in any order. If all calls return, then there is a list `ks` of what they
did - the attempts of each `sign`, with their challenges -, such that everything handled is, place by place, what the lists of places say (`LifeRun`): for the uses `lifeOf ks`, the matrix,
the noise terms that are derived from the streams of the random generators (`comNoiseOf`), and the masks the mask generator delivered (`DrawnR`). -/
theorem C65_history (P : Par) (E : Ext) (fuel m ut uw rep : Nat) (hut : 0 < ut) (hut' : ut ≤ 49) (huw : 0 < uw) (huw' : uw ≤ 49) (entropy seed : List U8) (sk : SKey P.k P.l (2 ^ m))
    (hg : SKey.generate P E fuel (2 ^ m) ut rep entropy seed = .ok sk) (calls : List ApiCall) (sigs : List (List U8)) (hc : SKey.calls P E fuel (2 ^ m) uw rep sk calls = .ok sigs) :
    ∃ ks, List.Forall₂ ApiCall.Does calls ks ∧ ∃ a n ρ S, LifeRun P E fuel ut uw entropy seed sk (lifeOf ks) a n (ρ : LifeMasks m P.l P.k rep (usesOf 0 1 ks).length) S := by
  unfold SKey.generate at hg
  obtain ⟨A, eA, hg⟩ := Res.bind_eq_ok.1 hg
  obtain ⟨⟨x0, g1⟩, e0, hg⟩ := Res.bind_eq_ok.1 hg
  obtain ⟨⟨x1, p1, g2⟩, e1, hg⟩ := Res.bind_eq_ok.1 hg
  obtain ⟨xh, e2, hg⟩ := Res.bind_eq_ok.1 hg
  obtain ⟨w, e3, hg⟩ := Res.bind_eq_ok.1 hg
  obtain ⟨⟨t, p2, g3⟩, e4, hg⟩ := Res.bind_eq_ok.1 hg
  obtain rfl := Res.ok.inj hg
  have hA : PMat.Can A := ((expandA_safe E fuel P.k P.l seed).par A eA).1
  obtain ⟨a, ha⟩ := PMat.Is.exists A
  obtain ⟨ρ0, hρ0⟩ := com_run E fuel ut P.κ m rep hut hut' A hA a ha _ p1 p2 _ g1 g2 g3 x0 x1 xh w t e0 e1 e2 e3 e4
  have hd : PowTwo (2 ^ m) := ⟨m, rfl⟩
  have s0 := PVec.zeroEncoding_spec E fuel P.l hd (Mrng.new E (2 ^ m))
  rw [e0] at s0
  have s1 := PVec.addRepNoise_spec E fuel (u := ut) (κ := P.κ) (rep := rep) hd hut hut' (Prng.new E entropy) g1 s0.1
  rw [e1] at s1
  obtain ⟨r2, e2', ch, -⟩ := PVec.ntt_spec s1.1
  rw [e2] at e2'
  obtain rfl := Res.ok.inj e2'
  have hG : GoodRecs P E fuel uw A a xh ([] : List (UseRec m P.l P.k rep)) := ⟨fun v => by cases v <;> exact ch, fun b h => absurd h (Nat.not_lt_zero b)⟩
  obtain ⟨ks, R, k1, k2, k3⟩ := calls_recs huw huw' hA ha eA calls _ sigs rfl hc [] 0 hG (le_refl _) rfl
  obtain ⟨n, ρ, h⟩ := life_of_recs eA ha hρ0 ⟨⟨seed, t.decode.roundingShr P.νt⟩, xh⟩ rfl rfl R k2 ks k3
  exact ⟨ks, k1, a, n, ρ, _, h⟩

/-- C65 (link to the code): where `LifeRun` speaks about the places inside one commitment or one response, these are the places `LifeWire` lists. -/
theorem C65_places {P : Par} {E : Ext} {fuel ut uw m rep N : Nat} {entropy seed : List U8} {sk : SKey P.k P.l (2 ^ m)} {H : KeyUse N} {a : Fin P.k → Fin P.l → RPoly} {n : LifeNoise m P.l P.k rep N}
    {ρ : LifeMasks m P.l P.k rep N} {S : Nat → PVec P.l (2 ^ m)} (h : LifeRun P E fuel ut uw entropy seed sk H a n ρ S) :
    (∃ (A : PMat P.k P.l) (t : PVec P.k (2 ^ m)) (p' : Prng) (g' : Mrng (2 ^ m)), ComRun E fuel ut P.κ A a (Prng.new E entropy) (Mrng.new E (2 ^ m)) sk.s t p' g' (n 0) (ρ.1 0) ∧
      sk.pkey.t = t.decode.roundingShr P.νt ∧ (∀ x : ComWire m P.l P.k rep, x.val a (n 0) (ρ.1 0) = (LifeWire.com 0 x).val a H n ρ) ∧
      ∀ i s, (t[i.val][s.val]).toZ = (LifeWire.comOut 0 i s).val a H n ρ) ∧
    (∀ (b : Fin N) (c : RPoly), H.op b = .sign c → ∃ (A : PMat P.k P.l) (t : PVec P.k 1) (μ : List U8) (done : Bool) (st st' : SignSt P.l (2 ^ m)) (r z : PVec P.l (2 ^ m)) (w : PVec P.k (2 ^ m)) (cn : Poly)
      (g1 : Mrng (2 ^ m)), signAttempt P E fuel (2 ^ m) uw rep A t μ st = .ok (done, st') ∧ st.s = S (H.src b.val) ∧ st'.s = S (b.val + 1) ∧
      ComRun E fuel uw P.κ A a st.prng st.m r w st'.prng g1 (n b.succ) (ρ.1 b.succ) ∧ RespRun E fuel cn st.s r g1 st'.s z st'.m (ρ.2 b) ∧
      (∀ x : ComWire m P.l P.k rep, x.val a (n b.succ) (ρ.1 b.succ) = (LifeWire.com b.succ x).val a H n ρ) ∧ (∀ i s, (w[i.val][s.val]).toZ = (LifeWire.comOut b.succ i s).val a H n ρ) ∧
      (∀ (j : Fin P.l) (x : RespWire m), x.val cn.toZ (fun s => (st.s[j.val][s.val]).toZ) (fun s => (r[j.val][s.val]).toZ) (ρ.2 b j) = (LifeWire.resp b j x).val a H n ρ) ∧
      ∀ (j : Fin P.l) (s : Fin (2 ^ m)), (z[j.val][s.val]).toZ = (LifeWire.respOut b j s).val a H n ρ) ∧
    ∀ b : Fin N, H.op b = .refresh → ∃ g', RefreshVecRun E fuel (S (H.src b.val)) (Mrng.new E (2 ^ m)) (S (b.val + 1)) g' (fun j => ρ.2 b j 0) ∧
      ∀ (j : Fin P.l), (∀ x : Wire m, x.val (fun s => ((S (H.src b.val))[j.val][s.val]).toZ) (ρ.2 b j 0) = (LifeWire.resp b j (.s x)).val a H n ρ) ∧
        ∀ s : Fin (2 ^ m), ((S (b.val + 1))[j.val][s.val]).toZ = (LifeWire.resp b j (.sOut s)).val a H n ρ := by
  have hsh : ∀ (b : Fin N) (j : Fin P.l), (fun s : Fin (2 ^ m) => ((S (H.src b.val))[j.val][s.val]).toZ) = skShares H n ρ (H.src b.val) j := fun b j => funext fun s =>
    h.shares _ ((H.older b.val).trans b.isLt.le) j s
  refine ⟨?_, fun b c hb => ?_, fun b hb => ?_⟩
  · obtain ⟨A, t, p', g', -, -, -, h1, h2, h3⟩ := h.keygen
    have hcom : H.commits 0 := fun b hb => absurd hb.symm (Fin.succ_ne_zero b)
    refine ⟨A, t, p', g', by rw [h2]; exact h1, h3, fun x => (if_pos hcom).symm, fun i s => (h1.out i s).trans (if_pos hcom).symm⟩
  · obtain ⟨A, t, μ, st, st', -, h1, h2, ⟨done, h3⟩, -, r, z, w, cH, c0, cn, g1, h4, -, hc0, hc, hcn, h5⟩ := h.sign b c hb
    have hcom : H.commits b.succ := fun b' hb' => by
      obtain rfl := Fin.succ_injective _ hb'
      rw [hb]
      exact fun e => nomatch e
    have ec : cn.toZ = nttR c := by
      obtain ⟨x, ex, -, e⟩ := Raccoon.ntt_spec (chalPoly_can hc0)
      rw [hcn] at ex
      obtain rfl := Res.ok.inj ex
      rw [e, hc]
    have er : ∀ j : Fin P.l, (fun s : Fin (2 ^ m) => (r[j.val][s.val]).toZ) = fun s => nttR (comX (n b.succ) (ρ.1 b.succ) j s) := fun j => funext fun s => by
      obtain ⟨_, _, _, _, _, _, _, _, -, -, -, -, -, -, hh, -⟩ := h4.run
      exact hh j s
    have es : ∀ j : Fin P.l, (fun s : Fin (2 ^ m) => (st.s[j.val][s.val]).toZ) = skShares H n ρ (H.src b.val) j := fun j => by rw [h1]; exact hsh b j
    refine ⟨A, t, μ, done, st, st', r, z, w, cn, g1, h3, h1, h2, h4, h5, fun x => (if_pos hcom).symm, fun i s => (h4.out i s).trans (if_pos hcom).symm, fun j x => ?_, fun j s => ?_⟩
    · show _ = (H.op b).see _ _ _ x
      rw [hb, es, er, ec]
      rfl
    · refine (h5.out j s).trans ?_
      show _ = (H.op b).seeOut _ _ _ s
      rw [hb, es, er, ec]
      rfl
  · obtain ⟨g', h1⟩ := h.refresh b hb
    refine ⟨g', h1, fun j => ⟨fun x => ?_, fun s => ?_⟩⟩
    · show _ = (H.op b).see _ _ _ (.s x)
      rw [hb, hsh]
      rfl
    · obtain ⟨-, G, -, -, hj⟩ := h1
      refine ((hj j).out s).trans ?_
      show _ = (H.op b).see _ _ _ (.sOut s)
      rw [hb, hsh]
      rfl

theorem refreshed_sum {m : Nat} (a : Fin (2 ^ m) → RPoly) (ρ : Mask m) : ∑ s, refreshed a ρ s = ∑ s, a s := by
  unfold refreshed
  rw [Finset.sum_add_distrib, maskedShare_sum (maskSchedule m) (2 ^ m) (schedule_in m), add_zero]

theorem noisy_sum {m : Nat} (v : Fin (2 ^ m) → RPoly) (n : Nat → Fin (2 ^ m) → RPoly) (ρ : Nat → Mask m) : ∀ i, ∑ s, noisy v n ρ i s = ∑ s, v s + ∑ r ∈ range i, ∑ s, n r s := by
  intro i
  induction i with
  | zero => rw [Finset.sum_range_zero, add_zero]; rfl
  | succ i ih =>
    show ∑ s, refreshed (fun s => noisy v n ρ i s + n i s) (ρ i) s = _
    rw [refreshed_sum, Finset.sum_add_distrib, ih, Finset.sum_range_succ, add_assoc]

theorem comX_sum {m l k rep : Nat} (n : ComNoise m l k rep) (ρ : ComMasks m l k rep) (j : Fin l) : ∑ s, comX n ρ j s = n.xSum j := by
  unfold comX ComNoise.xSum
  rw [noisy_sum, refreshed_sum, Finset.sum_const_zero, zero_add, ← Fin.sum_univ_eq_sum_range (fun r => ∑ s, pad (n.x j) r s) rep]
  refine Finset.sum_congr rfl fun r _ => Finset.sum_congr rfl fun s _ => ?_
  unfold pad
  rw [dif_pos r.isLt]

/-- C65 (the limit is not an artefact of the proof): `sign` does not store the refreshed sharing, so calls of `sign` that are not separated by calls of `refresh` all start from the
same sharing of the secret. -/
theorem C65_sign_restarts (cs : List RPoly) : usesOf 0 1 (cs.map fun c => .sign [c]) = cs.map fun c => (.sign c, 0) := by
  suffices H : ∀ next, usesOf 0 next (cs.map fun c => .sign [c]) = cs.map fun c => (KeyOp.sign c, 0) from H 1
  induction cs with
  | nil => intro _; rfl
  | cons c cs ih =>
    intro next
    show [(KeyOp.sign c, 0)] ++ usesOf 0 (next + 1) (cs.map fun c => .sign [c]) = _
    rw [ih]
    rfl

/-- C65 (the limit is not an artefact of the proof): an observer that sees one share of the stored secret in each of as many such calls as there are shares - a different one each time -
learns the secret: these values add up to it, whatever the noise and the masks. -/
theorem C65_same_sharing {m l k rep N : Nat} (H : KeyUse N) (f : Fin (2 ^ m) → Fin N) (hf : ∀ s, H.src (f s).val = 0) (a : Fin k → Fin l → RPoly) (n : LifeNoise m l k rep N)
    (ρ : LifeMasks m l k rep N) (j : Fin l) : ∑ s, (LifeWire.resp (f s) j (.s (.input s))).val a H n ρ = nttR ((n 0).xSum j) := by
  rw [← comX_sum (n 0) (ρ.1 0) j, nttR_sum]
  refine Finset.sum_congr rfl fun s _ => ?_
  show (H.op (f s)).see _ _ _ (.s (.input s)) = _
  have e : skShares H n ρ (H.src (f s).val) j s = nttR (comX (n 0) (ρ.1 0) j s) := by rw [hf, skShares_zero]
  cases H.op (f s) with
  | sign c => exact e
  | refresh => exact e

/-- C65: the condition on the observer in terms of numbers: at most `t` places in every phase suffice if no sharing is used more than `r` times and `(r + 1) * t` is less than the
number of shares. -/
theorem C65_few {m l k rep N : Nat} (H : KeyUse N) (P : Finset (LifeWire m l k rep N)) (t r : Nat) (ht : ∀ p, (P.filter fun x => x.phase = p).card ≤ t)
    (hr : ∀ v, (univ.filter fun b : Fin N => H.src b.val = v).card ≤ r) (h : (r + 1) * t < 2 ^ m) : FewPlaces P H := by
  intro v _
  have h1 : ∀ b : Fin N, (P.filter fun x => x.onSecret b.val = true).card ≤ t := fun b => by
    refine (Finset.card_le_card fun x hx => ?_).trans (ht (b.val + 1))
    obtain ⟨hx1, hx2⟩ := Finset.mem_filter.1 hx
    refine Finset.mem_filter.2 ⟨hx1, ?_⟩
    cases x with
    | resp b' j y =>
      cases y with
      | s y => exact congrArg (· + 1) (of_decide_eq_true hx2)
      | _ => exact absurd hx2 Bool.false_ne_true
    | _ => exact absurd hx2 Bool.false_ne_true
  have h2 : ∑ b : Fin N, (if H.src b.val = v then (P.filter fun x => x.onSecret b.val = true).card else 0) ≤ r * t := by
    rw [← Finset.sum_filter]
    refine (Finset.sum_le_card_nsmul _ _ t fun b _ => h1 b).trans ?_
    rw [smul_eq_mul]
    exact Nat.mul_le_mul_right t (hr v)
  have h3 := ht v
  rw [Nat.add_mul, Nat.one_mul] at h
  omega

theorem attempt_count (cs : List RPoly) : ∀ v next w, v < next → (attemptUses v next cs).countP (fun x => x.2 = w) ≤ if w = v ∨ (next ≤ w ∧ w < next + cs.length) then 1 else 0 := by
  induction cs with
  | nil => intro v next w _; exact Nat.zero_le _
  | cons c cs ih =>
    intro v next w hv
    show ((KeyOp.sign c, v) :: attemptUses next (next + 1) cs).countP _ ≤ _
    rw [List.countP_cons]
    have := ih next (next + 1) w (Nat.lt_succ_self _)
    rw [List.length_cons]
    by_cases hw : v = w
    · subst hw
      rw [if_pos (Or.inl rfl)]
      rw [if_neg (by omega)] at this
      simp only [decide_true, if_true]
      omega
    · simp only [decide_eq_true_eq, if_neg hw, Nat.add_zero]
      refine this.trans ?_
      by_cases h1 : w = next ∨ next + 1 ≤ w ∧ w < next + 1 + cs.length
      · rw [if_pos h1, if_pos (by omega)]
      · rw [if_neg h1]; exact Nat.zero_le _

theorem attempt_length (cs : List RPoly) : ∀ v next, (attemptUses v next cs).length = cs.length := by
  induction cs with
  | nil => intro _ _; rfl
  | cons c cs ih =>
    intro v next
    show (attemptUses next (next + 1) cs).length + 1 = _
    rw [ih]
    rfl

theorem alternate_count (css : List (List RPoly)) : ∀ cur next w, cur < next →
    (usesOf cur next (css.flatMap fun cs => [.refresh, .sign cs])).countP (fun x => x.2 = w) ≤ if w = cur then 1 else if next ≤ w then 2 else 0 := by
  induction css with
  | nil => intro _ _ _ _; exact Nat.zero_le _
  | cons cs css ih =>
    intro cur next w hcur
    show ((KeyOp.refresh, cur) :: (attemptUses next (next + 1) cs ++ usesOf next (next + 1 + (attemptUses next (next + 1) cs).length) (css.flatMap fun cs => [.refresh, .sign cs]))).countP _ ≤ _
    rw [List.countP_cons, List.countP_append, attempt_length]
    have h1 := attempt_count cs next (next + 1) w (Nat.lt_succ_self _)
    have h2 := ih next (next + 1 + cs.length) w (by omega)
    simp only [decide_eq_true_eq] at h1 h2 ⊢
    split_ifs at h1 h2 ⊢ <;> omega

/-- C65: if the caller refreshes the key before every signature, no sharing is used more than twice, so that less than a third of the number of shares may be observed in every phase:
such an observer learns nothing but the public results and no more noise terms, phase by phase, than it picked places. -/
theorem C65_refresh_each {m l k rep : Nat} (hrep : 0 < rep) (css : List (List RPoly)) (P : Finset (LifeWire m l k rep (usesOf 0 1 (css.flatMap fun cs => [.refresh, .sign cs])).length))
    (t : Nat) (ht : ∀ p, (P.filter fun x => x.phase = p).card ≤ t) (h : 3 * t < 2 ^ m) :
    ∃ I : Finset (NoiseTerm m l k rep _), (∀ p, (I.filter fun x => x.phase = p).card ≤ t) ∧
    ∀ (a : Fin k → Fin l → RPoly) (n n' : LifeNoise m l k rep _), (∀ x ∈ I, x.val n = x.val n') → SamePublic a (lifeOf (css.flatMap fun cs => [.refresh, .sign cs])) n n' → ∀ w,
      Nat.card { ρ : LifeMasks m l k rep _ // LifeSeen P a (lifeOf (css.flatMap fun cs => [.refresh, .sign cs])) n w ρ } =
        Nat.card { ρ : LifeMasks m l k rep _ // LifeSeen P a (lifeOf (css.flatMap fun cs => [.refresh, .sign cs])) n' w ρ } := by
  have hu : ∀ v, (univ.filter fun b : Fin (usesOf 0 1 (css.flatMap fun cs => [.refresh, .sign cs])).length => (lifeOf (css.flatMap fun cs => [.refresh, .sign cs])).src b.val = v).card ≤ 2 := fun v => by
    rw [Finset.card_filter]
    have e : ∀ b : Fin (usesOf 0 1 (css.flatMap fun cs => [.refresh, .sign cs])).length, (if (lifeOf (css.flatMap fun cs => [.refresh, .sign cs])).src b.val = v then 1 else 0) =
        (fun x : KeyOp × Nat => if x.2 = v then 1 else 0) (usesOf 0 1 (css.flatMap fun cs => [.refresh, .sign cs]))[b.val] := fun b => by
      show (if (if h : b.val < _ then _ else 0) = v then 1 else 0) = _
      rw [dif_pos b.isLt]
    rw [Finset.sum_congr rfl (fun b _ => e b), Fin.sum_univ_fun_getElem (usesOf 0 1 (css.flatMap fun cs => [.refresh, .sign cs])) (fun x : KeyOp × Nat => if x.2 = v then 1 else 0)]
    have h3 := alternate_count css 0 1 v Nat.one_pos
    have h4 : ∀ L : List (KeyOp × Nat), (L.map fun x => if x.2 = v then 1 else 0).sum = L.countP (fun x => x.2 = v) := fun L => by
      induction L with
      | nil => rfl
      | cons x L ih => rw [List.map_cons, List.sum_cons, ih, List.countP_cons, add_comm]; simp only [decide_eq_true_eq]
    rw [h4]
    refine h3.trans ?_
    split_ifs <;> omega
  obtain ⟨I, h1, h2⟩ := C65_lifetime hrep (lifeOf (css.flatMap fun cs => [.refresh, .sign cs])) P (C65_few _ P t 2 ht hu h)
  exact ⟨I, fun p => (h1 p).trans (ht p), h2⟩

/-- Non-vacuity: four shares; a key is generated, refreshed and used for one signature with one attempt (challenge `c`). The observer looks at one place in each of the three phases:
a share of the secret during key generation, a mask while it is refreshed, and a share of the secret times the challenge. -/
example (c : RPoly) : let css : List (List RPoly) := [[c]]
    let P : Finset (LifeWire 2 1 1 1 2) := {.com 0 (.sh 0 1), .resp 0 0 (.s (.mask ⟨0, by decide⟩)), .resp 1 0 (.prod 3)}
    (usesOf 0 1 (css.flatMap fun cs => [.refresh, .sign cs])).length = 2 ∧ P.card = 3 ∧ (∀ p, (P.filter fun x => x.phase = p).card ≤ 1) ∧ 3 * 1 < 2 ^ 2 := by
  intro css P
  refine ⟨rfl, by decide, fun p => ?_, by norm_num⟩
  rw [Finset.card_le_one]
  intro x hx y hy
  obtain ⟨hx, hx'⟩ := Finset.mem_filter.1 hx
  obtain ⟨hy, hy'⟩ := Finset.mem_filter.1 hy
  have hp : ∀ z ∈ P, z = .com 0 (.sh 0 1) ∨ z = .resp 0 0 (.s (.mask ⟨0, by decide⟩)) ∨ z = .resp 1 0 (.prod 3) := fun z hz => by
    rcases Finset.mem_insert.1 hz with h | hz
    · exact .inl h
    rcases Finset.mem_insert.1 hz with h | hz
    · exact .inr (.inl h)
    · exact .inr (.inr (Finset.mem_singleton.1 hz))
  have hxy := hx'.trans hy'.symm
  rcases hp x hx with rfl | rfl | rfl <;> rcases hp y hy with rfl | rfl | rfl <;> first | rfl | exact absurd hxy (by decide)

/-- Non-vacuity: different secrets with the same public results, for one signing attempt with challenge `c` (and, here, a matrix of zeros). -/
example (c : RPoly) (H : KeyUse 1) (hH : H.op 0 = .sign c) : ∃ n n' : LifeNoise 2 1 1 1 1, (n 0).xSum ≠ (n' 0).xSum ∧ SamePublic (fun _ _ => 0) H n n' := by
  have e : ∀ (x : RPoly) (j : Fin 1), (⟨fun _ _ => bump 0 x, fun _ _ _ => 0⟩ : ComNoise 2 1 1 1).xSum j = x := fun x j => by
    unfold ComNoise.xSum
    rw [Finset.sum_congr rfl (fun r _ => bump_sum _ _), Finset.univ_unique, Finset.sum_singleton]
  refine ⟨Fin.cons ⟨fun _ _ => bump 0 0, fun _ _ _ => 0⟩ fun _ => ⟨fun _ _ => bump 0 (negacyclic 1 c), fun _ _ _ => 0⟩,
    Fin.cons ⟨fun _ _ => bump 0 1, fun _ _ _ => 0⟩ fun _ => ⟨fun _ _ => bump 0 0, fun _ _ _ => 0⟩, fun h => ?_, fun p _ i => ?_, fun b c' hb j => ?_⟩
  · rw [Fin.cons_zero, Fin.cons_zero] at h
    have := congrFun h 0
    rw [e, e] at this
    exact (one_ne_zero (α := RPoly)) this.symm
  · have h0 : ∀ x : Fin 1 → RPoly, ringMatVec (fun (_ : Fin 1) (_ : Fin 1) => (0 : RPoly)) x i = 0 := fun x => Finset.sum_eq_zero fun j _ => nttR_inj (by rw [nttR_negacyclic, nttR_zero, zero_mul])
    have h1 : ∀ x : RPoly, (⟨fun _ _ => bump 0 x, fun _ _ _ => 0⟩ : ComNoise 2 1 1 1).ySum i = 0 := fun x => Finset.sum_eq_zero fun _ _ => Finset.sum_eq_zero fun _ _ => rfl
    rw [h0, h0]
    refine Fin.cases ?_ (fun b => ?_) p
    · rw [Fin.cons_zero, Fin.cons_zero, h1, h1]
    · rw [Fin.cons_succ, Fin.cons_succ, h1, h1]
  · obtain rfl : b = 0 := Subsingleton.elim _ _
    rw [hH] at hb
    obtain rfl := KeyOp.sign.inj hb
    rw [Fin.cons_zero, Fin.cons_zero, Fin.cons_succ, Fin.cons_succ, e, e, e, add_zero]
    rw [show negacyclic 0 c = 0 from nttR_inj (by rw [nttR_negacyclic, nttR_zero, zero_mul]), zero_add]

end Raccoon
