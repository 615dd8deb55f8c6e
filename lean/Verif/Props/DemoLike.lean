import Verif.Props.Wire
/-!
# Toy instances of the external functions in which the challenge hash may depend on the message

What `Props/Demo` shows for one toy instance holds for all instances that agree with it on the noise, the matrix and the masks.
-/
namespace Raccoon
attribute [-instance] Monoid.toNPow
open Finset

/-- External functions with the noise, matrix and masks of `demoE`; hashes and challenges are only asked to let the challenge sampler finish. -/
structure DemoLike (E : Ext) : Prop where
  short : ∀ m : List U8, m.length = 24 → E.shake256 m = demoStream m
  chal : ∀ m : List U8, m.length = 40 → 19 ≤ chalCount (E.shake256 m) 19
  asc : E.asconP6 = fun _ => Vector.replicate 5 7

theorem DemoLike.toy_iter {E : Ext} (hE : DemoLike E) (n : Nat) : ∃ x : U64, (E.asconP6^[n] (Vector.replicate 5 0)) = Vector.replicate 5 x ∧ (x = 0 ∨ x = 7) := by
  cases n with
  | zero => exact ⟨0, rfl, Or.inl rfl⟩
  | succ n => rw [Function.iterate_succ_apply', hE.asc]; exact ⟨7, rfl, Or.inr rfl⟩

theorem DemoLike.toy_finish {E : Ext} (hE : DemoLike E) : SamplersFinish raccoon128 E 512 := by
  refine ⟨fun m hm => ?_, fun m hm => ?_, fun n => ?_⟩
  · have hm' : m.length = 24 := hm
    rw [hE.short m hm', accepted_all, List.length_map, List.length_range]
    refine qWord_small _ fun i => ?_
    show (demoStream m i).toNat ≤ 1
    unfold demoStream
    rw [if_neg (by omega)]
    split <;> split <;> decide
  · have hm' : m.length = 40 := hm
    refine Nat.le_trans (hE.chal m hm') ?_
    unfold chalCount
    exact Finset.card_le_card (Finset.image_subset_image (Finset.range_subset_range.2 (by omega)))
  · unfold acceptedMasks
    rw [List.filter_eq_self.2, List.length_map, List.length_range]
    intro x hx
    obtain ⟨j, -, rfl⟩ := List.mem_map.1 hx
    apply decide_eq_true
    unfold maskWord
    rw [← Function.iterate_add_apply]
    obtain ⟨x, e, hx⟩ := hE.toy_iter (j + n)
    rw [e]
    rcases hx with rfl | rfl <;> simp <;> decide

/-- The toy noise: 1 in every coefficient for 41-bit noise, 1 in every sixth for 6-bit noise. -/
theorem DemoLike.toy_noiseAt {E : Ext} (hE : DemoLike E) (u : Nat) (hu : u = 6 ∨ u = 41) (idx : Nat) (s : Nat → U8) (pos r sidx : Nat) (c : Fin 512) :
    noiseAt E u 128 2 idx s pos r sidx c = if u = 41 ∨ c.val % 6 = 0 then 1 else 0 := by
  unfold noiseAt
  dsimp only
  have hs : ∀ σ : List U8, σ.length = 16 → E.shake256 ([0x75, BitVec.ofNat 8 r, BitVec.ofNat 8 idx, BitVec.ofNat 8 sidx, 0, 0, 0, 0] ++ σ) =
      fun i => if i % 6 = 0 then 1 else 0 := by
    intro σ hσ
    rw [hE.short _ (by simp [hσ])]
    funext i
    unfold demoStream
    rw [if_neg (by simp [hσ])]
    exact if_pos (by rfl)
  rw [hs _ (by rw [List.length_map, List.length_range])]
  rcases hu with rfl | rfl
  · show ((streamWord _ 1 c.val : Nat) : Int).bmod _ = _
    unfold streamWord
    rw [show List.range 1 = [0] from rfl]
    simp only [List.map_cons, List.map_nil, leVal]
    rw [show 1 * c.val + 0 = c.val by omega]
    by_cases h : c.val % 6 = 0
    · rw [if_pos h, if_pos (Or.inr h)]; rfl
    · rw [if_neg h, if_neg (by omega)]; rfl
  · show ((streamWord _ 6 c.val : Nat) : Int).bmod _ = _
    unfold streamWord
    rw [show List.range 6 = [0, 1, 2, 3, 4, 5] from rfl]
    simp only [List.map_cons, List.map_nil, leVal]
    rw [if_pos (by omega), if_neg (by omega), if_neg (by omega), if_neg (by omega), if_neg (by omega), if_neg (by omega), if_pos (Or.inl trivial)]
    have h1 : BitVec.toNat (1 : U8) = 1 := rfl
    norm_num [Int.bmod_def, h1]

theorem DemoLike.toy_noise {E : Ext} (hE : DemoLike E) (u : Nat) (hu : u = 6 ∨ u = 41) (n : Nat) (s : Nat → U8) (pos : Nat) (i : Fin n) (c : Fin 512) :
    noiseVec E u 128 2 4 n s pos i c = if u = 41 ∨ c.val % 6 = 0 then 8 else 0 := by
  unfold noiseVec totalNoise
  simp only [hE.toy_noiseAt u hu]
  split <;> simp

/-- The toy matrix is the all-one matrix: multiplying with an entry changes nothing. -/
theorem DemoLike.toy_matrix {E : Ext} (hE : DemoLike E) (seed : List U8) (hs : seed.length = 16) (A : PMat 5 4) (hA : PMat.expandA E 512 5 4 seed = .ok A) (a : Fin 5 → Fin 4 → RPoly) (ha : A.Is a)
    (x : RPoly) (r : Fin 5) (j : Fin 4) : negacyclic (a r j) x = x := by
  apply nttR_inj
  rw [nttR_negacyclic, ha r j]
  have h := ((C50_expandA E 512 5 4 seed).2 A hA).2 r j
  rw [sampleQ_eq] at h
  have hst : E.shake256 ([0x41, BitVec.ofNat 8 r.val, BitVec.ofNat 8 j.val, 0, 0, 0, 0, 0] ++ seed) = fun i => if i % 7 = 0 then 1 else 0 := by
    rw [hE.short _ (by simp [hs])]
    funext i
    unfold demoStream
    rw [if_neg (by simp [hs]), if_neg (by simp)]
  have hw : ∀ i, qWord (fun i => if i % 7 = 0 then 1 else 0) i = 1 := by
    intro i
    unfold qWord streamWord
    rw [show List.range 7 = [0, 1, 2, 3, 4, 5, 6] from rfl]
    simp only [List.map_cons, List.map_nil, leVal]
    rw [if_pos (by omega), if_neg (by omega), if_neg (by omega), if_neg (by omega), if_neg (by omega), if_neg (by omega), if_neg (by omega)]
    rfl
  rw [hst, accepted_all _ _ (fun j => by rw [hw j]; exact (by norm_num [q] : 1 < q)), List.length_map, List.length_range, if_pos (Nat.le_refl _)] at h
  have h1 : PMat.val A r j = 1 := by
    unfold PMat.val
    rw [← Res.ok.inj h]
    funext i
    unfold Poly.toZ listPoly Zq.toZ
    rw [Vector.getElem_ofFn, List.getD_eq_getElem?_getD, List.getElem?_map, List.getElem?_range i.isLt]
    show ((BitVec.ofNat 64 (qWord _ i.val)).toNat : ZMod q) = 1
    rw [hw i.val]
    norm_num
  rw [h1, one_mul]

theorem DemoLike.toy_matVec {E : Ext} (hE : DemoLike E) (seed : List U8) (hs : seed.length = 16) (A : PMat 5 4) (hA : PMat.expandA E 512 5 4 seed = .ok A) (a : Fin 5 → Fin 4 → RPoly) (ha : A.Is a)
    (x : Fin 4 → RPoly) (r : Fin 5) : ringMatVec a x r = ∑ j, x j := by
  unfold ringMatVec
  exact Finset.sum_congr rfl fun j _ => hE.toy_matrix seed hs A hA a ha (x j) r j

/-- An attempt of the toy signer with a zero public vector and a small response is acceptable. -/
theorem DemoLike.toy_attempt_core {E : Ext} (hE : DemoLike E) (seed : List U8) (hseed : seed.length = 16) (t : Fin 5 → RPoly) (ht : t = 0) (sv : Fin 4 → RPoly)
    (A : PMat 5 4) (hA : PMat.expandA E 512 5 4 seed = .ok A) (a : Fin 5 → Fin 4 → RPoly) (ha : A.Is a) (μ : List U8) (stream : Nat → U8) (n : Nat)
    (c : List U8) (h z : List Int) (cp : Poly)
    (i : IsSigOf E 128 44 42 a t sv cp.toZ μ (vecR (noiseVec E 41 128 2 4 4 stream (n * ((4 + 5) * (4 * 2 * (128 / 8))))))
      (vecR (noiseVec E 41 128 2 4 5 stream (n * ((4 + 5) * (4 * 2 * (128 / 8))) + 4 * (4 * 2 * (128 / 8))))) c h z) (hzs : ∀ (j : Fin 4) x, |unflatten 4 z j x| ≤ 160) :
    Acceptable raccoon128 11524 c h z ∧ (∀ x ∈ z, x.natAbs < 4294967296) ∧ (∀ x ∈ h, x = 0) ∧ c.length = 32 ∧ h.length = 2560 := by
  have hz : ∀ x ∈ z, x.natAbs < 4294967296 := by
    intro x hx
    obtain ⟨r, y, rfl⟩ := mem_iff_unflatten (n := 4) i.zlen hx
    have := hzs r y
    rw [abs_le] at this
    omega
  have hh : ∀ x ∈ h, x = 0 := by
    intro x hx
    obtain ⟨r, y, rfl⟩ := mem_iff_unflatten (n := 5) i.hlen hx
    have hW : commitW 44 a (vecR (noiseVec E 41 128 2 4 4 stream (n * ((4 + 5) * (4 * 2 * (128 / 8)))))) (vecR (noiseVec E 41 128 2 4 5 stream (n * ((4 + 5) * (4 * 2 * (128 / 8))) + 4 * (4 * 2 * (128 / 8))))) r y = 0 := by
      unfold commitW
      rw [hE.toy_matVec seed hseed A hA a ha]
      show roundZ 44 ((∑ j, vecR _ j + toR _) y) = 0
      rw [toR_sum_small]
      refine roundZ_small 44 (Or.inr rfl) _ ?_
      simp only [hE.toy_noise 41 (Or.inr rfl)]
      norm_num
    have hY : commitY 44 42 a t cp.toZ (vecR (unflatten 4 z)) r y = 0 := by
      unfold commitY
      have hn : negacyclic (t r) cp.toZ = 0 := by
        rw [ht]
        apply nttR_inj
        rw [nttR_negacyclic, Pi.zero_apply, nttR_zero, zero_mul]
      rw [hE.toy_matVec seed hseed A hA a ha, hn, smul_zero, sub_zero]
      have h0 : (∑ j, vecR (unflatten 4 z) j) y = ((∑ j, unflatten 4 z j y : Int) : ZMod q) := by
        rw [Finset.sum_apply, Int.cast_sum]; rfl
      rw [h0]
      refine roundZ_small 44 (Or.inr rfl) _ ?_
      have h1 := Finset.abs_sum_le_sum_abs (fun j : Fin 4 => unflatten 4 z j y) Finset.univ
      have h2 := Finset.sum_le_card_nsmul Finset.univ (fun j : Fin 4 => |unflatten 4 z j y|) 160 (fun j _ => hzs j y)
      have h4 : (Finset.univ : Finset (Fin 4)).card • (160 : Int) = 640 := rfl
      rw [h4] at h2
      exact lt_of_le_of_lt (le_trans h1 h2) (by norm_num)
    have hi : (unflatten 5 h r y - ((commitW 44 a (vecR (noiseVec E 41 128 2 4 4 stream (n * ((4 + 5) * (4 * 2 * (128 / 8)))))) (vecR (noiseVec E 41 128 2 4 5 stream (n * ((4 + 5) * (4 * 2 * (128 / 8))) + 4 * (4 * 2 * (128 / 8))))) r y : Int) -
        commitY 44 42 a t cp.toZ (vecR (unflatten 4 z)) r y)) % (31 : Nat) = 0 := i.hint r y
    rw [hW, hY] at hi
    have hc : 2 * (unflatten 5 h r y).natAbs < 31 := i.hcent _ (mem_unflatten (n := 5) r y i.hlen)
    omega
  have hcl : c.length = 32 := by
    rw [i.hash]
    unfold challengeHash xofOut
    rw [List.length_map, List.length_range]
  exact ⟨acceptable_small c h z hcl i.hlen i.zlen hh hz, hz, hh, hcl, i.hlen⟩

/-- Every attempt of the toy signer is acceptable, and its response is not zero. -/
theorem DemoLike.toy_attempt {E : Ext} (hE : DemoLike E) (entropy0 seed : List U8) (hseed : seed.length = 16) (sk0 : SKey 5 4 2)
    (h0 : Api.generate raccoon128 (utTableOf raccoon128) E 512 2 entropy0 seed = .ok sk0)
    (A : PMat 5 4) (hA : PMat.expandA E 512 5 4 seed = .ok A) (a : Fin 5 → Fin 4 → RPoly) (ha : A.Is a) (μ : List U8) (stream : Nat → U8) (n : Nat)
    (c : List U8) (h z : List Int)
    (g : AttemptSig raccoon128 E 512 2 41 4 a (PVec.val sk0.pkey.t) (vecR (noiseVec E 6 128 2 4 4 (E.shake128 entropy0) 0)) μ stream n c h z) :
    Acceptable raccoon128 11524 c h z ∧ (∀ x ∈ z, x.natAbs < 4294967296) ∧ (∀ x ∈ h, x = 0) ∧ c.length = 32 ∧ h.length = 2560 := by
  obtain ⟨⟨cp, k1, -, k2⟩, -, -⟩ := C53_attempts raccoon128 (Or.inl rfl) E 512 512 2 demo_d entropy0 seed sk0 h0 6 4 41 rfl rfl rfl A hA a ha μ stream n c h z g
  have hwt := chal_weight k1
  obtain ⟨ut, rep, A', a', e1, e2, hA', ha', -, -, -, g4⟩ := (C37_key_generation raccoon128 (Or.inl rfl) E 512 2 demo_d entropy0 seed).2 sk0 h0
  obtain rfl : 6 = ut := Res.ok.inj e1
  obtain rfl : 4 = rep := Res.ok.inj e2
  obtain rfl := Res.ok.inj (hA.symm.trans hA')
  obtain rfl := PMat.Is.unique ha ha'
  obtain ⟨cp', k1', i⟩ := g
  obtain rfl := Res.ok.inj (k1.symm.trans k1')
  have hn6 : ∀ m pos (j : Fin m) x, |noiseVec E 6 128 2 4 m (E.shake128 entropy0) pos j x| ≤ 8 := by
    intro m pos j x
    rw [hE.toy_noise 6 (Or.inl rfl)]
    split <;> norm_num
  have hzs : ∀ (j : Fin 4) x, |unflatten 4 z j x| ≤ 160 := by
    intro j x
    replace k2 : unflatten 4 z = _ := k2
    rw [k2]
    refine le_trans (abs_add_le _ _) ?_
    have h1 := negacyclicZ_bound (f := noiseVec E 6 128 2 4 4 (E.shake128 entropy0) 0 j) (g := Poly.centered cp) (hn6 4 0 j) x
    rw [hwt] at h1
    have h2 : noiseVec E 41 128 2 4 4 stream (n * ((4 + 5) * (4 * 2 * (128 / 8)))) j x = 8 := by
      rw [hE.toy_noise 41 (Or.inr rfl), if_pos (Or.inl rfl)]
    have h3 : |negacyclicZ (noiseVec E 6 128 2 4 4 (E.shake128 entropy0) 0 j) (Poly.centered cp) x| ≤ 152 := h1
    refine le_trans (add_le_add h3 (le_of_eq (congrArg abs h2))) ?_
    norm_num
  have ht : PVec.val sk0.pkey.t = 0 := by
    funext x y
    have := (g4 x.val x.isLt y.val y.isLt).2
    have hsm : roundZ 42 ((ringMatVec a (vecR (noiseVec E 6 128 2 4 4 (E.shake128 entropy0) 0)) x +
        vecR (noiseVec E 6 128 2 4 5 (E.shake128 entropy0) (4 * (4 * 2 * (128 / 8)))) x) y) = 0 := by
      rw [hE.toy_matVec seed hseed A hA a ha]
      show roundZ 42 ((∑ j, vecR _ j + toR _) y) = 0
      rw [toR_sum_small]
      refine roundZ_small 42 (Or.inl rfl) _ ?_
      refine lt_of_le_of_lt (abs_add_le _ _) ?_
      have h1 := Finset.abs_sum_le_sum_abs (fun j : Fin 4 => noiseVec E 6 128 2 4 4 (E.shake128 entropy0) 0 j y) Finset.univ
      have h2 := Finset.sum_le_card_nsmul Finset.univ (fun j : Fin 4 => |noiseVec E 6 128 2 4 4 (E.shake128 entropy0) 0 j y|) 8 (fun j _ => hn6 4 0 j y)
      have h3 := hn6 5 (4 * (4 * 2 * (128 / 8))) x y
      have h4 : (Finset.univ : Finset (Fin 4)).card • (8 : Int) = 32 := rfl
      rw [h4] at h2
      exact lt_of_le_of_lt (add_le_add (le_trans h1 h2) h3) (by norm_num)
    have e : coeffAt sk0.pkey.t (512 * x.val + y.val) = 0 := this.trans hsm
    rw [coeffAt_rc x.isLt y.isLt] at e
    unfold PVec.val
    rw [MPoly.val_one]
    show (((sk0.pkey.t)[x.val][0][y.val]).raw.toNat : ZMod q) = 0
    rw [e]; rfl
  exact hE.toy_attempt_core seed hseed _ ht _ A hA a ha μ stream n c h z cp i hzs
/-- A key is generated, and every message is signed with the first attempt, whose hint is zero. -/
theorem DemoLike.toy_run {E : Ext} (hE : DemoLike E) (entropy0 seed : List U8) (hseed : seed.length = 16) :
    ∃ (sk0 : SKey 5 4 2) (pkb : List U8), Api.generate raccoon128 (utTableOf raccoon128) E 512 2 entropy0 seed = .ok sk0 ∧
      Api.pkAsBytes raccoon128 (Api.getPkey raccoon128 sk0) (List.replicate (PKey.byteLen 128 5 42) 0) = .ok pkb ∧
      ∀ entropy msg : List U8, ∃ b c h z, Api.sign raccoon128 E 512 2 sk0 entropy msg (List.replicate 11524 0) = .ok b ∧
        IsAttempt raccoon128 E 2 pkb (keySecret raccoon128 E 2 entropy0) msg entropy 0 c h z ∧ IsSigEncoding c h z 11524 b ∧ Acceptable raccoon128 11524 c h z ∧
        (∀ x ∈ z, x.natAbs < 4294967296) ∧ ∀ x ∈ h, x = 0 := by
  have hP : raccoon128 = raccoon128 ∨ raccoon128 = raccoon192 ∨ raccoon128 = raccoon256 := Or.inl rfl
  obtain ⟨sk0, h0⟩ := C52_generate raccoon128 hP E 512 2 demo_d hE.toy_finish entropy0 seed hseed
  have w0 := C37_wellformed raccoon128 hP E 512 2 demo_d entropy0 seed hseed sk0 h0
  obtain ⟨i1, i2, ut, rep, e1, e2, hs⟩ := derived_secret hP demo_d hseed h0 .refl
  obtain rfl : 6 = ut := Res.ok.inj e1
  obtain rfl : 4 = rep := Res.ok.inj e2
  obtain ⟨ut', rep', _, _, e1', e2', _, _, hse, _, hs0, _⟩ := (C37_key_generation raccoon128 hP E 512 2 demo_d entropy0 seed).2 sk0 h0
  obtain ⟨pkb, hpk⟩ := pkBytes_ok raccoon128 hP sk0.pkey w0.pkey.seed
  have hip : IsPkOf raccoon128 seed (PVec.raws sk0.pkey.t) pkb := by
    have := isPkOf_of raccoon128 hP w0.pkey List.length_replicate hpk
    rw [hse] at this
    exact this
  refine ⟨sk0, pkb, h0, hpk, fun entropy msg => ?_⟩
  obtain ⟨uw, rep', pkb', A, a, e3, e2', f1, f2, f3, hcase⟩ := C52_first_acceptable raccoon128 hP E 512 2 demo_d hE.toy_finish sk0 i1 _ hs entropy msg (List.replicate 11524 0)
  obtain rfl : 41 = uw := Res.ok.inj e3
  obtain rfl : 4 = rep' := Res.ok.inj e2'
  obtain rfl := Res.ok.inj (hpk.symm.trans f1)
  rw [hse] at f2
  rw [List.length_replicate] at hcase
  have att := fun n c hint z g => hE.toy_attempt entropy0 seed hseed sk0 h0 A f2 a f3 (messageHash E 128 pkb msg) (E.shake128 entropy) n c hint z g
  rcases hcase with ⟨n, b, -, e, hr, c, hint, z, g, -, g3, -⟩ | ⟨n, hn, -, -, c, hint, z, g, -, hz⟩ | ⟨-, hr⟩
  · have hn : n = 0 := by
      by_contra hn
      obtain ⟨c, hint, z, g, hna⟩ := hr 0 (by omega)
      exact hna.1 (att 0 c hint z g).1
    subst hn
    obtain ⟨q1, q2, q3, -⟩ := att 0 c hint z g
    exact ⟨b, c, hint, z, e, isAttempt_of raccoon128 hP E 512 512 2 demo_d entropy0 seed sk0 h0 pkb hip A f2 a f3 msg entropy 0 c hint z g, g3, q1, q2, q3⟩
  · exfalso
    have := (att n c hint z g).2.1
    rcases hz with hz | ⟨x, hx, hb⟩ | ⟨x, hx, hb⟩
    · exact absurd hz (by decide)
    · have := this x hx; norm_num at hb; omega
    · have := this x (List.mem_of_getLast? hx); norm_num at hb; omega
  · exfalso
    obtain ⟨c, hint, z, g, hna⟩ := hr 0 (by omega)
    exact hna.1 (att 0 c hint z g).1

/-- The toy instance of `Props/Demo`. -/
theorem demo_like : DemoLike demoE := by
  refine ⟨fun m _ => rfl, fun m hm => ?_, rfl⟩
  have hs : demoE.shake256 m = fun i => if i % 2 = 0 then BitVec.ofNat 8 i else 0 := by
    funext i
    show demoStream m i = _
    unfold demoStream
    rw [if_pos hm]
  rw [hs]
  decide +kernel

end Raccoon
