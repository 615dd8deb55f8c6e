import Verif.Props.Sizes
/-!
# A concrete run of the scheme: the hypotheses of C33 – C38, C52 and C53 are met

A toy instance of the external functions (streams with small words) for which key generation, refresh, reload, signing and verification all
return, with a non-zero secret and non-zero noise.
-/
namespace Raccoon
attribute [-instance] Monoid.toNPow
open Finset

/-- Toy streams: challenge inputs (40 bytes) count upwards; noise inputs give 1 in every sixth byte; everything else 1 in every seventh. -/
def demoStream (m : List U8) (i : Nat) : U8 :=
  if m.length = 40 then (if i % 2 = 0 then BitVec.ofNat 8 i else 0)
  else if m.head? = some 0x75 then (if i % 6 = 0 then 1 else 0) else (if i % 7 = 0 then 1 else 0)

def demoE : Ext := ⟨fun m i => BitVec.ofNat 8 (m.length + i), demoStream, fun _ => Vector.replicate 5 7, fun s => s, 0⟩

theorem accepted_all (s : Nat → U8) (m : Nat) (h : ∀ j, qWord s j < q) : accepted s m = (List.range m).map (qWord s) := by
  unfold accepted
  rw [List.filter_eq_self]
  intro x hx
  obtain ⟨j, -, rfl⟩ := List.mem_map.1 hx
  exact decide_eq_true (h j)

theorem qWord_small (s : Nat → U8) (h : ∀ i, (s i).toNat ≤ 1) (j : Nat) : qWord s j < q := by
  unfold qWord streamWord
  refine Nat.lt_of_le_of_lt (Nat.mod_le _ _) ?_
  have hq : q = 549824583172097 := rfl
  rw [show List.range 7 = [0, 1, 2, 3, 4, 5, 6] from rfl]
  simp only [List.map_cons, List.map_nil, leVal]
  have h0 := h (7 * j + 0); have h1 := h (7 * j + 1); have h2 := h (7 * j + 2); have h3 := h (7 * j + 3); have h4 := h (7 * j + 4)
  have h5 := h (7 * j + 5); have h6 := h (7 * j + 6)
  omega

theorem demo_iter (n : Nat) : ∃ x : U64, (demoE.asconP6^[n] (Vector.replicate 5 0)) = Vector.replicate 5 x ∧ (x = 0 ∨ x = 7) := by
  cases n with
  | zero => exact ⟨0, rfl, Or.inl rfl⟩
  | succ n => rw [Function.iterate_succ_apply']; exact ⟨7, rfl, Or.inr rfl⟩

theorem demo_finish : SamplersFinish raccoon128 demoE 512 := by
  refine ⟨fun m hm => ?_, fun m hm => ?_, fun n => ?_⟩
  · have hm' : m.length = 24 := hm
    rw [accepted_all, List.length_map, List.length_range]
    refine qWord_small _ fun i => ?_
    show (demoStream m i).toNat ≤ 1
    unfold demoStream
    rw [if_neg (by omega)]
    split <;> split <;> decide
  · have hm' : m.length = 40 := hm
    have hs : demoE.shake256 m = fun i => if i % 2 = 0 then BitVec.ofNat 8 i else 0 := by
      funext i
      show demoStream m i = _
      unfold demoStream
      rw [if_pos hm']
    rw [hs]
    have h19 : 19 ≤ chalCount (fun i => if i % 2 = 0 then BitVec.ofNat 8 i else 0) 19 := by decide +kernel
    refine Nat.le_trans h19 ?_
    unfold chalCount
    exact Finset.card_le_card (Finset.image_subset_image (Finset.range_subset_range.2 (by omega)))
  · unfold acceptedMasks
    rw [List.filter_eq_self.2, List.length_map, List.length_range]
    intro x hx
    obtain ⟨j, -, rfl⟩ := List.mem_map.1 hx
    apply decide_eq_true
    unfold maskWord
    rw [← Function.iterate_add_apply]
    obtain ⟨x, e, hx⟩ := demo_iter (j + n)
    rw [e]
    rcases hx with rfl | rfl <;> simp <;> decide

theorem demo_d : ValidShares 2 := ⟨1, by omega, rfl⟩

/-- The toy noise: 1 in every coefficient for 41-bit noise, 1 in every sixth for 6-bit noise. -/
theorem demo_noiseAt (u : Nat) (hu : u = 6 ∨ u = 41) (idx : Nat) (s : Nat → U8) (pos r sidx : Nat) (c : Fin 512) :
    noiseAt demoE u 128 2 idx s pos r sidx c = if u = 41 ∨ c.val % 6 = 0 then 1 else 0 := by
  unfold noiseAt
  dsimp only
  have hs : ∀ σ : List U8, σ.length = 16 → demoE.shake256 ([0x75, BitVec.ofNat 8 r, BitVec.ofNat 8 idx, BitVec.ofNat 8 sidx, 0, 0, 0, 0] ++ σ) =
      fun i => if i % 6 = 0 then 1 else 0 := by
    intro σ hσ
    funext i
    show demoStream _ i = _
    unfold demoStream
    rw [if_neg (by simp [hσ])]
    exact if_pos (by rfl)
  rw [hs _ (by rw [List.length_map, List.length_range])]
  rcases hu with rfl | rfl
  · show ((streamWord _ 1 c.val : Nat) : Int).bmod _ = _
    unfold streamWord
    rw [show List.range 1 = [0] from rfl]
    simp only [List.map_cons, List.map_nil, leVal]
    rw [show 1 * c.val + 0 = c.val by omega]
    by_cases h : c.val % 6 = 0
    · rw [if_pos h, if_pos (Or.inr h)]; rfl
    · rw [if_neg h, if_neg (by omega)]; rfl
  · show ((streamWord _ 6 c.val : Nat) : Int).bmod _ = _
    unfold streamWord
    rw [show List.range 6 = [0, 1, 2, 3, 4, 5] from rfl]
    simp only [List.map_cons, List.map_nil, leVal]
    rw [if_pos (by omega), if_neg (by omega), if_neg (by omega), if_neg (by omega), if_neg (by omega), if_neg (by omega), if_pos (Or.inl trivial)]
    have h1 : BitVec.toNat (1 : U8) = 1 := rfl
    norm_num [Int.bmod_def, h1]

theorem demo_noise (u : Nat) (hu : u = 6 ∨ u = 41) (n : Nat) (s : Nat → U8) (pos : Nat) (i : Fin n) (c : Fin 512) :
    noiseVec demoE u 128 2 4 n s pos i c = if u = 41 ∨ c.val % 6 = 0 then 8 else 0 := by
  unfold noiseVec totalNoise
  simp only [demo_noiseAt u hu]
  split <;> simp

/-- The toy matrix is the all-one matrix: multiplying with an entry changes nothing. -/
theorem demo_matrix (seed : List U8) (hs : seed.length = 16) (A : PMat 5 4) (hA : PMat.expandA demoE 512 5 4 seed = .ok A) (a : Fin 5 → Fin 4 → RPoly) (ha : A.Is a)
    (x : RPoly) (r : Fin 5) (j : Fin 4) : negacyclic (a r j) x = x := by
  apply nttR_inj
  rw [nttR_negacyclic, ha r j]
  have h := ((C50_expandA demoE 512 5 4 seed).2 A hA).2 r j
  rw [sampleQ_eq] at h
  have hst : demoE.shake256 ([0x41, BitVec.ofNat 8 r.val, BitVec.ofNat 8 j.val, 0, 0, 0, 0, 0] ++ seed) = fun i => if i % 7 = 0 then 1 else 0 := by
    funext i
    show demoStream _ i = _
    unfold demoStream
    rw [if_neg (by simp [hs]), if_neg (by simp)]
  have hw : ∀ i, qWord (fun i => if i % 7 = 0 then 1 else 0) i = 1 := by
    intro i
    unfold qWord streamWord
    rw [show List.range 7 = [0, 1, 2, 3, 4, 5, 6] from rfl]
    simp only [List.map_cons, List.map_nil, leVal]
    rw [if_pos (by omega), if_neg (by omega), if_neg (by omega), if_neg (by omega), if_neg (by omega), if_neg (by omega), if_neg (by omega)]
    rfl
  rw [hst, accepted_all _ _ (fun j => by rw [hw j]; exact (by norm_num [q] : 1 < q)), List.length_map, List.length_range, if_pos (Nat.le_refl _)] at h
  have h1 : PMat.val A r j = 1 := by
    unfold PMat.val
    rw [← Res.ok.inj h]
    funext i
    unfold Poly.toZ listPoly Zq.toZ
    rw [Vector.getElem_ofFn, List.getD_eq_getElem?_getD, List.getElem?_map, List.getElem?_range i.isLt]
    show ((BitVec.ofNat 64 (qWord _ i.val)).toNat : ZMod q) = 1
    rw [hw i.val]
    norm_num
  rw [h1, one_mul]

theorem demo_matVec (seed : List U8) (hs : seed.length = 16) (A : PMat 5 4) (hA : PMat.expandA demoE 512 5 4 seed = .ok A) (a : Fin 5 → Fin 4 → RPoly) (ha : A.Is a)
    (x : Fin 4 → RPoly) (r : Fin 5) : ringMatVec a x r = ∑ j, x j := by
  unfold ringMatVec
  exact Finset.sum_congr rfl fun j _ => demo_matrix seed hs A hA a ha (x j) r j

theorem roundZ_small (ν : Nat) (hν : ν = 42 ∨ ν = 44) (D : Int) (hD : |D| < 2 ^ 32) : roundZ ν (D : ZMod q) = 0 := by
  have hq : q = 549824583172097 := rfl
  have p32 : (2 : Int) ^ 32 = 4294967296 := by norm_num
  rw [p32, abs_lt] at hD
  have hv : ((D : ZMod q).val : Int) = D % q := ZMod.val_intCast D
  have hc : ∃ v : Nat, (D : ZMod q).val = v ∧ (v < 4294967296 ∨ (q - 4294967296 < v ∧ v < q)) := by
    refine ⟨_, rfl, ?_⟩
    rcases le_or_gt 0 D with h | h
    · left
      rw [Int.emod_eq_of_lt h (by omega)] at hv
      omega
    · right
      have : D % (q : Int) = D + q := by
        rw [← Int.add_emod_right, Int.emod_eq_of_lt (by omega) (by omega)]
      rw [this] at hv
      omega
  obtain ⟨v, e, h⟩ := hc
  unfold roundZ
  rw [e]
  rw [hq] at h ⊢
  clear hv hD e
  rcases hν with rfl | rfl <;> norm_num <;> omega

theorem flatMap_len {α β : Type} (f : α → List β) (B : Nat) (l : List α) (h : ∀ x ∈ l, (f x).length ≤ B) : (l.flatMap f).length ≤ B * l.length := by
  induction l with
  | nil => simp
  | cons x xs ih =>
    rw [List.flatMap_cons, List.length_append, List.length_cons, Nat.mul_succ]
    have := h x List.mem_cons_self
    have := ih (fun y hy => h y (List.mem_cons_of_mem _ hy))
    omega

/-- A zero hint and a small response of raccoon128 are always acceptable. -/
theorem acceptable_small (c : List U8) (h z : List Int) (hc : c.length = 32) (hl : h.length = 5 * 512) (zl : z.length = 4 * 512) (hh : ∀ x ∈ h, x = 0)
    (hz : ∀ x ∈ z, x.natAbs < 4294967296) : Acceptable raccoon128 11524 c h z := by
  constructor
  · unfold sigBits
    rw [List.length_append]
    have h1 := flatMap_len hintBits 1 h (fun x hx => by rw [hh x hx]; decide)
    have h2 := flatMap_len respBits 42 z (fun x hx => by
      unfold respBits
      have : x.natAbs / 2 ^ 40 = 0 := Nat.div_eq_of_lt (by have := hz x hx; norm_num; omega)
      rw [this]
      simp only [List.length_append, natBits_length, List.length_replicate, List.length_cons, List.length_nil]
      split <;> simp)
    omega
  · refine ⟨fun x hx => by rw [hh x hx]; exact Nat.zero_le _, fun x hx => ?_, ?_⟩
    · have := hz x hx
      show x.natAbs ≤ 41954689765971
      omega
    · have e1 : sqSum h = 0 := by
        unfold sqSum
        rw [List.sum_eq_zero]
        intro y hy
        obtain ⟨x, hx, rfl⟩ := List.mem_map.1 hy
        rw [hh x hx]; rfl
      have e2 : scaledSqSum z = 0 := by
        unfold scaledSqSum
        rw [List.sum_eq_zero]
        intro y hy
        obtain ⟨x, hx, rfl⟩ := List.mem_map.1 hy
        have := hz x hx
        rw [Nat.div_eq_of_lt (by norm_num; omega), Nat.zero_mul]
      rw [e1, e2]
      exact Nat.zero_le _

theorem toR_sum_small (n : Nat) (f : Fin n → Fin 512 → Int) (e : Fin 512 → Int) (y : Fin 512) : ((∑ j, vecR f j) + toR e) y = ((∑ j, f j y + e y : Int) : ZMod q) := by
  rw [Pi.add_apply, Finset.sum_apply, Int.cast_add, Int.cast_sum]
  rfl

/-- An attempt of the toy signer with a zero public vector and a small response is acceptable. -/
theorem demo_attempt_core (seed : List U8) (hseed : seed.length = 16) (t : Fin 5 → RPoly) (ht : t = 0) (sv : Fin 4 → RPoly)
    (A : PMat 5 4) (hA : PMat.expandA demoE 512 5 4 seed = .ok A) (a : Fin 5 → Fin 4 → RPoly) (ha : A.Is a) (μ : List U8) (stream : Nat → U8) (n : Nat)
    (c : List U8) (h z : List Int) (cp : Poly)
    (i : IsSigOf demoE 128 44 42 a t sv cp.toZ μ (vecR (noiseVec demoE 41 128 2 4 4 stream (n * ((4 + 5) * (4 * 2 * (128 / 8))))))
      (vecR (noiseVec demoE 41 128 2 4 5 stream (n * ((4 + 5) * (4 * 2 * (128 / 8))) + 4 * (4 * 2 * (128 / 8))))) c h z) (hzs : ∀ (j : Fin 4) x, |unflatten 4 z j x| ≤ 160) :
    Acceptable raccoon128 11524 c h z ∧ (∀ x ∈ z, x.natAbs < 4294967296) ∧ (∀ x ∈ h, x = 0) ∧ c.length = 32 ∧ h.length = 2560 := by
  have hz : ∀ x ∈ z, x.natAbs < 4294967296 := by
    intro x hx
    obtain ⟨r, y, rfl⟩ := mem_iff_unflatten (n := 4) i.zlen hx
    have := hzs r y
    rw [abs_le] at this
    omega
  have hh : ∀ x ∈ h, x = 0 := by
    intro x hx
    obtain ⟨r, y, rfl⟩ := mem_iff_unflatten (n := 5) i.hlen hx
    have hW : commitW 44 a (vecR (noiseVec demoE 41 128 2 4 4 stream (n * ((4 + 5) * (4 * 2 * (128 / 8)))))) (vecR (noiseVec demoE 41 128 2 4 5 stream (n * ((4 + 5) * (4 * 2 * (128 / 8))) + 4 * (4 * 2 * (128 / 8))))) r y = 0 := by
      unfold commitW
      rw [demo_matVec seed hseed A hA a ha]
      show roundZ 44 ((∑ j, vecR _ j + toR _) y) = 0
      rw [toR_sum_small]
      refine roundZ_small 44 (Or.inr rfl) _ ?_
      simp only [demo_noise 41 (Or.inr rfl)]
      norm_num
    have hY : commitY 44 42 a t cp.toZ (vecR (unflatten 4 z)) r y = 0 := by
      unfold commitY
      have hn : negacyclic (t r) cp.toZ = 0 := by
        rw [ht]
        apply nttR_inj
        rw [nttR_negacyclic, Pi.zero_apply, nttR_zero, zero_mul]
      rw [demo_matVec seed hseed A hA a ha, hn, smul_zero, sub_zero]
      have h0 : (∑ j, vecR (unflatten 4 z) j) y = ((∑ j, unflatten 4 z j y : Int) : ZMod q) := by
        rw [Finset.sum_apply, Int.cast_sum]; rfl
      rw [h0]
      refine roundZ_small 44 (Or.inr rfl) _ ?_
      have h1 := Finset.abs_sum_le_sum_abs (fun j : Fin 4 => unflatten 4 z j y) Finset.univ
      have h2 := Finset.sum_le_card_nsmul Finset.univ (fun j : Fin 4 => |unflatten 4 z j y|) 160 (fun j _ => hzs j y)
      have h4 : (Finset.univ : Finset (Fin 4)).card • (160 : Int) = 640 := rfl
      rw [h4] at h2
      exact lt_of_le_of_lt (le_trans h1 h2) (by norm_num)
    have hi : (unflatten 5 h r y - ((commitW 44 a (vecR (noiseVec demoE 41 128 2 4 4 stream (n * ((4 + 5) * (4 * 2 * (128 / 8)))))) (vecR (noiseVec demoE 41 128 2 4 5 stream (n * ((4 + 5) * (4 * 2 * (128 / 8))) + 4 * (4 * 2 * (128 / 8))))) r y : Int) -
        commitY 44 42 a t cp.toZ (vecR (unflatten 4 z)) r y)) % (31 : Nat) = 0 := i.hint r y
    rw [hW, hY] at hi
    have hc : 2 * (unflatten 5 h r y).natAbs < 31 := i.hcent _ (mem_unflatten (n := 5) r y i.hlen)
    omega
  have hcl : c.length = 32 := by
    rw [i.hash]
    unfold challengeHash xofOut
    rw [List.length_map, List.length_range]
  exact ⟨acceptable_small c h z hcl i.hlen i.zlen hh hz, hz, hh, hcl, i.hlen⟩

/-- Every attempt of the toy signer is acceptable, and its response is not zero. -/
theorem demo_attempt (entropy0 seed : List U8) (hseed : seed.length = 16) (sk0 : SKey 5 4 2)
    (h0 : Api.generate raccoon128 (utTableOf raccoon128) demoE 512 2 entropy0 seed = .ok sk0)
    (A : PMat 5 4) (hA : PMat.expandA demoE 512 5 4 seed = .ok A) (a : Fin 5 → Fin 4 → RPoly) (ha : A.Is a) (μ : List U8) (stream : Nat → U8) (n : Nat)
    (c : List U8) (h z : List Int)
    (g : AttemptSig raccoon128 demoE 512 2 41 4 a (PVec.val sk0.pkey.t) (vecR (noiseVec demoE 6 128 2 4 4 (demoE.shake128 entropy0) 0)) μ stream n c h z) :
    Acceptable raccoon128 11524 c h z ∧ (∀ x ∈ z, x.natAbs < 4294967296) ∧ (∀ x ∈ h, x = 0) ∧ c.length = 32 ∧ h.length = 2560 := by
  obtain ⟨⟨cp, k1, -, k2⟩, -, -⟩ := C53_attempts raccoon128 (Or.inl rfl) demoE 512 512 2 demo_d entropy0 seed sk0 h0 6 4 41 rfl rfl rfl A hA a ha μ stream n c h z g
  have hwt := chal_weight k1
  obtain ⟨ut, rep, A', a', e1, e2, hA', ha', -, -, -, g4⟩ := (C37_key_generation raccoon128 (Or.inl rfl) demoE 512 2 demo_d entropy0 seed).2 sk0 h0
  obtain rfl : 6 = ut := Res.ok.inj e1
  obtain rfl : 4 = rep := Res.ok.inj e2
  obtain rfl := Res.ok.inj (hA.symm.trans hA')
  obtain rfl := PMat.Is.unique ha ha'
  obtain ⟨cp', k1', i⟩ := g
  obtain rfl := Res.ok.inj (k1.symm.trans k1')
  have hn6 : ∀ m pos (j : Fin m) x, |noiseVec demoE 6 128 2 4 m (demoE.shake128 entropy0) pos j x| ≤ 8 := by
    intro m pos j x
    rw [demo_noise 6 (Or.inl rfl)]
    split <;> norm_num
  have hzs : ∀ (j : Fin 4) x, |unflatten 4 z j x| ≤ 160 := by
    intro j x
    replace k2 : unflatten 4 z = _ := k2
    rw [k2]
    refine le_trans (abs_add_le _ _) ?_
    have h1 := negacyclicZ_bound (f := noiseVec demoE 6 128 2 4 4 (demoE.shake128 entropy0) 0 j) (g := Poly.centered cp) (hn6 4 0 j) x
    rw [hwt] at h1
    have h2 : noiseVec demoE 41 128 2 4 4 stream (n * ((4 + 5) * (4 * 2 * (128 / 8)))) j x = 8 := by
      rw [demo_noise 41 (Or.inr rfl), if_pos (Or.inl rfl)]
    have h3 : |negacyclicZ (noiseVec demoE 6 128 2 4 4 (demoE.shake128 entropy0) 0 j) (Poly.centered cp) x| ≤ 152 := h1
    refine le_trans (add_le_add h3 (le_of_eq (congrArg abs h2))) ?_
    norm_num
  have ht : PVec.val sk0.pkey.t = 0 := by
    funext x y
    have := (g4 x.val x.isLt y.val y.isLt).2
    have hsm : roundZ 42 ((ringMatVec a (vecR (noiseVec demoE 6 128 2 4 4 (demoE.shake128 entropy0) 0)) x +
        vecR (noiseVec demoE 6 128 2 4 5 (demoE.shake128 entropy0) (4 * (4 * 2 * (128 / 8)))) x) y) = 0 := by
      rw [demo_matVec seed hseed A hA a ha]
      show roundZ 42 ((∑ j, vecR _ j + toR _) y) = 0
      rw [toR_sum_small]
      refine roundZ_small 42 (Or.inl rfl) _ ?_
      refine lt_of_le_of_lt (abs_add_le _ _) ?_
      have h1 := Finset.abs_sum_le_sum_abs (fun j : Fin 4 => noiseVec demoE 6 128 2 4 4 (demoE.shake128 entropy0) 0 j y) Finset.univ
      have h2 := Finset.sum_le_card_nsmul Finset.univ (fun j : Fin 4 => |noiseVec demoE 6 128 2 4 4 (demoE.shake128 entropy0) 0 j y|) 8 (fun j _ => hn6 4 0 j y)
      have h3 := hn6 5 (4 * (4 * 2 * (128 / 8))) x y
      have h4 : (Finset.univ : Finset (Fin 4)).card • (8 : Int) = 32 := rfl
      rw [h4] at h2
      exact lt_of_le_of_lt (add_le_add (le_trans h1 h2) h3) (by norm_num)
    have e : coeffAt sk0.pkey.t (512 * x.val + y.val) = 0 := this.trans hsm
    rw [coeffAt_rc x.isLt y.isLt] at e
    unfold PVec.val
    rw [MPoly.val_one]
    show (((sk0.pkey.t)[x.val][0][y.val]).raw.toNat : ZMod q) = 0
    rw [e]; rfl
  exact demo_attempt_core seed hseed _ ht _ A hA a ha μ stream n c h z cp i hzs

/-- With the toy external functions, two shares and any buffer of the right length, signing with a key derived from a generated one returns. -/
theorem demo_sign (entropy0 seed : List U8) (hseed : seed.length = 16) (sk0 sk2 : SKey 5 4 2)
    (h0 : Api.generate raccoon128 (utTableOf raccoon128) demoE 512 2 entropy0 seed = .ok sk0) (hder : SKey.Derived raccoon128 demoE sk0 sk2)
    (entropy2 msg buf : List U8) (hbuf : buf.length = 11524) : ∃ b, Api.sign raccoon128 demoE 512 2 sk2 entropy2 msg buf = .ok b := by
  have hP : raccoon128 = raccoon128 ∨ raccoon128 = raccoon192 ∨ raccoon128 = raccoon256 := Or.inl rfl
  obtain ⟨i1, i2, ut, rep, e1, e2, hs⟩ := derived_secret hP demo_d hseed h0 hder
  obtain rfl : 6 = ut := Res.ok.inj e1
  obtain rfl : 4 = rep := Res.ok.inj e2
  obtain ⟨ut', rep', _, _, e1', e2', _, _, hse, _, hs0, _⟩ := (C37_key_generation raccoon128 hP demoE 512 2 demo_d entropy0 seed).2 sk0 h0
  obtain rfl : 6 = ut' := Res.ok.inj e1'
  obtain rfl : 4 = rep' := Res.ok.inj e2'
  obtain ⟨uw, rep', pkb, A, a, e3, e2', f1, f2, f3, hcase⟩ := C52_first_acceptable raccoon128 hP demoE 512 2 demo_d demo_finish sk2 i1 _ hs entropy2 msg buf
  obtain rfl : 41 = uw := Res.ok.inj e3
  obtain rfl : 4 = rep' := Res.ok.inj e2'
  rw [i2, hse] at f2
  rw [i2, hbuf] at hcase
  rcases hcase with ⟨n, b, -, e, -⟩ | ⟨n, hn, -, -, c, hint, z, g, -, hz⟩ | ⟨-, hr⟩
  · exact ⟨b, e⟩
  · exfalso
    have := (demo_attempt entropy0 seed hseed sk0 h0 A f2 a f3 _ _ n c hint z g).2.1
    rcases hz with hz | ⟨x, hx, hb⟩ | ⟨x, hx, hb⟩
    · exact absurd hz (by decide)
    · have := this x hx; norm_num at hb; omega
    · have := this x (List.mem_of_getLast? hx); norm_num at hb; omega
  · exfalso
    obtain ⟨c, hint, z, g, hna⟩ := hr 0 (by omega)
    exact hna.1 (demo_attempt entropy0 seed hseed sk0 h0 A f2 a f3 _ _ 0 c hint z g).1

/-- Non-vacuity of C33, C35 – C38, C52, C53: with the toy external functions and two shares, a key with a non-zero secret is generated, refreshed,
written to bytes and read back; signing a message with it returns, and the signature is accepted. -/
theorem demo_run (entropy0 seed entropy1 entropy2 msg : List U8) (hseed : seed.length = 16) :
    ∃ (sk0 sk1 sk2 : SKey 5 4 2) (skb b : List U8), Api.generate raccoon128 (utTableOf raccoon128) demoE 512 2 entropy0 seed = .ok sk0 ∧ PVec.val sk0.s ≠ 0 ∧
      Api.refresh raccoon128 demoE 512 sk0 = .ok sk1 ∧
      Api.skAsBytes raccoon128 demoE 512 sk1 entropy1 (List.replicate (SKey.byteLen 128 5 4 2 42) 0) = .ok skb ∧ Api.skFromBytes raccoon128 demoE 512 2 skb = .ok sk2 ∧
      SKey.Derived raccoon128 demoE sk0 sk2 ∧
      Api.sign raccoon128 demoE 512 2 sk2 entropy2 msg (List.replicate 11524 0) = .ok b ∧ Api.verify raccoon128 demoE 512 sk0.pkey msg b = .ok true := by
  have hP : raccoon128 = raccoon128 ∨ raccoon128 = raccoon192 ∨ raccoon128 = raccoon256 := Or.inl rfl
  obtain ⟨sk0, h0⟩ := C52_generate raccoon128 hP demoE 512 2 demo_d demo_finish entropy0 seed hseed
  have w0 := C37_wellformed raccoon128 hP demoE 512 2 demo_d entropy0 seed hseed sk0 h0
  obtain ⟨sk1, h1⟩ := C52_refresh raccoon128 demoE 512 2 demo_d demo_finish sk0 w0
  obtain ⟨w1, -⟩ := (C38_refresh raccoon128 demoE 512 2 demo_d sk0 w0).2 sk1 h1
  obtain ⟨skb, sk2, h2, h3⟩ := C52_reload raccoon128 hP demoE 512 2 demo_d demo_finish sk1 w1 entropy1 (List.replicate (SKey.byteLen 128 5 4 2 42) 0) List.length_replicate
  have hder : SKey.Derived raccoon128 demoE sk0 sk2 := .reload 512 512 entropy1 _ skb (.refresh 512 .refl h1) List.length_replicate h2 h3
  obtain ⟨i1, i2, ut, rep, e1, e2, hs⟩ := derived_secret hP demo_d hseed h0 hder
  obtain rfl : 6 = ut := Res.ok.inj e1
  obtain rfl : 4 = rep := Res.ok.inj e2
  obtain ⟨ut', rep', _, _, e1', e2', _, _, hse, _, hs0, _⟩ := (C37_key_generation raccoon128 hP demoE 512 2 demo_d entropy0 seed).2 sk0 h0
  obtain rfl : 6 = ut' := Res.ok.inj e1'
  obtain rfl : 4 = rep' := Res.ok.inj e2'
  have hsig := demo_sign entropy0 seed hseed sk0 sk2 h0 hder entropy2 msg (List.replicate 11524 0) List.length_replicate
  obtain ⟨b, hb⟩ := hsig
  have hv := C33_sign_verify raccoon128 hP demoE 512 512 2 (Nat.le_refl _) demo_d sk2 i1 entropy2 msg _ b hb
  unfold Api.getPkey at hv
  rw [i2] at hv
  refine ⟨sk0, sk1, sk2, skb, b, h0, ?_, h1, h2, h3, hder, hb, hv⟩
  intro hz
  have h5 := hs0 ⟨0, by decide⟩
  replace h5 : _ = (0 : RPoly) := h5.trans (congrFun hz ⟨0, by decide⟩)
  have h6 := congrFun (nttR_inj (h5.trans nttR_zero.symm)) 0
  replace h6 : ((noiseVec demoE 6 128 2 4 4 (demoE.shake128 entropy0) 0 ⟨0, by decide⟩ 0 : Int) : ZMod q) = 0 := h6
  rw [demo_noise 6 (Or.inl rfl)] at h6
  rw [if_pos (Or.inr (by rfl))] at h6
  have h7 := (ZMod.intCast_zmod_eq_zero_iff_dvd _ q).1 h6
  exact absurd h7 (by decide)

/-- A buffer of 40 bytes has room for the hash and 64 bits only: every attempt of the toy signer is rejected (encoding it is defined and fails). -/
theorem demo_rejected (c : List U8) (h z : List Int) (hh : ∀ x ∈ h, x = 0) (hc : c.length = 32) (hl : h.length = 2560) : Rejected raccoon128 40 c h z := by
  have hb : ∀ z' : List Int, 2560 ≤ (sigBits h z').length := by
    intro z'
    unfold sigBits
    rw [List.length_append]
    have : (h.flatMap hintBits).length = h.length := by
      clear hl
      induction h with
      | nil => rfl
      | cons x h ih =>
        obtain rfl := hh x List.mem_cons_self
        rw [List.flatMap_cons, List.length_append, ih (fun y hy => hh y (List.mem_cons_of_mem _ hy)), List.length_cons]
        have : (hintBits 0).length = 1 := rfl
        omega
    omega
  constructor
  · rintro ⟨h1, -⟩
    have := hb z
    omega
  · rintro (h1 | ⟨h1, x, h2, e, -, -, h3⟩ | ⟨z1, x, z2, e, -, -, h3, -⟩)
    · omega
    · obtain rfl := hh x (by rw [e]; exact List.mem_append_right _ List.mem_cons_self)
      have h4 : (hintBits 0).length = 1 := rfl
      rw [h4] at h3
      have h5 : Int.natAbs 0 = 0 := rfl
      rw [h5] at h3
      rcases h3 with h3 | ⟨-, h3, -⟩ | ⟨h3, -⟩
      · omega
      · omega
      · exact h3
    · have := hb z1
      omega

/-- If the samplers finish, so does an attempt. -/
theorem signAttempt_ne_nofuel {P : Par} {E : Ext} {fuel d uw rep : Nat} {A : PMat P.k P.l} {t : PVec P.k 1} (μ : List U8)
    {a : Fin P.k → Fin P.l → RPoly} {t0 : PVec P.k 1} (C : SignCtx P E d uw A t a t0) (hf : SamplersFinish P E fuel) (st : SignSt P.l d) (hst : PVec.Can st.s)
    (sv : Fin P.l → RPoly) (hsv : st.s.IsNtt sv) (hm : st.m.Reach E) : signAttempt P E fuel d uw rep A t μ st ≠ .nofuel := by
  intro e
  rw [signAttempt_eq] at e
  have hgood := good_signCore hf.mask C.hd uw rep C.hu hf.chal A t μ st.s st.prng st.m hm
  have hsafe := signCore_spec P C.hP E fuel d uw rep C.hd C.hu C.hu' A C.hA a C.ha t t0 C.ht C.htv μ st.s hst sv hsv st.prng st.m
  cases hx : signCore P E fuel d uw rep A t μ st.s st.prng st.m with
  | ok x =>
    obtain ⟨-, -, -, c, -, hi⟩ := hsafe.par x hx
    rw [hx, Res.ok_bind] at e
    rcases signFinish_cases P C.hP st.sigBytes x hi.hlen hi.zlen hi.hcent hi.zcent with ⟨b, e', -⟩ | ⟨b, e', -⟩ | ⟨e', -⟩ <;>
    · rw [e'] at e; cases e
  | ub => exact absurd hx hsafe.ne_ub
  | nofuel => exact absurd hx hgood.1

/-- Non-vacuity of C35 (`C35_secret_kept`) and of the retry branch of C52: with a buffer of 40 bytes the toy signer retries, from the state before
the first attempt to the one before the second, and `sign` uses up its budget. -/
theorem demo_retry (entropy0 seed entropy msg : List U8) (hseed : seed.length = 16) :
    ∃ (sk0 : SKey 5 4 2) (A : PMat 5 4) (t1 t : PVec 5 1) (μ : List U8) (st : SignSt 4 2),
      Api.generate raccoon128 (utTableOf raccoon128) demoE 512 2 entropy0 seed = .ok sk0 ∧ sk0.WF raccoon128 ∧ PMat.expandA demoE 512 5 4 sk0.pkey.seed = .ok A ∧
      sk0.pkey.t.shl 42 = .ok t1 ∧ t1.ntt = .ok t ∧
      Retries raccoon128 demoE 512 2 41 4 A t μ 1 ⟨sk0.s, Prng.new demoE entropy, Mrng.new demoE 2, List.replicate 40 0⟩ st ∧
      Api.sign raccoon128 demoE 512 2 sk0 entropy msg (List.replicate 40 0) = .nofuel := by
  have hP : raccoon128 = raccoon128 ∨ raccoon128 = raccoon192 ∨ raccoon128 = raccoon256 := Or.inl rfl
  obtain ⟨sk0, h0⟩ := C52_generate raccoon128 hP demoE 512 2 demo_d demo_finish entropy0 seed hseed
  have w0 := C37_wellformed raccoon128 hP demoE 512 2 demo_d entropy0 seed hseed sk0 h0
  obtain ⟨ut', rep', _, _, e1', e2', _, _, hse, _, hs, _⟩ := (C37_key_generation raccoon128 hP demoE 512 2 demo_d entropy0 seed).2 sk0 h0
  obtain rfl : 6 = ut' := Res.ok.inj e1'
  obtain rfl : 4 = rep' := Res.ok.inj e2'
  obtain ⟨A, eA⟩ := demo_finish.expandA sk0.pkey.seed w0.pkey.seed
  have eA' : PMat.expandA demoE 512 5 4 seed = .ok A := by rw [← hse]; exact eA
  obtain ⟨a, ha⟩ := PMat.Is.exists A
  obtain ⟨ts, ets, tsc, tsv⟩ := PVec.shl_spec (n := 42) (m := 128) (by omega) (by norm_num) (PVec.below_iff.1 w0.pkey.t)
  obtain ⟨tn, etn, tnc, tni⟩ := PVec.IsNtt.ntt tsc
  have C : SignCtx raccoon128 demoE 2 41 A tn a sk0.pkey.t := ⟨hP, demo_d.pow, by omega, by omega, ((expandA_safe demoE 512 5 4 sk0.pkey.seed).par A eA).1, ha, tnc,
    fun i => by rw [← tni i, tsv]; rfl⟩
  have hrej : ∀ μ n c h z, AttemptSig raccoon128 demoE 512 2 41 4 a (PVec.val sk0.pkey.t) (vecR (noiseVec demoE 6 128 2 4 4 (demoE.shake128 entropy0) 0)) μ (demoE.shake128 entropy) n c h z →
      Rejected raccoon128 40 c h z := by
    intro μ n c h z g
    obtain ⟨-, -, g1, g2, g3⟩ := demo_attempt entropy0 seed hseed sk0 h0 A eA' a ha μ _ n c h z g
    exact demo_rejected c h z g1 g2 g3
  have hloop : ∀ k, signLoop raccoon128 demoE 512 2 41 4 A tn [] k ⟨sk0.s, Prng.new demoE entropy, Mrng.new demoE 2, List.replicate 40 0⟩ = .nofuel := by
    intro k
    rcases signLoop_exact [] C entropy sk0.s (Mrng.new demoE 2) (List.replicate 40 0) _ hs k 0 ⟨sk0.s, Prng.new demoE entropy, Mrng.new demoE 2, List.replicate 40 0⟩
      ⟨w0.s, rfl, by rw [Nat.zero_mul, Prng.advance_zero], rfl⟩ with ⟨n, b, -, -, -, c, h, z, g1, g2, -⟩ | ⟨n, -, -, -, c, h, z, g1, g2⟩ | ⟨g, -⟩
    · exact absurd g2 (hrej _ _ c h z g1).1
    · exact absurd g2 (hrej _ _ c h z g1).2
    · exact g
  have hne : signAttempt raccoon128 demoE 512 2 41 4 A tn [] ⟨sk0.s, Prng.new demoE entropy, Mrng.new demoE 2, List.replicate 40 0⟩ ≠ .nofuel := by
    generalize hsv : vecR (noiseVec demoE 6 raccoon128.κ 2 4 raccoon128.l (demoE.shake128 entropy0) 0) = sv at hs
    have hm := Mrng.reach_new demoE 2
    generalize Mrng.new demoE 2 = m at hm ⊢
    generalize Prng.new demoE entropy = pr
    exact signAttempt_ne_nofuel (P := raccoon128) (rep := 4) [] C demo_finish ⟨sk0.s, pr, m, List.replicate 40 0⟩ w0.s sv hs hm
  have hatt : ∃ st, signAttempt raccoon128 demoE 512 2 41 4 A tn [] ⟨sk0.s, Prng.new demoE entropy, Mrng.new demoE 2, List.replicate 40 0⟩ = .ok (false, st) := by
    have h1 := hloop 1
    unfold signLoop at h1
    cases e : signAttempt raccoon128 demoE 512 2 41 4 A tn [] ⟨sk0.s, Prng.new demoE entropy, Mrng.new demoE 2, List.replicate 40 0⟩ with
    | ok r =>
      obtain ⟨b, st⟩ := r
      cases b with
      | false => exact ⟨st, rfl⟩
      | true => rw [e] at h1; cases h1
    | ub => rw [e] at h1; cases h1
    | nofuel =>
      exfalso
      exact hne e
  obtain ⟨st, hst⟩ := hatt
  refine ⟨sk0, A, ts, tn, [], st, h0, w0, eA, ets, etn, .succ (.zero _) hst, ?_⟩
  obtain ⟨uw, rep', pkb, a', e3, e2', f1, f3, hcase⟩ := sign_outcome raccoon128 hP demoE 512 2 demo_d sk0 w0 A eA _ hs entropy msg (List.replicate 40 0)
  obtain rfl : 41 = uw := Res.ok.inj e3
  obtain rfl : 4 = rep' := Res.ok.inj e2'
  obtain rfl := PMat.Is.unique ha f3
  rw [List.length_replicate] at hcase
  rcases hcase with ⟨n, b, -, -, -, c, h, z, g1, g2, -⟩ | ⟨n, -, -, -, c, h, z, g1, g2, -⟩ | ⟨g, -⟩
  · exact absurd g2 (hrej _ _ c h z g1).1
  · exact absurd g2 (hrej _ _ c h z g1).2
  · exact g

/-! ### The hypotheses of the scheme theorems, one example each, from the runs above -/

/-- C34, C36, C35, C37, C38, C33, C53: the hypotheses of `C33_correctness` (and with them those of the others, which ask for less). -/
example (entropy0 seed entropy1 entropy2 msg : List U8) (hseed : seed.length = 16) :
    ∃ (sk0 sk : SKey 5 4 2) (b pkBytes : List U8) (s : Fin 4 → RPoly), Api.generate raccoon128 (utTableOf raccoon128) demoE 512 2 entropy0 seed = .ok sk0 ∧
      sk.WF raccoon128 ∧ sk.s.IsNtt s ∧ SKey.Derived raccoon128 demoE sk0 sk ∧ Api.sign raccoon128 demoE 512 2 sk entropy2 msg (List.replicate 11524 0) = .ok b ∧
      Api.pkAsBytes raccoon128 (Api.getPkey raccoon128 sk0) (List.replicate (PKey.byteLen 128 5 42) 0) = .ok pkBytes ∧
      Api.verify raccoon128 demoE 512 (Api.getPkey raccoon128 sk0) msg b = .ok true := by
  have hP : raccoon128 = raccoon128 ∨ raccoon128 = raccoon192 ∨ raccoon128 = raccoon256 := Or.inl rfl
  obtain ⟨sk0, sk1, sk2, skb, b, h0, -, -, -, -, hd, hs, hv⟩ := demo_run entropy0 seed entropy1 entropy2 msg hseed
  have w0 := C37_wellformed raccoon128 hP demoE 512 2 demo_d entropy0 seed hseed sk0 h0
  obtain ⟨w2, -⟩ := C38_history raccoon128 hP demoE 2 demo_d sk0 sk2 w0 hd
  obtain ⟨s, hsv⟩ := PVec.IsNtt.exists sk2.s
  obtain ⟨pkb, e⟩ := pkBytes_ok raccoon128 hP sk0.pkey w0.pkey.seed
  exact ⟨sk0, sk2, b, pkb, s, h0, w2, hsv, hd, hs, e, hv⟩

/-- C35_secret_kept: one retry. -/
example (entropy0 seed entropy msg : List U8) (hseed : seed.length = 16) :
    ∃ (sk : SKey 5 4 2) (A : PMat 5 4) (t1 t : PVec 5 1) (μ : List U8) (st : SignSt 4 2), sk.WF raccoon128 ∧ PMat.expandA demoE 512 5 4 sk.pkey.seed = .ok A ∧
      sk.pkey.t.shl 42 = .ok t1 ∧ t1.ntt = .ok t ∧
      Retries raccoon128 demoE 512 2 41 4 A t μ 1 ⟨sk.s, Prng.new demoE entropy, Mrng.new demoE 2, List.replicate 40 0⟩ st :=
  let ⟨sk, A, t1, t, μ, st, _, h1, h2, h3, h4, h5, _⟩ := demo_retry entropy0 seed entropy msg hseed
  ⟨sk, A, t1, t, μ, st, h1, h2, h3, h4, h5⟩

end Raccoon
