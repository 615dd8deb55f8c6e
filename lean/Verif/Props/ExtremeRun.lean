import Verif.Props.Extreme
/-!
# C73: signing does become undefined for extreme noise

The sufficient condition, and a run (with toy external functions) that meets it.
-/
namespace Raccoon
attribute [-instance] Monoid.toNPow
open Finset

theorem strictWindow_hints (h : List Int) (hh : ∀ x ∈ h, |x| ≤ 8) (p : Nat) : StrictWindowFrom hintBits p h := by
  induction h generalizing p with
  | nil => trivial
  | cons x xs ih =>
    refine ⟨?_, ih (fun y hy => hh y (List.mem_cons_of_mem _ hy)) _⟩
    have h1 := hh x List.mem_cons_self
    rw [abs_le] at h1
    unfold hintBits
    split <;> simp <;> omega

theorem hints_len (h : List Int) (hh : ∀ x ∈ h, |x| ≤ 8) : (h.flatMap hintBits).length ≤ 10 * h.length := by
  refine flatMap_len _ _ _ fun x hx => ?_
  have h1 := hh x hx
  rw [abs_le] at h1
  unfold hintBits
  split <;> simp <;> omega

theorem respBits_len (x : Int) (hx : x ≠ 0) : (respBits x).length = 42 + x.natAbs / 2 ^ 40 := by
  unfold respBits
  rw [if_neg hx]
  simp [natBits]
  omega

/-- C73, sufficiency: if the noise words of the very first response coefficient of the first attempt add up to 22·2^40 + 90112 or more in absolute value, `sign` is
undefined, for every message and every buffer of the usual length. -/
theorem C73_traps (P : Par) (hP : P = raccoon128 ∨ P = raccoon192 ∨ P = raccoon256) (E : Ext) (fuel0 fuel d : Nat) (hd : ValidShares d)
    (hf : SamplersFinish P E fuel) (hfuel : 0 < fuel)
    (entropy0 seed : List U8) (hseed : seed.length = P.κ / 8) (sk0 sk : SKey P.k P.l d) (h0 : Api.generate P (utTableOf P) E fuel0 d entropy0 seed = .ok sk0)
    (hder : SKey.Derived P E sk0 sk) (entropy msg buf : List U8) (hbuf : 2 * P.κ / 8 + 640 * P.k + 16 ≤ buf.length) (j : Fin P.l) (c : Fin 512) (hj : j.val = 0) (hc : c.val = 0)
    (hx : 22 * 2 ^ 40 + 90112 ≤ |signedSum (uwOf d) (attemptWords P E d entropy 0 j c)|) : Api.sign P E fuel d sk entropy msg buf = .ub := by
  rw [← C73_words P E d hd] at hx
  obtain ⟨i1, i2, ut, rep, e1, e2, hs⟩ := derived_secret hP hd hseed h0 hder
  have hse : sk0.pkey.seed = seed := by
    obtain ⟨_, _, _, _, _, _, _, _, g1, _⟩ := (C37_key_generation P hP E fuel0 d hd entropy0 seed).2 sk0 h0
    exact g1
  obtain ⟨uw, rep', pkb, A, a, e3, e2', f1, f2, f3, hcase⟩ := C52_first_acceptable P hP E fuel d hd hf sk i1 _ hs entropy msg buf
  obtain rfl := Res.ok.inj (e2.symm.trans e2')
  rw [i2, hse] at f2
  rw [i2] at hcase
  obtain ⟨t1, t2, t3⟩ := tab_of (P := P) hd
  obtain rfl := Res.ok.inj (t2.symm.trans e3)
  obtain rfl := Res.ok.inj (t1.symm.trans e2)
  have htrap : ∀ c hint z, AttemptSig P E fuel d (uwOf d) (repOf d) a (PVec.val sk0.pkey.t) (vecR (noiseVec E ut P.κ d (repOf d) P.l (E.shake128 entropy0) 0))
      (messageHash E P.κ pkb msg) (E.shake128 entropy) 0 c hint z → Trapped buf.length c hint z := by
    intro cH hint z g
    obtain ⟨⟨cp, k1, -, k2⟩, zb, hb⟩ := C53_attempts P hP E fuel0 fuel d hd entropy0 seed sk0 h0 ut (repOf d) (uwOf d) e1 e2 e3 A f2 a f3 _ _ 0 cH hint z g
    have hwt := chal_weight k1
    obtain ⟨_, _, i⟩ := g
    have hzl := i.zlen
    have hhl := i.hlen
    have hcl : cH.length = 2 * P.κ / 8 := by
      rw [i.hash]
      unfold challengeHash xofOut
      rw [List.length_map, List.length_range]
    obtain ⟨u1, u2, n1, n2, n3⟩ := tab_num hd e2 e3 e1
    have hω : P.ω ≤ 44 := by rcases hP with rfl | rfl | rfl <;> decide
    have hsb : |negacyclicZ (noiseVec E ut P.κ d (repOf d) P.l (E.shake128 entropy0) 0 j) (Poly.centered cp) c| ≤ 90112 := by
      refine le_trans (negacyclicZ_bound (B := ((repOf d * d * 2 ^ (ut - 1) : Nat) : Int)) (fun y => ?_) c) ?_
      · have := totalNoise_bound E ut P.κ d (repOf d) P.l u2 (E.shake128 entropy0) 0 j y
        push_cast; exact this
      · rw [hwt]
        have : repOf d * d * 2 ^ (ut - 1) * P.ω ≤ 2048 * 44 := Nat.mul_le_mul n2 hω
        exact_mod_cast this
    have hz0 : 22 * 2 ^ 40 ≤ |unflatten P.l z j c| := by
      rw [k2]
      unfold ephemeralR rowBytesOf at hx
      have := abs_add_le (negacyclicZ (noiseVec E ut P.κ d (repOf d) P.l (E.shake128 entropy0) 0 j) (Poly.centered cp) c +
        noiseVec E (uwOf d) P.κ d (repOf d) P.l (E.shake128 entropy) (0 * ((P.l + P.k) * (repOf d * d * (P.κ / 8)))) j c)
        (-negacyclicZ (noiseVec E ut P.κ d (repOf d) P.l (E.shake128 entropy0) 0 j) (Poly.centered cp) c)
      rw [abs_neg, add_comm (negacyclicZ _ _ _), add_neg_cancel_right] at this
      dsimp only
      rw [add_comm]
      linarith
    have hub : |unflatten P.l z j c| ≤ 33 * 2 ^ 40 := by
      refine le_trans (zb _ (mem_unflatten (n := P.l) j c hzl)) ?_
      have h1 : P.ω * (repOf d * d * 2 ^ (ut - 1)) ≤ 44 * 2048 := Nat.mul_le_mul hω n2
      have h2 : repOf d * d * 2 ^ (uwOf d - 1) ≤ 32 * 2 ^ 40 := by
        clear * - hd
        obtain ⟨m, hm, rfl⟩ := hd
        rcases (by omega : m = 0 ∨ m = 1 ∨ m = 2 ∨ m = 3 ∨ m = 4 ∨ m = 5) with rfl | rfl | rfl | rfl | rfl | rfl <;> decide
      have h3 : ((P.ω * (repOf d * d * 2 ^ (ut - 1)) + repOf d * d * 2 ^ (uwOf d - 1) : Nat) : Int) ≤ ((33 * 2 ^ 40 : Nat) : Int) := by
        norm_num at h1 h2 ⊢
        have : (P.ω * (repOf d * d * 2 ^ (ut - 1)) + repOf d * d * 2 ^ (uwOf d - 1) : Nat) ≤ 36283883716608 := by omega
        exact_mod_cast this
      push_cast at h3
      exact h3
    have hl0 : 0 < P.l * 512 := by rcases hP with rfl | rfl | rfl <;> decide
    cases z with
    | nil => rw [List.length_nil] at hzl; omega
    | cons x z2 =>
      have hux : unflatten P.l (x :: z2) j c = x := by
        unfold unflatten
        rw [hj, hc]; rfl
      rw [hux] at hz0 hub
      have hn : 22 ≤ x.natAbs / 2 ^ 40 ∧ x.natAbs / 2 ^ 40 ≤ 33 := by
        rw [← Int.natCast_natAbs] at hz0 hub
        have a1 : 22 * 2 ^ 40 ≤ x.natAbs := by exact_mod_cast hz0
        have a2 : x.natAbs ≤ 33 * 2 ^ 40 := by exact_mod_cast hub
        rw [show (2 : Nat) ^ 40 = 1099511627776 by norm_num] at *
        omega
      have hxne : x ≠ 0 := by
        rintro rfl
        rw [Int.natAbs_zero, Nat.zero_div] at hn
        omega
      have hrl := respBits_len x hxne
      have hhb := hints_len hint hb
      rw [hhl] at hhb
      generalize hm : x.natAbs / 2 ^ 40 = m at *
      refine Or.inr (Or.inr ⟨[], x, z2, rfl, strictWindow_hints hint hb 0, trivial, ?_⟩)
      have hsig : sigBits hint [] = hint.flatMap hintBits := by unfold sigBits; simp
      rw [hsig, hrl, hm, hcl]
      generalize (hint.flatMap hintBits).length = p at *
      generalize 2 * P.κ / 8 = K at *
      have hz2 : z2 ≠ [] := by
        rintro rfl
        rw [List.length_singleton] at hzl
        omega
      refine ⟨by omega, Or.inr (Or.inl ⟨hz2, by omega, by omega⟩)⟩
  rcases hcase with ⟨n, b, -, e, g1, c', hint, z, g, -, -, ht⟩ | ⟨n, hn, e, -⟩ | ⟨-, hr⟩
  · exfalso
    rcases Nat.eq_zero_or_pos n with rfl | hn
    · exact ht (htrap _ _ _ g)
    · obtain ⟨c', hint, z, g, hr⟩ := g1 0 hn
      exact hr.2 (htrap _ _ _ g)
  · exact e
  · exfalso
    obtain ⟨c', hint, z, g, hr⟩ := hr 0 hfuel
    exact hr.2 (htrap _ _ _ g)

/-- Toy streams as in `Props/Demo.lean`, but noise inputs give 0x41 in every fifth byte: as 39-bit words these are −2^38 + 2^32. -/
def extremeStream (m : List U8) (i : Nat) : U8 :=
  if m.length = 40 then (if i % 2 = 0 then BitVec.ofNat 8 i else 0)
  else if m.head? = some 0x75 then (if i % 5 = 4 then 0x41 else 0) else (if i % 7 = 0 then 1 else 0)

def extremeE : Ext := ⟨fun m i => BitVec.ofNat 8 (m.length + i), extremeStream, fun _ => Vector.replicate 5 7, fun s => s, 0⟩

theorem extreme_iter (n : Nat) : ∃ x : U64, (extremeE.asconP6^[n] (Vector.replicate 5 0)) = Vector.replicate 5 x ∧ (x = 0 ∨ x = 7) := by
  cases n with
  | zero => exact ⟨0, rfl, Or.inl rfl⟩
  | succ n => rw [Function.iterate_succ_apply']; exact ⟨7, rfl, Or.inr rfl⟩

theorem extreme_finish : SamplersFinish raccoon128 extremeE 1024 := by
  refine ⟨fun m hm => ?_, fun m hm => ?_, fun n => ?_⟩
  · have hm' : m.length = 24 := hm
    by_cases hu : m.head? = some 0x75
    · have hs : extremeE.shake256 m = fun i => if i % 5 = 4 then 0x41 else 0 := by
        funext i
        show extremeStream m i = _
        unfold extremeStream
        rw [if_neg (by omega), if_pos hu]
      rw [hs]
      decide +kernel
    · rw [accepted_all, List.length_map, List.length_range]
      · omega
      refine qWord_small _ fun i => ?_
      show (extremeStream m i).toNat ≤ 1
      unfold extremeStream
      rw [if_neg (by omega), if_neg hu]
      split <;> decide
  · have hm' : m.length = 40 := hm
    have hs : extremeE.shake256 m = fun i => if i % 2 = 0 then BitVec.ofNat 8 i else 0 := by
      funext i
      show extremeStream m i = _
      unfold extremeStream
      rw [if_pos hm']
    rw [hs]
    have h19 : 19 ≤ chalCount (fun i => if i % 2 = 0 then BitVec.ofNat 8 i else 0) 19 := by decide +kernel
    refine Nat.le_trans h19 ?_
    unfold chalCount
    exact Finset.card_le_card (Finset.image_subset_image (Finset.range_subset_range.2 (by omega)))
  · unfold acceptedMasks
    rw [List.filter_eq_self.2, List.length_map, List.length_range]
    · omega
    intro x hx
    obtain ⟨j, -, rfl⟩ := List.mem_map.1 hx
    apply decide_eq_true
    unfold maskWord
    rw [← Function.iterate_add_apply]
    obtain ⟨x, e, hx⟩ := extreme_iter (j + n)
    rw [e]
    rcases hx with rfl | rfl <;> simp <;> decide

theorem extreme_words (entropy : List U8) (n : Nat) (j : Fin raccoon128.l) (c : Fin 512) (rs : Fin (repOf 32) × Fin 32) :
    signedWord (uwOf 32) (attemptWords raccoon128 extremeE 32 entropy n j c rs) = -270582939648 := by
  have hs : ∀ σ : List U8, σ.length = 16 → extremeE.shake256 ([0x75, BitVec.ofNat 8 rs.1.val, BitVec.ofNat 8 j.val, BitVec.ofNat 8 rs.2.val, 0, 0, 0, 0] ++ σ) =
      fun i => if i % 5 = 4 then 0x41 else 0 := by
    intro σ hσ
    funext i
    show extremeStream _ i = _
    unfold extremeStream
    rw [if_neg (by simp [hσ])]
    exact if_pos (by rfl)
  have hw : streamWord (fun i => if i % 5 = 4 then (0x41 : U8) else 0) 5 c.val = 279172874240 := by
    unfold streamWord
    rw [show List.range 5 = [0, 1, 2, 3, 4] from rfl]
    simp only [List.map_cons, List.map_nil, leVal]
    rw [if_neg (by omega), if_neg (by omega), if_neg (by omega), if_neg (by omega), if_pos (by omega)]
    rfl
  have hv : (attemptWords raccoon128 extremeE 32 entropy n j c rs).val = 279172874240 := by
    unfold attemptWords
    dsimp only
    rw [hs _ (by rw [List.length_map, List.length_range]; rfl)]
    show streamWord _ 5 c.val % 2 ^ 39 = _
    rw [hw]
  unfold signedWord
  rw [hv]
  show (if 279172874240 < 2 ^ 38 then ((279172874240 : Nat) : Int) else ((279172874240 : Nat) : Int) - 2 ^ 39) = _
  norm_num

theorem extreme_sum (entropy : List U8) (n : Nat) (j : Fin raccoon128.l) (c : Fin 512) :
    signedSum (uwOf 32) (attemptWords raccoon128 extremeE 32 entropy n j c) = -34634616274944 := by
  unfold signedSum
  rw [Finset.sum_congr rfl (g := fun _ => (-270582939648 : Int)) fun rs _ => extreme_words entropy n j c rs, Finset.sum_const, Finset.card_univ,
    Fintype.card_prod, Fintype.card_fin, Fintype.card_fin]
  norm_num [repOf]

/-- C73, non-vacuity: with the toy functions and 32 shares a key is generated, and signing with it is undefined, for every seed, entropy and message, with a buffer of the
length of a signature. -/
theorem C73_reached (entropy0 seed entropy msg : List U8) (hseed : seed.length = 16) :
    ∃ sk : SKey 5 4 32, Api.generate raccoon128 (utTableOf raccoon128) extremeE 1024 32 entropy0 seed = .ok sk ∧
      Api.sign raccoon128 extremeE 1024 32 sk entropy msg (List.replicate 11524 0) = .ub := by
  have hP : raccoon128 = raccoon128 ∨ raccoon128 = raccoon192 ∨ raccoon128 = raccoon256 := Or.inl rfl
  have hd : ValidShares 32 := ⟨5, by omega, rfl⟩
  obtain ⟨sk, h0⟩ := C52_generate raccoon128 hP extremeE 1024 32 hd extreme_finish entropy0 seed hseed
  refine ⟨sk, h0, C73_traps raccoon128 hP extremeE 1024 1024 32 hd extreme_finish (by omega) entropy0 seed hseed sk sk h0 .refl entropy msg _ ?_ ⟨0, by decide⟩ ⟨0, by decide⟩ rfl rfl ?_⟩
  · rw [List.length_replicate]; decide
  · refine le_trans ?_ (le_of_eq (congrArg abs (extreme_sum entropy 0 _ _).symm))
    norm_num

/-! ### One share -/

/-- Toy streams for one share: no noise in the key and in the error; the response mask is 0 in seven coefficients, extreme in the last one, and 8 elsewhere. -/
def lastStream (m : List U8) (i : Nat) : U8 :=
  if m.length = 40 then (if i % 2 = 0 then BitVec.ofNat 8 i else 0)
  else if m.head? = some 0x75 then
    (if m[8]? = some 1 then
      (if m[2]? = some 0 ∧ i < 42 then 0 else if m[2]? = some 3 ∧ 3066 ≤ i then (if i % 6 = 5 then 1 else 0) else if i % 6 = 0 then 1 else 0)
    else 0)
  else (if i % 7 = 0 then 1 else 0)

def lastE : Ext := ⟨fun m i => if m = [] then 0 else if i < 512 then 1 else 2, lastStream, fun _ => Vector.replicate 5 7, fun s => s, 0⟩

theorem last_iter (n : Nat) : ∃ x : U64, (lastE.asconP6^[n] (Vector.replicate 5 0)) = Vector.replicate 5 x ∧ (x = 0 ∨ x = 7) := by
  cases n with
  | zero => exact ⟨0, rfl, Or.inl rfl⟩
  | succ n => rw [Function.iterate_succ_apply']; exact ⟨7, rfl, Or.inr rfl⟩

theorem last_finish : SamplersFinish raccoon128 lastE 512 := by
  refine ⟨fun m hm => ?_, fun m hm => ?_, fun n => ?_⟩
  · have hm' : m.length = 24 := hm
    rw [accepted_all, List.length_map, List.length_range]
    refine qWord_small _ fun i => ?_
    show (lastStream m i).toNat ≤ 1
    unfold lastStream
    rw [if_neg (by omega)]
    repeat' split
    all_goals decide
  · have hm' : m.length = 40 := hm
    have hs : lastE.shake256 m = fun i => if i % 2 = 0 then BitVec.ofNat 8 i else 0 := by
      funext i
      show lastStream m i = _
      unfold lastStream
      rw [if_pos hm']
    rw [hs]
    have h19 : 19 ≤ chalCount (fun i => if i % 2 = 0 then BitVec.ofNat 8 i else 0) 19 := by decide +kernel
    refine Nat.le_trans h19 ?_
    unfold chalCount
    exact Finset.card_le_card (Finset.image_subset_image (Finset.range_subset_range.2 (by omega)))
  · unfold acceptedMasks
    rw [List.filter_eq_self.2, List.length_map, List.length_range]
    intro x hx
    obtain ⟨j, -, rfl⟩ := List.mem_map.1 hx
    apply decide_eq_true
    unfold maskWord
    rw [← Function.iterate_add_apply]
    obtain ⟨x, e, hx⟩ := last_iter (j + n)
    rw [e]
    rcases hx with rfl | rfl <;> simp <;> decide

/-- The noise whose random bytes are all `b ≠ 1` is zero. -/
theorem last_zero (u n : Nat) (s : Nat → U8) (pos : Nat) (hs : ∀ i, pos ≤ i → s i ≠ 1) (j : Fin n) (c : Fin 512) :
    noiseVec lastE u 128 1 8 n s pos j c = 0 := by
  unfold noiseVec totalNoise
  refine Finset.sum_eq_zero fun r _ => Finset.sum_eq_zero fun sh _ => ?_
  unfold noiseAt
  dsimp only
  have hz : ∀ σ : List U8, σ.length = 16 → σ[0]? ≠ some 1 → lastE.shake256 ([0x75, BitVec.ofNat 8 r, BitVec.ofNat 8 j.val, BitVec.ofNat 8 sh, 0, 0, 0, 0] ++ σ) = fun _ => 0 := by
    intro σ hσ h0
    funext i
    show lastStream _ i = _
    unfold lastStream
    rw [if_neg (by simp [hσ]), if_pos (by rfl), if_neg (by simpa using h0)]
  rw [hz _ (by rw [List.length_map, List.length_range]) (by
    rw [List.getElem?_map, List.getElem?_range (by norm_num)]
    simp only [Option.map_some]
    intro h
    exact hs _ (by omega) (Option.some.inj h))]
  have h0 : ∀ w, streamWord (fun _ => (0 : U8)) w c.val = 0 := by
    intro w
    unfold streamWord
    rw [List.map_const', List.length_range]
    induction w with
    | zero => rfl
    | succ w ih => rw [List.replicate_succ, leVal, ih]; rfl
  rw [h0]
  exact Int.zero_bmod

/-- The response mask of the first attempt. -/
theorem last_r (entropy : List U8) (he : entropy ≠ []) (j : Fin 4) (c : Fin 512) :
    noiseVec lastE 41 128 1 8 4 (lastE.shake128 entropy) 0 j c = if j.val = 0 ∧ c.val < 7 then 0 else if j.val = 3 ∧ c.val = 511 then -(8 * 2 ^ 40) else 8 := by
  unfold noiseVec totalNoise
  have hall : ∀ r ∈ range 8, ∀ sh ∈ range 1, noiseAt lastE 41 128 1 j.val (lastE.shake128 entropy) (0 + j.val * (8 * 1 * (128 / 8))) r sh c =
      if j.val = 0 ∧ c.val < 7 then 0 else if j.val = 3 ∧ c.val = 511 then -(2 ^ 40) else 1 := by
    intro r hr sh hsh
    rw [Finset.mem_range] at hr hsh
    unfold noiseAt
    dsimp only
    have hσ : ((List.range (128 / 8)).map fun b => lastE.shake128 entropy (0 + j.val * (8 * 1 * (128 / 8)) + (r * 1 + sh) * (128 / 8) + b))[0]? = some 1 := by
      rw [List.getElem?_map, List.getElem?_range (by norm_num)]
      simp only [Option.map_some]
      show some (if entropy = [] then (0 : U8) else if _ < 512 then 1 else 2) = _
      rw [if_neg he, if_pos (by have := j.isLt; omega)]
    have hl : ((List.range (128 / 8)).map fun b => lastE.shake128 entropy (0 + j.val * (8 * 1 * (128 / 8)) + (r * 1 + sh) * (128 / 8) + b)).length = 16 := by
      rw [List.length_map, List.length_range]
    generalize ((List.range (128 / 8)).map fun b => lastE.shake128 entropy (0 + j.val * (8 * 1 * (128 / 8)) + (r * 1 + sh) * (128 / 8) + b)) = σ at *
    have hs : lastE.shake256 ([0x75, BitVec.ofNat 8 r, BitVec.ofNat 8 j.val, BitVec.ofNat 8 sh, 0, 0, 0, 0] ++ σ) =
        fun i => if j.val = 0 ∧ i < 42 then 0 else if j.val = 3 ∧ 3066 ≤ i then (if i % 6 = 5 then 1 else 0) else if i % 6 = 0 then 1 else 0 := by
      funext i
      show lastStream _ i = _
      unfold lastStream
      rw [if_neg (by simp [hl]), if_pos (by rfl), if_pos (by simpa using hσ)]
      have e2 : ([0x75, BitVec.ofNat 8 r, BitVec.ofNat 8 j.val, BitVec.ofNat 8 sh, 0, 0, 0, 0] ++ σ)[2]? = some (BitVec.ofNat 8 j.val) := rfl
      rw [e2]
      have hj := j.isLt
      rcases (by omega : j.val = 0 ∨ j.val = 1 ∨ j.val = 2 ∨ j.val = 3) with h | h | h | h <;> rw [h] <;> simp
    rw [hs]
    show ((streamWord _ 6 c.val : Nat) : Int).bmod _ = _
    have hc := c.isLt
    have hw : ∀ (f : Nat → U8) (g : Nat → U8), (∀ t, t < 6 → f (6 * c.val + t) = g t) → streamWord f 6 c.val = leVal [g 0, g 1, g 2, g 3, g 4, g 5] := by
      intro f g h
      unfold streamWord
      rw [show List.range 6 = [0, 1, 2, 3, 4, 5] from rfl]
      simp only [List.map_cons, List.map_nil]
      rw [h 0 (by omega), h 1 (by omega), h 2 (by omega), h 3 (by omega), h 4 (by omega), h 5 (by omega)]
    by_cases h1 : j.val = 0 ∧ c.val < 7
    · rw [if_pos h1, hw _ (fun _ => 0) (fun t ht => if_pos ⟨h1.1, by omega⟩)]
      have : leVal [(0 : U8), 0, 0, 0, 0, 0] = 0 := by decide
      rw [this]
      exact Int.zero_bmod
    · rw [if_neg h1]
      by_cases h2 : j.val = 3 ∧ c.val = 511
      · rw [if_pos h2, hw _ (fun t => if t = 5 then 1 else 0) (fun t ht => by
          rw [if_neg (by omega), if_pos ⟨h2.1, by omega⟩]
          by_cases h5 : t = 5
          · rw [if_pos h5, if_pos (by omega)]
          · rw [if_neg h5, if_neg (by omega)])]
        have : leVal [if (0 : Nat) = 5 then (1 : U8) else 0, if (1 : Nat) = 5 then (1 : U8) else 0, if (2 : Nat) = 5 then (1 : U8) else 0, if (3 : Nat) = 5 then (1 : U8) else 0,
          if (4 : Nat) = 5 then (1 : U8) else 0, if (5 : Nat) = 5 then (1 : U8) else 0] = 1099511627776 := by decide
        rw [this]
        norm_num [Int.bmod_def]
      · rw [if_neg h2, hw _ (fun t => if t = 0 then 1 else 0) (fun t ht => by
          rw [if_neg (by omega), if_neg (by omega)]
          by_cases h5 : t = 0
          · rw [if_pos h5, if_pos (by omega)]
          · rw [if_neg h5, if_neg (by omega)])]
        have : leVal [if (0 : Nat) = 0 then (1 : U8) else 0, if (1 : Nat) = 0 then (1 : U8) else 0, if (2 : Nat) = 0 then (1 : U8) else 0, if (3 : Nat) = 0 then (1 : U8) else 0,
          if (4 : Nat) = 0 then (1 : U8) else 0, if (5 : Nat) = 0 then (1 : U8) else 0] = 1 := by decide
        rw [this]
        norm_num [Int.bmod_def]
  rw [Finset.sum_congr rfl fun r hr => Finset.sum_congr rfl fun sh hsh => hall r hr sh hsh]
  simp only [Finset.sum_const, Finset.card_range, one_smul]
  repeat' split
  all_goals norm_num

theorem negacyclic_zeroR (f : RPoly) : negacyclic f 0 = 0 := by
  apply nttR_inj
  rw [nttR_negacyclic, nttR_zero, mul_zero]

theorem commit_eq (a : Fin 5 → Fin 4 → RPoly) (r z : Fin 4 → RPoly) (e t : Fin 5 → RPoly) (c : RPoly) (i : Fin 5) (y : Fin 512) (hz : z = r) (he : e = 0) (ht : t = 0) :
    commitW 44 a r e i y = commitY 44 42 a t c z i y := by
  subst hz he ht
  unfold commitW commitY
  have hn : negacyclic ((0 : Fin 5 → RPoly) i) c = 0 := by
    apply nttR_inj
    rw [nttR_negacyclic, Pi.zero_apply, nttR_zero, zero_mul]
  rw [hn, smul_zero, sub_zero, Pi.zero_apply, add_zero]

theorem list_last (z : List Int) (hl : z.length = 4 * 512)
    (hz : ∀ (j : Fin 4) (c : Fin 512), unflatten 4 z j c = if j.val = 0 ∧ c.val < 7 then 0 else if j.val = 3 ∧ c.val = 511 then -(8 * 2 ^ 40) else 8) :
    z = (List.replicate 7 0 ++ List.replicate 2040 8) ++ [-(8 * 2 ^ 40)] := by
  have l0 : (List.replicate 7 (0 : Int)).length = 7 := List.length_replicate
  have l1 : (List.replicate 2040 (8 : Int)).length = 2040 := List.length_replicate
  have l2 : (List.replicate 7 (0 : Int) ++ List.replicate 2040 8).length = 2047 := by rw [List.length_append, l0, l1]
  apply List.ext_getElem
  · rw [List.length_append, l2, hl, List.length_singleton]
  · intro i h1 h2
    have h := hz ⟨i / 512, by omega⟩ ⟨i % 512, by omega⟩
    unfold unflatten at h
    dsimp only at h
    rw [Nat.div_add_mod' i 512, List.getD_eq_getElem?_getD, List.getElem?_eq_getElem h1, Option.getD_some] at h
    rw [h]
    rw [hl] at h1
    by_cases a1 : i < 7
    · rw [if_pos ⟨by omega, by omega⟩, List.getElem_append_left (by rw [l2]; omega), List.getElem_append_left (by rw [l0]; omega), List.getElem_replicate]
    · rw [if_neg (by omega)]
      by_cases a2 : i < 2047
      · rw [if_neg (by omega), List.getElem_append_left (by rw [l2]; omega), List.getElem_append_right (by rw [l0]; omega), List.getElem_replicate]
      · rw [if_pos ⟨by omega, by omega⟩, List.getElem_append_right (by rw [l2]; omega), List.getElem_singleton]

theorem strictWindow_of_len (e : Int → List Bool) (z : List Int) (hz : ∀ x ∈ z, (e x).length ≤ 56) (p : Nat) : StrictWindowFrom e p z := by
  induction z generalizing p with
  | nil => trivial
  | cons x xs ih =>
    refine ⟨?_, ih (fun y hy => hz y (List.mem_cons_of_mem _ hy)) _⟩
    have h1 := hz x List.mem_cons_self
    omega

theorem last_trapped (c : List U8) (h z : List Int) (hc : c.length = 32) (hl : h.length = 5 * 512) (hh : ∀ x ∈ h, x = 0)
    (hz : z = (List.replicate 7 0 ++ List.replicate 2040 8) ++ [-(8 * 2 ^ 40)]) : Trapped 11524 c h z := by
  have hrep : h = List.replicate 2560 0 := List.eq_replicate_iff.2 ⟨hl, hh⟩
  have l0 : (hintBits 0).length = 1 := rfl
  have l1 : (respBits 0).length = 41 := by decide
  have l2 : (respBits 8).length = 42 := by decide
  have l3 : (respBits (-(8 * 2 ^ 40))).length = 50 := by
    rw [respBits_len _ (by norm_num)]
    norm_num
  refine Or.inr (Or.inr ⟨List.replicate 7 0 ++ List.replicate 2040 8, -(8 * 2 ^ 40), [], hz, ?_, ?_, ?_⟩)
  · refine strictWindow_of_len _ _ (fun x hx => ?_) 0
    rw [hh x hx, l0]; omega
  · refine strictWindow_of_len _ _ (fun x hx => ?_) _
    rcases List.mem_append.1 hx with hx | hx <;> rw [List.eq_of_mem_replicate hx]
    · rw [l1]; omega
    · rw [l2]; omega
  · have hp : (sigBits h (List.replicate 7 0 ++ List.replicate 2040 8)).length = 88527 := by
      unfold sigBits
      rw [hrep]
      simp only [List.length_append, List.flatMap_append, List.length_flatMap, List.map_replicate, List.sum_replicate, l0, l1, l2]
      norm_num
    rw [hp, l3, hc]
    exact ⟨by norm_num, Or.inr (Or.inr ⟨rfl, by norm_num, by norm_num⟩)⟩

/-- C73, non-vacuity for few shares: with the toy functions and one share a key is generated, and signing with it is undefined, for every seed and message and every
entropy but the empty one (with which the key is generated), with a buffer of the length of a signature. -/
theorem C73_reached_one_share (seed entropy msg : List U8) (hseed : seed.length = 16) (he : entropy ≠ []) :
    ∃ sk : SKey 5 4 1, Api.generate raccoon128 (utTableOf raccoon128) lastE 512 1 [] seed = .ok sk ∧
      Api.sign raccoon128 lastE 512 1 sk entropy msg (List.replicate 11524 0) = .ub := by
  have hP : raccoon128 = raccoon128 ∨ raccoon128 = raccoon192 ∨ raccoon128 = raccoon256 := Or.inl rfl
  have hd : ValidShares 1 := ⟨0, by omega, rfl⟩
  obtain ⟨sk, h0⟩ := C52_generate raccoon128 hP lastE 512 1 hd last_finish [] seed hseed
  refine ⟨sk, h0, ?_⟩
  obtain ⟨i1, i2, ut, rep, e1, e2, hs⟩ := derived_secret hP hd hseed h0 .refl
  obtain rfl : 6 = ut := Res.ok.inj e1
  obtain rfl : 8 = rep := Res.ok.inj e2
  obtain ⟨ut, rep, A', a', e1', e2', hA', ha', hse, -, -, g4⟩ := (C37_key_generation raccoon128 hP lastE 512 1 hd [] seed).2 sk h0
  obtain rfl : 6 = ut := Res.ok.inj e1'
  obtain rfl : 8 = rep := Res.ok.inj e2'
  obtain ⟨uw, rep, pkb, A, a, e3, e2', f1, f2, f3, hcase⟩ := C52_first_acceptable raccoon128 hP lastE 512 1 hd last_finish sk i1 _ hs entropy msg (List.replicate 11524 0)
  obtain rfl : 41 = uw := Res.ok.inj e3
  obtain rfl : 8 = rep := Res.ok.inj e2'
  rw [hse] at f2
  obtain rfl := Res.ok.inj (f2.symm.trans hA')
  obtain rfl := PMat.Is.unique f3 ha'
  have hkey : ∀ (n pos : Nat) (j : Fin n) (c : Fin 512), noiseVec lastE 6 128 1 8 n (lastE.shake128 []) pos j c = 0 := by
    intro n pos j c
    refine last_zero 6 n _ pos (fun i _ => ?_) j c
    have : lastE.shake128 [] i = 0 := by
      show (if ([] : List U8) = [] then (0 : U8) else if i < 512 then 1 else 2) = 0
      exact if_pos rfl
    rw [this]; decide
  have herr : ∀ (j : Fin 5) (c : Fin 512), noiseVec lastE 41 128 1 8 5 (lastE.shake128 entropy) 512 j c = 0 := by
    intro j c
    refine last_zero 41 5 _ 512 (fun i hi => ?_) j c
    have : lastE.shake128 entropy i = 2 := (if_neg he).trans (if_neg (by omega))
    rw [this]; decide
  have hR0 : ∀ (n pos : Nat), vecR (noiseVec lastE 6 128 1 8 n (lastE.shake128 []) pos) = 0 := by
    intro n pos
    funext j c
    show ((noiseVec lastE 6 128 1 8 n (lastE.shake128 []) pos j c : Int) : ZMod q) = 0
    rw [hkey, Int.cast_zero]
  have hE0 : vecR (noiseVec lastE 41 128 1 8 5 (lastE.shake128 entropy) 512) = 0 := by
    funext j c
    show ((noiseVec lastE 41 128 1 8 5 (lastE.shake128 entropy) 512 j c : Int) : ZMod q) = 0
    rw [herr, Int.cast_zero]
  have ht : PVec.val sk.pkey.t = 0 := by
    funext x y
    have := (g4 x.val x.isLt y.val y.isLt).2
    have hsm : roundZ 42 ((ringMatVec a (vecR (noiseVec lastE 6 128 1 8 4 (lastE.shake128 []) 0)) x +
        vecR (noiseVec lastE 6 128 1 8 5 (lastE.shake128 []) (4 * (8 * 1 * (128 / 8)))) x) y) = 0 := by
      have h1 : ringMatVec a (vecR (noiseVec lastE 6 128 1 8 4 (lastE.shake128 []) 0)) x = 0 := by
        unfold ringMatVec
        exact Finset.sum_eq_zero fun j _ => (congrArg (negacyclic (a x j)) (congrFun (hR0 4 0) j)).trans (negacyclic_zeroR _)
      have h2 : vecR (noiseVec lastE 6 128 1 8 5 (lastE.shake128 []) (4 * (8 * 1 * (128 / 8)))) x = 0 := congrFun (hR0 5 _) x
      rw [h1, h2, add_zero]
      show roundZ 42 0 = 0
      decide +kernel
    have e : coeffAt sk.pkey.t (512 * x.val + y.val) = 0 := this.trans hsm
    rw [coeffAt_rc x.isLt y.isLt] at e
    unfold PVec.val
    rw [MPoly.val_one]
    show (((sk.pkey.t)[x.val][0][y.val]).raw.toNat : ZMod q) = 0
    rw [e]; rfl
  have htrap : ∀ c hint z, AttemptSig raccoon128 lastE 512 1 41 8 a (PVec.val sk.pkey.t) (vecR (noiseVec lastE 6 128 1 8 4 (lastE.shake128 []) 0))
      (messageHash lastE 128 pkb msg) (lastE.shake128 entropy) 0 c hint z → Trapped 11524 c hint z := by
    intro cH hint z g
    obtain ⟨⟨cp, k1, -, k2⟩, -, -⟩ := C53_attempts raccoon128 hP lastE 512 512 1 hd [] seed sk h0 6 8 41 rfl rfl rfl A f2 a f3 _ _ 0 cH hint z g
    obtain ⟨cp', k1', i⟩ := g
    obtain rfl := Res.ok.inj (k1.symm.trans k1')
    have hcl : cH.length = 32 := by
      rw [i.hash]
      unfold challengeHash xofOut
      rw [List.length_map, List.length_range]
      rfl
    have hzf : ∀ (j : Fin 4) (x : Fin 512), unflatten 4 z j x = noiseVec lastE 41 128 1 8 4 (lastE.shake128 entropy) 0 j x := by
      intro j x
      have e := congrFun (congrFun k2 j) x
      have hb := negacyclicZ_bound (f := noiseVec lastE 6 128 1 8 4 (lastE.shake128 []) 0 j) (g := Poly.centered cp) (B := 0) (fun y => by rw [hkey, abs_zero]) x
      rw [zero_mul] at hb
      have hb' := abs_eq_zero.1 (le_antisymm hb (abs_nonneg _))
      refine e.trans ?_
      show negacyclicZ (noiseVec lastE 6 128 1 8 4 (lastE.shake128 []) 0 j) (Poly.centered cp) x + noiseVec lastE 41 128 1 8 4 (lastE.shake128 entropy) (0 * ((4 + 5) * (8 * 1 * (128 / 8)))) j x = _
      rw [hb', zero_add]
    refine last_trapped cH hint z hcl i.hlen ?_ (list_last z i.zlen fun j x => (hzf j x).trans (last_r entropy he j x))
    intro x hx
    obtain ⟨r, y, rfl⟩ := mem_iff_unflatten (n := 5) i.hlen hx
    have hW : commitW 44 a (vecR (noiseVec lastE 41 128 1 8 4 (lastE.shake128 entropy) (0 * ((4 + 5) * (8 * 1 * (128 / 8))))))
        (vecR (noiseVec lastE 41 128 1 8 5 (lastE.shake128 entropy) (0 * ((4 + 5) * (8 * 1 * (128 / 8))) + 4 * (8 * 1 * (128 / 8))))) r y =
        commitY 44 42 a (PVec.val sk.pkey.t) cp.toZ (vecR (unflatten 4 z)) r y := by
      have hz : unflatten 4 z = noiseVec lastE 41 128 1 8 4 (lastE.shake128 entropy) 0 := by funext j x; exact hzf j x
      refine commit_eq a _ _ _ _ _ r y (congrArg vecR hz) hE0 ht
    have hi : (unflatten 5 hint r y - ((commitW 44 a (vecR (noiseVec lastE 41 128 1 8 4 (lastE.shake128 entropy) (0 * ((4 + 5) * (8 * 1 * (128 / 8))))))
        (vecR (noiseVec lastE 41 128 1 8 5 (lastE.shake128 entropy) (0 * ((4 + 5) * (8 * 1 * (128 / 8))) + 4 * (8 * 1 * (128 / 8))))) r y : Int) -
        commitY 44 42 a (PVec.val sk.pkey.t) cp.toZ (vecR (unflatten 4 z)) r y)) % (31 : Nat) = 0 := i.hint r y
    rw [hW] at hi
    have hc : 2 * (unflatten 5 hint r y).natAbs < 31 := i.hcent _ (mem_unflatten (n := 5) r y i.hlen)
    omega
  have hlen : (List.replicate 11524 (0 : U8)).length = 11524 := List.length_replicate
  rw [hlen] at hcase
  rcases hcase with ⟨n, b, -, e, g1, c', hint, z, g, -, -, ht⟩ | ⟨n, hn, e, -⟩ | ⟨-, hr⟩
  · exfalso
    rcases Nat.eq_zero_or_pos n with rfl | hn
    · exact ht (htrap _ _ _ g)
    · obtain ⟨c', hint, z, g, hr⟩ := g1 0 hn
      exact hr.2 (htrap _ _ _ g)
  · exact e
  · exfalso
    obtain ⟨c', hint, z, g, hr⟩ := hr 0 (by omega)
    exact hr.2 (htrap _ _ _ g)

end Raccoon
