import Verif.Proofs.MaskSampler
import Verif.Props.Rng
import Verif.Model.Api
import Mathlib.Algebra.Order.BigOperators.Group.Finset
/-!
# C20–C23, C39 (consequence), C50, C51: masked arithmetic
(`polynomial/masked_poly.hpp`, `poly_vec.hpp`, `poly_mat.hpp`, mask sampling of `poly.hpp`)
-/
namespace Raccoon
attribute [-instance] Monoid.toNPow
open Finset

/-! ### C20 -/

/-- C20: for every power-of-two number of shares and every state of the mask generators, `zero_encoding` has no undefined
behaviour; when it returns, all shares are canonical, their sum is zero, and `decode` returns the zero polynomial. -/
theorem C20_zero_encoding (E : Ext) (fuel d : Nat) (hd : ∃ m, d = 2 ^ m) (g : Mrng d) :
    (MPoly.zeroEncoding E fuel g ≠ .ub) ∧
    ∀ v g', MPoly.zeroEncoding E fuel g = .ok (v, g') → MPoly.Can v ∧ MPoly.val v = 0 ∧ MPoly.decode v = #v[Poly.zero] := by
  have h := MPoly.zeroEncoding_spec E fuel hd g
  refine ⟨h.ne_ub, ?_⟩
  intro v g' e
  rw [e] at h
  obtain ⟨h1, h2⟩ := h
  refine ⟨h1, h2, ?_⟩
  refine MPoly.ext_one (MPoly.decode_can h1) (MPoly.can_one.2 Poly.zero_can) ?_
  rw [MPoly.decode_val h1, MPoly.val_one]
  show MPoly.val v = Poly.zero.toZ
  rw [Poly.zero_toZ]; exact h2

/-- C20: the same for vectors. -/
theorem C20_zero_encoding_vec (E : Ext) (fuel rows d : Nat) (hd : ∃ m, d = 2 ^ m) (g : Mrng d) :
    (PVec.zeroEncoding E fuel rows g ≠ .ub) ∧
    ∀ v g', PVec.zeroEncoding E fuel rows g = .ok (v, g') → PVec.Can v ∧ PVec.val v = 0 ∧ PVec.decode v = PVec.zero rows 1 := by
  have h := PVec.zeroEncoding_spec E fuel rows hd g
  refine ⟨h.ne_ub, ?_⟩
  intro v g' e
  rw [e] at h
  obtain ⟨h1, h2⟩ := h
  refine ⟨h1, h2, ?_⟩
  refine PVec.ext_one (PVec.decode_spec h1).1 (PVec.zero_spec rows 1).1 ?_
  rw [(PVec.decode_spec h1).2, (PVec.zero_spec rows 1).2]; exact h2

/-- C20: the masks requested by `zero_encoding` with 2^m shares are exactly those of `maskSchedule m`, in order: round `j` masks
every share whose bit `j` is 0 together with the share 2^j further. -/
theorem C20_schedule (E : Ext) (fuel m : Nat) (g : Mrng (2 ^ m)) :
    MPoly.zeroEncoding E fuel g =
      (maskSchedule m).foldlM (fun s (p : Nat × Nat) => MPoly.maskPair E fuel p.1 p.2 s) (MPoly.zero (2 ^ m), g) :=
  zeroEncoding_schedule E fuel m g

/-- C20: every request names an existing mask generator (index < d−1) and existing, distinct shares; every share takes part in
every round exactly once, as the receiver of the mask or of its negation. -/
theorem C20_schedule_bounds (m : Nat) :
    (∀ p ∈ maskSchedule m, p.1 < 2 ^ m - 1 ∧ p.1 + p.2 < 2 ^ m ∧ 0 < p.2) ∧
    (∀ s < 2 ^ m, ∀ j < m, (if s / 2 ^ j % 2 = 0 then (s, 2 ^ j) ∈ maskSchedule m else (s - 2 ^ j, 2 ^ j) ∈ maskSchedule m)) ∧
    (maskSchedule m).Nodup := by
  refine ⟨maskSchedule_bounds m, ?_, ?_⟩
  · intro s hs j hj
    have mem : ∀ i, i < 2 ^ m → i / 2 ^ j % 2 = 0 → (i, 2 ^ j) ∈ maskSchedule m := by
      intro i hi h
      unfold maskSchedule
      rw [List.mem_flatMap]
      refine ⟨j, List.mem_range.2 hj, List.mem_map.2 ⟨i, ?_, rfl⟩⟩
      rw [List.mem_filter]
      exact ⟨List.mem_range.2 hi, by simpa using h⟩
    split
    · rename_i h; exact mem s hs h
    · rename_i h
      refine mem _ (Nat.lt_of_le_of_lt (Nat.sub_le _ _) hs) ?_
      have hpos : 0 < 2 ^ j := Nat.two_pow_pos j
      have hge : 2 ^ j ≤ s := by
        by_contra hlt
        apply h
        rw [Nat.div_eq_of_lt (by omega)]
      have e : s / 2 ^ j = (s - 2 ^ j) / 2 ^ j + 1 := by
        conv_lhs => rw [show s = (s - 2 ^ j) + 2 ^ j by omega]
        rw [Nat.add_div_right _ hpos]
      omega
  · unfold maskSchedule
    rw [List.nodup_flatMap]
    constructor
    · intro j _
      refine List.Nodup.map (fun a b h => (Prod.mk.inj h).1) (List.nodup_range.filter _)
    · refine List.nodup_range.imp ?_
      intro a b hab x hx hy
      rw [List.mem_map] at hx hy
      obtain ⟨i, -, rfl⟩ := hx
      obtain ⟨i', -, h⟩ := hy
      exact hab (Nat.pow_right_injective (Nat.le_refl 2) (Prod.mk.inj h).2.symm)

/-- A concrete choice of the external primitives: the permutation always yields ones. -/
def toyE : Ext := ⟨fun _ _ => 0, fun _ _ => 0, fun _ => Vector.replicate 5 1, id, 0⟩

/-- Non-vacuity: with two shares the encoding exists and its shares are not zero. -/
example : (match MPoly.zeroEncoding toyE 512 (Mrng.new toyE 2) with | .ok r => (r.1[0][1]).raw == 1 | _ => false) = true := by
  decide +kernel
example : maskSchedule 2 = [(0, 1), (2, 1), (0, 2), (1, 2)] := by decide

/-! ### C21 -/

/-- C21: refreshing a canonical sharing is never undefined and keeps the decoded polynomial, bit for bit. -/
theorem C21_refresh (E : Ext) (fuel d : Nat) (hd : ∃ m, d = 2 ^ m) (a : MPoly d) (ha : MPoly.Can a) (g : Mrng d) :
    (MPoly.refresh E fuel a g ≠ .ub) ∧
    ∀ v g', MPoly.refresh E fuel a g = .ok (v, g') → MPoly.Can v ∧ MPoly.val v = MPoly.val a ∧ MPoly.decode v = MPoly.decode a := by
  have h := MPoly.refresh_spec E fuel hd ha g
  refine ⟨h.ne_ub, ?_⟩
  intro v g' e
  rw [e] at h
  obtain ⟨h1, h2⟩ := h
  exact ⟨h1, h2, MPoly.ext_one (MPoly.decode_can h1) (MPoly.decode_can ha) (by rw [MPoly.decode_val h1, MPoly.decode_val ha]; exact h2)⟩

/-- C21: the same for vectors. -/
theorem C21_refresh_vec (E : Ext) (fuel rows d : Nat) (hd : ∃ m, d = 2 ^ m) (a : PVec rows d) (ha : PVec.Can a) (g : Mrng d) :
    (PVec.refresh E fuel a g ≠ .ub) ∧
    ∀ v g', PVec.refresh E fuel a g = .ok (v, g') → PVec.Can v ∧ PVec.val v = PVec.val a ∧ PVec.decode v = PVec.decode a := by
  have h := PVec.refresh_spec E fuel hd ha g
  refine ⟨h.ne_ub, ?_⟩
  intro v g' e
  rw [e] at h
  obtain ⟨h1, h2⟩ := h
  exact ⟨h1, h2, PVec.ext_one (PVec.decode_spec h1).1 (PVec.decode_spec ha).1 (by rw [(PVec.decode_spec h1).2, (PVec.decode_spec ha).2]; exact h2)⟩

theorem mem_replicate_get {α : Type} (d : Nat) (x : α) (i : Nat) (h : i < d) : (Vector.replicate d x)[i] = x := Vector.getElem_replicate h

/-- Non-vacuity: a canonical, non-trivial sharing (two shares 5 + 5x + …, decoding to 10 + 10x + …). -/
example : MPoly.Can (MPoly.fillWith 2 ⟨5⟩) ∧ ∀ i, MPoly.val (MPoly.fillWith 2 ⟨5⟩) i = 10 := by
  have e : ∀ s (h : s < 2), (MPoly.fillWith 2 ⟨5⟩)[s] = Poly.fillWith ⟨5⟩ := fun s h => Vector.getElem_replicate h
  have e' : ∀ s (h : s < 512), (Poly.fillWith ⟨5⟩)[s] = ⟨5⟩ := fun s h => Vector.getElem_replicate h
  constructor
  · intro s hs i hi
    unfold Zq.Can
    rw [e s hs, e' i hi]
    decide
  · intro i
    unfold MPoly.val
    rw [Fin.sum_univ_two]
    have : ∀ s : Fin 2, ((MPoly.fillWith 2 ⟨5⟩)[s.val]).toZ i = 5 := by
      intro s
      unfold Poly.toZ
      rw [e s.val s.isLt, e' i.val i.isLt]
      rfl
    show ((MPoly.fillWith 2 ⟨5⟩)[(0 : Fin 2).val]).toZ i + ((MPoly.fillWith 2 ⟨5⟩)[(1 : Fin 2).val]).toZ i = 10
    rw [this, this]
    norm_num

/-! ### C22 -/

/-- C22: `add_rep_noise` is never undefined; when it returns, the value of the sharing has grown by exactly the sum over all
repetitions and shares of the sampled noise polynomials, everything is canonical, and exactly rep·d·⌊𝜅/8⌋ bytes were consumed. -/
theorem C22_add_rep_noise (E : Ext) (fuel u rep κ d idx : Nat) (hd : ∃ m, d = 2 ^ m) (hu : 0 < u) (hu' : u ≤ 49)
    (a : MPoly d) (ha : MPoly.Can a) (prng : Prng) (g : Mrng d) :
    (MPoly.addRepNoise E fuel u rep κ idx a prng g ≠ .ub) ∧
    ∀ v prng' g', MPoly.addRepNoise E fuel u rep κ idx a prng g = .ok (v, prng', g') →
      MPoly.Can v ∧ MPoly.val v = MPoly.val a + toR (totalNoise E u κ d rep idx prng.stream prng.pos) ∧
      prng' = prng.advance (rep * d * (κ / 8)) := by
  have h := MPoly.addRepNoise_spec E fuel (κ := κ) (rep := rep) (idx := idx) hd hu hu' prng g ha
  refine ⟨h.ne_ub, ?_⟩
  intro v prng' g' e
  rw [e] at h
  exact h

/-- C22: for a vector, row `i` gets the noise drawn with index `i` from the `i`-th stretch of the PRNG stream. -/
theorem C22_add_rep_noise_vec (E : Ext) (fuel u rep κ rows d : Nat) (hd : ∃ m, d = 2 ^ m) (hu : 0 < u) (hu' : u ≤ 49)
    (a : PVec rows d) (ha : PVec.Can a) (prng : Prng) (g : Mrng d) :
    (PVec.addRepNoise E fuel u rep κ a prng g ≠ .ub) ∧
    ∀ v prng' g', PVec.addRepNoise E fuel u rep κ a prng g = .ok (v, prng', g') →
      PVec.Can v ∧ (∀ i : Fin rows, PVec.val v i = PVec.val a i +
        toR (totalNoise E u κ d rep i.val prng.stream (prng.pos + i.val * (rep * d * (κ / 8))))) ∧
      prng' = prng.advance (rows * (rep * d * (κ / 8))) := by
  have h := PVec.addRepNoise_spec E fuel (κ := κ) (rep := rep) hd hu hu' prng g ha
  refine ⟨h.ne_ub, ?_⟩
  intro v prng' g' e
  rw [e] at h
  exact h

/-- C22: each single noise coefficient lies in [−2^(u−1), 2^(u−1)), hence the total is bounded by rep·d·2^(u−1). -/
theorem C22_noise_bound (E : Ext) (u rep κ d idx : Nat) (hu : 0 < u) (s : Nat → U8) (pos : Nat) (c : Fin 512) :
    (∀ iRep sidx, -(2 ^ (u - 1) : Int) ≤ noiseAt E u κ d idx s pos iRep sidx c ∧ noiseAt E u κ d idx s pos iRep sidx c < 2 ^ (u - 1)) ∧
    |totalNoise E u κ d rep idx s pos c| ≤ rep * d * 2 ^ (u - 1) := by
  have h1 : ∀ iRep sidx, -(2 ^ (u - 1) : Int) ≤ noiseAt E u κ d idx s pos iRep sidx c ∧ noiseAt E u κ d idx s pos iRep sidx c < 2 ^ (u - 1) :=
    fun iRep sidx => bmod_range _ hu
  refine ⟨h1, ?_⟩
  unfold totalNoise
  refine (Finset.abs_sum_le_sum_abs _ _).trans ?_
  have h2 : ∀ iRep ∈ range rep, |∑ sidx ∈ range d, noiseAt E u κ d idx s pos iRep sidx c| ≤ (d : Int) * 2 ^ (u - 1) := by
    intro iRep _
    refine (Finset.abs_sum_le_sum_abs _ _).trans ?_
    refine (Finset.sum_le_card_nsmul _ _ ((2 : Int) ^ (u - 1)) ?_).trans ?_
    · intro sidx _
      have := h1 iRep sidx
      rw [abs_le]
      generalize (2 : Int) ^ (u - 1) = b at *
      omega
    · rw [Finset.card_range, nsmul_eq_mul]
  refine (Finset.sum_le_card_nsmul _ _ _ h2).trans ?_
  rw [Finset.card_range, nsmul_eq_mul, mul_assoc]

/-! ### C23 -/

/-- C23: the masked matrix-vector product decodes to the product with the decoded vector. -/
theorem C23_matvec (A : PMat rows cols) (v : PVec cols d) (hA : PMat.Can A) (hv : PVec.Can v) :
    PVec.decode (A.mulVec v) = A.mulVec (PVec.decode v) ∧ PVec.val (A.mulVec v) = matVec (PMat.val A) (PVec.val v) := by
  have h1 := PMat.mulVec_spec hA hv
  have h2 := PVec.decode_spec hv
  have h3 := PMat.mulVec_spec hA h2.1
  have h4 := PVec.decode_spec h1.1
  exact ⟨PVec.ext_one h4.1 h3.1 (by rw [h4.2, h3.2, h1.2, h2.2]), h1.2⟩

/-- C23: multiplication by an unmasked polynomial. -/
theorem C23_mul_poly (v : PVec rows d) (c : Poly) (hv : PVec.Can v) (hc : c.Can) :
    PVec.decode (v.mulPoly c) = (PVec.decode v).mulPoly c ∧ PVec.val (v.mulPoly c) = fun r => PVec.val v r * c.toZ := by
  have h1 := PVec.mulPoly_spec hv hc
  have h2 := PVec.decode_spec hv
  have h3 := PVec.mulPoly_spec h2.1 hc
  have h4 := PVec.decode_spec h1.1
  exact ⟨PVec.ext_one h4.1 h3.1 (by rw [h4.2, h3.2, h1.2, h2.2]), h1.2⟩

/-- C23: addition and subtraction. -/
theorem C23_add_sub (v w : PVec rows d) (hv : PVec.Can v) (hw : PVec.Can w) :
    PVec.decode (v.add w) = (PVec.decode v).add (PVec.decode w) ∧ PVec.val (v.add w) = PVec.val v + PVec.val w ∧
    PVec.decode (v.sub w) = (PVec.decode v).sub (PVec.decode w) ∧ PVec.val (v.sub w) = PVec.val v - PVec.val w := by
  have a1 := PVec.add_spec hv hw
  have s1 := PVec.sub_spec hv hw
  have dv := PVec.decode_spec hv
  have dw := PVec.decode_spec hw
  have a2 := PVec.add_spec dv.1 dw.1
  have s2 := PVec.sub_spec dv.1 dw.1
  have a3 := PVec.decode_spec a1.1
  have s3 := PVec.decode_spec s1.1
  exact ⟨PVec.ext_one a3.1 a2.1 (by rw [a3.2, a2.2, a1.2, dv.2, dw.2]), a1.2,
    PVec.ext_one s3.1 s2.1 (by rw [s3.2, s2.2, s1.2, dv.2, dw.2]), s1.2⟩

/-- C23: transforming the shares transforms the value; both transforms always succeed on canonical sharings. -/
theorem C23_ntt (v : PVec rows d) (hv : PVec.Can v) :
    (∃ r, v.ntt = .ok r ∧ (PVec.decode v).ntt = .ok (PVec.decode r)) ∧ (∃ r, v.intt = .ok r ∧ (PVec.decode v).intt = .ok (PVec.decode r)) := by
  have dv := PVec.decode_spec hv
  constructor
  · obtain ⟨r, e, h1, h2⟩ := PVec.ntt_spec hv
    obtain ⟨r', e', h1', h2'⟩ := PVec.ntt_spec dv.1
    have dr := PVec.decode_spec h1
    refine ⟨r, e, ?_⟩
    rw [e']
    exact congrArg Res.ok (PVec.ext_one h1' dr.1 (by rw [h2', dr.2, h2, dv.2]))
  · obtain ⟨r, e, h1, h2⟩ := PVec.intt_spec hv
    obtain ⟨r', e', h1', h2'⟩ := PVec.intt_spec dv.1
    have dr := PVec.decode_spec h1
    refine ⟨r, e, ?_⟩
    rw [e']
    exact congrArg Res.ok (PVec.ext_one h1' dr.1 (by rw [h2', dr.2, h2, dv.2]))

/-- C23: together: the sequence `ntt`, matrix product, `intt` used by key generation and signing computes, under the masking, the
matrix-vector product over Z_q[x]/(x^512+1) with the matrix whose transform is `A`. -/
theorem C23_ring_product (A : PMat rows cols) (v : PVec cols d) (hA : PMat.Can A) (hv : PVec.Can v)
    (a : Fin rows → Fin cols → RPoly) (ha : ∀ r c, nttR (a r c) = PMat.val A r c) :
    ∃ v' w, v.ntt = .ok v' ∧ (A.mulVec v').intt = .ok w ∧ PVec.Can w ∧
      ∀ r, PVec.val w r = ∑ c, negacyclic (a r c) (PVec.val v c) := by
  obtain ⟨v', e1, h1, h2⟩ := PVec.ntt_spec hv
  have hm := PMat.mulVec_spec hA h1
  obtain ⟨w, e2, h3, h4⟩ := PVec.intt_spec hm.1
  refine ⟨v', w, e1, e2, h3, fun r => ?_⟩
  rw [h4, hm.2]
  show inttR (∑ c, PMat.val A r c * PVec.val v' c) = _
  rw [inttR_sum]
  apply Finset.sum_congr rfl
  intro c _
  rw [h2, ← ha r c, ← nttR_negacyclic, inttR_nttR]

/-- Non-vacuity of the hypothesis on `a`: every matrix of transforms comes from a matrix of polynomials. -/
example (A : PMat rows cols) : ∃ a : Fin rows → Fin cols → RPoly, ∀ r c, nttR (a r c) = PMat.val A r c :=
  ⟨fun r c => inttR (PMat.val A r c), fun _ _ => nttR_inttR _⟩
example : PMat.Can (Vector.replicate (2 * 3) (Poly.fillWith ⟨7⟩) : PMat 2 3) := by
  intro i hi j hj
  unfold Zq.Can
  rw [Vector.getElem_replicate]
  unfold Poly.fillWith
  rw [Vector.getElem_replicate]
  decide

/-! ### C39, consequence for refreshing keys -/

/-- C39: because the mask generators always start from the same state, refreshing a secret key adds the *same* vector of shares
`Z` to every key, every time; `Z` depends only on the share count and the dimension (or no refresh ever finishes within the budget). -/
theorem C39_refresh_adds_constant (E : Ext) (fuel l d : Nat) :
    (∃ Z : PVec l d, ∀ (k : Nat) (sk : SKey k l d), sk.refresh E fuel = .ok { sk with s := sk.s.add Z }) ∨
    (∀ (k : Nat) (sk sk' : SKey k l d), sk.refresh E fuel ≠ .ok sk') := by
  cases hz : PVec.zeroEncoding E fuel l (Mrng.new E d) with
  | ok r =>
    left
    refine ⟨r.1, fun k sk => ?_⟩
    unfold SKey.refresh
    rw [PVec.refresh_eq, hz]
    rfl
  | ub =>
    right
    intro k sk sk' h
    unfold SKey.refresh at h
    rw [PVec.refresh_eq, hz] at h
    cases h
  | nofuel =>
    right
    intro k sk sk' h
    unfold SKey.refresh at h
    rw [PVec.refresh_eq, hz] at h
    cases h

/-! ### C50 -/

/-- C50: matrix expansion is never undefined; when it returns, every entry is canonical and entry (r, c) is the uniform sampler's output for
`'A' ‖ r ‖ c ‖ 0⁵ ‖ seed`. -/
theorem C50_expandA (E : Ext) (fuel k l : Nat) (seed : List U8) :
    PMat.expandA E fuel k l seed ≠ .ub ∧
    ∀ A, PMat.expandA E fuel k l seed = .ok A → PMat.Can A ∧
      ∀ (r : Fin k) (c : Fin l), Poly.sampleQ E fuel ([0x41, BitVec.ofNat 8 r.val, BitVec.ofNat 8 c.val, 0, 0, 0, 0, 0]) seed = .ok (A.at' r c) := by
  have h := expandA_safe E fuel k l seed
  refine ⟨h.ne_ub, ?_⟩
  intro A e
  rw [e] at h
  exact h

/-- C50: two different positions (of at most 256 rows and columns) use different hash inputs. -/
theorem C50_headers_distinct (r c r' c' : Nat) (hr : r < 256) (hc : c < 256) (hr' : r' < 256) (hc' : c' < 256) (seed seed' : List U8)
    (h : [0x41, BitVec.ofNat 8 r, BitVec.ofNat 8 c, 0, 0, 0, 0, (0 : U8)] ++ seed = [0x41, BitVec.ofNat 8 r', BitVec.ofNat 8 c', 0, 0, 0, 0, (0 : U8)] ++ seed') :
    r = r' ∧ c = c' ∧ seed = seed' := by
  simp only [List.cons_append, List.nil_append, List.cons.injEq, true_and] at h
  obtain ⟨h1, h2, h3⟩ := h
  have e1 := congrArg BitVec.toNat h1
  have e2 := congrArg BitVec.toNat h2
  rw [BitVec.toNat_ofNat, BitVec.toNat_ofNat] at e1 e2
  exact ⟨by omega, by omega, h3⟩

/-- C50: signer and verifier obtain the same matrix from the same seed, whatever their budgets. -/
theorem C50_deterministic (E : Ext) (fuel fuel' k l : Nat) (seed : List U8) (A A' : PMat k l)
    (h : PMat.expandA E fuel k l seed = .ok A) (h' : PMat.expandA E fuel' k l seed = .ok A') : A = A' := by
  have h1 := expandA_mono (Nat.le_max_left fuel fuel') h
  have h2 := expandA_mono (Nat.le_max_right fuel fuel') h'
  exact Res.ok.inj (h1.symm.trans h2)

/-- Non-vacuity: with the toy primitives the matrix exists. -/
example (seed : List U8) : ∃ A : PMat 5 4, PMat.expandA toyE 512 5 4 seed = .ok A := by
  refine expandA_ok toyE fun r c _ _ => ?_
  have : accepted (fun _ => (0 : U8)) 512 = List.replicate 512 0 := by
    unfold accepted
    have e : qWord (fun _ => (0 : U8)) = fun _ => 0 := by
      funext j; unfold qWord streamWord; rfl
    rw [e, List.map_const', List.length_range, List.filter_replicate]
    rfl
  rw [sampleQ_eq]
  show ∃ p, (if 512 ≤ (accepted (fun _ => (0 : U8)) 512).length then _ else _) = _
  rw [this, List.length_replicate, if_pos (Nat.le_refl _)]
  exact ⟨_, rfl⟩

/-! ### C51 -/

/-- C51: the mask sampler for generator `idx < d−1` returns the polynomial of the first 512 acceptable words of that generator, having used
it exactly as often as needed and no other generator at all; it fails to finish only if the budget contains fewer acceptable words. -/
theorem C51_mask_sampler (E : Ext) (d fuel idx : Nat) (h : idx < d - 1) (m : Mrng d) :
    (512 ≤ (acceptedMasks E m.state[idx] fuel).length →
      ∃ k, k ≤ fuel ∧ (acceptedMasks E m.state[idx] k).length = 512 ∧
        (∀ k' < k, (acceptedMasks E m.state[idx] k').length < 512) ∧
        Poly.samplePolynomial E fuel idx m = .ok (listPoly (acceptedMasks E m.state[idx] k), m.used E idx k h)) ∧
    (¬ 512 ≤ (acceptedMasks E m.state[idx] fuel).length → Poly.samplePolynomial E fuel idx m = .nofuel) :=
  samplePolynomial_eq E fuel h m

/-- C51: an index without generator yields the zero mask and touches nothing. -/
theorem C51_no_generator (E : Ext) (d fuel idx : Nat) (h : d - 1 ≤ idx) (m : Mrng d) :
    Poly.samplePolynomial E fuel idx m = .ok (Poly.zero, m) := by
  unfold Poly.samplePolynomial; rw [if_pos h]

/-- C51: masks have canonical coefficients. -/
theorem C51_canonical (E : Ext) (d fuel idx : Nat) (m m' : Mrng d) (p : Poly)
    (h : Poly.samplePolynomial E fuel idx m = .ok (p, m')) : p.Can := by
  have := samplePolynomial_safe E fuel idx m
  rw [h] at this
  exact this

/-- Non-vacuity: a generator with enough acceptable words. -/
example : 512 ≤ (acceptedMasks toyE (Vector.replicate 5 0) 512).length := by
  have : ∀ j, maskWord toyE (Vector.replicate 5 0) j < q := by
    intro j
    unfold maskWord
    cases j with
    | zero => decide
    | succ j => rw [Function.iterate_succ_apply']; show ((Vector.replicate 5 (1 : U64))[0]).toNat % 2 ^ 49 < q; decide
  unfold acceptedMasks
  rw [List.filter_eq_self.2, List.length_map, List.length_range]
  intro a ha
  rw [List.mem_map] at ha
  obtain ⟨j, -, rfl⟩ := ha
  simpa using this j

end Raccoon
