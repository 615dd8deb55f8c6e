import Verif.Props.Hash
import Verif.Props.Sampling
import Verif.Props.Masked
import Verif.Proofs.Noise
/-!
# C60: the uses of SHAKE256 are separated by the first byte of the input
-/
namespace Raccoon
attribute [-instance] Monoid.toNPow

/-- `E'` differs from `E` at most in what SHAKE256 returns on inputs that do not start with the byte `b`. -/
def SameOn (b : U8) (E E' : Ext) : Prop :=
  E'.shake128 = E.shake128 ∧ E'.asconP6 = E.asconP6 ∧ E'.asconP12 = E.asconP12 ∧ E'.ascon80pqIV = E.ascon80pqIV ∧
    ∀ m, m.head? = some b → E'.shake256 m = E.shake256 m

theorem sampleQ_sameOn {b : U8} {E E' : Ext} (h : SameOn b E E') (fuel : Nat) (hdr seed : List U8) (hh : hdr.head? = some b) :
    Poly.sampleQ E' fuel hdr seed = Poly.sampleQ E fuel hdr seed := by
  have : (hdr ++ seed).head? = some b := by
    cases hdr with
    | nil => cases hh
    | cons x t => exact hh
  rw [sampleQ_eq, sampleQ_eq, h.2.2.2.2 _ this]

theorem Mrng.get_congr {E E' : Ext} (h : E'.asconP6 = E.asconP6) (m : Mrng d) (i : Nat) : m.get E' i = m.get E i := by
  unfold Mrng.get
  rw [h]

theorem samplePolyLoop_congr {E E' : Ext} (h : E'.asconP6 = E.asconP6) (idx : Nat) : ∀ (n : Nat) (m : Mrng d) (p : Poly) (ci : Nat),
    Poly.samplePolyLoop E' idx n m p ci = Poly.samplePolyLoop E idx n m p ci
  | 0, m, p, ci => rfl
  | n + 1, m, p, ci => by
    unfold Poly.samplePolyLoop
    simp only [Mrng.get_congr h, samplePolyLoop_congr h idx n]

theorem samplePolynomial_congr {E E' : Ext} (h : E'.asconP6 = E.asconP6) (fuel idx : Nat) (m : Mrng d) :
    Poly.samplePolynomial E' fuel idx m = Poly.samplePolynomial E fuel idx m := by
  unfold Poly.samplePolynomial
  rw [samplePolyLoop_congr h]

theorem maskPair_congr {E E' : Ext} (h : E'.asconP6 = E.asconP6) (fuel sidx off : Nat) (s : MPoly d × Mrng d) :
    MPoly.maskPair E' fuel sidx off s = MPoly.maskPair E fuel sidx off s := by
  unfold MPoly.maskPair
  rw [samplePolynomial_congr h]

theorem zeroEncLoop_congr {E E' : Ext} (h : E'.asconP6 = E.asconP6) (fuel : Nat) : ∀ (n dIdx : Nat) (s : MPoly d × Mrng d),
    MPoly.zeroEncLoop E' fuel n dIdx s = MPoly.zeroEncLoop E fuel n dIdx s
  | 0, _, _ => rfl
  | n + 1, dIdx, s => by
    unfold MPoly.zeroEncLoop
    simp only [maskPair_congr h, zeroEncLoop_congr h fuel n]

theorem zeroEncoding_congr {E E' : Ext} (h : E'.asconP6 = E.asconP6) (fuel : Nat) (m : Mrng d) :
    MPoly.zeroEncoding E' fuel m = MPoly.zeroEncoding E fuel m := by
  unfold MPoly.zeroEncoding
  simp only [maskPair_congr h, zeroEncLoop_congr h]

theorem mrefresh_congr {E E' : Ext} (h : E'.asconP6 = E.asconP6) (fuel : Nat) (a : MPoly d) (m : Mrng d) :
    MPoly.refresh E' fuel a m = MPoly.refresh E fuel a m := by
  unfold MPoly.refresh
  rw [zeroEncoding_congr h]

/-- C60: matrix expansion only uses inputs that start with 'A'. -/
theorem C60_expandA (E E' : Ext) (h : SameOn 0x41 E E') (fuel k l : Nat) (seed : List U8) : PMat.expandA E' fuel k l seed = PMat.expandA E fuel k l seed := by
  unfold PMat.expandA
  have : ∀ x y : U8, Poly.sampleQ E' fuel [0x41, x, y, 0, 0, 0, 0, 0] seed = Poly.sampleQ E fuel [0x41, x, y, 0, 0, 0, 0, 0] seed :=
    fun x y => sampleQ_sameOn h fuel _ seed rfl
  simp only [this]

/-- C60: the challenge polynomial only uses inputs that start with 'c'. -/
theorem C60_chalPoly (E E' : Ext) (h : SameOn 0x63 E E') (fuel ω : Nat) (c : List U8) : Poly.chalPoly E' fuel ω c = Poly.chalPoly E fuel ω c := by
  have e : E'.shake256 ([0x63, BitVec.ofNat 8 ω, 0, 0, 0, 0, 0, 0] ++ c) = E.shake256 ([0x63, BitVec.ofNat 8 ω, 0, 0, 0, 0, 0, 0] ++ c) := h.2.2.2.2 _ rfl
  obtain ⟨h1, h2⟩ := chalPoly_eq E fuel ω c _ rfl
  obtain ⟨k1, k2⟩ := chalPoly_eq E' fuel ω c _ e.symm
  by_cases hc : ω ≤ chalCount (E.shake256 ([0x63, BitVec.ofNat 8 ω, 0, 0, 0, 0, 0, 0] ++ c)) fuel
  · obtain ⟨m, -, hm, e1⟩ := h1 hc
    obtain ⟨m', -, hm', e2⟩ := k1 hc
    rw [e1, e2]
    refine congrArg Res.ok ?_
    apply Vector.ext
    intro i hi
    apply Zq.ext_nat
    rw [chalSpec_get _ _ _ hi, chalSpec_get _ _ _ hi]
    have hf : ∀ {m n : Nat} {s : Nat → U8} (_ : m ≤ n) (_ : chalCount s m = chalCount s n),
        (List.range n).find? (fun j => chalPos s j == i) = (List.range m).find? (fun j => chalPos s j == i) := by
      intro m n s hmn hc
      obtain ⟨k, rfl⟩ : ∃ k, n = m + k := ⟨n - m, by omega⟩
      rw [List.range_add, List.find?_append]
      cases hfm : (List.range m).find? (fun j => chalPos s j == i) with
      | some j => rfl
      | none =>
        rw [Option.none_or, List.find?_eq_none]
        intro x hx
        rw [beq_iff_eq]
        intro hxi
        have hsub : (Finset.range m).image (chalPos s) ⊆ (Finset.range (m + k)).image (chalPos s) :=
          Finset.image_subset_image (Finset.range_subset_range.2 (by omega))
        have heq := Finset.eq_of_subset_of_card_le hsub (by unfold chalCount at hc; omega)
        obtain ⟨y, hy, rfl⟩ := List.mem_map.1 hx
        have : chalPos s (m + y) ∈ (Finset.range m).image (chalPos s) := by
          rw [heq]
          exact Finset.mem_image_of_mem _ (Finset.mem_range.2 (by have := List.mem_range.1 hy; omega))
        obtain ⟨j, hj, hje⟩ := Finset.mem_image.1 this
        have := List.find?_eq_none.1 hfm j (List.mem_range.2 (Finset.mem_range.1 hj))
        rw [beq_iff_eq] at this
        exact this (hje.trans hxi)
    rcases le_total m m' with hle | hle
    · rw [hf hle (hm.trans hm'.symm)]
    · rw [hf hle (hm'.trans hm.symm)]
  · rw [h2 hc, k2 hc]

/-- C60: the challenge hash only uses inputs that start with 'h'. -/
theorem C60_chalHash (E E' : Ext) (h : SameOn 0x68 E E') (κ : Nat) (w : PVec k 1) (μ : List U8) : chalHash E' κ w μ = chalHash E κ w μ := by
  rw [C40_hash_input, C40_hash_input]
  unfold xofOut
  rw [h.2.2.2.2 _ rfl]

/-- C60: the noise sampler, hence `add_rep_noise`, only uses inputs that start with 'u'. -/
theorem C60_addRepNoise (E E' : Ext) (h : SameOn 0x75 E E') (fuel u rep κ : Nat) (hu : 0 < u) (hu' : u ≤ 63) (a : PVec rows d) (prng : Prng) (m : Mrng d) :
    PVec.addRepNoise E' fuel u rep κ a prng m = PVec.addRepNoise E fuel u rep κ a prng m := by
  have hU : ∀ (x y z : U8) (σ : List U8), MPoly.sampleU E' u [0x75, x, y, z, 0, 0, 0, 0] σ = MPoly.sampleU E u [0x75, x, y, z, 0, 0, 0, 0] σ := by
    intro x y z σ
    rw [sampleU_eq E' hu hu', sampleU_eq E hu hu', h.2.2.2.2 ([0x75, x, y, z, 0, 0, 0, 0] ++ σ) rfl]
  unfold PVec.addRepNoise MPoly.addRepNoise MPoly.noiseRep MPoly.noiseShare
  simp only [hU, mrefresh_congr h.2.1]

/-- C60: saving and loading a secret key only use inputs that start with 'K'. -/
theorem C60_key_bytes (P : Par) (E E' : Ext) (h : SameOn 0x4b E E') (fuel d : Nat) (sk : SKey P.k P.l d) (entropy buf : List U8) :
    Api.skAsBytes P E' fuel sk entropy buf = Api.skAsBytes P E fuel sk entropy buf ∧ Api.skFromBytes P E' fuel d buf = Api.skFromBytes P E fuel d buf := by
  have hQ : ∀ (x y : U8) (σ : List U8), Poly.sampleQ E' fuel [0x4b, x, y, 0, 0, 0, 0, 0] σ = Poly.sampleQ E fuel [0x4b, x, y, 0, 0, 0, 0, 0] σ :=
    fun x y σ => sampleQ_sameOn h fuel _ σ rfl
  constructor
  · unfold Api.skAsBytes SKey.toBytes maskCompress compressShare Prng.new
    simp only [hQ, h.1]
  · unfold Api.skFromBytes SKey.fromBytes maskDecompress
    simp only [hQ]

/-- C60: refreshing uses no hash function at all. -/
theorem C60_refresh (P : Par) (E E' : Ext) (h : E'.asconP6 = E.asconP6) (fuel : Nat) (sk : SKey P.k P.l d) : Api.refresh P E' fuel sk = Api.refresh P E fuel sk := by
  have hm : (Mrng.new E' d : Mrng d) = Mrng.new E d := by
    unfold Mrng.new
    rfl
  unfold Api.refresh SKey.refresh PVec.refresh
  rw [hm]
  simp only [mrefresh_congr h]

/-- C60: the five first bytes are different. -/
theorem C60_distinct : [(0x41 : U8), 0x63, 0x68, 0x75, 0x4b].Nodup := by decide

/-- Non-vacuity: functions that really differ outside one domain. -/
example : SameOn 0x41 ⟨fun _ _ => 0, fun _ _ => 0, id, id, 0⟩ ⟨fun _ _ => 0, fun m _ => if m.head? = some 0x41 then 0 else 1, id, id, 0⟩ := by
  refine ⟨rfl, rfl, rfl, rfl, fun m hm => ?_⟩
  funext i
  show (if m.head? = some 0x41 then (0 : U8) else 1) = 0
  rw [if_pos hm]

end Raccoon
