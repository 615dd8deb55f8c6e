import Verif.Proofs.SigVec
import Verif.Proofs.MaskSampler
import Verif.Spec.Scheme
import Verif.Props.Hash
import Verif.Props.Norms
import Verif.Props.Keys
import Verif.Props.Utils
/-!
# What `verify` computes
-/
namespace Raccoon
attribute [-instance] Monoid.toNPow
open Finset

theorem finRange_map_get {α : Type u} {n : Nat} (v : Vector α n) : (List.finRange n).map (fun i => v[i.val]) = v.toList := by
  apply List.ext_getElem
  · simp
  · intro i h1 h2; simp

/-- The model's hash input in terms of the specification. -/
theorem chalInput_eq (w : PVec k 1) (μ : List U8) : chalInput w μ = hashInput (fun r i => (w[r.val][0][i.val]).raw.toNat) μ := by
  have h1 : ∀ row : Poly, row.toList.map (fun c => (c.raw.setWidth 8 : U8)) = (List.finRange 512).map fun i => BitVec.ofNat 8 (row[i.val]).raw.toNat := by
    intro row
    rw [← finRange_map_get row, List.map_map]
    refine List.map_congr_left fun i _ => ?_
    apply BitVec.eq_of_toNat_eq
    rw [BitVec.toNat_ofNat]
    exact BitVec.toNat_setWidth ..
  have h2 : lowBytes w = (List.finRange k).flatMap fun r => (List.finRange 512).map fun i => BitVec.ofNat 8 (w[r.val][0][i.val]).raw.toNat := by
    unfold lowBytes
    rw [← finRange_map_get w, List.flatMap_map]
    exact List.flatMap_congr fun r _ => h1 _
  unfold chalInput hashInput
  rw [h2]

theorem chalHash_eq (E : Ext) (κ : Nat) (w : PVec k 1) (μ : List U8) :
    chalHash E κ w μ = .ok (challengeHash E κ (fun r i => (w[r.val][0][i.val]).raw.toNat) μ) := by
  rw [C40_hash_input, chalInput_eq]; rfl

theorem PMat.Is.mulVec {A : PMat k l} (hA : PMat.Can A) {a : Fin k → Fin l → RPoly} (ha : A.Is a) {v : PVec l d} (hv : PVec.Can v) {x : Fin l → RPoly}
    (hx : v.IsNtt x) : PVec.Can (A.mulVec v) ∧ (A.mulVec v).IsNtt (ringMatVec a x) := by
  have hm := PMat.mulVec_spec hA hv
  refine ⟨hm.1, fun r => ?_⟩
  rw [hm.2]
  unfold ringMatVec matVec
  rw [nttR_sum]
  apply Finset.sum_congr rfl
  intro c _
  rw [nttR_negacyclic, ha r c, hx c]

theorem PVec.IsNtt.mulPoly {v : PVec l d} (hv : PVec.Can v) {x : Fin l → RPoly} (hx : v.IsNtt x) {c : Poly} (hc : c.Can) {y : RPoly} (hy : nttR y = c.toZ) :
    PVec.Can (v.mulPoly c) ∧ (v.mulPoly c).IsNtt (fun j => negacyclic (x j) y) := by
  have hm := PVec.mulPoly_spec hv hc
  refine ⟨hm.1, fun r => ?_⟩
  rw [hm.2, nttR_negacyclic, hx r, hy]

theorem PVec.IsNtt.add {v w : PVec l d} (hv : PVec.Can v) (hw : PVec.Can w) {x y : Fin l → RPoly} (hx : v.IsNtt x) (hy : w.IsNtt y) :
    PVec.Can (v.add w) ∧ (v.add w).IsNtt (fun j => x j + y j) := by
  have hm := PVec.add_spec hv hw
  refine ⟨hm.1, fun r => ?_⟩
  rw [hm.2, nttR_add, hx r, hy r]; rfl

theorem PVec.IsNtt.sub {v w : PVec l d} (hv : PVec.Can v) (hw : PVec.Can w) {x y : Fin l → RPoly} (hx : v.IsNtt x) (hy : w.IsNtt y) :
    PVec.Can (v.sub w) ∧ (v.sub w).IsNtt (fun j => x j - y j) := by
  have hm := PVec.sub_spec hv hw
  refine ⟨hm.1, fun r => ?_⟩
  rw [hm.2, nttR_sub, hx r, hy r]; rfl

theorem PVec.IsNtt.intt {v : PVec l d} (hv : PVec.Can v) {x : Fin l → RPoly} (hx : v.IsNtt x) :
    v.intt.Ok (fun r => PVec.Can r ∧ PVec.val r = x) := by
  refine (PVec.intt_spec hv).mono fun r h => ⟨h.1, ?_⟩
  rw [h.2]
  funext j
  exact nttR_inj (by rw [nttR_inttR, hx j])

theorem PVec.IsNtt.ntt {v : PVec l d} (hv : PVec.Can v) : v.ntt.Ok (fun r => PVec.Can r ∧ r.IsNtt (PVec.val v)) := by
  refine (PVec.ntt_spec hv).mono fun r h => ⟨h.1, fun j => ?_⟩
  rw [h.2]

theorem PVec.IsNtt.decode {v : PVec l d} (hv : PVec.Can v) {x : Fin l → RPoly} (hx : v.IsNtt x) : PVec.Can v.decode ∧ v.decode.IsNtt x := by
  have h := PVec.decode_spec hv
  exact ⟨h.1, fun j => by rw [h.2]; exact hx j⟩

/-- Rounding an unmasked vector. -/
theorem PVec.roundingShr_raw {ν : Nat} (h1 : 1 ≤ ν) (h2 : ν ≤ 47) {v : PVec k 1} (hv : PVec.Can v) {x : Fin k → RPoly} (hx : PVec.val v = x)
    {r : Nat} (hr : r < k) {i : Nat} (hi : i < 512) : ((v.roundingShr ν)[r][0][i]).raw.toNat = roundZ ν (x ⟨r, hr⟩ ⟨i, hi⟩) := by
  have hc := hv r hr 0 (by omega)
  have hg := PVec.roundingShr_get (ν := ν) v hr
  have : ((v.roundingShr ν)[r][0][i]).raw.toNat = ((Poly.roundingShr ν v[r][0])[i]).raw.toNat := by rw [hg]
  rw [this, Poly.roundingShr_spec h1 h2 hc hi]
  unfold roundZ
  rw [← hx]
  unfold PVec.val
  rw [MPoly.val_one]
  unfold Poly.toZ
  rw [Zq.toZ_val (hc i hi)]

theorem Q44 : (Q >>> 44).toNat = 31 := by decide
theorem q44 : q / 2 ^ 44 = 31 := by decide
theorem lt62_31 : (Q >>> 44).toNat < 2 ^ 62 := by rw [Q44]; decide
theorem lt62_Q : Q.toNat < 2 ^ 62 := by decide

theorem unctr_mod {m : Nat} {c : Int} (h1 : -(m : Int) ≤ c) (h2 : c < m) (_hm : 0 < m) : Poly.unctr m c = c % (m : Int) := by
  unfold Poly.unctr
  split
  · rw [← Int.add_emod_right, Int.emod_eq_of_lt (by omega) (by omega)]
  · rw [Int.emod_eq_of_lt (by omega) (by omega)]

theorem mem_getD {x : List Int} {j : Nat} (h : j < x.length) : x.getD j 0 = x[j] := by
  simp [List.getD, h]

/-- `get_z` of a signature with centered responses: the residues. -/
theorem getZ_spec {l : Nat} {s : Sig} (hl : s.z.length = l * 512) (hz : ∀ x ∈ s.z, x.natAbs < q) :
    ∃ v, s.getZ l = .ok v ∧ PVec.Can v ∧ PVec.val v = vecR (unflatten l s.z) := by
  obtain ⟨v, e, hv⟩ := uncenterVec_spec lt62_Q hl (fun y hy => by have := hz y hy; rw [Q_toNat]; omega)
  have hcan : PVec.Can v := by
    rw [PVec.can_below]
    intro r hr i hi
    have h1 := hv r hr i hi (by omega)
    have h2 := hz _ (List.getElem_mem (by omega : r * 512 + i < s.z.length))
    rw [Q_toNat] at h1
    unfold Poly.unctr at h1
    split at h1 <;> omega
  refine ⟨v, e, hcan, ?_⟩
  funext r i
  unfold PVec.val vecR toR unflatten
  rw [MPoly.val_one]
  unfold Poly.toZ Zq.toZ
  have h1 := hv r.val r.isLt i.val i.isLt (by omega)
  rw [Q_toNat] at h1
  rw [mem_getD (by omega)]
  have h2 := congrArg (fun x : Int => (x : ZMod q)) h1
  simp only [Int.cast_natCast] at h2
  refine Eq.trans h2 ?_
  unfold Poly.unctr
  split
  · rw [Int.cast_add, Int.cast_natCast, ZMod.natCast_self, add_zero]
  · rfl

/-- `get_h` of a signature with small hints. -/
theorem getH_spec {k : Nat} {s : Sig} (hl : s.h.length = k * 512) (hh : ∀ x ∈ s.h, x.natAbs ≤ 30) :
    ∃ v, s.getH 44 k = .ok v ∧ PVec.RowsBelow 31 v ∧
      ∀ r (hr : r < k) i (hi : i < 512), ((v[r][0][i]).raw.toNat : Int) = unflatten k s.h ⟨r, hr⟩ ⟨i, hi⟩ % 31 := by
  obtain ⟨v, e, hv⟩ := uncenterVec_spec lt62_31 hl (fun y hy => by have := hh y hy; rw [Q44]; omega)
  have key : ∀ r (hr : r < k) i (hi : i < 512), ((v[r][0][i]).raw.toNat : Int) = unflatten k s.h ⟨r, hr⟩ ⟨i, hi⟩ % 31 := by
    intro r hr i hi
    have h1 := hv r hr i hi (by omega)
    rw [Q44] at h1
    have h2 := hh _ (List.getElem_mem (by omega : r * 512 + i < s.h.length))
    rw [h1, unctr_mod (by omega) (by omega) (by omega)]
    unfold unflatten
    rw [mem_getD (by omega)]
    rfl
  refine ⟨v, e, ?_, key⟩
  intro r hr i hi
  have h1 := key r hr i hi
  omega

/-- The commitment recomputed from transforms. -/
theorem commit_spec {A : PMat k l} (hA : PMat.Can A) {a : Fin k → Fin l → RPoly} (ha : A.Is a) {z : PVec l 1} (hz : PVec.Can z) {x : Fin l → RPoly}
    (hx : z.IsNtt x) {t : PVec k 1} (ht : PVec.Can t) {τ : Fin k → RPoly} (hτ : t.IsNtt τ) {c : Poly} (hc : c.Can) {y : RPoly} (hy : nttR y = c.toZ) :
    ((A.mulVec z).sub (t.mulPoly c)).intt.Ok (fun r => PVec.Can r ∧ PVec.val r = fun i => ringMatVec a x i - negacyclic (τ i) y) := by
  obtain ⟨h1, h2⟩ := PMat.Is.mulVec hA ha hz hx
  obtain ⟨h3, h4⟩ := PVec.IsNtt.mulPoly ht hτ hc hy
  obtain ⟨h5, h6⟩ := PVec.IsNtt.sub h1 h3 h2 h4
  exact PVec.IsNtt.intt h5 h6

theorem negacyclic_smul (b : ZMod q) (f g : RPoly) : negacyclic (fun i => b * f i) g = b • negacyclic f g := by
  funext k
  unfold negacyclic
  rw [Pi.smul_apply, smul_eq_mul, Finset.mul_sum]
  apply Finset.sum_congr rfl
  intro i _
  rw [Finset.mul_sum]
  apply Finset.sum_congr rfl
  intro j _
  split
  · ring
  · split
    · ring
    · ring


theorem pkBytes_ok (P : Par) (hP : P = raccoon128 ∨ P = raccoon192 ∨ P = raccoon256) (pk : PKey P.k) (hs : pk.seed.length = P.κ / 8) :
    ∃ b, pk.toBytes P.νt (List.replicate (PKey.byteLen P.κ P.k P.νt) 0) = .ok b := by
  obtain ⟨-, h2, -, -, -, -, -, -, -, h8, -⟩ := par_bounds P hP
  rw [h2]
  obtain ⟨b, e, -⟩ := C24_format P.κ P.k h8 pk hs (List.replicate (PKey.byteLen P.κ P.k 42) 0) List.length_replicate
  exact ⟨b, e⟩

theorem shr31 : (BitVec.allOnes 32 >>> 31 : U32) ≠ 0 := by decide
theorem shr31' : (0 : U32) >>> 31 = 0 := by decide

/-- `verify` on a signature that parses and is within the bounds. -/
theorem verify_eq (P : Par) (hP : P = raccoon128 ∨ P = raccoon192 ∨ P = raccoon256) (E : Ext) (fuel : Nat) (pk : PKey P.k) (hs : pk.seed.length = P.κ / 8)
    (ht : PVec.RowsBelow 128 pk.t) (msg sig pkb : List U8) (hpk : pk.toBytes P.νt (List.replicate (PKey.byteLen P.κ P.k P.νt) 0) = .ok pkb) (s : Sig)
    (hsig : Sig.fromBytes P.κ P.k P.l sig = .ok (some s)) (hch : s.cHash.length = 2 * P.κ / 8) (hhl : s.h.length = P.k * 512) (hzl : s.z.length = P.l * 512)
    (hz : ∀ x ∈ s.z, x.natAbs < 23 * 2 ^ 40)
    (hn : NormsOK P.νw P.Binf.toNat P.B22.toNat s.h s.z) (hb : s.checkBounds P.νw P.Binf P.B22 = .ok true)
    (A : PMat P.k P.l) (hA : PMat.expandA E fuel P.k P.l pk.seed = .ok A) (c : Poly) (hc : Poly.chalPoly E fuel P.ω s.cHash = .ok c)
    (a : Fin P.k → Fin P.l → RPoly) (ha : A.Is a) :
    (VerifyEq E P.κ P.νw P.νt a (PVec.val pk.t) c.toZ (messageHash E P.κ pkb msg) s.cHash s.h s.z → pk.verify P E fuel msg sig = .ok true) ∧
    (¬ VerifyEq E P.κ P.νw P.νt a (PVec.val pk.t) c.toZ (messageHash E P.κ pkb msg) s.cHash s.h s.z → pk.verify P E fuel msg sig = .ok false) := by
  obtain ⟨w1, w2, w3, w4, w5, -⟩ := par_bounds P hP
  have h40 : (2 : Nat) ^ 40 = 1099511627776 := by norm_num
  have hq : q = 549824583172097 := rfl
  have h44 : (2 : Nat) ^ 44 = 17592186044416 := by norm_num
  have hAcan := (expandA_safe E fuel P.k P.l pk.seed).par A hA
  have hccan := chalPoly_can hc
  have hB3 : P.Binf.toNat < 52776558133248 := by rcases hP with rfl | rfl | rfl <;> decide
  obtain ⟨hv, ehv, hvb, hvv⟩ := getH_spec (k := P.k) hhl (fun x hx => by have := hn.1 x hx; rw [w1, h44] at this; omega)
  obtain ⟨zv, ezv, zvc, zvv⟩ := getZ_spec (l := P.l) hzl (fun x hx => by have := hz x hx; omega)
  obtain ⟨zn, ezn, znc, zni⟩ := PVec.IsNtt.ntt zvc
  obtain ⟨cn, ecn, cnc, cni⟩ := Raccoon.ntt_spec hccan
  obtain ⟨ts, ets, tsc, tsv⟩ := PVec.shl_spec (n := 42) (m := 128) (by omega) (by norm_num) ht
  obtain ⟨tn, etn, tnc, tni⟩ := PVec.IsNtt.ntt tsc
  obtain ⟨y, ey, yc, yv⟩ := commit_spec hAcan.1 ha znc zni tnc tni cnc cni.symm
  have hw : ∀ r (hr : r < P.k) i (hi : i < 512), (((y.roundingShr 44).addMod (Q >>> 44) hv)[r][0][i]).raw.toNat =
      (((commitY P.νw P.νt a (PVec.val pk.t) c.toZ (vecR (unflatten P.l s.z)) ⟨r, hr⟩ ⟨i, hi⟩ : Int) + unflatten P.k s.h ⟨r, hr⟩ ⟨i, hi⟩) % (q / 2 ^ P.νw : Nat)).toNat := by
    intro r hr i hi
    have g : (((y.roundingShr 44).addMod (Q >>> 44) hv)[r][0][i]).raw.toNat = ((Poly.addMod (Q >>> 44) (y.roundingShr 44)[r][0] hv[r][0])[i]).raw.toNat := by
      rw [PVec.addMod_get _ _ hr]
    have hyb := PVec.roundingShr_below (ν := 44) (by omega) (by omega) yc
    rw [q44] at hyb
    rw [g, Poly.addMod_spec lt62_31 (by rw [Q44]; exact hyb r hr) (by rw [Q44]; exact hvb r hr) hi, Q44, w1, w2, q44,
      PVec.roundingShr_raw (by omega) (by omega) yc yv hr hi]
    have e1 : roundZ 44 ((ringMatVec a (PVec.val zv) ⟨r, hr⟩ - negacyclic (PVec.val ts ⟨r, hr⟩) c.toZ) ⟨i, hi⟩) =
        commitY 44 42 a (PVec.val pk.t) c.toZ (vecR (unflatten P.l s.z)) ⟨r, hr⟩ ⟨i, hi⟩ := by
      unfold commitY
      rw [tsv, negacyclic_smul, zvv]
    rw [e1]
    have h1 := hvv r hr i hi
    generalize commitY 44 42 a (PVec.val pk.t) c.toZ (vecR (unflatten P.l s.z)) ⟨r, hr⟩ ⟨i, hi⟩ = Y
    generalize (hv[r][0][i]).raw.toNat = H at *
    generalize unflatten P.k s.h ⟨r, hr⟩ ⟨i, hi⟩ = X at *
    omega
  have hμ := C41_mu E P.κ pkb msg
  have hmain : pk.verify P E fuel msg sig = .ok (decide ((ctEqByteArray s.cHash (challengeHash E P.κ (fun (r : Fin P.k) (i : Fin 512) => ((((y.roundingShr 44).addMod (Q >>> 44) hv)[r.val][0][i.val]).raw.toNat)) (messageHash E P.κ pkb msg))) >>> 31 ≠ 0)) := by
    unfold PKey.verify
    rw [hsig, Res.ok_bind]
    dsimp only
    rw [hb, Res.ok_bind]
    show (if (!true) = true then _ else _ : Res Bool) = _
    rw [if_neg (by decide), hpk, Res.ok_bind, hA, Res.ok_bind, w1, ehv, Res.ok_bind, ezv, Res.ok_bind, ezn, Res.ok_bind, hc, Res.ok_bind, ecn, Res.ok_bind,
      w2, ets, Res.ok_bind, etn, Res.ok_bind, ey, Res.ok_bind, chalHash_eq, Res.ok_bind, hμ.1]
    rfl
  have hfun : (fun (r : Fin P.k) (i : Fin 512) => ((((y.roundingShr 44).addMod (Q >>> 44) hv)[r.val][0][i.val]).raw.toNat)) =
      fun r i => (((commitY P.νw P.νt a (PVec.val pk.t) c.toZ (vecR (unflatten P.l s.z)) r i : Int) + unflatten P.k s.h r i) % (q / 2 ^ P.νw : Nat)).toNat := by
    funext r i
    exact hw r.val r.isLt i.val i.isLt
  rw [hfun] at hmain
  have hlen : s.cHash.length = (challengeHash E P.κ (fun r i =>
    (((commitY P.νw P.νt a (PVec.val pk.t) c.toZ (vecR (unflatten P.l s.z)) r i : Int) + unflatten P.k s.h r i) % (q / 2 ^ P.νw : Nat)).toNat) (messageHash E P.κ pkb msg)).length := by
    unfold challengeHash xofOut
    rw [List.length_map, List.length_range, hch]
  have hct := C45_ct_eq _ _ hlen
  rw [hmain]
  constructor
  · intro h
    rw [hct.1 h, decide_eq_true shr31]
  · intro h
    rw [hct.2 h, shr31', decide_eq_false (by simp)]

end Raccoon
