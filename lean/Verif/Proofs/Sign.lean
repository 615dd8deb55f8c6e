import Verif.Proofs.Verify
/-!
# One attempt of the signing loop
-/
namespace Raccoon
attribute [-instance] Monoid.toNPow
open Finset
attribute [local irreducible] Res.Safe

theorem ntt_ex {f : Poly} (hf : f.Can) : ∃ r, Poly.ntt f = .ok r ∧ r.Can ∧ nttR f.toZ = r.toZ := by
  obtain ⟨r, h1, h2, h3⟩ := Raccoon.ntt_spec hf
  exact ⟨r, h1, h2, h3.symm⟩

/-- The part of an attempt before encoding (secret_key.hpp:136-196). -/
def signCore (P : Par) (E : Ext) (fuel d uw rep : Nat) (A : PMat P.k P.l) (t : PVec P.k 1) (μ : List U8)
    (s : PVec P.l d) (prng : Prng) (m : Mrng d) : Res (Sig × PVec P.l d × Prng × Mrng d) := do
  let (r, m) ← PVec.zeroEncoding E fuel P.l m
  let (r, prng, m) ← r.addRepNoise E fuel uw rep P.κ prng m
  let r ← r.ntt
  let w := A.mulVec r
  let w ← w.intt
  let (w, prng, m) ← w.addRepNoise E fuel uw rep P.κ prng m
  let w' := w.decode
  let w' := w'.roundingShr P.νw
  let cHash ← chalHash E P.κ w' μ
  let c ← Poly.chalPoly E fuel P.ω cHash
  let c ← c.ntt
  let (s, m) ← s.refresh E fuel m
  let (r, m) ← r.refresh E fuel m
  let z := (s.mulPoly c).add r
  let (z, m) ← z.refresh E fuel m
  let z' := z.decode
  let y := (A.mulVec z').sub (t.mulPoly c)
  let y ← y.intt
  let z' ← z'.intt
  let y := y.roundingShr P.νw
  let h := w'.subMod (Q >>> P.νw) y
  let sig ← Sig.mk' P.νw cHash h z'
  .ok (sig, s, prng, m)

/-- Second half of `signCore`: from the challenge hash on. -/
def signCore2 (P : Par) (E : Ext) (fuel d : Nat) (A : PMat P.k P.l) (t : PVec P.k 1)
    (s : PVec P.l d) (r : PVec P.l d) (w' : PVec P.k 1) (cHash : List U8) (prng : Prng) (m : Mrng d) : Res (Sig × PVec P.l d × Prng × Mrng d) := do
  let c ← Poly.chalPoly E fuel P.ω cHash
  let c ← c.ntt
  let (s, m) ← s.refresh E fuel m
  let (r, m) ← r.refresh E fuel m
  let z := (s.mulPoly c).add r
  let (z, m) ← z.refresh E fuel m
  let z' := z.decode
  let y := (A.mulVec z').sub (t.mulPoly c)
  let y ← y.intt
  let z' ← z'.intt
  let y := y.roundingShr P.νw
  let h := w'.subMod (Q >>> P.νw) y
  let sig ← Sig.mk' P.νw cHash h z'
  .ok (sig, s, prng, m)

/-- The rest: encode, then check the bounds (secret_key.hpp:197-206). -/
def signFinish (P : Par) (buf : List U8) (x : Sig × PVec P.l d × Prng × Mrng d) : Res (Bool × SignSt P.l d) := do
  let (isEncoded, sigBytes) ← x.1.toBytes buf
  if !isEncoded then .ok (false, ⟨x.2.1, x.2.2.1, x.2.2.2, sigBytes⟩)
  else do
    let inBounds ← x.1.checkBounds P.νw P.Binf P.B22
    if !inBounds then .ok (false, ⟨x.2.1, x.2.2.1, x.2.2.2, sigBytes⟩)
    else .ok (true, ⟨x.2.1, x.2.2.1, x.2.2.2, sigBytes⟩)

theorem signAttempt_eq (P : Par) (E : Ext) (fuel d uw rep : Nat) (A : PMat P.k P.l) (t : PVec P.k 1) (μ : List U8) (st : SignSt P.l d) :
    signAttempt P E fuel d uw rep A t μ st = signCore P E fuel d uw rep A t μ st.s st.prng st.m >>= signFinish P st.sigBytes := by
  unfold signAttempt signCore signFinish
  simp only [bind_assoc, Res.ok_bind]

/-- Bytes of PRNG output used for one row of noise. -/
abbrev rowBytes (P : Par) (d rep : Nat) : Nat := rep * d * (P.κ / 8)

theorem Sig.mk'_ok {νw : Nat} {ch : List U8} {h : PVec k 1} {z : PVec l 1} {L1 L2 : List Int} (h1 : centerVec (Q >>> νw) h = .ok L1) (h2 : centerVec Q z = .ok L2) :
    Sig.mk' νw ch h z = .ok ⟨ch, L1, L2⟩ := by
  unfold Sig.mk'
  rw [h1, Res.ok_bind, h2, Res.ok_bind]

theorem ctr_natAbs {m x : Nat} (hx : x < m) (ho : m % 2 = 1) : 2 * (Poly.ctr m x).natAbs < m := by
  have := Poly.ctr_range hx
  omega

theorem hint_arith {W Y H : Nat} {m : Nat} (hY : Y < m) (hH : H < m) (h : H = (W + (m - Y)) % m) : (Poly.ctr m H - ((W : Int) - Y)) % (m : Int) = 0 := by
  have r1 := (Poly.ctr_range hH).2.2
  generalize Poly.ctr m H = C at *
  have e1 : (H : Int) = ((W : Int) - Y) % m := by
    rw [h]
    push_cast
    rw [Nat.cast_sub (by omega), show (W : Int) + ((m : Int) - Y) = ((W : Int) - Y) + m by ring, Int.add_emod_right]
  rw [Int.sub_emod, r1, e1, sub_self, Int.zero_emod]

theorem q_odd : q % 2 = 1 := by decide

theorem signCore2_spec (P : Par) (hP : P = raccoon128 ∨ P = raccoon192 ∨ P = raccoon256) (E : Ext) (fuel d : Nat) (hd : PowTwo d)
    (A : PMat P.k P.l) (hA : PMat.Can A) (a : Fin P.k → Fin P.l → RPoly) (ha : A.Is a)
    (t t0 : PVec P.k 1) (ht : PVec.Can t) (htv : t.IsNtt (fun i c => (2 ^ P.νt : ZMod q) * PVec.val t0 i c))
    (s : PVec P.l d) (hs : PVec.Can s) (sv : Fin P.l → RPoly) (hsv : s.IsNtt sv)
    (r2 : PVec P.l d) (h6 : PVec.Can r2) (rv : Fin P.l → RPoly) (h7 : r2.IsNtt rv)
    (w' : PVec P.k 1) (hwb : PVec.RowsBelow (q / 2 ^ P.νw) w') (cHash : List U8) (p2 : Prng) (m3 : Mrng d) :
    (signCore2 P E fuel d A t s r2 w' cHash p2 m3).Safe (fun x =>
      PVec.Can x.2.1 ∧ PVec.val x.2.1 = PVec.val s ∧ x.2.2.1 = p2 ∧ x.1.cHash = cHash ∧
      ∃ c : Poly, Poly.chalPoly E fuel P.ω cHash = .ok c ∧ x.1.h.length = P.k * 512 ∧ x.1.z.length = P.l * 512 ∧
        (vecR (unflatten P.l x.1.z) = fun j => negacyclic (sv j) c.toZ + rv j) ∧ (∀ y ∈ x.1.z, 2 * y.natAbs < q) ∧
        (∀ i j, (unflatten P.k x.1.h i j - (((fun (i : Fin P.k) (j : Fin 512) => ((w'[i.val][0][j.val]).raw.toNat)) i j : Int) -
          commitY P.νw P.νt a (PVec.val t0) c.toZ (vecR (unflatten P.l x.1.z)) i j)) % (q / 2 ^ P.νw : Nat) = 0) ∧
        (∀ y ∈ x.1.h, 2 * y.natAbs < q / 2 ^ P.νw)) := by
  obtain ⟨w1, w2, w3, w4, w5, -⟩ := par_bounds P hP
  unfold signCore2
  cases hch : Poly.chalPoly E fuel P.ω cHash with
  | nofuel => exact Res.safe_nofuel.2 trivial
  | ub => exact absurd hch (chalPoly_safe E fuel P.ω cHash).ne_ub
  | ok c =>
  rw [Res.ok_bind]
  have hcc := chalPoly_can hch
  refine Exists.elim (ntt_ex hcc) fun cn hcn => ?_
  have ecn := hcn.1
  have cnc := hcn.2.1
  have cni := hcn.2.2
  rw [ecn, Res.ok_bind]
  refine Res.Safe.bind (PVec.refresh_spec E fuel hd hs m3) ?_
  rintro ⟨s', m4⟩ ⟨s1, s2⟩
  replace s1 : PVec.Can s' := s1
  replace s2 : PVec.val s' = PVec.val s := s2
  dsimp only
  refine Res.Safe.bind (PVec.refresh_spec E fuel hd h6 m4) ?_
  rintro ⟨r', m5⟩ ⟨r3, r4⟩
  replace r3 : PVec.Can r' := r3
  replace r4 : PVec.val r' = PVec.val r2 := r4
  dsimp only
  have hs' : s'.IsNtt sv := fun j => by rw [s2]; exact hsv j
  have hr' : r'.IsNtt (rv) := fun j => by rw [r4]; exact h7 j
  obtain ⟨z1, z2⟩ := PVec.IsNtt.mulPoly s1 hs' cnc cni
  obtain ⟨z3, z4⟩ := PVec.IsNtt.add z1 r3 z2 hr'
  refine Res.Safe.bind (PVec.refresh_spec E fuel hd z3 m5) ?_
  rintro ⟨z, m6⟩ ⟨z5, z6⟩
  replace z5 : PVec.Can z := z5
  replace z6 : PVec.val z = _ := z6
  have z7 : z.IsNtt _ := fun j => by rw [z6]; exact z4 j
  dsimp only
  obtain ⟨z8, z9⟩ := PVec.IsNtt.decode z5 z7
  obtain ⟨y, ey, yc, yv⟩ := commit_spec hA ha z8 z9 ht htv cnc cni
  obtain ⟨zc, ez, zcc, zcv⟩ := PVec.IsNtt.intt z8 z9
  rw [ey, Res.ok_bind, ez, Res.ok_bind]
  have hyb : PVec.RowsBelow (q / 2 ^ P.νw) (y.roundingShr P.νw) := PVec.roundingShr_below (by omega) (by omega) yc
  have hyr : ∀ i (hi : i < P.k) j (hj : j < 512), ((y.roundingShr P.νw)[i][0][j]).raw.toNat =
      commitY P.νw P.νt a (PVec.val t0) c.toZ (PVec.val zc) ⟨i, hi⟩ ⟨j, hj⟩ := by
    intro i hi j hj
    rw [PVec.roundingShr_raw (by omega) (by omega) yc yv hi hj]
    unfold commitY
    rw [zcv, negacyclic_smul]
  generalize y.roundingShr P.νw = y' at hyb hyr ⊢
  have hQ : (Q >>> P.νw).toNat = q / 2 ^ P.νw := by rw [w1, Q44, q44]
  have h31 : q / 2 ^ P.νw = 31 := by rw [w1, q44]
  have hlt : (Q >>> P.νw).toNat < 2 ^ 62 := by rw [w1]; exact lt62_31
  rw [← hQ] at hwb hyb
  have hhb := PVec.subMod_below hlt hwb hyb
  have hhr : ∀ i (hi : i < P.k) j (hj : j < 512), ((w'.subMod (Q >>> P.νw) y')[i][0][j]).raw.toNat =
      ((w'[i][0][j]).raw.toNat + ((q / 2 ^ P.νw) - (y'[i][0][j]).raw.toNat)) % (q / 2 ^ P.νw) := by
    intro i hi j hj
    have g : ((w'.subMod (Q >>> P.νw) y')[i][0][j]).raw.toNat = ((Poly.subMod (Q >>> P.νw) w'[i][0] y'[i][0])[j]).raw.toNat := by rw [PVec.subMod_get _ _ hi]
    rw [g, Poly.subMod_spec hlt (hwb i hi) (hyb i hi) hj, hQ]
  generalize w'.subMod (Q >>> P.νw) y' = h at hhb hhr ⊢
  obtain ⟨hL, ehL, hLl, hLv⟩ := centerVec_spec hlt hhb
  have hzb : PVec.RowsBelow Q.toNat zc := by rw [Q_toNat]; exact PVec.can_below.1 zcc
  obtain ⟨zL, ezL, zLl, zLv⟩ := centerVec_spec lt62_Q hzb
  rw [Sig.mk'_ok ehL ezL, Res.ok_bind]
  have hq : q = 549824583172097 := rfl
  have hzval : vecR (unflatten P.l zL) = PVec.val zc := by
    funext i j
    unfold vecR toR unflatten PVec.val
    rw [MPoly.val_one, mem_getD (by omega), zLv i.val i.isLt j.val j.isLt (by omega)]
    unfold Poly.toZ Zq.toZ Poly.ctr
    rw [Q_toNat]
    split
    · rw [Int.cast_natCast]
    · rw [Int.cast_sub, Int.cast_natCast, Int.cast_natCast, ZMod.natCast_self, sub_zero]
  refine Res.safe_ok.2 ⟨s1, s2, rfl, rfl, c, rfl, ?_⟩
  · refine ⟨hLl, zLl, ?_, ?_, ?_, ?_⟩
    · show vecR (unflatten P.l zL) = _
      rw [hzval, zcv]
    · intro x hx
      obtain ⟨j, hj, rfl⟩ := List.mem_iff_getElem.1 hx
      replace hj : j < zL.length := hj
      have e : j / 512 * 512 + j % 512 = j := by omega
      have hr : j / 512 < P.l := by omega
      have := zLv (j / 512) hr (j % 512) (by omega) (by omega)
      simp only [e] at this
      show 2 * (zL[j]).natAbs < q
      rw [this]
      have hlt := hzb _ hr (j % 512) (by omega)
      rw [Q_toNat] at hlt ⊢
      exact ctr_natAbs hlt q_odd
    · intro i j
      show (unflatten P.k hL i j - (((w'[i.val][0][j.val]).raw.toNat : Int) - commitY P.νw P.νt a (PVec.val t0) c.toZ (vecR (unflatten P.l zL)) i j)) % _ = 0
      rw [hzval, ← hyr i.val i.isLt j.val j.isLt]
      unfold unflatten
      rw [mem_getD (by omega), hLv i.val i.isLt j.val j.isLt (by omega)]
      have r1 := hhb i.val i.isLt j.val j.isLt
      have r2 := hhr i.val i.isLt j.val j.isLt
      have r3 := hyb i.val i.isLt j.val j.isLt
      rw [hQ] at r1 r3 ⊢
      exact hint_arith r3 r1 r2
    · intro x hx
      obtain ⟨j, hj, rfl⟩ := List.mem_iff_getElem.1 hx
      replace hj : j < hL.length := hj
      have e : j / 512 * 512 + j % 512 = j := by omega
      have hr : j / 512 < P.k := by omega
      have := hLv (j / 512) hr (j % 512) (by omega) (by omega)
      simp only [e] at this
      show 2 * (hL[j]).natAbs < q / 2 ^ P.νw
      rw [this]
      have hlt := hhb _ hr (j % 512) (by omega)
      rw [hQ] at hlt ⊢
      exact ctr_natAbs hlt (by rw [h31])

/-- Everything one attempt computes before encoding. -/
theorem signCore_spec (P : Par) (hP : P = raccoon128 ∨ P = raccoon192 ∨ P = raccoon256) (E : Ext) (fuel d uw rep : Nat) (hd : PowTwo d) (hu : 0 < uw) (hu' : uw ≤ 49)
    (A : PMat P.k P.l) (hA : PMat.Can A) (a : Fin P.k → Fin P.l → RPoly) (ha : A.Is a)
    (t t0 : PVec P.k 1) (ht : PVec.Can t) (htv : t.IsNtt (fun i c => (2 ^ P.νt : ZMod q) * PVec.val t0 i c)) (μ : List U8)
    (s : PVec P.l d) (hs : PVec.Can s) (sv : Fin P.l → RPoly) (hsv : s.IsNtt sv) (prng : Prng) (m : Mrng d) :
    (signCore P E fuel d uw rep A t μ s prng m).Safe (fun x =>
      PVec.Can x.2.1 ∧ PVec.val x.2.1 = PVec.val s ∧ x.2.2.1 = prng.advance ((P.l + P.k) * rowBytes P d rep) ∧
      ∃ c : Poly, Poly.chalPoly E fuel P.ω x.1.cHash = .ok c ∧
        IsSigOf E P.κ P.νw P.νt a (PVec.val t0) sv c.toZ μ (vecR (noiseVec E uw P.κ d rep P.l prng.stream prng.pos))
          (vecR (noiseVec E uw P.κ d rep P.k prng.stream (prng.pos + P.l * rowBytes P d rep))) x.1.cHash x.1.h x.1.z) := by
  obtain ⟨w1, w2, w3, w4, w5, -⟩ := par_bounds P hP
  unfold signCore
  refine Res.Safe.bind (PVec.zeroEncoding_spec E fuel P.l hd m) ?_
  rintro ⟨r0, m1⟩ ⟨h1, h2⟩
  replace h1 : PVec.Can r0 := h1
  replace h2 : PVec.val r0 = 0 := h2
  dsimp only
  refine Res.Safe.bind (PVec.addRepNoise_spec E fuel hd hu hu' prng m1 h1) ?_
  rintro ⟨r1, p1, m2⟩ ⟨h3, h4, h5⟩
  replace h3 : PVec.Can r1 := h3
  replace h5 : p1 = prng.advance (P.l * rowBytes P d rep) := h5
  have h4' : PVec.val r1 = vecR (noiseVec E uw P.κ d rep P.l prng.stream prng.pos) := by
    funext i
    refine Eq.trans (h4 i) ?_
    rw [h2, Pi.zero_apply, zero_add]; rfl
  dsimp only
  refine Res.Safe.bind (PVec.IsNtt.ntt h3).safe ?_
  rintro r2 ⟨h6, h7⟩
  rw [h4'] at h7
  obtain ⟨g1, g2⟩ := PMat.Is.mulVec hA ha h6 h7
  refine Res.Safe.bind (PVec.IsNtt.intt g1 g2).safe ?_
  rintro w0 ⟨g3, g4⟩
  refine Res.Safe.bind (PVec.addRepNoise_spec E fuel hd hu hu' p1 m2 g3) ?_
  rintro ⟨w, p2, m3⟩ ⟨k1, k2, k3⟩
  replace k1 : PVec.Can w := k1
  replace k3 : p2 = p1.advance (P.k * rowBytes P d rep) := k3
  have k2' : PVec.val w = fun i => ringMatVec a (vecR (noiseVec E uw P.κ d rep P.l prng.stream prng.pos)) i +
      vecR (noiseVec E uw P.κ d rep P.k prng.stream (prng.pos + P.l * rowBytes P d rep)) i := by
    funext i
    refine Eq.trans (k2 i) ?_
    rw [g4, h5]; rfl
  dsimp only
  have hwd := PVec.decode_spec k1
  have hwb : PVec.RowsBelow (q / 2 ^ P.νw) (w.decode.roundingShr P.νw) := PVec.roundingShr_below (by omega) (by omega) hwd.1
  have hwr : ∀ i (hi : i < P.k) j (hj : j < 512), ((w.decode.roundingShr P.νw)[i][0][j]).raw.toNat =
      commitW P.νw a (vecR (noiseVec E uw P.κ d rep P.l prng.stream prng.pos))
        (vecR (noiseVec E uw P.κ d rep P.k prng.stream (prng.pos + P.l * rowBytes P d rep))) ⟨i, hi⟩ ⟨j, hj⟩ := by
    intro i hi j hj
    rw [PVec.roundingShr_raw (by omega) (by omega) hwd.1 (hwd.2.trans k2') hi hj]; rfl
  generalize w.decode.roundingShr P.νw = w' at hwb hwr ⊢
  have hfun : (fun (i : Fin P.k) (j : Fin 512) => ((w'[i.val][0][j.val]).raw.toNat)) = commitW P.νw a (vecR (noiseVec E uw P.κ d rep P.l prng.stream prng.pos))
        (vecR (noiseVec E uw P.κ d rep P.k prng.stream (prng.pos + P.l * rowBytes P d rep))) := by
    funext i j; exact hwr i.val i.isLt j.val j.isLt
  have hce := chalHash_eq E P.κ w' μ
  rw [hfun] at hce
  rw [hce, Res.ok_bind]
  refine (signCore2_spec P hP E fuel d hd A hA a ha t t0 ht htv s hs sv hsv r2 h6 _ h7 w' hwb
    (challengeHash E P.κ (commitW P.νw a (vecR (noiseVec E uw P.κ d rep P.l prng.stream prng.pos))
        (vecR (noiseVec E uw P.κ d rep P.k prng.stream (prng.pos + P.l * rowBytes P d rep)))) μ) p2 m3).mono ?_
  rintro x ⟨q1, q2, q3, q4, c, q5, q6⟩
  refine ⟨q1, q2, ?_, c, by rw [q4]; exact q5, ?_⟩
  · rw [q3, k3, h5, Prng.advance_advance, Nat.add_mul]
  · rw [hfun] at q6
    exact ⟨q4, q6.1, q6.2.1, q6.2.2.1, q6.2.2.2.1, q6.2.2.2.2.1, q6.2.2.2.2.2⟩

end Raccoon
