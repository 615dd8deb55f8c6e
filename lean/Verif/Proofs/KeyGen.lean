import Verif.Proofs.SignLoop
import Verif.Spec.MaskGen
/-!
# Key generation, refresh, reload
-/
namespace Raccoon
attribute [-instance] Monoid.toNPow
open Finset
attribute [local irreducible] Res.Safe

theorem PVec.below_iff {m : Nat} {t : PVec k 1} : PVec.Below m t ↔ PVec.RowsBelow m t := by
  constructor
  · intro h r hr c hc
    have := h (512 * r + c) (by omega)
    rwa [coeffAt_rc hr hc] at this
  · intro h i hi
    rw [coeffAt_lt hi]
    exact h (i / 512) (by omega) (i % 512) (by omega)

theorem PMat.Is.exists (A : PMat k l) : ∃ a, A.Is a :=
  ⟨fun r j => (nttR_surj (PMat.val A r j)).choose, fun r j => (nttR_surj (PMat.val A r j)).choose_spec⟩

theorem PMat.Is.unique {A : PMat k l} {a a' : Fin k → Fin l → RPoly} (h : A.Is a) (h' : A.Is a') : a = a' := by
  funext r j; exact nttR_inj ((h r j).trans (h' r j).symm)

/-- Everything `generate` computes, with any mask generators. -/
theorem generateWith_spec (P : Par) (hP : P = raccoon128 ∨ P = raccoon192 ∨ P = raccoon256) (E : Ext) (fuel d ut rep : Nat) (hd : PowTwo d) (hu : 0 < ut) (hu' : ut ≤ 49)
    (g : Mrng d) (entropy seed : List U8) :
    (SKey.generateWith P E fuel d ut rep g entropy seed).Safe (fun sk => sk.pkey.seed = seed ∧ PVec.Can sk.s ∧
      sk.s.IsNtt (vecR (noiseVec E ut P.κ d rep P.l (E.shake128 entropy) 0)) ∧ PVec.RowsBelow (q / 2 ^ P.νt) sk.pkey.t ∧
      ∃ A, PMat.expandA E fuel P.k P.l seed = .ok A ∧ ∀ a, A.Is a → ∀ i (hi : i < P.k) j (hj : j < 512), ((sk.pkey.t)[i][0][j]).raw.toNat =
        commitW P.νt a (vecR (noiseVec E ut P.κ d rep P.l (E.shake128 entropy) 0))
          (vecR (noiseVec E ut P.κ d rep P.k (E.shake128 entropy) (P.l * rowBytes P d rep))) ⟨i, hi⟩ ⟨j, hj⟩) := by
  obtain ⟨w1, w2, w3, w4, w5, -⟩ := par_bounds P hP
  unfold SKey.generateWith
  dsimp only
  cases hA : PMat.expandA E fuel P.k P.l seed with
  | nofuel => exact Res.safe_nofuel.2 trivial
  | ub => exact absurd hA (expandA_safe E fuel P.k P.l seed).ne_ub
  | ok A =>
  rw [Res.ok_bind]
  have hAc := ((expandA_safe E fuel P.k P.l seed).par A hA).1
  refine Res.Safe.bind (PVec.zeroEncoding_spec E fuel P.l hd g) ?_
  rintro ⟨r0, m1⟩ ⟨h1, h2⟩
  replace h1 : PVec.Can r0 := h1
  replace h2 : PVec.val r0 = 0 := h2
  dsimp only
  refine Res.Safe.bind (PVec.addRepNoise_spec E fuel hd hu hu' (Prng.new E entropy) m1 h1) ?_
  rintro ⟨r1, p1, m2⟩ ⟨h3, h4, h5⟩
  replace h3 : PVec.Can r1 := h3
  replace h5 : p1 = (Prng.new E entropy).advance (P.l * rowBytes P d rep) := h5
  have h4' : PVec.val r1 = vecR (noiseVec E ut P.κ d rep P.l (E.shake128 entropy) 0) := by
    funext i
    refine Eq.trans (h4 i) ?_
    rw [h2, Pi.zero_apply, zero_add]; rfl
  dsimp only
  refine Res.Safe.bind (PVec.IsNtt.ntt h3).safe ?_
  rintro r2 ⟨h6, h7⟩
  rw [h4'] at h7
  obtain ⟨a0, ha0⟩ := PMat.Is.exists A
  obtain ⟨g1, g2⟩ := PMat.Is.mulVec hAc ha0 h6 h7
  refine Res.Safe.bind (PVec.IsNtt.intt g1 g2).safe ?_
  rintro w0 ⟨g3, g4⟩
  refine Res.Safe.bind (PVec.addRepNoise_spec E fuel hd hu hu' p1 m2 g3) ?_
  rintro ⟨w, p2, m3⟩ ⟨k1, k2, k3⟩
  replace k1 : PVec.Can w := k1
  have hpos : (Prng.new E entropy).pos = 0 := rfl
  have k2' : PVec.val w = fun i => ringMatVec a0 (vecR (noiseVec E ut P.κ d rep P.l (E.shake128 entropy) 0)) i +
      vecR (noiseVec E ut P.κ d rep P.k (E.shake128 entropy) (P.l * rowBytes P d rep)) i := by
    funext i
    refine Eq.trans (k2 i) ?_
    have e1 : p1.stream = E.shake128 entropy := by rw [h5]; rfl
    have e2 : p1.pos = P.l * rowBytes P d rep := by rw [h5]; show 0 + _ = _; rw [Nat.zero_add]
    rw [g4, e1, e2]; rfl
  dsimp only
  have hwd := PVec.decode_spec k1
  have hwb : PVec.RowsBelow (q / 2 ^ P.νt) (w.decode.roundingShr P.νt) := PVec.roundingShr_below (by omega) (by omega) hwd.1
  have hwr : ∀ i (hi : i < P.k) j (hj : j < 512), ((w.decode.roundingShr P.νt)[i][0][j]).raw.toNat =
      commitW P.νt a0 (vecR (noiseVec E ut P.κ d rep P.l (E.shake128 entropy) 0))
        (vecR (noiseVec E ut P.κ d rep P.k (E.shake128 entropy) (P.l * rowBytes P d rep))) ⟨i, hi⟩ ⟨j, hj⟩ := by
    intro i hi j hj
    rw [PVec.roundingShr_raw (by omega) (by omega) hwd.1 (hwd.2.trans k2') hi hj]; rfl
  generalize w.decode.roundingShr P.νt = t' at hwb hwr ⊢
  refine Res.safe_ok.2 ⟨rfl, h6, h7, hwb, A, rfl, ?_⟩
  intro a ha
  obtain rfl := PMat.Is.unique ha ha0
  exact hwr

/-- Everything `generate` computes. -/
theorem generate_spec (P : Par) (hP : P = raccoon128 ∨ P = raccoon192 ∨ P = raccoon256) (E : Ext) (fuel d ut rep : Nat) (hd : PowTwo d) (hu : 0 < ut) (hu' : ut ≤ 49)
    (entropy seed : List U8) :
    (SKey.generate P E fuel d ut rep entropy seed).Safe (fun sk => sk.pkey.seed = seed ∧ PVec.Can sk.s ∧
      sk.s.IsNtt (vecR (noiseVec E ut P.κ d rep P.l (E.shake128 entropy) 0)) ∧ PVec.RowsBelow (q / 2 ^ P.νt) sk.pkey.t ∧
      ∃ A, PMat.expandA E fuel P.k P.l seed = .ok A ∧ ∀ a, A.Is a → ∀ i (hi : i < P.k) j (hj : j < 512), ((sk.pkey.t)[i][0][j]).raw.toNat =
        commitW P.νt a (vecR (noiseVec E ut P.κ d rep P.l (E.shake128 entropy) 0))
          (vecR (noiseVec E ut P.κ d rep P.k (E.shake128 entropy) (P.l * rowBytes P d rep))) ⟨i, hi⟩ ⟨j, hj⟩) :=
  generateWith_spec P hP E fuel d ut rep hd hu hu' (Mrng.new E d) entropy seed

theorem q42 : q / 2 ^ 42 = 125 := by norm_num [q]

/-- `refresh` never fails and keeps everything that matters. -/
theorem skRefresh_spec (E : Ext) (fuel : Nat) {d : Nat} (hd : PowTwo d) (sk : SKey k l d) (hs : PVec.Can sk.s) :
    (sk.refresh E fuel).Safe (fun sk' => sk'.pkey = sk.pkey ∧ PVec.Can sk'.s ∧ PVec.val sk'.s = PVec.val sk.s) := by
  unfold SKey.refresh
  refine Res.Safe.bind (PVec.refresh_spec E fuel hd hs (Mrng.new E d)) ?_
  rintro ⟨s, m⟩ ⟨h1, h2⟩
  exact Res.safe_ok.2 ⟨rfl, h1, h2⟩

/-- The result of deserialising a secret key does not depend on the budget. -/
theorem skFromBytes_det (E : Ext) (fuel fuel' κ k l d : Nat) (h8 : κ % 8 = 0) (hd : 0 < d) (b : List U8) (hb : b.length = SKey.byteLen κ k l d 42)
    (x y : SKey k l d) (hx : SKey.fromBytes E fuel κ k l d 42 b = .ok x) (hy : SKey.fromBytes E fuel' κ k l d 42 b = .ok y) : x = y := by
  rw [skLen k l d h8] at hb
  unfold SKey.fromBytes at hx hy
  dsimp only at hx hy
  rw [pkLen k h8, subspan_ok (by omega), Res.ok_bind] at hx hy
  obtain ⟨pk, e1, hx⟩ := Res.bind_eq_ok.1 hx
  obtain ⟨pk', e1', hy⟩ := Res.bind_eq_ok.1 hy
  obtain rfl : pk = pk' := Res.ok.inj (e1.symm.trans e1')
  rw [subspan_ok (by omega), Res.ok_bind] at hx hy
  obtain ⟨s, e2, hx⟩ := Res.bind_eq_ok.1 hx
  obtain ⟨s', e2', hy⟩ := Res.bind_eq_ok.1 hy
  have g := fun f => maskDecompress_spec E f (l := l) (sc := (b.drop (κ / 8 + 448 * k)).take (b.length - (κ / 8 + 448 * k))) h8 hd
    (by rw [List.length_take, List.length_drop]; omega)
  have gx := (g fuel).par s e2
  have gy := (g fuel').par s' e2'
  rw [← Res.ok.inj hx, ← Res.ok.inj hy]
  congr 1
  apply Vector.ext
  intro r hr
  apply Vector.ext
  intro j hj
  rcases Nat.eq_zero_or_pos j with rfl | h0
  · apply Vector.ext
    intro c hc
    apply Zq.ext_nat
    rw [gx.1 r hr c hc, gy.1 r hr c hc]
  · rw [gx.2 r hr j hj h0, gy.2 r hr j hj h0]

end Raccoon
