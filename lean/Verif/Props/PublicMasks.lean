import Verif.Spec.PublicMasks
import Verif.Proofs.PublicMasks
import Verif.Props.KeyFile
import Verif.Props.DemoLike
/-!
# C77: refreshing with public masks protects nothing
-/
namespace Raccoon
attribute [-instance] Monoid.toNPow
open Finset

theorem made_loose (P : Par) (hP : P = raccoon128 ∨ P = raccoon192 ∨ P = raccoon256) (E : Ext) {d : Nat} (hd : ValidShares d) {sk : SKey P.k P.l d} (h : sk.Made P E) : PVec.Loose sk.s := by
  obtain ⟨sk0, fuel, h | h, hder⟩ := h
  · obtain ⟨entropy, seed, hs, e⟩ := h
    exact (C38_history P hP E d hd sk0 sk (C37_wellformed P hP E fuel d hd entropy seed hs sk0 e) hder).1.s.loose
  · obtain ⟨b, hb, e⟩ := h
    exact (derived_keyOfFile P hP E d hd b hb sk0 sk (load_keyOfFile P hP E fuel d hd b hb sk0 e) hder).loose

theorem made_refresh {P : Par} {E : Ext} {d fuel : Nat} {sk sk' : SKey P.k P.l d} (h : sk.Made P E) (e : Api.refresh P E fuel sk = .ok sk') : sk'.Made P E := by
  obtain ⟨sk0, f0, h, hder⟩ := h
  exact ⟨sk0, f0, h, hder.refresh fuel e⟩

theorem refresh_shares {P : Par} {E : Ext} {d fuel : Nat} (hd : ValidShares d) {sk sk' : SKey P.k P.l d} (h : PVec.Loose sk.s) (e : Api.refresh P E fuel sk = .ok sk') (r : Fin P.l) (s : Fin d) :
    (sk'.s[r.val][s.val]).toZ = (sk.s[r.val][s.val]).toZ + tableMask E d r.val s := by
  unfold Api.refresh SKey.refresh at e
  obtain ⟨⟨v, g⟩, e1, e⟩ := Res.bind_eq_ok.1 e
  obtain rfl := Res.ok.inj e
  have := (PVec.refresh_table hd.pow h GenAt.zero e1).2 r.val r.isLt s.val s.isLt
  rwa [Nat.zero_add] at this

/-- What one attempt does to the generators and to the sharing of the secret. -/
theorem attempt_table {P : Par} {E : Ext} {fuel d uw rep i : Nat} (hd : PowTwo d) (hu : 0 < uw) (hu' : uw ≤ 49) {A : PMat P.k P.l} {t : PVec P.k 1} {μ : List U8} {st st' : SignSt P.l d} {done : Bool}
    (hA : PMat.Can A)
    (hg : GenAt E d i st.m) (hs : PVec.Loose st.s) (h : signAttempt P E fuel d uw rep A t μ st = .ok (done, st')) :
    GenAt E d (i + (4 * P.l + (P.l + P.k) * rep)) st'.m ∧ PVec.Loose st'.s ∧
    ∀ (r : Nat) (hr : r < P.l) (s : Nat) (hs : s < d), (st'.s[r][s]).toZ = (st.s[r][s]).toZ + tableMask E d (i + (P.l + (P.l + P.k) * rep) + r) ⟨s, hs⟩ := by
  rw [signAttempt_eq] at h
  obtain ⟨⟨sig, s', p', m'⟩, hc, h⟩ := Res.bind_eq_ok.1 h
  have hst : st'.s = s' ∧ st'.m = m' := by
    unfold signFinish at h
    obtain ⟨⟨e1, e2⟩, -, h⟩ := Res.bind_eq_ok.1 h
    dsimp only at h
    split at h
    · obtain ⟨-, rfl⟩ := Prod.mk.inj (Res.ok.inj h)
      exact ⟨rfl, rfl⟩
    · obtain ⟨ib, -, h⟩ := Res.bind_eq_ok.1 h
      split at h
      · obtain ⟨-, rfl⟩ := Prod.mk.inj (Res.ok.inj h)
        exact ⟨rfl, rfl⟩
      · obtain ⟨-, rfl⟩ := Prod.mk.inj (Res.ok.inj h)
        exact ⟨rfl, rfl⟩
  rw [hst.1, hst.2]
  unfold signCore at hc
  obtain ⟨⟨r0, m1⟩, e0, hc⟩ := Res.bind_eq_ok.1 hc
  have s0 := PVec.zeroEncoding_spec E fuel P.l hd st.m
  rw [e0] at s0
  have t0 := (PVec.zeroEncoding_table hg e0).1
  obtain ⟨⟨r1, p1, m2⟩, e1, hc⟩ := Res.bind_eq_ok.1 hc
  have s1 := PVec.addRepNoise_spec E fuel (u := uw) (κ := P.κ) (rep := rep) hd hu hu' st.prng m1 s0.1
  rw [e1] at s1
  have t1 := (PVec.addRepNoise_table hd hu hu' s0.1 t0 e1).1
  obtain ⟨r2, e2, hc⟩ := Res.bind_eq_ok.1 hc
  obtain ⟨r2', e2', s2, -⟩ := PVec.ntt_spec s1.1
  rw [e2] at e2'
  obtain rfl := Res.ok.inj e2'
  obtain ⟨w0, ew, hc⟩ := Res.bind_eq_ok.1 hc
  obtain ⟨w0', ew', sw, -⟩ := PVec.intt_spec (PMat.mulVec_spec hA s2).1
  rw [ew] at ew'
  obtain rfl := Res.ok.inj ew'
  obtain ⟨⟨w1, p2, m3⟩, e3, hc⟩ := Res.bind_eq_ok.1 hc
  have t3 := (PVec.addRepNoise_table hd hu hu' sw t1 e3).1
  obtain ⟨cH, -, hc⟩ := Res.bind_eq_ok.1 hc
  obtain ⟨c0, ec, hc⟩ := Res.bind_eq_ok.1 hc
  obtain ⟨c, ecn, hc⟩ := Res.bind_eq_ok.1 hc
  obtain ⟨cn, ecn', hcan, -⟩ := ntt_ex (chalPoly_can ec)
  rw [ecn] at ecn'
  obtain rfl := Res.ok.inj ecn'
  obtain ⟨⟨s3, m4⟩, es, hc⟩ := Res.bind_eq_ok.1 hc
  obtain ⟨t4, v4⟩ := PVec.refresh_table hd hs t3 es
  have l4 := (PVec.refresh_loose E fuel hd hs m3).par _ es
  obtain ⟨⟨r3, m5⟩, er, hc⟩ := Res.bind_eq_ok.1 hc
  have t5 := (PVec.refresh_table hd s2.loose t4 er).1
  have s5 := PVec.refresh_spec E fuel hd s2 m4
  rw [er] at s5
  obtain ⟨⟨z, m6⟩, ez, hc⟩ := Res.bind_eq_ok.1 hc
  have t6 := (PVec.refresh_table hd (PVec.add_spec (PVec.mulPoly_loose l4.1 hcan).1 s5.1).1.loose t5 ez).1
  obtain ⟨y, -, hc⟩ := Res.bind_eq_ok.1 hc
  obtain ⟨z', -, hc⟩ := Res.bind_eq_ok.1 hc
  obtain ⟨sg, -, hc⟩ := Res.bind_eq_ok.1 hc
  have hp := Res.ok.inj hc
  simp only [Prod.mk.injEq] at hp
  obtain ⟨-, rfl, -, rfl⟩ := hp
  refine ⟨?_, l4.1, fun r hr s hs => ?_⟩
  · have e : i + P.l + P.l * rep + P.k * rep + P.l + P.l + P.l = i + (4 * P.l + (P.l + P.k) * rep) := by rw [Nat.add_mul]; omega
    rwa [e] at t6
  · have e : i + P.l + P.l * rep + P.k * rep + r = i + (P.l + (P.l + P.k) * rep) + r := by rw [Nat.add_mul]; omega
    rw [← e]
    exact v4 r hr s hs

theorem retries_table {P : Par} {E : Ext} {fuel d uw rep : Nat} (hd : PowTwo d) (hu : 0 < uw) (hu' : uw ≤ 49) {A : PMat P.k P.l} {t : PVec P.k 1} {μ : List U8} {st st' : SignSt P.l d} {n : Nat}
    (hA : PMat.Can A) (hg : GenAt E d 0 st.m) (hs : PVec.Loose st.s) (h : Retries P E fuel d uw rep A t μ n st st') :
    GenAt E d (n * (4 * P.l + (P.l + P.k) * rep)) st'.m ∧ PVec.Loose st'.s ∧
    ∀ (r : Nat) (hr : r < P.l) (s : Nat) (hs : s < d), (st'.s[r][s]).toZ = (st.s[r][s]).toZ +
      ∑ a ∈ range n, tableMask E d (a * (4 * P.l + (P.l + P.k) * rep) + (P.l + (P.l + P.k) * rep) + r) ⟨s, hs⟩ := by
  induction h with
  | zero => exact ⟨by rw [Nat.zero_mul]; exact hg, hs, fun r hr s hs => by rw [range_zero, sum_empty, add_zero]⟩
  | succ h e ih =>
    obtain ⟨i1, i2, i3⟩ := ih hg hs
    obtain ⟨k1, k2, k3⟩ := attempt_table hd hu hu' hA i1 i2 e
    refine ⟨by rw [Nat.succ_mul]; exact k1, k2, fun r hr s hs => ?_⟩
    rw [k3 r hr s hs, i3 r hr s hs, sum_range_succ, add_assoc]

theorem usedInSign_table {P : Par} {E : Ext} {d n : Nat} (hd : ValidShares d) {sk : SKey P.k P.l d} (hsk : PVec.Loose sk.s) {v : PVec P.l d} (h : UsedInSign P E sk n v) :
    ∃ rep, tab repTable (BitVec.ofNat 64 d) = .ok rep ∧ ∀ (r : Fin P.l) (s : Fin d), (v[r.val][s.val]).toZ = (sk.s[r.val][s.val]).toZ +
      ∑ a ∈ range (n + 1), tableMask E d (a * (4 * P.l + (P.l + P.k) * rep) + (P.l + (P.l + P.k) * rep) + r.val) s := by
  obtain ⟨fuel, uw, rep, t0, t, pkb, A, entropy, msg, buf, done, st, st', h1, h2, -, -, -, hA, h3, h4, rfl⟩ := h
  generalize SKey.bindMsg E P.κ pkb msg = μ at h3 h4
  obtain ⟨-, uw', -, -, -, e2, -, -, u1, u2, -⟩ := tab_ok hd
  obtain ⟨u1, u2⟩ : 0 < uw ∧ uw ≤ 49 := by
    have : uw = uw' := Res.ok.inj (h1.symm.trans e2)
    omega
  clear e2 h1
  have hA := ((expandA_safe E fuel P.k P.l sk.pkey.seed).par A hA).1
  generalize hst : (⟨sk.s, Prng.new E entropy, Mrng.new E d, buf⟩ : SignSt P.l d) = st0 at h3
  have hm : st0.m = Mrng.new E d := by rw [← hst]
  have hs0 : st0.s = sk.s := by rw [← hst]
  clear hst
  obtain ⟨i1, i2, i3⟩ := retries_table hd.pow u1 u2 hA (by rw [hm]; exact GenAt.zero) (by rw [hs0]; exact hsk) h3
  rw [hs0] at i3
  obtain ⟨k1, k2, k3⟩ := attempt_table hd.pow u1 u2 hA i1 i2 h4
  refine ⟨rep, h2, fun r s => ?_⟩
  rw [k3 r.val r.isLt s.val s.isLt, i3 r.val r.isLt s.val s.isLt, sum_range_succ, add_assoc]

/-- C77: all masks come from one table. There is a table `Z` - it depends on nothing but the number of shares and the (public) external functions; its rows are sharings of zero - that says
what each refresh adds, whatever the key, the message, the entropy and the parameter set:

* the shares of a generated key are the noise of these shares plus entries of `Z` (transformed),
* a call of `refresh` adds `Z r` to row `r` of the sharing,
* attempt `n` of a call of `sign` works with the stored shares plus a sum of entries of `Z`. -/
theorem C77_one_table (E : Ext) (d : Nat) (hd : ValidShares d) : ∃ Z : Nat → Fin d → RPoly, (∀ i, ∑ s, Z i s = 0) ∧
    ∀ P : Par, P = raccoon128 ∨ P = raccoon192 ∨ P = raccoon256 →
      (∀ fuel entropy seed sk, Api.generate P (utTableOf P) E fuel d entropy seed = .ok sk →
        ∃ ut rep, tab (utTableOf P) (BitVec.ofNat 64 d) = .ok ut ∧ tab repTable (BitVec.ofNat 64 d) = .ok rep ∧ ∀ (r : Fin P.l) (s : Fin d), (sk.s[r.val][s.val]).toZ =
          nttR (toR (fun c => ∑ n ∈ range rep, noiseAt E ut P.κ d r.val (E.shake128 entropy) (r.val * (rep * d * (P.κ / 8))) n s.val c) +
            (Z r.val s + ∑ n ∈ range rep, Z (P.l + r.val * rep + n) s))) ∧
      (∀ (fuel : Nat) (sk sk' : SKey P.k P.l d), sk.Made P E → Api.refresh P E fuel sk = .ok sk' →
        ∀ (r : Fin P.l) (s : Fin d), (sk'.s[r.val][s.val]).toZ = (sk.s[r.val][s.val]).toZ + Z r.val s) ∧
      (∀ (n : Nat) (sk : SKey P.k P.l d) (v : PVec P.l d), sk.Made P E → UsedInSign P E sk n v →
        ∃ rep, tab repTable (BitVec.ofNat 64 d) = .ok rep ∧ ∀ (r : Fin P.l) (s : Fin d), (v[r.val][s.val]).toZ = (sk.s[r.val][s.val]).toZ +
          ∑ a ∈ range (n + 1), Z (a * (4 * P.l + (P.l + P.k) * rep) + (P.l + (P.l + P.k) * rep) + r.val) s) := by
  refine ⟨tableMask E d, tableMask_sum E hd.pow, fun P hP => ⟨fun fuel entropy seed sk h => ?_, fun fuel sk sk' hm e => refresh_shares hd (made_loose P hP E hd hm) e,
    fun n sk v hm h => usedInSign_table hd (made_loose P hP E hd hm) h⟩⟩
  obtain ⟨rep, -, ut1, ut2, e1, -, e3, e4, -, -, v1, v2, v3, v4⟩ := tab_ok hd
  obtain ⟨ut, e2, u1, u2⟩ : ∃ ut, tab (utTableOf P) (BitVec.ofNat 64 d) = .ok ut ∧ 0 < ut ∧ ut ≤ 7 := by
    unfold utTableOf
    split
    · exact ⟨ut2, e4, v3, v4⟩
    · exact ⟨ut1, e3, v1, v2⟩
  unfold Api.generate at h
  rw [e2, Res.ok_bind, e1, Res.ok_bind] at h
  refine ⟨ut, rep, e2, e1, fun r s => ?_⟩
  unfold SKey.generate at h
  obtain ⟨A, eA, h⟩ := Res.bind_eq_ok.1 h
  obtain ⟨⟨x0, g1⟩, k0, h⟩ := Res.bind_eq_ok.1 h
  obtain ⟨⟨x1, p1, g2⟩, k1, h⟩ := Res.bind_eq_ok.1 h
  obtain ⟨xh, k2, h⟩ := Res.bind_eq_ok.1 h
  obtain ⟨w, k3, h⟩ := Res.bind_eq_ok.1 h
  obtain ⟨⟨t, p2, g3⟩, k4, h⟩ := Res.bind_eq_ok.1 h
  obtain rfl := Res.ok.inj h
  have s0 := PVec.zeroEncoding_spec E fuel P.l hd.pow (Mrng.new E d)
  rw [k0] at s0
  obtain ⟨t0, z0⟩ := PVec.zeroEncoding_table GenAt.zero k0
  have s1 := PVec.addRepNoise_spec E fuel (u := ut) (κ := P.κ) (rep := rep) hd.pow u1 (by omega) (Prng.new E entropy) g1 s0.1
  rw [k1] at s1
  obtain ⟨t1, z1⟩ := PVec.addRepNoise_table hd.pow u1 (by omega) s0.1 t0 k1
  show (xh[r.val][s.val]).toZ = _
  rw [PVec.ntt_shares s1.1 k2 r.val r.isLt s.val s.isLt, z1 r.val r.isLt s.val s.isLt, z0 r.val r.isLt s.val s.isLt]
  congr 1
  simp only [Nat.zero_add]
  rw [sum_add_distrib]
  have e : ∑ n ∈ range rep, toR (noiseAt E ut P.κ d r.val (Prng.new E entropy).stream ((Prng.new E entropy).pos + r.val * (rep * d * (P.κ / 8))) n s.val) =
      toR (fun c => ∑ n ∈ range rep, noiseAt E ut P.κ d r.val (E.shake128 entropy) (r.val * (rep * d * (P.κ / 8))) n s.val c) := by
    funext c
    rw [Finset.sum_apply]
    unfold toR
    rw [Int.cast_sum]
    refine sum_congr rfl fun n _ => ?_
    rw [show (Prng.new E entropy).pos = 0 from rfl, Nat.zero_add]
    rfl
  rw [e]
  abel

theorem chain_made {P : Par} {E : Ext} {d N : Nat} {keys : Nat → SKey P.k P.l d} (h0 : (keys 0).Made P E) (hk : RefreshChain P E keys N) : ∀ i, i ≤ N → (keys i).Made P E := by
  intro i
  induction i with
  | zero => intro _; exact h0
  | succ i ih =>
    intro hi
    obtain ⟨fuel, e⟩ := hk i hi
    exact made_refresh (ih (by omega)) e

theorem chain_shares {P : Par} (hP : P = raccoon128 ∨ P = raccoon192 ∨ P = raccoon256) {E : Ext} {d N : Nat} (hd : ValidShares d) {keys : Nat → SKey P.k P.l d} (h0 : (keys 0).Made P E)
    (hk : RefreshChain P E keys N) (r : Fin P.l) (s : Fin d) : ∀ i, i ≤ N → ((keys i).s[r.val][s.val]).toZ = ((keys 0).s[r.val][s.val]).toZ + i • tableMask E d r.val s := by
  intro i
  induction i with
  | zero => intro _; rw [zero_nsmul, add_zero]
  | succ i ih =>
    intro hi
    obtain ⟨fuel, e⟩ := hk i hi
    rw [refresh_shares hd (made_loose P hP E hd (chain_made h0 hk i (by omega))) e, ih (by omega), succ_nsmul]
    abel

/-- C77: seeing one share at a time is enough, and refreshing in between does not help. There are public values `C` such that: for every key, however it was made, refreshed any number of
times and used in any number of calls of `sign`, an observer that sees each share once - share `s` after `τ s` refreshes, in the key object or in attempt `n` of a call of `sign` - gets the
secret by subtracting the public values and adding up. -/
theorem C77_slow_observer (P : Par) (hP : P = raccoon128 ∨ P = raccoon192 ∨ P = raccoon256) (E : Ext) (d : Nat) (hd : ValidShares d) :
    ∃ C : Nat → Option Nat → Fin P.l → Fin d → RPoly, ∀ (keys : Nat → SKey P.k P.l d) (N : Nat), (keys 0).Made P E → RefreshChain P E keys N →
      ∀ (τ : Fin d → Nat) (w : Fin d → Option Nat) (seen : Fin d → PVec P.l d), (∀ s, τ s ≤ N ∧ InMemory P E (keys (τ s)) (w s) (seen s)) →
        ∀ r : Fin P.l, PVec.val (keys 0).s r = ∑ s : Fin d, (((seen s)[r.val][s.val]).toZ - C (τ s) (w s) r s) := by
  obtain ⟨rep, -, -, -, e1, -⟩ := tab_ok hd
  refine ⟨fun i w r s => i • tableMask E d r.val s + match w with
    | none => 0
    | some n => ∑ a ∈ range (n + 1), tableMask E d (a * (4 * P.l + (P.l + P.k) * rep) + (P.l + (P.l + P.k) * rep) + r.val) s, fun keys N h0 hk τ w seen hs r => ?_⟩
  unfold PVec.val MPoly.val
  refine sum_congr rfl fun s _ => ?_
  obtain ⟨h1, h2⟩ := hs s
  have hm := made_loose P hP E hd (chain_made h0 hk (τ s) h1)
  have hc := chain_shares hP hd h0 hk r s (τ s) h1
  cases hw : w s with
  | none =>
    rw [hw] at h2
    have h2 : seen s = (keys (τ s)).s := h2
    rw [h2, hc]
    show _ = _ - (_ + 0)
    abel
  | some n =>
    rw [hw] at h2
    obtain ⟨rep', e2, h3⟩ := usedInSign_table hd hm h2
    rw [e1] at e2
    obtain rfl := Res.ok.inj e2
    rw [h3 r s, hc, add_assoc]
    exact (add_sub_cancel_right _ _).symm

/-- C77: for a key that was loaded from bytes a single share is enough: after any number of refreshes the shares from 1 on are public values, the same for all keys, and share 0 is the
secret plus a public value. -/
theorem C77_loaded (P : Par) (hP : P = raccoon128 ∨ P = raccoon192 ∨ P = raccoon256) (E : Ext) (d : Nat) (hd : ValidShares d) :
    ∃ C : Nat → Fin P.l → Fin d → RPoly, ∀ (keys : Nat → SKey P.k P.l d) (N fuel : Nat) (b : List U8), b.length = SKey.byteLen P.κ P.k P.l d P.νt →
      Api.skFromBytes P E fuel d b = .ok (keys 0) → RefreshChain P E keys N → ∀ i, i ≤ N → ∀ (r : Fin P.l) (s : Fin d),
        ((keys i).s[r.val][s.val]).toZ = if s.val = 0 then fileSecret P d b r + C i r s else C i r s := by
  refine ⟨fun i r s => i • tableMask E d r.val s, fun keys N fuel b hb h0 hk i hi r s => ?_⟩
  rw [chain_shares hP hd ⟨keys 0, fuel, Or.inr ⟨b, hb, h0⟩, .refl⟩ hk r s i hi]
  obtain ⟨-, w2, -, -, -, -, -, -, -, h8, -⟩ := par_bounds P hP
  have hz : ∀ r (hr : r < P.l) j (hj : j < d), 0 < j → (keys 0).s[r][j] = Poly.zero := by
    unfold Api.skFromBytes at h0
    rw [w2] at hb h0
    exact C26_deserialised_unmasked E fuel P.κ P.k P.l d h8 b hb (keys 0) h0
  have hv := (load_keyOfFile P hP E fuel d hd b hb (keys 0) h0).val
  by_cases h : s.val = 0
  · rw [if_pos h]
    have : ((keys 0).s[r.val][s.val]).toZ = PVec.val (keys 0).s r := by
      rw [val_of_first hd.pos hz r]
      congr 2
    rw [this, hv]
  · rw [if_neg h, hz r.val r.isLt s.val s.isLt (Nat.pos_of_ne_zero h), Poly.zero_toZ, zero_add]

theorem retries_prefix {P : Par} {E : Ext} {fuel d uw rep : Nat} {A : PMat P.k P.l} {t : PVec P.k 1} {μ : List U8} {st st' : SignSt P.l d} {n : Nat}
    (h : Retries P E fuel d uw rep A t μ n st st') : ∀ i, i < n → ∃ st1 st2, Retries P E fuel d uw rep A t μ i st st1 ∧ signAttempt P E fuel d uw rep A t μ st1 = .ok (false, st2) := by
  induction h with
  | zero => intro i hi; omega
  | @succ n st st1 st2 h e ih =>
    intro i hi
    rcases Nat.lt_or_ge i n with hi | hi
    · exact ih i hi
    · obtain rfl : i = n := by omega
      exact ⟨_, _, h, e⟩

/-- C77: the attempts `UsedInSign` speaks of happen: a call of `sign` that returns has made at least one, and there is a sharing for each of them. -/
theorem C77_sign_uses (P : Par) (E : Ext) (fuel d : Nat) (sk : SKey P.k P.l d) (entropy msg buf b : List U8) (h : Api.sign P E fuel d sk entropy msg buf = .ok b) :
    ∃ n, ∀ i, i ≤ n → ∃ v, UsedInSign P E sk i v := by
  unfold Api.sign at h
  obtain ⟨uw, h1, h⟩ := Res.bind_eq_ok.1 h
  obtain ⟨rep, h2, h⟩ := Res.bind_eq_ok.1 h
  unfold SKey.sign at h
  obtain ⟨t0, h3, h⟩ := Res.bind_eq_ok.1 h
  obtain ⟨t, h4, h⟩ := Res.bind_eq_ok.1 h
  obtain ⟨pkb, h5, h⟩ := Res.bind_eq_ok.1 h
  obtain ⟨A, h6, h⟩ := Res.bind_eq_ok.1 h
  obtain ⟨n, st', st'', -, k2, k3, -⟩ := signLoop_ok P E fuel d uw rep A t _ b fuel _ h
  refine ⟨n, fun i hi => ?_⟩
  rcases Nat.lt_or_ge i n with hi' | hi'
  · obtain ⟨st1, st2, r1, r2⟩ := retries_prefix k2 i hi'
    exact ⟨st2.s, fuel, uw, rep, t0, t, pkb, A, entropy, msg, buf, false, st1, st2, h1, h2, h3, h4, h5, h6, r1, r2, rfl⟩
  · obtain rfl : i = n := by omega
    exact ⟨st''.s, fuel, uw, rep, t0, t, pkb, A, entropy, msg, buf, true, st', st'', h1, h2, h3, h4, h5, h6, k2, k3, rfl⟩

/-- C77: each single share of a fresh key is, up to a public value, a *short* polynomial: at most `rep` times the bound of one noise coefficient (an honest sharing has uniformly distributed
shares; this one is a polynomial with coefficients of a few bits, and d - 1 shares are d - 1 of the d summands of the secret). -/
theorem C77_share_short (P : Par) (hP : P = raccoon128 ∨ P = raccoon192 ∨ P = raccoon256) (E : Ext) (d : Nat) (hd : ValidShares d) :
    ∃ C : Fin P.l → Fin d → RPoly, (∀ r, ∑ s, C r s = 0) ∧ ∀ fuel entropy seed sk, Api.generate P (utTableOf P) E fuel d entropy seed = .ok sk →
      ∃ ut rep, tab (utTableOf P) (BitVec.ofNat 64 d) = .ok ut ∧ tab repTable (BitVec.ofNat 64 d) = .ok rep ∧
        ∀ (r : Fin P.l) (s : Fin d), ∃ x : Fin 512 → Int, (∀ c, |x c| ≤ rep * 2 ^ (ut - 1)) ∧ (sk.s[r.val][s.val]).toZ = nttR (toR x + C r s) := by
  obtain ⟨Z, hz, hZ⟩ := C77_one_table E d hd
  obtain ⟨rep, -, ut1, ut2, e1, -, e3, e4, -, -, v1, v2, v3, v4⟩ := tab_ok hd
  refine ⟨fun r s => Z r.val s + ∑ n ∈ range rep, Z (P.l + r.val * rep + n) s, fun r => ?_, fun fuel entropy seed sk h => ?_⟩
  · rw [sum_add_distrib, hz, zero_add, sum_comm]
    exact sum_eq_zero fun n _ => hz _
  · obtain ⟨ut, rep', k1, k2, k3⟩ := (hZ P hP).1 fuel entropy seed sk h
    obtain rfl : rep = rep' := Res.ok.inj (e1.symm.trans k2)
    have hu : 0 < ut := by
      unfold utTableOf at k1
      split at k1
      · have : ut2 = ut := Res.ok.inj (e4.symm.trans k1)
        omega
      · have : ut1 = ut := Res.ok.inj (e3.symm.trans k1)
        omega
    refine ⟨ut, rep, k1, k2, fun r s => ⟨_, fun c => ?_, k3 r s⟩⟩
    refine (Finset.abs_sum_le_sum_abs _ _).trans ((Finset.sum_le_card_nsmul _ _ ((2 : Int) ^ (ut - 1)) fun n _ => ?_).trans ?_)
    · have := (C22_noise_bound E ut rep P.κ d r.val hu (E.shake128 entropy) (r.val * (rep * d * (P.κ / 8))) c).1 n s.val
      rw [abs_le]
      generalize (2 : Int) ^ (ut - 1) = b at *
      omega
    · rw [Finset.card_range, nsmul_eq_mul]

/-- The hypotheses of `C77_slow_observer` are met: a key of two shares is generated and refreshed once; the observer sees share 0 in the refreshed key object and share 1 in the first
attempt of a call of `sign` on the original one. -/
example : ∃ (keys : Nat → SKey 5 4 2) (v : PVec 4 2), (keys 0).Made raccoon128 demoE ∧ RefreshChain raccoon128 demoE keys 1 ∧
    InMemory raccoon128 demoE (keys 1) none (keys 1).s ∧ InMemory raccoon128 demoE (keys 0) (some 0) v := by
  have hP : raccoon128 = raccoon128 ∨ raccoon128 = raccoon192 ∨ raccoon128 = raccoon256 := Or.inl rfl
  obtain ⟨sk0, pkb, h0, -, hs⟩ := demo_like.toy_run [] (List.replicate 16 0) List.length_replicate
  have w0 := C37_wellformed raccoon128 hP demoE 512 2 demo_d [] (List.replicate 16 0) List.length_replicate sk0 h0
  obtain ⟨sk1, h1⟩ := C52_refresh raccoon128 demoE 512 2 demo_d demo_like.toy_finish sk0 w0
  obtain ⟨b, -, -, -, e, -⟩ := hs [] []
  obtain ⟨n, hn⟩ := C77_sign_uses raccoon128 demoE 512 2 sk0 [] [] _ b e
  obtain ⟨v, hv⟩ := hn 0 (Nat.zero_le _)
  refine ⟨fun i => if i = 0 then sk0 else sk1, v, ⟨sk0, 512, Or.inl ⟨[], List.replicate 16 0, List.length_replicate, h0⟩, .refl⟩, fun i hi => ?_, rfl, hv⟩
  obtain rfl : i = 0 := by omega
  exact ⟨512, h1⟩

end Raccoon
