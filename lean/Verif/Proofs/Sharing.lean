import Verif.Proofs.Masked
import Verif.Proofs.PolySmall
/-!
# Zero encodings, refresh, masked noise, matrix expansion
-/
namespace Raccoon
attribute [-instance] Monoid.toNPow
open Finset

/-! ### zero encoding -/

theorem maskPair_safe (E : Ext) (fuel : Nat) {d sidx off : Nat} (hoff : 0 < off) (hd : sidx + off < d)
    (s : MPoly d × Mrng d) (hs : MPoly.Can s.1) :
    (MPoly.maskPair E fuel sidx off s).Safe (fun r => MPoly.Can r.1 ∧ MPoly.val r.1 = MPoly.val s.1) := by
  unfold MPoly.maskPair
  refine Res.Safe.bind (samplePolynomial_safe E fuel sidx s.2) ?_
  rintro ⟨r, m⟩ hr
  replace hr : r.Can := hr
  have h0 : sidx < d := by omega
  show (s.1.rd sidx >>= _).Safe _
  rw [rd_ok h0, Res.ok_bind, wr_ok h0, Res.ok_bind, rd_ok hd, Res.ok_bind, wr_ok hd, Res.ok_bind]
  have hx := hs sidx h0
  have hv1 : MPoly.Can (s.1.set sidx (Poly.add s.1[sidx] r) h0) := MPoly.can_set hs h0 (Poly.add_can hx hr)
  have hy := hv1 (sidx + off) hd
  refine ⟨MPoly.can_set hv1 hd (Poly.sub_can hy hr), ?_⟩
  rw [MPoly.val_set, MPoly.val_set, Poly.sub_toZ hy hr, Poly.add_toZ hx hr]
  abel

/-- The invariant of the mask loops: canonical shares of zero. -/
def ZeroEnc (s : MPoly d × Mrng d) : Prop := MPoly.Can s.1 ∧ MPoly.val s.1 = 0

theorem maskPair_zero (E : Ext) (fuel : Nat) {d sidx off : Nat} (hoff : 0 < off) (hd : sidx + off < d)
    (s : MPoly d × Mrng d) (hs : ZeroEnc s) : (MPoly.maskPair E fuel sidx off s).Safe ZeroEnc :=
  (maskPair_safe E fuel hoff hd s hs.1).mono fun _ h => ⟨h.1, h.2.trans hs.2⟩

theorem dvd_add_le {i s d : Nat} (hs : s ∣ d) (hi : s ∣ i) (h : i < d) : i + s ≤ d := by
  obtain ⟨a, rfl⟩ := hs
  obtain ⟨b, rfl⟩ := hi
  have hb : b < a := Nat.lt_of_mul_lt_mul_left h
  calc s * b + s = s * (b + 1) := by rw [Nat.mul_add, Nat.mul_one]
    _ ≤ s * a := Nat.mul_le_mul_left _ hb

theorem zeroEncLoop_safe (E : Ext) (fuel : Nat) {m : Nat} : ∀ (n j : Nat) (s : MPoly (2 ^ m) × Mrng (2 ^ m)), j ≤ m → m ≤ n + j → ZeroEnc s →
    (MPoly.zeroEncLoop E fuel n (2 ^ j) s).Safe ZeroEnc := by
  intro n
  induction n with
  | zero =>
    intro j s hj hn hs
    have : j = m := by omega
    subst this
    unfold MPoly.zeroEncLoop
    rw [if_neg (by omega)]
    exact hs
  | succ n ih =>
    intro j s hj hn hs
    unfold MPoly.zeroEncLoop
    by_cases h : 2 ^ j < 2 ^ m
    · rw [if_pos h]
      have hjm : j < m := (Nat.pow_lt_pow_iff_right (by omega)).1 h
      have hpos : 0 < 2 ^ j := Nat.two_pow_pos j
      have hdvd : 2 * 2 ^ j ∣ 2 ^ m := by
        rw [← Nat.pow_succ']; exact Nat.pow_dvd_pow 2 hjm
      refine Res.Safe.bind (P := ZeroEnc) ?_ ?_
      · refine forLoop_Safe (by omega) ZeroEnc hs ?_
        intro i s h1 h2 h3 h4
        have hi := dvd_add_le hdvd (by simpa using h3) h2
        refine forLoop_Safe (by omega) ZeroEnc h4 ?_
        intro sidx s g1 g2 _ g4
        exact maskPair_zero E fuel hpos (by omega) s g4
      · intro s' hs'
        have e : 2 ^ j <<< 1 = 2 ^ (j + 1) := by rw [Nat.shiftLeft_eq, Nat.pow_one, Nat.pow_succ]
        rw [e]
        exact ih (j + 1) s' hjm (by omega) hs'
    · rw [if_neg h]
      exact hs

theorem MPoly.fillWith_zero_spec (d : Nat) : MPoly.Can (MPoly.fillWith d Zq.zero) ∧ MPoly.val (MPoly.fillWith d Zq.zero) = 0 :=
  MPoly.zero_spec d

theorem zeroEncoding_safe (E : Ext) (fuel m : Nat) (g : Mrng (2 ^ m)) : (MPoly.zeroEncoding E fuel g).Safe ZeroEnc := by
  unfold MPoly.zeroEncoding
  have h0 : ZeroEnc (MPoly.fillWith (2 ^ m) Zq.zero, g) := MPoly.fillWith_zero_spec _
  by_cases hd : 2 ^ m > 1
  · show (if 2 ^ m > 1 then _ else _ : Res _).Safe _
    rw [if_pos hd]
    have hm : 0 < m := by
      rcases Nat.eq_zero_or_pos m with h | h
      · subst h; exact absurd hd (by decide)
      · exact h
    have hdvd : 2 ∣ 2 ^ m := Dvd.dvd.trans (by decide : 2 ∣ 2 ^ 1) (Nat.pow_dvd_pow 2 hm)
    refine Res.Safe.bind (P := ZeroEnc) ?_ ?_
    · refine forLoop_Safe (by omega) ZeroEnc h0 ?_
      intro i s h1 h2 h3 h4
      have := dvd_add_le hdvd (by simpa using h3) h2
      exact maskPair_zero E fuel (by omega) (by omega) s h4
    · intro s hs
      have := zeroEncLoop_safe E fuel (2 ^ m) 1 s hm (by have := @Nat.lt_two_pow_self m; omega) hs
      rw [Nat.pow_one] at this
      exact this
  · show (if 2 ^ m > 1 then _ else _ : Res _).Safe _
    rw [if_neg hd]
    exact h0

/-- A valid share count. -/
def PowTwo (d : Nat) : Prop := ∃ m, d = 2 ^ m

theorem MPoly.zeroEncoding_spec (E : Ext) (fuel : Nat) {d : Nat} (hd : PowTwo d) (g : Mrng d) :
    (MPoly.zeroEncoding E fuel g).Safe ZeroEnc := by
  obtain ⟨m, rfl⟩ := hd
  exact zeroEncoding_safe E fuel m g

theorem MPoly.refresh_spec (E : Ext) (fuel : Nat) {d : Nat} (hd : PowTwo d) {a : MPoly d} (ha : MPoly.Can a) (g : Mrng d) :
    (MPoly.refresh E fuel a g).Safe (fun r => MPoly.Can r.1 ∧ MPoly.val r.1 = MPoly.val a) := by
  unfold MPoly.refresh
  refine Res.Safe.bind (MPoly.zeroEncoding_spec E fuel hd g) ?_
  rintro ⟨z, m⟩ ⟨h1, h2⟩
  obtain ⟨h3, h4⟩ := MPoly.add_spec ha h1
  refine ⟨h3, ?_⟩
  show MPoly.val (MPoly.add a z) = _
  replace h2 : MPoly.val z = 0 := h2
  rw [h4, h2, add_zero]

/-! ### one row at a time -/

theorem PVec.can_set {v : PVec rows d} (hv : PVec.Can v) {i : Nat} (hi : i < rows) {x : MPoly d} (hx : MPoly.Can x) :
    PVec.Can (v.set i x hi) := by
  intro s hs
  by_cases h : s = i
  · subst h; rw [Vector.getElem_set_self]; exact hx
  · rw [Vector.getElem_set_ne _ _ (by omega)]; exact hv s hs

theorem PVec.val_set_ne {v : PVec rows d} {i : Nat} (hi : i < rows) {x : MPoly d} {r : Fin rows} (h : r.val ≠ i) :
    PVec.val (v.set i x hi) r = PVec.val v r := by
  unfold PVec.val; rw [Vector.getElem_set_ne _ _ (by omega)]

theorem PVec.val_set_self {v : PVec rows d} {i : Nat} (hi : i < rows) {x : MPoly d} {r : Fin rows} (h : r.val = i) :
    PVec.val (v.set i x hi) r = MPoly.val x := by
  subst h; unfold PVec.val; rw [Vector.getElem_set_self]

theorem PVec.zeroEncoding_spec (E : Ext) (fuel rows : Nat) {d : Nat} (hd : PowTwo d) (g : Mrng d) :
    (PVec.zeroEncoding E fuel rows g).Safe (fun r => PVec.Can r.1 ∧ PVec.val r.1 = 0) := by
  unfold PVec.zeroEncoding
  refine forLoop_Safe1 (Nat.zero_le _) (fun _ (s : PVec rows d × Mrng d) => PVec.Can s.1 ∧ PVec.val s.1 = 0) (PVec.zero_spec rows d) ?_
  rintro i ⟨v, m⟩ - hi ⟨h1, h2⟩
  replace h1 : PVec.Can v := h1
  replace h2 : PVec.val v = 0 := h2
  refine Res.Safe.bind (MPoly.zeroEncoding_spec E fuel hd m) ?_
  rintro ⟨z, m'⟩ ⟨h3, h4⟩
  replace h4 : MPoly.val z = 0 := h4
  show (v.wr i z >>= _).Safe _
  rw [wr_ok hi, Res.ok_bind]
  refine ⟨PVec.can_set h1 hi h3, ?_⟩
  funext r
  by_cases h : r.val = i
  · exact (PVec.val_set_self hi h).trans h4
  · exact (PVec.val_set_ne hi h).trans (congrFun h2 r)

theorem PVec.refresh_spec (E : Ext) (fuel : Nat) {rows d : Nat} (hd : PowTwo d) {a : PVec rows d} (ha : PVec.Can a) (g : Mrng d) :
    (PVec.refresh E fuel a g).Safe (fun r => PVec.Can r.1 ∧ PVec.val r.1 = PVec.val a) := by
  unfold PVec.refresh
  refine forLoop_Safe1 (Nat.zero_le _) (fun _ (s : PVec rows d × Mrng d) => PVec.Can s.1 ∧ PVec.val s.1 = PVec.val a) ⟨ha, rfl⟩ ?_
  rintro i ⟨v, m⟩ - hi ⟨h1, h2⟩
  replace h1 : PVec.Can v := h1
  replace h2 : PVec.val v = PVec.val a := h2
  show (v.rd i >>= _).Safe _
  rw [rd_ok hi, Res.ok_bind]
  refine Res.Safe.bind (MPoly.refresh_spec E fuel hd (h1 i hi) m) ?_
  rintro ⟨z, m'⟩ ⟨h3, h4⟩
  replace h4 : MPoly.val z = MPoly.val v[i] := h4
  show (v.wr i z >>= _).Safe _
  rw [wr_ok hi, Res.ok_bind]
  refine ⟨PVec.can_set h1 hi h3, ?_⟩
  rw [← h2]
  funext r
  by_cases h : r.val = i
  · refine (PVec.val_set_self hi h).trans ?_
    rw [h4]; subst h; rfl
  · exact (PVec.val_set_ne hi h)

/-! ### noise -/

theorem msb_of_nonneg {c : Int} (h0 : 0 ≤ c) (h1 : c < 9223372036854775808) : (BitVec.ofInt 64 c) >>> 63 = (0 : U64) := by
  apply BitVec.eq_of_toNat_eq
  rw [BitVec.toNat_ushiftRight, BitVec.toNat_ofInt, Nat.shiftRight_eq_div_pow, pow63, pow64]
  show _ = 0
  omega

theorem msb_of_neg {c : Int} (h0 : c < 0) (h1 : -9223372036854775808 ≤ c) : (BitVec.ofInt 64 c) >>> 63 = (1 : U64) := by
  apply BitVec.eq_of_toNat_eq
  rw [BitVec.toNat_ushiftRight, BitVec.toNat_ofInt, Nat.shiftRight_eq_div_pow, pow63, pow64]
  show _ = 1
  omega

theorem ofInt_toNat {c : Int} (h0 : 0 ≤ c) (h1 : c < 9223372036854775808) : ((BitVec.ofInt 64 c : U64).toNat : Int) = c := by
  rw [BitVec.toNat_ofInt, pow64]; omega

/-- Adding noise of magnitude at most `q` to a canonical coefficient reduces correctly. -/
theorem addNoiseCoeff_spec {x : Zq} (hx : x.Can) {n : Int} (h1 : -(q : Int) ≤ n) (h2 : n ≤ q) :
    (MPoly.addNoiseCoeff x n).Ok (fun r => r.Can ∧ (r.raw.toNat : Int) = (x.raw.toNat + n) % q) := by
  unfold MPoly.addNoiseCoeff
  unfold Zq.Can at *
  have hq : (q : Int) = 549824583172097 := rfl
  have hqn : q = 549824583172097 := rfl
  have hQ : Q.toInt = (q : Int) := by rw [toInt_small (by rw [Q_toNat, pow63, hqn]; omega), Q_toNat]
  rw [toInt_small (by rw [pow63]; omega)]
  generalize hxx : x.raw.toNat = a at *
  rw [i64_ok (by omega) (by omega), Res.ok_bind]
  generalize hc : (a : Int) + n = c
  have hc1 : -(q : Int) ≤ c := by omega
  have hc2 : c < 2 * (q : Int) := by omega
  have az : ∀ x : U64, x &&& (0 : U64) = 0 := fun x => BitVec.and_zero
  have z0 : (Q &&& (0 : U64)).toInt = 0 := by rw [az]; rfl
  by_cases hneg : c < 0
  · show (i64 ((Q &&& -(BitVec.ofInt 64 c >>> 63)).toInt + c) >>= fun s =>
      i64 (s - (Q &&& ctGe64 (BitVec.ofInt 64 c &&& ~~~(-(BitVec.ofInt 64 c >>> 63))) Q).toInt) >>= fun r => Res.ok (⟨BitVec.ofInt 64 r⟩ : Zq)).Ok _
    rw [msb_of_neg hneg (by omega)]
    have e1 : (-(1 : U64)) = BitVec.allOnes 64 := by decide
    have e2 : ~~~(BitVec.allOnes 64) = (0 : U64) := by decide
    have e3 : ctGe64 0 Q = 0 := by decide
    rw [e1, e2, BitVec.and_allOnes, az]
    show (_ >>= fun s => i64 (s - (Q &&& ctGe64 0 Q).toInt) >>= _).Ok _
    rw [e3, z0, hQ, i64_ok (by omega) (by omega), Res.ok_bind, i64_ok (by omega) (by omega), Res.ok_bind]
    simp only [Res.ok_ok]
    have := ofInt_toNat (c := (q : Int) + c - 0) (by omega) (by omega)
    refine ⟨by omega, ?_⟩
    rw [this]
    rw [hq] at *
    omega
  · show (i64 ((Q &&& -(BitVec.ofInt 64 c >>> 63)).toInt + c) >>= fun s =>
      i64 (s - (Q &&& ctGe64 (BitVec.ofInt 64 c &&& ~~~(-(BitVec.ofInt 64 c >>> 63))) Q).toInt) >>= fun r => Res.ok (⟨BitVec.ofInt 64 r⟩ : Zq)).Ok _
    rw [msb_of_nonneg (by omega) (by omega)]
    have e1 : (-(0 : U64)) = 0 := by decide
    have e2 : ~~~(0 : U64) = BitVec.allOnes 64 := by decide
    rw [e1, e2, BitVec.and_allOnes, z0, i64_ok (by omega) (by omega), Res.ok_bind]
    have hcn := ofInt_toNat (c := c) (by omega) (by omega)
    unfold ctGe64
    by_cases hge : BitVec.ofInt 64 c ≥ Q
    · have hge' : Q.toNat ≤ (BitVec.ofInt 64 c).toNat := hge
      rw [Q_toNat] at hge'
      rw [if_pos hge, BitVec.and_allOnes, hQ, i64_ok (by omega) (by omega), Res.ok_bind]
      simp only [Res.ok_ok]
      have := ofInt_toNat (c := 0 + c - (q : Int)) (by omega) (by omega)
      refine ⟨by omega, ?_⟩
      rw [this]
      rw [hq] at *
      omega
    · have hge' : ¬ Q.toNat ≤ (BitVec.ofInt 64 c).toNat := hge
      rw [Q_toNat] at hge'
      rw [if_neg hge, z0, i64_ok (by omega) (by omega), Res.ok_bind]
      simp only [Res.ok_ok]
      have := ofInt_toNat (c := 0 + c - 0) (by omega) (by omega)
      refine ⟨by omega, ?_⟩
      rw [this]
      rw [hq] at *
      omega

theorem addNoisePoly_spec {p : Poly} (hp : p.Can) {n : Vector Int 512} (hn : ∀ i (hi : i < 512), -(q : Int) ≤ n[i] ∧ n[i] ≤ (q : Int)) :
    (MPoly.addNoisePoly p n).Ok (fun r => r.Can ∧ r.toZ = p.toZ + toR (fun i => n[i.val])) := by
  unfold MPoly.addNoisePoly
  refine (mapR_Ok (fun i (r : Zq) => ∀ hi : i < 512, r.Can ∧ (r.raw.toNat : Int) = ((p[i]).raw.toNat + n[i]) % q) ?_).mono ?_
  · intro i hi
    rw [Vector.getElem_zipWith]
    exact (addNoiseCoeff_spec (hp i hi) (hn i hi).1 (hn i hi).2).mono fun r h _ => h
  · intro r h
    refine ⟨fun i hi => (h i hi hi).1, ?_⟩
    funext i
    have h2 := (h i.val i.isLt i.isLt).2
    show ((r[i.val]).raw.toNat : ZMod q) = ((p[i.val]).raw.toNat : ZMod q) + ((n[i.val] : Int) : ZMod q)
    have h3 : (((r[i.val]).raw.toNat : Int) : ZMod q) = ((((p[i.val]).raw.toNat + n[i.val]) % q : Int) : ZMod q) := congrArg _ h2
    rw [ZMod.intCast_mod] at h3
    push_cast at h3
    exact h3

theorem Prng.read_eq (p : Prng) (n : Nat) :
    p.read n = ((List.range n).map (fun i => p.stream (p.pos + i)), p.advance n) := rfl

theorem noise_bound {u : Nat} (hu : 0 < u) (hu' : u ≤ 49) (x : Int) : -(q : Int) ≤ x.bmod (2 ^ u) ∧ x.bmod (2 ^ u) ≤ (q : Int) := by
  have h := bmod_range x hu
  have : (2 : Int) ^ (u - 1) ≤ 2 ^ 48 := by
    have : (2 : Nat) ^ (u - 1) ≤ 2 ^ 48 := Nat.pow_le_pow_right (by omega) (by omega)
    exact_mod_cast this
  have e : (2 : Int) ^ 48 = 281474976710656 := by norm_num
  have hq : (q : Int) = 549824583172097 := rfl
  rw [e] at this
  generalize (2 : Int) ^ (u - 1) = b at *
  omega

theorem noiseShare_spec (E : Ext) {u κ d iRep idx sidx : Nat} (hu : 0 < u) (hu' : u ≤ 49) (hs : sidx < d) (st : Nat → U8) (pos : Nat)
    (v : MPoly d) (prng : Prng) (hv : MPoly.Can v) (hst : prng.stream = st) (hpos : prng.pos = pos + (iRep * d + sidx) * (κ / 8)) :
    (MPoly.noiseShare E u κ iRep idx sidx (v, prng)).Ok (fun r => MPoly.Can r.1 ∧
      MPoly.val r.1 = MPoly.val v + toR (noiseAt E u κ d idx st pos iRep sidx) ∧ r.2 = prng.advance (κ / 8)) := by
  unfold MPoly.noiseShare
  show (MPoly.sampleU E u [0x75, BitVec.ofNat 8 iRep, BitVec.ofNat 8 idx, BitVec.ofNat 8 sidx, 0, 0, 0, 0] (prng.read (κ / 8)).1 >>= _).Ok _
  rw [sampleU_eq E hu (by omega), Res.ok_bind]
  show (v.rd sidx >>= _).Ok _
  rw [rd_ok hs, Res.ok_bind]
  have hn := addNoisePoly_spec (hv sidx hs) (n := Vector.ofFn fun i : Fin 512 => ((streamWord (E.shake256 ([0x75, BitVec.ofNat 8 iRep, BitVec.ofNat 8 idx, BitVec.ofNat 8 sidx, 0, 0, 0, 0] ++ (prng.read (κ / 8)).1)) ((u + 7) / 8) i.val : Nat) : Int).bmod (2 ^ u))
    (fun i hi => by rw [Vector.getElem_ofFn]; exact noise_bound hu hu' _)
  refine Res.Ok.bind hn ?_
  rintro x ⟨hx1, hx2⟩
  show (v.wr sidx x >>= _).Ok _
  rw [wr_ok hs, Res.ok_bind]
  refine ⟨_, rfl, MPoly.can_set hv hs hx1, ?_, rfl⟩
  show MPoly.val (v.set sidx x hs) = _
  rw [MPoly.val_set, hx2]
  have e : toR (fun i : Fin 512 => (Vector.ofFn fun i : Fin 512 => ((streamWord (E.shake256 ([0x75, BitVec.ofNat 8 iRep, BitVec.ofNat 8 idx, BitVec.ofNat 8 sidx, 0, 0, 0, 0] ++ (prng.read (κ / 8)).1)) ((u + 7) / 8) i.val : Nat) : Int).bmod (2 ^ u))[i.val]) = toR (noiseAt E u κ d idx st pos iRep sidx) := by
    refine congrArg toR (funext fun i => ?_)
    rw [Vector.getElem_ofFn, Prng.read_eq, hst, hpos]
    rfl
  rw [e]
  abel

theorem Prng.advance_advance (p : Prng) (a b : Nat) : (p.advance a).advance b = p.advance (a + b) := by
  unfold Prng.advance; rw [Nat.add_assoc]

theorem toR_add (f g : Fin 512 → Int) : toR (f + g) = toR f + toR g := by
  funext c; show (((f c + g c : Int)) : ZMod q) = (f c : ZMod q) + (g c : ZMod q); push_cast; rfl

theorem toR_zero : toR 0 = 0 := by funext c; show ((0 : Int) : ZMod q) = 0; push_cast; rfl

/-- Noise of the first `m` shares of a repetition. -/
def repNoise (E : Ext) (u κ d idx : Nat) (s : Nat → U8) (pos iRep m : Nat) : Fin 512 → Int := fun c =>
  ∑ sidx ∈ range m, noiseAt E u κ d idx s pos iRep sidx c

theorem repNoise_succ (E : Ext) (u κ d idx : Nat) (s : Nat → U8) (pos iRep m : Nat) :
    repNoise E u κ d idx s pos iRep (m + 1) = repNoise E u κ d idx s pos iRep m + noiseAt E u κ d idx s pos iRep m := by
  funext c; unfold repNoise; rw [Finset.sum_range_succ]; rfl

theorem totalNoise_succ (E : Ext) (u κ d rep idx : Nat) (s : Nat → U8) (pos : Nat) :
    totalNoise E u κ d (rep + 1) idx s pos = totalNoise E u κ d rep idx s pos + repNoise E u κ d idx s pos rep d := by
  funext c; unfold totalNoise repNoise; rw [Finset.sum_range_succ]; rfl

theorem noiseRep_spec (E : Ext) (fuel : Nat) {u κ d iRep idx : Nat} (hd : PowTwo d) (hu : 0 < u) (hu' : u ≤ 49) (st : Nat → U8) (pos : Nat)
    (v : MPoly d) (prng : Prng) (m : Mrng d) (hv : MPoly.Can v) (hst : prng.stream = st) (hpos : prng.pos = pos + (iRep * d) * (κ / 8)) :
    (MPoly.noiseRep E fuel u κ idx iRep (v, prng, m)).Safe (fun r => MPoly.Can r.1 ∧
      MPoly.val r.1 = MPoly.val v + toR (repNoise E u κ d idx st pos iRep d) ∧ r.2.1 = prng.advance (d * (κ / 8))) := by
  unfold MPoly.noiseRep
  have h := forLoop_Ok1 (Nat.zero_le d) (body := fun sidx s => MPoly.noiseShare E u κ iRep idx sidx s) (s := (v, prng))
    (fun i (r : MPoly d × Prng) => MPoly.Can r.1 ∧ MPoly.val r.1 = MPoly.val v + toR (repNoise E u κ d idx st pos iRep i) ∧
      r.2 = prng.advance (i * (κ / 8))) ?_ ?_
  · refine Res.Safe.bind h.safe ?_
    rintro ⟨v', prng'⟩ ⟨h1, h2, h3⟩
    replace h3 : prng' = _ := h3
    replace h2 : MPoly.val v' = _ := h2
    refine Res.Safe.bind (MPoly.refresh_spec E fuel hd h1 m) ?_
    rintro ⟨v'', m'⟩ ⟨h4, h5⟩
    replace h5 : MPoly.val v'' = MPoly.val v' := h5
    exact ⟨h4, h5.trans h2, h3⟩
  · refine ⟨hv, ?_, ?_⟩
    · show MPoly.val v = _
      have : repNoise E u κ d idx st pos iRep 0 = 0 := by funext c; unfold repNoise; rw [Finset.sum_range_zero]; rfl
      rw [this, toR_zero, add_zero]
    · show prng = _
      rw [Nat.zero_mul]; rfl
  · rintro i ⟨v', prng'⟩ - hi ⟨h1, h2, h3⟩
    replace h3 : prng' = _ := h3
    replace h2 : MPoly.val v' = _ := h2
    refine (noiseShare_spec E hu hu' hi st pos v' prng' h1 ?_ ?_).mono ?_
    · rw [h3]; exact hst
    · rw [h3]
      show prng.pos + i * (κ / 8) = _
      rw [hpos, Nat.add_mul, Nat.add_assoc]
    · rintro ⟨v'', prng''⟩ ⟨g1, g2, g3⟩
      replace g3 : prng'' = _ := g3
      replace g2 : MPoly.val v'' = _ := g2
      refine ⟨g1, ?_, ?_⟩
      · show MPoly.val v'' = _
        rw [g2, h2, repNoise_succ, toR_add, add_assoc]
      · show prng'' = _
        rw [g3, h3, Prng.advance_advance, Nat.add_mul, Nat.one_mul]

theorem MPoly.addRepNoise_spec (E : Ext) (fuel : Nat) {u κ d rep idx : Nat} (hd : PowTwo d) (hu : 0 < u) (hu' : u ≤ 49)
    {v : MPoly d} (prng : Prng) (m : Mrng d) (hv : MPoly.Can v) :
    (MPoly.addRepNoise E fuel u rep κ idx v prng m).Safe (fun r => MPoly.Can r.1 ∧
      MPoly.val r.1 = MPoly.val v + toR (totalNoise E u κ d rep idx prng.stream prng.pos) ∧ r.2.1 = prng.advance (rep * d * (κ / 8))) := by
  unfold MPoly.addRepNoise
  refine forLoop_Safe1 (Nat.zero_le rep)
    (fun i (r : MPoly d × Prng × Mrng d) => MPoly.Can r.1 ∧ MPoly.val r.1 = MPoly.val v + toR (totalNoise E u κ d i idx prng.stream prng.pos) ∧
      r.2.1 = prng.advance (i * d * (κ / 8))) ?_ ?_
  · refine ⟨hv, ?_, ?_⟩
    · show MPoly.val v = _
      have : totalNoise E u κ d 0 idx prng.stream prng.pos = 0 := by funext c; unfold totalNoise; rw [Finset.sum_range_zero]; rfl
      rw [this, toR_zero, add_zero]
    · show prng = _
      rw [Nat.zero_mul, Nat.zero_mul]; rfl
  · rintro i ⟨v', prng', m'⟩ - hi ⟨h1, h2, h3⟩
    replace h3 : prng' = _ := h3
    replace h2 : MPoly.val v' = _ := h2
    refine (noiseRep_spec E fuel hd hu hu' prng.stream prng.pos v' prng' m' h1 ?_ ?_).mono ?_
    · rw [h3]; rfl
    · rw [h3]; rfl
    · rintro ⟨v'', prng'', m''⟩ ⟨g1, g2, g3⟩
      replace g3 : prng'' = _ := g3
      replace g2 : MPoly.val v'' = _ := g2
      refine ⟨g1, ?_, ?_⟩
      · show MPoly.val v'' = _
        rw [g2, h2, totalNoise_succ, toR_add, add_assoc]
      · show prng'' = _
        rw [g3, h3, Prng.advance_advance]
        congr 1
        rw [Nat.add_mul, Nat.add_mul, Nat.one_mul]

theorem PVec.addRepNoise_spec (E : Ext) (fuel : Nat) {u κ d rep rows : Nat} (hd : PowTwo d) (hu : 0 < u) (hu' : u ≤ 49)
    {v : PVec rows d} (prng : Prng) (m : Mrng d) (hv : PVec.Can v) :
    (PVec.addRepNoise E fuel u rep κ v prng m).Safe (fun r => PVec.Can r.1 ∧
      (∀ i : Fin rows, PVec.val r.1 i = PVec.val v i +
        toR (totalNoise E u κ d rep i.val prng.stream (prng.pos + i.val * (rep * d * (κ / 8))))) ∧
      r.2.1 = prng.advance (rows * (rep * d * (κ / 8)))) := by
  unfold PVec.addRepNoise
  refine (forLoop_Safe1 (Nat.zero_le rows)
    (fun i (r : PVec rows d × Prng × Mrng d) => PVec.Can r.1 ∧ (∀ j : Fin rows, PVec.val r.1 j = PVec.val v j +
        (if j.val < i then toR (totalNoise E u κ d rep j.val prng.stream (prng.pos + j.val * (rep * d * (κ / 8)))) else 0)) ∧
      r.2.1 = prng.advance (i * (rep * d * (κ / 8)))) ?_ ?_).mono ?_
  · refine ⟨hv, fun j => ?_, ?_⟩
    · rw [if_neg (by omega), add_zero]
    · show prng = _
      rw [Nat.zero_mul]; rfl
  · rintro i ⟨v', prng', m'⟩ - hi ⟨h1, h2, h3⟩
    replace h3 : prng' = _ := h3
    replace h1 : PVec.Can v' := h1
    replace h2 : ∀ j : Fin rows, PVec.val v' j = PVec.val v j + _ := h2
    show (v'.rd i >>= _).Safe _
    rw [rd_ok hi, Res.ok_bind]
    refine Res.Safe.bind (MPoly.addRepNoise_spec E fuel (κ := κ) (rep := rep) (idx := i) hd hu hu' prng' m' (h1 i hi)) ?_
    rintro ⟨x, prng'', m''⟩ ⟨g1, g2, g3⟩
    replace g3 : prng'' = _ := g3
    replace g2 : MPoly.val x = _ := g2
    show (v'.wr i x >>= _).Safe _
    rw [wr_ok hi, Res.ok_bind]
    refine ⟨PVec.can_set h1 hi g1, fun j => ?_, ?_⟩
    · show PVec.val (v'.set i x hi) j = _
      by_cases hji : j.val = i
      · rw [PVec.val_set_self hi hji, g2, if_pos (by omega)]
        have e := h2 ⟨i, hi⟩
        rw [if_neg (by simp)] at e
        have ej : j = ⟨i, hi⟩ := Fin.ext hji
        have e' : MPoly.val v'[i] = PVec.val v j := by rw [ej]; exact e.trans (add_zero _)
        rw [e', h3, hji]
        rfl
      · rw [PVec.val_set_ne hi hji, h2 j]
        by_cases hlt : j.val < i
        · rw [if_pos hlt, if_pos (by omega)]
        · rw [if_neg hlt, if_neg (by omega)]
    · show prng'' = _
      rw [g3, h3, Prng.advance_advance]
      congr 1
      rw [Nat.add_mul i 1, Nat.one_mul]
  · rintro ⟨v', prng', m'⟩ ⟨h1, h2, h3⟩
    refine ⟨h1, fun j => ?_, h3⟩
    rw [h2 j, if_pos j.isLt]

/-! ### matrix expansion -/

/-- The domain-separated header of matrix entry (r, c). -/
def matHdr (r c : Nat) : List U8 := [0x41, BitVec.ofNat 8 r, BitVec.ofNat 8 c, 0, 0, 0, 0, 0]

theorem row_lt {k l i j : Nat} (hi : i < k) (hj : j < l) : i * l + j < k * l := PMat.idx_lt hi hj

theorem idx_inj {l r c r' c' : Nat} (hc : c < l) (hc' : c' < l) (h : r * l + c = r' * l + c') : r = r' ∧ c = c' := by
  have h1 : (r * l + c) / l = r := by
    rw [Nat.add_comm, Nat.add_mul_div_right _ _ (by omega), Nat.div_eq_of_lt hc, Nat.zero_add]
  have h2 : (r' * l + c') / l = r' := by
    rw [Nat.add_comm, Nat.add_mul_div_right _ _ (by omega), Nat.div_eq_of_lt hc', Nat.zero_add]
  have h3 : r = r' := by rw [← h1, ← h2, h]
  subst h3
  exact ⟨rfl, by omega⟩

theorem expandA_safe (E : Ext) (fuel k l : Nat) (seed : List U8) :
    (PMat.expandA E fuel k l seed).Safe (fun A => PMat.Can A ∧
      ∀ (r : Fin k) (c : Fin l), Poly.sampleQ E fuel (matHdr r.val c.val) seed = .ok (A.at' r c)) := by
  unfold PMat.expandA
  refine (forLoop_Safe1 (Nat.zero_le k) (fun i (A : PMat k l) => PMat.Can A ∧
    ∀ (r : Fin k) (c : Fin l), r.val < i → Poly.sampleQ E fuel (matHdr r.val c.val) seed = .ok (A.at' r c)) ?_ ?_).mono ?_
  · exact ⟨fun i hi => by rw [Vector.getElem_replicate]; exact Poly.zero_can, fun r c h => absurd h (by omega)⟩
  · rintro i A - hi ⟨h1, h2⟩
    refine (forLoop_Safe1 (Nat.zero_le l) (fun j (A : PMat k l) => PMat.Can A ∧
      ∀ (r : Fin k) (c : Fin l), (r.val < i ∨ (r.val = i ∧ c.val < j)) → Poly.sampleQ E fuel (matHdr r.val c.val) seed = .ok (A.at' r c)) ?_ ?_).mono ?_
    · exact ⟨h1, fun r c h => h2 r c (by omega)⟩
    · rintro j A - hj ⟨g1, g2⟩
      have hq := sampleQ_safe E fuel (matHdr i j) seed
      have hcan := fun p => sampleQ_can (E := E) (fuel := fuel) (hdr := matHdr i j) (seed := seed) (p := p)
      show (Poly.sampleQ E fuel (matHdr i j) seed >>= _).Safe _
      cases hsq : Poly.sampleQ E fuel (matHdr i j) seed with
      | ub => rw [hsq] at hq; exact hq.elim
      | nofuel => trivial
      | ok p =>
        rw [Res.ok_bind, wr_ok (row_lt hi hj)]
        have hp := hcan p hsq
        refine ⟨?_, ?_⟩
        · intro s hs
          by_cases h : s = i * l + j
          · subst h; rw [Vector.getElem_set_self]; exact hp
          · rw [Vector.getElem_set_ne _ _ (by omega)]; exact g1 s hs
        · intro r c hrc
          show _ = Res.ok ((A.set (i * l + j) p (row_lt hi hj))[r.val * l + c.val]'(row_lt r.isLt c.isLt))
          by_cases h : r.val = i ∧ c.val = j
          · obtain ⟨hr, hc⟩ := h
            rw [Vector.getElem_set, if_pos (by rw [hr, hc]), hr, hc]
            exact hsq
          · rw [Vector.getElem_set, if_neg (by intro e; have := idx_inj hj c.isLt e; omega)]
            exact g2 r c (by omega)
    · rintro A ⟨g1, g2⟩
      exact ⟨g1, fun r c h => g2 r c (by have := c.isLt; omega)⟩
  · rintro A ⟨h1, h2⟩
    exact ⟨h1, fun r c => h2 r c r.isLt⟩

end Raccoon
