import Verif.Proofs.SecKey
import Verif.Proofs.MaskSampler
import Verif.Proofs.SignLoop
/-!
# Keys with unreduced coefficients

A secret key loaded from bytes can have coefficients between q and 2^49 in share 0. Such a key works like the reduced one.
-/
namespace Raccoon
attribute [-instance] Monoid.toNPow
open Finset

/-! ### two runs with the same outcome -/

theorem resRel.bind {α β γ δ : Type} {R : α → β → Prop} {S : γ → δ → Prop} {x : Res α} {y : Res β} {f : α → Res γ} {g : β → Res δ} (h : resRel R x y)
    (hf : ∀ a b, x = .ok a → y = .ok b → R a b → resRel S (f a) (g b)) : resRel S (x >>= f) (y >>= g) := by
  cases h with
  | ok h => exact hf _ _ rfl rfl h
  | ub => exact .ub
  | nofuel => exact .nofuel

theorem resRel.same {α γ δ : Type} {S : γ → δ → Prop} {x : Res α} {f : α → Res γ} {g : α → Res δ}
    (hf : ∀ a, x = .ok a → resRel S (f a) (g a)) : resRel S (x >>= f) (x >>= g) := by
  cases x with
  | ok a => exact hf _ rfl
  | ub => exact .ub
  | nofuel => exact .nofuel

theorem resRel.eq {α : Type} {x y : Res α} (h : resRel (fun a b => a = b) x y) : x = y := by
  cases h with
  | ok h => exact congrArg _ h
  | ub => rfl
  | nofuel => rfl

theorem resRel.refl {α : Type} (x : Res α) : resRel (fun a b => a = b) x x := by
  cases x with
  | ok a => exact .ok rfl
  | ub => exact .ub
  | nofuel => exact .nofuel

/-! ### unreduced coefficients -/

theorem q_lt49 : q < 2 ^ 49 := by decide
theorem two_q49 : 2 ^ 49 < 2 * q := by decide

theorem Zq.reduceOnce_loose {v : U64} (hv : v.toNat < 2 ^ 49 + q) : (reduceOnce v).toNat = if v.toNat < q then v.toNat else v.toNat - q := by
  have e : 2 ^ 49 + q < q + 2 ^ 63 := by decide
  rw [reduceOnce_eq, reduceOnceMod_toNat (by rw [Q_toNat]; exact q_lt) (by rw [Q_toNat]; exact lt_trans hv e), Q_toNat]
  by_cases h : v.toNat < q
  · rw [if_pos h, if_neg (Nat.not_le.2 h)]
  · rw [if_neg h, if_pos (Nat.not_lt.1 h)]

theorem Zq.add_loose {a b : Zq} (ha : a.raw.toNat < 2 ^ 49) (hb : b.Can) : (a + b).raw.toNat < 2 ^ 49 ∧ (a + b).toZ = a.toZ + b.toZ := by
  unfold Can at hb
  have e : (2 : Nat) ^ 49 = 562949953421312 := by norm_num
  have eq : q = 549824583172097 := by decide
  have es : (a.raw + b.raw).toNat = a.raw.toNat + b.raw.toNat := by
    rw [BitVec.toNat_add, Nat.mod_eq_of_lt (by rw [pow64]; omega)]
  have er : (a + b).raw.toNat = if a.raw.toNat + b.raw.toNat < q then a.raw.toNat + b.raw.toNat else a.raw.toNat + b.raw.toNat - q := by
    show (reduceOnce (a.raw + b.raw)).toNat = _
    rw [Zq.reduceOnce_loose (by rw [es]; omega), es]
  constructor
  · rw [er]; split <;> omega
  · unfold toZ
    rw [er]
    split
    · push_cast; rfl
    · rw [Nat.cast_sub (by omega), ZMod.natCast_self, sub_zero]; push_cast; rfl

theorem Zq.sub_zero_loose {a : Zq} (ha : a.raw.toNat < 2 ^ 49) : a - Zq.zero = a := by
  have e : (2 : Nat) ^ 49 = 562949953421312 := by norm_num
  have eq : q = 549824583172097 := by decide
  apply Zq.ext_nat
  have en : (-Zq.zero).raw.toNat = q := by rw [neg_raw (by unfold zero; decide)]; rfl
  have es : (a.raw + (-Zq.zero).raw).toNat = a.raw.toNat + q := by
    rw [BitVec.toNat_add, en, Nat.mod_eq_of_lt (by rw [pow64]; omega)]
  show (reduceOnce (a.raw + (-Zq.zero).raw)).toNat = _
  rw [Zq.reduceOnce_loose (by rw [es]; omega), es, if_neg (by omega)]
  omega

theorem Zq.mul_loose {a b : Zq} (ha : a.raw.toNat < 2 ^ 49) (hb : b.Can) : (a * b).Can ∧ (a * b).toZ = a.toZ * b.toZ := by
  unfold Can at hb
  have h0 : b.raw.toNat < 2 ^ 49 := lt_trans hb q_lt49
  have h1 : a.raw.toNat * b.raw.toNat < 2 ^ 49 * 2 ^ 49 := Nat.mul_lt_mul'' ha h0
  rw [← Nat.pow_add] at h1
  have e : ((U128.from a.raw).mul (U128.from b.raw)).val = a.raw.toNat * b.raw.toNat := by
    rw [U128.mul_val, U128.val_from, U128.val_from, Nat.mod_eq_of_lt]
    exact Nat.lt_of_lt_of_le h1 (by norm_num)
  have er : (a * b).raw.toNat = a.raw.toNat * b.raw.toNat % q := by
    show (barrettReduce _).toNat = _
    rw [barrettReduce_toNat _ (by rw [e]; exact h1), e]
  constructor
  · unfold Can; rw [er]; exact Nat.mod_lt _ q_pos
  · unfold toZ; rw [er, ZMod.natCast_mod, Nat.cast_mul]

def Poly.Loose (p : Poly) : Prop := ∀ (i : Nat) (h : i < 512), (p[i]).raw.toNat < 2 ^ 49

theorem Poly.Can.loose {p : Poly} (h : p.Can) : p.Loose := fun i hi => lt_trans (h i hi) q_lt49

theorem Poly.add_loose {a b : Poly} (ha : a.Loose) (hb : b.Can) : (Poly.add a b).Loose ∧ (Poly.add a b).toZ = a.toZ + b.toZ := by
  constructor
  · intro i hi; unfold add; rw [Vector.getElem_zipWith]; exact (Zq.add_loose (ha i hi) (hb i hi)).1
  · funext i; unfold toZ add; rw [Vector.getElem_zipWith]; exact (Zq.add_loose (ha i i.isLt) (hb i i.isLt)).2

theorem Poly.mul_loose {a b : Poly} (ha : a.Loose) (hb : b.Can) : (Poly.mul a b).Can ∧ (Poly.mul a b).toZ = a.toZ * b.toZ := by
  constructor
  · intro i hi; unfold mul; rw [Vector.getElem_zipWith]; exact (Zq.mul_loose (ha i hi) (hb i hi)).1
  · funext i; unfold toZ mul; rw [Vector.getElem_zipWith]; exact (Zq.mul_loose (ha i i.isLt) (hb i i.isLt)).2

theorem Poly.sub_zero_loose {a : Poly} (ha : a.Loose) : Poly.sub a Poly.zero = a := by
  apply Vector.ext
  intro i hi
  unfold sub
  rw [Vector.getElem_zipWith]
  have e : ∀ (i : Nat) (h : i < 512), Poly.zero[i] = Zq.zero := fun i h => by unfold Poly.zero; rw [Vector.getElem_replicate]
  rw [e i hi]
  exact Zq.sub_zero_loose (ha i hi)

/-- Share 0 may have unreduced coefficients (below 2^49), the other shares are reduced. -/
def MPoly.Loose (v : MPoly d) : Prop := ∀ s (h : s < d), (v[s]).Loose ∧ (0 < s → (v[s]).Can)
def PVec.Loose (v : PVec rows d) : Prop := ∀ r (h : r < rows), MPoly.Loose v[r]

theorem MPoly.Can.loose {v : MPoly d} (h : MPoly.Can v) : MPoly.Loose v := fun s hs => ⟨(h s hs).loose, fun _ => h s hs⟩
theorem PVec.Can.loose {v : PVec rows d} (h : PVec.Can v) : PVec.Loose v := fun r hr => MPoly.Can.loose (h r hr)

theorem MPoly.add_loose {a b : MPoly d} (ha : MPoly.Loose a) (hb : MPoly.Can b) : MPoly.Loose (MPoly.add a b) ∧ MPoly.val (MPoly.add a b) = MPoly.val a + MPoly.val b := by
  constructor
  · intro s hs
    unfold MPoly.add
    rw [Vector.getElem_zipWith]
    exact ⟨(Poly.add_loose (ha s hs).1 (hb s hs)).1, fun h => Poly.add_can ((ha s hs).2 h) (hb s hs)⟩
  · unfold MPoly.val
    rw [← Finset.sum_add_distrib]
    refine Finset.sum_congr rfl fun s _ => ?_
    unfold MPoly.add
    rw [Vector.getElem_zipWith]
    exact (Poly.add_loose (ha s.val s.isLt).1 (hb s.val s.isLt)).2

theorem PVec.add_loose {a b : PVec rows d} (ha : PVec.Loose a) (hb : PVec.Can b) : PVec.Loose (PVec.add a b) ∧ PVec.val (PVec.add a b) = PVec.val a + PVec.val b := by
  constructor
  · intro s hs; unfold PVec.add; rw [Vector.getElem_zipWith]; exact (MPoly.add_loose (ha s hs) (hb s hs)).1
  · funext s; unfold PVec.val PVec.add; rw [Vector.getElem_zipWith]; exact (MPoly.add_loose (ha s s.isLt) (hb s s.isLt)).2

theorem PVec.mulPoly_loose {a : PVec rows d} {c : Poly} (ha : PVec.Loose a) (hc : c.Can) :
    PVec.Can (PVec.mulPoly a c) ∧ PVec.val (PVec.mulPoly a c) = fun r => PVec.val a r * c.toZ := by
  constructor
  · intro r hr s hs; unfold PVec.mulPoly; rw [Vector.getElem_map, Vector.getElem_map]; exact (Poly.mul_loose (ha r hr s hs).1 hc).1
  · funext r; unfold PVec.val MPoly.val PVec.mulPoly
    rw [Finset.sum_mul]
    refine Finset.sum_congr rfl fun s _ => ?_
    rw [Vector.getElem_map, Vector.getElem_map]
    exact (Poly.mul_loose (ha r.val r.isLt s.val s.isLt).1 hc).2

/-- Refreshing keeps the value and the bounds. -/
theorem PVec.refresh_loose (E : Ext) (fuel : Nat) {rows d : Nat} (hd : PowTwo d) {a : PVec rows d} (ha : PVec.Loose a) (g : Mrng d) :
    (PVec.refresh E fuel a g).Safe (fun r => PVec.Loose r.1 ∧ PVec.val r.1 = PVec.val a) := by
  rw [PVec.refresh_eq]
  refine Res.Safe.bind (PVec.zeroEncoding_spec E fuel rows hd g) ?_
  rintro ⟨z, g'⟩ ⟨h1, h2⟩
  obtain ⟨k1, k2⟩ := PVec.add_loose ha h1
  refine ⟨k1, ?_⟩
  show PVec.val (PVec.add a z) = _
  rw [k2, show PVec.val z = 0 from h2, add_zero]

/-- Two refreshes from the same state of the generators have the same outcome. -/
theorem PVec.refresh_rel (E : Ext) (fuel : Nat) {rows d : Nat} (hd : PowTwo d) {a b : PVec rows d} (ha : PVec.Loose a) (hb : PVec.Loose b) (hv : PVec.val a = PVec.val b) (g : Mrng d) :
    resRel (fun x y => PVec.Loose x.1 ∧ PVec.Loose y.1 ∧ PVec.val x.1 = PVec.val y.1 ∧ PVec.val x.1 = PVec.val a ∧ x.2 = y.2) (PVec.refresh E fuel a g) (PVec.refresh E fuel b g) := by
  rw [PVec.refresh_eq, PVec.refresh_eq]
  refine resRel.same ?_
  rintro ⟨z, g'⟩ hz
  have hs := PVec.zeroEncoding_spec E fuel rows hd g
  rw [hz] at hs
  obtain ⟨h1, h2⟩ := hs
  replace h1 : PVec.Can z := h1
  replace h2 : PVec.val z = 0 := h2
  obtain ⟨k1, k2⟩ := PVec.add_loose ha h1
  obtain ⟨l1, l2⟩ := PVec.add_loose hb h1
  rw [h2, add_zero] at k2 l2
  exact .ok ⟨k1, l1, by rw [k2, l2, hv], k2, rfl⟩

/-! ### `sign` sees only the value of the secret -/

/-- The signing states differ only in the sharing of the secret. -/
def SignSt.Like (s t : SignSt l d) : Prop := PVec.Loose s.s ∧ PVec.Loose t.s ∧ PVec.val s.s = PVec.val t.s ∧ s.prng = t.prng ∧ s.m = t.m ∧ s.sigBytes = t.sigBytes

theorem signCore_like (P : Par) (E : Ext) (fuel d uw rep : Nat) (hd : PowTwo d) (hu : 0 < uw) (hu' : uw ≤ 49) (A : PMat P.k P.l) (t : PVec P.k 1) (μ : List U8) {s s' : PVec P.l d}
    (hs : PVec.Loose s) (hs' : PVec.Loose s') (hv : PVec.val s = PVec.val s') (prng : Prng) (m : Mrng d) :
    resRel (fun x y => x.1 = y.1 ∧ PVec.Loose x.2.1 ∧ PVec.Loose y.2.1 ∧ PVec.val x.2.1 = PVec.val y.2.1 ∧ x.2.2 = y.2.2)
      (signCore P E fuel d uw rep A t μ s prng m) (signCore P E fuel d uw rep A t μ s' prng m) := by
  unfold signCore
  refine resRel.same ?_
  rintro ⟨r0, g0⟩ e0
  have h0 := PVec.zeroEncoding_spec E fuel P.l hd m
  rw [e0] at h0
  refine resRel.same ?_
  rintro ⟨r1, p1, g1⟩ e1
  have h1 := PVec.addRepNoise_spec E fuel (u := uw) (κ := P.κ) (rep := rep) hd hu hu' prng g0 h0.1
  rw [e1] at h1
  refine resRel.same ?_
  intro r2 e2
  obtain ⟨r2', e2', c2, -⟩ := PVec.ntt_spec h1.1
  obtain rfl := Res.ok.inj (e2'.symm.trans e2)
  refine resRel.same ?_
  intro w0 _
  refine resRel.same ?_
  rintro ⟨w1, p2, g2⟩ _
  refine resRel.same ?_
  intro cHash _
  refine resRel.same ?_
  intro c0 ec
  refine resRel.same ?_
  intro c en
  obtain ⟨c', en', cc, -⟩ := ntt_ex (chalPoly_can ec)
  obtain rfl := Res.ok.inj (en'.symm.trans en)
  refine resRel.bind (PVec.refresh_rel E fuel hd hs hs' hv g2) ?_
  rintro ⟨s1, g3⟩ ⟨s1', g3'⟩ - - ⟨k1, k2, k3, k4, k5⟩
  replace k1 : PVec.Loose s1 := k1
  replace k2 : PVec.Loose s1' := k2
  replace k3 : PVec.val s1 = PVec.val s1' := k3
  obtain rfl : g3 = g3' := k5
  refine resRel.same ?_
  rintro ⟨r3, g4⟩ e3
  have h3 := PVec.refresh_spec E fuel hd c2 g3
  rw [e3] at h3
  obtain ⟨m1, m2⟩ := PVec.mulPoly_loose k1 cc
  obtain ⟨m1', m2'⟩ := PVec.mulPoly_loose k2 cc
  obtain ⟨a1, a2⟩ := PVec.add_spec m1 h3.1
  obtain ⟨a1', a2'⟩ := PVec.add_spec m1' h3.1
  have hz : PVec.val ((s1.mulPoly c').add r3) = PVec.val ((s1'.mulPoly c').add r3) := by rw [a2, a2', m2, m2', k3]
  refine resRel.bind (PVec.refresh_rel E fuel hd a1.loose a1'.loose hz g4) ?_
  rintro ⟨z, g5⟩ ⟨z', g5'⟩ ez ez' ⟨-, -, n3, -, n5⟩
  obtain rfl : g5 = g5' := n5
  replace n3 : PVec.val z = PVec.val z' := n3
  have hz1 := PVec.refresh_spec E fuel hd a1 g4
  rw [ez] at hz1
  have hz2 := PVec.refresh_spec E fuel hd a1' g4
  rw [ez'] at hz2
  have ed : z.decode = z'.decode := by
    obtain ⟨d1, d2⟩ := PVec.decode_spec hz1.1
    obtain ⟨d1', d2'⟩ := PVec.decode_spec hz2.1
    exact PVec.ext_one d1 d1' (by rw [d2, d2']; exact n3)
  dsimp only
  rw [ed]
  refine resRel.same fun y _ => resRel.same fun zi _ => resRel.same fun sig _ => ?_
  exact .ok ⟨rfl, k1, k2, k3, rfl⟩

theorem signAttempt_like (P : Par) (E : Ext) (fuel d uw rep : Nat) (hd : PowTwo d) (hu : 0 < uw) (hu' : uw ≤ 49) (A : PMat P.k P.l) (t : PVec P.k 1) (μ : List U8) {st st' : SignSt P.l d} (h : st.Like st') :
    resRel (fun a b => a.1 = b.1 ∧ a.2.Like b.2) (signAttempt P E fuel d uw rep A t μ st) (signAttempt P E fuel d uw rep A t μ st') := by
  obtain ⟨h1, h2, h3, h4, h5, h6⟩ := h
  rw [signAttempt_eq, signAttempt_eq, ← h4, ← h5, ← h6]
  refine resRel.bind (signCore_like P E fuel d uw rep hd hu hu' A t μ h1 h2 h3 st.prng st.m) ?_
  rintro ⟨sig, s, p, m⟩ ⟨sig', s', p', m'⟩ - - ⟨k1, k2, k3, k4, k5⟩
  obtain rfl : sig = sig' := k1
  replace k2 : PVec.Loose s := k2
  replace k3 : PVec.Loose s' := k3
  replace k4 : PVec.val s = PVec.val s' := k4
  obtain ⟨rfl, rfl⟩ := Prod.mk.inj (k5 : (p, m) = (p', m'))
  unfold signFinish
  refine resRel.same ?_
  rintro ⟨f, b⟩ -
  dsimp only
  cases f with
  | false => exact .ok ⟨rfl, k2, k3, k4, rfl, rfl, rfl⟩
  | true =>
    show resRel _ (sig.checkBounds P.νw P.Binf P.B22 >>= _) (sig.checkBounds P.νw P.Binf P.B22 >>= _)
    refine resRel.same fun ib _ => ?_
    cases ib with
    | false => exact .ok ⟨rfl, k2, k3, k4, rfl, rfl, rfl⟩
    | true => exact .ok ⟨rfl, k2, k3, k4, rfl, rfl, rfl⟩

theorem signLoop_like (P : Par) (E : Ext) (fuel d uw rep : Nat) (hd : PowTwo d) (hu : 0 < uw) (hu' : uw ≤ 49) (A : PMat P.k P.l) (t : PVec P.k 1) (μ : List U8) :
    ∀ (n : Nat) {st st' : SignSt P.l d}, st.Like st' → signLoop P E fuel d uw rep A t μ n st = signLoop P E fuel d uw rep A t μ n st' := by
  intro n
  induction n with
  | zero => intro st st' h; rfl
  | succ n ih =>
    intro st st' h
    unfold signLoop
    refine resRel.eq (resRel.bind (signAttempt_like P E fuel d uw rep hd hu hu' A t μ h) ?_)
    rintro ⟨f, s⟩ ⟨f', s'⟩ - - ⟨k1, k2⟩
    obtain rfl : f = f' := k1
    replace k2 : s.Like s' := k2
    dsimp only
    cases f with
    | true => exact .ok k2.2.2.2.2.2
    | false => rw [if_neg Bool.false_ne_true, if_neg Bool.false_ne_true, ih k2]; exact resRel.refl _

/-- Two keys with the same public key and the same secret value sign alike. -/
theorem sign_like (P : Par) (E : Ext) (fuel d uw rep : Nat) (hd : PowTwo d) (hu : 0 < uw) (hu' : uw ≤ 49) {sk sk' : SKey P.k P.l d} (hp : sk.pkey = sk'.pkey) (h : PVec.Loose sk.s)
    (h' : PVec.Loose sk'.s) (hv : PVec.val sk.s = PVec.val sk'.s) (entropy msg buf : List U8) : sk.sign P E fuel d uw rep entropy msg buf = sk'.sign P E fuel d uw rep entropy msg buf := by
  obtain ⟨pk, s⟩ := sk
  obtain ⟨pk', s'⟩ := sk'
  obtain rfl : pk = pk' := hp
  have e : ∀ A t' μ, signLoop P E fuel d uw rep A t' μ fuel ⟨s, Prng.new E entropy, Mrng.new E d, buf⟩ = signLoop P E fuel d uw rep A t' μ fuel ⟨s', Prng.new E entropy, Mrng.new E d, buf⟩ :=
    fun A t' μ => signLoop_like P E fuel d uw rep hd hu hu' A t' μ fuel ⟨h, h', hv, rfl, rfl, rfl⟩
  unfold SKey.sign
  simp only [e]

/-! ### saving -/

theorem set_row_loose {x : PVec l 1} (hx : PVec.Loose x) {i : Nat} (hi : i < l) {p : Poly} (hp : p.Loose) (hz : 0 < 1) :
    PVec.Loose (x.set i ((x[i]).set 0 p hz) hi) ∧
      ∀ r : Fin l, PVec.val (x.set i ((x[i]).set 0 p hz) hi) r = if r.val = i then p.toZ else PVec.val x r := by
  constructor
  · intro r hr s hs
    obtain rfl : s = 0 := by omega
    refine ⟨?_, fun h => absurd h (by omega)⟩
    by_cases h : r = i
    · subst h
      have e : (x.set r ((x[r]).set 0 p hz) hi)[r] = (x[r]).set 0 p hz := Vector.getElem_set_self _
      rw [getElem_congr e rfl hs, Vector.getElem_set_self]
      exact hp
    · have e : (x.set i ((x[i]).set 0 p hz) hi)[r] = x[r] := Vector.getElem_set_ne _ _ (by omega)
      rw [getElem_congr e rfl hs]
      exact (hx r hr 0 hs).1
  · intro r
    by_cases h : r.val = i
    · rw [if_pos h, PVec.val_set_self hi h, MPoly.val_one, Vector.getElem_set_self]
    · rw [if_neg h, PVec.val_set_ne hi h]

/-- Invariant of the share loop before share `sidx`. -/
structure McInvL (E : Ext) (fuel : Nat) (s : PVec l d) (sc0 : List U8) (prng0 : Prng) (m sidx : Nat) (st : PVec l 1 × List U8 × Prng) : Prop where
  can : PVec.Loose st.1
  val : ∀ r, PVec.val st.1 r = ∑ j ∈ range sidx, shareZ s r j
  len : st.2.1.length = sc0.length
  seeds : st.2.1.take ((sidx - 1) * m) = (List.range ((sidx - 1) * m)).map (fun i => prng0.stream (prng0.pos + i))
  prng : st.2.2 = prng0.advance ((sidx - 1) * m)
  smp : ∀ j, 1 ≤ j → j < sidx → ∀ r < l, ∃ p, Poly.sampleQ E fuel (skHdr j r) (skSeed prng0 m j) = .ok p

theorem compressShare_loose (E : Ext) (fuel : Nat) {κ : Nat} {s : PVec l d} (hs : PVec.Loose s) {sidx : Nat} (h1 : 1 ≤ sidx) (hd : sidx < d)
    {sc0 : List U8} {prng0 : Prng} {st : PVec l 1 × List U8 × Prng} (h : McInvL E fuel s sc0 prng0 (κ / 8) sidx st)
    (hL : (d - 1) * (κ / 8) ≤ sc0.length) :
    (compressShare E fuel κ s sidx st).Safe (McInvL E fuel s sc0 prng0 (κ / 8) (sidx + 1)) := by
  obtain ⟨x, sc, prng⟩ := st
  obtain ⟨hc, hv, hl, hse, hp, hsm⟩ := h
  replace hc : PVec.Loose x := hc
  replace hv : ∀ r, PVec.val x r = ∑ j ∈ range sidx, shareZ s r j := hv
  replace hl : sc.length = sc0.length := hl
  replace hse : sc.take ((sidx - 1) * (κ / 8)) = _ := hse
  replace hp : prng = _ := hp
  have hmul : (sidx + 1 - 1) * (κ / 8) = (sidx - 1) * (κ / 8) + κ / 8 := by
    rw [show sidx + 1 - 1 = (sidx - 1) + 1 by omega, Nat.add_mul, Nat.one_mul]
  have hle : (sidx + 1 - 1) * (κ / 8) ≤ (d - 1) * (κ / 8) := Nat.mul_le_mul_right _ (by omega)
  unfold compressShare
  dsimp only
  rw [Prng.read_eq]
  dsimp only
  rw [List.length_map, List.length_range, writeSpan_ok (by rw [List.length_map, List.length_range]; omega), Res.ok_bind]
  refine Res.Safe.bind (forLoop_Safe1 (Nat.zero_le l) (fun i (x' : PVec l 1) => PVec.Loose x' ∧ (∀ r, PVec.val x' r = PVec.val x r) ∧
      ∀ r < i, ∃ p, Poly.sampleQ E fuel (skHdr sidx r) (skSeed prng0 (κ / 8) sidx) = .ok p) ⟨hc, fun _ => rfl, fun r h => absurd h (by omega)⟩ ?_) ?_
  · rintro i x' - hi ⟨g1, g2, g3⟩
    refine Res.Safe.bind (sampleQ_safe E fuel _ _).self ?_
    rintro p ⟨hq, -⟩
    have hq' : Poly.sampleQ E fuel (skHdr sidx i) (skSeed prng0 (κ / 8) sidx) = .ok p := by rw [← hq, hp]; rfl
    rw [rd_ok hi, Res.ok_bind, rd_ok (by omega), Res.ok_bind, wr_ok (by omega), Res.ok_bind, wr_ok hi]
    obtain ⟨k1, k2⟩ := set_row_loose g1 hi (p := Poly.sub x'[i][0] Poly.zero) (by rw [Poly.sub_zero_loose (g1 i hi 0 (by omega)).1]; exact (g1 i hi 0 (by omega)).1) (by omega)
    refine ⟨k1, fun r => ?_, fun r hr => ?_⟩
    rotate_left
    · by_cases e : r = i
      · subst e; exact ⟨p, hq'⟩
      · exact g3 r (by omega)
    rw [k2, ← g2]
    by_cases e : r.val = i
    · rw [if_pos e, Poly.sub_zero_loose (g1 i hi 0 (by omega)).1]
      unfold PVec.val
      rw [MPoly.val_one]
      have e2 : x'[i] = x'[r.val] := getElem_congr rfl e.symm _
      rw [getElem_congr e2 rfl (by omega)]
    · rw [if_neg e]
  · rintro x1 ⟨g1, g2, g3⟩
    refine Res.Safe.bind (forLoop_Safe1 (Nat.zero_le l) (fun i (x' : PVec l 1) => PVec.Loose x' ∧
      ∀ r : Fin l, PVec.val x' r = if r.val < i then PVec.val x r + shareZ s r sidx else PVec.val x r)
      ⟨g1, fun r => by rw [if_neg (by omega)]; exact g2 r⟩ ?_) ?_
    · rintro i x' - hi ⟨k1, k2⟩
      rw [rd_ok hi, Res.ok_bind, rd_ok hd, Res.ok_bind, rd_ok hi, Res.ok_bind, rd_ok (by omega), Res.ok_bind, wr_ok (by omega),
        Res.ok_bind, wr_ok hi]
      obtain ⟨n1, n2⟩ := set_row_loose k1 hi (Poly.add_loose (k1 i hi 0 (by omega)).1 ((hs i hi sidx hd).2 h1)).1 (by omega)
      refine ⟨n1, fun r => ?_⟩
      rw [n2]
      by_cases e : r.val = i
      · rw [if_pos e, if_pos (by omega), (Poly.add_loose (k1 i hi 0 (by omega)).1 ((hs i hi sidx hd).2 h1)).2]
        have hk := k2 r
        rw [if_neg (by omega)] at hk
        unfold PVec.val at hk
        rw [MPoly.val_one] at hk
        have e2 : x'[i] = x'[r.val] := getElem_congr rfl e.symm _
        have e3 : s[i] = s[r.val] := getElem_congr rfl e.symm _
        rw [getElem_congr e2 rfl (by omega), getElem_congr e3 rfl hd, hk]
        unfold shareZ PVec.val
        rw [dif_pos hd]
      · rw [if_neg e, k2]
        by_cases e2 : r.val < i
        · rw [if_pos e2, if_pos (by omega)]
        · rw [if_neg e2, if_neg (by omega)]
    · rintro x2 ⟨k1, k2⟩
      refine ⟨k1, ?_, ?_, ?_, ?_, ?_⟩
      · intro r
        show PVec.val x2 r = _
        rw [k2, if_pos r.isLt, hv, Finset.sum_range_succ]
      · show (sc.take _ ++ _ ++ sc.drop _).length = _
        simp
        omega
      · show (sc.take _ ++ _ ++ sc.drop _).take _ = _
        rw [take_append_len _ _ (by rw [List.length_append, List.length_take, List.length_map, List.length_range, Nat.min_eq_left (by omega)]; exact hmul), hse, hmul, List.range_add, List.map_append, List.map_map, hp]
        refine congrArg _ (List.map_congr_left fun i _ => ?_)
        show prng0.stream (prng0.pos + (sidx - 1) * (κ / 8) + i) = prng0.stream (prng0.pos + ((sidx - 1) * (κ / 8) + i))
        rw [Nat.add_assoc]
      · show prng.advance _ = _
        rw [hp, Prng.advance_advance, hmul]
      · intro j h1 h2 r hr
        by_cases e : j = sidx
        · subst e; exact g3 r hr
        · exact hsm j h1 (by omega) r hr

theorem maskCompress_loose (E : Ext) (fuel : Nat) {κ : Nat} (h8 : κ % 8 = 0) {s : PVec l d} (hs : PVec.Loose s) (hd : 0 < d)
    {sc : List U8} {prng : Prng} (hL : sc.length = (d - 1) * (κ / 8) + 3136 * l) :
    (maskCompress E fuel κ s sc prng).Safe (fun r => r.1.length = sc.length ∧
      (∃ x : PVec l 1, PVec.Loose x ∧ PVec.val x = PVec.val s ∧
        bytesBits r.1 = bytesBits ((List.range ((d - 1) * (κ / 8))).map fun i => prng.stream (prng.pos + i)) ++ vecBits 49 x) ∧
      ∀ j, 1 ≤ j → j < d → ∀ r < l, ∃ p, Poly.sampleQ E fuel (skHdr j r) (skSeed prng (κ / 8) j) = .ok p) := by
  unfold maskCompress
  refine Res.Safe.bind (forLoop_Safe1 (Nat.zero_le l) (fun i (x : PVec l 1) => PVec.Loose x ∧
      ∀ r : Fin l, r.val < i → PVec.val x r = shareZ s r 0) ⟨(PVec.zero_spec l 1).1.loose, fun r h => absurd h (by omega)⟩ ?_) ?_
  · rintro i x - hi ⟨g1, g2⟩
    rw [rd_ok hi, Res.ok_bind, rd_ok hd, Res.ok_bind, rd_ok hi, Res.ok_bind, wr_ok (by omega), Res.ok_bind, wr_ok hi]
    obtain ⟨n1, n2⟩ := set_row_loose g1 hi (hs i hi 0 hd).1 (by omega)
    refine ⟨n1, fun r hr => ?_⟩
    rw [n2]
    by_cases e : r.val = i
    · rw [if_pos e]
      unfold shareZ
      rw [dif_pos hd]
      have e3 : s[i] = s[r.val] := getElem_congr rfl e.symm _
      rw [getElem_congr e3 rfl hd]
    · rw [if_neg e]; exact g2 r (by omega)
  · rintro x ⟨g1, g2⟩
    have hi : McInvL E fuel s sc prng (κ / 8) 1 (x, sc, prng) := by
      refine ⟨g1, ?_, rfl, ?_, ?_, fun j h1 h2 => absurd h2 (by omega)⟩
      · intro r; show PVec.val x r = _; rw [g2 r r.isLt, Finset.sum_range_one]
      · rw [Nat.sub_self, Nat.zero_mul, List.take_zero]; rfl
      · rw [Nat.sub_self, Nat.zero_mul]; rfl
    refine Res.Safe.bind (forLoop_Safe1 (by omega : 1 ≤ d) (fun sidx st => McInvL E fuel s sc prng (κ / 8) sidx st) hi ?_) ?_
    · intro sidx st h1 h2 h3
      exact compressShare_loose E fuel hs h1 h2 h3 (by omega)
    · rintro ⟨x', sc', prng'⟩ ⟨k1, k2, k3, k4, -, k5⟩
      replace k1 : PVec.Loose x' := k1
      replace k2 : ∀ r, PVec.val x' r = _ := k2
      replace k3 : sc'.length = sc.length := k3
      replace k4 : sc'.take ((d - 1) * (κ / 8)) = _ := k4
      have hx : PVec.val x' = PVec.val s := by funext r; rw [k2, shareZ_sum]
      have hdiv : (d - 1) * κ / 8 = (d - 1) * (κ / 8) := Nat.mul_div_assoc _ (Nat.dvd_of_mod_eq_zero h8)
      dsimp only
      rw [hdiv]
      have hsl : (bytesBits ((List.range ((d - 1) * (κ / 8))).map fun i => prng.stream (prng.pos + i))).length = 8 * ((d - 1) * (κ / 8)) := by
        rw [bytesBits_length, List.length_map, List.length_range]
      refine Res.Safe.bind (Res.Ok.safe (forLoop_Ok1 (Nat.zero_le l) (fun r (st : List U8 × Nat) =>
        BW sc.length (bytesBits ((List.range ((d - 1) * (κ / 8))).map fun i => prng.stream (prng.pos + i)) ++
          vecBitsTo 49 x' (512 * r)) st.1 st.2 0 0) ?_ ?_)) ?_
      · refine ⟨k3, by show (d - 1) * (κ / 8) ≤ _; omega, [], rfl, Win.nil, ?_⟩
        show bytesBits (sc'.take _) ++ [] = _
        rw [k4]; unfold vecBitsTo; simp
      · rintro r ⟨sc1, off⟩ - hr hb
        rw [rd_ok hr, Res.ok_bind, rd_ok (by omega), Res.ok_bind]
        exact packRow_ok hr hb (by rw [hsl]; omega) (by rw [hsl]; omega)
      · rintro ⟨sc1, off⟩ hb
        replace hb : BW _ _ sc1 off 0 0 := hb
        have hlen := hb.length
        rw [List.length_append, vecBitsTo_length, hsl] at hlen
        have hbl := hb.len
        have hz := hb.zero.2
        rw [List.take_of_length_le (by omega)] at hz
        exact ⟨hbl, ⟨x', k1, hx, hz⟩, k5⟩

end Raccoon
