import Verif.Model.Extra
import Verif.Props.Words
import Verif.Props.Field
import Verif.Props.Rng
import Verif.Props.Sampling
import Verif.Spec.Masked
/-!
# C02 (zero divisor), C04 (field arithmetic of the two builds), C07/C48 (random polynomials), C54
-/
namespace Raccoon
attribute [-instance] Monoid.toNPow
open U128

theorem divStep_zero {q r dd : U128} {j : Nat} (hj : j < 128) (i1 : q.val = 2 ^ j - 1) (i3 : dd.val = 0) :
   ∃ q' d', divStep (q, r, dd) = .ok (q', r, d') ∧ q'.val = 2 ^ (j+1) - 1 ∧ d'.val = 0 := by
    have hp : 2 ^ j ≤ 2 ^ 127 := Nat.pow_le_pow_right (by omega) (by omega)
    have hpos := Nat.two_pow_pos j
    have hq2 : (shl q 1).val = q.val * 2 := by
      rw [shl_val _ _ (by omega), Nat.pow_one, Nat.mod_eq_of_lt]
      have e1 : (2 : Nat) ^ 127 = 170141183460469231731687303715884105728 := by norm_num
      rw [pow128]; rw [e1] at hp
      generalize 2 ^ j = x at *
      omega
    have hs : sub r dd = r := by
      apply val_inj.1; rw [sub_val_of_le (by omega), i3, Nat.sub_zero]
    simp only [divStep, shlChk, shrChk, if_pos (show 1 ≤ 128 by omega), Res.ok_bind]
    rw [if_pos (by rw [ge_iff]; omega)]
    refine ⟨or (shl q 1) («from» 1), shr dd 1, ?_, ?_, ?_⟩
    · show Res.ok (_, sub r dd, _) = _
      rw [hs]
    · rw [or_one_val (by rw [hq2]; omega), hq2, i1, Nat.pow_succ]
      clear hp
      generalize 2 ^ j = x at *
      omega
    · rw [shr_val _ _ (by omega), i3, Nat.zero_div]

theorem divmod_zero_aux (n m : U128) (hm : m.val = 0) (hn : n.val ≠ 0) :
    ∃ q, divmod n m = .ok (q, n) ∧ q.val = 2 ^ (Nat.log2 n.val + 1) - 1 := by
  have hN := val_lt n
  have h1 : gt m n = false := by rw [← Bool.not_eq_true, gt_iff]; omega
  have h2 : eq m n = false := by rw [← Bool.not_eq_true, eq_iff]; omega
  have hm0 : msbIdx m = 0 := by
    have : m = zero := val_inj.1 (by rw [hm]; simp)
    rw [this]; decide
  have hL : Nat.log2 n.val < 128 := (Nat.log2_lt hn).2 hN
  have hsh : msbIdx n - msbIdx m = Nat.log2 n.val := by rw [msbIdx_eq n hn, hm0, Nat.sub_zero]
  have hs : shlChk m (msbIdx n - msbIdx m) = .ok (shl m (msbIdx n - msbIdx m)) := by rw [shlChk, if_pos (by omega)]
  rw [U128_divmod_eq hs, h1, h2, cond_false, cond_false, hsh]
  generalize Nat.log2 n.val = L at *
  have hsv : (shl m L).val = 0 := by rw [shl_val _ _ (by omega), hm, Nat.zero_mul, Nat.zero_mod]
  obtain ⟨⟨q, r, dd⟩, e, i1, i2, -⟩ := forLoop_Ok1 (lo := 0) (hi := L + 1) (by omega) (body := fun _ s => divStep s) (s := (zero, n, shl m L))
    (fun j s => s.1.val = 2 ^ j - 1 ∧ s.2.1 = n ∧ s.2.2.val = 0) ⟨by simp, rfl, hsv⟩ (by
      rintro j ⟨q, r, dd⟩ - hj ⟨i1, i2, i3⟩
      obtain ⟨q', d', e, e1, e2⟩ := divStep_zero (q := q) (r := r) (dd := dd) (j := j) (by omega) i1 i3
      exact ⟨_, e, e1, i2, e2⟩)
  rw [e]
  replace i2 : r = n := i2
  subst i2
  exact ⟨q, rfl, i1⟩

/-- C02, the excluded divisor: dividing by zero is not undefined in this library, and it is silent: 0/0 is 1 with remainder 0, and n/0 is
2^(bit length of n) − 1 with remainder n. -/
theorem C02_zero_divisor (n m : U128) (hm : m.val = 0) :
    ∃ q r, U128.div n m = .ok q ∧ U128.mod n m = .ok r ∧ r.val = n.val ∧
      q.val = if n.val = 0 then 1 else 2 ^ (Nat.log2 n.val + 1) - 1 := by
  by_cases hn : n.val = 0
  · have e1 : m = zero := val_inj.1 (by rw [hm]; simp)
    have e2 : n = zero := val_inj.1 (by rw [hn]; simp)
    subst e1; subst e2
    exact ⟨«from» 1, zero, rfl, rfl, rfl, by simp⟩
  · obtain ⟨q, h, hq⟩ := divmod_zero_aux n m hm hn
    exact ⟨q, n, by simp [U128.div, h], by simp [U128.mod, h], rfl, by rw [if_neg hn, hq]⟩

/-- Non-vacuity of C02_zero_divisor: 2^64 / 0. -/
example : ∃ q, U128.div ⟨1, 0⟩ ⟨0, 0⟩ = .ok q ∧ q.val = 2 ^ 65 - 1 := by
  obtain ⟨q, r, h, -, -, hq⟩ := C02_zero_divisor ⟨1, 0⟩ ⟨0, 0⟩ (by decide)
  refine ⟨q, h, ?_⟩
  rw [hq, if_neg (by decide)]
  have : Nat.log2 (U128.val ⟨1, 0⟩) = 64 := by rw [Nat.log2_eq_iff (by decide)]; decide
  rw [this]

/-! ### C04: the field in both builds -/

/-- C04: division and narrowing conversions agree. -/
theorem C04_div_to_agree (a b : U128) (w : Nat) (hw : w ≤ 64) :
    I128.div a.bv b.bv = U128.bv <$> U128.div a b ∧ I128.mod a.bv b.bv = U128.bv <$> U128.mod a b ∧
    I128.toW w a.bv = U128.toW w a ∧ (U128.toW w a).toNat = a.val % 2 ^ w := by
  have hh : ∀ l h : Nat, l < 2 ^ 64 → (h * 2 ^ 64 + l) % 2 ^ w = l % 2 ^ w := by
    intro l h _
    have e : 2 ^ 64 = 2 ^ (64 - w) * 2 ^ w := by rw [← Nat.pow_add]; congr 1; omega
    rw [e, ← Nat.mul_assoc, Nat.mul_comm, Nat.mul_add_mod]
  refine ⟨?_, ?_, ?_, ?_⟩
  · unfold I128.div U128.div; rw [bv_divmod]
    cases U128.divmod a b <;> rfl
  · unfold I128.mod U128.mod; rw [bv_divmod]
    cases U128.divmod a b <;> rfl
  · apply BitVec.eq_of_toNat_eq
    unfold I128.toW U128.toW
    rw [BitVec.toNat_setWidth, BitVec.toNat_setWidth, bv_toNat]
    exact hh _ _ a.lo.isLt
  · unfold U128.toW
    rw [BitVec.toNat_setWidth]
    exact (hh _ _ a.lo.isLt).symm

theorem I128_R : I128.R = R := by
  unfold I128.R R
  have hb : 2 * Q_BIT_WIDTH < 128 := by decide
  generalize 2 * Q_BIT_WIDTH = n at *
  rw [bv_from 1, bv_shl _ _ hb, Res.ok_bind, bv_from, (C04_div_to_agree _ _ 0 (by omega)).1]
  unfold U128.shlChk
  rw [if_pos (by omega), Res.ok_bind]
  generalize U128.div _ _ = r
  cases r with
  | ok v => exact bv_to64 v
  | ub => rfl
  | nofuel => rfl

theorem bv_barrett_gen (ri r qq c mx : U64) (hr : ri = r) (z : I128.W) (hz : z = zero.bv) (n : Nat) (hn : n < 128) (v : U128) :
    (do
      let max64 : I128.W := I128.from mx
      let op0_hi ← I128.shr v.bv 64
      let op0_lo := I128.and v.bv max64
      let op1_hi : I128.W := z
      let op1_lo := I128.from ri
      let hi := I128.mul op0_hi op1_hi
      let mid := I128.add (I128.mul op0_hi op1_lo) (I128.mul op1_hi op0_lo)
      let lo := I128.mul op0_lo op1_lo
      let mid_hi ← I128.shr mid 64
      let mid_lo := I128.and mid max64
      let t0 ← I128.shr lo 64
      let t1 := I128.add t0 mid_lo
      let carry ← I128.shr t1 64
      let res_hi := I128.add (I128.add hi mid_hi) carry
      let mid_lo_shl ← I128.shl mid_lo 64
      let res_lo := I128.add lo mid_lo_shl
      let r1 ← I128.shl (I128.and res_hi (I128.from c)) 30
      let r2 ← I128.shr res_lo n
      let res := I128.or r1 r2
      let t2 := I128.mul res (I128.from qq)
      let t3 := I128.to64 (I128.sub v.bv t2)
      .ok (reduceOnce t3) : Res U64) =
    .ok (
      let max64 : U128 := U128.from mx
      let op0_hi := v.shr 64
      let op0_lo := v.and max64
      let op1_hi := U128.zero
      let op1_lo := U128.from r
      let hi := op0_hi.mul op1_hi
      let mid := (op0_hi.mul op1_lo).add (op1_hi.mul op0_lo)
      let lo := op0_lo.mul op1_lo
      let mid_hi := mid.shr 64
      let mid_lo := mid.and max64
      let t0 := lo.shr 64
      let t1 := t0.add mid_lo
      let carry := t1.shr 64
      let res_hi := (hi.add mid_hi).add carry
      let res_lo := lo.add (mid_lo.shl 64)
      let res := ((res_hi.and (U128.from c)).shl 30).or (res_lo.shr n)
      let t2 := res.mul (U128.from qq)
      let t3 := (v.sub t2).to64
      reduceOnce t3) := by
  subst hr hz
  dsimp only
  rw [bv_from mx, bv_shr v 64 (by omega), Res.ok_bind, bv_from, bv_and v]
  generalize v.shr 64 = a
  generalize v.and («from» mx) = b
  rw [bv_mul a, bv_mul zero, bv_mul b, bv_mul a, bv_add]
  generalize a.mul zero = hi
  generalize (a.mul («from» ri)).add (zero.mul b) = mid
  generalize b.mul («from» ri) = lo
  rw [bv_shr mid 64 (by omega), Res.ok_bind, bv_and]
  generalize mid.shr 64 = mh
  generalize mid.and («from» mx) = ml
  rw [bv_shr lo 64 (by omega), Res.ok_bind, bv_add]
  generalize lo.shr 64 = t0
  generalize t0.add ml = t1
  rw [bv_shr t1 64 (by omega), Res.ok_bind, bv_add hi, bv_add]
  generalize t1.shr 64 = cr
  generalize (hi.add mh).add cr = rh
  rw [bv_shl ml 64 (by omega), Res.ok_bind, bv_add, bv_from c, bv_and]
  generalize lo.add (ml.shl 64) = rl
  generalize rh.and («from» c) = rc
  rw [bv_shl rc 30 (by omega), Res.ok_bind]
  generalize rc.shl 30 = r1
  rw [bv_shr rl n hn, Res.ok_bind]
  generalize rl.shr n = r2
  rw [bv_or, bv_from qq, bv_mul, bv_sub, bv_to64]

theorem twoQbw : 2 * Q_BIT_WIDTH < 128 := by rw [QBW]; decide

theorem bv_barrett (v : U128) : I128.barrettReduce v.bv = .ok (barrettReduce v) :=
  bv_barrett_gen I128.R R Q 0xfffff (BitVec.allOnes 64) I128_R 0 bv_zero.symm (2 * Q_BIT_WIDTH) twoQbw v

theorem zqMul_eq (a b : Zq) (r : U64) (h : I128.barrettReduce (I128.mul (I128.from a.raw) (I128.from b.raw)) = .ok r) : I128.zqMul a b = .ok ⟨r⟩ := by
  unfold I128.zqMul
  rw [h, Res.ok_bind]
theorem zqShl_eq (a : Zq) (off : Nat) (f : U64 → U64) (h : ∀ w, I128.barrettReduce (I128.from w) = .ok (f w)) :
    I128.zqShl a off = (do let v ← shl64 a.raw off; .ok ⟨f v⟩) := by
  unfold I128.zqShl
  cases shl64 a.raw off with
  | ok w => rw [Res.ok_bind, Res.ok_bind, h, Res.ok_bind]
  | ub => rw [Res.ub_bind, Res.ub_bind]
  | nofuel => rw [Res.nofuel_bind, Res.nofuel_bind]
theorem zqRandom_eq (p : Prng) (r : U64) (h : I128.barrettReduce (I128.from (fromLeBytes 64 (p.read 8).1)) = .ok r) :
    I128.zqRandom p = .ok (⟨r⟩, (p.read 8).2) := by
  unfold I128.zqRandom
  simp only []
  rw [h, Res.ok_bind]
theorem bv_barrett_from (w : U64) : I128.barrettReduce (I128.from w) = .ok (barrettReduce (U128.from w)) := by rw [bv_from, bv_barrett]

/-- C04: Barrett reduction, and with it every field operation that uses 128-bit words, is defined in the `__int128` build and returns what the
two-limb build returns — for every 128-bit input, not only for the 98-bit ones where it is the remainder modulo q (C07). So the two builds of the
library compute the same function. -/
theorem C04_field_agree (v : U128) (a b : Zq) (off : Nat) (p : Prng) :
    I128.R = R ∧ I128.barrettReduce v.bv = .ok (barrettReduce v) ∧ I128.zqMul a b = .ok (a * b) ∧ I128.zqShl a off = a.shl off ∧
    I128.zqRandom p = .ok (Zq.random p) := by
  refine ⟨I128_R, bv_barrett v, ?_, ?_, ?_⟩
  · exact zqMul_eq a b _ (by rw [bv_from, bv_from, bv_mul, bv_barrett])
  · exact zqShl_eq a off _ bv_barrett_from
  · exact zqRandom_eq p _ (bv_barrett_from _)

theorem zqm1 : (⟨Q - 1⟩ : Zq).Can ∧ (⟨Q - 1⟩ : Zq).toZ = -1 := by
  have : (⟨Q - 1⟩ : Zq).raw.toNat = q - 1 := by decide
  unfold Zq.Can Zq.toZ
  rw [this, Nat.cast_sub (by decide), ZMod.natCast_self]
  exact ⟨by decide, by simp⟩

/-- Non-vacuity of C04_field_agree: a product that needs the reduction. -/
example : I128.zqMul ⟨Q - 1⟩ ⟨Q - 1⟩ = .ok ⟨1⟩ := by
  obtain ⟨h1, e⟩ := zqm1
  generalize (⟨Q - 1⟩ : Zq) = x at *
  rw [(C04_field_agree ⟨0, 0⟩ x x 0 (Prng.new ⟨fun _ _ => 0, fun _ _ => 0, id, id, 0⟩ [])).2.2.1]
  apply congrArg
  show x * x = Zq.one
  apply (Zq.toZ_inj (Zq.mul_can h1 h1) Zq.one_can).1
  rw [Zq.mul_toZ h1 h1, Zq.one_toZ, e]; simp

/-! ### C07 / C48: random polynomials -/

/-- C07: a random polynomial consists of canonical coefficients; coefficient `i` is the `i`-th group of eight bytes of the generator's remaining
stream, read little-endian, modulo q; exactly 4096 bytes are consumed. -/
theorem C07_random_poly (E : Ext) (seed : List U8) (n : Nat) :
    ∃ f p', Poly.random ((Prng.new E seed).advance n) = .ok (f, p') ∧ f.Can ∧ p' = (Prng.new E seed).advance (n + 4096) ∧
      ∀ (i : Nat) (h : i < 512), (f[i]).raw.toNat = leVal ((List.range 8).map fun j => E.shake128 seed (n + 8 * i + j)) % q := by
  unfold Poly.random
  obtain ⟨⟨f, p'⟩, e, h1, h2, h3⟩ := forLoop_Ok1 (lo := 0) (hi := 512) (by omega)
    (body := fun i (s : Poly × Prng) => do
      let r := Zq.random s.2
      let f ← s.1.wr i r.1
      .ok (f, r.2)) (s := (Poly.zero, (Prng.new E seed).advance n))
    (fun i s => s.1.Can ∧ s.2 = (Prng.new E seed).advance (n + 8 * i) ∧
      ∀ (j : Nat) (h : j < 512), j < i → (s.1[j]).raw.toNat = leVal ((List.range 8).map fun c => E.shake128 seed (n + 8 * j + c)) % q)
    ⟨by
      intro i h
      show (Poly.zero[i]).Can
      unfold Poly.zero
      rw [Vector.getElem_replicate]
      exact q_pos, rfl, by intro j _ h; omega⟩
    (by
      rintro i ⟨f, p⟩ - hi ⟨h1, h2, h3⟩
      simp only at h1 h2 h3
      obtain ⟨r1, r2, r3⟩ := C07_random p
      have hw : f.wr i (Zq.random p).1 = .ok (f.set i (Zq.random p).1 hi) := by unfold Vector.wr; rw [dif_pos hi]
      simp only [hw, Res.ok_bind]
      have hv : (fromLeBytes 64 (p.read 8).1).toNat = leVal ((List.range 8).map fun c => E.shake128 seed (n + 8 * i + c)) := by
        have er : (p.read 8).1 = (List.range 8).map fun c => E.shake128 seed (n + 8 * i + c) := by
          rw [h2]
          show (List.range 8).map (fun c => E.shake128 seed (0 + (n + 8 * i) + c)) = _
          rw [Nat.zero_add]
        rw [er]
        exact fromLeBytes64 (by simp)
      refine ⟨_, rfl, ?_, ?_, ?_⟩
      · intro j hj
        show ((f.set i (Zq.random p).1 hi)[j]).Can
        rw [Vector.getElem_set]
        split
        · exact r1
        · exact h1 j hj
      · show (Zq.random p).2 = _
        rw [r3, h2]
        show Prng.mk _ = Prng.mk _
        congr 1
      · intro j hj hlt
        show ((f.set i (Zq.random p).1 hi)[j]).raw.toNat = _
        rw [Vector.getElem_set]
        split
        · next heq => subst heq; rw [r2, hv]
        · exact h3 j hj (by omega))
  exact ⟨f, p', e, h1, h2, fun i h => h3 i h h⟩

/-- Non-vacuity of C07_random_poly. -/
example : ∃ f p', Poly.random ((Prng.new ⟨fun _ i => BitVec.ofNat 8 i, fun _ _ => 0, id, id, 0⟩ []).advance 3) = .ok (f, p') ∧ (f[0]).raw.toNat = 0x0a09080706050403 % q := by
  obtain ⟨f, p', e, -, -, h⟩ := C07_random_poly ⟨fun _ i => BitVec.ofNat 8 i, fun _ _ => 0, id, id, 0⟩ [] 3
  exact ⟨f, p', e, by rw [h 0 (by omega)]; rfl⟩

/-! ### C54 -/

/-- C54: sampling into an unmasked (d = 1) masked polynomial leaves the object as it was, whatever the header and seed; it finishes exactly when the
underlying sampler does, whose result — the polynomial the documentation promises — is thrown away. -/
theorem C54_masked_sampleQ (E : Ext) (fuel : Nat) (v : MPoly 1) (hdr seed : List U8) :
    (∀ v', MPoly.sampleQ E fuel v hdr seed = .ok v' → v' = v) ∧
    ((∃ p, Poly.sampleQ E fuel hdr seed = .ok p) → MPoly.sampleQ E fuel v hdr seed = .ok v) := by
  have h0 : v.rd 0 = .ok v[0] := by unfold Vector.rd; rw [dif_pos (by omega)]
  constructor
  · intro v' h
    unfold MPoly.sampleQ at h
    rw [h0, Res.ok_bind] at h
    obtain ⟨p, -, h⟩ := Res.bind_eq_ok.1 h
    exact (Res.ok.inj h).symm
  · rintro ⟨p, e⟩
    unfold MPoly.sampleQ
    rw [h0, Res.ok_bind, e, Res.ok_bind]

/-- C54, the consequence: an object holding zero still holds zero although the sampled polynomial is not zero. -/
theorem C54_masked_sampleQ_wrong : ∃ (E : Ext) (hdr seed : List U8) (p : Poly), Poly.sampleQ E 512 hdr seed = .ok p ∧ p ≠ Poly.zero ∧
    MPoly.sampleQ E 512 (Vector.replicate 1 Poly.zero) hdr seed = .ok (Vector.replicate 1 Poly.zero) := by
  let E : Ext := ⟨fun _ _ => 0, fun _ _ => 1, id, id, 0⟩
  have hw : qWord (fun _ => (1 : U8)) = fun _ => 0x1010101010101 := by
    funext j; unfold qWord streamWord; show leVal [1, 1, 1, 1, 1, 1, 1] % 2 ^ 49 = _; decide
  have ha : accepted (fun _ => (1 : U8)) 512 = List.replicate 512 0x1010101010101 := by
    unfold accepted
    rw [hw, List.map_const', List.length_range, List.filter_replicate, if_pos (by decide)]
  have e : Poly.sampleQ E 512 [] [] = .ok (listPoly (List.replicate 512 0x1010101010101)) := by
    rw [sampleQ_eq]
    show (if 512 ≤ (accepted (fun _ => (1 : U8)) 512).length then Res.ok (listPoly (accepted (fun _ => (1 : U8)) 512)) else _) = _
    rw [ha, List.length_replicate, if_pos (Nat.le_refl _)]
  refine ⟨E, [], [], _, e, ?_, (C54_masked_sampleQ E 512 _ [] []).2 ⟨_, e⟩⟩
  intro h
  have h0 := congrArg (fun p : Poly => (p[0]).raw.toNat) h
  simp only [listPoly, Poly.zero, Vector.getElem_ofFn, Vector.getElem_replicate] at h0
  have hg : ∀ n x : Nat, 0 < n → (List.replicate n x).getD 0 0 = x := by
    intro n x hn
    cases n with
    | zero => omega
    | succ n => rfl
  rw [hg _ _ (by omega)] at h0
  revert h0
  decide

end Raccoon
