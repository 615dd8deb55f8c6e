import Verif.Props.Masked
import Verif.Props.Field
import Verif.Props.Poly
/-!
# C80: which operations on sharings are operations on the shared values

All operations of `masked_poly_t` work share by share. Addition, subtraction and shifts by up to 15 bits act on the value (the sum of the shares); multiplication of two
sharings, rounding, longer shifts, arithmetic modulo a small modulus and comparison do not: with two shares or more the value of the result is not a function of the values
of the operands.
-/
namespace Raccoon
attribute [-instance] Monoid.toNPow
open Finset

theorem Zq.ofNat_raw {x : Nat} (hx : x < q) : (BitVec.ofNat 64 x).toNat = x := by
  rw [BitVec.toNat_ofNat, Nat.mod_eq_of_lt (hx.trans (by decide))]

/-- The sharing whose first share has all coefficients `x`, whose second has all coefficients `y`, and whose other shares are zero. -/
def twoShares (d x y : Nat) : MPoly d :=
  Vector.ofFn fun i : Fin d => Poly.fillWith ⟨BitVec.ofNat 64 (if i.val = 0 then x else if i.val = 1 then y else 0)⟩

theorem twoShares_get (d x y s c : Nat) (hs : s < d) (hc : c < 512) :
    (twoShares d x y)[s][c] = ⟨BitVec.ofNat 64 (if s = 0 then x else if s = 1 then y else 0)⟩ := by
  unfold twoShares Poly.fillWith
  rw [Vector.getElem_ofFn, Vector.getElem_replicate]

theorem twoShares_raw (d x y s c : Nat) (hx : x < q) (hy : y < q) (hs : s < d) (hc : c < 512) :
    ((twoShares d x y)[s][c]).raw.toNat = if s = 0 then x else if s = 1 then y else 0 := by
  rw [twoShares_get]
  refine Zq.ofNat_raw ?_
  have : 0 < q := q_pos
  split
  · exact hx
  · split <;> assumption

theorem twoShares_below (d x y m : Nat) (hx : x < m) (hy : y < m) (hm : m ≤ q) (s c : Nat) (hs : s < d) (hc : c < 512) : ((twoShares d x y)[s][c]).raw.toNat < m := by
  rw [twoShares_raw d x y s c (by omega) (by omega)]
  split
  · exact hx
  · split <;> omega

theorem twoShares_can (d x y : Nat) (hx : x < q) (hy : y < q) : MPoly.Can (twoShares d x y) := fun s hs c hc => twoShares_below d x y q hx hy (le_refl q) s c hs hc

/-- The sum of a family that only lives on the first two indices. -/
theorem sum_two {d : Nat} (hd : 2 ≤ d) (f : Fin d → ZMod q) (a b : ZMod q) (h : ∀ s, f s = if s.val = 0 then a else if s.val = 1 then b else 0) : ∑ s, f s = a + b := by
  obtain ⟨n, rfl⟩ : ∃ n, d = n + 2 := ⟨d - 2, by omega⟩
  rw [Fin.sum_univ_succ, Fin.sum_univ_succ, Finset.sum_eq_zero fun i _ => ?_, h, h, if_pos (by simp), if_neg (by simp), if_pos (by simp)]
  · ring
  · rw [h, if_neg (by simp), if_neg (by simp)]

/-- The value of a result with given words in the first two shares and zero in the others. -/
theorem val_two {d : Nat} (hd : 2 ≤ d) (r : MPoly d) (a b : Nat) (c : Fin 512) (h : ∀ s (hs : s < d), (r[s][c.val]).raw.toNat = if s = 0 then a else if s = 1 then b else 0) :
    MPoly.val r c = (a : ZMod q) + b := by
  unfold MPoly.val
  rw [Finset.sum_apply]
  refine sum_two hd _ _ _ fun s => ?_
  show ((r[s.val][c.val]).raw.toNat : ZMod q) = _
  rw [h s.val s.isLt]
  split
  · rfl
  · split
    · rfl
    · exact Nat.cast_zero

theorem twoShares_val {d : Nat} (hd : 2 ≤ d) {x y : Nat} (hx : x < q) (hy : y < q) : MPoly.val (twoShares d x y) = fun _ => (x : ZMod q) + y :=
  funext fun c => val_two hd _ x y c fun s hs => twoShares_raw d x y s c.val hx hy hs c.isLt

theorem cast_ne {a b : Nat} (ha : a < q) (hb : b < q) (h : a ≠ b) : (a : ZMod q) ≠ b := by
  intro e
  have := (ZMod.natCast_eq_natCast_iff' _ _ _).1 e
  rw [Nat.mod_eq_of_lt ha, Nat.mod_eq_of_lt hb] at this
  exact h this

/-- C80: adding and subtracting sharings adds and subtracts the values. -/
theorem C80_linear {d : Nat} (a b : MPoly d) (ha : MPoly.Can a) (hb : MPoly.Can b) :
    MPoly.Can (MPoly.add a b) ∧ MPoly.val (MPoly.add a b) = MPoly.val a + MPoly.val b ∧ MPoly.Can (MPoly.sub a b) ∧ MPoly.val (MPoly.sub a b) = MPoly.val a - MPoly.val b :=
  ⟨(MPoly.add_spec ha hb).1, (MPoly.add_spec ha hb).2, (MPoly.sub_spec ha hb).1, (MPoly.sub_spec ha hb).2⟩

/-- C80: the product of two sharings is the share-wise product; its value is the product of the values exactly if the mixed products of shares cancel, which they do if there
is one share only. -/
theorem C80_mul {d : Nat} (a b : MPoly d) (ha : MPoly.Can a) (hb : MPoly.Can b) :
    MPoly.Can (MPoly.mul a b) ∧ (∀ (s : Nat) (hs : s < d) (i : Fin 512), ((MPoly.mul a b)[s]).toZ i = (a[s]).toZ i * (b[s]).toZ i) ∧
    (MPoly.val (MPoly.mul a b) = MPoly.val a * MPoly.val b ↔ ∑ s : Fin d, ∑ t ∈ univ.erase s, (a[s.val]).toZ * (b[t.val]).toZ = 0) ∧
    (d = 1 → MPoly.val (MPoly.mul a b) = MPoly.val a * MPoly.val b) := by
  have hs : ∀ (s : Nat) (hs : s < d), ((MPoly.mul a b)[s]).toZ = (a[s]).toZ * (b[s]).toZ := by
    intro s hs
    unfold MPoly.mul
    rw [Vector.getElem_zipWith]
    exact Poly.mul_toZ (ha s hs) (hb s hs)
  have hv : MPoly.val a * MPoly.val b = MPoly.val (MPoly.mul a b) + ∑ s : Fin d, ∑ t ∈ univ.erase s, (a[s.val]).toZ * (b[t.val]).toZ := by
    unfold MPoly.val
    rw [Finset.sum_mul_sum, ← Finset.sum_add_distrib]
    refine Finset.sum_congr rfl fun s _ => ?_
    rw [hs s.val s.isLt]
    exact (Finset.add_sum_erase univ (fun t : Fin d => (a[s.val]).toZ * (b[t.val]).toZ) (mem_univ s)).symm
  have hiff : MPoly.val (MPoly.mul a b) = MPoly.val a * MPoly.val b ↔ ∑ s : Fin d, ∑ t ∈ univ.erase s, (a[s.val]).toZ * (b[t.val]).toZ = 0 := by
    rw [hv, eq_comm, add_eq_left]
  refine ⟨?_, fun s h i => by rw [hs s h]; rfl, hiff, ?_⟩
  · intro s h
    unfold MPoly.mul
    rw [Vector.getElem_zipWith]
    exact Poly.mul_can (ha s h) (hb s h)
  · rintro rfl
    rw [hiff]
    refine Finset.sum_eq_zero fun s _ => Finset.sum_eq_zero fun t ht => ?_
    exact absurd (Subsingleton.elim t s) (Finset.ne_of_mem_erase ht)

/-- C80: with two shares or more the value of a product of sharings is not a function of the values of the factors; in particular it is not their product. -/
theorem C80_mul_not_value {d : Nat} (hd : 2 ≤ d) : ¬ ∃ F : RPoly → RPoly → RPoly, ∀ a b : MPoly d, MPoly.Can a → MPoly.Can b → MPoly.val (MPoly.mul a b) = F (MPoly.val a) (MPoly.val b) := by
  rintro ⟨F, h⟩
  have h0 : 0 < q := q_pos
  have h1 : 1 < q := by decide
  have ca := twoShares_can d 1 0 h1 h0
  have cb := twoShares_can d 0 1 h0 h1
  have e1 := h _ _ ca ca
  have e2 := h _ _ cb ca
  rw [twoShares_val hd h1 h0] at e1 e2
  rw [twoShares_val hd h0 h1] at e2
  rw [show (fun _ : Fin 512 => ((0 : Nat) : ZMod q) + (1 : Nat)) = fun _ => ((1 : Nat) : ZMod q) + (0 : Nat) from funext fun _ => add_comm _ _, ← e1] at e2
  have e3 := congrFun e2 0
  have key : ∀ x y z w : Nat, x < q → y < q → z < q → w < q → MPoly.val (MPoly.mul (twoShares d x y) (twoShares d z w)) 0 = (x : ZMod q) * z + (y : ZMod q) * w := by
    intro x y z w hx hy hz hw
    unfold MPoly.val
    rw [Finset.sum_apply]
    refine sum_two hd _ _ _ fun s => ?_
    rw [(C80_mul _ _ (twoShares_can d x y hx hy) (twoShares_can d z w hz hw)).2.1 s.val s.isLt 0]
    show ((((twoShares d x y)[s.val][0]).raw.toNat : Nat) : ZMod q) * ((((twoShares d z w)[s.val][0]).raw.toNat : Nat) : ZMod q) = _
    rw [twoShares_raw d x y _ _ hx hy, twoShares_raw d z w _ _ hz hw]
    split
    · rfl
    · split
      · rfl
      · rw [Nat.cast_zero, zero_mul]
  rw [key 0 1 1 0 h0 h1 h1 h0, key 1 0 1 0 h1 h0 h1 h0] at e3
  norm_num at e3

/-- The words of a shifted sharing. -/
theorem shl_raw {d : Nat} (a : MPoly d) (off : Nat) (ho : off < 64) : ∃ r, MPoly.shl a off = .ok r ∧
    ∀ s (hs : s < d) c (hc : c < 512), (r[s][c]).raw.toNat = ((a[s][c]).raw.toNat * 2 ^ off % 2 ^ 64) % q := by
  have inner : ∀ s (hs : s < d), ((fun p : Poly => p.shl off) a[s]).Ok fun p => ∀ (hs : s < d) c (hc : c < 512), (p[c]).raw.toNat = ((a[s][c]).raw.toNat * 2 ^ off % 2 ^ 64) % q := by
    intro s hs
    obtain ⟨p, e, hp⟩ := mapR_Ok (f := fun c : Zq => c.shl off) (v := a[s]) (fun c (x : Zq) => ∀ hc : c < 512, x.raw.toNat = ((a[s][c]).raw.toNat * 2 ^ off % 2 ^ 64) % q)
      (fun c hc => ⟨_, (Zq.shl_spec ho).1, fun _ => (Zq.shl_spec ho).2⟩)
    exact ⟨p, e, fun _ c hc => hp c hc hc⟩
  unfold MPoly.shl
  obtain ⟨r, e, hr⟩ := mapR_Ok (f := fun p : Poly => p.shl off) (v := a) _ inner
  exact ⟨r, e, fun s hs c hc => hr s hs hs c hc⟩

/-- C80: a shift to the left by up to 15 bits multiplies the value. -/
theorem C80_shl {d : Nat} (a : MPoly d) (ha : MPoly.Can a) (off : Nat) (ho : off ≤ 15) :
    ∃ r, MPoly.shl a off = .ok r ∧ MPoly.Can r ∧ MPoly.val r = fun c => MPoly.val a c * 2 ^ off := by
  obtain ⟨r, e, hr⟩ := shl_raw a off (by omega)
  refine ⟨r, e, fun s hs c hc => ?_, funext fun c => ?_⟩
  · unfold Zq.Can; rw [hr s hs c hc]; exact Nat.mod_lt _ q_pos
  · unfold MPoly.val
    rw [Finset.sum_apply, Finset.sum_apply, Finset.sum_mul]
    refine Finset.sum_congr rfl fun s _ => ?_
    show (((r[s.val][c.val]).raw.toNat : Nat) : ZMod q) = (((a[s.val][c.val]).raw.toNat : Nat) : ZMod q) * 2 ^ off
    rw [hr s.val s.isLt c.val c.isLt, ZMod.natCast_mod, Nat.mod_eq_of_lt]
    · push_cast; rfl
    · have h1 : (a[s.val][c.val]).raw.toNat < q := ha s.val s.isLt c.val c.isLt
      have h2 : (2 : Nat) ^ off ≤ 2 ^ 15 := Nat.pow_le_pow_right (by norm_num) ho
      calc _ ≤ (q - 1) * 2 ^ 15 := Nat.mul_le_mul (by omega) h2
        _ < 2 ^ 64 := by decide

/-- C80: a shift by 16 to 63 bits is defined, but with two shares or more its value is not a function of the value of the operand. -/
theorem C80_shl_not_value {d : Nat} (hd : 2 ≤ d) (off : Nat) (h1 : 16 ≤ off) (h2 : off < 64) :
    ¬ ∃ F : RPoly → RPoly, ∀ a : MPoly d, MPoly.Can a → ∃ r, MPoly.shl a off = .ok r ∧ MPoly.val r = F (MPoly.val a) := by
  rintro ⟨F, h⟩
  have hlt : (2 : Nat) ^ (64 - off) < q := Nat.lt_of_le_of_lt (Nat.pow_le_pow_right (by norm_num) (by omega : 64 - off ≤ 48)) (by decide)
  have hlt' : (2 : Nat) ^ (63 - off) < q := Nat.lt_of_le_of_lt (Nat.pow_le_pow_right (by norm_num) (by omega : 63 - off ≤ 48)) (by decide)
  obtain ⟨r, e, hr⟩ := h _ (twoShares_can d (2 ^ (64 - off)) 0 hlt q_pos)
  obtain ⟨r', e', hr'⟩ := h _ (twoShares_can d (2 ^ (63 - off)) (2 ^ (63 - off)) hlt' hlt')
  obtain ⟨_, f, hf⟩ := shl_raw (twoShares d (2 ^ (64 - off)) 0) off h2
  obtain ⟨_, f', hf'⟩ := shl_raw (twoShares d (2 ^ (63 - off)) (2 ^ (63 - off))) off h2
  obtain rfl := Res.ok.inj (e.symm.trans f)
  obtain rfl := Res.ok.inj (e'.symm.trans f')
  have hval : MPoly.val (twoShares d (2 ^ (63 - off)) (2 ^ (63 - off))) = MPoly.val (twoShares d (2 ^ (64 - off)) 0) := by
    rw [twoShares_val hd hlt q_pos, twoShares_val hd hlt' hlt']
    funext _
    rw [show 64 - off = (63 - off) + 1 by omega, Nat.pow_succ]
    push_cast
    ring
  rw [hval, ← hr] at hr'
  have hr0 := congrFun hr' 0
  rw [val_two hd r 0 0 0 fun s hs => ?_, val_two hd r' (2 ^ 63 % q) (2 ^ 63 % q) 0 fun s hs => ?_] at hr0
  · rw [← Nat.cast_add, ← Nat.cast_add] at hr0
    exact absurd ((ZMod.natCast_eq_natCast_iff' _ _ _).1 hr0) (by decide)
  · refine (hf' s hs 0 (by omega)).trans ?_
    rw [twoShares_raw d _ _ s 0 hlt' hlt' hs (by omega)]
    have e63 : (2 : Nat) ^ (63 - off) * 2 ^ off = 2 ^ 63 := by rw [← Nat.pow_add]; congr 1; omega
    split
    · rw [e63, Nat.mod_eq_of_lt (a := 2 ^ 63) (by decide)]
    · split
      · rw [e63, Nat.mod_eq_of_lt (a := 2 ^ 63) (by decide)]
      · rw [Nat.zero_mul, Nat.zero_mod, Nat.zero_mod]
  · refine (hf s hs 0 (by omega)).trans ?_
    rw [twoShares_raw d _ _ s 0 hlt q_pos hs (by omega)]
    have e64 : (2 : Nat) ^ (64 - off) * 2 ^ off = 2 ^ 64 := by rw [← Nat.pow_add]; congr 1; omega
    split
    · rw [e64, Nat.mod_self, Nat.zero_mod]
    · split <;> rw [Nat.zero_mul, Nat.zero_mod, Nat.zero_mod]

/-- C80: with two shares or more, rounding the shares does not round the value: the value of the result is not a function of the value of the operand. -/
theorem C80_rounding_not_value {d : Nat} (hd : 2 ≤ d) (ν : Nat) (h1 : 1 ≤ ν) (h2 : ν ≤ 47) :
    ¬ ∃ F : RPoly → RPoly, ∀ a : MPoly d, MPoly.Can a → MPoly.val (MPoly.roundingShr ν a) = F (MPoly.val a) := by
  rintro ⟨F, h⟩
  have hlt : (2 : Nat) ^ ν < q := Nat.lt_of_le_of_lt (Nat.pow_le_pow_right (by norm_num) h2) (by decide)
  have hlt' : (2 : Nat) ^ (ν - 1) < q := Nat.lt_of_le_of_lt (Nat.pow_le_pow_right (by norm_num) (by omega : ν - 1 ≤ 47)) (by decide)
  have e1 := h _ (twoShares_can d (2 ^ ν) 0 hlt q_pos)
  have e2 := h _ (twoShares_can d (2 ^ (ν - 1)) (2 ^ (ν - 1)) hlt' hlt')
  have hp : (2 : Nat) ^ (ν - 1) + 2 ^ (ν - 1) = 2 ^ ν := by
    obtain ⟨m, rfl⟩ : ∃ m, ν = m + 1 := ⟨ν - 1, by omega⟩
    rw [Nat.add_sub_cancel, Nat.pow_succ]; omega
  have hq : 3 ≤ q / 2 ^ ν := by
    rw [Nat.le_div_iff_mul_le (Nat.two_pow_pos ν)]
    have : (2 : Nat) ^ ν ≤ 2 ^ 47 := Nat.pow_le_pow_right (by norm_num) h2
    have : 3 * 2 ^ 47 ≤ q := by decide
    omega
  have hval : MPoly.val (twoShares d (2 ^ (ν - 1)) (2 ^ (ν - 1))) = MPoly.val (twoShares d (2 ^ ν) 0) := by
    rw [twoShares_val hd hlt q_pos, twoShares_val hd hlt' hlt', ← hp]
    funext _
    push_cast
    ring
  rw [hval, ← e1] at e2
  have e3 := congrFun e2 0
  have key : ∀ x y : Nat, x < q → y < q → ∀ s (hs : s < d), ((MPoly.roundingShr ν (twoShares d x y))[s][(0 : Fin 512).val]).raw.toNat =
      ((if s = 0 then x else if s = 1 then y else 0) + 2 ^ (ν - 1)) / 2 ^ ν % (q / 2 ^ ν) := by
    intro x y hx hy s hs
    unfold MPoly.roundingShr
    rw [Vector.getElem_map]
    refine (C14_rounding_shr ν h1 h2 _ (twoShares_can d x y hx hy s hs) 0 (by omega)).1.trans ?_
    rw [twoShares_raw d x y s 0 hx hy hs (by omega)]
  have r0 : (0 + (2 : Nat) ^ (ν - 1)) / 2 ^ ν % (q / 2 ^ ν) = 0 := by
    rw [Nat.div_eq_of_lt (by have := Nat.two_pow_pos (ν - 1); omega), Nat.zero_mod]
  have r1 : ((2 : Nat) ^ ν + 2 ^ (ν - 1)) / 2 ^ ν % (q / 2 ^ ν) = 1 := by
    rw [Nat.add_div_left _ (Nat.two_pow_pos ν), Nat.div_eq_of_lt (by have := Nat.two_pow_pos (ν - 1); omega), Nat.mod_eq_of_lt (by omega)]
  have r2 : ((2 : Nat) ^ (ν - 1) + 2 ^ (ν - 1)) / 2 ^ ν % (q / 2 ^ ν) = 1 := by
    rw [hp, Nat.div_self (Nat.two_pow_pos ν), Nat.mod_eq_of_lt (by omega)]
  have v1 : MPoly.val (MPoly.roundingShr ν (twoShares d (2 ^ ν) 0)) 0 = ((1 : Nat) : ZMod q) + (0 : Nat) := by
    refine val_two hd _ 1 0 0 fun s hs => ?_
    rw [key _ _ hlt q_pos s hs]
    split
    · exact r1
    · split <;> exact r0
  have v2 : MPoly.val (MPoly.roundingShr ν (twoShares d (2 ^ (ν - 1)) (2 ^ (ν - 1)))) 0 = ((1 : Nat) : ZMod q) + (1 : Nat) := by
    refine val_two hd _ 1 1 0 fun s hs => ?_
    rw [key _ _ hlt' hlt' s hs]
    split
    · exact r2
    · split
      · exact r2
      · exact r0
  rw [v1, v2, ← Nat.cast_add, ← Nat.cast_add] at e3
  exact cast_ne (by decide) (by decide) (by decide) e3

/-- C80: with two shares or more, addition modulo a small modulus of the shares is not an operation on the values (sums modulo q' of shares below q'). -/
theorem C80_add_mod_not_value {d : Nat} (hd : 2 ≤ d) (q' : U64) (h1 : 2 ≤ q'.toNat) (h2 : q'.toNat < q) :
    ¬ ∃ F : RPoly → RPoly → RPoly, ∀ a b : MPoly d, (∀ s (hs : s < d), (a[s]).Below q'.toNat) → (∀ s (hs : s < d), (b[s]).Below q'.toNat) →
      MPoly.val (MPoly.addMod q' a b) = F (MPoly.val a) (MPoly.val b) := by
  rintro ⟨F, h⟩
  have hq : q < 2 ^ 62 := by decide
  have b1 : ∀ x y, x < q'.toNat → y < q'.toNat → ∀ s (hs : s < d), ((twoShares d x y)[s]).Below q'.toNat := fun x y hx hy s hs c hc =>
    twoShares_below d x y _ hx hy (by omega) s c hs hc
  have e1 := h _ _ (b1 (q'.toNat - 1) 0 (by omega) (by omega)) (b1 1 0 (by omega) (by omega))
  have e2 := h _ _ (b1 0 (q'.toNat - 1) (by omega) (by omega)) (b1 1 0 (by omega) (by omega))
  rw [twoShares_val hd (x := 0) (by omega) (by omega), twoShares_val hd (by omega) (by omega)] at e2
  rw [twoShares_val hd (by omega) (by omega), twoShares_val hd (by omega) (by omega)] at e1
  rw [show (fun _ : Fin 512 => ((0 : Nat) : ZMod q) + ((q'.toNat - 1 : Nat) : ZMod q)) = fun _ => ((q'.toNat - 1 : Nat) : ZMod q) + ((0 : Nat) : ZMod q) from funext fun _ => add_comm _ _,
    ← e1] at e2
  have e3 := congrFun e2 0
  have key : ∀ x y z w, x < q'.toNat → y < q'.toNat → z < q'.toNat → w < q'.toNat → ∀ s (hs : s < d),
      ((MPoly.addMod q' (twoShares d x y) (twoShares d z w))[s][(0 : Fin 512).val]).raw.toNat =
        if s = 0 then (x + z) % q'.toNat else if s = 1 then (y + w) % q'.toNat else 0 := by
    intro x y z w hx hy hz hw s hs
    unfold MPoly.addMod
    rw [Vector.getElem_zipWith]
    refine (C16_small_mod q' (by omega) _ _ (b1 x y hx hy s hs) (b1 z w hz hw s hs) 0 (by omega)).1.trans ?_
    rw [twoShares_raw d x y s 0 (by omega) (by omega) hs (by omega), twoShares_raw d z w s 0 (by omega) (by omega) hs (by omega)]
    split
    · rfl
    · split
      · rfl
      · exact Nat.zero_mod _
  rw [val_two hd _ _ _ 0 (key _ _ _ _ (by omega) (by omega) (by omega) (by omega)), val_two hd _ _ _ 0 (key _ _ _ _ (by omega) (by omega) (by omega) (by omega)),
    Nat.sub_add_cancel (by omega), Nat.mod_self, Nat.add_zero, Nat.add_zero, Nat.zero_add, Nat.mod_eq_of_lt (a := 1) (by omega), Nat.mod_eq_of_lt (a := q'.toNat - 1) (by omega), Nat.zero_mod,
    ← Nat.cast_add, ← Nat.cast_add] at e3
  refine cast_ne (by omega) (by omega) ?_ e3
  omega

/-- C80: `==` compares the sharings: with two shares or more it tells sharings of one value apart. -/
theorem C80_eq_not_value {d : Nat} (hd : 2 ≤ d) : ∃ a b : MPoly d, MPoly.Can a ∧ MPoly.Can b ∧ MPoly.val a = MPoly.val b ∧ MPoly.eq a b = false := by
  have h1 : 1 < q := by decide
  refine ⟨twoShares d 1 0, twoShares d 0 1, twoShares_can d 1 0 h1 q_pos, twoShares_can d 0 1 q_pos h1, ?_, ?_⟩
  · rw [twoShares_val hd h1 q_pos, twoShares_val hd q_pos h1]
    exact funext fun _ => add_comm _ _
  · rw [Bool.eq_false_iff, Ne, C49_eq_masked]
    intro e
    have := twoShares_raw d 1 0 0 0 h1 q_pos (by omega) (by omega)
    have h2 := twoShares_raw d 0 1 0 0 q_pos h1 (by omega) (by omega)
    simp only [e] at this
    rw [this] at h2
    exact absurd h2 (by decide)

/-- Non-vacuity: a sharing with three shares, not all zero, on which the linear operations are used; its product with itself is not a sharing of the square. -/
example : ∃ a : MPoly 3, MPoly.Can a ∧ MPoly.val a = (fun _ => 5) ∧ MPoly.val (MPoly.mul a a) ≠ MPoly.val a * MPoly.val a := by
  have h2 : 2 < q := by decide
  have h3 : 3 < q := by decide
  have hc := twoShares_can 3 2 3 h2 h3
  have hv : MPoly.val (twoShares 3 2 3) = fun _ => 5 := by
    rw [twoShares_val (by omega) h2 h3]
    funext _
    norm_num
  refine ⟨twoShares 3 2 3, hc, hv, ?_⟩
  rw [hv]
  intro e
  have e0 := congrFun e 0
  have : MPoly.val (MPoly.mul (twoShares 3 2 3) (twoShares 3 2 3)) 0 = ((2 : Nat) : ZMod q) * (2 : Nat) + ((3 : Nat) : ZMod q) * (3 : Nat) := by
    unfold MPoly.val
    rw [Finset.sum_apply]
    refine sum_two (by omega) _ _ _ fun s => ?_
    rw [(C80_mul _ _ hc hc).2.1 s.val s.isLt 0]
    show ((((twoShares 3 2 3)[s.val][0]).raw.toNat : Nat) : ZMod q) * ((((twoShares 3 2 3)[s.val][0]).raw.toNat : Nat) : ZMod q) = _
    rw [twoShares_raw 3 2 3 _ _ h2 h3]
    split
    · rfl
    · split
      · rfl
      · rw [Nat.cast_zero, zero_mul]
  rw [this] at e0
  have e1 : ((13 : Nat) : ZMod q) = ((25 : Nat) : ZMod q) := by
    have h25 : ((fun _ => 5 : RPoly) * (fun _ => 5 : RPoly)) 0 = (5 : ZMod q) * 5 := rfl
    rw [h25] at e0
    push_cast at e0 ⊢
    calc (13 : ZMod q) = 2 * 2 + 3 * 3 := by norm_num
      _ = 5 * 5 := e0
      _ = 25 := by norm_num
  exact cast_ne (by decide) (by decide) (by decide) e1

end Raccoon
