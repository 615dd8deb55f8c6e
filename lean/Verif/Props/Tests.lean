import Verif.Model.Tests
import Verif.Spec.Tests
import Verif.Props.Words
import Verif.Props.Field
import Verif.Props.Extra
import Verif.Props.Masked
import Verif.Props.Keys
import Verif.Props.Poly
import Verif.Props.Sig
import Verif.Props.SigExact
import Verif.Props.Rng
import Mathlib.Data.Nat.ChineseRemainder
/-!
# C70, C71: the repository's own tests
-/
namespace Raccoon
attribute [-instance] Monoid.toNPow

/-! ### C70: `random_bitflip` -/

/-- The computation on the selected byte. -/
theorem flip_byte : ∀ (i : Fin 8) (x : U8),
    (((x &&& ((0xff : U32) <<< (i.val + 1)).setWidth 8).setWidth 32) ^^^
        ((~~~ ((((x.setWidth 32 >>> i.val) &&& (1 : U32)).setWidth 8 : U8).setWidth 32) &&& (1 : U32)).setWidth 8 : U8).setWidth 32 <<< i.val ^^^
        ((x &&& ((0xff : U32) >>> (8 - i.val)).setWidth 8).setWidth 32)).setWidth 8 = x ^^^ ((1 : U8) <<< i.val) := by
  decide +kernel

theorem flipBit_get (data : List U8) (i b : Nat) (h : i < data.length) : flipBit data i b = data.set i (data[i] ^^^ ((1 : U8) <<< b)) := by
  unfold flipBit
  rw [List.modify_eq_set_getElem? , List.getElem?_eq_getElem h]; rfl

/-- C70: the helper that is to spoil data inverts exactly one bit: with `u` the next eight bytes of the generator, bit `u mod 8` of byte
`u mod length`. Empty data are left alone, and the generator too. -/
theorem C70_flip (data : List U8) (p : Prng) :
    (data = [] → Tests.randomBitflip data p = .ok (data, p)) ∧
    (data ≠ [] → Tests.randomBitflip data p =
      .ok (flipBit data (leVal (p.read 8).1 % data.length) (leVal (p.read 8).1 % 8), (p.read 8).2)) := by
  constructor
  · rintro rfl; rfl
  · intro h
    have hl : 0 < data.length := List.length_pos_iff.2 h
    have e : data.isEmpty = false := by simpa using h
    have e8 : (p.read 8).1.length ≤ 8 := by unfold Prng.read Xof.squeeze; simp
    unfold Tests.randomBitflip
    rw [if_neg (by rw [e]; exact Bool.false_ne_true)]
    simp only [fromLeBytes64 e8]
    have hlt := Nat.mod_lt (leVal (p.read 8).1) hl
    rw [List.getElem?_eq_getElem hlt, flipBit_get _ _ _ hlt]
    simp only []
    rw [flip_byte ⟨leVal (p.read 8).1 % 8, Nat.mod_lt _ (by omega)⟩]

theorem one_shl_inj : ∀ b b' : Fin 8, ((1 : U8) <<< b.val) = (1 : U8) <<< b'.val → b = b' := by decide
theorem one_shl_ne : ∀ b : Fin 8, ((1 : U8) <<< b.val) ≠ 0 := by decide

/-- Different positions give different results, and the result is different from the data. -/
theorem C70_flip_changes (data : List U8) (i b i' b' : Nat) (hi : i < data.length) (hi' : i' < data.length) (hb : b < 8) (hb' : b' < 8) :
    (flipBit data i b).length = data.length ∧ flipBit data i b ≠ data ∧ (flipBit data i b = flipBit data i' b' → i = i' ∧ b = b') := by
  have hne : ∀ (x : U8) (c : Nat), c < 8 → x ^^^ ((1 : U8) <<< c) ≠ x := by
    intro x c hc e
    apply one_shl_ne ⟨c, hc⟩
    have h2 : x ^^^ (x ^^^ ((1 : U8) <<< c)) = x ^^^ x := by rw [e]
    rw [← BitVec.xor_assoc, BitVec.xor_self, BitVec.zero_xor] at h2
    exact h2
  refine ⟨by unfold flipBit; simp, ?_, ?_⟩
  · intro e
    have h2 : (flipBit data i b)[i]? = data[i]? := by rw [e]
    rw [flipBit_get _ _ _ hi, List.getElem?_set_self hi, List.getElem?_eq_getElem hi] at h2
    exact hne _ _ hb (Option.some.inj h2)
  · intro e
    have h2 : (flipBit data i b)[i]? = (flipBit data i' b')[i]? := by rw [e]
    rw [flipBit_get _ _ _ hi, flipBit_get _ _ _ hi', List.getElem?_set_self hi] at h2
    by_cases hii : i' = i
    · subst hii
      rw [List.getElem?_set_self hi] at h2
      have h3 := Option.some.inj h2
      refine ⟨rfl, ?_⟩
      have h4 : data[i'] ^^^ (data[i'] ^^^ ((1 : U8) <<< b)) = data[i'] ^^^ (data[i'] ^^^ ((1 : U8) <<< b')) := by rw [h3]
      rw [← BitVec.xor_assoc, ← BitVec.xor_assoc, BitVec.xor_self, BitVec.zero_xor, BitVec.zero_xor] at h4
      exact congrArg Fin.val (one_shl_inj ⟨b, hb⟩ ⟨b', hb'⟩ h4)
    · rw [List.getElem?_set_ne hii, List.getElem?_eq_getElem hi] at h2
      exact absurd (Option.some.inj h2) (hne _ _ hb)

theorem leVal_toBytes (u : Nat) (hu : u < 2 ^ 64) : leVal (leBytes 8 u) = u := by
  rw [leVal_leBytes]
  exact Nat.mod_eq_of_lt hu

/-- Every 64-bit word is the next word of some generator. -/
theorem exists_read (u : Nat) (hu : u < 2 ^ 64) : ∃ E seed, leVal ((Prng.new E seed).read 8).1 = u := by
  refine ⟨⟨fun _ i => (leBytes 8 u).getD i 0, fun _ _ => 0, id, id, 0⟩, [], ?_⟩
  have : ((Prng.new ⟨fun _ i => (leBytes 8 u).getD i 0, fun _ _ => 0, id, id, 0⟩ []).read 8).1 = leBytes 8 u := by
    unfold Prng.new Prng.read Xof.squeeze Xof.finalize Xof.absorb Xof.new
    simp only []
    apply List.ext_getElem
    · simp [leBytes_length]
    · intro i h1 h2
      rw [List.getElem_map, List.getElem_range, Nat.zero_add, List.getD_eq_getElem?_getD, List.getElem?_eq_getElem h2, Option.getD_some]
  rw [this, leVal_toBytes u hu]

/-- C70, what the helper never does: byte index and bit index are taken from the *same* random word, so that only the bits whose index agrees with the byte's index modulo
gcd(length, 8) can be hit. -/
theorem C70_reach (data : List U8) (hl : data.length ≤ 2 ^ 60) (i b : Nat) (hi : i < data.length) (hb : b < 8) :
    (∃ E seed p', Tests.randomBitflip data (Prng.new E seed) = .ok (flipBit data i b, p')) ↔ i % Nat.gcd data.length 8 = b % Nat.gcd data.length 8 := by
  have hne : data ≠ [] := by rintro rfl; exact absurd hi (by simp)
  have hpos : 0 < data.length := by omega
  constructor
  · rintro ⟨E, seed, p', e⟩
    rw [(C70_flip data _).2 hne] at e
    have e1 := congrArg Prod.fst (Res.ok.inj e)
    obtain ⟨e2, e3⟩ := (C70_flip_changes data _ _ i b (Nat.mod_lt _ hpos) hi (Nat.mod_lt _ (by omega)) hb).2.2 e1
    rw [← e2, ← e3, Nat.mod_mod_of_dvd _ (Nat.gcd_dvd_left _ _), Nat.mod_mod_of_dvd _ (Nat.gcd_dvd_right _ _)]
  · intro h
    obtain ⟨u, hu1, hu2⟩ := Nat.chineseRemainder' (n := data.length) (m := 8) (a := i) (b := b) h
    have hlt := Nat.chineseRemainder'_lt_lcm (n := data.length) (m := 8) (a := i) (b := b) h (by omega) (by omega)
    have hu : u % Nat.lcm data.length 8 < 2 ^ 64 := by
      have h1 : u % Nat.lcm data.length 8 < Nat.lcm data.length 8 := Nat.mod_lt _ (Nat.lcm_pos hpos (by omega))
      have h2 : Nat.lcm data.length 8 ≤ data.length * 8 := Nat.le_of_dvd (by omega) (Nat.lcm_dvd_mul _ _)
      norm_num at hl ⊢
      omega
    obtain ⟨E, seed, e⟩ := exists_read _ hu
    refine ⟨E, seed, ((Prng.new E seed).read 8).2, ?_⟩
    rw [(C70_flip data _).2 hne, e, Nat.mod_mod_of_dvd _ (Nat.dvd_lcm_left _ _), Nat.mod_mod_of_dvd _ (Nat.dvd_lcm_right _ _)]
    have e1 : u % data.length = i := by rw [hu1, Nat.mod_eq_of_lt hi]
    have e2 : u % 8 = b := by rw [hu2, Nat.mod_eq_of_lt hb]
    rw [e1, e2]

/-- C70, the consequence for the signing tests: in a serialised public key of any of the three parameter sets only bit `i mod 8` of byte `i` is ever flipped (an eighth
of the bits); in a signature, only an eighth (Raccoon-192), a quarter (Raccoon-128) or half (Raccoon-256) of them. -/
theorem C70_coverage (P : Par) (hP : P = raccoon128 ∨ P = raccoon192 ∨ P = raccoon256) :
    (∀ data : List U8, data.length = PKey.byteLen P.κ P.k P.νt → ∀ i b, i < data.length → b < 8 →
      ((∃ E seed p', Tests.randomBitflip data (Prng.new E seed) = .ok (flipBit data i b, p')) ↔ b = i % 8)) ∧
    ∀ data : List U8, data.length = P.sigLen → ∀ i b, i < data.length → b < 8 →
      ((∃ E seed p', Tests.randomBitflip data (Prng.new E seed) = .ok (flipBit data i b, p')) ↔
        b % (if P.κ = 128 then 4 else if P.κ = 192 then 8 else 2) = i % (if P.κ = 128 then 4 else if P.κ = 192 then 8 else 2)) := by
  constructor
  · intro data hl i b hi hb
    have hg : data.length ≤ 2 ^ 60 ∧ Nat.gcd data.length 8 = 8 := by
      rw [hl]; rcases hP with rfl | rfl | rfl <;> decide +kernel
    rw [C70_reach data hg.1 i b hi hb, hg.2, Nat.mod_eq_of_lt hb]
    exact eq_comm
  · intro data hl i b hi hb
    have hg : data.length ≤ 2 ^ 60 ∧ Nat.gcd data.length 8 = (if P.κ = 128 then 4 else if P.κ = 192 then 8 else 2) := by
      rw [hl]; rcases hP with rfl | rfl | rfl <;> decide +kernel
    rw [C70_reach data hg.1 i b hi hb, hg.2]
    exact eq_comm

/-- Non-vacuity: bit 1 of byte 0 of a public key is not covered by the tests, bit 0 of byte 0 is. -/
example (data : List U8) (hl : data.length = PKey.byteLen 128 5 42) :
    (¬ ∃ E seed p', Tests.randomBitflip data (Prng.new E seed) = .ok (flipBit data 0 1, p')) ∧
    ∃ E seed p', Tests.randomBitflip data (Prng.new E seed) = .ok (flipBit data 0 0, p') := by
  have h0 : 0 < data.length := by rw [hl]; decide +kernel
  have h := (C70_coverage raccoon128 (Or.inl rfl)).1 data hl
  exact ⟨fun hc => absurd ((h 0 1 h0 (by omega)).1 hc) (by omega), (h 0 0 h0 (by omega)).2 rfl⟩

/-! ### C71: the unit tests -/

theorem fieldIter_ok (p : Prng) : (Tests.fieldIter p).Ok (fun r => r.1 = true) := by
  unfold Tests.fieldIter
  obtain ⟨ha, -, -⟩ := C07_random p
  obtain ⟨hb, -, -⟩ := C07_random (Zq.random p).2
  simp only []
  generalize (Zq.random p).1 = a at *
  generalize (Zq.random p).2 = p1 at *
  generalize (Zq.random p1).1 = b at *
  generalize (Zq.random p1).2 = p2 at *
  obtain ⟨hc, ec, -, -, hf, ef⟩ := C05_ring_ops a b ha hb
  obtain ⟨-, -, hd, ed, -, -⟩ := C05_ring_ops (a + b) b hc hb
  obtain ⟨-, -, he, ee, -, -⟩ := C05_ring_ops (a + b) a hc ha
  have e1 : a + b - b = a := (Zq.toZ_inj hd ha).1 (by rw [ed, ec]; ring)
  have e2 : a + b - a = b := (Zq.toZ_inj he hb).1 (by rw [ee, ec]; ring)
  -- division
  have hdiv : ∀ x y : Zq, x.Can → y.Can → ∃ r f, (x * y).div y = .ok (r, f) ∧ (f = true → r = x) ∧ (f = false → r = Zq.zero) ∧ (y = Zq.zero → r = Zq.zero) := by
    intro x y hx hy
    obtain ⟨-, -, -, -, hxy, exy⟩ := C05_ring_ops x y hx hy
    obtain ⟨r, f, e, hf, hr, h1, h2⟩ := C08_div (x * y) y hxy hy
    have hu : f = true → IsUnit y.toZ := by
      intro ht
      obtain ⟨_, f', -, g2, g3, -⟩ := C08_inv y hy
      have := (g2.trans hf.symm).2 ht
      exact g3.1 this
    refine ⟨r, f, e, ?_, h2, ?_⟩
    · intro ht
      have h3 := h1 ht
      apply (Zq.toZ_inj hr hx).1
      have h4 : (r * y).toZ = (x * y).toZ := by rw [h3]
      rw [(C05_ring_ops r y hr hy).2.2.2.2.2, exy] at h4
      exact (hu ht).mul_right_cancel h4
    · rintro rfl
      cases f with
      | false => exact h2 rfl
      | true =>
        have := hu rfl
        rw [Zq.zero_toZ] at this
        exact absurd (isUnit_zero_iff.1 this) (by
          have : Fact (1 < q) := ⟨by norm_num [q]⟩
          exact zero_ne_one)
  obtain ⟨g, fg, eg, g1, g2, g3⟩ := hdiv a b ha hb
  obtain ⟨h, fh, eh, h1, h2, h3⟩ := hdiv b a hb ha
  have ecomm : b * a = a * b := (Zq.toZ_inj (C05_ring_ops b a hb ha).2.2.2.2.1 hf).1 (by rw [(C05_ring_ops b a hb ha).2.2.2.2.2, ef, mul_comm])
  rw [ecomm] at eh
  rw [eg, Res.ok_bind, eh, Res.ok_bind]
  refine ⟨_, rfl, ?_⟩
  simp only [e1, e2, decide_true, Bool.true_and, Bool.and_eq_true]
  refine ⟨⟨?_, ?_⟩, ?_⟩
  · split
    · rename_i hh; exact decide_eq_true (g1 hh.2)
    · rename_i hh
      apply decide_eq_true
      cases hfg : fg with
      | false => exact g2 hfg
      | true => exact g3 (by by_contra hn; exact hh ⟨hn, hfg⟩)
  · split
    · rename_i hh; exact decide_eq_true (h1 hh.2)
    · rename_i hh
      apply decide_eq_true
      cases hfh : fh with
      | false => exact h2 hfh
      | true => exact h3 (by by_contra hn; exact hh ⟨hn, hfh⟩)
  · have hj : (Zq.max a b).Can := by unfold Zq.max; split <;> assumption
    generalize Zq.max a b = j at *
    apply decide_eq_true
    obtain ⟨k1, k2⟩ := C09_pow j hj ((1 : U64) <<< 8)
    have hl : ∀ n, ((List.range n).foldl (fun l _ => l * j) Zq.one).Can ∧ ((List.range n).foldl (fun l _ => l * j) Zq.one).toZ = j.toZ ^ n := by
      intro n
      induction n with
      | zero => exact ⟨Zq.one_can, by rw [List.range_zero, List.foldl_nil, Zq.one_toZ, pow_zero]⟩
      | succ n ih =>
        rw [List.range_succ, List.foldl_append, List.foldl_cons, List.foldl_nil]
        obtain ⟨-, -, -, -, c1, c2⟩ := C05_ring_ops _ j ih.1 hj
        exact ⟨c1, by rw [c2, ih.2, pow_succ]⟩
    apply (Zq.toZ_inj k1 (hl 256).1).1
    rw [k2, (hl 256).2]
    rfl

/-- C71: the field test (`d == a`, …, `k == l`) passes on every run: whatever the generator delivers, for any number of iterations. -/
theorem C71_field (E : Ext) (n : Nat) (entropy : List U8) : Tests.field E n entropy = .ok true := by
  unfold Tests.field
  obtain ⟨r, e, h⟩ := forLoop_Ok1 (lo := 0) (hi := n) (Nat.zero_le n) (body := fun _ (s : Bool × Prng) => do
    let r ← Tests.fieldIter s.2
    .ok (s.1 && r.1, r.2)) (s := (true, Prng.new E entropy)) (fun _ s => s.1 = true) rfl (by
      rintro i s - - hs
      obtain ⟨r, e, h⟩ := fieldIter_ok s.2
      rw [e, Res.ok_bind]
      exact ⟨_, rfl, by rw [hs, h]; rfl⟩)
  rw [e, Res.ok_bind, h]

theorem u128_ext {a b : U128} (h : a.val = b.val) : U128.eq a b = true := ((C03_compare a b).2.2.2.2.1).2 h

theorem from_val_lt (v : U64) : (U128.from v).val < 2 ^ 64 := by
  unfold U128.from U128.val
  have := v.isLt
  simpa using this

theorem u128Iter_ok (s : Bool × Prng × Nat) (h1 : s.1 = true) (h2 : s.2.2 ≤ 128) : (Tests.u128Iter s).Ok (fun r => r.1 = true ∧ r.2.2 ≤ 128) := by
  obtain ⟨ok, p, off⟩ := s
  obtain rfl : ok = true := h1
  replace h2 : off ≤ 128 := h2
  unfold Tests.u128Iter
  simp only []
  have hva := from_val_lt (fromLeBytes 64 (p.read 8).1)
  have hvb := from_val_lt (fromLeBytes 64 ((p.read 8).2.read 8).1)
  generalize U128.from (fromLeBytes 64 (p.read 8).1) = a at *
  generalize U128.from (fromLeBytes 64 ((p.read 8).2.read 8).1) = b at *
  generalize ((p.read 8).2.read 8).2 = p2
  have e64 : (2 : Nat) ^ 64 = 18446744073709551616 := by norm_num
  have e128 : (2 : Nat) ^ 128 = 340282366920938463463374607431768211456 := by norm_num
  have e128z : (2 : Int) ^ 128 = 340282366920938463463374607431768211456 := by norm_num
  rw [e64] at hva hvb
  have hc : (U128.add a b).val = a.val + b.val := by
    rw [(C01_arith_mod_2_128 a b).1, Nat.mod_eq_of_lt (by rw [e128]; omega)]
  have hg : (U128.mul a b).val = a.val * b.val := by
    rw [(C01_arith_mod_2_128 a b).2.1, Nat.mod_eq_of_lt]
    calc a.val * b.val < 2 ^ 64 * 2 ^ 64 := Nat.mul_lt_mul'' (by rw [e64]; exact hva) (by rw [e64]; exact hvb)
      _ = 2 ^ 128 := by norm_num
  generalize U128.add a b = c at *
  generalize U128.mul a b = g at *
  have hd : (U128.sub c a).val = b.val := by
    have := (C01_arith_mod_2_128 c a).2.2.1
    rw [e128z, hc] at this
    have h3 : ((a.val + b.val : Nat) : Int) - a.val = b.val := by push_cast; ring
    rw [h3, Int.emod_eq_of_lt (by omega) (by omega)] at this
    omega
  have he : (U128.sub c b).val = a.val := by
    have := (C01_arith_mod_2_128 c b).2.2.1
    rw [e128z, hc] at this
    have h3 : ((a.val + b.val : Nat) : Int) - b.val = a.val := by push_cast; ring
    rw [h3, Int.emod_eq_of_lt (by omega) (by omega)] at this
    omega
  have hf : (U128.add (U128.sub c a) (U128.sub c b)).val = c.val := by
    rw [(C01_arith_mod_2_128 _ _).1, hd, he, hc, Nat.mod_eq_of_lt (by rw [e128]; omega), Nat.add_comm]
  have hdm : ∃ x y, U128.div g c = .ok x ∧ U128.mod g c = .ok y ∧ (U128.add (U128.mul x c) y).val = g.val := by
    by_cases h0 : c.val = 0
    · obtain ⟨x, y, e1, e2, e3, -⟩ := C02_zero_divisor g c h0
      refine ⟨x, y, e1, e2, ?_⟩
      have hg0 : g.val = 0 := by rw [hg]; have : a.val = 0 := by omega
                                 rw [this, Nat.zero_mul]
      rw [(C01_arith_mod_2_128 _ _).1, (C01_arith_mod_2_128 x c).2.1, h0, e3, hg0, Nat.mul_zero, Nat.zero_mod, Nat.zero_add, Nat.zero_mod]
    · obtain ⟨x, y, e1, e2, e3, e4⟩ := C02_divmod g c h0
      refine ⟨x, y, e1, e2, ?_⟩
      have hgl : g.val < 2 ^ 128 := by
        rw [hg]
        calc a.val * b.val < 2 ^ 64 * 2 ^ 64 := Nat.mul_lt_mul'' (by rw [e64]; exact hva) (by rw [e64]; exact hvb)
          _ = 2 ^ 128 := by norm_num
      rw [(C01_arith_mod_2_128 _ _).1, (C01_arith_mod_2_128 x c).2.1, Nat.mod_add_mod, e3, e4, Nat.mul_comm, Nat.div_add_mod, Nat.mod_eq_of_lt hgl]
  obtain ⟨x, y, e1, e2, e3⟩ := hdm
  obtain ⟨m, e4, e5⟩ := C03_rot_inverse a off h2
  rw [e1, Res.ok_bind, e2, Res.ok_bind, e4, Res.ok_bind, e5, Res.ok_bind]
  refine ⟨_, rfl, ?_, ?_⟩
  · show (true && _ && _ && _ && _ && _) = true
    rw [u128_ext hd, u128_ext he, u128_ext hf, u128_ext e3, u128_ext (rfl : a.val = a.val)]
    rfl
  · show (if off + 1 > 16 * 8 then 0 else off + 1) ≤ 128
    split <;> omega

/-- C71: the 128-bit arithmetic test passes on every run of the two-limb build (also when it happens to divide by zero). -/
theorem C71_u128 (E : Ext) (n : Nat) (entropy : List U8) : Tests.u128 E n entropy = .ok true := by
  unfold Tests.u128
  obtain ⟨r, e, h⟩ := forLoop_Ok1 (lo := 0) (hi := n) (Nat.zero_le n) (body := fun _ s => Tests.u128Iter s) (s := (true, Prng.new E entropy, 0))
    (fun _ s => s.1 = true ∧ s.2.2 ≤ 128) ⟨rfl, by show 0 ≤ 128; omega⟩ (by
      rintro i s - - ⟨h1, h2⟩
      exact u128Iter_ok s h1 h2)
  rw [e, Res.ok_bind, h.1]

/-- C71, the exception: the same test is undefined in the `__int128` build, on every run: its first iteration rotates by 0. -/
theorem C71_i128_undefined (E : Ext) (n : Nat) (hn : 0 < n) (entropy : List U8) : Tests.i128 E n entropy = .ub := by
  have hiter : ∀ p, Tests.i128Iter (true, p, 0) = .ub := by
    intro p
    unfold Tests.i128Iter
    simp only []
    generalize hx : fromLeBytes 64 (p.read 8).1 = x
    generalize hy : fromLeBytes 64 ((p.read 8).2.read 8).1 = y
    have hC := C04_backends_agree (U128.from x) (U128.from y) x x y 0
    have hC2 := C04_backends_agree (U128.from x) (U128.from y) y x y 0
    rw [hC.2.2.2.2.2.2.2.2.2.2.2.1, hC2.2.2.2.2.2.2.2.2.2.2.2.1, hC.1, hC.2.2.2.1]
    generalize U128.from x = a
    generalize U128.from y = b
    have hD := C04_div_to_agree (U128.mul a b) (U128.add a b) 0 (by omega)
    obtain ⟨r1, r2, e1, e2⟩ : ∃ r1 r2, U128.div (U128.mul a b) (U128.add a b) = .ok r1 ∧ U128.mod (U128.mul a b) (U128.add a b) = .ok r2 := by
      by_cases h0 : (U128.add a b).val = 0
      · obtain ⟨x, y, e1, e2, -⟩ := C02_zero_divisor (U128.mul a b) _ h0; exact ⟨x, y, e1, e2⟩
      · obtain ⟨x, y, e1, e2, -⟩ := C02_divmod (U128.mul a b) _ h0; exact ⟨x, y, e1, e2⟩
    rw [hD.1, hD.2.1, e1, e2, Res.ok_map, Res.ok_bind, Res.ok_map, Res.ok_bind, (C04_rot_zero_undefined a).1, Res.ub_bind]
  unfold Tests.i128
  rw [forLoop_cons hn (by omega), hiter, Res.ub_bind, Res.ub_bind]

theorem I128_rot (x : U128) (n : Nat) (h0 : 0 < n) (hn : n < 128) : I128.rotl x.bv n = U128.bv <$> U128.rotl x n ∧ I128.rotr x.bv n = U128.bv <$> U128.rotr x n := by
  constructor
  · unfold I128.rotl U128.rotl U128.shlChk U128.shrChk
    rw [if_pos (by omega), if_pos (by omega), if_pos (by omega), if_pos (by omega), bv_shl x n hn, bv_shr x (128 - n) (by omega), Res.ok_bind, Res.ok_bind, bv_or, Res.ok_bind,
      Res.ok_bind, Res.ok_map]
  · unfold I128.rotr U128.rotr U128.shlChk U128.shrChk
    rw [if_pos (by omega), if_pos (by omega), if_pos (by omega), if_pos (by omega), bv_shr x n hn, bv_shl x (128 - n) (by omega), Res.ok_bind, Res.ok_bind, bv_or, Res.ok_bind,
      Res.ok_bind, Res.ok_map]

/-- C71: nothing else is wrong with the `__int128` build: an iteration with a rotation by 1 to 127 bits does what it does in the two-limb build, so its checks hold. -/
theorem C71_i128_otherwise (ok : Bool) (p : Prng) (off : Nat) (h0 : 0 < off) (hn : off < 128) :
    Tests.i128Iter (ok, p, off) = Tests.u128Iter (ok, p, off) ∧ ∃ p', Tests.i128Iter (true, p, off) = .ok (true, p', off + 1) := by
  have key : ∀ ok, Tests.i128Iter (ok, p, off) = Tests.u128Iter (ok, p, off) := by
    intro ok
    unfold Tests.i128Iter Tests.u128Iter
    simp only []
    generalize hx : fromLeBytes 64 (p.read 8).1 = x
    generalize hy : fromLeBytes 64 ((p.read 8).2.read 8).1 = y
    rw [bv_from, bv_from]
    generalize U128.from x = a
    generalize U128.from y = b
    rw [bv_add, bv_mul, bv_sub, bv_sub, bv_add]
    have hD := C04_div_to_agree (U128.mul a b) (U128.add a b) 0 (by omega)
    obtain ⟨r1, r2, e1, e2⟩ : ∃ r1 r2, U128.div (U128.mul a b) (U128.add a b) = .ok r1 ∧ U128.mod (U128.mul a b) (U128.add a b) = .ok r2 := by
      by_cases h0 : (U128.add a b).val = 0
      · obtain ⟨x, y, e1, e2, -⟩ := C02_zero_divisor (U128.mul a b) _ h0; exact ⟨x, y, e1, e2⟩
      · obtain ⟨x, y, e1, e2, -⟩ := C02_divmod (U128.mul a b) _ h0; exact ⟨x, y, e1, e2⟩
    obtain ⟨m, e3, -⟩ := C03_rot_inverse a off (by omega)
    obtain ⟨m', e4, -⟩ := C03_rotr m off (by omega)
    rw [hD.1, hD.2.1, e1, e2, Res.ok_map, Res.ok_bind, Res.ok_map, Res.ok_bind, (I128_rot a off h0 hn).1, e3, Res.ok_map, Res.ok_bind, (I128_rot m off h0 hn).2, e4, Res.ok_map, Res.ok_bind,
      bv_mul, bv_add, bv_eq, bv_eq, bv_eq, bv_eq, bv_eq, Res.ok_bind, Res.ok_bind, Res.ok_bind, e4, Res.ok_bind]
  refine ⟨key ok, ?_⟩
  obtain ⟨⟨r, p', o⟩, e, hr, -⟩ := u128Iter_ok (true, p, off) rfl (by show off ≤ 128; omega)
  obtain rfl : r = true := hr
  have ho : o = off + 1 := by
    unfold Tests.u128Iter at e
    simp only [] at e
    obtain ⟨h, -, e⟩ := Res.bind_eq_ok.1 e
    obtain ⟨j, -, e⟩ := Res.bind_eq_ok.1 e
    obtain ⟨m, -, e⟩ := Res.bind_eq_ok.1 e
    obtain ⟨n, -, e⟩ := Res.bind_eq_ok.1 e
    have := congrArg (fun s => s.2.2) (Res.ok.inj e)
    dsimp only at this
    rw [if_neg (by omega)] at this
    exact this.symm
  exact ⟨p', by rw [key, e, ho]⟩

/-- C71: the gadget test discards what `zero_encoding` returns: with *any* function in its place, right or wrong, it is defined and every assertion holds
(whenever the mask sampler of `refresh` finishes). Only `refresh` and `decode` are tested. -/
theorem C71_gadgets_blind (rows d : Nat) (zeroEncoding : Mrng d → Res (PVec rows d × Mrng d)) (hz : ∀ m, zeroEncoding m ≠ .ub)
    (E : Ext) (fuel : Nat) (hd : ∃ m, d = 2 ^ m) :
    Tests.gadgetsWith zeroEncoding E fuel ≠ .ub ∧ ∀ r, Tests.gadgetsWith zeroEncoding E fuel = .ok r → r = true := by
  have h : (Tests.gadgetsWith zeroEncoding E fuel).Safe (fun r => r = true) := by
    unfold Tests.gadgetsWith
    cases e : zeroEncoding (Mrng.new E d) with
    | ub => exact absurd e (hz _)
    | nofuel => trivial
    | ok r =>
      obtain ⟨-, m⟩ := r
      rw [Res.ok_bind]
      simp only []
      have hv := (PVec.zero_spec rows d).1
      have hdec : PVec.decode (PVec.zero rows d) = PVec.zero rows 1 := by
        refine PVec.ext_one (PVec.decode_spec hv).1 (PVec.zero_spec rows 1).1 ?_
        rw [(PVec.decode_spec hv).2, (PVec.zero_spec rows 1).2]; exact (PVec.zero_spec rows d).2
      obtain ⟨h3, h4⟩ := C21_refresh_vec E fuel rows d hd (PVec.zero rows d) hv m
      cases e2 : PVec.refresh E fuel (PVec.zero rows d) m with
      | ub => exact absurd e2 h3
      | nofuel => trivial
      | ok r =>
        obtain ⟨v', m'⟩ := r
        obtain ⟨-, -, hdec'⟩ := h4 v' m' e2
        rw [Res.ok_bind]
        show (_ && _) = true
        rw [hdec', hdec, (C49_eq_vec _ _).2 rfl]
        rfl
  refine ⟨h.ne_ub, fun r e => ?_⟩
  rw [e] at h
  exact h

/-- Non-vacuity: a `zero_encoding` that returns a vector of ones (one share, one row) passes the test. -/
example (E : Ext) (fuel : Nat) :
    Tests.gadgetsWith (rows := 1) (d := 1) (fun m => .ok (#v[#v[Vector.replicate 512 Zq.one]], m)) E fuel = .ok true := by
  obtain ⟨h1, h2⟩ := C71_gadgets_blind 1 1 (fun m => .ok (#v[#v[Vector.replicate 512 Zq.one]], m)) (fun _ => by simp) E fuel ⟨0, rfl⟩
  cases e : Tests.gadgetsWith (rows := 1) (d := 1) (fun m => .ok (#v[#v[Vector.replicate 512 Zq.one]], m)) E fuel with
  | ub => exact absurd e h1
  | nofuel => cases e
  | ok r => rw [h2 r e]

/-- C71: the gadget test is never undefined and passes whenever the mask sampler finishes, for any power of two of shares and any number of rows. -/
theorem C71_gadgets (E : Ext) (fuel rows d : Nat) (hd : ∃ m, d = 2 ^ m) :
    Tests.gadgets E fuel rows d ≠ .ub ∧ ∀ r, Tests.gadgets E fuel rows d = .ok r → r = true :=
  C71_gadgets_blind rows d _ (fun m => (C20_zero_encoding_vec E fuel rows d hd m).1) E fuel hd

end Raccoon
