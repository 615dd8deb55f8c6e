import Verif.Proofs.SigDec2
import Verif.Proofs.SigRel
import Verif.Spec.SigWindow
/-!
# Exactly what `decodeSig` does on every byte string
-/
namespace Raccoon
attribute [-instance] Monoid.toNPow

/-! ### Bit strings that start with a run of ones -/

theorem ones_zero_ne {m k : Nat} {A B : List Bool} (h : List.replicate m true ++ false :: A = List.replicate k true ++ B) : k ≤ m := by
  by_contra hlt
  have h1 := congrArg (fun l : List Bool => l[m]?) h
  rw [List.getElem?_append_right (by simp), List.length_replicate, Nat.sub_self, List.getElem?_append_left (by simp; omega), List.getElem?_replicate, if_pos (by omega)] at h1
  simp at h1

theorem windowFrom_shift (e : Int → List Bool) (a : Nat) : ∀ (xs : List Int) (p : Nat), WindowFrom e (8 * a + p) xs ↔ WindowFrom e p xs := by
  intro xs
  induction xs with
  | nil => intro p; exact Iff.rfl
  | cons x xs ih =>
    intro p
    show (8 * a + p) % 8 + _ ≤ 64 ∧ WindowFrom e (8 * a + p + _) xs ↔ p % 8 + _ ≤ 64 ∧ WindowFrom e (p + _) xs
    rw [show (8 * a + p) % 8 = p % 8 by omega, Nat.add_assoc, ih]

/-! ### One hint -/

/-- Everything one iteration of the hint loop can do, with the exact condition on the bits for each outcome. -/
theorem decH_exact {sig : List U8} {n : Nat} {s : DecSt} {R : List Bool} (h : BR sig R s.off s.buffer s.bitOff.toNat) (hb : s.bitOff.toNat < 64)
    (hoff : s.off < sig.length) (hR8 : R.length ≤ 8 * sig.length) :
    (decHLoop sig (n + 1) s = .ok none ∧ ∃ w R', R = List.replicate w true ++ R' ∧ (w = R.length ∨ w + (8 * sig.length - R.length) % 8 = 64)) ∨
    (decHLoop sig (n + 1) s = .ub ∧ ∃ m R', R = List.replicate m true ++ false :: R' ∧ HintTrap (8 * sig.length - R.length) m R') ∨
    (∃ x R' s', R = hintBits x ++ R' ∧ decHLoop sig (n + 1) s = decHLoop sig n s' ∧ s'.out = s.out ++ [x] ∧
      BR sig R' s'.off s'.buffer s'.bitOff.toNat ∧ s'.bitOff.toNat < 64 ∧ (hintBits x).length < 64 ∧
      (8 * sig.length - R.length) % 8 + (hintBits x).length ≤ 64 ∧ (s'.off = sig.length ↔ (8 * sig.length - R.length) % 8 + R.length ≤ 64)) ∨
    (∃ s' m R', decHLoop sig (n + 1) s = decHLoop sig n s' ∧ ¬ s'.bitOff.toNat < 64 ∧ 0 < m ∧
      R = List.replicate m true ++ false :: R' ∧
      ((R' = [] ∧ s'.off = sig.length ∧ m < 62 ∧ (8 * sig.length - R.length) % 8 + R.length ≤ 64) ∨ (R' ≠ [] ∧ s'.off < sig.length ∧ HintTrap (8 * sig.length - R.length) m R'))) := by
  rw [decHLoop_succ, if_pos hoff]
  obtain ⟨m, s1, e1, ho, hout, hbr, h64, hw, h56⟩ := decRefill_ok h hb
  rw [e1, Res.ok_bind]
  dsimp only
  obtain ⟨bs, k1, k2, k3⟩ := hbr.bits
  have hlenR := hbr.length
  have hole := hbr.off_le
  obtain ⟨p, hp⟩ : ∃ p, (8 * sig.length - R.length) % 8 = p := ⟨_, rfl⟩
  have hW : (s.off + m = sig.length ∧ s1.bitOff.toNat = R.length ∧ p + R.length ≤ 64) ∨ (s.off + m < sig.length ∧ s1.bitOff.toNat = 64 - p ∧ 64 < p + R.length) := by
    have := hw hR8
    omega
  have hp8 : p < 8 := by omega
  unfold HintTrap
  rw [decodeHintCoeff_eq, hp]
  rcases decTail_cases (F := fun n => (n : Int)) (v0 := 0) k2 k1 h64 (fun n => Int.natCast_nonneg n) with ⟨e, hbs⟩ | ⟨n', x, rest, hbs, hx, e⟩ | ⟨n', hn', hbs, hcase⟩
  · left
    refine ⟨by rw [e, Res.ok_bind]; rfl, s1.bitOff.toNat, bytesBits (sig.drop (s.off + m)), ?_, by omega⟩
    rw [← k3, ← k1, ← hbs]
  · have hx' : n' = x.natAbs := by omega
    subst hx'
    rw [e, Res.ok_bind]
    have hl := tailBits_length x.natAbs x
    have hpos : (tailBits x.natAbs x).length > 0 := by omega
    have hble : (tailBits x.natAbs x).length ≤ s1.bitOff.toNat := by rw [← k1, hbs, List.length_append]; omega
    have hR : R = hintBits x ++ (rest ++ bytesBits (sig.drop (s.off + m))) := by
      rw [← k3, hbs, hintBits_eq, List.append_assoc]
    show ((if (tailBits x.natAbs x).length > 0 then _ else _ : Res _) = _ ∧ _) ∨ ((if (tailBits x.natAbs x).length > 0 then _ else _ : Res _) = _ ∧ _) ∨
      (∃ x R' s', _ ∧ (if (tailBits _ _).length > 0 then _ else _ : Res _) = _ ∧ _) ∨ (∃ s' m R', (if (tailBits _ _).length > 0 then _ else _ : Res _) = _ ∧ _)
    rw [if_pos hpos]
    by_cases hc : (tailBits x.natAbs x).length < 64
    · right; right; left
      rw [shr64_ok hc, Res.ok_bind]
      refine ⟨x, rest ++ bytesBits (sig.drop (s.off + m)), _, hR, rfl, by show s1.out ++ [x] = _; rw [hout], ?_, ?_, hc, ?_, ?_⟩
      · show BR sig _ (s1.off + m) (s1.buffer >>> (tailBits x.natAbs x).length) (s1.bitOff - BitVec.ofNat 64 _).toNat
        rw [sub_toNat hble, ho]
        have := (hbr.consume hble).1
        rw [hR, hintBits_eq, List.drop_left] at this
        exact this
      · show (s1.bitOff - BitVec.ofNat 64 _).toNat < 64
        rw [sub_toNat hble]; omega
      · rw [hintBits_eq]; omega
      · show s1.off + m = _ ↔ _
        rw [ho]; omega
    · right; left
      rw [shr64_ub hc]
      have hx0 : x ≠ 0 := by
        rintro rfl
        have h1 : (tailBits (Int.natAbs 0) 0).length = 1 := rfl
        omega
      rw [if_neg hx0] at hl
      refine ⟨rfl, x.natAbs, decide (x < 0) :: (rest ++ bytesBits (sig.drop (s.off + m))), ?_, Or.inr ⟨by omega, by omega, by simp⟩⟩
      rw [hR]; unfold hintBits; rw [if_neg hx0]; simp only [List.append_assoc, List.cons_append, List.nil_append]
  · have hlen : s1.bitOff.toNat = n' + 1 := by rw [← k1, hbs]; simp
    have hR : R = List.replicate n' true ++ false :: bytesBits (sig.drop (s.off + m)) := by
      rw [← k3, hbs, List.append_assoc]; rfl
    have hR0 : bytesBits (sig.drop (s.off + m)) = [] ↔ s.off + m = sig.length := by
      rw [← List.length_eq_zero_iff, bytesBits_length, List.length_drop]; omega
    rcases hcase with ⟨h63, e⟩ | ⟨h63, e⟩
    · right; left; rw [e]
      exact ⟨rfl, n', _, hR, Or.inl ⟨by omega, Or.inl (by omega)⟩⟩
    · rw [e, Res.ok_bind]
      have hc : s1.bitOff.toNat + 1 < 64 ∨ ¬ s1.bitOff.toNat + 1 < 64 := by omega
      show ((if s1.bitOff.toNat + 1 > 0 then _ else _ : Res _) = _ ∧ _) ∨ ((if s1.bitOff.toNat + 1 > 0 then _ else _ : Res _) = _ ∧ _) ∨
        (∃ x R' s', _ ∧ (if s1.bitOff.toNat + 1 > 0 then _ else _ : Res _) = _ ∧ _) ∨ (∃ s' m R', (if s1.bitOff.toNat + 1 > 0 then _ else _ : Res _) = _ ∧ _)
      rw [if_pos (by omega)]
      rcases hc with hc | hc
      · right; right; right
        rw [shr64_ok hc, Res.ok_bind]
        refine ⟨_, n', bytesBits (sig.drop (s.off + m)), rfl, sub_wrap h64, by omega, hR, ?_⟩
        show (_ ∧ s1.off + m = _ ∧ _) ∨ (_ ∧ s1.off + m < _ ∧ _)
        rw [ho]
        rcases hW with ⟨w1, w2, w3⟩ | ⟨w1, w2, w3⟩
        · exact Or.inl ⟨hR0.2 w1, w1, by omega, w3⟩
        · have hne : ¬ bytesBits (sig.drop (s.off + m)) = [] := fun hh => by have := hR0.1 hh; omega
          exact Or.inr ⟨hne, w1, Or.inl ⟨by omega, Or.inr hne⟩⟩
      · right; left
        rw [shr64_ub hc]
        refine ⟨rfl, n', _, hR, Or.inl ⟨?_, Or.inl (by omega)⟩⟩
        omega

/-! ### One response coefficient -/

theorem decZ_exact {sig : List U8} {fuel n : Nat} {s : DecSt} {R : List Bool} (h : BR sig R s.off s.buffer s.bitOff.toNat) (hb : s.bitOff.toNat < 64)
    (hoff : s.off < sig.length) (hR8 : R.length ≤ 8 * sig.length) :
    (decZLoop sig (fuel + 1) (n + 1) s = .ok none ∧ ∃ A w R', R = A ++ (List.replicate w true ++ R') ∧ A.length = 40 ∧
      (40 + w = R.length ∨ (8 * sig.length - R.length) % 8 + 40 + w = 64)) ∨
    (∃ s', decZLoop sig (fuel + 1) (n + 1) s = decZLoop sig fuel (n + 1) s' ∧ s'.off = sig.length ∧ R.length ≤ 40) ∨
    (∃ x R' s', R = respBits x ++ R' ∧ decZLoop sig (fuel + 1) (n + 1) s = decZLoop sig fuel n s' ∧ s'.out = s.out ++ [x] ∧
      BR sig R' s'.off s'.buffer s'.bitOff.toNat ∧ s'.bitOff.toNat ≤ 23 ∧ (8 * sig.length - R.length) % 8 + (respBits x).length ≤ 64) ∨
    (∃ s' a m R', decZLoop sig (fuel + 1) (n + 1) s = decZLoop sig fuel n s' ∧ ¬ s'.bitOff.toNat < 64 ∧
      a < 2 ^ 40 ∧ 0 < a + m ∧ R = natBits 40 a ++ (List.replicate m true ++ false :: R') ∧
      ((R' = [] ∧ s'.off = sig.length ∧ (8 * sig.length - R.length) % 8 + 41 + m ≤ 64) ∨
       (R' ≠ [] ∧ s'.off < sig.length ∧ (8 * sig.length - R.length) % 8 + 41 + m = 64))) := by
  have h40 : (2 : Nat) ^ 40 = 1099511627776 := by norm_num
  rw [decZLoop_succ, if_pos ⟨hoff, Nat.succ_pos n⟩]
  obtain ⟨m, s1, e1, ho, hout, hbr, h64, hw, h56⟩ := decRefill_ok h hb
  rw [e1, Res.ok_bind]
  dsimp only
  have hlenR := hbr.length
  have hole := hbr.off_le
  obtain ⟨p, hp⟩ : ∃ p, (8 * sig.length - R.length) % 8 = p := ⟨_, rfl⟩
  have hW : (s.off + m = sig.length ∧ s1.bitOff.toNat = R.length ∧ p + R.length ≤ 64) ∨ (s.off + m < sig.length ∧ s1.bitOff.toNat = 64 - p ∧ 64 < p + R.length) := by
    have := hw hR8
    omega
  have hp8 : p < 8 := by omega
  rw [hp]
  by_cases hgt : s1.bitOff > 40
  · rw [gt40] at hgt
    rw [if_pos (gt40.2 hgt), shr64_ok (by omega), Res.ok_bind, mask_and (by omega)]
    obtain ⟨c1, c2⟩ := hbr.consume (n := 40) (by omega)
    obtain ⟨a, ha⟩ : ∃ a, s1.buffer.toNat % 2 ^ 40 = a := ⟨_, rfl⟩
    have halt : a < 2 ^ 40 := by rw [← ha]; exact Nat.mod_lt _ (by omega)
    rw [ha] at c2 ⊢
    have htk : R.take 40 = natBits 40 a := by
      rw [c2, natBits_win _ _ (by rw [List.length_take]; omega), List.take_take, Nat.min_self]
    have hRsplit : R = natBits 40 a ++ R.drop 40 := by rw [← htk, List.take_append_drop]
    obtain ⟨bs, k1, k2, k3⟩ := c1.bits
    have hs40 := sub40 (a := s1.bitOff) (by omega)
    rw [decodeRespCoeff_eq, hs40]
    have hF : ∀ n' : Nat, ((n' <<< 40 ||| a : Nat) : Int) = ((n' * 2 ^ 40 + a : Nat) : Int) := fun n' => by rw [shl_or_eq halt]
    rcases decTail_cases (F := fun n => ((n <<< 40 ||| a : Nat) : Int)) (v0 := (a : Int)) k2 k1 (by omega) (fun n => Int.natCast_nonneg _) with ⟨e, hbs⟩ | ⟨n', x, rest, hbs, hx, e⟩ | ⟨n', hn', hbs, ⟨h63, e⟩ | ⟨h63, e⟩⟩
    · left
      refine ⟨by rw [e, Res.ok_bind]; rfl, natBits 40 a, s1.bitOff.toNat - 40, bytesBits (sig.drop (s.off + m)), ?_, natBits_length _ _, by omega⟩
      rw [← k1, ← hbs, k3]; exact hRsplit
    · rw [hF] at hx
      have hx' : x.natAbs = n' * 2 ^ 40 + a := by omega
      rw [e, Res.ok_bind]
      have hl := tailBits_length n' x
      have hpos : (tailBits n' x).length > 0 := by omega
      have hble : (tailBits n' x).length ≤ s1.bitOff.toNat - 40 := by rw [← k1, hbs, List.length_append]; omega
      have hR : R = respBits x ++ (rest ++ bytesBits (sig.drop (s.off + m))) := by
        rw [← respBits_of halt hx', hRsplit, ← k3, hbs]; simp only [List.append_assoc]
      show ((if (tailBits n' x).length > 0 then _ else _ : Res _) = _ ∧ _) ∨ (∃ s', (if (tailBits n' x).length > 0 then _ else _ : Res _) = _ ∧ _) ∨
        (∃ x R' s', _ ∧ (if (tailBits _ _).length > 0 then _ else _ : Res _) = _ ∧ _) ∨ (∃ s' a m R', (if (tailBits _ _).length > 0 then _ else _ : Res _) = _ ∧ _)
      rw [if_pos hpos, shr64_ok (by omega), Res.ok_bind]
      right; right; left
      refine ⟨x, rest ++ bytesBits (sig.drop (s.off + m)), _, hR, rfl, by show s1.out ++ [x] = _; rw [hout], ?_, ?_, ?_⟩
      · show BR sig _ (s1.off + m) (s1.buffer >>> 40 >>> (tailBits n' x).length) (s1.bitOff - 40 - BitVec.ofNat 64 _).toNat
        rw [sub_toNat (by omega), hs40, ho]
        have := (c1.consume hble).1
        rw [← k3, hbs, List.append_assoc, List.drop_left] at this
        exact this
      · show (s1.bitOff - 40 - BitVec.ofNat 64 _).toNat ≤ 23
        rw [sub_toNat (by omega), hs40]; omega
      · rw [← respBits_of halt hx', List.length_append, natBits_length]; omega
    · have := congrArg List.length hbs
      rw [k1] at this
      simp at this
      omega
    · rw [e, Res.ok_bind]
      have hlen : s1.bitOff.toNat - 40 = n' + 1 := by rw [← k1, hbs]; simp
      have hR : R = natBits 40 a ++ (List.replicate n' true ++ false :: bytesBits (sig.drop (s.off + m))) := by
        rw [hRsplit, ← k3, hbs]; simp only [List.append_assoc]; rfl
      have hR0 : bytesBits (sig.drop (s.off + m)) = [] ↔ s.off + m = sig.length := by
        rw [← List.length_eq_zero_iff, bytesBits_length, List.length_drop]; omega
      rw [hF] at hn'
      show ((if s1.bitOff.toNat - 40 + 1 > 0 then _ else _ : Res _) = _ ∧ _) ∨ (∃ s', (if s1.bitOff.toNat - 40 + 1 > 0 then _ else _ : Res _) = _ ∧ _) ∨
        (∃ x R' s', _ ∧ (if s1.bitOff.toNat - 40 + 1 > 0 then _ else _ : Res _) = _ ∧ _) ∨ (∃ s' a m R', (if s1.bitOff.toNat - 40 + 1 > 0 then _ else _ : Res _) = _ ∧ _)
      rw [if_pos (by omega), shr64_ok (by omega), Res.ok_bind]
      right; right; right
      refine ⟨_, a, n', bytesBits (sig.drop (s.off + m)), rfl, ?_, halt, by omega, hR, ?_⟩
      · show ¬ (s1.bitOff - 40 - BitVec.ofNat 64 _).toNat < 64
        rw [← hs40]
        exact sub_wrap (by omega)
      · show (_ ∧ s1.off + m = _ ∧ _) ∨ (_ ∧ s1.off + m < _ ∧ _)
        rw [ho]
        rcases hW with ⟨w1, w2, w3⟩ | ⟨w1, w2, w3⟩
        · exact Or.inl ⟨hR0.2 w1, w1, by omega⟩
        · exact Or.inr ⟨fun hh => by have := hR0.1 hh; omega, w1, by omega⟩
  · have hgt' : ¬ 40 < s1.bitOff.toNat := hgt
    rw [if_neg hgt]
    right; left
    refine ⟨_, rfl, ?_, by omega⟩
    show s1.off + m = sig.length
    rw [ho]; omega

/-! ### Reading readable coefficients -/

/-- A readable hint is read. -/
theorem decH_read {sig : List U8} {n : Nat} {s : DecSt} {R R' : List Bool} {x : Int} (h : BR sig R s.off s.buffer s.bitOff.toNat)
    (hb : s.bitOff.toNat < 64) (hoff : s.off < sig.length) (hR8 : R.length ≤ 8 * sig.length) (hR : R = hintBits x ++ R')
    (hfit : (8 * sig.length - R.length) % 8 + (hintBits x).length ≤ 64) (h64 : (hintBits x).length < 64) :
    ∃ s', decHLoop sig (n + 1) s = decHLoop sig n s' ∧ s'.out = s.out ++ [x] ∧
      BR sig R' s'.off s'.buffer s'.bitOff.toNat ∧ s'.bitOff.toNat < 64 ∧ (s'.off = sig.length ↔ (8 * sig.length - R.length) % 8 + R.length ≤ 64) := by
  have hlx := hintBits_length x
  have hsp := hR.trans (tailBits_append x.natAbs x R')
  have hlR : R.length = (hintBits x).length + R'.length := by rw [hR, List.length_append]
  have hxt : x = 0 ∨ (if x = 0 then [] else [decide (x < 0)] : List Bool) = [decide (x < 0)] := by
    by_cases hx : x = 0
    · exact Or.inl hx
    · right; rw [if_neg hx]
  rcases decH_exact (n := n) h hb hoff hR8 with ⟨-, w, R1, e1, e2⟩ | ⟨-, m, R1, e1, e2⟩ | ⟨x', R1, s', e1, e2, e3, e4, e5, e6, e7, e8⟩ | ⟨s', m, R1, -, -, e0, e1, e2⟩
  · have := ones_zero_ne (hsp.symm.trans e1)
    split at hlx <;> omega
  · obtain ⟨rfl, rfl⟩ := ones_inj (hsp.symm.trans e1)
    rcases hxt with rfl | hxt
    · unfold HintTrap at e2
      simp at e2
      omega
    · rw [hxt] at e2
      unfold HintTrap at e2
      have : x ≠ 0 := by rintro rfl; simp at hxt
      rw [if_neg this] at hlx
      omega
  · rw [e1] at hR
    obtain ⟨rfl, rfl⟩ := hintBits_prefix hR
    exact ⟨s', e2, e3, e4, e5, e8⟩
  · obtain ⟨rfl, rfl⟩ := ones_inj (hsp.symm.trans e1)
    have hx : x ≠ 0 := by rintro rfl; simp at e0
    rw [if_neg hx] at hlx e2
    rcases e2 with ⟨e2, -⟩ | ⟨-, -, e2⟩
    · simp at e2
    · unfold HintTrap at e2; omega

/-- A readable response coefficient is read. -/
theorem decZ_read {sig : List U8} {fuel n : Nat} {s : DecSt} {R R' : List Bool} {x : Int} (h : BR sig R s.off s.buffer s.bitOff.toNat)
    (hb : s.bitOff.toNat < 64) (hoff : s.off < sig.length) (hR8 : R.length ≤ 8 * sig.length) (hR : R = respBits x ++ R')
    (hfit : (8 * sig.length - R.length) % 8 + (respBits x).length ≤ 64) :
    ∃ s', decZLoop sig (fuel + 1) (n + 1) s = decZLoop sig fuel n s' ∧ s'.out = s.out ++ [x] ∧
      BR sig R' s'.off s'.buffer s'.bitOff.toNat ∧ s'.bitOff.toNat ≤ 23 := by
  have h40 : (2 : Nat) ^ 40 = 1099511627776 := by norm_num
  have hlx := respBits_length x
  have hsp : R = natBits 40 (x.natAbs % 2 ^ 40) ++ (List.replicate (x.natAbs / 2 ^ 40) true ++ false :: ((if x = 0 then [] else [decide (x < 0)]) ++ R')) := by
    rw [hR, respBits_eq, List.append_assoc, tailBits_append]
  have hlR : R.length = (respBits x).length + R'.length := by rw [hR, List.length_append]
  rcases decZ_exact (fuel := fuel) (n := n) h hb hoff hR8 with ⟨-, A, w, R1, e1, e2, e3⟩ | ⟨s', -, -, e1⟩ | ⟨x', R1, s', e1, e2, e3, e4, e5, e6⟩ | ⟨s', a, m, R1, -, -, e1, e2, e3, e4⟩
  · obtain ⟨-, e5⟩ := List.append_inj (hsp.symm.trans e1) (by rw [natBits_length, e2])
    have := ones_zero_ne e5
    split at hlx <;> omega
  · split at hlx <;> omega
  · rw [e1] at hR
    obtain ⟨rfl, rfl⟩ := respBits_prefix hR
    exact ⟨s', e2, e3, e4, e5⟩
  · obtain ⟨e5, e6⟩ := List.append_inj (hsp.symm.trans e3) (by rw [natBits_length, natBits_length])
    have e7 := congrArg bitsVal e5
    rw [bitsVal_natBits, bitsVal_natBits, Nat.mod_mod, Nat.mod_eq_of_lt e1] at e7
    obtain ⟨e8, rfl⟩ := ones_inj e6
    have hx : x ≠ 0 := by
      rintro rfl
      simp at e7 e8
      omega
    rw [if_neg hx] at hlx e4
    rcases e4 with ⟨e4, -⟩ | ⟨-, -, e4⟩
    · simp at e4
    · omega

theorem hintBits_pos (x : Int) : 0 < (hintBits x).length := by rw [hintBits_length]; omega

/-- Readable hints are read, provided the data go on beyond the window of the last one. -/
theorem decHLoop_read {sig : List U8} : ∀ (xs : List Int) (n : Nat) {s : DecSt} {R R' : List Bool}, BR sig R s.off s.buffer s.bitOff.toNat →
    s.bitOff.toNat < 64 → s.off < sig.length → R.length ≤ 8 * sig.length → R = xs.flatMap hintBits ++ R' →
    WindowFrom hintBits (8 * sig.length - R.length) xs → (∀ x ∈ xs, (hintBits x).length < 64) →
    (∀ x, xs.getLast? = some x → 64 < (8 * sig.length - ((hintBits x).length + R'.length)) % 8 + ((hintBits x).length + R'.length)) →
    (∃ s', decHLoop sig (xs.length + n) s = decHLoop sig n s' ∧ s'.out = s.out ++ xs ∧ BR sig R' s'.off s'.buffer s'.bitOff.toNat ∧
      s'.bitOff.toNat < 64 ∧ s'.off < sig.length) ∧ (xs ≠ [] → 64 < (8 * sig.length - R.length) % 8 + R.length) := by
  intro xs
  induction xs with
  | nil =>
    intro n s R R' h hb hoff _ hR _ _ _
    obtain rfl : R = R' := hR
    exact ⟨⟨s, by rw [List.length_nil, Nat.zero_add], by simp, h, hb, hoff⟩, fun hh => absurd rfl hh⟩
  | cons x xs ih =>
    intro n s R R' h hb hoff h8 hR hw hlt hE
    rw [List.flatMap_cons, List.append_assoc] at hR
    obtain ⟨w1, w2⟩ := hw
    have hpos := hintBits_pos x
    have hlR : R.length = (hintBits x).length + (xs.flatMap hintBits ++ R').length := by rw [hR, List.length_append]
    obtain ⟨s1, e1, ho1, hb1, hlt1, hend⟩ := decH_read (n := xs.length + n) h hb hoff h8 hR w1 (hlt x (List.mem_cons_self ..))
    have hq : 8 * sig.length - (xs.flatMap hintBits ++ R').length = 8 * sig.length - R.length + (hintBits x).length := by omega
    have hbl := hb1.off_le
    have hEx : 64 < (8 * sig.length - R.length) % 8 + R.length := by
      cases xs with
      | nil =>
        have := hE x rfl
        rw [hlR]
        exact this
      | cons y ys =>
        -- the condition for the rest of the list does not need the state
        have key : ∀ (ys : List Int) (y : Int), ((y :: ys).flatMap hintBits ++ R').length ≤ 8 * sig.length →
            (∀ z, (y :: ys).getLast? = some z → 64 < (8 * sig.length - ((hintBits z).length + R'.length)) % 8 + ((hintBits z).length + R'.length)) →
            64 < (8 * sig.length - ((y :: ys).flatMap hintBits ++ R').length) % 8 + ((y :: ys).flatMap hintBits ++ R').length := by
          intro ys
          induction ys with
          | nil =>
            intro y hle hz
            have := hz y rfl
            rw [List.flatMap_cons, List.flatMap_nil, List.append_nil, List.length_append]
            exact this
          | cons y' ys ih =>
            intro y hle hz
            have hl : ((y :: y' :: ys).flatMap hintBits ++ R').length = (hintBits y).length + ((y' :: ys).flatMap hintBits ++ R').length := by
              rw [List.flatMap_cons, List.append_assoc, List.length_append]
            have := ih y' (by omega) (fun z hz' => hz z (by rw [List.getLast?_cons_cons]; exact hz'))
            omega
        have := key ys y (by omega) (fun z hz => hE z (by rw [List.getLast?_cons_cons]; exact hz))
        omega
    have hoff1 : s1.off < sig.length := by omega
    obtain ⟨⟨s2, e2, ho2, hb2, hlt2, hoff2⟩, -⟩ := ih n hb1 hlt1 hoff1 (by omega) rfl (by rw [hq]; exact w2) (fun y hy => hlt y (List.mem_cons_of_mem _ hy)) (by
      intro z hz
      apply hE
      cases xs with
      | nil => cases hz
      | cons y ys => rw [List.getLast?_cons_cons]; exact hz)
    refine ⟨⟨s2, ?_, by rw [ho2, ho1, List.append_assoc]; rfl, hb2, hlt2, hoff2⟩, fun _ => hEx⟩
    rw [List.length_cons, show xs.length + 1 + n = xs.length + n + 1 by omega, e1, e2]

/-- Readable responses are read. -/
theorem decZLoop_read {sig : List U8} : ∀ (xs : List Int) (fuel n : Nat) {s : DecSt} {R R' : List Bool}, BR sig R s.off s.buffer s.bitOff.toNat →
    s.bitOff.toNat < 64 → s.off < sig.length → R.length ≤ 8 * sig.length → R = xs.flatMap respBits ++ R' →
    WindowFrom respBits (8 * sig.length - R.length) xs →
    ∃ s', decZLoop sig (xs.length + fuel) (xs.length + n) s = decZLoop sig fuel n s' ∧ s'.out = s.out ++ xs ∧ BR sig R' s'.off s'.buffer s'.bitOff.toNat ∧
      s'.bitOff.toNat < 64 ∧ (s'.off < sig.length ∨ R'.length ≤ 23) := by
  intro xs
  induction xs with
  | nil =>
    intro fuel n s R R' h hb hoff _ hR _
    obtain rfl : R = R' := hR
    exact ⟨s, by rw [List.length_nil, Nat.zero_add, Nat.zero_add], by simp, h, hb, Or.inl hoff⟩
  | cons x xs ih =>
    intro fuel n s R R' h hb hoff h8 hR hw
    rw [List.flatMap_cons, List.append_assoc] at hR
    obtain ⟨w1, w2⟩ := hw
    have hlR : R.length = (respBits x).length + (xs.flatMap respBits ++ R').length := by rw [hR, List.length_append]
    obtain ⟨s1, e1, ho1, hb1, hlt1⟩ := decZ_read (fuel := xs.length + fuel) (n := xs.length + n) h hb hoff h8 hR w1
    have hq : 8 * sig.length - (xs.flatMap respBits ++ R').length = 8 * sig.length - R.length + (respBits x).length := by omega
    have hl1 := hb1.length
    have hfl := respBits_flat_length xs
    rw [List.length_append] at hl1
    cases xs with
    | nil =>
      refine ⟨s1, ?_, by rw [ho1], hb1, by omega, ?_⟩
      · rw [List.length_cons, show ([] : List Int).length + 1 + fuel = ([] : List Int).length + fuel + 1 by omega,
          show ([] : List Int).length + 1 + n = ([] : List Int).length + n + 1 by omega, e1, List.length_nil, Nat.zero_add, Nat.zero_add]
      · rw [List.flatMap_nil, List.length_nil, Nat.zero_add] at hl1
        omega
    | cons y ys =>
      rw [List.length_cons] at hfl
      obtain ⟨s2, e2, ho2, hb2, hlt2, hoff2⟩ := ih fuel n hb1 (by omega) (by omega) (by omega) rfl (by rw [hq]; exact w2)
      refine ⟨s2, ?_, by rw [ho2, ho1, List.append_assoc]; rfl, hb2, hlt2, hoff2⟩
      rw [List.length_cons, show (y :: ys).length + 1 + fuel = (y :: ys).length + fuel + 1 by omega,
        show (y :: ys).length + 1 + n = (y :: ys).length + n + 1 by omega, e1, e2]

end Raccoon
