import Verif.Proofs.SigDecExact
/-!
# Exactly what `decodeSig` does on every byte string, second part: the loops and the whole decoder
-/
namespace Raccoon
attribute [-instance] Monoid.toNPow

/-- The hint part of a trap, relative to the bits `R` still to be read. -/
def HTrapIn (sig : List U8) (n : Nat) (R : List Bool) : Prop :=
  ∃ (h : List Int) (m : Nat) (rest : List Bool), R = h.flatMap hintBits ++ (List.replicate m true ++ false :: rest) ∧ h.length < n ∧
    WindowFrom hintBits (8 * sig.length - R.length) h ∧ (∀ x ∈ h, (hintBits x).length < 64) ∧
    HintTrap (8 * sig.length - R.length + (h.flatMap hintBits).length) m rest ∧
    ¬ (rest = [] ∧ h.getLast? = some 0 ∧ (8 * sig.length - R.length + (h.flatMap hintBits).length) % 8 = 1)

/-- The response part. -/
def ZTrapIn (sig : List U8) (n : Nat) (R : List Bool) : Prop :=
  ∃ (z : List Int) (a m : Nat) (rest : List Bool), R = z.flatMap respBits ++ (natBits 40 a ++ (List.replicate m true ++ false :: rest)) ∧ z.length < n ∧
    a < 2 ^ 40 ∧ WindowFrom respBits (8 * sig.length - R.length) z ∧
    RespTrap (8 * sig.length - R.length + (z.flatMap respBits).length) a m rest (z.length + 1 = n)

theorem decHLoop_outcome {sig : List U8} : ∀ (n : Nat) {s : DecSt} {R : List Bool}, BR sig R s.off s.buffer s.bitOff.toNat → s.bitOff.toNat < 64 →
    R.length ≤ 8 * sig.length →
    (decHLoop sig n s = .ok none ∨ (∃ n' s', decHLoop sig n s = .ok (some (n' + 1, s'))) ∨ ∃ s', decHLoop sig n s = .ok (some (0, s')) ∧ s'.off = sig.length) ∨
    (∃ xs R' s', decHLoop sig n s = .ok (some (0, s')) ∧ s'.out = s.out ++ xs ∧ xs.length = n ∧ R = xs.flatMap hintBits ++ R' ∧
      BR sig R' s'.off s'.buffer s'.bitOff.toNat ∧ s'.bitOff.toNat < 64 ∧ WindowFrom hintBits (8 * sig.length - R.length) xs ∧
      ∀ x ∈ xs, (hintBits x).length < 64) ∨
    (s.off < sig.length ∧ HTrapIn sig n R ∧
      (decHLoop sig n s = .ub ∨ ∃ s', decHLoop sig n s = .ok (some (0, s')) ∧ ¬ s'.bitOff.toNat < 64 ∧ s'.off < sig.length)) := by
  intro n
  induction n with
  | zero =>
    intro s R h hb _
    exact Or.inr (Or.inl ⟨[], R, s, rfl, by simp, rfl, rfl, h, hb, trivial, fun _ hx => absurd hx (by simp)⟩)
  | succ n ih =>
    intro s R h hb h8
    by_cases hoff : s.off < sig.length
    · rcases decH_exact (n := n) h hb hoff h8 with ⟨e1, -⟩ | ⟨e1, m, R', hR, ht⟩ | ⟨x, R1, s1, hR, e1, ho1, hb1, hlt1, hx1, hw1, hend⟩ | ⟨s1, m, R', e1, hlt1, hm, hR, hend⟩
      · exact Or.inl (Or.inl e1)
      · exact Or.inr (Or.inr ⟨hoff, ⟨[], m, R', hR, by simp, trivial, by simp, ht, fun hh => by simp at hh⟩, Or.inl e1⟩)
      · rw [e1]
        have hpos := hintBits_pos x
        have hlR : R.length = (hintBits x).length + R1.length := by rw [hR, List.length_append]
        have hq : 8 * sig.length - R1.length = 8 * sig.length - R.length + (hintBits x).length := by omega
        rcases ih hb1 hlt1 (by omega) with g | ⟨xs, R', s', g1, g2, g3, g4, g5, g6, g7, g8⟩ | ⟨g0, ⟨hs, m, rest, g1, g2, g3, g4, g5, g6⟩, g7⟩
        · exact Or.inl g
        · refine Or.inr (Or.inl ⟨x :: xs, R', s', g1, by rw [g2, ho1, List.append_assoc]; rfl, by rw [List.length_cons, g3], ?_, g5, g6, ⟨hw1, by rw [← hq]; exact g7⟩, ?_⟩)
          · rw [hR, g4, List.flatMap_cons, List.append_assoc]
          · intro y hy
            rcases List.mem_cons.1 hy with rfl | hy
            · exact hx1
            · exact g8 y hy
        · have hql : 8 * sig.length - R.length + ((x :: hs).flatMap hintBits).length = 8 * sig.length - R1.length + (hs.flatMap hintBits).length := by
            rw [List.flatMap_cons, List.length_append]; omega
          refine Or.inr (Or.inr ⟨hoff, ⟨x :: hs, m, rest, ?_, by rw [List.length_cons]; omega, ⟨hw1, by rw [← hq]; exact g3⟩, ?_, ?_, ?_⟩, g7⟩)
          · rw [hR, g1, List.flatMap_cons, List.append_assoc]
          · intro y hy
            rcases List.mem_cons.1 hy with rfl | hy
            · exact hx1
            · exact g4 y hy
          · rw [hql]; exact g5
          · rw [hql]
            cases hs with
            | nil =>
              rintro ⟨rfl, hx0, hmod⟩
              have hx0 : x = 0 := Option.some.inj hx0
              subst hx0
              have hl0 : (hintBits 0).length = 1 := rfl
              have hr1 := congrArg List.length g1
              rw [List.flatMap_nil, List.nil_append, List.length_append, List.length_replicate] at hr1
              simp only [List.length_cons, List.length_nil] at hr1
              unfold HintTrap at g5
              rw [List.flatMap_nil, List.length_nil, Nat.add_zero] at g5 hmod
              omega
            | cons y ys =>
              rw [List.getLast?_cons_cons]
              exact g6
      · rw [e1]
        rcases hend with ⟨h1, h2, h3, -⟩ | ⟨h1, h2, h3⟩
        · left
          cases n with
          | zero => exact Or.inr (Or.inr ⟨s1, rfl, h2⟩)
          | succ n => rw [decHLoop_succ, if_neg (by omega)]; exact Or.inr (Or.inl ⟨n, s1, rfl⟩)
        · right; right
          refine ⟨hoff, ⟨[], m, R', hR, by simp, trivial, by simp, h3, fun hh => by simp at hh⟩, ?_⟩
          cases n with
          | zero => exact Or.inr ⟨s1, rfl, hlt1, h2⟩
          | succ n => rw [decHLoop_succ, if_pos h2, decRefill_ub hlt1]; exact Or.inl rfl
    · rw [decHLoop_succ, if_neg hoff]
      exact Or.inl (Or.inr (Or.inl ⟨n, s, rfl⟩))

theorem decZLoop_outcome {sig : List U8} : ∀ (n fuel : Nat) {s : DecSt} {R : List Bool}, n < fuel → BR sig R s.off s.buffer s.bitOff.toNat → s.bitOff.toNat < 64 →
    R.length ≤ 8 * sig.length →
    (decZLoop sig fuel n s = .ok none ∨ (∃ n' s', decZLoop sig fuel n s = .ok (some (n' + 1, s')))) ∨
    (∃ xs R' s', decZLoop sig fuel n s = .ok (some (0, s')) ∧ s'.out = s.out ++ xs ∧ xs.length = n ∧ R = xs.flatMap respBits ++ R' ∧
      BR sig R' s'.off s'.buffer s'.bitOff.toNat ∧ s'.bitOff.toNat < 64 ∧ WindowFrom respBits (8 * sig.length - R.length) xs) ∨
    (ZTrapIn sig n R ∧ (decZLoop sig fuel n s = .ub ∨ ∃ s', decZLoop sig fuel n s = .ok (some (0, s')) ∧ ¬ s'.bitOff.toNat < 64)) := by
  intro n
  induction n with
  | zero =>
    intro fuel s R hf h hb _
    rw [decZLoop_zero sig hf]
    exact Or.inr (Or.inl ⟨[], R, s, rfl, by simp, rfl, rfl, h, hb, trivial⟩)
  | succ n ih =>
    intro fuel s R hf h hb h8
    obtain ⟨fuel, rfl⟩ : ∃ k, fuel = k + 1 := ⟨fuel - 1, by omega⟩
    by_cases hoff : s.off < sig.length
    · rcases decZ_exact (fuel := fuel) (n := n) h hb hoff h8 with ⟨e1, -⟩ | ⟨s1, e1, ho1, -⟩ | ⟨x, R1, s1, hR, e1, ho1, hb1, hlt1, hw1⟩ | ⟨s1, a, m, R', e1, hlt1, ha, hpos, hR, hend⟩
      · exact Or.inl (Or.inl e1)
      · rw [e1, decZLoop_end (by omega) (by omega)]
        exact Or.inl (Or.inr ⟨n, s1, rfl⟩)
      · rw [e1]
        have hlR : R.length = (respBits x).length + R1.length := by rw [hR, List.length_append]
        have hq : 8 * sig.length - R1.length = 8 * sig.length - R.length + (respBits x).length := by omega
        rcases ih fuel (by omega) hb1 (by omega) (by omega) with g | ⟨xs, R', s', g1, g2, g3, g4, g5, g6, g7⟩ | ⟨⟨zs, a, m, rest, g1, g2, g3, g4, g5⟩, g6⟩
        · exact Or.inl g
        · refine Or.inr (Or.inl ⟨x :: xs, R', s', g1, by rw [g2, ho1, List.append_assoc]; rfl, by rw [List.length_cons, g3], ?_, g5, g6, ⟨hw1, by rw [← hq]; exact g7⟩⟩)
          rw [hR, g4, List.flatMap_cons, List.append_assoc]
        · have hql : 8 * sig.length - R.length + ((x :: zs).flatMap respBits).length = 8 * sig.length - R1.length + (zs.flatMap respBits).length := by
            rw [List.flatMap_cons, List.length_append]; omega
          refine Or.inr (Or.inr ⟨⟨x :: zs, a, m, rest, ?_, by rw [List.length_cons]; omega, g3, ⟨hw1, by rw [← hq]; exact g4⟩, ?_⟩, g6⟩)
          · rw [hR, g1, List.flatMap_cons, List.append_assoc]
          · rw [hql, List.length_cons]
            unfold RespTrap at g5 ⊢
            refine ⟨g5.1, g5.2.imp_right fun ⟨i1, i2, i3⟩ => ⟨i1, i2, by omega⟩⟩
      · rw [e1]
        rcases hend with ⟨h1, h2, h3⟩ | ⟨h1, h2, h3⟩
        · cases n with
          | zero =>
            right; right
            rw [decZLoop_zero sig (by omega)]
            exact ⟨⟨[], a, m, R', hR, by simp, ha, trivial, hpos, Or.inr ⟨h3, h1, rfl⟩⟩, Or.inr ⟨s1, rfl, hlt1⟩⟩
          | succ n =>
            left; right
            rw [decZLoop_end (by omega) (by omega)]
            exact ⟨n, s1, rfl⟩
        · right; right
          refine ⟨⟨[], a, m, R', hR, by simp, ha, trivial, hpos, Or.inl ⟨h3, h1⟩⟩, ?_⟩
          cases n with
          | zero => rw [decZLoop_zero sig (by omega)]; exact Or.inr ⟨s1, rfl, hlt1⟩
          | succ n =>
            obtain ⟨fuel, rfl⟩ : ∃ k, fuel = k + 1 := ⟨fuel - 1, by omega⟩
            rw [decZLoop_succ, if_pos ⟨h2, Nat.succ_pos n⟩, decRefill_ub hlt1]
            exact Or.inl rfl
    · rw [decZLoop_end (by omega) hoff]
      exact Or.inl (Or.inr ⟨n, s, rfl⟩)

/-- Every outcome of decoding, with what it says about the bytes. -/
theorem decodeSig_outcome (hashLen hLen zLen : Nat) (sig : List U8) (hl : hashLen ≤ sig.length) (hz : 0 < zLen) :
    decodeSig hashLen hLen zLen sig = .ok none ∨
    (∃ c h z, decodeSig hashLen hLen zLen sig = .ok (some (c, h, z)) ∧ c.length = hashLen ∧ h.length = hLen ∧ z.length = zLen ∧
      IsSigEncoding c h z sig.length sig ∧ HintsReadable 0 h ∧ WindowFrom respBits (h.flatMap hintBits).length z) ∨
    (decodeSig hashLen hLen zLen sig = .ub ∧ SigTrap hLen zLen (bytesBits (sig.drop hashLen))) := by
  rw [decodeSig_eq, subspan_ok (by omega), Res.ok_bind]
  have h0 : BR sig (bytesBits (sig.drop hashLen)) hashLen 0 (0 : U64).toNat := BR.start hl
  have hPl : (bytesBits (sig.drop hashLen)).length = 8 * (sig.length - hashLen) := by rw [bytesBits_length, List.length_drop]
  have hP8 : (bytesBits (sig.drop hashLen)).length ≤ 8 * sig.length := by omega
  have hq0 : 8 * sig.length - (bytesBits (sig.drop hashLen)).length = 8 * hashLen + 0 := by omega
  have htrapH : HTrapIn sig hLen (bytesBits (sig.drop hashLen)) → SigTrap hLen zLen (bytesBits (sig.drop hashLen)) := by
    rintro ⟨h, m, rest, i1, i2, i3, i4, i5, i6⟩
    rw [hq0] at i3 i5 i6
    rw [windowFrom_shift] at i3
    refine Or.inl ⟨h, m, rest, by rw [i1, List.append_assoc], i2, ⟨i3, i4⟩, ?_, ?_⟩
    · unfold HintTrap at i5 ⊢
      rw [show (8 * hashLen + 0 + (h.flatMap hintBits).length) % 8 = (h.flatMap hintBits).length % 8 by omega] at i5
      exact i5
    · rw [show (8 * hashLen + 0 + (h.flatMap hintBits).length) % 8 = (h.flatMap hintBits).length % 8 by omega] at i6
      exact i6
  rcases decHLoop_outcome hLen (s := ⟨hashLen, 0, 0, []⟩) h0 (show (0 : U64).toNat < 64 by decide) hP8 with
    (e | ⟨n', s', e⟩ | ⟨s', e, hend⟩) | ⟨xs, R', s', e, g1, g2, g3, g4, g5, g6, g7⟩ | ⟨-, ht, e | ⟨s', e, g, ho⟩⟩
  · rw [e]; exact Or.inl rfl
  · rw [e, Res.ok_bind]
    left
    show (if s'.off = sig.length ∨ n' + 1 ≠ 0 then _ else _ : Res _) = _
    rw [if_pos (Or.inr (by omega))]
  · rw [e, Res.ok_bind]
    left
    show (if s'.off = sig.length ∨ 0 ≠ 0 then _ else _ : Res _) = _
    rw [if_pos (Or.inl hend)]
  · rw [e, Res.ok_bind]
    show (if s'.off = sig.length ∨ 0 ≠ 0 then _ else _ : Res _) = _ ∨ (∃ c h z, (if s'.off = sig.length ∨ 0 ≠ 0 then _ else _ : Res _) = _ ∧ _) ∨
      ((if s'.off = sig.length ∨ 0 ≠ 0 then _ else _ : Res _) = _ ∧ _)
    by_cases hend : s'.off = sig.length
    · rw [if_pos (Or.inl hend)]; exact Or.inl rfl
    rw [if_neg (by omega)]
    rw [hq0, windowFrom_shift] at g6
    have hlR : (bytesBits (sig.drop hashLen)).length = (xs.flatMap hintBits).length + R'.length := by rw [g3, List.length_append]
    have hq1 : 8 * sig.length - R'.length = 8 * hashLen + (xs.flatMap hintBits).length := by omega
    have htrapZ : ZTrapIn sig zLen R' → SigTrap hLen zLen (bytesBits (sig.drop hashLen)) := by
      rintro ⟨z, a, m, rest, i1, i2, i3, i4, i5⟩
      rw [hq1] at i4 i5
      rw [windowFrom_shift] at i4
      refine Or.inr ⟨xs, z, a, m, rest, ?_, g2, i2, i3, ⟨g6, g7⟩, i4, ?_⟩
      · rw [g3, i1]; unfold sigBits; simp only [List.append_assoc]
      · unfold sigBits
        unfold RespTrap at i5 ⊢
        rw [List.length_append]
        rw [show (8 * hashLen + (xs.flatMap hintBits).length + (z.flatMap respBits).length) % 8 = ((xs.flatMap hintBits).length + (z.flatMap respBits).length) % 8 by omega] at i5
        exact i5
    rcases decZLoop_outcome zLen (zLen + sig.length + 1) (s := { s' with out := [] }) (by omega) g4 g5 (by omega) with
      (e | ⟨n', s2, e⟩) | ⟨zs, R2, s2, e, i1, i2, i3, i4, i5, i6⟩ | ⟨ht, e | ⟨s2, e, g⟩⟩
    · rw [e]; exact Or.inl rfl
    · rw [e, Res.ok_bind]
      left
      show (if n' + 1 ≠ 0 then _ else _ : Res _) = _
      rw [if_pos (by omega)]
    · rw [e, Res.ok_bind]
      show (if 0 ≠ 0 then _ else _ : Res _) = _ ∨ (∃ c h z, (if 0 ≠ 0 then _ else _ : Res _) = _ ∧ _) ∨ ((if 0 ≠ 0 then _ else _ : Res _) = _ ∧ _)
      rw [if_neg (by omega), decCheck_eq i4 i5]
      by_cases hz : R2 = List.replicate R2.length false
      · rw [if_pos hz]
        right; left
        have hxs : s'.out = xs := by rw [g1]; rfl
        have hzs : s2.out = zs := by rw [i1]; rfl
        rw [hxs, hzs]
        refine ⟨_, _, _, rfl, ?_, g2, i2, ⟨rfl, R2.length, ?_⟩, ⟨g6, g7⟩, ?_⟩
        · rw [List.drop_zero, List.length_take]; omega
        · show bytesBits sig = bytesBits ((sig.drop 0).take hashLen) ++ sigBits xs zs ++ _
          rw [← hz, List.drop_zero]
          unfold sigBits
          rw [List.append_assoc, List.append_assoc, ← i3, ← g3, ← bytesBits_append, List.take_append_drop]
        · rw [hq1, windowFrom_shift] at i6
          exact i6
      · rw [if_neg hz]; exact Or.inl rfl
    · right; right
      rw [e]
      exact ⟨rfl, htrapZ ht⟩
    · right; right
      rw [e, Res.ok_bind]
      show (if 0 ≠ 0 then _ else _ : Res _) = _ ∧ _
      rw [if_neg (by omega), decCheck_wrapped g]
      exact ⟨rfl, htrapZ ht⟩
  · right; right
    rw [e]
    exact ⟨rfl, htrapH ht⟩
  · right; right
    rw [e, Res.ok_bind]
    show (if s'.off = sig.length ∨ 0 ≠ 0 then _ else _ : Res _) = _ ∧ _
    rw [if_neg (by omega)]
    obtain ⟨zLen, rfl⟩ : ∃ k, zLen = k + 1 := ⟨zLen - 1, by omega⟩
    rw [decZLoop_succ, if_pos ⟨ho, Nat.succ_pos _⟩, decRefill_ub (by exact g)]
    exact ⟨rfl, htrapH ht⟩

/-! ### The converses -/

theorem hint_len_one {x : Int} (h : (hintBits x).length ≤ 2) : x = 0 := by
  rw [hintBits_length] at h
  by_contra hx
  rw [if_neg hx] at h
  omega

/-- A trap at the next hint. -/
theorem decH_trap {sig : List U8} {n : Nat} {s : DecSt} {R rest : List Bool} {m : Nat} (h : BR sig R s.off s.buffer s.bitOff.toNat) (hb : s.bitOff.toNat < 64)
    (hoff : s.off < sig.length) (hR8 : R.length ≤ 8 * sig.length) (hR : R = List.replicate m true ++ false :: rest)
    (ht : HintTrap (8 * sig.length - R.length) m rest) :
    decHLoop sig (n + 1) s = .ub ∨ ∃ s', decHLoop sig (n + 1) s = .ok (some (0, s')) ∧ ¬ s'.bitOff.toNat < 64 ∧ s'.off < sig.length := by
  have hlR : R.length = m + (rest.length + 1) := by rw [hR, List.length_append, List.length_replicate, List.length_cons]
  unfold HintTrap at ht
  have hr : rest ≠ [] ↔ 0 < rest.length := List.length_pos_iff.symm
  rw [hr] at ht
  rcases decH_exact (n := n) h hb hoff hR8 with ⟨-, w, R1, e1, e2⟩ | ⟨e1, -⟩ | ⟨x, R1, s', e1, -, -, -, -, e6, e7, -⟩ | ⟨s', k, R1, e1, e2, -, e4, e5⟩
  · have := ones_zero_ne (hR.symm.trans e1)
    omega
  · exact Or.inl e1
  · rw [hintBits_eq, tailBits_append] at e1
    obtain ⟨h1, -⟩ := ones_inj (hR.symm.trans e1)
    rw [hintBits_length] at e6 e7
    have hx : x ≠ 0 := by rintro rfl; simp at h1; omega
    rw [if_neg hx] at e6 e7
    omega
  · obtain ⟨rfl, rfl⟩ := ones_inj (hR.symm.trans e4)
    rcases e5 with ⟨i1, i2, i3, i4⟩ | ⟨i1, i2, -⟩
    · rw [i1] at ht; simp at ht; omega
    · rw [e1]
      cases n with
      | zero => exact Or.inr ⟨s', rfl, e2, i2⟩
      | succ n => rw [decHLoop_succ, if_pos i2, decRefill_ub e2]; exact Or.inl rfl

/-- A trap at the next response coefficient. -/
theorem decZ_trap {sig : List U8} {fuel n : Nat} (hf : n < fuel) {s : DecSt} {R rest : List Bool} {a m : Nat} (h : BR sig R s.off s.buffer s.bitOff.toNat) (hb : s.bitOff.toNat < 64)
    (hoff : s.off < sig.length) (hR8 : R.length ≤ 8 * sig.length) (ha : a < 2 ^ 40) (hR : R = natBits 40 a ++ (List.replicate m true ++ false :: rest))
    (ht : RespTrap (8 * sig.length - R.length) a m rest (n = 0)) :
    decZLoop sig (fuel + 1) (n + 1) s = .ub ∨ ∃ s', decZLoop sig (fuel + 1) (n + 1) s = .ok (some (0, s')) ∧ ¬ s'.bitOff.toNat < 64 := by
  have h40 : (2 : Nat) ^ 40 = 1099511627776 := by norm_num
  have hlR : R.length = 40 + (m + (rest.length + 1)) := by
    rw [hR, List.length_append, natBits_length, List.length_append, List.length_replicate, List.length_cons]
  unfold RespTrap at ht
  rcases decZ_exact (fuel := fuel) (n := n) h hb hoff hR8 with ⟨-, A, w, R1, e1, e2, e3⟩ | ⟨s', -, -, e1⟩ | ⟨x, R1, s', e1, -, -, -, -, e6⟩ | ⟨s', a', m', R1, e1, e2, e3, -, e4, e5⟩
  · obtain ⟨-, e5⟩ := List.append_inj (hR.symm.trans e1) (by rw [natBits_length, e2])
    have := ones_zero_ne e5
    omega
  · omega
  · rw [respBits_eq, List.append_assoc, tailBits_append] at e1
    obtain ⟨i1, i2⟩ := List.append_inj (hR.symm.trans e1) (by rw [natBits_length, natBits_length])
    have i3 := congrArg bitsVal i1
    rw [bitsVal_natBits, bitsVal_natBits, Nat.mod_mod, Nat.mod_eq_of_lt ha] at i3
    obtain ⟨i4, i5⟩ := ones_inj i2
    rw [respBits_length] at e6
    have hx : x ≠ 0 := by rintro rfl; simp at i3 i4; omega
    rw [if_neg hx] at e6 i5
    obtain ⟨-, ⟨j1, -⟩ | ⟨j1, j2, -⟩⟩ := ht
    · omega
    · rw [j2] at i5; simp at i5
  · obtain ⟨i1, i2⟩ := List.append_inj (hR.symm.trans e4) (by rw [natBits_length, natBits_length])
    obtain ⟨rfl, rfl⟩ := ones_inj i2
    rw [e1]
    cases n with
    | zero => rw [decZLoop_zero sig hf]; exact Or.inr ⟨s', rfl, e2⟩
    | succ n =>
      left
      have hne : s'.off < sig.length := by
        rcases e5 with ⟨j1, -⟩ | ⟨-, j2, -⟩
        · obtain ⟨-, ⟨-, j3⟩ | ⟨-, -, j3⟩⟩ := ht
          · exact absurd j1 j3
          · omega
        · exact j2
      obtain ⟨fuel, rfl⟩ : ∃ k, fuel = k + 1 := ⟨fuel - 1, by omega⟩
      rw [decZLoop_succ, if_pos ⟨hne, Nat.succ_pos n⟩, decRefill_ub e2]
      rfl

/-- The hint part of a whole decoder run: after readable hints. -/
theorem decodeSig_hints {sig : List U8} {hashLen : Nat} (hl : hashLen < sig.length) (h : List Int) (n : Nat) {R' : List Bool}
    (hR : bytesBits (sig.drop hashLen) = h.flatMap hintBits ++ R') (hr : HintsReadable 0 h)
    (hE : ∀ x, h.getLast? = some x → 64 < (8 * sig.length - ((hintBits x).length + R'.length)) % 8 + ((hintBits x).length + R'.length)) :
    ∃ s', decHLoop sig (h.length + n) ⟨hashLen, 0, 0, []⟩ = decHLoop sig n s' ∧ s'.out = h ∧ BR sig R' s'.off s'.buffer s'.bitOff.toNat ∧
      s'.bitOff.toNat < 64 ∧ s'.off < sig.length ∧ R'.length ≤ 8 * sig.length ∧ 8 * sig.length - R'.length = 8 * hashLen + (h.flatMap hintBits).length := by
  have h0 : BR sig (bytesBits (sig.drop hashLen)) hashLen 0 (0 : U64).toNat := BR.start (by omega)
  have hPl : (bytesBits (sig.drop hashLen)).length = 8 * (sig.length - hashLen) := by rw [bytesBits_length, List.length_drop]
  have hlR : (bytesBits (sig.drop hashLen)).length = (h.flatMap hintBits).length + R'.length := by rw [hR, List.length_append]
  obtain ⟨⟨s', e1, e2, e3, e4, e5⟩, -⟩ := decHLoop_read h n (s := ⟨hashLen, 0, 0, []⟩) h0 (show (0 : U64).toNat < 64 by decide) hl (by omega) hR (by
    rw [show 8 * sig.length - (bytesBits (sig.drop hashLen)).length = 8 * hashLen + 0 by omega, windowFrom_shift]
    exact hr.1) hr.2 hE
  exact ⟨s', e1, by rw [e2]; rfl, e3, e4, e5, by omega, by omega⟩

/-- On a trap the decoder is undefined. -/
theorem decodeSig_trap {hashLen hLen zLen : Nat} {sig : List U8} (hl : hashLen ≤ sig.length) (hz : 2 ≤ zLen)
    (ht : SigTrap hLen zLen (bytesBits (sig.drop hashLen))) : decodeSig hashLen hLen zLen sig = .ub := by
  have hPl : (bytesBits (sig.drop hashLen)).length = 8 * (sig.length - hashLen) := by rw [bytesBits_length, List.length_drop]
  rw [decodeSig_eq, subspan_ok (by omega), Res.ok_bind]
  rcases ht with ⟨h, m, rest, hP, h1, h2, h3, h4⟩ | ⟨h, z, a, m, rest, hP, h1, h2, h3, h4, h5, h6⟩
  · rw [List.append_assoc] at hP
    have hl2 := congrArg List.length hP
    simp only [List.length_append, List.length_replicate, List.length_cons] at hl2
    obtain ⟨n, hn⟩ : ∃ n, hLen = h.length + (n + 1) := ⟨hLen - h.length - 1, by omega⟩
    have hR'l : (List.replicate m true ++ false :: rest).length = m + (rest.length + 1) := by
      rw [List.length_append, List.length_replicate, List.length_cons]
    obtain ⟨s1, e1, e2, e3, e4, e5, e6, e7⟩ := decodeSig_hints (by omega) h (n + 1) hP h2 (by
      intro x hx
      have hpos := hintBits_pos x
      have hle : (hintBits x).length ≤ (h.flatMap hintBits).length := by
        obtain ⟨ys, rfl⟩ := List.getLast?_eq_some_iff.1 hx
        rw [List.flatMap_append, List.length_append, List.flatMap_cons, List.length_append]
        omega
      rw [hR'l]
      unfold HintTrap at h3
      have hr : rest ≠ [] ↔ 0 < rest.length := List.length_pos_iff.symm
      rw [hr] at h3
      by_cases hr0 : rest = []
      · have hr1 : rest.length = 0 := by rw [hr0]; rfl
        by_cases hx1 : (hintBits x).length ≤ 2
        · have hx0 := hint_len_one hx1
          have : (h.flatMap hintBits).length % 8 ≠ 1 := fun hh => h4 ⟨hr0, by rw [hx, hx0], hh⟩
          omega
        · omega
      · have hr1 : 0 < rest.length := List.length_pos_iff.2 hr0
        omega)
    rw [hn, e1]
    rcases decH_trap (n := n) e3 e4 e5 e6 rfl (by
      rw [e7]
      unfold HintTrap at h3 ⊢
      rw [show (8 * hashLen + (h.flatMap hintBits).length) % 8 = (h.flatMap hintBits).length % 8 by omega]
      exact h3) with e | ⟨s', e, g, ho⟩
    · rw [e]; rfl
    · rw [e, Res.ok_bind]
      show (if s'.off = sig.length ∨ 0 ≠ 0 then _ else _ : Res _) = _
      rw [if_neg (by omega)]
      obtain ⟨zLen, rfl⟩ : ∃ k, zLen = k + 1 := ⟨zLen - 1, by omega⟩
      rw [decZLoop_succ, if_pos ⟨ho, Nat.succ_pos _⟩, decRefill_ub (by exact g)]
      rfl
  · unfold sigBits at hP h6
    rw [List.append_assoc, List.append_assoc, List.append_assoc] at hP
    have hl2 := congrArg List.length hP
    simp only [List.length_append, List.length_replicate, List.length_cons, natBits_length] at hl2
    rw [List.length_append] at h6
    have hfl := respBits_flat_length z
    have hRz : (natBits 40 a ++ (List.replicate m true ++ false :: rest)).length = 40 + (m + (rest.length + 1)) := by
      rw [List.length_append, natBits_length, List.length_append, List.length_replicate, List.length_cons]
    have hR' : (z.flatMap respBits ++ (natBits 40 a ++ (List.replicate m true ++ false :: rest))).length = (z.flatMap respBits).length + (40 + (m + (rest.length + 1))) := by
      rw [List.length_append, hRz]
    obtain ⟨s1, e1, e2, e3, e4, e5, e6, e7⟩ := decodeSig_hints (by omega) h 0 hP h4 (by
      intro x hx
      have hpos := hintBits_pos x
      have hle : (hintBits x).length ≤ (h.flatMap hintBits).length := by
        obtain ⟨ys, rfl⟩ := List.getLast?_eq_some_iff.1 hx
        rw [List.flatMap_append, List.length_append, List.flatMap_cons, List.length_append]
        omega
      rw [hR']
      obtain ⟨i0, ⟨i1, i2⟩ | ⟨i1, i2, i3⟩⟩ := h6
      · have hr1 : 0 < rest.length := List.length_pos_iff.2 i2
        omega
      · omega)
    rw [Nat.add_zero, h1] at e1
    rw [e1]
    show (if s1.off = sig.length ∨ 0 ≠ 0 then _ else _ : Res _) = _
    rw [if_neg (by omega)]
    obtain ⟨n, hn⟩ : ∃ n, zLen = z.length + (n + 1) := ⟨zLen - z.length - 1, by omega⟩
    obtain ⟨s2, k1, k2, k3, k4, k5⟩ := decZLoop_read z (n + 1 + sig.length + 1) (n + 1) (s := { s1 with out := [] }) e3 e4 e5 e6 rfl (by
      rw [e7, windowFrom_shift]; exact h5)
    rw [show zLen + sig.length + 1 = z.length + (n + 1 + sig.length + 1) by omega, hn, k1]
    have hs2 := k3.length
    rcases decZ_trap (fuel := n + 1 + sig.length) (n := n) (by omega) k3 k4 (by omega) (by omega) h3 rfl (by
      rw [show 8 * sig.length - (natBits 40 a ++ (List.replicate m true ++ false :: rest)).length = 8 * hashLen + ((h.flatMap hintBits).length + (z.flatMap respBits).length) by omega]
      unfold RespTrap at h6 ⊢
      rw [show (8 * hashLen + ((h.flatMap hintBits).length + (z.flatMap respBits).length)) % 8 = ((h.flatMap hintBits).length + (z.flatMap respBits).length) % 8 by omega]
      exact ⟨h6.1, h6.2.imp_right fun ⟨i1, i2, i3⟩ => ⟨i1, i2, by omega⟩⟩) with e | ⟨s', e, g⟩
    · rw [e]; rfl
    · rw [e, Res.ok_bind]
      show (if 0 ≠ 0 then _ else _ : Res _) = _
      rw [if_neg (by omega), decCheck_wrapped g]

/-- A readable encoding is accepted. -/
theorem decodeSig_read {c sig : List U8} {h z : List Int} (he : IsSigEncoding c h z sig.length sig) (hr : HintsReadable 0 h)
    (hw : WindowFrom respBits (h.flatMap hintBits).length z) (hz : 2 ≤ z.length) :
    decodeSig c.length h.length z.length sig = .ok (some (c, h, z)) := by
  obtain ⟨-, pad, hbits⟩ := he
  have hlen := congrArg List.length hbits
  rw [List.length_append, List.length_append, bytesBits_length, bytesBits_length, List.length_replicate] at hlen
  have hcl : c.length ≤ sig.length := by omega
  have hsplit : bytesBits (sig.take c.length) = bytesBits c ∧ bytesBits (sig.drop c.length) = sigBits h z ++ List.replicate pad false := by
    rw [← List.take_append_drop c.length sig, bytesBits_append, List.append_assoc] at hbits
    refine List.append_inj hbits ?_
    rw [bytesBits_length, bytesBits_length, List.length_take]; omega
  have hc : sig.take c.length = c := bytesBits_inj hsplit.1
  rw [decodeSig_eq, subspan_ok (by omega), Res.ok_bind]
  have hzl := respBits_flat_length z
  have hR : bytesBits (sig.drop c.length) = h.flatMap hintBits ++ (z.flatMap respBits ++ List.replicate pad false) := by
    rw [hsplit.2]; unfold sigBits; rw [List.append_assoc]
  have hsl : (sigBits h z).length = (h.flatMap hintBits).length + (z.flatMap respBits).length := List.length_append
  have hR'l : (z.flatMap respBits ++ List.replicate pad false).length = (z.flatMap respBits).length + pad := by
    rw [List.length_append, List.length_replicate]
  obtain ⟨s1, e1, o1, b1, l1, f1, i1, j1⟩ := decodeSig_hints (by omega) h 0 hR hr (by intro x _; omega)
  rw [Nat.add_zero] at e1
  rw [e1]
  show (if s1.off = sig.length ∨ 0 ≠ 0 then _ else _ : Res _) = _
  rw [if_neg (by omega)]
  obtain ⟨s2, e2, o2, b2, l2, -⟩ := decZLoop_read z (sig.length + 1) 0 (s := { s1 with out := [] }) b1 l1 f1 i1 rfl (by
    rw [j1, windowFrom_shift]; exact hw)
  rw [show z.length + sig.length + 1 = z.length + (sig.length + 1) by omega]
  rw [show z.length + 0 = z.length from rfl] at e2
  rw [e2, decZLoop_zero sig (by omega), Res.ok_bind]
  show (if 0 ≠ 0 then _ else _ : Res _) = _
  rw [if_neg (by omega), decCheck_eq b2 l2, if_pos (by rw [List.length_replicate]), o1, o2, List.drop_zero, hc]
  rfl

end Raccoon
