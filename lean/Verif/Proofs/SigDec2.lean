import Verif.Proofs.SigDec
/-!
# The decoding loops
-/
namespace Raccoon
attribute [-instance] Monoid.toNPow

/-- The only bit strings on which the decoder can leave defined behaviour: sixteen ones in a row, or a one in the last 41 bits. -/
def SigBad (R : List Bool) : Prop :=
  (∃ pre post, R = pre ++ (List.replicate 16 true ++ post)) ∨ (∃ pre T, R = pre ++ T ∧ T.length ≤ 41 ∧ true ∈ T)

theorem SigBad.app {R : List Bool} (h : SigBad R) (xs : List Bool) : SigBad (xs ++ R) := by
  rcases h with ⟨pre, post, h⟩ | ⟨pre, T, h, hT⟩
  · exact Or.inl ⟨xs ++ pre, post, by rw [h, List.append_assoc]⟩
  · exact Or.inr ⟨xs ++ pre, T, by rw [h, List.append_assoc], hT⟩

theorem SigBad.ones {m : Nat} (h : 16 ≤ m) (post : List Bool) : SigBad (List.replicate m true ++ post) := by
  refine Or.inl ⟨[], List.replicate (m - 16) true ++ post, ?_⟩
  rw [List.nil_append, ← List.append_assoc, List.replicate_append_replicate]
  congr 2; omega

theorem SigBad.last {m : Nat} (h : 0 < m) : SigBad (List.replicate m true ++ [false]) := by
  obtain ⟨k, rfl⟩ : ∃ k, m = k + 1 := ⟨m - 1, by omega⟩
  refine Or.inr ⟨List.replicate k true, [true, false], ?_, by simp, by simp⟩
  rw [List.replicate_succ', List.append_assoc]; rfl

theorem drop_end {sig : List U8} {o : Nat} (h : o = sig.length) : bytesBits (sig.drop o) = [] := by
  rw [List.drop_of_length_le (by omega)]; rfl

theorem natBits_zero_iff : ∀ (n a : Nat), a < 2 ^ n → true ∉ natBits n a → a = 0 := by
  intro n
  induction n with
  | zero => intro a h _; have : (2 : Nat) ^ 0 = 1 := rfl; omega
  | succ n ih =>
    intro a h hm
    have hp : 2 ^ (n + 1) = 2 * 2 ^ n := by rw [Nat.pow_succ]; omega
    show a = 0
    have hm' : true ∉ decide (a % 2 = 1) :: natBits n (a / 2) := hm
    rw [List.mem_cons, not_or] at hm'
    have h1 : ¬ a % 2 = 1 := fun e => hm'.1 (by rw [decide_eq_true e])
    have := ih (a / 2) (by omega) hm'.2
    omega

/-! ### Hint loop -/

theorem decHLoop_cases {sig : List U8} : ∀ (n : Nat) {s : DecSt} {R : List Bool}, BR sig R s.off s.buffer s.bitOff.toNat → s.bitOff.toNat < 64 →
    decHLoop sig n s = .ok none ∨
    (∃ n' s', decHLoop sig n s = .ok (some (n' + 1, s'))) ∨
    (∃ xs R' s', decHLoop sig n s = .ok (some (0, s')) ∧ s'.out = s.out ++ xs ∧ xs.length = n ∧ R = xs.flatMap hintBits ++ R' ∧
      BR sig R' s'.off s'.buffer s'.bitOff.toNat ∧ s'.bitOff.toNat < 64 ∧ ∀ x ∈ xs, (hintBits x).length < 64) ∨
    (SigBad R ∧ (decHLoop sig n s = .ub ∨ ∃ s', decHLoop sig n s = .ok (some (0, s')) ∧ ¬ s'.bitOff.toNat < 64)) := by
  intro n
  induction n with
  | zero =>
    intro s R h hb
    exact Or.inr (Or.inr (Or.inl ⟨[], R, s, rfl, by simp, rfl, rfl, h, hb, fun _ hx => absurd hx (by simp)⟩))
  | succ n ih =>
    intro s R h hb
    by_cases hoff : s.off < sig.length
    · rcases decH_step (n := n) h hb hoff with e1 | ⟨e1, m, R', hm, hR⟩ | ⟨x, R1, s1, hR, e1, ho1, hb1, hlt1, hx1⟩ | ⟨x, s1, m, e1, ho1, hlt1, hm, hR, hend⟩
      · exact Or.inl e1
      · exact Or.inr (Or.inr (Or.inr ⟨hR ▸ SigBad.ones (by omega) _, Or.inl e1⟩))
      · rw [e1]
        rcases ih hb1 hlt1 with g | ⟨n', s', g⟩ | ⟨xs, R', s', g1, g2, g3, g4, g5, g6, g7⟩ | ⟨g1, g2⟩
        · exact Or.inl g
        · exact Or.inr (Or.inl ⟨n', s', g⟩)
        · refine Or.inr (Or.inr (Or.inl ⟨x :: xs, R', s', g1, by rw [g2, ho1, List.append_assoc]; rfl, by rw [List.length_cons, g3], ?_, g5, g6, ?_⟩))
          · rw [hR, g4, List.flatMap_cons, List.append_assoc]
          · intro y hy
            rcases List.mem_cons.1 hy with rfl | hy
            · exact hx1
            · exact g7 y hy
        · exact Or.inr (Or.inr (Or.inr ⟨hR ▸ g1.app _, g2⟩))
      · rw [e1]
        have hbad : SigBad R := by
          rcases hend with hend | hend
          · rw [hR, drop_end hend]; exact SigBad.last hm
          · rw [hR]; exact SigBad.ones (by omega) _
        cases n with
        | zero => exact Or.inr (Or.inr (Or.inr ⟨hbad, Or.inr ⟨s1, rfl, hlt1⟩⟩))
        | succ n =>
          rw [decHLoop_succ]
          by_cases h2 : s1.off < sig.length
          · rw [if_pos h2, decRefill_ub hlt1]
            exact Or.inr (Or.inr (Or.inr ⟨hbad, Or.inl rfl⟩))
          · rw [if_neg h2]
            exact Or.inr (Or.inl ⟨n, s1, rfl⟩)
    · rw [decHLoop_succ, if_neg hoff]
      exact Or.inr (Or.inl ⟨n, s, rfl⟩)

theorem decHLoop_complete {sig : List U8} : ∀ (xs : List Int) {s : DecSt} {R R' : List Bool}, BR sig R s.off s.buffer s.bitOff.toNat →
    s.bitOff.toNat < 64 → R.length ≤ 8 * sig.length → R = xs.flatMap hintBits ++ R' → 64 ≤ R'.length → FitFrom hintBits (8 * sig.length - R.length) xs →
    ∃ s', decHLoop sig xs.length s = .ok (some (0, s')) ∧ s'.out = s.out ++ xs ∧ BR sig R' s'.off s'.buffer s'.bitOff.toNat ∧ s'.bitOff.toNat < 64 := by
  intro xs
  induction xs with
  | nil =>
    intro s R R' h hb _ hR _ _
    exact ⟨s, rfl, by simp, by rw [hR] at h; exact h, hb⟩
  | cons x xs ih =>
    intro s R R' h hb h8 hR hR' hfit
    rw [List.flatMap_cons, List.append_assoc] at hR
    have hlen := h.length
    have hlR : R.length = (hintBits x).length + ((xs.flatMap hintBits).length + R'.length) := by rw [hR]; simp only [List.length_append]
    obtain ⟨f1, f2⟩ := hfit
    obtain ⟨s1, e1, ho1, hb1, hlt1⟩ := decH_ok (n := xs.length) h hb (by omega) h8 hR f1
    have hl1 : (xs.flatMap hintBits ++ R').length = (xs.flatMap hintBits).length + R'.length := List.length_append
    obtain ⟨s2, e2, ho2, hb2⟩ := ih hb1 hlt1 (by omega) rfl hR' (by
      rw [show 8 * sig.length - (xs.flatMap hintBits ++ R').length = 8 * sig.length - R.length + (hintBits x).length by omega]
      exact f2)
    refine ⟨s2, ?_, by rw [ho2, ho1, List.append_assoc]; rfl, hb2⟩
    rw [List.length_cons, e1, e2]

/-! ### Response loop -/

theorem decZLoop_zero (sig : List U8) {fuel : Nat} (hf : 0 < fuel) (s : DecSt) : decZLoop sig fuel 0 s = .ok (some (0, s)) := by
  obtain ⟨k, rfl⟩ : ∃ k, fuel = k + 1 := ⟨fuel - 1, by omega⟩
  rw [decZLoop_succ, if_neg (by omega)]

theorem decZLoop_end {sig : List U8} {fuel n : Nat} (hf : 0 < fuel) {s : DecSt} (h : ¬ s.off < sig.length) : decZLoop sig fuel n s = .ok (some (n, s)) := by
  obtain ⟨k, rfl⟩ : ∃ k, fuel = k + 1 := ⟨fuel - 1, by omega⟩
  rw [decZLoop_succ, if_neg (by omega)]

theorem decZLoop_cases {sig : List U8} : ∀ (n fuel : Nat) {s : DecSt} {R : List Bool}, n < fuel → BR sig R s.off s.buffer s.bitOff.toNat → s.bitOff.toNat < 64 →
    decZLoop sig fuel n s = .ok none ∨
    (∃ n' s', decZLoop sig fuel n s = .ok (some (n' + 1, s'))) ∨
    (∃ xs R' s', decZLoop sig fuel n s = .ok (some (0, s')) ∧ s'.out = s.out ++ xs ∧ xs.length = n ∧ R = xs.flatMap respBits ++ R' ∧
      BR sig R' s'.off s'.buffer s'.bitOff.toNat ∧ s'.bitOff.toNat < 64 ∧ ∀ x ∈ xs, (respBits x).length ≤ 64) ∨
    (SigBad R ∧ (decZLoop sig fuel n s = .ub ∨ ∃ s', decZLoop sig fuel n s = .ok (some (0, s')) ∧ ¬ s'.bitOff.toNat < 64)) := by
  have h40 : (2 : Nat) ^ 40 = 1099511627776 := by norm_num
  intro n
  induction n with
  | zero =>
    intro fuel s R hf h hb
    rw [decZLoop_zero sig hf]
    exact Or.inr (Or.inr (Or.inl ⟨[], R, s, rfl, by simp, rfl, rfl, h, hb, fun _ hx => absurd hx (by simp)⟩))
  | succ n ih =>
    intro fuel s R hf h hb
    obtain ⟨fuel, rfl⟩ : ∃ k, fuel = k + 1 := ⟨fuel - 1, by omega⟩
    by_cases hoff : s.off < sig.length
    · rcases decZ_step (fuel := fuel) (n := n) h hb hoff with e1 | ⟨s1, e1, ho1, -⟩ | ⟨x, R1, s1, hR, e1, ho1, hb1, hlt1, hx1⟩ | ⟨x, s1, a, m, e1, ho1, hlt1, ha, hpos, hR, hend⟩
      · exact Or.inl e1
      · rw [e1, decZLoop_end (by omega) (by omega)]
        exact Or.inr (Or.inl ⟨n, s1, rfl⟩)
      · rw [e1]
        rcases ih fuel (by omega) hb1 (by omega) with g | ⟨n', s', g⟩ | ⟨xs, R', s', g1, g2, g3, g4, g5, g6, g7⟩ | ⟨g1, g2⟩
        · exact Or.inl g
        · exact Or.inr (Or.inl ⟨n', s', g⟩)
        · refine Or.inr (Or.inr (Or.inl ⟨x :: xs, R', s', g1, by rw [g2, ho1, List.append_assoc]; rfl, by rw [List.length_cons, g3], ?_, g5, g6, ?_⟩))
          · rw [hR, g4, List.flatMap_cons, List.append_assoc]
          · intro y hy
            rcases List.mem_cons.1 hy with rfl | hy
            · exact hx1
            · exact g7 y hy
        · exact Or.inr (Or.inr (Or.inr ⟨hR ▸ g1.app _, g2⟩))
      · rw [e1]
        have hbad : SigBad R := by
          rcases hend with hend | hend
          · rw [hR, drop_end hend]
            by_cases hm : 0 < m
            · exact (SigBad.last hm).app _
            · obtain rfl : m = 0 := by omega
              refine Or.inr ⟨[], natBits 40 a ++ (List.replicate 0 true ++ [false]), rfl, ?_, ?_⟩
              · rw [List.length_append, natBits_length]; simp
              · rw [List.mem_append]
                left
                by_contra hn
                have := natBits_zero_iff 40 a ha hn
                omega
          · rw [hR]; exact (SigBad.ones (by omega) _).app _
        cases n with
        | zero =>
          rw [decZLoop_zero sig (by omega)]
          exact Or.inr (Or.inr (Or.inr ⟨hbad, Or.inr ⟨s1, rfl, hlt1⟩⟩))
        | succ n =>
          by_cases h2 : s1.off < sig.length
          · obtain ⟨fuel, rfl⟩ : ∃ k, fuel = k + 1 := ⟨fuel - 1, by omega⟩
            rw [decZLoop_succ, if_pos ⟨h2, Nat.succ_pos n⟩, decRefill_ub hlt1]
            exact Or.inr (Or.inr (Or.inr ⟨hbad, Or.inl rfl⟩))
          · rw [decZLoop_end (by omega) h2]
            exact Or.inr (Or.inl ⟨n, s1, rfl⟩)
    · rw [decZLoop_end (by omega) hoff]
      exact Or.inr (Or.inl ⟨n, s, rfl⟩)

theorem respBits_length (x : Int) : (respBits x).length = 40 + (x.natAbs / 2 ^ 40 + 1 + (if x = 0 then 0 else 1)) := by
  rw [respBits_eq, List.length_append, natBits_length, tailBits_length]

theorem respBits_flat_length (xs : List Int) : 41 * xs.length ≤ (xs.flatMap respBits).length := by
  induction xs with
  | nil => simp
  | cons x xs ih =>
    have := respBits_length x
    rw [List.flatMap_cons, List.length_append, List.length_cons]; omega

theorem decZLoop_complete {sig : List U8} : ∀ (xs : List Int) (fuel : Nat) {s : DecSt} {R R' : List Bool}, xs.length < fuel →
    BR sig R s.off s.buffer s.bitOff.toNat → s.bitOff.toNat < 64 → R.length ≤ 8 * sig.length → R = xs.flatMap respBits ++ R' →
    (s.bitOff.toNat ≤ 40 ∨ 2 ≤ xs.length) → FitFrom respBits (8 * sig.length - R.length) xs →
    ∃ s', decZLoop sig fuel xs.length s = .ok (some (0, s')) ∧ s'.out = s.out ++ xs ∧ BR sig R' s'.off s'.buffer s'.bitOff.toNat ∧ s'.bitOff.toNat < 64 := by
  intro xs
  induction xs with
  | nil =>
    intro fuel s R R' hf h hb _ hR _ _
    rw [List.length_nil, decZLoop_zero sig (by omega)]
    exact ⟨s, rfl, by simp, by rw [hR] at h; exact h, hb⟩
  | cons x xs ih =>
    intro fuel s R R' hf h hb h8 hR hsz hfit
    obtain ⟨fuel, rfl⟩ : ∃ k, fuel = k + 1 := ⟨fuel - 1, by omega⟩
    rw [List.flatMap_cons, List.append_assoc] at hR
    have hlen := h.length
    have hlR : R.length = (respBits x).length + ((xs.flatMap respBits).length + R'.length) := by rw [hR]; simp only [List.length_append]
    have hx := respBits_length x
    have hxs := respBits_flat_length xs
    rw [List.length_cons] at hsz hf
    obtain ⟨f1, f2⟩ := hfit
    obtain ⟨s1, e1, ho1, hb1, hlt1⟩ := decZ_ok (fuel := fuel) (n := xs.length) h hb (by omega) h8 hR f1
    have hl1 : (xs.flatMap respBits ++ R').length = (xs.flatMap respBits).length + R'.length := List.length_append
    obtain ⟨s2, e2, ho2, hb2⟩ := ih fuel (by omega) hb1 (by omega) (by omega) rfl (by omega) (by
      rw [show 8 * sig.length - (xs.flatMap respBits ++ R').length = 8 * sig.length - R.length + (respBits x).length by omega]
      exact f2)
    refine ⟨s2, ?_, by rw [ho2, ho1, List.append_assoc]; rfl, hb2⟩
    rw [List.length_cons, e1, e2]

/-! ### The whole decoder -/

theorem foldl_zero : ∀ (rest : List U8) (acc : Bool),
    rest.foldl (fun acc byte => acc && decide (byte = 0)) acc = (acc && decide (rest = List.replicate rest.length 0)) := by
  intro rest
  induction rest with
  | nil => intro acc; simp
  | cons b rest ih =>
    intro acc
    rw [List.foldl_cons, ih, List.length_cons, List.replicate_succ, Bool.and_assoc]
    congr 1
    rw [← Bool.decide_and]
    exact decide_eq_decide.2 (by rw [List.cons.injEq])

theorem bitsVal_eq_zero : ∀ bs : List Bool, bitsVal bs = 0 ↔ bs = List.replicate bs.length false := by
  intro bs
  induction bs with
  | nil => simp [bitsVal]
  | cons b bs ih =>
    rw [List.length_cons, List.replicate_succ]
    show b.toNat + 2 * bitsVal bs = 0 ↔ _
    cases b
    · rw [List.cons.injEq, ← ih]; simp
    · simp

theorem bytesBits_zero_iff (b : List U8) : bytesBits b = List.replicate (8 * b.length) false ↔ b = List.replicate b.length 0 := by
  constructor
  · intro h
    apply bytesBits_inj
    rw [h, bytesBits_replicate_zero]
  · intro h
    conv_lhs => rw [h, bytesBits_replicate_zero]

/-- The last part of `decodeSig`. -/
def decCheck (cHash : List U8) (sig : List U8) (hs : List Int) (sz : DecSt) : Res (Option (List U8 × List Int × List Int)) := do
  let decodable ← (if sz.bitOff > 0 then do
      let one ← shl64 1 sz.bitOff.toNat
      let mask := one - 1
      let _ ← shr64 sz.buffer sz.bitOff.toNat
      Res.ok (decide (sz.buffer &&& mask = 0))
    else Res.ok true)
  if !decodable then .ok none
  else do
    let rest ← subspan sig sz.off (sig.length - sz.off)
    if rest.foldl (fun acc byte => acc && decide (byte = 0)) true then .ok (some (cHash, hs, sz.out))
    else .ok none

theorem decCheck_eq {cHash sig : List U8} {hs : List Int} {sz : DecSt} {R : List Bool} (h : BR sig R sz.off sz.buffer sz.bitOff.toNat) (hb : sz.bitOff.toNat < 64) :
    decCheck cHash sig hs sz = .ok (if R = List.replicate R.length false then some (cHash, hs, sz.out) else none) := by
  obtain ⟨bs, k1, k2, k3⟩ := h.bits
  have hoff := h.off_le
  have hlow : (sz.buffer &&& ((1 : U64) <<< sz.bitOff.toNat - 1)).toNat = bitsVal bs := by
    rw [mask_and hb, k2.low, ← k1, List.take_length]
  have hR : R = List.replicate R.length false ↔ bs = List.replicate bs.length false ∧ sig.drop sz.off = List.replicate (sig.drop sz.off).length 0 := by
    rw [← k3, List.length_append, ← List.replicate_append_replicate]
    constructor
    · intro e
      have := List.append_inj e (by simp)
      exact ⟨this.1, (bytesBits_zero_iff _).1 (by rw [← bytesBits_length]; exact this.2)⟩
    · rintro ⟨e1, e2⟩
      rw [← e1, bytesBits_length, ← (bytesBits_zero_iff _).2 e2]
  unfold decCheck
  have hd : (if sz.bitOff > 0 then do
      let one ← shl64 1 sz.bitOff.toNat
      let mask := one - 1
      let _ ← shr64 sz.buffer sz.bitOff.toNat
      Res.ok (decide (sz.buffer &&& mask = 0))
    else Res.ok true) = Res.ok (decide (bs = List.replicate bs.length false)) := by
    by_cases h0 : sz.bitOff > 0
    · rw [if_pos h0, shl64_ok hb, Res.ok_bind, shr64_ok hb]
      show Res.ok (decide _) = _
      congr 2
      rw [← bitsVal_eq_zero, ← hlow]
      apply propext
      constructor
      · intro e; rw [e]; rfl
      · intro e; exact BitVec.eq_of_toNat_eq e
    · rw [if_neg h0]
      have : sz.bitOff.toNat = 0 := by
        have : ¬ (0 : Nat) < sz.bitOff.toNat := h0
        omega
      rw [this] at k1
      rw [List.length_eq_zero_iff.1 k1]
      rfl
  rw [hd, Res.ok_bind]
  by_cases hbs : bs = List.replicate bs.length false
  · rw [decide_eq_true hbs, if_neg (by decide), subspan_ok (by omega), Res.ok_bind, foldl_zero,
      show (sig.drop sz.off).take (sig.length - sz.off) = sig.drop sz.off from List.take_of_length_le (by rw [List.length_drop])]
    by_cases hr : sig.drop sz.off = List.replicate (sig.drop sz.off).length 0
    · rw [decide_eq_true hr, if_pos (by decide), if_pos (hR.2 ⟨hbs, hr⟩)]
    · rw [decide_eq_false hr, if_neg (by decide), if_neg (fun e => hr (hR.1 e).2)]
  · rw [decide_eq_false hbs, if_pos (by decide), if_neg (fun e => hbs (hR.1 e).1)]

theorem decCheck_wrapped {cHash sig : List U8} {hs : List Int} {sz : DecSt} (hb : ¬ sz.bitOff.toNat < 64) : decCheck cHash sig hs sz = .ub := by
  unfold decCheck
  have : sz.bitOff > 0 := by show (0 : Nat) < sz.bitOff.toNat; omega
  rw [if_pos this, shl64_ub hb]
  rfl

theorem decodeSig_eq (hashLen hLen zLen : Nat) (sig : List U8) : decodeSig hashLen hLen zLen sig = (do
    let cHash ← subspan sig 0 hashLen
    match ← decHLoop sig hLen ⟨hashLen, 0, 0, []⟩ with
    | none => .ok none
    | some (nh, sh) =>
      if sh.off = sig.length ∨ nh ≠ 0 then .ok none
      else do
        match ← decZLoop sig (zLen + sig.length + 1) zLen { sh with out := [] } with
        | none => .ok none
        | some (nz, sz) => if nz ≠ 0 then .ok none else decCheck cHash sig sh.out sz) := rfl

/-- Every outcome of decoding: rejected, accepted (and then canonical), or undefined on a bad payload. -/
theorem decodeSig_cases (hashLen hLen zLen : Nat) (sig : List U8) (hl : hashLen ≤ sig.length) :
    decodeSig hashLen hLen zLen sig = .ok none ∨
    (∃ c h z, decodeSig hashLen hLen zLen sig = .ok (some (c, h, z)) ∧ c.length = hashLen ∧ h.length = hLen ∧ z.length = zLen ∧
      IsSigEncoding c h z sig.length sig ∧ (∀ x ∈ h, (hintBits x).length < 64) ∧ (∀ x ∈ z, (respBits x).length ≤ 64)) ∨
    (decodeSig hashLen hLen zLen sig = .ub ∧ SigBad (bytesBits (sig.drop hashLen))) := by
  rw [decodeSig_eq, subspan_ok (by omega), Res.ok_bind]
  have h0 : BR sig (bytesBits (sig.drop hashLen)) hashLen 0 (0 : U64).toNat := BR.start hl
  rcases decHLoop_cases hLen (s := ⟨hashLen, 0, 0, []⟩) h0 (show (0 : U64).toNat < 64 by decide) with e | ⟨n', s', e⟩ | ⟨xs, R', s', e, g1, g2, g3, g4, g5, g6⟩ | ⟨hbad, e | ⟨s', e, g⟩⟩
  · rw [e]; exact Or.inl rfl
  · rw [e, Res.ok_bind]
    left
    show (if s'.off = sig.length ∨ n' + 1 ≠ 0 then _ else _ : Res _) = _
    rw [if_pos (Or.inr (by omega))]
  · rw [e, Res.ok_bind]
    show (if s'.off = sig.length ∨ 0 ≠ 0 then _ else _ : Res _) = _ ∨ (∃ c h z, (if s'.off = sig.length ∨ 0 ≠ 0 then _ else _ : Res _) = _ ∧ _) ∨
      ((if s'.off = sig.length ∨ 0 ≠ 0 then _ else _ : Res _) = _ ∧ _)
    by_cases hend : s'.off = sig.length
    · rw [if_pos (Or.inl hend)]; exact Or.inl rfl
    rw [if_neg (by omega)]
    rcases decZLoop_cases zLen (zLen + sig.length + 1) (s := { s' with out := [] }) (by omega) g4 g5 with e | ⟨n', s2, e⟩ | ⟨zs, R2, s2, e, i1, i2, i3, i4, i5, i6⟩ | ⟨hbad, e | ⟨s2, e, g⟩⟩
    · rw [e]; exact Or.inl rfl
    · rw [e, Res.ok_bind]
      left
      show (if n' + 1 ≠ 0 then _ else _ : Res _) = _
      rw [if_pos (by omega)]
    · rw [e, Res.ok_bind]
      show (if 0 ≠ 0 then _ else _ : Res _) = _ ∨ (∃ c h z, (if 0 ≠ 0 then _ else _ : Res _) = _ ∧ _) ∨ ((if 0 ≠ 0 then _ else _ : Res _) = _ ∧ _)
      rw [if_neg (by omega), decCheck_eq i4 i5]
      by_cases hz : R2 = List.replicate R2.length false
      · rw [if_pos hz]
        right; left
        refine ⟨_, _, _, rfl, ?_, ?_, ?_, ⟨rfl, R2.length, ?_⟩, ?_, ?_⟩
        · rw [List.drop_zero, List.length_take]; omega
        · rw [g1]; simpa using g2
        · rw [i1]; simpa using i2
        · rw [g1, i1]
          show bytesBits sig = bytesBits ((sig.drop 0).take hashLen) ++ sigBits ([] ++ xs) ([] ++ zs) ++ _
          rw [← hz, List.drop_zero, List.nil_append, List.nil_append]
          unfold sigBits
          rw [List.append_assoc, List.append_assoc, ← i3, ← g3, ← bytesBits_append, List.take_append_drop]
        · rw [g1]; simpa using g6
        · rw [i1]; simpa using i6
      · rw [if_neg hz]; exact Or.inl rfl
    · right; right
      rw [e]
      exact ⟨rfl, g3 ▸ hbad.app _⟩
    · right; right
      rw [e, Res.ok_bind]
      show (if 0 ≠ 0 then _ else _ : Res _) = _ ∧ _
      rw [if_neg (by omega), decCheck_wrapped g]
      exact ⟨rfl, g3 ▸ hbad.app _⟩
  · right; right
    rw [e]
    exact ⟨rfl, hbad⟩
  · rw [e, Res.ok_bind]
    show (if s'.off = sig.length ∨ 0 ≠ 0 then _ else _ : Res _) = _ ∨ (∃ c h z, (if s'.off = sig.length ∨ 0 ≠ 0 then _ else _ : Res _) = _ ∧ _) ∨
      ((if s'.off = sig.length ∨ 0 ≠ 0 then _ else _ : Res _) = _ ∧ _)
    by_cases hend : s'.off = sig.length
    · rw [if_pos (Or.inl hend)]; exact Or.inl rfl
    rw [if_neg (by omega)]
    cases zLen with
    | zero =>
      right; right
      rw [decZLoop_zero sig (by omega), Res.ok_bind]
      show (if 0 ≠ 0 then _ else _ : Res _) = _ ∧ _
      rw [if_neg (by omega), decCheck_wrapped (by exact g)]
      exact ⟨rfl, hbad⟩
    | succ zLen =>
      by_cases h2 : s'.off < sig.length
      · right; right
        rw [decZLoop_succ, if_pos ⟨h2, Nat.succ_pos _⟩, decRefill_ub (by exact g)]
        exact ⟨rfl, hbad⟩
      · left
        rw [decZLoop_end (by omega) (by exact h2), Res.ok_bind]
        show (if zLen + 1 ≠ 0 then _ else _ : Res _) = _
        rw [if_pos (by omega)]

/-- A proper encoding in which the encoder's window never filled up is decoded. -/
theorem decodeSig_complete {c sig : List U8} {h z : List Int} (he : IsSigEncoding c h z sig.length sig) (hf : FitFrom hintBits 0 h ∧ FitFrom respBits (h.flatMap hintBits).length z)
    (hz : 2 ≤ z.length) :
    decodeSig c.length h.length z.length sig = .ok (some (c, h, z)) := by
  obtain ⟨-, pad, hbits⟩ := he
  have hlen := congrArg List.length hbits
  rw [List.length_append, List.length_append, bytesBits_length, bytesBits_length, List.length_replicate] at hlen
  have hcl : c.length ≤ sig.length := by omega
  have hsplit : bytesBits (sig.take c.length) = bytesBits c ∧ bytesBits (sig.drop c.length) = sigBits h z ++ List.replicate pad false := by
    rw [← List.take_append_drop c.length sig, bytesBits_append, List.append_assoc] at hbits
    refine List.append_inj hbits ?_
    rw [bytesBits_length, bytesBits_length, List.length_take]; omega
  have hc : sig.take c.length = c := bytesBits_inj hsplit.1
  rw [decodeSig_eq, subspan_ok (by omega), Res.ok_bind]
  have h0 : BR sig (bytesBits (sig.drop c.length)) c.length 0 (0 : U64).toNat := BR.start hcl
  have hzl := respBits_flat_length z
  have hR : bytesBits (sig.drop c.length) = h.flatMap hintBits ++ (z.flatMap respBits ++ List.replicate pad false) := by
    rw [hsplit.2]; unfold sigBits; rw [List.append_assoc]
  have hRl : (bytesBits (sig.drop c.length)).length = 8 * (sig.length - c.length) := by rw [bytesBits_length, List.length_drop]
  have hsl : (sigBits h z).length = (h.flatMap hintBits).length + (z.flatMap respBits).length := List.length_append
  have hR'l : (z.flatMap respBits ++ List.replicate pad false).length = (z.flatMap respBits).length + pad := by
    rw [List.length_append, List.length_replicate]
  obtain ⟨s1, e1, o1, b1, l1⟩ := decHLoop_complete h (s := ⟨c.length, 0, 0, []⟩) h0 (show (0 : U64).toNat < 64 by decide) (by omega) hR (by omega) (by
    rw [hRl, show 8 * sig.length - 8 * (sig.length - c.length) = 8 * c.length + 0 by omega, fitFrom_shift]
    exact hf.1)
  rw [e1, Res.ok_bind]
  show (if s1.off = sig.length ∨ 0 ≠ 0 then _ else _ : Res _) = _
  have hb1 := b1.length
  rw [if_neg (by omega)]
  obtain ⟨s2, e2, o2, b2, l2⟩ := decZLoop_complete z (z.length + sig.length + 1) (s := { s1 with out := [] }) (by omega) b1 l1 (by omega) rfl (Or.inr hz) (by
    rw [show 8 * sig.length - (z.flatMap respBits ++ List.replicate pad false).length = 8 * c.length + (h.flatMap hintBits).length by omega, fitFrom_shift]
    exact hf.2)
  rw [e2, Res.ok_bind]
  show (if 0 ≠ 0 then _ else _ : Res _) = _
  rw [if_neg (by omega), decCheck_eq b2 l2, if_pos (by rw [List.length_replicate]), o1, o2, List.drop_zero, hc]
  rfl

end Raccoon
