import Verif.Proofs.LeakShape
import Verif.Proofs.LeakParse
import Verif.Proofs.SigEnc
import Mathlib.Data.Finset.Dedup
import Mathlib.Data.List.Dedup
/-!
# The observations of signing
-/
namespace Raccoon
open Lk Lk.Shows
attribute [-instance] Monoid.toNPow

/-! ### Challenge -/

namespace Poly

/-- The positions of the nonzero coefficients. -/
def Drawn (seen : List Nat) (c : Poly) : Prop := ∀ i : Fin 512, c[i.val] = ⟨0⟩ ↔ i.val ∉ seen

theorem chalStep_shows (seen : List Nat) (xof : Xof) (c : Poly) (h : Drawn seen c) (s' : Xof × Poly × Nat)
    (hs : (chalStepL (xof, c, seen.toFinset.card)).val = .ok s') :
    ∃ i, i < 512 ∧ Drawn (i :: seen) s'.2.1 ∧ s'.2.2 = (i :: seen).toFinset.card ∧
      (chalStepL (xof, c, seen.toFinset.card)).tr =
        [.len 2, .br false] ++ Trace.bytes 2 ++ [.ix i, .ix i, .ix (if i ∈ seen then 0 else 1), .ix i] := by
  unfold chalStepL at hs ⊢
  dsimp only at hs ⊢
  obtain ⟨⟨b, xof1⟩, hb, hs⟩ := bind_val_ok hs
  rw [tr_bind_ok hb]
  obtain ⟨tb, lb⟩ := squeezeQ _ _ _ hb
  dsimp only at hs ⊢
  obtain ⟨w, hw, hs⟩ := bind_val_ok hs
  rw [tr_bind_ok hw, tb, (fromLe 16 lb w hw).1]
  have nv := chal_value_ne (w.setWidth 32)
  generalize ((w >>> 1) &&& (((1 : BitVec 16) <<< LOG2N) - 1)).toNat = i at hs ⊢
  obtain ⟨ci, r1, hs⟩ := bind_val_ok hs
  rw [tr_bind_ok r1]
  have r1 : c.rd i = .ok ci := r1
  have hlt : i < 512 := by
    by_contra hn
    unfold Vector.rd at r1
    rw [dif_neg hn] at r1
    cases r1
  have e1 : c[i] = ci := by
    unfold Vector.rd at r1
    rw [dif_pos hlt] at r1
    exact Res.ok.inj r1
  have hz : ci = ⟨0⟩ ↔ i ∉ seen := by rw [← e1]; exact h ⟨i, hlt⟩
  obtain ⟨ci2, r2, hs⟩ := bind_val_ok hs
  rw [tr_bind_ok r2]
  obtain ⟨v, r3, hs⟩ := bind_val_ok hs
  rw [tr_bind_ok r3]
  obtain ⟨c', r4, hs⟩ := bind_val_ok hs
  rw [tr_bind_ok r4]
  cases hs
  have r4 : c.wr i v = .ok c' := r4
  have ec : c' = c.set i v := by
    unfold Vector.wr at r4
    rw [dif_pos hlt] at r4
    exact (Res.ok.inj r4).symm
  have nz : v ≠ ⟨0⟩ := by
    have r3 : (#v[ci, _] : Vector Zq 2).rd _ = .ok v := r3
    by_cases h0 : ci = ⟨0⟩
    · rw [decide_eq_true h0] at r3
      have r3 := Res.ok.inj r3
      subst r3
      exact nv
    · rw [decide_eq_false h0] at r3
      have r3 : ci = v := Res.ok.inj r3
      subst r3
      exact h0
  refine ⟨i, hlt, ?_, ?_, ?_⟩
  · intro j
    show c'[j.val] = _ ↔ _
    rw [ec, Vector.getElem_set]
    by_cases hij : i = j.val
    · rw [if_pos hij]
      constructor
      · intro e; exact absurd e nz
      · intro e; exact absurd (by rw [hij]; exact List.mem_cons_self ..) e
    · rw [if_neg hij, h j, List.mem_cons]
      constructor
      · rintro e (e' | e')
        · exact hij e'.symm
        · exact e e'
      · exact fun e e' => e (Or.inr e')
  · show seen.toFinset.card + _ = _
    rw [List.toFinset_cons]
    by_cases hm : i ∈ seen
    · rw [Finset.insert_eq_of_mem (List.mem_toFinset.2 hm), decide_eq_false (fun e => hz.1 e hm)]; rfl
    · rw [Finset.card_insert_of_notMem (fun e => hm (List.mem_toFinset.1 e)), decide_eq_true (hz.2 hm)]; rfl
  · show _ ++ (_ ++ (_ ++ (_ ++ ([Ev.ix _] ++ ([Ev.ix i] ++ []))))) = _
    by_cases hm : i ∈ seen
    · rw [decide_eq_false (fun e => hz.1 e hm), if_pos hm]; rfl
    · rw [decide_eq_true (hz.2 hm), if_neg hm]; rfl

theorem in_chalLoop (ω : Nat) : ∀ (n : Nat) (seen : List Nat) (xof : Xof) (c : Poly), Drawn seen c → seen.toFinset.card ≤ ω →
    (chalLoopL ω n (xof, c, seen.toFinset.card)).In fun u => ∃ draws : List Nat, (∀ i ∈ draws, i < 512) ∧
      (draws ++ seen).toFinset.card = ω ∧ u = Shape.challengeRounds seen draws
  | 0, seen, xof, c, hc, hle => by
    intro a ha
    unfold chalLoopL Lk.branch Lk.tick at ha ⊢
    by_cases h : seen.toFinset.card < ω
    · rw [if_pos h] at ha; cases ha
    · rw [if_neg h]
      refine ⟨⟨[], by simp, ?_, ?_⟩, trivial⟩
      · rw [List.nil_append]; omega
      · simp only [h, decide_false]; rfl
  | n + 1, seen, xof, c, hc, hle => by
    intro a ha
    unfold chalLoopL Lk.branch Lk.tick at ha ⊢
    by_cases h : seen.toFinset.card < ω
    · simp only [h, if_true, decide_true] at ha ⊢
      obtain ⟨⟨xof', c', cnt'⟩, hs, ha⟩ := bind_val_ok ha
      rw [tr_bind_ok hs]
      obtain ⟨i, hi, h1, h2, h3⟩ := chalStep_shows seen xof c hc _ hs
      dsimp only at h1 h2
      subst h2
      have hle' : (i :: seen).toFinset.card ≤ ω := by
        rw [List.toFinset_cons]
        exact le_trans (Finset.card_insert_le _ _) h
      obtain ⟨⟨ds, d1, d2, d3⟩, -⟩ := in_chalLoop ω n (i :: seen) xof' c' h1 hle' a ha
      rw [h3, d3]
      refine ⟨⟨i :: ds, ?_, ?_, ?_⟩, trivial⟩
      · intro j hj
        rcases List.mem_cons.1 hj with rfl | hj
        · exact hi
        · exact d1 j hj
      · rw [← d2]
        congr 1
        ext x
        simp only [List.mem_toFinset, List.mem_append, List.mem_cons]
        tauto
      · rw [Shape.challengeRounds]; simp
    · rw [if_neg h]
      refine ⟨⟨[], by simp, ?_, ?_⟩, trivial⟩
      · rw [List.nil_append]; omega
      · simp only [h, decide_false]; rfl

theorem in_chalPoly (E : Ext) (fuel ω : Nat) {c : List U8} {n : Nat} (hc : c.length = n) : (chalPolyL E fuel ω c).In (Shape.challenge ω n) := by
  unfold chalPolyL Shape.challenge
  have : ∀ S t, (Shape.seq (Shape.one [.len 8]) (Shape.seq (Shape.one [.len n]) S)) t → (Shape.seq (Shape.one [.len 8, .len n]) S) t := by
    rintro S t ⟨_, _, rfl, ⟨_, b, rfl, hb, rfl⟩, rfl⟩
    exact ⟨_, b, rfl, hb, rfl⟩
  refine Lk.In.shape (Lk.In.bind (Lk.In.of (absorb _ rfl)) fun _ => Lk.In.bind (Lk.In.of (absorb _ hc)) fun x => ?_) (this _)
  have h0 : Drawn [] zero := fun i => by
    unfold zero
    simp [Zq.zero]
  refine Lk.In.shape (in_chalLoop ω fuel [] x.finalize zero h0 (by simp)) ?_
  rintro t ⟨ds, d1, d2, d3⟩
  exact ⟨ds, d1, by rwa [List.append_nil] at d2, d3⟩
end Poly

/-! ### The public key -/

/-- After `j` coefficients. -/
def PkAt (seed n j : Nat) (s : PkEncSt) : Prop :=
  s.pkey.length = n ∧ (j = 0 → s.bitcnt = 0 ∧ s.idx = seed) ∧ (0 < j → s.bitcnt = 7 * ((j - 1) % 8 + 1) ∧ s.idx = seed + 7 * ((j - 1) / 8))

theorem putLe_shows (b : List U8) (o c : Nat) (v : U64) : (putLeL b o c v).Shows (Shape.putWord o c) fun r => r.length = b.length :=
  fun _ h => ⟨rfl, putLe_len h⟩

theorem pkFlush_shows (s : PkEncSt) : (pkFlushL 42 s).Shows (if s.bitcnt = 56 then .br true :: Shape.putWord s.idx 7 else [.br false])
    fun r => r.pkey.length = s.pkey.length ∧ (if s.bitcnt = 56 then r.idx = s.idx + 7 ∧ r.bitcnt = 0 else r = s) := by
  unfold pkFlushL
  have e : Nat.lcm (Q_BIT_WIDTH - 42) 8 = 56 := by decide
  rw [e]
  dsimp only
  refine branch (fun h => ?_) fun h => Lk.Shows.pure ⟨rfl, by rw [if_neg h]⟩
  exact (Lk.Shows.bindQ (putLe_shows _ _ _ _) fun b hb => Lk.Shows.pure ⟨hb, by rw [if_pos h]; exact ⟨rfl, rfl⟩⟩).cast (List.append_nil _)

theorem pkCoeff_shows (seed n j : Nat) (x : Zq) (s : PkEncSt) (h : PkAt seed n j s) : (pkEncCoeffL 42 x s).Shows
    (if 0 < j ∧ j % 8 = 0 then .br true :: Shape.putWord (seed + 7 * (j / 8 - 1)) 7 else [.br false]) (PkAt seed n (j + 1)) := by
  obtain ⟨h0, h1, h2⟩ := h
  unfold pkEncCoeffL
  refine (Lk.Shows.bindQ (pkFlush_shows s) fun s1 hs1 => Lk.Shows.bind lift fun _ => Lk.Shows.pure ?_).cast ?_
  · refine ⟨hs1.1.trans h0, by omega, fun _ => ?_⟩
    show s1.bitcnt + (Q_BIT_WIDTH - 42) = _ ∧ s1.idx = _
    have e : Q_BIT_WIDTH - 42 = 7 := rfl
    rw [e]
    have hs2 := hs1.2
    by_cases hj : j = 0
    · obtain ⟨b, c⟩ := h1 hj
      rw [if_neg (by omega)] at hs2
      subst hs2 hj
      omega
    · obtain ⟨b, c⟩ := h2 (by omega)
      by_cases h8 : j % 8 = 0
      · rw [if_pos (by omega)] at hs2
        omega
      · rw [if_neg (by omega)] at hs2
        subst hs2
        omega
  · by_cases hj : j = 0
    · obtain ⟨b, c⟩ := h1 hj
      rw [if_neg (by omega), if_neg (by omega)]; rfl
    · obtain ⟨b, c⟩ := h2 (by omega)
      by_cases h8 : j % 8 = 0
      · rw [if_pos (by omega), if_pos (by omega), c, List.append_nil, List.append_nil]
        congr 3
        omega
      · rw [if_neg (by omega), if_neg (by omega)]; rfl

theorem shows_publicKey {k : Nat} (hk : 0 < k) (seed : List U8) (t : PVec k 1) (b : List U8) :
    (encodePublicKeyL 42 seed t b).Shows (Shape.publicKey k seed.length) fun r => r.length = b.length := by
  unfold encodePublicKeyL Shape.publicKey
  rw [List.append_assoc]
  refine Lk.Shows.bindQ (Lk.Shows.writeSpan _ _ rfl) fun b1 hb1 => Lk.Shows.bindQ (Q := PkAt seed.length b.length (512 * k))
    (forQ (lo := 0) (hi := k) (step := 1) (n := k) (fun r s => PkAt seed.length b.length (512 * r) s) (by omega)
      ⟨hb1, fun _ => ⟨rfl, rfl⟩, fun h => absurd h (by omega)⟩ fun r s hr hs => ?_) fun s hs => ?_
  · rw [Nat.zero_add, Nat.one_mul]
    refine forQ (lo := 0) (hi := 512) (step := 1) (n := 512) (fun c s => PkAt seed.length b.length (512 * r + c) s) (by decide) hs fun c s hc hs => ?_
    rw [Nat.zero_add, Nat.one_mul]
    refine (Lk.Shows.bind (rd _ _) fun _ => Lk.Shows.bind (rd _ _) fun _ => Lk.Shows.bind (rd _ _) fun x =>
      pkCoeff_shows _ _ _ x s hs).cast ?_
    rw [Nat.mul_comm 512 r]
    rfl
  · obtain ⟨h0, -, h2⟩ := hs
    obtain ⟨h3, h4⟩ := h2 (by omega)
    refine (Lk.Shows.bindQ (pkFlush_shows s) fun s1 hs1 => Lk.Shows.pure (hs1.1.trans h0)).cast ?_
    rw [if_pos (by omega), h4, List.append_nil]
    congr 3
    omega

/-! ### The signature object and its encoding -/

theorem shows_centerVec (q' : U64) (v : PVec k 1) : (centerVecL q' v).Shows (Shape.centerVec k) := by
  unfold centerVecL Shape.centerVec
  exact for0 fun r s => (Lk.Shows.bind (rd _ _) fun _ => Lk.Shows.bind (rd _ _) fun _ => Lk.Shows.bind (Poly.shows_centerL _ _) fun _ =>
    Lk.Shows.tick (Lk.Shows.tick pureT)).cast (by simp)

theorem shows_sigMk (νw : Nat) (c : List U8) (h : PVec k 1) (z : PVec l 1) :
    (Sig.mkL νw c h z).Shows (.len c.length :: Shape.centerVec k ++ Shape.centerVec l) fun g => g.cHash = c := by
  unfold Sig.mkL
  refine (Lk.Shows.tick (Lk.Shows.bind (shows_centerVec _ _) fun _ => Lk.Shows.bind (shows_centerVec _ _) fun _ =>
    Lk.Shows.pure (Q := fun g : Sig => g.cHash = c) rfl)).cast ?_
  simp

theorem shows_abs' (x : Int) : (Lk.branch (x < 0) (Lk.lift (i64 x.natAbs)) (Lk.lift (i64 x.natAbs))).Shows [.br (decide (x < 0))]
    fun a => a.toNat = x.natAbs := by
  intro a ha
  rw [val_branch] at ha
  simp only [val_lift, ite_self] at ha
  have h := ha
  refine ⟨?_, ?_⟩
  · unfold Lk.branch Lk.tick Lk.lift; split <;> rfl
  · rcases i64_natAbs_cases x with ⟨e, -⟩ | ⟨e, -⟩
    · rw [e] at h; rw [← Res.ok.inj h]; rfl
    · rw [e] at h; cases h

theorem signTests_eq (x : Int) (p q r : List Ev) (hp : p = []) (hq : q = []) (hr : r = []) :
    [Ev.br (decide (x < 0))] ++ (if x > 0 then .br true :: p else .br false :: (if x < 0 then .br true :: q else .br false :: r)) = Shape.signTests x := by
  subst hp hq hr
  unfold Shape.signTests
  by_cases h1 : x > 0
  · simp [h1]
  · by_cases h2 : x < 0
    · simp [h1, h2]
    · simp [h1, h2]

theorem shows_hint (x : Int) (s : EncSt) : (encHintL x s).Shows (Shape.signTests x) fun s' => s'.off = s.off ∧ s'.bitOff = s.bitOff + Shape.hintWidth x := by
  unfold encHintL
  refine (Lk.Shows.bindQ (shows_abs' x) fun ax hax => Lk.Shows.bind lift fun _ => branch
    (fun h => Lk.Shows.bind lift fun _ => Lk.Shows.bind lift fun _ => Lk.Shows.pure ⟨rfl, ?_⟩)
    (fun h => branch (fun h => Lk.Shows.bind lift fun _ => Lk.Shows.bind lift fun _ => Lk.Shows.pure ⟨rfl, ?_⟩)
      (fun h => Lk.Shows.bind lift fun _ => Lk.Shows.pure ⟨rfl, ?_⟩))).cast (signTests_eq x _ _ _ rfl rfl rfl)
  · show s.bitOff + (ax.toNat + 2) = _; rw [hax]; unfold Shape.hintWidth; rw [if_neg (by omega)]
  · show s.bitOff + (ax.toNat + 2) = _; rw [hax]; unfold Shape.hintWidth; rw [if_neg (by omega)]
  · show s.bitOff + 1 = _; unfold Shape.hintWidth; rw [if_pos (by omega)]

theorem shows_resp (x : Int) (s : EncSt) : (encRespL x s).Shows (Shape.signTests x) fun s' => s'.off = s.off ∧ s'.bitOff = s.bitOff + Shape.respWidth x := by
  unfold encRespL
  refine (Lk.Shows.bindQ (shows_abs' x) fun ax hax => Lk.Shows.bind lift fun _ => Lk.Shows.bind lift fun _ => branch
    (fun h => Lk.Shows.bind lift fun _ => Lk.Shows.bind lift fun _ => Lk.Shows.pure ⟨rfl, ?_⟩)
    (fun h => branch (fun h => Lk.Shows.bind lift fun _ => Lk.Shows.bind lift fun _ => Lk.Shows.pure ⟨rfl, ?_⟩)
      (fun h => Lk.Shows.pure ⟨rfl, ?_⟩))).cast (signTests_eq x _ _ _ rfl rfl rfl)
  · show s.bitOff + 40 + (ax.toNat / 2 ^ 40 + 2) = _; rw [hax]; unfold Shape.respWidth; rw [if_neg (by omega), Nat.add_assoc]
  · show s.bitOff + 40 + (ax.toNat / 2 ^ 40 + 2) = _; rw [hax]; unfold Shape.respWidth; rw [if_neg (by omega), Nat.add_assoc]
  · show s.bitOff + 40 + 1 = _; unfold Shape.respWidth; rw [if_pos (by omega)]

theorem flush_shows (len : Nat) (s : EncSt) : (encFlushL len s).Shows
    (if s.bitOff < 8 then [.br false] else if len < s.off + s.bitOff / 8 then [.br true, .br true]
      else [.br true, .br false] ++ Shape.putWord s.off (s.bitOff / 8))
    fun r => if s.bitOff < 8 then r = (true, s) else if len < s.off + s.bitOff / 8 then r = (false, s)
      else r.1 = true ∧ r.2.off = s.off + s.bitOff / 8 ∧ r.2.bitOff = s.bitOff % 8 := by
  unfold encFlushL
  have e : and8 s.bitOff / 8 = s.bitOff / 8 := by unfold and8; omega
  dsimp only
  rw [e]
  by_cases h : s.bitOff < 8
  · rw [if_pos h]
    refine (branch (t := []) (u := []) (fun h' => absurd h' (by omega)) fun _ => Lk.Shows.pure (by rw [if_pos h])).cast ?_
    rw [if_neg (by omega)]
  · rw [if_neg h]
    by_cases h2 : len < s.off + s.bitOff / 8
    · rw [if_pos h2]
      refine (branch (t := [.br true]) (u := []) (fun _ => (branch (t := []) (u := [])
        (fun _ => Lk.Shows.pure (by rw [if_neg h, if_pos h2])) fun h' => absurd h2 h').cast (by rw [if_pos (by omega)])) fun h' => absurd h' (by omega)).cast ?_
      rw [if_pos (by omega)]
    · rw [if_neg h2]
      refine (branch (t := .br false :: Shape.putWord s.off (s.bitOff / 8)) (u := []) (fun _ => (branch (t := [])
        (u := Shape.putWord s.off (s.bitOff / 8)) (fun h' => absurd h' h2) fun h' => ?_).cast (by rw [if_neg (by omega)])) fun h' => absurd h' (by omega)).cast ?_
      · refine (Lk.Shows.bind (putLe_shows _ _ _ _).forget fun _ => Lk.Shows.bind lift fun _ => Lk.Shows.pure ?_).cast (by simp)
        rw [if_neg h, if_neg h2]
        refine ⟨rfl, rfl, ?_⟩
        show s.bitOff - and8 s.bitOff = _
        unfold and8; omega
      · rw [if_pos (by omega)]; rfl

theorem loop_shows (len : Nat) {enc : Int → EncSt → Lk EncSt} {width : Int → Nat}
    (henc : ∀ x s, (enc x s).Shows (Shape.signTests x) fun s' => s'.off = s.off ∧ s'.bitOff = s.bitOff + width x) : ∀ (xs : List Int) (i : Nat) (s : EncSt),
    (encLoopL len enc i xs s).Shows (Shape.encode width len s.off s.bitOff i xs) fun r =>
      r.1 = !Shape.overflows width len s.off s.bitOff xs ∧ (r.1 = true → (r.2.off, r.2.bitOff) = Shape.encodeEnd width s.off s.bitOff xs)
  | [], i, s => by
    unfold encLoopL
    exact Lk.Shows.tick (Lk.Shows.pure ⟨rfl, fun _ => rfl⟩)
  | x :: xs, i, s => by
    unfold encLoopL Shape.encode Shape.overflows Shape.encodeEnd
    refine Lk.Shows.tick ?_
    intro r hr
    obtain ⟨⟨f, s1⟩, hf, hr⟩ := bind_val_ok hr
    rw [tr_bind_ok hf]
    obtain ⟨t1, q1⟩ := flush_shows len s _ hf
    rw [t1]
    dsimp only at hr ⊢
    have cont : f = true → ∀ (h : (Lk.branch (f = true) (Lk.tick (.ix i) (do
          let s ← enc x s1
          encLoopL len enc (i + 1) xs s)) (pure (false, s1))).val = .ok r),
        (Lk.branch (f = true) (Lk.tick (.ix i) (do
          let s ← enc x s1
          encLoopL len enc (i + 1) xs s)) (pure (false, s1))).tr = [.br true, .ix i] ++ Shape.signTests x ++
            Shape.encode width len s1.off (s1.bitOff + width x) (i + 1) xs ∧
        r.1 = !Shape.overflows width len s1.off (s1.bitOff + width x) xs ∧
        (r.1 = true → (r.2.off, r.2.bitOff) = Shape.encodeEnd width s1.off (s1.bitOff + width x) xs) := by
      rintro rfl h
      have := (branch (c := true = true) (x := Lk.tick (.ix i) (do
          let s ← enc x s1
          encLoopL len enc (i + 1) xs s)) (y := (pure (false, s1) : Lk (Bool × EncSt))) (u := [])
        (fun _ => Lk.Shows.tick (Lk.Shows.bindQ (henc x s1) fun s2 h2 => by
          have := loop_shows len henc xs (i + 1) s2
          rw [h2.1, h2.2] at this
          exact this)) (fun h => absurd rfl h)) r h
      refine ⟨this.1.trans ?_, this.2⟩
      rw [if_pos rfl]; simp
    by_cases h : s.bitOff < 8
    · rw [if_pos h] at q1 ⊢
      cases q1
      obtain ⟨c1, c2⟩ := cont rfl hr
      rw [c1, if_pos h, if_pos h, if_pos h]
      exact ⟨by simp, c2⟩
    · rw [if_neg h] at q1 ⊢
      rw [if_neg h, if_neg h, if_neg h]
      by_cases h2 : len < s.off + s.bitOff / 8
      · rw [if_pos h2] at q1 ⊢
        cases q1
        cases hr
        refine ⟨?_, ?_, ?_⟩
        · rw [if_pos h2]; rfl
        · rw [decide_eq_true h2]; rfl
        · intro e; cases e
      · rw [if_neg h2] at q1 ⊢
        obtain ⟨q1, q2, q3⟩ := q1
        obtain ⟨c1, c2, c3⟩ := cont q1 hr
        rw [c1, if_neg h2, decide_eq_false h2, Bool.false_or, ← q2, ← q3]
        exact ⟨by simp, c2, c3⟩

theorem finish_shows (len : Nat) (s : EncSt) : (encFinishL len s).Shows
    (if 0 < s.bitOff then .br true :: if len < s.off + (s.bitOff + 7) / 8 then [.br true] else .br false :: Shape.putWord s.off ((s.bitOff + 7) / 8)
      else [.br false])
    fun r => r.1 = !decide (0 < s.bitOff ∧ len < s.off + (s.bitOff + 7) / 8) ∧ (r.1 = true → r.2.off = s.off + (s.bitOff + 7) / 8) := by
  unfold encFinishL
  have e : and8 (s.bitOff + 7) / 8 = (s.bitOff + 7) / 8 := by unfold and8; omega
  dsimp only
  rw [e]
  refine branch (fun h => (branch (t := []) (u := Shape.putWord s.off ((s.bitOff + 7) / 8)) (fun h2 => Lk.Shows.pure ⟨?_, fun e => by cases e⟩) fun h2 => ?_))
    fun h => Lk.Shows.pure ⟨?_, fun _ => ?_⟩
  · rw [decide_eq_true (p := _ ∧ _) ⟨h, h2⟩]; rfl
  · refine (Lk.Shows.bind (putLe_shows _ _ _ _).forget fun _ => Lk.Shows.bind lift fun _ => Lk.Shows.pure ⟨?_, fun _ => rfl⟩).cast (by simp)
    rw [decide_eq_false (p := _ ∧ _) (fun hh => h2 hh.2)]; rfl
  · rw [decide_eq_false (p := _ ∧ _) (fun hh => h hh.1)]; rfl
  · show s.off = _; omega

theorem shows_encodeSig (c : List U8) (h z : List Int) (sig : List U8) : (encodeSigL c h z sig).Shows (Shape.signature sig.length c.length h z)
    fun r => r.1 = Shape.fits sig.length c.length h z := by
  unfold encodeSigL Shape.signature Shape.fits
  dsimp only
  rw [List.append_assoc]
  refine Lk.Shows.bindQ (Lk.Shows.writeSpan _ _ rfl) fun sg hsg => ?_
  intro r hr
  obtain ⟨⟨ok, s⟩, h1, hr⟩ := bind_val_ok hr
  rw [tr_bind_ok h1]
  obtain ⟨t1, o1, e1⟩ := loop_shows sig.length shows_hint h 0 ⟨sg, c.length, 0, 0⟩ _ h1
  rw [t1]
  dsimp only at o1 e1 hr ⊢
  generalize Shape.overflows Shape.hintWidth sig.length c.length 0 h = ov at o1 ⊢
  subst o1
  cases ov with
  | true =>
    cases hr
    exact ⟨rfl, rfl⟩
  | false =>
    have e1 := e1 rfl
    generalize Shape.encodeEnd Shape.hintWidth c.length 0 h = mid at e1 ⊢
    subst e1
    dsimp only
    have hr : ((encLoopL sig.length encRespL 0 z s >>= fun x => Lk.branch ((!x.1) = true) (pure (false, x.2.sig)) (do
        let (ok, s) ← encFinishL sig.length x.2
        Lk.branch ((!ok) = true) (pure (false, s.sig)) (do
          let sig ← writeSpanL s.sig s.off (List.replicate (sig.length - s.off) 0)
          pure (true, sig)))).val) = .ok r := hr
    suffices H : (encLoopL sig.length encRespL 0 z s >>= fun x => Lk.branch ((!x.1) = true) (pure (false, x.2.sig)) (do
        let (ok, s) ← encFinishL sig.length x.2
        Lk.branch ((!ok) = true) (pure (false, s.sig)) (do
          let sig ← writeSpanL s.sig s.off (List.replicate (sig.length - s.off) 0)
          pure (true, sig)))).Shows (Shape.encode Shape.respWidth sig.length s.off s.bitOff 0 z ++
            .br (Shape.overflows Shape.respWidth sig.length s.off s.bitOff z) ::
          if Shape.overflows Shape.respWidth sig.length s.off s.bitOff z then [] else
            (if 0 < (Shape.encodeEnd Shape.respWidth s.off s.bitOff z).2 then .br true ::
                if sig.length < (Shape.encodeEnd Shape.respWidth s.off s.bitOff z).1 + ((Shape.encodeEnd Shape.respWidth s.off s.bitOff z).2 + 7) / 8 then [.br true]
                else .br false :: Shape.putWord (Shape.encodeEnd Shape.respWidth s.off s.bitOff z).1 (((Shape.encodeEnd Shape.respWidth s.off s.bitOff z).2 + 7) / 8)
              else [.br false]) ++
            if 0 < (Shape.encodeEnd Shape.respWidth s.off s.bitOff z).2 ∧
                sig.length < (Shape.encodeEnd Shape.respWidth s.off s.bitOff z).1 + ((Shape.encodeEnd Shape.respWidth s.off s.bitOff z).2 + 7) / 8 then [.br true]
            else [.br false, .ix ((Shape.encodeEnd Shape.respWidth s.off s.bitOff z).1 + ((Shape.encodeEnd Shape.respWidth s.off s.bitOff z).2 + 7) / 8),
              .len (sig.length - ((Shape.encodeEnd Shape.respWidth s.off s.bitOff z).1 + ((Shape.encodeEnd Shape.respWidth s.off s.bitOff z).2 + 7) / 8))])
        fun r => r.1 = (!Shape.overflows Shape.respWidth sig.length s.off s.bitOff z &&
          !decide (0 < (Shape.encodeEnd Shape.respWidth s.off s.bitOff z).2 ∧
            sig.length < (Shape.encodeEnd Shape.respWidth s.off s.bitOff z).1 + ((Shape.encodeEnd Shape.respWidth s.off s.bitOff z).2 + 7) / 8)) by
      obtain ⟨a1, a2⟩ := H r hr
      refine ⟨?_, ?_⟩
      · show _ ++ (Ev.br false :: _) = _
        exact congrArg (fun l => Shape.encode Shape.hintWidth sig.length c.length 0 0 h ++ Ev.br false :: l) a1
      · rw [a2]; simp
    clear * -
    intro r hr
    obtain ⟨⟨ok, s2⟩, h1, hr⟩ := bind_val_ok hr
    rw [tr_bind_ok h1]
    obtain ⟨t1, o1, e1⟩ := loop_shows sig.length shows_resp z 0 s _ h1
    rw [t1]
    dsimp only at o1 e1 hr ⊢
    generalize Shape.overflows Shape.respWidth sig.length s.off s.bitOff z = ov at o1 ⊢
    subst o1
    cases ov with
    | true =>
      cases hr
      exact ⟨rfl, rfl⟩
    | false =>
      have e1 := e1 rfl
      generalize Shape.encodeEnd Shape.respWidth s.off s.bitOff z = fin at e1 ⊢
      subst e1
      dsimp only
      have H : Lk.Shows (α := Bool × List U8) (do
          let (ok, s) ← encFinishL sig.length s2
          Lk.branch ((!ok) = true) (pure (false, s.sig)) (do
            let sig ← writeSpanL s.sig s.off (List.replicate (sig.length - s.off) 0)
            pure (true, sig))) ((if 0 < s2.bitOff then .br true ::
                if sig.length < s2.off + (s2.bitOff + 7) / 8 then [.br true] else .br false :: Shape.putWord s2.off ((s2.bitOff + 7) / 8)
              else [.br false]) ++
            if 0 < s2.bitOff ∧ sig.length < s2.off + (s2.bitOff + 7) / 8 then [.br true]
            else [.br false, .ix (s2.off + (s2.bitOff + 7) / 8), .len (sig.length - (s2.off + (s2.bitOff + 7) / 8))])
          fun r : Bool × List U8 => r.1 = !decide (0 < s2.bitOff ∧ sig.length < s2.off + (s2.bitOff + 7) / 8) := by
        refine Lk.Shows.bindQ (finish_shows sig.length s2) ?_
        rintro ⟨ok, s3⟩ ⟨a1, a2⟩
        dsimp only at a1 a2 ⊢
        by_cases hc : 0 < s2.bitOff ∧ sig.length < s2.off + (s2.bitOff + 7) / 8
        · rw [decide_eq_true hc] at a1 ⊢
          subst a1
          rw [if_pos hc]
          exact fun r hr => by cases hr; exact ⟨rfl, rfl⟩
        · rw [decide_eq_false hc] at a1 ⊢
          subst a1
          rw [if_neg hc, ← a2 rfl]
          refine (branch (c := (!!false) = true) (t := []) (u := [.ix s3.off, .len (sig.length - s3.off)] ++ []) (fun h => by cases h)
            fun _ => Lk.Shows.bind (Lk.Shows.writeSpan _ _ (List.length_replicate ..)).forget fun sg => Lk.Shows.pure (a := (true, sg)) rfl).cast ?_
          rw [if_neg (by decide)]; rfl
      obtain ⟨a1, a2⟩ := H r hr
      refine ⟨?_, ?_⟩
      · show _ ++ (Ev.br false :: _) = _
        exact congrArg (fun l => Shape.encode Shape.respWidth sig.length s.off s.bitOff 0 z ++ Ev.br false :: l) a1
      · rw [a2]; rfl

/-! ### The norm check -/

theorem in_each {α σ : Type} {f : σ → α → Lk σ} {B : α → Shape} (h : ∀ s x, (f s x).In (B x)) : ∀ (xs : List α) (i : Nat) (s : σ),
    (eachL f i xs s).In (Shape.loop (xs.zipIdx i) fun x => Shape.one [.ix x.2] ⬝ B x.1)
  | [], i, s => fun a ha => ⟨rfl, trivial⟩
  | x :: xs, i, s => by
    rw [eachL, List.zipIdx_cons]
    intro a ha
    obtain ⟨⟨_, _, rfl, ⟨_, _, rfl, ⟨u, v, hu, hv, e1⟩, e2⟩, e3⟩, -⟩ := Lk.In.tick (e := .br true) (Lk.In.tick (e := .ix i)
      (Lk.In.bind (h s x) fun s => in_each h xs (i + 1) s)) a ha
    refine ⟨⟨_, _, rfl, ⟨[.ix i] ++ u, v, ⟨_, _, rfl, hu, rfl⟩, hv, ?_⟩, e3⟩, trivial⟩
    rw [e2, e1, List.append_assoc]

theorem loop_mono {ι : Type} {B B' : ι → Shape} (h : ∀ i t, B i t → B' i t) : ∀ (is : List ι) t, Shape.loop is B t → Shape.loop is B' t
  | [], _, ht => ht
  | i :: is, _, ⟨a, b, ha, ⟨c, e, hc, he, h1⟩, h2⟩ => ⟨a, b, ha, ⟨c, e, h i c hc, loop_mono h is e he, h1⟩, h2⟩

theorem in_hNormStep (s : U64 × U64) (x : Int) : (hNormStepL s x).In fun u => ∃ b, u = [.br (decide (x < 0)), .br b] := by
  intro a ha
  unfold hNormStepL at ha ⊢
  obtain ⟨y, hy, ha⟩ := bind_val_ok ha
  rw [tr_bind_ok hy, (shows_abs' x y hy).1]
  dsimp only at ha ⊢
  obtain ⟨m, hm, ha⟩ := bind_val_ok ha
  rw [tr_bind_ok hm]
  refine ⟨⟨decide (s.1 < BitVec.ofInt 64 y), ?_⟩, trivial⟩
  unfold Lk.branch Lk.tick
  split <;> rfl

theorem branch_pure {α : Type} (c : Prop) [Decidable c] (x y : α) : (Lk.branch c (Pure.pure x : Lk α) (Pure.pure y)).Shows [.br (decide c)] := by
  refine (branch (t := []) (u := []) (fun _ => pureT) fun _ => pureT).cast ?_
  by_cases h : c
  · rw [if_pos h, decide_eq_true h]
  · rw [if_neg h, decide_eq_false h]

theorem in_zNormStep (s : Zq × Zq) (x : Int) : (zNormStepL s x).In fun u => ∃ b b', u = [.br b, .br b'] ++ Trace.barrett := by
  intro a ha
  unfold zNormStepL at ha ⊢
  dsimp only at ha ⊢
  obtain ⟨y, hy, ha⟩ := bind_val_ok ha
  rw [tr_bind_ok hy]
  obtain ⟨y1, h1, ha⟩ := bind_val_ok ha
  rw [tr_bind_ok h1, (branch_pure _ _ _ _ h1).1]
  obtain ⟨y2, h2, ha⟩ := bind_val_ok ha
  rw [tr_bind_ok h2, (branch_pure _ _ _ _ h2).1]
  obtain ⟨y3, h3, ha⟩ := bind_val_ok ha
  rw [tr_bind_ok h3]
  obtain ⟨y4, h4, ha⟩ := bind_val_ok ha
  rw [tr_bind_ok h4, (shows_zqMul _ _ _ h4).1]
  refine ⟨⟨decide (y.gt ⟨Q / 2⟩ = true), decide (s.1.raw < y1.raw), ?_⟩, trivial⟩
  show [] ++ ([Ev.br _] ++ ([Ev.br _] ++ ([] ++ (Trace.barrett ++ [])))) = _
  rw [List.append_nil]
  rfl

theorem in_checkBounds (νw : Nat) (Binf B22 : U64) (g : Sig) : ∀ ok, (g.checkBoundsL νw Binf B22).val = .ok ok →
    (Shape.norms g.h g.z ⬝ Shape.verdict ok) (g.checkBoundsL νw Binf B22).tr := by
  intro ok h
  unfold Sig.checkBoundsL at h ⊢
  obtain ⟨⟨hInf, hSqr⟩, h1, h⟩ := bind_val_ok h
  rw [tr_bind_ok h1]
  dsimp only at h ⊢
  obtain ⟨⟨zInf, zSqr⟩, h2, h⟩ := bind_val_ok h
  rw [tr_bind_ok h2]
  dsimp only at h ⊢
  have a1 := loop_mono (B' := fun x => fun u => ∃ b, u = [.ix x.2, .br (decide (x.1 < 0)), .br b]) (fun i t => by
    rintro ⟨_, _, rfl, ⟨b, rfl⟩, rfl⟩; exact ⟨b, rfl⟩) _ _ (in_each in_hNormStep g.h 0 _ _ h1).1
  have a2 := loop_mono (B' := fun x => fun u => ∃ b b', u = [.ix x.2, .br b, .br b'] ++ Trace.barrett) (fun i t => by
    rintro ⟨_, _, rfl, ⟨b, b', rfl⟩, rfl⟩; exact ⟨b, b', rfl⟩) _ _ (in_each in_zNormStep g.z 0 _ _ h2).1
  rw [← List.append_assoc]
  refine ⟨_, _, ⟨_, _, a1, a2, rfl⟩, ?_, rfl⟩
  generalize (⟨hSqr * ((1 : U64) <<< (2 * νw - 64))⟩ : Zq) = sc at h ⊢
  unfold Lk.branch Lk.tick at h ⊢
  unfold Shape.verdict
  by_cases c1 : hInf > Binf >>> νw
  · simp only [c1, if_true, decide_true] at h ⊢
    cases h
    exact Or.inl rfl
  · by_cases c2 : zInf.gt ⟨Binf⟩ = true
    · simp only [c1, c2, if_true, if_false, decide_true, decide_false] at h ⊢
      cases h
      exact Or.inr (Or.inl rfl)
    · by_cases c3 : (sc + zSqr).gt ⟨B22⟩ = true
      · simp only [c1, c2, c3, if_true, if_false, decide_true, decide_false] at h ⊢
        cases h
        exact Or.inr (Or.inr rfl)
      · simp only [c1, c2, c3, if_false, decide_false] at h ⊢
        cases h
        rfl

/-! ### Attempts -/

theorem Lk.In.preQ {α β : Type u} {p : Lk α} {f : α → Lk β} {t u : List Ev} {S : Shape} {Q : α → Prop} {Q' : β → Prop} (h : p.Shows t Q)
    (hf : ∀ a, Q a → (f a).In (Shape.one u ⬝ S) Q') : (p >>= f).In (Shape.one (t ++ u) ⬝ S) Q' := by
  intro b hb
  obtain ⟨a, ha, hb⟩ := bind_val_ok hb
  obtain ⟨h1, h2⟩ := h a ha
  obtain ⟨⟨_, v, rfl, hv, e⟩, h4⟩ := hf a h2 b hb
  exact ⟨⟨_, v, rfl, hv, by rw [tr_bind_ok ha, h1, e, List.append_assoc]⟩, h4⟩

/-- A completed run with result `a` shows one of `S a`. -/
def Lk.Out {α : Type u} (p : Lk α) (S : α → Shape) : Prop := ∀ a, p.val = .ok a → S a p.tr

theorem Lk.Out.bindQ {α β : Type u} {p : Lk α} {f : α → Lk β} {S : Shape} {S' : β → Shape} {Q : α → Prop} (h : p.In S Q)
    (hf : ∀ a, Q a → (f a).Out S') : (p >>= f).Out fun b => S ⬝ S' b := by
  intro b hb
  obtain ⟨a, ha, hb⟩ := bind_val_ok hb
  obtain ⟨h1, h2⟩ := h a ha
  exact ⟨_, _, h1, hf a h2 b hb, tr_bind_ok ha⟩
theorem Lk.Out.bind {α β : Type u} {p : Lk α} {f : α → Lk β} {S : Shape} {S' : β → Shape} (h : p.In S)
    (hf : ∀ a, (f a).Out S') : (p >>= f).Out fun b => S ⬝ S' b := Lk.Out.bindQ h fun a _ => hf a
theorem Lk.Out.preQ {α β : Type u} {p : Lk α} {f : α → Lk β} {t u : List Ev} {S : β → Shape} {Q : α → Prop} (h : p.Shows t Q)
    (hf : ∀ a, Q a → (f a).Out fun b => Shape.one u ⬝ S b) : (p >>= f).Out fun b => Shape.one (t ++ u) ⬝ S b := by
  intro b hb
  obtain ⟨a, ha, hb⟩ := bind_val_ok hb
  obtain ⟨h1, h2⟩ := h a ha
  obtain ⟨_, v, rfl, hv, e⟩ := hf a h2 b hb
  exact ⟨_, v, rfl, hv, by rw [tr_bind_ok ha, h1, e, List.append_assoc]⟩
theorem Lk.Out.pre {α β : Type u} {p : Lk α} {f : α → Lk β} {t u : List Ev} {S : β → Shape} (h : p.Shows t)
    (hf : ∀ a, (f a).Out fun b => Shape.one u ⬝ S b) : (p >>= f).Out fun b => Shape.one (t ++ u) ⬝ S b := Lk.Out.preQ h fun a _ => hf a

/-- The end of an attempt. -/
def Shape.close (len c : Nat) (g : Sig) (ok : Bool) : Shape :=
  Shape.one (Shape.signature len c g.h g.z) ⬝
  if Shape.fits len c g.h g.z then Shape.one [.br false] ⬝ Shape.norms g.h g.z ⬝ Shape.verdict ok ⬝ Shape.one [.br (!ok)] else fun t => t = [.br true] ∧ ok = false

theorem out_close (P : Par) (d : Nat) (g : Sig) {c : Nat} (hc : g.cHash.length = c) (buf : List U8) (s : PVec P.l d) (prng : Prng) (m : Mrng d) :
    ∀ r, (do
      let (isEncoded, sigBytes) ← encodeSigL g.cHash g.h g.z buf
      Lk.branch ((!isEncoded) = true) (pure (false, (⟨s, prng, m, sigBytes⟩ : SignSt P.l d), g)) (do
        let inBounds ← g.checkBoundsL P.νw P.Binf P.B22
        Lk.branch ((!inBounds) = true) (pure (false, (⟨s, prng, m, sigBytes⟩ : SignSt P.l d), g)) (pure (true, ⟨s, prng, m, sigBytes⟩, g))) :
        Lk (Bool × SignSt P.l d × Sig)).val = .ok r →
      (Shape.close buf.length c g r.1) (do
      let (isEncoded, sigBytes) ← encodeSigL g.cHash g.h g.z buf
      Lk.branch ((!isEncoded) = true) (pure (false, (⟨s, prng, m, sigBytes⟩ : SignSt P.l d), g)) (do
        let inBounds ← g.checkBoundsL P.νw P.Binf P.B22
        Lk.branch ((!inBounds) = true) (pure (false, (⟨s, prng, m, sigBytes⟩ : SignSt P.l d), g)) (pure (true, ⟨s, prng, m, sigBytes⟩, g))) :
        Lk (Bool × SignSt P.l d × Sig)).tr ∧ r.2.2 = g ∧ r.2.1.sigBytes.length = buf.length := by
  subst hc
  intro r hr
  obtain ⟨⟨f, b⟩, h1, hr⟩ := bind_val_ok hr
  rw [tr_bind_ok h1]
  obtain ⟨t1, q1⟩ := shows_encodeSig _ _ _ _ _ h1
  dsimp only at q1 hr ⊢
  rw [val_encodeSigL] at h1
  have l1 := encodeSig_len h1
  rw [t1]
  unfold Shape.close
  rw [← q1]
  cases f with
  | false =>
    cases hr
    exact ⟨⟨_, _, rfl, ⟨rfl, rfl⟩, rfl⟩, rfl, l1⟩
  | true =>
    rw [if_pos rfl]
    have hr : (do
        let inBounds ← g.checkBoundsL P.νw P.Binf P.B22
        Lk.branch ((!inBounds) = true) (pure (false, (⟨s, prng, m, b⟩ : SignSt P.l d), g)) (pure (true, ⟨s, prng, m, b⟩, g)) :
        Lk (Bool × SignSt P.l d × Sig)).val = .ok r := hr
    obtain ⟨ok, h2, h3⟩ := bind_val_ok hr
    obtain ⟨u, v, hu, hv, e⟩ := in_checkBounds _ _ _ _ ok h2
    have key : (do
        let inBounds ← g.checkBoundsL P.νw P.Binf P.B22
        Lk.branch ((!inBounds) = true) (pure (false, (⟨s, prng, m, b⟩ : SignSt P.l d), g)) (pure (true, ⟨s, prng, m, b⟩, g)) :
        Lk (Bool × SignSt P.l d × Sig)).tr = u ++ (v ++ [.br (!ok)]) ∧ r.1 = ok ∧ r.2.2 = g ∧ r.2.1.sigBytes.length = buf.length := by
      rw [tr_bind_ok h2, e, List.append_assoc]
      cases ok <;> · cases h3; exact ⟨rfl, rfl, rfl, l1⟩
    obtain ⟨k1, k2, k3, k4⟩ := key
    rw [k2]
    refine ⟨⟨_, _, rfl, ⟨[.br false], _, rfl, ⟨u, _, hu, ⟨v, [.br (!ok)], hv, rfl, rfl⟩, rfl⟩, rfl⟩, ?_⟩, k3, k4⟩
    rw [← k1]
    rfl

theorem out_attempt (P : Par) (E : Ext) (fuel d : Nat) (hd : ValidShares d) {uw : Nat} (hu : 0 < uw) (rep : Nat) (A : PMat P.k P.l) (t : PVec P.k 1)
    (μ : List U8) (hμ : μ.length = 2 * P.κ / 8) (st : SignSt P.l d) {len : Nat} (hb : st.sigBytes.length = len) :
    (signAttemptL P E fuel d uw rep A t μ st).Out fun r => fun u => Shape.attempt P d rep uw len r.2.2 r.1 u ∧ r.2.1.sigBytes.length = len := by
  suffices H : (signAttemptL P E fuel d uw rep A t μ st).Out fun r =>
      Shape.upto P.l (fun i => Shape.zeroEnc d ⬝ Shape.one [.ix i]) ⬝ Shape.noiseVec P.l d rep uw (P.κ / 8) ⬝
      Shape.one (Trace.each1 P.l (Trace.each1 d Trace.ntt) ++ (Trace.mulVec P.k P.l d ++ Trace.each1 P.k (Trace.each1 d Trace.intt))) ⬝
      Shape.noiseVec P.k d rep uw (P.κ / 8) ⬝
      Shape.one (Trace.each1 P.k (Trace.decode d) ++ (Trace.each1 P.k (Trace.each1 1 Trace.polyOp1) ++ Trace.chalHash P.k (2 * P.κ / 8) (2 * P.κ / 8))) ⬝
      Shape.challenge P.ω (2 * P.κ / 8) ⬝ Shape.one Trace.ntt ⬝
      Shape.refreshVec P.l d ⬝ Shape.refreshVec P.l d ⬝ Shape.one (Trace.scale P.l d ++ Trace.each2 P.l (Trace.each2 d Trace.polyOp2)) ⬝
      Shape.refreshVec P.l d ⬝
      Shape.one (Trace.each1 P.l (Trace.decode d) ++ (Trace.mulVec P.k P.l 1 ++ (Trace.scale P.k 1 ++ (Trace.each2 P.k (Trace.each2 1 Trace.polyOp2) ++
        (Trace.each1 P.k (Trace.each1 1 Trace.intt) ++ (Trace.each1 P.l (Trace.each1 1 Trace.intt) ++ (Trace.each1 P.k (Trace.each1 1 Trace.polyOp1) ++
        (Trace.each2 P.k (Trace.each2 1 Trace.polyOp2) ++ (.len (2 * P.κ / 8) :: Shape.centerVec P.k ++ Shape.centerVec P.l))))))))) ⬝
      fun u => Shape.close len (2 * P.κ / 8) r.2.2 r.1 u ∧ r.2.1.sigBytes.length = len by
    intro r hr
    have := H r hr
    unfold Shape.attempt
    obtain ⟨x1, _, h1, ⟨x2, _, h2, ⟨x3, _, h3, ⟨x4, _, h4, ⟨x5, _, h5, ⟨x6, _, h6, ⟨x7, _, h7, ⟨x8, _, h8, ⟨x9, _, h9, ⟨x10, _, h10, ⟨x11, _, h11,
      ⟨x12, x13, h12, ⟨h13, hl⟩, e12⟩, e11⟩, e10⟩, e9⟩, e8⟩, e7⟩, e6⟩, e5⟩, e4⟩, e3⟩, e2⟩, e1⟩ := this
    simp only [List.append_assoc]
    exact ⟨⟨x1, _, h1, ⟨x2, _, h2, ⟨x3, _, h3, ⟨x4, _, h4, ⟨x5, _, h5, ⟨x6, _, h6, ⟨x7, _, h7, ⟨x8, _, h8, ⟨x9, _, h9, ⟨x10, _, h10, ⟨x11, _, h11,
      ⟨x12, x13, h12, h13, e12⟩, e11⟩, e10⟩, e9⟩, e8⟩, e7⟩, e6⟩, e5⟩, e4⟩, e3⟩, e2⟩, e1⟩, hl⟩
  subst hb
  unfold signAttemptL
  refine Lk.Out.bind (PVec.in_zeroEncoding E fuel hd _ _) ?_
  rintro ⟨r, m⟩
  refine Lk.Out.bind (PVec.in_addRepNoise E fuel hd hu _ _ _ _ _) ?_
  rintro ⟨r, prng, m⟩
  refine Lk.Out.pre (PVec.shows_nttL _) fun r => Lk.Out.pre (PMat.shows_mulVecL _ _) fun w => Lk.Out.bind (Lk.In.of (PVec.shows_inttL _)) fun w =>
    Lk.Out.bind (PVec.in_addRepNoise E fuel hd hu _ _ _ _ _) ?_
  rintro ⟨w, prng, m⟩
  refine Lk.Out.pre (PVec.shows_decodeL _) fun w' => Lk.Out.pre (PVec.shows_roundingShrL _ _) fun w' =>
    Lk.Out.bindQ (Q := fun c => c.length = 2 * P.κ / 8) (Lk.In.of ?_) fun cHash hc => Lk.Out.bind (Poly.in_chalPoly E fuel _ hc) fun c =>
    Lk.Out.bind (Lk.In.of (Poly.shows_nttL _)) fun c => Lk.Out.bind (PVec.in_refresh E fuel hd _ _) ?_
  · have := shows_chalHash E P.κ w' μ
    rwa [hμ] at this
  rintro ⟨s, m⟩
  refine Lk.Out.bind (PVec.in_refresh E fuel hd _ _) ?_
  rintro ⟨r, m⟩
  refine Lk.Out.pre (PVec.shows_mulPolyL _ _) fun sc => Lk.Out.bind (Lk.In.of (PVec.shows_addL _ _)) fun z => Lk.Out.bind (PVec.in_refresh E fuel hd _ _) ?_
  rintro ⟨z, m⟩
  refine Lk.Out.pre (PVec.shows_decodeL _) fun z' => Lk.Out.pre (PMat.shows_mulVecL _ _) fun Az => Lk.Out.pre (PVec.shows_mulPolyL _ _) fun tc =>
    Lk.Out.pre (PVec.shows_subL _ _) fun y => Lk.Out.pre (PVec.shows_inttL _) fun y => Lk.Out.pre (PVec.shows_inttL _) fun z' =>
    Lk.Out.pre (PVec.shows_roundingShrL _ _) fun y => Lk.Out.pre (PVec.shows_subModL _ _ _) fun h =>
    Lk.Out.bindQ (Q := fun g : Sig => g.cHash.length = 2 * P.κ / 8) (Lk.In.of ?_) fun g hg => ?_
  · have := shows_sigMk P.νw cHash h z'
    rw [hc] at this
    exact fun a ha => ⟨(this a ha).1, (congrArg List.length (this a ha).2).trans hc⟩
  · intro r hr
    obtain ⟨k1, k2, k3⟩ := out_close P d g hg st.sigBytes s prng m r hr
    rw [k2]
    exact ⟨k1, k3⟩

theorem out_signLoop (P : Par) (E : Ext) (fuel d : Nat) (hd : ValidShares d) {uw : Nat} (hu : 0 < uw) (rep : Nat) (A : PMat P.k P.l) (t : PVec P.k 1)
    (μ : List U8) (hμ : μ.length = 2 * P.κ / 8) {len : Nat} : ∀ (n : Nat) (st : SignSt P.l d), st.sigBytes.length = len →
    (signLoopL P E fuel d uw rep A t μ n st).Out fun r => Shape.attempts P d rep uw len r.2
  | 0, st, _ => fun a ha => by cases ha
  | n + 1, st, hb => by
    intro r hr
    rw [signLoopL] at hr ⊢
    obtain ⟨⟨done, st', g⟩, h1, hr⟩ := bind_val_ok hr
    rw [tr_bind_ok h1]
    obtain ⟨a1, a2⟩ := out_attempt P E fuel d hd hu rep A t μ hμ st hb _ h1
    dsimp only at a1 a2 hr ⊢
    cases done with
    | true =>
      cases hr
      show Shape.attempts P d rep uw len [g] (_ ++ [])
      rw [List.append_nil]
      exact a1
    | false =>
      rw [if_neg (by decide)] at hr ⊢
      obtain ⟨⟨b, L⟩, h2, hr⟩ := bind_val_ok hr
      rw [tr_bind_ok h2]
      cases hr
      have a3 := out_signLoop P E fuel d hd hu rep A t μ hμ n st' a2 _ h2
      cases L with
      | nil => exact absurd a3 (fun h => h)
      | cons g' L =>
        refine ⟨_, _, a1, a3, ?_⟩
        show _ ++ (_ ++ []) = _
        rw [List.append_nil]

theorem shows_bindMsg (E : Ext) (κ : Nat) {pk : List U8} {n : Nat} (hp : pk.length = n) (msg : List U8) :
    (SKey.bindMsgL E κ pk msg).Shows (Shape.bind κ n msg.length) fun μ => μ.length = 2 * κ / 8 := by
  unfold SKey.bindMsgL
  refine (Lk.Shows.bind (absorb _ hp) fun _ => Lk.Shows.bindQ (squeezeQ _ _) ?_).cast (u := _)
    (t := [.len n] ++ ([.len (2 * κ / 8)] ++ ([.len (2 * κ / 8)] ++ ([.len msg.length] ++ ([.len (2 * κ / 8)] ++ []))))) rfl
  rintro ⟨μ, hasher⟩ hm
  exact Lk.Shows.bind (absorb _ hm) fun _ => Lk.Shows.bind (absorb _ rfl) fun _ => Lk.Shows.bindQ (squeezeQ _ _) fun r hr => Lk.Shows.pure hr

theorem SKey.out_sign (P : Par) (hk : 0 < P.k) (hν : P.νt = 42) (E : Ext) (fuel d : Nat) (hd : ValidShares d) {uw : Nat} (hu : 0 < uw) (rep : Nat)
    (sk : SKey P.k P.l d) (entropy msg buf : List U8) : (sk.signL P E fuel d uw rep entropy msg buf).Out fun r =>
      Shape.sign P d rep uw sk.pkey.seed.length msg.length buf.length r.2 := by
  unfold SKey.signL Shape.sign
  simp only [List.append_assoc]
  refine Lk.Out.pre (PVec.shows_shlL _ _) fun t => Lk.Out.pre (PVec.shows_nttL _) fun t =>
    Lk.Out.preQ (Q := fun b => b.length = PKey.byteLen P.κ P.k P.νt) ?_ fun pkb hpk =>
    Lk.Out.bindQ (Lk.In.of (shows_bindMsg E P.κ hpk msg)) fun μ hμ => Lk.Out.bind (PMat.in_expandA E fuel _ _ rfl) fun A =>
    out_signLoop P E fuel d hd hu rep A t μ hμ fuel _ rfl
  unfold PKey.toBytesL
  rw [hν]
  intro b h
  obtain ⟨h1, h2⟩ := shows_publicKey hk sk.pkey.seed sk.pkey.t _ b h
  exact ⟨h1, h2.trans (List.length_replicate ..)⟩
end Raccoon
