import Verif.Proofs.LeakExact
import Verif.Spec.Scheme
/-!
# The observations of the randomised parts
-/
namespace Raccoon
open Lk

/-- A completed run shows one of `S`, and its result satisfies `Q`. -/
def Lk.In {α : Type u} (p : Lk α) (S : Shape) (Q : α → Prop := fun _ => True) : Prop := ∀ a, p.val = .ok a → S p.tr ∧ Q a

namespace Lk.In
variable {α β : Type u}

theorem of {p : Lk α} {t : List Ev} {Q : α → Prop} (h : p.Shows t Q) : p.In (Shape.one t) Q := h
theorem bindQ {p : Lk α} {f : α → Lk β} {S S' : Shape} {Q : α → Prop} {Q' : β → Prop} (h : p.In S Q)
    (hf : ∀ a, Q a → (f a).In S' Q') : (p >>= f).In (Shape.seq S S') Q' := by
  intro b hb
  obtain ⟨a, ha, hb⟩ := bind_val_ok hb
  obtain ⟨h1, h2⟩ := h a ha
  obtain ⟨h3, h4⟩ := hf a h2 b hb
  exact ⟨⟨_, _, h1, h3, tr_bind_ok ha⟩, h4⟩
theorem bind {p : Lk α} {f : α → Lk β} {S S' : Shape} {Q' : β → Prop} (h : p.In S) (hf : ∀ a, (f a).In S' Q') :
    (p >>= f).In (Shape.seq S S') Q' := bindQ h fun a _ => hf a
theorem mono {p : Lk α} {S S' : Shape} {Q Q' : α → Prop} (h : p.In S Q) (e : ∀ t, S t → S' t) (q : ∀ a, Q a → Q' a) : p.In S' Q' :=
  fun a ha => ⟨e _ (h a ha).1, q _ (h a ha).2⟩
theorem shape {p : Lk α} {S S' : Shape} {Q : α → Prop} (h : p.In S Q) (e : ∀ t, S t → S' t) : p.In S' Q := h.mono e fun _ => id
/-- A silent end. -/
theorem mapQ {p : Lk α} {f : α → β} {S : Shape} {Q : α → Prop} {Q' : β → Prop} (h : p.In S Q) (hq : ∀ a, Q a → Q' (f a)) :
    (p >>= fun a => Pure.pure (f a)).In S Q' := by
  intro b hb
  obtain ⟨a, ha, hb⟩ := bind_val_ok hb
  obtain ⟨h1, h2⟩ := h a ha
  cases hb
  exact ⟨by rw [tr_bind_ok ha]; show S (p.tr ++ []); rwa [List.append_nil], hq a h2⟩
theorem map {p : Lk α} {f : α → β} {S : Shape} (h : p.In S) : (p >>= fun a => Pure.pure (f a)).In S := mapQ h fun _ _ => trivial
theorem tick {p : Lk α} {e : Ev} {S : Shape} {Q : α → Prop} (h : p.In S Q) : (Lk.tick e p).In (Shape.seq (Shape.one [e]) S) Q :=
  fun a ha => ⟨⟨[e], _, rfl, (h a ha).1, rfl⟩, (h a ha).2⟩
theorem assoc {γ : Type u} (p : Lk α) (f : α → Lk β) (g : β → Lk γ) : (p >>= f >>= g) = p >>= fun a => f a >>= g := by
  show Lk.bind (Lk.bind p f) g = Lk.bind p fun a => Lk.bind (f a) g
  unfold Lk.bind
  cases p.val with
  | ok a =>
    dsimp only
    cases (f a).val with
    | ok b => dsimp only; rw [List.append_assoc]
    | ub => rfl
    | nofuel => rfl
  | ub => rfl
  | nofuel => rfl
theorem fold {σ : Type u} {body : Nat → σ → Lk σ} {S : Nat → Shape} (g : Nat → Nat) : ∀ (L : List Nat) (s : σ),
    (∀ i s, i ∈ L → (body (g i) s).In (S i)) →
    ((L.map g).foldlM (fun s i => Lk.tick (.br true) (body i s)) s >>= fun s => Lk.tick (.br false) (Pure.pure s)).In (Shape.loop L S)
  | [], s, _ => fun a ha => ⟨rfl, trivial⟩
  | i :: L, s, hs => by
    rw [List.map_cons, List.foldlM_cons, assoc]
    intro a ha
    have h : (Lk.tick (.br true) (body (g i) s) >>= fun s => ((L.map g).foldlM (fun s i => Lk.tick (.br true) (body i s)) s >>=
          fun s => Lk.tick (.br false) (Pure.pure s))).In (Shape.seq (Shape.seq (Shape.one [.br true]) (S i)) (Shape.loop L S)) :=
      bind (hs i s (List.mem_cons_self ..)).tick fun s' => fold g L s' fun j s h => hs j s (List.mem_cons_of_mem _ h)
    obtain ⟨⟨x, y, ⟨u, v, hu, hv, rfl⟩, hy, h3⟩, h2⟩ := h a ha
    exact ⟨⟨u, v ++ y, hu, ⟨v, y, hv, hy, rfl⟩, by rw [h3, List.append_assoc]⟩, h2⟩

theorem forT {σ : Type u} {body : Nat → σ → Lk σ} {s : σ} {S : Nat → Shape} {lo hi step n : Nat}
    (hn : (hi - lo + step - 1) / step = n) (hs : ∀ i s, i < n → (body (lo + step * i) s).In (S i)) :
    (forL lo hi step body s).In (Shape.upto n S) := by
  unfold forL Shape.upto
  rw [hn, Lk.Shows.range'_map, ← List.range_eq_range' (n := n)]
  exact fold (fun i => lo + step * i) (List.range n) s fun i s h => hs i s (List.mem_range.1 h)
theorem for0 {σ : Type u} {body : Nat → σ → Lk σ} {s : σ} {S : Nat → Shape} {n : Nat}
    (hs : ∀ i s, (body i s).In (S i)) : (forL 0 n 1 body s).In (Shape.upto n S) :=
  forT (by omega) fun i s _ => by rw [Nat.zero_add, Nat.one_mul]; exact hs i s
end Lk.In

open Lk.In

/-! ### Masks -/

namespace Poly

theorem in_samplePolyLoop (E : Ext) {idx : Nat} (hi : idx < d - 1) : ∀ (n : Nat) (m : Mrng d) (res : Poly) (ci : Nat), ci ≤ 512 →
    (samplePolyLoopL E idx n m res ci).In fun u => ∃ as : List Bool, as.count true = 512 - ci ∧ u = Shape.maskRounds idx ci as
  | 0, m, res, ci, hc => by
    intro a ha
    unfold samplePolyLoopL Lk.branch Lk.tick at ha ⊢
    by_cases h : ci < 512
    · rw [if_pos h] at ha; cases ha
    · rw [if_neg h]
      refine ⟨⟨[], ?_, ?_⟩, trivial⟩
      · simp; omega
      · simp only [h, decide_false]; rfl
  | n + 1, m, res, ci, hc => by
    intro a ha
    unfold samplePolyLoopL Lk.branch Lk.tick at ha ⊢
    by_cases h : ci < 512
    · simp only [h, if_true, decide_true] at ha ⊢
      obtain ⟨⟨v, m'⟩, hg, ha⟩ := bind_val_ok ha
      rw [tr_bind_ok hg]
      have hget : (m.getL E idx).tr = [.br false, .ix idx, .ix 0, .ix idx] := by
        unfold Mrng.getL Lk.branch Lk.tick
        have : ¬ idx ≥ d - 1 := by omega
        simp only [this, if_false, decide_false]
      rw [hget]
      dsimp only at ha ⊢
      split at ha
      case isTrue hv =>
        simp only [hv, if_true, decide_true] at ha ⊢
        obtain ⟨res', hw, ha⟩ := bind_val_ok ha
        rw [tr_bind_ok hw]
        obtain ⟨⟨as, h1, h2⟩, -⟩ := in_samplePolyLoop E hi n m' res' (ci + 1) (by omega) a ha
        refine ⟨⟨true :: as, ?_, ?_⟩, trivial⟩
        · rw [List.count_cons_self]; omega
        · rw [h2]; rfl
      case isFalse hv =>
        simp only [hv, if_false, decide_false] at ha ⊢
        obtain ⟨⟨as, h1, h2⟩, -⟩ := in_samplePolyLoop E hi n m' res ci hc a ha
        refine ⟨⟨false :: as, ?_, ?_⟩, trivial⟩
        · rw [List.count_cons_of_ne (by decide)]; exact h1
        · rw [h2]; rfl
    · rw [if_neg h]
      refine ⟨⟨[], ?_, ?_⟩, trivial⟩
      · simp; omega
      · simp only [h, decide_false]; rfl

theorem in_samplePolynomial (E : Ext) (fuel idx : Nat) (m : Mrng d) : (samplePolynomialL E fuel idx m).In (Shape.mask d idx) := by
  intro a ha
  unfold samplePolynomialL Lk.branch Lk.tick at ha ⊢
  unfold Shape.mask
  by_cases h : d - 1 ≤ idx
  · rw [if_pos h]
    have h' : idx ≥ d - 1 := h
    simp only [h', decide_true, if_true]
    exact ⟨rfl, trivial⟩
  · rw [if_neg h]
    have h' : ¬ idx ≥ d - 1 := h
    simp only [h', decide_false, if_false] at ha ⊢
    obtain ⟨h1, -⟩ := in_samplePolyLoop E (by omega) fuel m zero 0 (by omega) a ha
    exact ⟨⟨[.br false], _, rfl, h1, rfl⟩, trivial⟩
end Poly

open Lk.Shows in
theorem MPoly.in_maskPair (E : Ext) (fuel i off : Nat) (s : MPoly d × Mrng d) : (maskPairL E fuel i off s).In (Shape.maskPair d i (i + off)) := by
  unfold maskPairL Shape.maskPair
  refine Lk.In.bind (Poly.in_samplePolynomial E fuel i s.2) fun r => Lk.In.of ?_
  exact (Lk.Shows.bind (rd _ _) fun _ => Lk.Shows.bind (Poly.shows_addL _ _) fun _ => Lk.Shows.bind (wr _ _ _) fun _ =>
    Lk.Shows.bind (rd _ _) fun _ => Lk.Shows.bind (Poly.shows_subL _ _) fun _ => Lk.Shows.bind (wr _ _ _) fun _ => Lk.Shows.pureT).cast (by simp)

/-- The levels the loop goes through. -/
def levelsFrom (d : Nat) : Nat → Nat → List Nat
  | 0, _ => []
  | n + 1, e => if e < d then e :: levelsFrom d n (e <<< 1) else []

theorem MPoly.in_zeroEncLoop (E : Ext) (fuel : Nat) (hd : ∀ e ∈ levelsFrom d d 2, (d - 0 + 2 * e - 1) / (2 * e) = d / (2 * e)) :
    ∀ (n e : Nat) (s : MPoly d × Mrng d), (∀ x ∈ levelsFrom d n e, x ∈ levelsFrom d d 2) →
    (zeroEncLoopL E fuel n e s).In (Shape.loop (levelsFrom d n e) fun e => Shape.upto (d / (2 * e)) fun b => Shape.upto e fun s =>
      Shape.maskPair d (2 * e * b + s) (2 * e * b + s + e))
  | 0, e, s, _ => by
    intro a ha
    unfold zeroEncLoopL Lk.branch Lk.tick at ha ⊢
    by_cases h : e < d
    · rw [if_pos h] at ha; cases ha
    · simp only [h, if_false, decide_false]
      exact ⟨rfl, trivial⟩
  | n + 1, e, s, hm => by
    have el : levelsFrom d (n + 1) e = if e < d then e :: levelsFrom d n (e <<< 1) else [] := rfl
    rw [el] at hm ⊢
    unfold zeroEncLoopL
    by_cases h : e < d
    · unfold Lk.branch
      simp only [h, if_true, decide_true] at hm ⊢
      refine Lk.In.tick (Lk.In.bind (Lk.In.forT (hd e (hm e (List.mem_cons_self ..))) fun b s _ => ?_) fun s =>
        in_zeroEncLoop E fuel hd n (e <<< 1) s fun x hx => hm x (List.mem_cons_of_mem _ hx))
      rw [Nat.zero_add]
      refine Lk.In.forT (by omega) fun i s _ => ?_
      rw [Nat.one_mul]
      exact in_maskPair E fuel _ e s
    · unfold Lk.branch
      simp only [h, if_false, decide_false]
      exact fun a ha => ⟨rfl, trivial⟩

theorem MPoly.in_zeroEncoding (E : Ext) (fuel : Nat) (hd : ValidShares d) (m : Mrng d) : (zeroEncodingL E fuel m).In (Shape.zeroEnc d) := by
  unfold zeroEncodingL Shape.zeroEnc
  by_cases h : d > 1
  · rw [if_pos h, if_neg (by omega)]
    have key : (∀ e ∈ levelsFrom d d 2, (d - 0 + 2 * e - 1) / (2 * e) = d / (2 * e)) ∧
        levelsFrom d d 2 = ((List.range 6).map (2 ^ · * 2)).filter (· < d) ∧ (d - 0 + 2 - 1) / 2 = d / 2 := by
      obtain ⟨j, hj, rfl⟩ := hd
      clear * - hj h
      revert j; decide
    rw [← key.2.1]
    refine Lk.In.bind (Lk.In.forT key.2.2 fun i s _ => ?_) fun s => in_zeroEncLoop E fuel key.1 d 2 s fun _ => id
    rw [Nat.zero_add]
    exact in_maskPair E fuel _ 1 s
  · rw [if_neg h, if_pos (by omega)]
    exact fun a ha => ⟨rfl, trivial⟩

theorem MPoly.in_refresh (E : Ext) (fuel : Nat) (hd : ValidShares d) (a : MPoly d) (m : Mrng d) : (refreshL E fuel a m).In (Shape.refresh d) :=
  Lk.In.bind (in_zeroEncoding E fuel hd m) fun _ => Lk.In.map (Lk.In.of (shows_addL _ _))

theorem PVec.in_refresh (E : Ext) (fuel : Nat) (hd : ValidShares d) (a : PVec k d) (m : Mrng d) :
    (refreshL E fuel a m).In (Shape.refreshVec k d) :=
  Lk.In.for0 fun _ _ => Lk.In.bind (Lk.In.of (Lk.Shows.rd _ _)) fun _ => Lk.In.bind (MPoly.in_refresh E fuel hd _ _) fun _ =>
    Lk.In.map (Lk.In.of (Lk.Shows.wr _ _ _))

theorem PVec.in_zeroEncoding (E : Ext) (fuel : Nat) (hd : ValidShares d) (k : Nat) (m : Mrng d) :
    (zeroEncodingL E fuel k m).In (Shape.upto k fun i => Shape.zeroEnc d ⬝ Shape.one [.ix i]) :=
  Lk.In.for0 fun _ _ => Lk.In.bind (MPoly.in_zeroEncoding E fuel hd _) fun _ => Lk.In.map (Lk.In.of (Lk.Shows.wr _ _ _))

/-! ### Noise -/

open Lk.Shows in
theorem MPoly.shows_sampleU (E : Ext) {u : Nat} (hu : 0 < u) {hdr seed : List U8} {n : Nat} (h8 : hdr.length = 8) (hs : seed.length = n) :
    (sampleUL E u hdr seed).Shows (Shape.noisePoly u n) := by
  unfold sampleUL Shape.noisePoly
  have hn : 0 < (u + 7) / 8 := by omega
  generalize (u + 7) / 8 = N at *
  dsimp only
  have L : ∀ (bytes : List U8) (z : Vector Int 512), (forL 0 (N * 512) N (fun offset (s : Vector Int 512 × Nat) => do
      let b ← subspanL bytes offset N
      let _ ← fromLeBytesL 64 b
      let c ← Lk.lift (sampleUCoeff u b)
      let f ← wrL s.1 s.2 c
      pure (f, s.2 + 1)) (z, 0)).Shows
      (Trace.upto 512 fun i => [.ix (N * i), .len N, .br (decide (N < 8))] ++ Trace.bytes (min 8 N) ++ [.ix i]) fun s => s.2 = 512 := by
    intro bytes z
    refine forQ (lo := 0) (hi := N * 512) (step := N) (n := 512) (fun i (s : Vector Int 512 × Nat) => s.2 = i) ?_ rfl ?_
    · have e : N * 512 - 0 + N - 1 = (N - 1) + N * 512 := by omega
      rw [e, Nat.add_mul_div_left _ _ hn, Nat.div_eq_of_lt (by omega), Nat.zero_add]
    · intro i s hi h
      rw [Nat.zero_add]
      refine (bindQ (Lk.Shows.subspan _ _ _) fun b hb => Lk.Shows.bind (fromLe 64 hb) fun _ => Lk.Shows.bind lift fun _ =>
        Lk.Shows.bind (wr _ _ _) fun _ => Lk.Shows.pure (by show s.2 + 1 = _; rw [h])).cast ?_
      rw [h]
      simp
  generalize Trace.upto 512 (fun i => [.ix (N * i), .len N, .br (decide (N < 8))] ++ Trace.bytes (min 8 N) ++ [.ix i]) = tl at L ⊢
  generalize Vector.replicate 512 (0 : Int) = z
  exact (Lk.Shows.bind (absorb _ h8) fun _ => Lk.Shows.bind (absorb _ hs) fun _ => Lk.Shows.bind (Lk.Shows.squeeze _ _) fun r =>
    Lk.Shows.bind (L r.1 z).forget fun _ => pureT).cast (by simp)

open Lk.Shows in
theorem MPoly.shows_addNoisePoly (p : Poly) (n : Vector Int 512) : (addNoisePolyL p n).Shows Trace.polyOp2 := by
  unfold addNoisePolyL Trace.polyOp2
  exact gen fun i => (Lk.Shows.bind (rd _ _) fun _ => Lk.Shows.bind (rd _ _) fun _ => lift).cast (by simp)

open Lk.Shows in
theorem MPoly.shows_noiseShare (E : Ext) {u : Nat} (hu : 0 < u) (κ a b c : Nat) (s : MPoly d × Prng) : (noiseShareL E u κ a b c s).Shows
    ([.len (κ / 8)] ++ Shape.noisePoly u (κ / 8) ++ [.ix c] ++ Trace.polyOp2 ++ [.ix c]) := by
  unfold noiseShareL
  refine (bindQ (readQ _ _) fun r hr => Lk.Shows.bind (shows_sampleU E hu rfl hr) fun _ => Lk.Shows.bind (rd _ _) fun _ =>
    Lk.Shows.bind (shows_addNoisePoly _ _) fun _ => Lk.Shows.bind (wr _ _ _) fun _ => pureT).cast ?_
  simp

theorem MPoly.in_addRepNoise (E : Ext) (fuel : Nat) (hd : ValidShares d) {u : Nat} (hu : 0 < u) (rep κ i : Nat) (a : MPoly d) (p : Prng) (m : Mrng d) :
    (addRepNoiseL E fuel u rep κ i a p m).In (Shape.noise d rep u (κ / 8)) := by
  unfold addRepNoiseL Shape.noise
  refine Lk.In.for0 fun r s => ?_
  unfold noiseRepL
  exact Lk.In.bind (Lk.In.of (Lk.Shows.for0 fun c s => shows_noiseShare E hu κ r i c s)) fun _ => Lk.In.map (in_refresh E fuel hd _ _)

theorem PVec.in_addRepNoise (E : Ext) (fuel : Nat) (hd : ValidShares d) {u : Nat} (hu : 0 < u) (rep κ : Nat) (a : PVec k d) (p : Prng) (m : Mrng d) :
    (addRepNoiseL E fuel u rep κ a p m).In (Shape.noiseVec k d rep u (κ / 8)) :=
  Lk.In.for0 fun _ _ => Lk.In.bind (Lk.In.of (Lk.Shows.rd _ _)) fun _ => Lk.In.bind (MPoly.in_addRepNoise E fuel hd hu _ _ _ _ _ _) fun _ =>
    Lk.In.map (Lk.In.of (Lk.Shows.wr _ _ _))

/-! ### The public matrix -/

namespace Poly

open Lk.Shows in
/-- One round of the sampler. -/
theorem sampleQStep_shows (s : SampleQSt) (hb : s.buf.length = 136) (s' : SampleQSt) (h : (sampleQStepL s).val = .ok s') :
    ∃ a : Bool, s'.buf.length = 136 ∧ s'.bufOff = (if 136 < s.bufOff + 7 then 0 else s.bufOff) + 7 ∧
      s'.coeffIdx = (if a then s.coeffIdx + 1 else s.coeffIdx) ∧
      (sampleQStepL s).tr = .br (decide (136 < s.bufOff + 7)) ::
        (if decide (136 < s.bufOff + 7) = true then [.ix s.bufOff, .len (136 - s.bufOff), .ix 0, .len (136 - s.bufOff),
          .len (136 - (136 - s.bufOff)), .ix (136 - s.bufOff), .len (136 - (136 - s.bufOff))] else []) ++
        [.ix (if 136 < s.bufOff + 7 then 0 else s.bufOff), .len 7, .br true] ++ Trace.bytes 7 ++ [.br (!a)] ++
        (if a then [.ix s.coeffIdx] else []) := by
  unfold sampleQStepL at h ⊢
  have first : (Lk.branch (s.bufOff + (Q_BIT_WIDTH + 7) / 8 > s.buf.length) (do
      let rem := s.buf.length - s.bufOff
      let tail ← subspanL s.buf s.bufOff rem
      let buf ← writeSpanL s.buf 0 tail
      let (bytes, xof) ← s.xof.squeezeL (buf.length - rem)
      let buf ← writeSpanL buf rem bytes
      pure { s with buf := buf, xof := xof, bufOff := 0 }) (pure s)).Shows
      (.br (decide (136 < s.bufOff + 7)) ::
        (if decide (136 < s.bufOff + 7) = true then [.ix s.bufOff, .len (136 - s.bufOff), .ix 0, .len (136 - s.bufOff),
          .len (136 - (136 - s.bufOff)), .ix (136 - s.bufOff), .len (136 - (136 - s.bufOff))] else []))
      fun r => r.buf.length = 136 ∧ r.bufOff = (if 136 < s.bufOff + 7 then 0 else s.bufOff) ∧ r.coeffIdx = s.coeffIdx := by
    have e7 : (Q_BIT_WIDTH + 7) / 8 = 7 := rfl
    rw [e7, hb]
    refine (branch (t := [.ix s.bufOff, .len (136 - s.bufOff), .ix 0, .len (136 - s.bufOff),
          .len (136 - (136 - s.bufOff)), .ix (136 - s.bufOff), .len (136 - (136 - s.bufOff))]) (u := []) (fun hc => ?_) (fun hc => ?_)).cast ?_
    · dsimp only
      refine (bindQ (Lk.Shows.subspan _ _ _) fun t ht => bindQ (Lk.Shows.writeSpan _ _ ht) fun b1 hb1 => ?_).cast
        (u := _) (t := [.ix s.bufOff, .len (136 - s.bufOff)] ++ ([.ix 0, .len (136 - s.bufOff)] ++ [.len (136 - (136 - s.bufOff)),
          .ix (136 - s.bufOff), .len (136 - (136 - s.bufOff))])) rfl
      rw [hb1, hb]
      exact (bindQ (squeezeQ _ _) fun r hr => bindQ (Lk.Shows.writeSpan _ _ hr) fun b2 hb2 =>
        Lk.Shows.pure ⟨by show b2.length = 136; rw [hb2, hb1, hb], by rw [if_pos hc], rfl⟩).cast (by simp)
    · exact Lk.Shows.pure ⟨hb, by rw [if_neg hc], rfl⟩
    · by_cases hc : 136 < s.bufOff + 7
      · rw [if_pos hc]; simp [hc]
      · rw [if_neg hc]; simp [hc]
  obtain ⟨s1, h1, h⟩ := bind_val_ok h
  rw [tr_bind_ok h1]
  obtain ⟨ht, hb1, ho1, hc1⟩ := first s1 h1
  rw [ht]
  dsimp only at h ⊢
  obtain ⟨w, hw, h⟩ := bind_val_ok h
  rw [tr_bind_ok hw]
  obtain ⟨tw, lw⟩ := Lk.Shows.subspan _ _ _ w hw
  rw [tw]
  obtain ⟨word, hword, h⟩ := bind_val_ok h
  rw [tr_bind_ok hword]
  have tword := (fromLe 64 lw word hword).1
  rw [tword]
  have e7 : (Q_BIT_WIDTH + 7) / 8 = 7 := rfl
  rw [e7] at h ⊢
  unfold Lk.branch Lk.tick at h ⊢
  dsimp only at h ⊢
  split at h
  case isTrue hv =>
    simp only [hv, if_true, decide_true] at h ⊢
    cases h
    refine ⟨false, hb1, ?_, ?_, ?_⟩
    · show s1.bufOff + 7 = _; rw [ho1]
    · show s1.coeffIdx = _; rw [hc1]; rfl
    · rw [ho1]; simp [Trace.bytes]; rfl
  case isFalse hv =>
    simp only [hv, if_false, decide_false] at h ⊢
    obtain ⟨res', hw', h⟩ := bind_val_ok h
    rw [tr_bind_ok hw']
    cases h
    refine ⟨true, hb1, ?_, ?_, ?_⟩
    · show s1.bufOff + 7 = _; rw [ho1]
    · show s1.coeffIdx + 1 = _; rw [hc1]; rfl
    · rw [ho1]; simp [Trace.bytes, wrL, hc1]; rfl

theorem in_sampleQLoop : ∀ (n : Nat) (s : SampleQSt), s.buf.length = 136 → s.bufOff ≤ 136 → s.coeffIdx ≤ 512 →
    (sampleQLoopL n s).In fun u => ∃ as : List Bool, as.count true = 512 - s.coeffIdx ∧ u = Shape.uniformRounds s.bufOff s.coeffIdx as
  | 0, s, hb, ho, hc => by
    intro a ha
    unfold sampleQLoopL Lk.branch Lk.tick at ha ⊢
    by_cases h : s.coeffIdx < 512
    · rw [if_pos h] at ha; cases ha
    · rw [if_neg h]
      refine ⟨⟨[], ?_, ?_⟩, trivial⟩
      · simp; omega
      · simp only [h, decide_false]; rfl
  | n + 1, s, hb, ho, hc => by
    intro a ha
    unfold sampleQLoopL Lk.branch Lk.tick at ha ⊢
    by_cases h : s.coeffIdx < 512
    · simp only [h, if_true, decide_true] at ha ⊢
      obtain ⟨s', hs, ha⟩ := bind_val_ok ha
      rw [tr_bind_ok hs]
      obtain ⟨f, h1, h2, h3, h4⟩ := sampleQStep_shows s hb s' hs
      rw [h4]
      obtain ⟨⟨as, h5, h6⟩, -⟩ := in_sampleQLoop n s' h1 (by rw [h2]; split <;> omega) (by rw [h3]; split <;> omega) a ha
      rw [h6, h2, h3]
      refine ⟨⟨f :: as, ?_, ?_⟩, trivial⟩
      · rw [h3] at h5
        cases f
        · rw [List.count_cons_of_ne (by decide)]; exact h5
        · rw [List.count_cons_self]; simp only [if_true] at h5; omega
      · show _ = Shape.uniformRounds s.bufOff s.coeffIdx (f :: as)
        rw [Shape.uniformRounds]
        simp
    · rw [if_neg h]
      refine ⟨⟨[], ?_, ?_⟩, trivial⟩
      · simp; omega
      · simp only [h, decide_false]; rfl

theorem in_sampleQ (E : Ext) (fuel : Nat) {hdr seed : List U8} {n : Nat} (h8 : hdr.length = 8) (hs : seed.length = n) :
    (sampleQL E fuel hdr seed).In (Shape.uniform n) := by
  unfold sampleQL Shape.uniform
  have : ∀ t, (Shape.one [.len 8] ⬝ Shape.one [.len n] ⬝ Shape.one [.len 136] ⬝ fun u => ∃ accepted : List Bool, accepted.count true = 512 ∧
      u = Shape.uniformRounds 0 0 accepted) t → (Shape.one [.len 8, .len n, .len 136] ⬝ fun u => ∃ accepted : List Bool,
      accepted.count true = 512 ∧ u = Shape.uniformRounds 0 0 accepted) t := by
    rintro t ⟨_, _, rfl, ⟨_, _, rfl, ⟨_, b, rfl, hb, rfl⟩, rfl⟩, rfl⟩
    exact ⟨_, b, rfl, hb, rfl⟩
  refine Lk.In.shape (Lk.In.bind (Lk.In.of (Lk.Shows.absorb _ h8)) fun _ => Lk.In.bind (Lk.In.of (Lk.Shows.absorb _ hs)) fun _ =>
    Lk.In.bindQ (Lk.In.of (Lk.Shows.squeezeQ _ _)) fun r hr => ?_) this
  exact in_sampleQLoop fuel _ hr (by show 0 ≤ 136; omega) (by show 0 ≤ 512; omega)
end Poly

theorem PMat.in_expandA (E : Ext) (fuel k l : Nat) {seed : List U8} {n : Nat} (hs : seed.length = n) :
    (expandAL E fuel k l seed).In (Shape.matrix k l n) :=
  Lk.In.for0 fun _ _ => Lk.In.for0 fun _ _ => Lk.In.bind (Poly.in_sampleQ E fuel rfl hs) fun _ => Lk.In.of (Lk.Shows.wr _ _ _)

/-! ### Whole operations -/

theorem SKey.in_generate (P : Par) (E : Ext) (fuel d : Nat) (hd : ValidShares d) {ut : Nat} (hu : 0 < ut) (rep : Nat) (entropy seed : List U8) :
    (SKey.generateL P E fuel d ut rep entropy seed).In (Shape.generate P d rep ut seed.length) := by
  unfold SKey.generateL Shape.generate
  refine Lk.In.bind (PMat.in_expandA E fuel _ _ rfl) fun A => Lk.In.bind (PVec.in_zeroEncoding E fuel hd _ _) fun _ =>
    Lk.In.bind (PVec.in_addRepNoise E fuel hd hu _ _ _ _ _) fun _ => ?_
  have merge : ∀ (a b c : List Ev) (S : Shape) t, (Shape.one a ⬝ Shape.one b ⬝ Shape.one c ⬝ S) t → (Shape.one (a ++ b ++ c) ⬝ S) t := by
    rintro a b c S t ⟨_, _, rfl, ⟨_, _, rfl, ⟨_, s, rfl, hs, rfl⟩, rfl⟩, rfl⟩
    exact ⟨_, s, rfl, hs, by simp⟩
  refine Lk.In.shape (Lk.In.bind (Lk.In.of (PVec.shows_nttL _)) fun _ => Lk.In.bind (Lk.In.of (PMat.shows_mulVecL _ _)) fun _ =>
    Lk.In.bind (Lk.In.of (PVec.shows_inttL _)) fun _ => ?_) (merge _ _ _ _)
  exact Lk.In.bind (PVec.in_addRepNoise E fuel hd hu _ _ _ _ _) fun _ => Lk.In.of (Lk.Shows.bind (PVec.shows_decodeL _) fun _ =>
    (Lk.Shows.bind (PVec.shows_roundingShrL _ _) fun _ => Lk.Shows.pureT).cast (List.append_nil _))

theorem SKey.in_refresh (E : Ext) (fuel : Nat) (hd : ValidShares d) (sk : SKey k l d) : (sk.refreshL E fuel).In (Shape.refreshVec l d) :=
  Lk.In.map (PVec.in_refresh E fuel hd _ _)
end Raccoon
