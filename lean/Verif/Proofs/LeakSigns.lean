import Verif.Proofs.LeakErase3
import Verif.Proofs.LeakTrace
/-!
# The encoder's observations determine the signs of the coefficients
-/
namespace Raccoon
open Lk

/-- What `encode_sig` shows while treating a coefficient. -/
def sgnTr (x : Int) : List Ev :=
  if x < 0 then [.br true, .br false, .br true] else if 0 < x then [.br false, .br true] else [.br false, .br false, .br false]

theorem sgnTr_inj {x y : Int} {X Y : List Ev} (h : sgnTr x ++ X = sgnTr y ++ Y) : x.sign = y.sign ∧ X = Y := by
  unfold sgnTr at h
  have hs : ∀ z : Int, z.sign = if z < 0 then -1 else if 0 < z then 1 else 0 := by
    intro z
    split
    · rename_i hz; exact Int.sign_eq_neg_one_of_neg hz
    · split
      · rename_i hz; exact Int.sign_eq_one_of_pos hz
      · rw [Int.sign_eq_zero_iff_zero]; omega
  rw [hs x, hs y]
  by_cases h1 : x < 0
  · by_cases h2 : y < 0
    · rw [if_pos h1, if_pos h2] at h
      simp at h
      exact ⟨by rw [if_pos h1, if_pos h2], h⟩
    · rw [if_pos h1, if_neg h2] at h
      split at h <;> simp at h
  · by_cases h2 : y < 0
    · rw [if_neg h1, if_pos h2] at h
      split at h <;> simp at h
    · rw [if_neg h1, if_neg h2] at h ⊢
      by_cases h3 : 0 < x
      · by_cases h4 : 0 < y
        · rw [if_pos h3, if_pos h4] at h ⊢
          simp at h
          exact ⟨rfl, h⟩
        · rw [if_pos h3, if_neg h4] at h
          simp at h
      · by_cases h4 : 0 < y
        · rw [if_neg h3, if_pos h4] at h
          simp at h
        · rw [if_neg h3, if_neg h4] at h ⊢
          simp at h
          exact ⟨rfl, h⟩

theorem tr_branch {α : Type} (c : Prop) [Decidable c] (t e : Lk α) : (branch c t e).tr = .br (decide c) :: (if c then t else e).tr := rfl

theorem tr_tick {α : Type} (e : Ev) (p : Lk α) : (tick e p).tr = e :: p.tr := rfl

/-- A completed run shows exactly `T`. -/
def Shows {α : Type} (p : Lk α) (T : List Ev) (P : α → Prop) : Prop := ∀ a, p.val = .ok a → p.tr = T ∧ P a

theorem Shows.bind {α β : Type} {p : Lk α} {f : α → Lk β} {T U : List Ev} {P : α → Prop} {R : β → Prop} (h : Shows p T P)
    (hf : ∀ a, P a → Shows (f a) U R) : Shows (p >>= f) (T ++ U) R := by
  intro b hb
  obtain ⟨a, ha, hb⟩ := bind_val_ok hb
  rw [tr_bind_ok ha, (h a ha).1, (hf a (h a ha).2 b hb).1]
  exact ⟨rfl, (hf a (h a ha).2 b hb).2⟩
theorem Shows.lift {α : Type} (r : Res α) : Shows (Lk.lift r) [] fun _ => True := fun _ _ => ⟨rfl, trivial⟩
theorem Shows.pure {α : Type} {P : α → Prop} {a : α} (h : P a) : Shows (Pure.pure a : Lk α) [] P := by
  intro b hb
  cases hb
  exact ⟨rfl, h⟩
theorem Shows.silent {α β : Type} {r : Res α} {f : α → Lk β} {U : List Ev} {R : β → Prop}
    (hf : ∀ a, Shows (f a) U R) : Shows (Lk.lift r >>= f) U R := by
  have := Shows.bind (Shows.lift r) (U := U) (R := R) fun a _ => hf a
  rwa [List.nil_append] at this
theorem Shows.branch {α : Type} {c : Prop} [Decidable c] {t e : Lk α} {T U : List Ev} {P : α → Prop} (ht : c → Shows t T P)
    (he : ¬ c → Shows e U P) : Shows (branch c t e) (.br (decide c) :: (if c then T else U)) P := by
  intro a ha
  rw [tr_branch]
  by_cases h : c
  · rw [if_pos h, if_pos h]
    have : t.val = .ok a := by
      have : (if c then t else e).val = .ok a := ha
      rwa [if_pos h] at this
    exact ⟨by rw [(ht h a this).1], (ht h a this).2⟩
  · rw [if_neg h, if_neg h]
    have : e.val = .ok a := by
      have : (if c then t else e).val = .ok a := ha
      rwa [if_neg h] at this
    exact ⟨by rw [(he h a this).1], (he h a this).2⟩

theorem sgnTr_eq (x : Int) : [Ev.br (decide (x < 0))] ++ (.br (decide (x > 0)) :: (if x > 0 then [] else
    .br (decide (x < 0)) :: (if x < 0 then [] else []))) = sgnTr x := by
  unfold sgnTr
  by_cases h1 : x < 0
  · rw [if_pos h1, if_neg (by omega)]
    simp [h1]
    omega
  · rw [if_neg h1]
    by_cases h2 : 0 < x
    · rw [if_pos h2, if_pos h2]
      simp [h1, h2]
    · rw [if_neg h2, if_neg h2]
      simp [h1, h2]

theorem shows_abs (x : Int) (r : Res Int) : Shows (branch (x < 0) (lift r) (lift r)) [.br (decide (x < 0))] fun _ => True := by
  have := Shows.branch (c := x < 0) (fun _ => Shows.lift r) (fun _ => Shows.lift r)
  rwa [ite_self] at this

theorem shows_encHintL (x : Int) (s : EncSt) : Shows (encHintL x s) (sgnTr x) fun s' => s'.off = s.off := by
  rw [← sgnTr_eq]
  unfold encHintL
  refine Shows.bind (shows_abs x _) fun ax _ => ?_
  dsimp only
  refine Shows.silent fun one => Shows.branch (fun _ => ?_) fun _ => Shows.branch (fun _ => ?_) fun _ => ?_
  · exact Shows.silent fun z => Shows.silent fun v => Shows.pure rfl
  · exact Shows.silent fun z => Shows.silent fun v => Shows.pure rfl
  · exact Shows.silent fun v => Shows.pure rfl

theorem shows_encRespL (x : Int) (s : EncSt) : Shows (encRespL x s) (sgnTr x) fun s' => s'.off = s.off := by
  rw [← sgnTr_eq]
  unfold encRespL
  refine Shows.bind (shows_abs x _) fun ax _ => ?_
  dsimp only
  refine Shows.silent fun v => Shows.silent fun one => Shows.branch (fun _ => ?_) fun _ => Shows.branch (fun _ => ?_) fun _ => ?_
  · exact Shows.silent fun z => Shows.silent fun v => Shows.pure rfl
  · exact Shows.silent fun z => Shows.silent fun v => Shows.pure rfl
  · exact Shows.pure rfl

/-- Equal observations of two flushes that start at the same byte. -/
theorem flush_inj {n : Nat} {s s' s1 s1' : EncSt} {f f' : Bool} {X X' : List Ev} (ho : s.off = s'.off)
    (h : (encFlushL n s).val = .ok (f, s1)) (h' : (encFlushL n s').val = .ok (f', s1'))
    (e : (encFlushL n s).tr ++ X = (encFlushL n s').tr ++ X') : f = f' ∧ s1.off = s1'.off ∧ X = X' := by
  have key : ∀ (t t1 : EncSt) (g : Bool), (encFlushL n t).val = .ok (g, t1) →
      ((encFlushL n t).tr = [.br false] ∧ g = true ∧ t1.off = t.off) ∨ ((encFlushL n t).tr = [.br true, .br true] ∧ g = false ∧ t1.off = t.off) ∨
      ∃ w, (encFlushL n t).tr = .br true :: .br false :: (.ix t.off :: .len w :: .br (decide (w < 8)) :: byteLoop (min 8 w)) ∧ g = true ∧ t1.off = t.off + w := by
    intro t t1 g hv
    unfold encFlushL at hv ⊢
    rw [val_branch] at hv
    rw [tr_branch]
    by_cases hb : t.bitOff ≥ 8
    · rw [if_pos hb] at hv ⊢
      dsimp only at hv ⊢
      rw [val_branch] at hv
      rw [tr_branch]
      by_cases hc : t.off + and8 t.bitOff / 8 > n
      · rw [if_pos hc] at hv ⊢
        cases hv
        right; left
        exact ⟨by rw [decide_eq_true hb, decide_eq_true hc]; rfl, rfl, rfl⟩
      · rw [if_neg hc] at hv ⊢
        right; right
        obtain ⟨sig, hs, hv⟩ := bind_val_ok (p := putLeL t.sig t.off (and8 t.bitOff / 8) t.buffer) hv
        obtain ⟨bf, hbf, hv⟩ := bind_val_ok hv
        cases hv
        refine ⟨and8 t.bitOff / 8, ?_, rfl, rfl⟩
        rw [tr_bind_ok hs, tr_bind_ok hbf, decide_eq_true hb, decide_eq_false hc]
        show _ :: _ :: ([Ev.ix t.off, .len (and8 t.bitOff / 8), .br (decide (and8 t.bitOff / 8 < 8))] ++ byteLoop _ ++ ([] ++ [])) = _
        simp
    · rw [if_neg hb] at hv ⊢
      cases hv
      left
      exact ⟨by rw [decide_eq_false hb]; rfl, rfl, rfl⟩
  rcases key s s1 f h with ⟨k1, k2, k3⟩ | ⟨k1, k2, k3⟩ | ⟨w, k1, k2, k3⟩ <;>
    rcases key s' s1' f' h' with ⟨m1, m2, m3⟩ | ⟨m1, m2, m3⟩ | ⟨w', m1, m2, m3⟩ <;> rw [k1, m1] at e
  · refine ⟨by rw [k2, m2], by rw [k3, m3, ho], by simpa using e⟩
  · simp at e
  · simp at e
  · simp at e
  · refine ⟨by rw [k2, m2], by rw [k3, m3, ho], by simpa using e⟩
  · simp at e
  · simp at e
  · simp at e
  · rw [List.cons_append, List.cons_append, List.cons_append, List.cons_append, List.cons_append, List.cons_append, List.cons_append,
      List.cons_append, List.cons_append, List.cons_append] at e
    injection e with _ e
    injection e with _ e
    injection e with _ e
    injection e with e0 e
    injection e0 with e0
    subst e0
    injection e with _ e
    exact ⟨by rw [k2, m2], by rw [k3, m3, ho], List.append_cancel_left e⟩

theorem loop_inj {n : Nat} {enc : Int → EncSt → Lk EncSt} (henc : ∀ x s, Shows (enc x s) (sgnTr x) fun s' => s'.off = s.off) :
    ∀ (xs xs' : List Int) (i : Nat) (s s' s1 s1' : EncSt) (f f' : Bool) (X X' : List Ev), s.off = s'.off → xs.length = xs'.length →
    (encLoopL n enc i xs s).val = .ok (f, s1) → (encLoopL n enc i xs' s').val = .ok (f', s1') →
    (encLoopL n enc i xs s).tr ++ X = (encLoopL n enc i xs' s').tr ++ X' →
    f = f' ∧ (f = true → xs.map Int.sign = xs'.map Int.sign ∧ s1.off = s1'.off) ∧ X = X'
  | [], [], i, s, s', s1, s1', f, f', X, X', ho, _, h, h', e => by
    cases h; cases h'
    refine ⟨rfl, fun _ => ⟨rfl, ho⟩, ?_⟩
    exact List.append_cancel_left e
  | x :: xs, x' :: xs', i, s, s', s1, s1', f, f', X, X', ho, hl, h, h', e => by
    rw [encLoopL, val_tick] at h h'
    rw [encLoopL, encLoopL] at e
    obtain ⟨⟨g, t⟩, hg, h⟩ := bind_val_ok h
    obtain ⟨⟨g', t'⟩, hg', h'⟩ := bind_val_ok h'
    dsimp only at h h'
    rw [tr_tick, tr_tick, List.cons_append, List.cons_append] at e
    replace e := (List.cons.inj e).2
    rw [tr_bind_ok hg, tr_bind_ok hg'] at e
    rw [List.append_assoc, List.append_assoc] at e
    obtain ⟨rfl, ht, e⟩ := flush_inj ho hg hg' e
    dsimp only at e
    rw [tr_branch, tr_branch] at e
    rw [val_branch] at h h'
    cases g with
    | false =>
      rw [if_neg (by decide)] at h h'
      rw [if_neg (by decide), if_neg (by decide)] at e
      cases h; cases h'
      exact ⟨rfl, ⟨fun h => absurd h (by decide), List.append_cancel_left e⟩⟩
    | true =>
      rw [if_pos rfl] at h h'
      rw [if_pos rfl, if_pos rfl] at e
      obtain ⟨u, hu, h⟩ := bind_val_ok h
      obtain ⟨u', hu', h'⟩ := bind_val_ok h'
      obtain ⟨k1, k2⟩ := henc x t u hu
      obtain ⟨k1', k2'⟩ := henc x' t' u' hu'
      have e2 : sgnTr x ++ ((encLoopL n enc (i + 1) xs u).tr ++ X) = sgnTr x' ++ ((encLoopL n enc (i + 1) xs' u').tr ++ X') := by
        rw [List.cons_append, List.cons_append] at e
        replace e := (List.cons.inj e).2
        rw [tr_tick, tr_tick, List.cons_append, List.cons_append] at e
        replace e := (List.cons.inj e).2
        rw [tr_bind_ok hu, tr_bind_ok hu', k1, k1', List.append_assoc, List.append_assoc] at e
        exact e
      obtain ⟨hs, e3⟩ := sgnTr_inj e2
      obtain ⟨r1, r2, r3⟩ := loop_inj henc xs xs' (i + 1) u u' s1 s1' f f' X X' (by rw [k2, k2', ht]) (by simpa using hl) h h' e3
      refine ⟨r1, fun hf => ?_, r3⟩
      rw [List.map_cons, List.map_cons, hs, (r2 hf).1]
      exact ⟨rfl, (r2 hf).2⟩

/-- Two completed encodings that show the same have coefficients of the same signs. -/
theorem encodeSig_signs {c c' : List U8} {h h' z z' : List Int} {buf buf' b b' : List U8} (hc : c.length = c'.length)
    (hh : h.length = h'.length) (hz : z.length = z'.length) (hb : buf.length = buf'.length)
    (e : encodeSig c h z buf = .ok (true, b)) (e' : encodeSig c' h' z' buf' = .ok (true, b'))
    (ht : (encodeSigL c h z buf).tr = (encodeSigL c' h' z' buf').tr) :
    h.map Int.sign = h'.map Int.sign ∧ z.map Int.sign = z'.map Int.sign := by
  rw [← val_encodeSigL] at e e'
  unfold encodeSigL at e e' ht
  dsimp only at e e' ht
  rw [← hb] at e' ht
  generalize buf.length = n at e e' ht
  obtain ⟨w, hw, e⟩ := bind_val_ok e
  obtain ⟨w', hw', e'⟩ := bind_val_ok e'
  rw [tr_bind_ok hw, tr_bind_ok hw'] at ht
  rw [show (writeSpanL buf 0 c).tr = (writeSpanL buf' 0 c').tr by unfold writeSpanL; rw [hc]] at ht
  replace ht := List.append_cancel_left ht
  obtain ⟨⟨f, s⟩, h1, e⟩ := bind_val_ok e
  obtain ⟨⟨f', s'⟩, h1', e'⟩ := bind_val_ok e'
  rw [tr_bind_ok h1, tr_bind_ok h1'] at ht
  obtain ⟨rfl, k1, ht⟩ := loop_inj shows_encHintL h h' 0 _ _ s s' f f' _ _ (by exact hc) hh h1 h1' ht
  dsimp only at e e' ht
  rw [val_branch] at e e'
  cases f with
  | false => rw [if_pos (by decide)] at e; cases e
  | true =>
    obtain ⟨k1, k2⟩ := k1 rfl
    refine ⟨k1, ?_⟩
    rw [if_neg (by decide)] at e e'
    rw [tr_branch, tr_branch, if_neg (by decide), if_neg (by decide)] at ht
    have ht := (List.cons.inj ht).2
    obtain ⟨⟨g, t⟩, h2, e⟩ := bind_val_ok e
    obtain ⟨⟨g', t'⟩, h2', e'⟩ := bind_val_ok e'
    rw [tr_bind_ok h2, tr_bind_ok h2'] at ht
    obtain ⟨rfl, k3, -⟩ := loop_inj shows_encRespL z z' 0 s s' t t' g g' _ _ k2 hz h2 h2' ht
    cases g with
    | false =>
      dsimp only at e
      rw [val_branch, if_pos (by decide)] at e
      cases e
    | true => exact (k3 rfl).1

end Raccoon
