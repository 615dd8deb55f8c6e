import Verif.Proofs.SigDec2
/-!
# Signature encoding: ranges, uniqueness, independence of the previous buffer content
-/
namespace Raccoon
attribute [-instance] Monoid.toNPow

theorem hintBits_length (x : Int) : (hintBits x).length = x.natAbs + 1 + (if x = 0 then 0 else 1) := tailBits_length _ _

theorem encodeSig_short {c : List U8} {h z : List Int} {sig : List U8} (hc : ¬ c.length ≤ sig.length) : encodeSig c h z sig = .ub := by
  unfold encodeSig writeSpan
  rw [if_neg (by omega)]
  rfl

theorem decodeSig_short {hashLen hLen zLen : Nat} {sig : List U8} (hc : ¬ hashLen ≤ sig.length) : decodeSig hashLen hLen zLen sig = .ub := by
  unfold decodeSig subspan
  rw [if_neg (by omega)]
  rfl

theorem IsSigEncoding.unique {c : List U8} {h z : List Int} {L : Nat} {b b' : List U8} (e : IsSigEncoding c h z L b) (e' : IsSigEncoding c h z L b') : b = b' := by
  obtain ⟨h1, p, h2⟩ := e
  obtain ⟨h1', p', h2'⟩ := e'
  apply bytesBits_inj
  have l1 := congrArg List.length h2
  have l2 := congrArg List.length h2'
  rw [List.length_append, bytesBits_length, List.length_replicate] at l1 l2
  rw [h2, h2', show p = p' by omega]

theorem IsSigEncoding.fits {c : List U8} {h z : List Int} {L : Nat} {b : List U8} (e : IsSigEncoding c h z L b) : 8 * c.length + (sigBits h z).length ≤ 8 * L := by
  obtain ⟨h1, p, h2⟩ := e
  have l1 := congrArg List.length h2
  rw [List.length_append, List.length_append, bytesBits_length, bytesBits_length] at l1
  omega

theorem FitFrom.mem {e : Int → List Bool} : ∀ {xs : List Int} {p : Nat}, FitFrom e p xs → ∀ x ∈ xs, (e x).length < 64 := by
  intro xs
  induction xs with
  | nil => intro p _ x hx; exact absurd hx (by simp)
  | cons y ys ih =>
    intro p hf x hx
    obtain ⟨f1, f2⟩ := hf
    rcases List.mem_cons.1 hx with rfl | hx
    · omega
    · exact ih f2 x hx

theorem FitFrom.of_le {e : Int → List Bool} : ∀ {xs : List Int} {p : Nat}, (∀ x ∈ xs, (e x).length ≤ 56) → FitFrom e p xs := by
  intro xs
  induction xs with
  | nil => intro p _; exact trivial
  | cons y ys ih =>
    intro p h
    refine ⟨?_, ih fun x hx => h x (List.mem_cons_of_mem _ hx)⟩
    have := h y (by simp)
    omega

theorem pendFrom_last {e : Int → List Bool} : ∀ {xs : List Int} {p b : Nat} {x : Int}, xs.getLast? = some x → pendFrom e p b xs ≤ 7 + (e x).length := by
  intro xs
  induction xs with
  | nil => intro p b x h; cases h
  | cons y ys ih =>
    intro p b x h
    unfold pendFrom
    cases ys with
    | nil =>
      obtain rfl : y = x := by simpa using h
      show p % 8 + _ ≤ _
      omega
    | cons w ws => exact ih (by rw [← h]; simp)

theorem fitSig_of {h z : List Int} {zl : Int} (hh : ∀ x ∈ h, x.natAbs ≤ 54) (hz : ∀ x ∈ z, x.natAbs < 15 * 2 ^ 40) (hl : z.getLast? = some zl)
    (hzl : zl.natAbs < 8 * 2 ^ 40) : FitSig h z := by
  have h40 : (2 : Nat) ^ 40 = 1099511627776 := by norm_num
  refine ⟨FitFrom.of_le ?_, FitFrom.of_le ?_, ?_⟩
  · intro x hx
    have := hh x hx
    rw [hintBits_length]; split <;> omega
  · intro x hx
    have := hz x hx
    rw [respBits_length]; split <;> omega
  · refine Nat.le_trans (pendFrom_last hl) ?_
    rw [respBits_length]; split <;> omega

/-! ### The bit format is uniquely decodable -/

theorem ones_inj : ∀ {n m : Nat} {r r' : List Bool}, List.replicate n true ++ false :: r = List.replicate m true ++ false :: r' → n = m ∧ r = r' := by
  intro n
  induction n with
  | zero =>
    intro m r r' h
    cases m with
    | zero => exact ⟨rfl, (List.cons.inj h).2⟩
    | succ m => rw [List.replicate_succ, List.cons_append] at h; exact absurd (List.cons.inj h).1 (by decide)
  | succ n ih =>
    intro m r r' h
    cases m with
    | zero => rw [List.replicate_succ, List.cons_append] at h; exact absurd (List.cons.inj h).1 (by decide)
    | succ m =>
      rw [List.replicate_succ, List.replicate_succ, List.cons_append, List.cons_append] at h
      have := ih (List.cons.inj h).2
      exact ⟨by omega, this.2⟩

theorem tailBits_append (n : Nat) (x : Int) (r : List Bool) :
    tailBits n x ++ r = List.replicate n true ++ false :: ((if x = 0 then [] else [decide (x < 0)]) ++ r) := by
  unfold tailBits; simp only [List.append_assoc]; rfl

theorem sign_inj {x y : Int} {r r' : List Bool} (ha : x.natAbs = y.natAbs)
    (h : (if x = 0 then [] else [decide (x < 0)]) ++ r = (if y = 0 then [] else [decide (y < 0)]) ++ r') : x = y ∧ r = r' := by
  by_cases h0 : x = 0
  · have h0' : y = 0 := by omega
    rw [if_pos h0, if_pos h0'] at h
    exact ⟨by omega, h⟩
  · rw [if_neg h0, if_neg (by omega)] at h
    obtain ⟨h1, h2⟩ := List.cons.inj h
    rw [decide_eq_decide] at h1
    exact ⟨by omega, h2⟩

theorem hintBits_prefix {x y : Int} {r r' : List Bool} (h : hintBits x ++ r = hintBits y ++ r') : x = y ∧ r = r' := by
  rw [hintBits_eq, hintBits_eq, tailBits_append, tailBits_append] at h
  obtain ⟨h1, h2⟩ := ones_inj h
  exact sign_inj h1 h2

theorem respBits_prefix {x y : Int} {r r' : List Bool} (h : respBits x ++ r = respBits y ++ r') : x = y ∧ r = r' := by
  have h40 : (2 : Nat) ^ 40 = 1099511627776 := by norm_num
  rw [respBits_eq, respBits_eq, List.append_assoc, List.append_assoc] at h
  obtain ⟨h1, h2⟩ := List.append_inj h (by rw [natBits_length, natBits_length])
  have h3 := congrArg bitsVal h1
  rw [bitsVal_natBits, bitsVal_natBits, Nat.mod_mod, Nat.mod_mod] at h3
  rw [tailBits_append, tailBits_append] at h2
  obtain ⟨h4, h5⟩ := ones_inj h2
  exact sign_inj (by omega) h5

theorem flatMap_inj {e : Int → List Bool} (he : ∀ {x y : Int} {r r' : List Bool}, e x ++ r = e y ++ r' → x = y ∧ r = r') :
    ∀ {xs ys : List Int} {r r' : List Bool}, xs.length = ys.length → xs.flatMap e ++ r = ys.flatMap e ++ r' → xs = ys ∧ r = r' := by
  intro xs
  induction xs with
  | nil =>
    intro ys r r' hl h
    obtain rfl : ys = [] := List.length_eq_zero_iff.1 hl.symm
    exact ⟨rfl, h⟩
  | cons x xs ih =>
    intro ys r r' hl h
    cases ys with
    | nil => cases hl
    | cons y ys =>
      rw [List.flatMap_cons, List.flatMap_cons, List.append_assoc, List.append_assoc] at h
      obtain ⟨rfl, h2⟩ := he h
      obtain ⟨rfl, h3⟩ := ih (by simpa using hl) h2
      exact ⟨rfl, h3⟩

theorem IsSigEncoding.inj {c c' : List U8} {h h' z z' : List Int} {L : Nat} {b : List U8} (e : IsSigEncoding c h z L b) (e' : IsSigEncoding c' h' z' L b)
    (hc : c.length = c'.length) (hh : h.length = h'.length) (hz : z.length = z'.length) : c = c' ∧ h = h' ∧ z = z' := by
  obtain ⟨-, p, h2⟩ := e
  obtain ⟨-, p', h2'⟩ := e'
  rw [h2, List.append_assoc, List.append_assoc] at h2'
  obtain ⟨h3, h4⟩ := List.append_inj h2' (by rw [bytesBits_length, bytesBits_length, hc])
  unfold sigBits at h4
  rw [List.append_assoc, List.append_assoc] at h4
  obtain ⟨h5, h6⟩ := flatMap_inj hintBits_prefix hh h4
  obtain ⟨h7, -⟩ := flatMap_inj respBits_prefix hz h6
  exact ⟨bytesBits_inj h3, h5, h7⟩

/-! ### Independence of the previous content of the output buffer -/

/-- Equal up to the content of the buffer. -/
def EncSt.Rel (s t : EncSt) : Prop := s.sig.length = t.sig.length ∧ s.off = t.off ∧ s.buffer = t.buffer ∧ s.bitOff = t.bitOff

inductive resRel {α β : Type} (R : α → β → Prop) : Res α → Res β → Prop
  | ok {a : α} {b : β} (h : R a b) : resRel R (.ok a) (.ok b)
  | ub : resRel R .ub .ub
  | nofuel : resRel R .nofuel .nofuel

theorem resRel_bind {α β α' β' : Type} {R : α → β → Prop} {R' : α' → β' → Prop} {x : Res α} {y : Res β} {f : α → Res α'} {g : β → Res β'}
    (h : resRel R x y) (hf : ∀ a b, R a b → resRel R' (f a) (g b)) : resRel R' (x >>= f) (y >>= g) := by
  cases h with
  | ok h => exact hf _ _ h
  | ub => exact .ub
  | nofuel => exact .nofuel

theorem resRel_bind_same {α α' β' : Type} {R' : α' → β' → Prop} {x : Res α} {f : α → Res α'} {g : α → Res β'}
    (hf : ∀ a, resRel R' (f a) (g a)) : resRel R' (x >>= f) (x >>= g) := by
  cases x with
  | ok a => exact hf _
  | ub => exact .ub
  | nofuel => exact .nofuel

theorem writeSpan_rel {b b' : List U8} (h : b.length = b'.length) (off : Nat) (bs : List U8) :
    resRel (fun r r' => r.length = b.length ∧ r'.length = b.length) (writeSpan b off bs) (writeSpan b' off bs) := by
  unfold writeSpan
  by_cases hc : off + bs.length ≤ b.length
  · rw [if_pos hc, if_pos (by omega)]
    refine .ok ⟨?_, ?_⟩
    · simp; omega
    · simp; omega
  · rw [if_neg hc, if_neg (by omega)]; exact .ub

theorem putLe_rel {b b' : List U8} (h : b.length = b'.length) (off n : Nat) (v : U64) :
    resRel (fun r r' => r.length = b.length ∧ r'.length = b.length) (putLe b off n v) (putLe b' off n v) := by
  by_cases hc : off + n ≤ b.length
  · obtain ⟨r, e, l, -⟩ := putLe_ok' (v := v) hc
    obtain ⟨r', e', l', -⟩ := putLe_ok' (buf := b') (v := v) (off := off) (cnt := n) (by omega)
    rw [e, e']
    exact .ok ⟨l, by omega⟩
  · unfold putLe subspan
    rw [if_neg hc, if_neg (by omega)]; exact .ub

theorem encFlush_rel {L : Nat} {s t : EncSt} (h : s.Rel t) : resRel (fun a b => a.1 = b.1 ∧ a.2.Rel b.2) (encFlush L s) (encFlush L t) := by
  obtain ⟨h1, h2, h3, h4⟩ := h
  unfold encFlush
  rw [← h2, ← h3, ← h4]
  dsimp only
  split
  · split
    · exact .ok ⟨rfl, h1, h2, h3, h4⟩
    · refine resRel_bind (putLe_rel h1 _ _ _) fun a b hab => resRel_bind_same fun x => ?_
      exact .ok ⟨rfl, by show a.length = b.length; omega, rfl, rfl, rfl⟩
  · exact .ok ⟨rfl, h1, h2, h3, h4⟩

theorem encHint_rel {s t : EncSt} (h : s.Rel t) (x : Int) : resRel EncSt.Rel (encHint x s) (encHint x t) := by
  have h1 := h.1
  have h2 := h.2.1
  have h3 := h.2.2.1
  have h4 := h.2.2.2
  unfold encHint
  rw [← h3, ← h4]
  refine resRel_bind_same fun a => ?_
  dsimp only
  refine resRel_bind_same fun a' => ?_
  split
  · refine resRel_bind_same fun a => resRel_bind_same fun a' => ?_
    exact .ok ⟨h1, h2, rfl, rfl⟩
  · split
    · refine resRel_bind_same fun a => resRel_bind_same fun a' => ?_
      exact .ok ⟨h1, h2, rfl, rfl⟩
    · refine resRel_bind_same fun a => ?_
      exact .ok ⟨h1, h2, rfl, rfl⟩

theorem encResp_rel {s t : EncSt} (h : s.Rel t) (x : Int) : resRel EncSt.Rel (encResp x s) (encResp x t) := by
  have h1 := h.1
  have h2 := h.2.1
  have h3 := h.2.2.1
  have h4 := h.2.2.2
  unfold encResp
  dsimp only
  rw [← h3, ← h4]
  refine resRel_bind_same fun a => ?_
  refine resRel_bind_same fun v => ?_
  refine resRel_bind_same fun a' => ?_
  split
  · refine resRel_bind_same fun a => resRel_bind_same fun a' => ?_
    exact .ok ⟨h1, h2, rfl, rfl⟩
  · split
    · refine resRel_bind_same fun a => resRel_bind_same fun a' => ?_
      exact .ok ⟨h1, h2, rfl, rfl⟩
    · exact .ok ⟨h1, h2, rfl, rfl⟩

theorem encLoop_rel {L : Nat} {enc : Int → EncSt → Res EncSt} (henc : ∀ {s t : EncSt}, s.Rel t → ∀ x, resRel EncSt.Rel (enc x s) (enc x t)) :
    ∀ (xs : List Int) {s t : EncSt}, s.Rel t → resRel (fun a b => a.1 = b.1 ∧ a.2.Rel b.2) (encLoop L enc xs s) (encLoop L enc xs t) := by
  intro xs
  induction xs with
  | nil => intro s t h; exact .ok ⟨rfl, h⟩
  | cons x xs ih =>
    intro s t h
    refine resRel_bind (encFlush_rel h) ?_
    rintro ⟨f, s1⟩ ⟨f', t1⟩ ⟨hf, hr⟩
    replace hf : f = f' := hf
    replace hr : s1.Rel t1 := hr
    subst hf
    show resRel _ (if f = true then _ else _) (if f = true then _ else _)
    split
    · exact resRel_bind (henc hr x) fun a b hab => ih hab
    · exact .ok ⟨rfl, hr⟩

theorem encFinish_rel {L : Nat} {s t : EncSt} (h : s.Rel t) : resRel (fun a b => a.1 = b.1 ∧ a.2.Rel b.2) (encFinish L s) (encFinish L t) := by
  obtain ⟨h1, h2, h3, h4⟩ := h
  unfold encFinish
  rw [← h2, ← h3, ← h4]
  dsimp only
  split
  · split
    · exact .ok ⟨rfl, h1, h2, h3, h4⟩
    · refine resRel_bind (putLe_rel h1 _ _ _) fun a b hab => resRel_bind_same fun x => ?_
      exact .ok ⟨rfl, by show a.length = b.length; omega, rfl, rfl, rfl⟩
  · exact .ok ⟨rfl, h1, h2, h3, h4⟩

theorem encodeSig_rel (c : List U8) (h z : List Int) {sig sig' : List U8} (hl : sig.length = sig'.length) :
    resRel (fun a b => a.1 = b.1 ∧ a.2.length = b.2.length) (encodeSig c h z sig) (encodeSig c h z sig') := by
  unfold encodeSig
  dsimp only
  rw [← hl]
  refine resRel_bind (writeSpan_rel hl _ _) fun a b hab => ?_
  refine resRel_bind (encLoop_rel (enc := encHint) (fun h x => encHint_rel h x) h (s := ⟨a, c.length, 0, 0⟩) (t := ⟨b, c.length, 0, 0⟩) ⟨by show a.length = b.length; omega, rfl, rfl, rfl⟩) ?_
  rintro ⟨f, s1⟩ ⟨f', t1⟩ ⟨hf, hr⟩
  replace hf : f = f' := hf
  replace hr : s1.Rel t1 := hr
  subst hf
  show resRel _ (if (!f) = true then _ else _) (if (!f) = true then _ else _)
  split
  · exact .ok ⟨rfl, hr.1⟩
  refine resRel_bind (encLoop_rel (enc := encResp) (fun h x => encResp_rel h x) z hr) ?_
  rintro ⟨f2, s2⟩ ⟨f2', t2⟩ ⟨hf2, hr2⟩
  replace hf2 : f2 = f2' := hf2
  replace hr2 : s2.Rel t2 := hr2
  subst hf2
  show resRel _ (if (!f2) = true then _ else _) (if (!f2) = true then _ else _)
  split
  · exact .ok ⟨rfl, hr2.1⟩
  refine resRel_bind (encFinish_rel hr2) ?_
  rintro ⟨f3, s3⟩ ⟨f3', t3⟩ ⟨hf3, hr3⟩
  replace hf3 : f3 = f3' := hf3
  replace hr3 : s3.Rel t3 := hr3
  subst hf3
  show resRel _ (if (!f3) = true then _ else _) (if (!f3) = true then _ else _)
  split
  · exact .ok ⟨rfl, hr3.1⟩
  show resRel _ (writeSpan s3.sig s3.off (List.replicate (sig.length - s3.off) 0) >>= _) (writeSpan t3.sig t3.off (List.replicate (sig.length - t3.off) 0) >>= _)
  rw [← hr3.2.1]
  refine resRel_bind (writeSpan_rel hr3.1 _ _) fun a b hab => ?_
  exact .ok ⟨rfl, by show a.length = b.length; omega⟩


theorem encodeSig_true {c : List U8} {h z : List Int} {sig b : List U8} (e : encodeSig c h z sig = .ok (true, b)) :
    IsSigEncoding c h z sig.length b ∧ FitSig h z := by
  by_cases hc : c.length ≤ sig.length
  · rcases encodeSig_cases c h z sig hc with ⟨b', e', i, f⟩ | ⟨b', e', -⟩ | ⟨e', -⟩
    · rw [e'] at e
      obtain rfl : b' = b := (Prod.mk.inj (Res.ok.inj e)).2
      exact ⟨i, f⟩
    · rw [e'] at e
      exact absurd (Prod.mk.inj (Res.ok.inj e)).1 (by decide)
    · rw [e'] at e; cases e
  · rw [encodeSig_short hc] at e; cases e

/-- The outcome of encoding does not depend on what the buffer held: the same flag, or undefined both times, and on success the same bytes. -/
theorem encodeSig_buf (c : List U8) (h z : List Int) {sig sig' : List U8} (hl : sig.length = sig'.length) :
    resRel (fun a b => a.1 = b.1 ∧ a.2.length = b.2.length ∧ (a.1 = true → a.2 = b.2)) (encodeSig c h z sig) (encodeSig c h z sig') := by
  have hr := encodeSig_rel c h z hl
  cases h1 : encodeSig c h z sig with
  | ok a =>
    cases h2 : encodeSig c h z sig' with
    | ok b =>
      rw [h1, h2] at hr
      cases hr with
      | ok hr =>
        refine .ok ⟨hr.1, hr.2, fun ht => ?_⟩
        obtain ⟨f, a⟩ := a
        obtain ⟨f', b⟩ := b
        replace ht : f = true := ht
        obtain ⟨r1, r2⟩ := hr
        replace r1 : f = f' := r1
        subst r1
        subst ht
        have i1 := (encodeSig_true h1).1
        have i2 := (encodeSig_true h2).1
        rw [← hl] at i2
        exact i1.unique i2
    | ub => rw [h1, h2] at hr; cases hr
    | nofuel => rw [h1, h2] at hr; cases hr
  | ub =>
    cases h2 : encodeSig c h z sig' with
    | ok b => rw [h1, h2] at hr; cases hr
    | ub => exact .ub
    | nofuel => rw [h1, h2] at hr; cases hr
  | nofuel =>
    cases h2 : encodeSig c h z sig' with
    | ok b => rw [h1, h2] at hr; cases hr
    | ub => rw [h1, h2] at hr; cases hr
    | nofuel => exact .nofuel

end Raccoon
