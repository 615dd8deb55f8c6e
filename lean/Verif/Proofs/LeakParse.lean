import Verif.Proofs.LeakSign
import Verif.Proofs.LeakSigns
import Verif.Proofs.Wire
import Verif.Spec.Shown
/-!
# Reading the observations of `sign` from the front

`Sd R p p'`: the observations of a completed run are self-delimiting.  If those of two completed runs, each followed by further
observations, agree, then the runs have results related by `R` and the further observations agree as well.
-/
namespace Raccoon
open Lk
attribute [-instance] Monoid.toNPow

def Lk.Sd {α : Type u} (R : α → α → Prop) (p p' : Lk α) : Prop :=
  ∀ a b X Y, p.val = .ok a → p'.val = .ok b → p.tr ++ X = p'.tr ++ Y → R a b ∧ X = Y

namespace Lk
variable {α β : Type u} {R : α → α → Prop} {S : β → β → Prop}

theorem Rel.sd {p p' : Lk α} (h : Rel R p p') : Sd R p p' := by
  intro a b X Y ha hb e
  obtain ⟨h1, h2⟩ := h a b ha hb
  rw [h1] at e
  exact ⟨h2, List.append_cancel_left e⟩
theorem Sd.mono {p p' : Lk α} {R' : α → α → Prop} (h : Sd R p p') (hi : ∀ a b, R a b → R' a b) : Sd R' p p' :=
  fun a b X Y ha hb e => ⟨hi a b (h a b X Y ha hb e).1, (h a b X Y ha hb e).2⟩
theorem Sd.bind {p p' : Lk α} {f f' : α → Lk β} (h : Sd R p p') (hf : ∀ a b, R a b → Sd S (f a) (f' b)) :
    Sd S (p >>= f) (p' >>= f') := by
  intro x y X Y hx hy e
  obtain ⟨a, ha, hx⟩ := bind_val_ok hx
  obtain ⟨b, hb, hy⟩ := bind_val_ok hy
  rw [tr_bind_ok ha, tr_bind_ok hb, List.append_assoc, List.append_assoc] at e
  obtain ⟨h1, h2⟩ := h a b _ _ ha hb e
  exact hf a b h1 x y X Y hx hy h2
/-- As `bind`, with the results of the first parts. -/
theorem Sd.bindV {p p' : Lk α} {f f' : α → Lk β} (h : Sd R p p')
    (hf : ∀ a b, p.val = .ok a → p'.val = .ok b → R a b → Sd S (f a) (f' b)) : Sd S (p >>= f) (p' >>= f') := by
  intro x y X Y hx hy e
  obtain ⟨a, ha, hx⟩ := bind_val_ok hx
  obtain ⟨b, hb, hy⟩ := bind_val_ok hy
  rw [tr_bind_ok ha, tr_bind_ok hb, List.append_assoc, List.append_assoc] at e
  obtain ⟨h1, h2⟩ := h a b _ _ ha hb e
  exact hf a b ha hb h1 x y X Y hx hy h2
theorem Sd.bindT {p p' : Lk α} {f f' : α → Lk β} (h : Rel T p p') (hf : ∀ a b, Sd S (f a) (f' b)) :
    Sd S (p >>= f) (p' >>= f') := Sd.bind h.sd fun a b _ => hf a b
theorem Sd.pure {a b : α} (h : R a b) : Sd R (Pure.pure a : Lk α) (Pure.pure b) := (Rel.pure h).sd
theorem Sd.tick {p p' : Lk α} (e : Ev) (h : Sd R p p') : Sd R (Lk.tick e p) (Lk.tick e p') := by
  intro a b X Y ha hb he
  exact h a b X Y ha hb (List.cons.inj he).2
theorem Sd.branch {c c' : Prop} [Decidable c] [Decidable c'] {t t' e e' : Lk α} (ht : c → c' → Sd R t t')
    (he : ¬ c → ¬ c' → Sd R e e') : Sd R (Lk.branch c t e) (Lk.branch c' t' e') := by
  intro a b X Y ha hb heq
  have heq : Ev.br (decide c) :: ((if c then t else e).tr ++ X) = Ev.br (decide c') :: ((if c' then t' else e').tr ++ Y) := heq
  obtain ⟨h1, h2⟩ := List.cons.inj heq
  injection h1 with h1
  have ha : (if c then t else e).val = .ok a := ha
  have hb : (if c' then t' else e').val = .ok b := hb
  by_cases h : c
  · have h' : c' := by
      rw [decide_eq_true h] at h1
      exact of_decide_eq_true h1.symm
    rw [if_pos h] at ha h2
    rw [if_pos h'] at hb h2
    exact ht h h' a b X Y ha hb h2
  · have h' : ¬ c' := by
      rw [decide_eq_false h] at h1
      exact of_decide_eq_false h1.symm
    rw [if_neg h] at ha h2
    rw [if_neg h'] at hb h2
    exact he h h' a b X Y ha hb h2
end Lk

/-! ### The challenge -/

/-- The same positions are zero. -/
def SameSupport (c c' : Poly) : Prop := ∀ i : Fin 512, c[i] = ⟨0⟩ ↔ c'[i] = ⟨0⟩

theorem sd_rd {α : Type u} {n : Nat} (v v' : Vector α n) (i j : Nat) :
    Sd (fun a b => i = j ∧ v.rd i = .ok a ∧ v'.rd j = .ok b) (rdL v i) (rdL v' j) := by
  intro a b X Y ha hb e
  have e : Ev.ix i :: X = Ev.ix j :: Y := e
  obtain ⟨h1, h2⟩ := List.cons.inj e
  injection h1 with h1
  exact ⟨⟨h1, ha, hb⟩, h2⟩

theorem chal_value_ne (b : BitVec 32) : Zq.one - ⟨(2 * (b &&& 1)).setWidth 64⟩ ≠ (⟨0⟩ : Zq) := by
  have hb : b &&& 1 = 0 ∨ b &&& 1 = 1 := by
    have h : (b &&& 1).toNat < 2 := by
      rw [BitVec.toNat_and]
      exact Nat.lt_of_le_of_lt Nat.and_le_right (by decide)
    rcases Nat.lt_or_ge (b &&& 1).toNat 1 with h0 | h0
    · left; apply BitVec.eq_of_toNat_eq; simp; simp at h0; omega
    · right; apply BitVec.eq_of_toNat_eq
      show (b &&& 1).toNat = 1
      omega
  rcases hb with hb | hb <;> rw [hb] <;> decide

theorem rd2_iff {ci ci' v v' x y : Zq} (hz : ci = ⟨0⟩ ↔ ci' = ⟨0⟩) (nv : v ≠ ⟨0⟩) (nv' : v' ≠ ⟨0⟩)
    (h1 : #v[ci, v].rd (if decide (ci = ⟨0⟩) = true then 1 else 0) = .ok x)
    (h2 : #v[ci', v'].rd (if decide (ci' = ⟨0⟩) = true then 1 else 0) = .ok y) : x = ⟨0⟩ ↔ y = ⟨0⟩ := by
  by_cases h0 : ci = ⟨0⟩
  · rw [decide_eq_true h0] at h1
    rw [decide_eq_true (hz.1 h0)] at h2
    have h1 : v = x := Res.ok.inj h1
    have h2 : v' = y := Res.ok.inj h2
    subst h1 h2
    exact ⟨fun h => absurd h nv, fun h => absurd h nv'⟩
  · have h0' : ¬ ci' = ⟨0⟩ := fun h => h0 (hz.2 h)
    rw [decide_eq_false h0] at h1
    rw [decide_eq_false h0'] at h2
    have h1 : ci = x := Res.ok.inj h1
    have h2 : ci' = y := Res.ok.inj h2
    subst h1 h2
    exact hz

namespace Poly

theorem sd_chalStepL (s s' : Xof × Poly × Nat) (h : SameSupport s.2.1 s'.2.1) :
    Sd (fun a b => SameSupport a.2.1 b.2.1) (chalStepL s) (chalStepL s') := by
  obtain ⟨xof, c, cnt⟩ := s
  obtain ⟨xof', c', cnt'⟩ := s'
  have h : SameSupport c c' := h
  unfold chalStepL
  refine Sd.bind (Rel.squeeze _ _ _).sd ?_
  rintro ⟨b, xof⟩ ⟨b', xof'⟩ (hb : b.length = b'.length)
  refine Sd.bindT (Rel.fromLe 16 hb) fun w w' => ?_
  dsimp only
  generalize hi : ((w >>> 1) &&& (((1 : BitVec 16) <<< LOG2N) - 1)).toNat = i
  generalize hi' : ((w' >>> 1) &&& (((1 : BitVec 16) <<< LOG2N) - 1)).toNat = i'
  refine Sd.bind (sd_rd _ _ _ _) ?_
  rintro ci ci' ⟨rfl, r1, r2⟩
  refine Sd.bindT (Rel.rd _ _ _) fun _ _ => ?_
  have hlt : i < 512 := by
    by_contra hn
    unfold Vector.rd at r1
    rw [dif_neg hn] at r1
    cases r1
  have e1 : c[i] = ci := by
    unfold Vector.rd at r1
    rw [dif_pos hlt] at r1
    exact Res.ok.inj r1
  have e2 : c'[i] = ci' := by
    unfold Vector.rd at r2
    rw [dif_pos hlt] at r2
    exact Res.ok.inj r2
  have hz : ci = ⟨0⟩ ↔ ci' = ⟨0⟩ := by
    have := h ⟨i, hlt⟩
    rw [← e1, ← e2]
    exact this
  have nv := chal_value_ne (w.setWidth 32)
  have nv' := chal_value_ne (w'.setWidth 32)
  refine Sd.bind (R := fun a b => a = ⟨0⟩ ↔ b = ⟨0⟩) ?_ fun x y hxy => ?_
  · refine Sd.mono (sd_rd _ _ _ _) ?_
    rintro x y ⟨-, h1, h2⟩
    exact rd2_iff hz nv nv' h1 h2
  · refine Sd.bind (R := SameSupport) ?_ fun _ _ hs => Sd.pure hs
    intro a b X Y ha hb e
    refine ⟨?_, (List.cons.inj e).2⟩
    have ha : c.wr i x = .ok a := ha
    have hb : c'.wr i y = .ok b := hb
    unfold Vector.wr at ha hb
    rw [dif_pos hlt] at ha hb
    have ha := Res.ok.inj ha
    have hb := Res.ok.inj hb
    subst ha hb
    intro j
    show (c.set i x)[j.val] = _ ↔ (c'.set i y)[j.val] = _
    rw [Vector.getElem_set, Vector.getElem_set]
    split
    · exact hxy
    · exact h j

theorem sd_chalLoopL (ω : Nat) : ∀ (n : Nat) (s s' : Xof × Poly × Nat), SameSupport s.2.1 s'.2.1 →
    Sd SameSupport (chalLoopL ω n s) (chalLoopL ω n s')
  | 0, s, s', h => by
    unfold chalLoopL
    refine Sd.branch (fun _ _ => ?_) fun _ _ => Sd.pure h
    intro a b X Y ha
    cases ha
  | n + 1, s, s', h => by
    rw [chalLoopL, chalLoopL]
    exact Sd.branch (fun _ _ => Sd.bind (sd_chalStepL s s' h) fun a b hab => sd_chalLoopL ω n a b hab) fun _ _ => Sd.pure h

theorem sd_chalPolyL (E : Ext) (fuel ω : Nat) {c c' : List U8} (hc : c.length = c'.length) :
    Sd SameSupport (chalPolyL E fuel ω c) (chalPolyL E fuel ω c') := by
  unfold chalPolyL
  refine Sd.bind (Rel.rfl' _).sd ?_
  rintro x _ rfl
  exact Sd.bindT (Rel.absorb _ _ hc) fun x x' => sd_chalLoopL ω fuel _ _ fun _ => Iff.rfl

end Poly

/-! ### The encoder -/

theorem encodeSig_fits {c : List U8} {h z : List Int} {buf b : List U8} {f : Bool} (e : encodeSig c h z buf = .ok (f, b)) :
    f = true ↔ 8 * c.length + (sigBits h z).length ≤ 8 * buf.length := by
  rcases C28_decision c h z buf with ⟨b', e', i⟩ | ⟨b', e', i⟩ | e'
  · rw [e'] at e
    cases e
    exact ⟨fun _ => i, fun _ => rfl⟩
  · rw [e'] at e
    cases e
    exact ⟨fun h => absurd h (by decide), fun h => by omega⟩
  · rw [e'] at e
    cases e

theorem sd_encFinishL (n : Nat) (s s' : EncSt) (ho : s.off = s'.off) :
    Sd (fun a b => a.1 = b.1 ∧ a.2.off = b.2.off) (encFinishL n s) (encFinishL n s') := by
  unfold encFinishL
  refine Sd.branch (fun _ _ => ?_) fun _ _ => Sd.pure ⟨rfl, ho⟩
  dsimp only
  refine Sd.branch (fun _ _ => Sd.pure ⟨rfl, ho⟩) fun _ _ => ?_
  refine Sd.bind (R := fun _ _ => and8 (s.bitOff + 7) / 8 = and8 (s'.bitOff + 7) / 8) ?_ fun a b hw => ?_
  · intro a b X Y _ _ e
    have e : Ev.ix s.off :: Ev.len (and8 (s.bitOff + 7) / 8) :: (_ :: byteLoop _ ++ X) =
      Ev.ix s'.off :: Ev.len (and8 (s'.bitOff + 7) / 8) :: (_ :: byteLoop _ ++ Y) := e
    obtain ⟨-, e⟩ := List.cons.inj e
    obtain ⟨e1, e⟩ := List.cons.inj e
    injection e1 with e1
    rw [e1] at e
    exact ⟨e1, List.append_cancel_left e⟩
  · exact Sd.bindT (Rel.liftT _ _) fun _ _ => Sd.pure ⟨rfl, by rw [ho]; dsimp only; rw [hw]⟩

/-- The encoder's observations: the flag, and the signs of the coefficients if the flag is set. -/
theorem sd_encodeSigL {c c' : List U8} {h h' z z' : List Int} {buf buf' : List U8} (hc : c.length = c'.length)
    (hh : h.length = h'.length) (hz : z.length = z'.length) (hb : buf.length = buf'.length) :
    Sd (fun a b => a.1 = b.1 ∧ (a.1 = true → h.map Int.sign = h'.map Int.sign ∧ z.map Int.sign = z'.map Int.sign))
      (encodeSigL c h z buf) (encodeSigL c' h' z' buf') := by
  unfold encodeSigL
  dsimp only
  rw [← hb]
  generalize buf.length = n
  refine Sd.bindT (Rel.writeSpan 0 hc).t fun w w' => ?_
  refine Sd.bind (R := fun a b => a.1 = b.1 ∧ (a.1 = true → h.map Int.sign = h'.map Int.sign ∧ a.2.off = b.2.off)) ?_ ?_
  · rintro ⟨f, s⟩ ⟨f', s'⟩ X Y h1 h2 e
    obtain ⟨k1, k2, k3⟩ := loop_inj shows_encHintL h h' 0 _ _ s s' f f' X Y (by exact hc) hh h1 h2 e
    exact ⟨⟨k1, k2⟩, k3⟩
  rintro ⟨f, s⟩ ⟨f', s'⟩ ⟨(h1 : f = f'), h2⟩
  subst h1
  dsimp only at h2 ⊢
  refine Sd.branch (fun _ _ => Sd.pure ⟨rfl, fun h => absurd h Bool.false_ne_true⟩) fun g1 _ => ?_
  have g1 : f = true := by cases f; exact absurd rfl g1; rfl
  obtain ⟨hs, ho⟩ := h2 g1
  refine Sd.bind (R := fun a b => a.1 = b.1 ∧ (a.1 = true → z.map Int.sign = z'.map Int.sign ∧ a.2.off = b.2.off)) ?_ ?_
  · rintro ⟨f, s⟩ ⟨f', s'⟩ X Y h1 h2 e
    obtain ⟨k1, k2, k3⟩ := loop_inj shows_encRespL z z' 0 _ _ s s' f f' X Y ho hz h1 h2 e
    exact ⟨⟨k1, k2⟩, k3⟩
  rintro ⟨f, s⟩ ⟨f', s'⟩ ⟨(h1 : f = f'), h2⟩
  subst h1
  dsimp only at h2 ⊢
  refine Sd.branch (fun _ _ => Sd.pure ⟨rfl, fun h => absurd h Bool.false_ne_true⟩) fun g1 _ => ?_
  have g1 : f = true := by cases f; exact absurd rfl g1; rfl
  obtain ⟨hs2, ho⟩ := h2 g1
  refine Sd.bind (sd_encFinishL n _ _ ho) ?_
  rintro ⟨f, s⟩ ⟨f', s'⟩ ⟨(h1 : f = f'), (ho : s.off = s'.off)⟩
  subst h1
  dsimp only
  refine Sd.branch (fun _ _ => Sd.pure ⟨rfl, fun h => absurd h Bool.false_ne_true⟩) fun g1 _ => ?_
  rw [ho]
  exact Sd.bindT (Rel.writeSpan _ rfl).t fun _ _ => Sd.pure ⟨rfl, fun _ => ⟨hs, hs2⟩⟩

/-! ### The norm check -/

theorem sd_eachL {α σ : Type} (f : σ → α → Lk σ) (hf : ∀ s s' x x', Sd T (f s x) (f s' x')) : ∀ (xs xs' : List α) (i : Nat) (s s' : σ),
    xs.length = xs'.length → Sd T (eachL f i xs s) (eachL f i xs' s')
  | [], [], i, s, s', _ => by unfold eachL; exact Sd.tick _ (Sd.pure trivial)
  | x :: xs, x' :: xs', i, s, s', h => by
    rw [eachL, eachL]
    exact Sd.tick _ (Sd.tick _ (Sd.bind (hf _ _ _ _) fun a b _ => sd_eachL f hf xs xs' (i + 1) a b (Nat.succ.inj h)))
  | [], _ :: _, _, _, _, h => absurd h (by simp)
  | _ :: _, [], _, _, _, h => absurd h (by simp)

theorem sd_hNormStepL (s s' : U64 × U64) (x x' : Int) : Sd T (hNormStepL s x) (hNormStepL s' x') := by
  unfold hNormStepL
  refine Sd.bind (R := T) (Sd.branch (fun _ _ => (Rel.liftT _ _).sd) fun _ _ => (Rel.liftT _ _).sd) fun _ _ _ => ?_
  exact Sd.bind (R := T) (Sd.branch (fun _ _ => Sd.pure trivial) fun _ _ => Sd.pure trivial) fun _ _ _ => Sd.pure trivial

theorem sd_zNormStepL (s s' : Zq × Zq) (x x' : Int) : Sd T (zNormStepL s x) (zNormStepL s' x') := by
  unfold zNormStepL
  dsimp only
  refine Sd.bindT (Rel.liftT _ _) fun _ _ => ?_
  refine Sd.bind (R := T) (Sd.branch (fun _ _ => Sd.pure trivial) fun _ _ => Sd.pure trivial) fun _ _ _ => ?_
  refine Sd.bind (R := T) (Sd.branch (fun _ _ => Sd.pure trivial) fun _ _ => Sd.pure trivial) fun _ _ _ => ?_
  exact Sd.bindT (Rel.liftT _ _) fun _ _ => Sd.bindT (rel_zq_mulL _ _ _ _) fun _ _ => Sd.pure trivial

theorem sd_checkBoundsL (νw : Nat) (Binf B22 : U64) (g g' : Sig) (hh : g.h.length = g'.h.length) (hz : g.z.length = g'.z.length) :
    Sd Eq (g.checkBoundsL νw Binf B22) (g'.checkBoundsL νw Binf B22) := by
  unfold Sig.checkBoundsL
  refine Sd.bind (sd_eachL _ sd_hNormStepL _ _ 0 _ _ hh) ?_
  rintro ⟨a, b⟩ ⟨a', b'⟩ -
  refine Sd.bind (sd_eachL _ sd_zNormStepL _ _ 0 _ _ hz) ?_
  rintro ⟨c, e⟩ ⟨c', e'⟩ -
  exact Sd.branch (fun _ _ => Sd.pure rfl) fun _ _ => Sd.branch (fun _ _ => Sd.pure rfl) fun _ _ =>
    Sd.branch (fun _ _ => Sd.pure rfl) fun _ _ => Sd.pure rfl

/-! ### Signing -/

theorem rel_centerVecL_len (q' : U64) (v v' : PVec k 1) : Rel (fun a b => a.length = b.length) (centerVecL q' v) (centerVecL q' v') := by
  unfold centerVecL
  refine Lk.Rel.forL rfl fun i s s' hs => Lk.Rel.bindT (Rel.rd _ _ _) fun _ _ => Lk.Rel.bindT (Rel.rd _ _ _) fun _ _ =>
    Lk.Rel.bindT (Poly.rel_centerL _ _ _) fun x x' => Lk.Rel.tick _ (Lk.Rel.tick _ (Lk.Rel.pure ?_))
  rw [List.length_append, List.length_append, hs]
  simp

theorem rel_sigMkL_len (n : Nat) {c c' : List U8} (hc : c.length = c'.length) (h h' : PVec k 1) (z z' : PVec l 1) :
    Rel (fun a b => a.cHash = c ∧ b.cHash = c' ∧ a.h.length = b.h.length ∧ a.z.length = b.z.length) (Sig.mkL n c h z) (Sig.mkL n c' h' z') := by
  unfold Sig.mkL
  rw [hc]
  exact Lk.Rel.tick _ (Lk.Rel.bind (rel_centerVecL_len _ _ _) fun _ _ h1 => Lk.Rel.bind (rel_centerVecL_len _ _ _) fun _ _ h2 =>
    Lk.Rel.pure ⟨rfl, rfl, h1, h2⟩)

theorem zero_iff_centered {E : Ext} {fuel ω : Nat} {cHash : List U8} {c : Poly} (h : Poly.chalPoly E fuel ω cHash = .ok c)
    (i : Fin 512) : c[i] = ⟨0⟩ ↔ Poly.centered c i = 0 := by
  have hh := chalPoly_eq E fuel ω cHash _ rfl
  by_cases hc : ω ≤ chalCount (E.shake256 ([0x63, BitVec.ofNat 8 ω, 0, 0, 0, 0, 0, 0] ++ cHash)) fuel
  · obtain ⟨m, -, hm, e⟩ := hh.1 hc
    obtain rfl := Res.ok.inj (e.symm.trans h)
    rw [chalSpec_centered]
    have hr := chalSpec_raw (E.shake256 ([0x63, BitVec.ofNat 8 ω, 0, 0, 0, 0, 0, 0] ++ cHash)) m i
    show (chalSpec _ m)[i.val] = _ ↔ _
    generalize (chalSpec (E.shake256 ([0x63, BitVec.ofNat 8 ω, 0, 0, 0, 0, 0, 0] ++ cHash)) m)[i.val] = x at hr ⊢
    have hx : x = ⟨0⟩ ↔ x.raw.toNat = 0 := by
      constructor
      · rintro rfl; rfl
      · intro h0
        cases x with
        | mk r =>
          congr 1
          exact BitVec.eq_of_toNat_eq h0
    rw [hx, hr]
    rcases chalInt_cases (E.shake256 ([0x63, BitVec.ofNat 8 ω, 0, 0, 0, 0, 0, 0] ++ cHash)) m i with h | h | h
    · rw [h, if_pos rfl]; decide
    · rw [h, if_neg (by decide)]; decide
    · rw [h, if_neg (by decide)]; decide
  · rw [hh.2 hc] at h; cases h

theorem sd_signAttemptL (P : Par) (E : Ext) (fuel d uw rep : Nat) (A A' : PMat P.k P.l) (t t' : PVec P.k 1) {μ μ' : List U8}
    (hμ : μ.length = μ'.length) (st st' : SignSt P.l d) (hm : st.m = st'.m) (hb : st.sigBytes.length = st'.sigBytes.length) :
    Sd (fun a b => a.1 = b.1 ∧ (a.2.1.m = b.2.1.m ∧ a.2.1.sigBytes.length = b.2.1.sigBytes.length ∧ a.2.1.sigBytes.length = st.sigBytes.length) ∧
        SameShown E P st.sigBytes.length a.2.2 b.2.2)
      (signAttemptL P E fuel d uw rep A t μ st) (signAttemptL P E fuel d uw rep A' t' μ' st') := by
  unfold signAttemptL
  rw [hm]
  refine Sd.bind (Lk.Rel.rfl' _).sd ?_
  rintro ⟨r, m⟩ _ rfl
  refine Sd.bind (PVec.rel_addRepNoiseL E fuel _ _ _ _ _ _ _ _).sd ?_
  rintro ⟨r, p, m⟩ ⟨r', p', m'⟩ (h : m = m')
  subst h
  refine Sd.bindT (PVec.rel_nttL _ _) fun r r' => Sd.bindT (PMat.rel_mulVecL _ _ _ _) fun _ _ =>
    Sd.bindT (PVec.rel_inttL _ _) fun _ _ => ?_
  refine Sd.bind (PVec.rel_addRepNoiseL E fuel _ _ _ _ _ _ _ _).sd ?_
  rintro ⟨w, p, m⟩ ⟨w', p', m'⟩ (h : m = m')
  subst h
  refine Sd.bindT (PVec.rel_decodeL _ _) fun w w' => Sd.bindT (PVec.rel_roundingShrL _ _ _) fun w w' => ?_
  refine Sd.bind (rel_chalHashL E _ w w' hμ).sd fun c c' hcl => ?_
  refine Sd.bindV (Poly.sd_chalPolyL E fuel P.ω hcl) fun cp cp' hcp hcp' hsup => ?_
  rw [Poly.val_chalPolyL] at hcp hcp'
  refine Sd.bindT (Poly.rel_nttL _ _) fun c1 c2 => ?_
  refine Sd.bind (PVec.rel_refreshL E fuel _ _ _).sd ?_
  rintro ⟨s, m⟩ ⟨s', m'⟩ (h : m = m')
  subst h
  refine Sd.bind (PVec.rel_refreshL E fuel _ _ _).sd ?_
  rintro ⟨r, m⟩ ⟨r', m'⟩ (h : m = m')
  subst h
  refine Sd.bindT (PVec.rel_mulPolyL _ _ _ _) fun _ _ => Sd.bindT (PVec.rel_addL _ _ _ _) fun _ _ => ?_
  refine Sd.bind (PVec.rel_refreshL E fuel _ _ _).sd ?_
  rintro ⟨z, m⟩ ⟨z', m'⟩ (h : m = m')
  subst h
  refine Sd.bindT (PVec.rel_decodeL _ _) fun _ _ => Sd.bindT (PMat.rel_mulVecL _ _ _ _) fun _ _ =>
    Sd.bindT (PVec.rel_mulPolyL _ _ _ _) fun _ _ => Sd.bindT (PVec.rel_subL _ _ _ _) fun _ _ =>
    Sd.bindT (PVec.rel_inttL _ _) fun _ _ => Sd.bindT (PVec.rel_inttL _ _) fun _ _ =>
    Sd.bindT (PVec.rel_roundingShrL _ _ _) fun _ _ => Sd.bindT (PVec.rel_subModL _ _ _ _ _) fun _ _ =>
    Sd.bind (rel_sigMkL_len _ hcl _ _ _ _).sd fun g g' hg => ?_
  obtain ⟨g1, g2, g3, g4⟩ := hg
  refine Sd.bindV (sd_encodeSigL (by rw [g1, g2, hcl]) g3 g4 hb) ?_
  rintro ⟨f, bs⟩ ⟨f', bs'⟩ v v' ⟨(hf : f = f'), hsig⟩
  subst hf
  dsimp only at hsig ⊢
  rw [val_encodeSigL] at v v'
  have same : SameShown E P st.sigBytes.length g g' := by
    refine ⟨⟨_, _, by rw [g1]; exact isChallengeOf_of hcp, by rw [g2]; exact isChallengeOf_of hcp',
      fun i => by rw [← zero_iff_centered hcp, ← zero_iff_centered hcp']; exact hsup i⟩, ?_, fun hfit => hsig ((encodeSig_fits v).2 hfit)⟩
    have k1 := encodeSig_fits v
    have k2 := encodeSig_fits v'
    rw [← hb] at k2
    exact k1.symm.trans k2
  have l1 := encodeSig_len v
  have l2 := encodeSig_len v'
  refine Sd.branch (fun _ _ => Sd.pure ⟨rfl, ⟨rfl, by rw [l1, l2, hb], l1⟩, same⟩) fun _ _ => ?_
  refine Sd.bind (sd_checkBoundsL _ _ _ g g' g3 g4) ?_
  rintro b _ rfl
  exact Sd.branch (fun _ _ => Sd.pure ⟨rfl, ⟨rfl, by rw [l1, l2, hb], l1⟩, same⟩) fun _ _ => Sd.pure ⟨rfl, ⟨rfl, by rw [l1, l2, hb], l1⟩, same⟩

theorem sd_signLoopL (P : Par) (E : Ext) (fuel d uw rep : Nat) (A A' : PMat P.k P.l) (t t' : PVec P.k 1) {μ μ' : List U8}
    (hμ : μ.length = μ'.length) (len : Nat) : ∀ (n : Nat) (st st' : SignSt P.l d), st.m = st'.m → st.sigBytes.length = len →
    st'.sigBytes.length = len →
    Sd (fun a b => List.Forall₂ (SameShown E P len) a.2 b.2)
      (signLoopL P E fuel d uw rep A t μ n st) (signLoopL P E fuel d uw rep A' t' μ' n st')
  | 0, st, st', _, _, _ => by
    intro a b X Y ha
    cases ha
  | n + 1, st, st', hm, hb, hb' => by
    rw [signLoopL, signLoopL]
    refine Sd.bind (sd_signAttemptL P E fuel d uw rep A A' t t' hμ st st' hm (by rw [hb, hb'])) ?_
    rintro ⟨f, s, g⟩ ⟨f', s', g'⟩ ⟨(h1 : f = f'), ⟨(h2 : s.m = s'.m), (h3 : s.sigBytes.length = s'.sigBytes.length), (h4 : s.sigBytes.length = _)⟩, h5⟩
    subst h1
    rw [hb] at h4 h5
    dsimp only at h5 ⊢
    cases f with
    | true => exact Sd.pure (List.Forall₂.cons h5 List.Forall₂.nil)
    | false =>
      refine Sd.bind (sd_signLoopL P E fuel d uw rep A A' t t' hμ len n s s' h2 h4 (by rw [← h3, h4])) ?_
      rintro ⟨b, L⟩ ⟨b', L'⟩ hL
      exact Sd.pure (List.Forall₂.cons h5 hL)

theorem sd_skSignL (P : Par) (E : Ext) (fuel d uw rep : Nat) (sk sk' : SKey P.k P.l d) (e e' : List U8) {m m' : List U8}
    {b b' : List U8} (hs : sk.pkey.seed = sk'.pkey.seed) (hm : m.length = m'.length) (hb : b.length = b'.length) :
    Sd (fun x y => List.Forall₂ (SameShown E P b.length) x.2 y.2)
      (sk.signL P E fuel d uw rep e m b) (sk'.signL P E fuel d uw rep e' m' b') := by
  unfold SKey.signL
  refine Sd.bindT (PVec.rel_shlL _ _ _) fun _ _ => Sd.bindT (PVec.rel_nttL _ _) fun _ _ => ?_
  unfold PKey.toBytesL
  refine Sd.bind (rel_encodePublicKeyL _ (by rw [hs]) _ _ rfl).sd fun x x' hx => ?_
  refine Sd.bind (rel_bindMsgL E _ hx hm).sd fun μ μ' hμ => ?_
  rw [hs]
  refine Sd.bind (Lk.Rel.rfl' _).sd ?_
  rintro A _ rfl
  exact sd_signLoopL P E fuel d uw rep A A _ _ hμ _ fuel _ _ rfl rfl hb.symm

end Raccoon
