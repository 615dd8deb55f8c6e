import Verif.Model.LeakApi
import Verif.Proofs.Loops
import Verif.Proofs.SignLoop
/-!
# Which data the observations depend on

`Rel R p p'`: if both runs complete, they show the same observations and their results are related by `R`.
Secret data are related by `T` (nothing in common), public data by `Eq`.
-/
namespace Raccoon
open Lk

/-- Nothing in common. -/
def T {α : Type u} (_ _ : α) : Prop := True

/-- Two completed runs show the same and have related results. -/
def Lk.Rel {α : Type u} (R : α → α → Prop) (p p' : Lk α) : Prop :=
  ∀ a b, p.val = .ok a → p'.val = .ok b → p.tr = p'.tr ∧ R a b

namespace Lk

theorem tr_bind_ok {p : Lk α} {f : α → Lk β} {a : α} (h : p.val = .ok a) : (p >>= f).tr = p.tr ++ (f a).tr := by
  show (Lk.bind p f).tr = _
  unfold Lk.bind
  rw [h]
theorem val_bind' (p : Lk α) (f : α → Lk β) : (p >>= f).val = p.val >>= fun a => (f a).val := by
  show (Lk.bind p f).val = Res.bind p.val _
  unfold Lk.bind Res.bind
  cases p.val <;> rfl
theorem bind_val_ok {p : Lk α} {f : α → Lk β} {b : β} (h : (p >>= f).val = .ok b) :
    ∃ a, p.val = .ok a ∧ (f a).val = .ok b := by
  rw [val_bind'] at h
  exact Res.bind_eq_ok.1 h

variable {α β : Type u} {R : α → α → Prop} {S : β → β → Prop}

theorem Rel.rfl' (p : Lk α) : Rel Eq p p := by
  intro a b ha hb
  rw [ha] at hb; cases hb
  exact ⟨rfl, rfl⟩
theorem Rel.of_eq {p p' : Lk α} (h : p = p') : Rel Eq p p' := h ▸ Rel.rfl' p
theorem Rel.mono {p p' : Lk α} {R' : α → α → Prop} (h : Rel R p p') (hi : ∀ a b, R a b → R' a b) : Rel R' p p' :=
  fun a b ha hb => ⟨(h a b ha hb).1, hi a b (h a b ha hb).2⟩
theorem Rel.t {p p' : Lk α} (h : Rel R p p') : Rel T p p' := h.mono fun _ _ _ => trivial
theorem Rel.pure {a b : α} (h : R a b) : Rel R (pure a : Lk α) (Pure.pure b) := by
  intro x y hx hy
  cases hx; cases hy
  exact ⟨rfl, h⟩
theorem Rel.pureT {a b : α} : Rel T (Pure.pure a : Lk α) (Pure.pure b) := Rel.pure trivial
theorem Rel.bind {p p' : Lk α} {f f' : α → Lk β} (h : Rel R p p') (hf : ∀ a b, R a b → Rel S (f a) (f' b)) :
    Rel S (p >>= f) (p' >>= f') := by
  intro x y hx hy
  obtain ⟨a, ha, hx⟩ := bind_val_ok hx
  obtain ⟨b, hb, hy⟩ := bind_val_ok hy
  obtain ⟨h1, h2⟩ := h a b ha hb
  obtain ⟨h3, h4⟩ := hf a b h2 x y hx hy
  rw [tr_bind_ok ha, tr_bind_ok hb, h1, h3]
  exact ⟨rfl, h4⟩
theorem Rel.bindT {p p' : Lk α} {f f' : α → Lk β} (h : Rel T p p') (hf : ∀ a b, Rel S (f a) (f' b)) :
    Rel S (p >>= f) (p' >>= f') := h.bind fun a b _ => hf a b
theorem Rel.tick {p p' : Lk α} (e : Ev) (h : Rel R p p') : Rel R (tick e p) (tick e p') := by
  intro a b ha hb
  obtain ⟨h1, h2⟩ := h a b ha hb
  exact ⟨by show e :: p.tr = e :: p'.tr; rw [h1], h2⟩
theorem Rel.branch {c c' : Prop} [Decidable c] [Decidable c'] (hc : c ↔ c') {t t' e e' : Lk α} (ht : Rel R t t')
    (he : Rel R e e') : Rel R (branch c t e) (branch c' t' e') := by
  have hd : decide c = decide c' := by simp [hc]
  unfold Lk.branch
  rw [hd]
  apply Rel.tick
  by_cases h : c
  · rw [if_pos h, if_pos (hc.1 h)]; exact ht
  · rw [if_neg h, if_neg fun h' => h (hc.2 h')]; exact he
theorem Rel.branch' {c : Prop} [Decidable c] {t t' e e' : Lk α} (ht : Rel R t t')
    (he : Rel R e e') : Rel R (Lk.branch c t e) (Lk.branch c t' e') := Rel.branch Iff.rfl ht he
theorem Rel.liftT (r r' : Res α) : Rel T (lift r) (lift r') := fun _ _ _ _ => ⟨rfl, trivial⟩
theorem Rel.lift {r r' : Res α} (h : ∀ a b, r = .ok a → r' = .ok b → R a b) : Rel R (Lk.lift r) (Lk.lift r') :=
  fun a b ha hb => ⟨rfl, h a b ha hb⟩
theorem Rel.nofuel (p : Lk α) : Rel R (Lk.lift .nofuel) p := fun a b ha => by cases ha
theorem Rel.forL {σ : Type u} {I : σ → σ → Prop} {lo hi step : Nat} {body body' : Nat → σ → Lk σ} {s s' : σ}
    (h0 : I s s') (hs : ∀ i s s', I s s' → Rel I (body i s) (body' i s')) :
    Rel I (forL lo hi step body s) (forL lo hi step body' s') := by
  unfold Raccoon.forL
  refine Rel.bind (R := I) ?_ fun a b h => Rel.tick _ (Rel.pure h)
  generalize List.range' lo ((hi - lo + step - 1) / step) step = L
  induction L generalizing s s' with
  | nil => exact Rel.pure h0
  | cons a L ih =>
    rw [List.foldlM_cons, List.foldlM_cons]
    exact Rel.bind (Rel.tick _ (hs a s s' h0)) fun s s' h => ih h
theorem Rel.forT {σ : Type u} {lo hi step : Nat} {body body' : Nat → σ → Lk σ} {s s' : σ}
    (hs : ∀ i s s', Rel T (body i s) (body' i s')) : Rel T (Raccoon.forL lo hi step body s) (Raccoon.forL lo hi step body' s') :=
  Rel.forL trivial fun i s s' _ => hs i s s'

end Lk

theorem Rel.rd {α : Type u} {n : Nat} (v v' : Vector α n) (i : Nat) : Rel T (rdL v i) (rdL v' i) :=
  fun _ _ _ _ => ⟨rfl, trivial⟩
theorem Rel.wr {α : Type u} {n : Nat} (v v' : Vector α n) (i : Nat) (x x' : α) : Rel T (wrL v i x) (wrL v' i x') :=
  fun _ _ _ _ => ⟨rfl, trivial⟩
theorem Rel.genT {β : Type u} {n : Nat} {init init' : Vector β n} {g g' : Nat → Lk β} (h : ∀ i, Rel T (g i) (g' i)) :
    Rel T (genL init g) (genL init' g') := by
  unfold genL
  exact Rel.forT fun i s s' => Rel.bindT (h i) fun _ _ => Rel.wr _ _ _ _ _
theorem Rel.subspan {α : Type} (b b' : List α) (o c : Nat) :
    Rel (fun x y => x.length = y.length) (subspanL b o c) (subspanL b' o c) := by
  intro x y hx hy
  refine ⟨rfl, ?_⟩
  obtain ⟨h1, rfl⟩ := subspan_eq_ok.1 hx
  obtain ⟨h2, rfl⟩ := subspan_eq_ok.1 hy
  simp; omega
theorem Rel.writeSpan {b b' : List U8} (o : Nat) {x x' : List U8} (h : x.length = x'.length) :
    Rel (fun r r' => r.length = b.length ∧ r'.length = b'.length) (writeSpanL b o x) (writeSpanL b' o x') := by
  intro r r' hr hr'
  refine ⟨?_, writeSpan_len hr, writeSpan_len hr'⟩
  show [Ev.ix o, .len x.length] = [Ev.ix o, .len x'.length]
  rw [h]
theorem Rel.fromLe (w : Nat) {x x' : List U8} (h : x.length = x'.length) : Rel T (fromLeBytesL w x) (fromLeBytesL w x') := by
  intro a b _ _
  refine ⟨?_, trivial⟩
  unfold fromLeBytesL
  simp only [h]
theorem Rel.putLe (b b' : List U8) (o c : Nat) (v v' : U64) :
    Rel (fun r r' => r.length = b.length ∧ r'.length = b'.length) (putLeL b o c v) (putLeL b' o c v') :=
  fun _ _ ha hb => ⟨rfl, putLe_len ha, putLe_len hb⟩
theorem Rel.ctEq {a a' b b' : List U8} (h : a.length = a'.length) : Rel T (ctEqByteArrayL a b) (ctEqByteArrayL a' b') := by
  intro _ _ _ _
  refine ⟨?_, trivial⟩
  unfold ctEqByteArrayL
  simp only [h]
theorem Rel.absorb (x x' : Xof) {b b' : List U8} (h : b.length = b'.length) : Rel T (x.absorbL b) (x'.absorbL b') := by
  intro _ _ _ _
  refine ⟨?_, trivial⟩
  unfold Xof.absorbL
  simp only [h]
theorem Rel.squeeze (x x' : Xof) (n : Nat) : Rel (fun a b => a.1.length = b.1.length) (x.squeezeL n) (x'.squeezeL n) := by
  intro a b ha hb
  cases ha; cases hb
  exact ⟨rfl, by simp [Xof.squeeze]⟩
theorem Rel.read (x x' : Prng) (n : Nat) : Rel (fun a b => a.1.length = b.1.length) (x.readL n) (x'.readL n) := by
  intro a b ha hb
  cases ha; cases hb
  exact ⟨rfl, by simp [Prng.read, Xof.squeeze]⟩

/-- Straight-line code, branches on public conditions and loops with public bounds. -/
macro "leak" : tactic => `(tactic| repeat' first
  | with_reducible exact Lk.Rel.pureT
  | with_reducible exact Rel.rd _ _ _
  | with_reducible exact Rel.wr _ _ _ _ _
  | with_reducible exact Lk.Rel.liftT _ _
  | with_reducible exact (Rel.putLe _ _ _ _ _ _).t
  | with_reducible assumption
  | with_reducible refine Rel.genT fun _ => ?_
  | with_reducible refine Lk.Rel.forT fun _ _ _ => ?_
  | with_reducible refine Lk.Rel.branch' ?_ ?_
  | with_reducible refine Lk.Rel.bindT ?_ fun _ _ => ?_)

/-! ### Field and polynomials -/

theorem rel_u128_shlL (x x' : U128) (n : Nat) : Rel T (x.shlL n) (x'.shlL n) := by
  unfold U128.shlL; leak
theorem rel_u128_shrL (x x' : U128) (n : Nat) : Rel T (x.shrL n) (x'.shrL n) := by
  unfold U128.shrL; leak
theorem rel_barrettReduceL (x x' : U128) : Rel T (barrettReduceL x) (barrettReduceL x') := by
  unfold barrettReduceL
  repeat' first
    | exact rel_u128_shrL _ _ _
    | exact rel_u128_shlL _ _ _
    | exact Lk.Rel.pureT
    | refine Lk.Rel.bindT ?_ fun _ _ => ?_
theorem rel_zq_mulL (a b a' b' : Zq) : Rel T (a.mulL b) (a'.mulL b') := by
  unfold Zq.mulL
  exact Lk.Rel.bindT (rel_barrettReduceL _ _) fun _ _ => Lk.Rel.pureT
theorem rel_zq_shlL (a a' : Zq) (n : Nat) : Rel T (a.shlL n) (a'.shlL n) := by
  unfold Zq.shlL
  exact Lk.Rel.bindT (Lk.Rel.liftT _ _) fun _ _ => Lk.Rel.bindT (rel_barrettReduceL _ _) fun _ _ => Lk.Rel.pureT

namespace Poly

theorem rel_addL (a b a' b' : Poly) : Rel T (addL a b) (addL a' b') := by unfold addL; leak
theorem rel_subL (a b a' b' : Poly) : Rel T (subL a b) (subL a' b') := by unfold subL; leak
theorem rel_mulL (a b a' b' : Poly) : Rel T (mulL a b) (mulL a' b') := by
  unfold mulL
  refine Rel.genT fun _ => Lk.Rel.bindT (Rel.rd _ _ _) fun _ _ => Lk.Rel.bindT (Rel.rd _ _ _) fun _ _ => rel_zq_mulL _ _ _ _
theorem rel_subModL (q' : U64) (a b a' b' : Poly) : Rel T (subModL q' a b) (subModL q' a' b') := by unfold subModL; leak
theorem rel_addModL (q' : U64) (a b a' b' : Poly) : Rel T (addModL q' a b) (addModL q' a' b') := by unfold addModL; leak
theorem rel_roundingShrL (n : Nat) (a a' : Poly) : Rel T (roundingShrL n a) (roundingShrL n a') := by
  unfold roundingShrL; leak
theorem rel_shlL (a a' : Poly) (n : Nat) : Rel T (a.shlL n) (a'.shlL n) := by
  unfold shlL
  exact Rel.genT fun _ => Lk.Rel.bindT (Rel.rd _ _ _) fun _ _ => rel_zq_shlL _ _ _
theorem rel_eqL (a b a' b' : Poly) : Rel T (eqL a b) (eqL a' b') := by unfold eqL; leak
theorem rel_centerL (q' : U64) (a a' : Poly) : Rel T (centerL q' a) (centerL q' a') := by unfold centerL; leak

theorem rel_nttButterflyL (len : Nat) (z z' : Zq) (i : Nat) (f f' : Poly) :
    Rel T (nttButterflyL len z i f) (nttButterflyL len z' i f') := by
  unfold nttButterflyL
  refine Lk.Rel.bindT (Rel.rd _ _ _) fun _ _ => Lk.Rel.bindT (rel_zq_mulL _ _ _ _) fun _ _ => ?_
  leak
theorem rel_inttButterflyL (len : Nat) (z z' : Zq) (i : Nat) (f f' : Poly) :
    Rel T (inttButterflyL len z i f) (inttButterflyL len z' i f') := by
  unfold inttButterflyL
  iterate 7 first
    | refine Lk.Rel.bindT (Rel.rd _ _ _) fun _ _ => ?_
    | refine Lk.Rel.bindT (Rel.wr _ _ _ _ _) fun _ _ => ?_
  exact Lk.Rel.bindT (rel_zq_mulL _ _ _ _) fun _ _ => Rel.wr _ _ _ _ _
theorem rel_nttLayerL (l : Nat) (f f' : Poly) : Rel T (nttLayerL l f) (nttLayerL l f') := by
  unfold nttLayerL
  exact Lk.Rel.forT fun _ _ _ => Lk.Rel.bindT (Rel.rd _ _ _) fun _ _ => Lk.Rel.forT fun _ _ _ => rel_nttButterflyL _ _ _ _ _ _
theorem rel_inttLayerL (l : Nat) (f f' : Poly) : Rel T (inttLayerL l f) (inttLayerL l f') := by
  unfold inttLayerL
  exact Lk.Rel.forT fun _ _ _ => Lk.Rel.bindT (Rel.rd _ _ _) fun _ _ => Lk.Rel.forT fun _ _ _ => rel_inttButterflyL _ _ _ _ _ _
theorem rel_nttL (f f' : Poly) : Rel T f.nttLk f'.nttLk := by
  unfold nttLk
  exact Lk.Rel.forT fun _ _ _ => rel_nttLayerL _ _ _
theorem rel_inttL (f f' : Poly) : Rel T f.inttLk f'.inttLk := by
  unfold inttLk
  exact Lk.Rel.bindT (Lk.Rel.forT fun _ _ _ => rel_inttLayerL _ _ _) fun _ _ =>
    Rel.genT fun _ => Lk.Rel.bindT (Rel.rd _ _ _) fun _ _ => rel_zq_mulL _ _ _ _

end Poly

/-! ### Masked polynomials, vectors, matrices -/

/-- Only the mask generators are known to agree. -/
def SameGen {α β : Type} (a b : α × β) : Prop := a.2 = b.2
/-- Only the mask generators (third component) are known to agree. -/
def SameGen3 {α β γ : Type} (a b : α × β × γ) : Prop := a.2.2 = b.2.2

namespace MPoly

theorem rel_addL (a b a' b' : MPoly d) : Rel T (addL a b) (addL a' b') := by
  unfold addL
  refine Rel.genT fun _ => Lk.Rel.bindT (Rel.rd _ _ _) fun _ _ => Lk.Rel.bindT (Rel.rd _ _ _) fun _ _ => Poly.rel_addL _ _ _ _
theorem rel_subL (a b a' b' : MPoly d) : Rel T (subL a b) (subL a' b') := by
  unfold subL
  refine Rel.genT fun _ => Lk.Rel.bindT (Rel.rd _ _ _) fun _ _ => Lk.Rel.bindT (Rel.rd _ _ _) fun _ _ => Poly.rel_subL _ _ _ _
theorem rel_subModL (q' : U64) (a b a' b' : MPoly d) : Rel T (subModL q' a b) (subModL q' a' b') := by
  unfold subModL
  refine Rel.genT fun _ => Lk.Rel.bindT (Rel.rd _ _ _) fun _ _ => Lk.Rel.bindT (Rel.rd _ _ _) fun _ _ => Poly.rel_subModL _ _ _ _ _
theorem rel_roundingShrL (n : Nat) (a a' : MPoly d) : Rel T (roundingShrL n a) (roundingShrL n a') := by
  unfold roundingShrL
  exact Rel.genT fun _ => Lk.Rel.bindT (Rel.rd _ _ _) fun _ _ => Poly.rel_roundingShrL _ _ _
theorem rel_shlL (a a' : MPoly d) (n : Nat) : Rel T (shlL a n) (shlL a' n) := by
  unfold shlL
  exact Rel.genT fun _ => Lk.Rel.bindT (Rel.rd _ _ _) fun _ _ => Poly.rel_shlL _ _ _
theorem rel_eqL (a b a' b' : MPoly d) : Rel T (eqL a b) (eqL a' b') := by
  unfold eqL
  exact Lk.Rel.forT fun _ _ _ => Lk.Rel.bindT (Rel.rd _ _ _) fun _ _ => Lk.Rel.bindT (Rel.rd _ _ _) fun _ _ =>
    Lk.Rel.bindT (Poly.rel_eqL _ _ _ _) fun _ _ => Lk.Rel.pureT
theorem rel_nttL (a a' : MPoly d) : Rel T (nttLk a) (nttLk a') := by
  unfold nttLk
  exact Rel.genT fun _ => Lk.Rel.bindT (Rel.rd _ _ _) fun _ _ => Poly.rel_nttL _ _
theorem rel_inttL (a a' : MPoly d) : Rel T (inttLk a) (inttLk a') := by
  unfold inttLk
  exact Rel.genT fun _ => Lk.Rel.bindT (Rel.rd _ _ _) fun _ _ => Poly.rel_inttL _ _

/-- `zero_encoding` only looks at the generators. -/
theorem rel_refreshL (E : Ext) (fuel : Nat) (a a' : MPoly d) (m : Mrng d) :
    Rel SameGen (refreshL E fuel a m) (refreshL E fuel a' m) := by
  unfold refreshL
  refine Lk.Rel.bind (Lk.Rel.rfl' _) ?_
  rintro ⟨z, m⟩ _ rfl
  exact Lk.Rel.bind (rel_addL _ _ _ _) fun _ _ _ => Lk.Rel.pure rfl

theorem rel_decodeL (a a' : MPoly d) : Rel T (decodeL a) (decodeL a') := by
  unfold decodeL
  exact Lk.Rel.forT fun _ _ _ => Lk.Rel.bindT (Rel.rd _ _ _) fun _ _ => Lk.Rel.bindT (Rel.rd _ _ _) fun _ _ =>
    Lk.Rel.bindT (Poly.rel_addL _ _ _ _) fun _ _ => Rel.wr _ _ _ _ _

theorem rel_sampleUL (E : Ext) (u : Nat) {h h' s s' : List U8} (hh : h.length = h'.length) (hs : s.length = s'.length) :
    Rel T (sampleUL E u h s) (sampleUL E u h' s') := by
  unfold sampleUL
  refine Lk.Rel.bindT (Rel.absorb _ _ hh) fun _ _ => Lk.Rel.bindT (Rel.absorb _ _ hs) fun _ _ =>
    Lk.Rel.bind (Rel.squeeze _ _ _) fun x y hxy => ?_
  refine Lk.Rel.bind (R := fun a b => a.2 = b.2) ?_ fun _ _ _ => Lk.Rel.pureT
  refine Lk.Rel.forL rfl fun i s s' hss => ?_
  refine Lk.Rel.bind (Rel.subspan _ _ _ _) fun b b' hb => Lk.Rel.bindT (Rel.fromLe _ hb) fun _ _ =>
    Lk.Rel.bindT (Lk.Rel.liftT _ _) fun c c' => ?_
  rw [hss]
  exact Lk.Rel.bindT (Rel.wr _ _ _ _ _) fun _ _ => Lk.Rel.pure rfl

theorem rel_addNoisePolyL (p p' : Poly) (n n' : Vector Int 512) : Rel T (addNoisePolyL p n) (addNoisePolyL p' n') := by
  unfold addNoisePolyL; leak

theorem rel_noiseShareL (E : Ext) (u κ a b c : Nat) (s s' : MPoly d × Prng) :
    Rel T (noiseShareL E u κ a b c s) (noiseShareL E u κ a b c s') := by
  unfold noiseShareL
  refine Lk.Rel.bind (Rel.read _ _ _) ?_
  rintro ⟨x, p⟩ ⟨x', p'⟩ hx
  exact Lk.Rel.bindT (rel_sampleUL E u rfl hx) fun _ _ => Lk.Rel.bindT (Rel.rd _ _ _) fun _ _ =>
    Lk.Rel.bindT (rel_addNoisePolyL _ _ _ _) fun _ _ => Lk.Rel.bindT (Rel.wr _ _ _ _ _) fun _ _ => Lk.Rel.pureT

theorem rel_noiseRepL (E : Ext) (fuel u κ a b : Nat) (s s' : MPoly d × Prng × Mrng d) (h : SameGen3 s s') :
    Rel SameGen3 (noiseRepL E fuel u κ a b s) (noiseRepL E fuel u κ a b s') := by
  unfold noiseRepL
  refine Lk.Rel.bindT (Lk.Rel.forT fun _ _ _ => rel_noiseShareL _ _ _ _ _ _ _ _) ?_
  rintro ⟨x, p⟩ ⟨x', p'⟩
  have h : s.2.2 = s'.2.2 := h
  rw [h]
  refine Lk.Rel.bind (rel_refreshL E fuel x x' _) ?_
  rintro ⟨v, m⟩ ⟨v', m'⟩ (hm : m = m')
  exact Lk.Rel.pure hm

theorem rel_addRepNoiseL (E : Ext) (fuel u rep κ i : Nat) (a a' : MPoly d) (p p' : Prng) (m : Mrng d) :
    Rel SameGen3 (addRepNoiseL E fuel u rep κ i a p m) (addRepNoiseL E fuel u rep κ i a' p' m) := by
  unfold addRepNoiseL
  exact Lk.Rel.forL rfl fun i s s' h => rel_noiseRepL E fuel u κ _ i s s' h

end MPoly

namespace PVec

theorem rel_addL (a b a' b' : PVec k d) : Rel T (addL a b) (addL a' b') := by
  unfold addL
  refine Rel.genT fun _ => Lk.Rel.bindT (Rel.rd _ _ _) fun _ _ => Lk.Rel.bindT (Rel.rd _ _ _) fun _ _ => MPoly.rel_addL _ _ _ _
theorem rel_subL (a b a' b' : PVec k d) : Rel T (subL a b) (subL a' b') := by
  unfold subL
  refine Rel.genT fun _ => Lk.Rel.bindT (Rel.rd _ _ _) fun _ _ => Lk.Rel.bindT (Rel.rd _ _ _) fun _ _ => MPoly.rel_subL _ _ _ _
theorem rel_subModL (q' : U64) (a b a' b' : PVec k d) : Rel T (subModL q' a b) (subModL q' a' b') := by
  unfold subModL
  refine Rel.genT fun _ => Lk.Rel.bindT (Rel.rd _ _ _) fun _ _ => Lk.Rel.bindT (Rel.rd _ _ _) fun _ _ => MPoly.rel_subModL _ _ _ _ _
theorem rel_mulPolyL (a a' : PVec k d) (c c' : Poly) : Rel T (mulPolyL a c) (mulPolyL a' c') := by
  unfold mulPolyL
  exact Rel.genT fun _ => Rel.genT fun _ => Lk.Rel.bindT (Rel.rd _ _ _) fun _ _ => Lk.Rel.bindT (Rel.rd _ _ _) fun _ _ =>
    Poly.rel_mulL _ _ _ _
theorem rel_roundingShrL (n : Nat) (a a' : PVec k d) : Rel T (roundingShrL n a) (roundingShrL n a') := by
  unfold roundingShrL
  exact Rel.genT fun _ => Lk.Rel.bindT (Rel.rd _ _ _) fun _ _ => MPoly.rel_roundingShrL _ _ _
theorem rel_shlL (a a' : PVec k d) (n : Nat) : Rel T (shlL a n) (shlL a' n) := by
  unfold shlL
  exact Rel.genT fun _ => Lk.Rel.bindT (Rel.rd _ _ _) fun _ _ => MPoly.rel_shlL _ _ _
theorem rel_eqL (a b a' b' : PVec k d) : Rel T (eqL a b) (eqL a' b') := by
  unfold eqL
  exact Lk.Rel.forT fun _ _ _ => Lk.Rel.bindT (Rel.rd _ _ _) fun _ _ => Lk.Rel.bindT (Rel.rd _ _ _) fun _ _ =>
    Lk.Rel.bindT (MPoly.rel_eqL _ _ _ _) fun _ _ => Lk.Rel.pureT
theorem rel_nttL (a a' : PVec k d) : Rel T (nttLk a) (nttLk a') := by
  unfold nttLk
  exact Rel.genT fun _ => Lk.Rel.bindT (Rel.rd _ _ _) fun _ _ => MPoly.rel_nttL _ _
theorem rel_inttL (a a' : PVec k d) : Rel T (inttLk a) (inttLk a') := by
  unfold inttLk
  exact Rel.genT fun _ => Lk.Rel.bindT (Rel.rd _ _ _) fun _ _ => MPoly.rel_inttL _ _
theorem rel_decodeL (a a' : PVec k d) : Rel T (decodeL a) (decodeL a') := by
  unfold decodeL
  exact Rel.genT fun _ => Lk.Rel.bindT (Rel.rd _ _ _) fun _ _ => MPoly.rel_decodeL _ _

theorem rel_refreshL (E : Ext) (fuel : Nat) (a a' : PVec k d) (m : Mrng d) :
    Rel SameGen (refreshL E fuel a m) (refreshL E fuel a' m) := by
  unfold refreshL
  refine Lk.Rel.forL rfl fun i s s' h => ?_
  have h : s.2 = s'.2 := h
  refine Lk.Rel.bindT (Rel.rd _ _ _) fun x x' => ?_
  rw [h]
  refine Lk.Rel.bind (MPoly.rel_refreshL E fuel x x' _) ?_
  rintro ⟨v, m⟩ ⟨v', m'⟩ (hm : m = m')
  exact Lk.Rel.bindT (Rel.wr _ _ _ _ _) fun _ _ => Lk.Rel.pure hm

theorem rel_addRepNoiseL (E : Ext) (fuel u rep κ : Nat) (a a' : PVec k d) (p p' : Prng) (m : Mrng d) :
    Rel SameGen3 (addRepNoiseL E fuel u rep κ a p m) (addRepNoiseL E fuel u rep κ a' p' m) := by
  unfold addRepNoiseL
  refine Lk.Rel.forL rfl fun i s s' h => ?_
  have h : s.2.2 = s'.2.2 := h
  refine Lk.Rel.bindT (Rel.rd _ _ _) fun x x' => ?_
  rw [h]
  refine Lk.Rel.bind (MPoly.rel_addRepNoiseL E fuel u rep κ i x x' _ _ _) ?_
  rintro ⟨v, p, m⟩ ⟨v', p', m'⟩ (hm : m = m')
  exact Lk.Rel.bindT (Rel.wr _ _ _ _ _) fun _ _ => Lk.Rel.pure hm

end PVec

namespace PMat

theorem rel_mulVecL (A A' : PMat k l) (v v' : PVec l d) : Rel T (mulVecL A v) (mulVecL A' v') := by
  unfold mulVecL
  refine Lk.Rel.forT fun _ _ _ => Lk.Rel.forT fun _ _ _ => Lk.Rel.forT fun _ _ _ => ?_
  refine Lk.Rel.bindT (Rel.rd _ _ _) fun _ _ => Lk.Rel.bindT (Rel.rd _ _ _) fun _ _ => Lk.Rel.bindT (Rel.rd _ _ _) fun _ _ =>
    Lk.Rel.bindT (Poly.rel_mulL _ _ _ _) fun _ _ => Lk.Rel.bindT (Rel.rd _ _ _) fun _ _ => Lk.Rel.bindT (Rel.rd _ _ _) fun _ _ =>
    Lk.Rel.bindT (Poly.rel_addL _ _ _ _) fun _ _ => ?_
  leak

end PMat

/-- The challenge hash shows nothing of the commitment. -/
theorem rel_chalHashL (E : Ext) (κ : Nat) (w w' : PVec k 1) {μ μ' : List U8} (hμ : μ.length = μ'.length) :
    Rel (fun a b => a.length = b.length) (chalHashL E κ w μ) (chalHashL E κ w' μ') := by
  unfold chalHashL
  refine Lk.Rel.bind (R := fun a b => a.2.2 = b.2.2) (Lk.Rel.forL rfl fun i s s' h => ?_) ?_
  · obtain ⟨x, b, o⟩ := s
    obtain ⟨x', b', o'⟩ := s'
    have h : o = o' := h
    subst h
    unfold chalHashStepL
    refine Lk.Rel.bind (R := fun a b => a.2 = b.2) (Lk.Rel.branch' ?_ (Lk.Rel.pure rfl)) ?_
    · exact Lk.Rel.bindT (Rel.absorb _ _ (by simp)) fun _ _ => Lk.Rel.pure rfl
    · rintro ⟨x, o⟩ ⟨x', o'⟩ (h : o = o')
      subst h
      exact Lk.Rel.bindT (Rel.rd _ _ _) fun _ _ => Lk.Rel.bindT (Rel.rd _ _ _) fun _ _ => Lk.Rel.bindT (Rel.rd _ _ _) fun _ _ =>
        Lk.Rel.bindT (Rel.wr _ _ _ _ _) fun _ _ => Lk.Rel.pure rfl
  · rintro ⟨x, b, o⟩ ⟨x', b', o'⟩ (h : o = o')
    subst h
    refine Lk.Rel.bindT (Lk.Rel.branch' ?_ Lk.Rel.pureT) fun x x' => ?_
    · exact Lk.Rel.bind (Rel.subspan _ _ _ _) fun _ _ h => Rel.absorb _ _ h
    · exact Lk.Rel.bindT (Rel.absorb _ _ hμ) fun _ _ => Lk.Rel.bind (Rel.squeeze _ _ _) fun _ _ h => Lk.Rel.pure h

end Raccoon
