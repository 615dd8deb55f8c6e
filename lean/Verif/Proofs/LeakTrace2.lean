import Verif.Proofs.LeakTrace
import Verif.Proofs.LeakErase3
/-!
# What the observations of the key operations depend on
-/
namespace Raccoon
open Lk

/-- Two completed runs whose results are related by `G` show the same and have results related by `R`. -/
def Lk.RelIf {α : Type u} (G R : α → α → Prop) (p p' : Lk α) : Prop :=
  ∀ a b, p.val = .ok a → p'.val = .ok b → G a b → p.tr = p'.tr ∧ R a b

namespace Lk
variable {α β : Type u} {R : α → α → Prop} {G S : β → β → Prop}

theorem Rel.toIf {p p' : Lk β} (h : Rel S p p') : RelIf G S p p' := fun a b ha hb _ => h a b ha hb
theorem RelIf.bind {p p' : Lk α} {f f' : α → Lk β} (h : Rel R p p') (hf : ∀ a b, R a b → RelIf G S (f a) (f' b)) :
    RelIf G S (p >>= f) (p' >>= f') := by
  intro x y hx hy hg
  obtain ⟨a, ha, hx⟩ := bind_val_ok hx
  obtain ⟨b, hb, hy⟩ := bind_val_ok hy
  obtain ⟨h1, h2⟩ := h a b ha hb
  obtain ⟨h3, h4⟩ := hf a b h2 x y hx hy hg
  rw [tr_bind_ok ha, tr_bind_ok hb, h1, h3]
  exact ⟨rfl, h4⟩
theorem RelIf.bindT {p p' : Lk α} {f f' : α → Lk β} (h : Rel T p p') (hf : ∀ a b, RelIf G S (f a) (f' b)) :
    RelIf G S (p >>= f) (p' >>= f') := RelIf.bind h fun a b _ => hf a b
/-- A fact that the related results imply may be used. -/
theorem RelIf.use {p p' : Lk β} {P P' : β → Prop} (h : p.val.Par P) (h' : p'.val.Par P')
    (hf : ∀ a b, P a → P' b → G a b → RelIf G S p p') : RelIf G S p p' :=
  fun a b ha hb hg => hf a b (h a ha) (h' b hb) hg a b ha hb hg
theorem par_bind {p : Lk α} {f : α → Lk β} {P : β → Prop} (hf : ∀ a, (f a).val.Par P) : (p >>= f).val.Par P := by
  rw [val_bind']
  exact Res.Par.bind (P := fun _ => True) (fun _ _ => trivial) fun a _ => hf a
end Lk

/-! ### Public-key serialisation -/

/-- Only the contents (buffer bytes and pending bits) differ. -/
def SamePos (s s' : PkEncSt) : Prop := s.idx = s'.idx ∧ s.bitcnt = s'.bitcnt ∧ s.pkey.length = s'.pkey.length

theorem rel_pkFlushL (n : Nat) (s s' : PkEncSt) (h : SamePos s s') : Rel SamePos (pkFlushL n s) (pkFlushL n s') := by
  unfold pkFlushL
  refine Lk.Rel.branch (by rw [h.2.1]) ?_ (Lk.Rel.pure h)
  rw [h.1]
  refine Lk.Rel.bind (Rel.putLe _ _ _ _ _ _) fun a b hab => Lk.Rel.pure ⟨rfl, rfl, ?_⟩
  exact hab.1.trans (h.2.2.trans hab.2.symm)

theorem rel_pkEncCoeffL (n : Nat) (x x' : Zq) (s s' : PkEncSt) (h : SamePos s s') :
    Rel SamePos (pkEncCoeffL n x s) (pkEncCoeffL n x' s') := by
  unfold pkEncCoeffL
  refine Lk.Rel.bind (rel_pkFlushL n s s' h) fun a b hab => Lk.Rel.bindT (Lk.Rel.liftT _ _) fun v v' => Lk.Rel.pure ?_
  exact ⟨hab.1, by show a.bitcnt + _ = b.bitcnt + _; rw [hab.2.1], hab.2.2⟩

theorem rel_encodePublicKeyL (n : Nat) {seed seed' : List U8} (hs : seed.length = seed'.length) (t t' : PVec k 1)
    {b b' : List U8} (hb : b.length = b'.length) :
    Rel (fun x y => x.length = y.length) (encodePublicKeyL n seed t b) (encodePublicKeyL n seed' t' b') := by
  unfold encodePublicKeyL
  refine Lk.Rel.bind (Rel.writeSpan _ hs) fun a a' ha => ?_
  refine Lk.Rel.bind (R := SamePos) (Lk.Rel.forL ⟨hs, rfl, by rw [ha.1, ha.2, hb]⟩ fun r s s' h =>
    Lk.Rel.forL h fun c s s' h => ?_) fun s s' h => ?_
  · exact Lk.Rel.bindT (Rel.rd _ _ _) fun _ _ => Lk.Rel.bindT (Rel.rd _ _ _) fun _ _ => Lk.Rel.bindT (Rel.rd _ _ _) fun _ _ =>
      rel_pkEncCoeffL n _ _ s s' h
  · exact Lk.Rel.bind (rel_pkFlushL n s s' h) fun _ _ h => Lk.Rel.pure h.2.2

theorem rel_decodePublicKeyL (n sl k : Nat) {b b' : List U8} (hb : b.length = b'.length) :
    Rel T (decodePublicKeyL n sl k b) (decodePublicKeyL n sl k b') := by
  unfold decodePublicKeyL
  refine Lk.Rel.bind (Rel.subspan _ _ _ _) fun _ _ _ => ?_
  rw [hb]
  refine Lk.Rel.bind (R := fun a b => a.2 = b.2) (Lk.Rel.forL rfl fun off s s' h => ?_) fun a b _ => Lk.Rel.pureT
  refine Lk.Rel.bind (Rel.subspan _ _ _ _) fun w w' hw => Lk.Rel.bindT (Rel.fromLe _ hw) fun x x' => ?_
  refine Lk.Rel.bind (R := fun a b => a.2.1 = b.2.1) (Lk.Rel.forL h fun i s s' h => ?_) ?_
  · obtain ⟨t, i, w⟩ := s
    obtain ⟨t', i', w'⟩ := s'
    have h : i = i' := h
    subst h
    unfold pkDecCoeffL
    exact Lk.Rel.bindT (Rel.rd _ _ _) fun _ _ => Lk.Rel.bindT (Rel.rd _ _ _) fun _ _ => Lk.Rel.bindT (Rel.wr _ _ _ _ _) fun _ _ =>
      Lk.Rel.bindT (Rel.wr _ _ _ _ _) fun _ _ => Lk.Rel.bindT (Rel.wr _ _ _ _ _) fun _ _ =>
      Lk.Rel.bindT (Lk.Rel.liftT _ _) fun _ _ => Lk.Rel.pure rfl
  · rintro ⟨t, i, w⟩ ⟨t', i', w'⟩ (h : i = i')
    exact Lk.Rel.pure h

/-! ### Secret-key serialisation -/

/-- The stored seeds and the generator agree, the contents need not. -/
def SameSeeds {l : Nat} (a b : PVec l 1 × List U8 × Prng) : Prop := a.2.1.length = b.2.1.length ∧ a.2.2 = b.2.2

theorem rel_compressShareL (E : Ext) (fuel κ : Nat) (s s' : PVec l d) (i : Nat) (st st' : PVec l 1 × List U8 × Prng)
    (h : SameSeeds st st') : Rel SameSeeds (compressShareL E fuel κ s i st) (compressShareL E fuel κ s' i st') := by
  obtain ⟨x, sc, p⟩ := st
  obtain ⟨x', sc', p'⟩ := st'
  obtain ⟨h1, h2⟩ := h
  have h2 : p = p' := h2
  subst h2
  unfold compressShareL
  refine Lk.Rel.bind (Lk.Rel.rfl' _) ?_
  rintro ⟨z, p⟩ _ rfl
  refine Lk.Rel.bind (Rel.writeSpan _ rfl) fun y y' hy => ?_
  refine Lk.Rel.bindT (Lk.Rel.forT fun i s s' => ?_) fun x x' => Lk.Rel.bindT (Lk.Rel.forT fun i s s' => ?_) fun _ _ =>
    Lk.Rel.pure ⟨by show y.length = y'.length; rw [hy.1, hy.2]; exact h1, rfl⟩
  · exact Lk.Rel.bindT (Lk.Rel.rfl' _).t fun _ _ => Lk.Rel.bindT (Rel.rd _ _ _) fun _ _ => Lk.Rel.bindT (Rel.rd _ _ _) fun _ _ =>
      Lk.Rel.bindT (Poly.rel_subL _ _ _ _) fun _ _ => Lk.Rel.bindT (Rel.wr _ _ _ _ _) fun _ _ => Rel.wr _ _ _ _ _
  · exact Lk.Rel.bindT (Rel.rd _ _ _) fun _ _ => Lk.Rel.bindT (Rel.rd _ _ _) fun _ _ => Lk.Rel.bindT (Rel.rd _ _ _) fun _ _ =>
      Lk.Rel.bindT (Rel.rd _ _ _) fun _ _ =>
      Lk.Rel.bindT (Poly.rel_addL _ _ _ _) fun _ _ => Lk.Rel.bindT (Rel.wr _ _ _ _ _) fun _ _ => Rel.wr _ _ _ _ _

/-- Offsets agree. -/
def SameOff (a b : List U8 × Nat × U64 × Nat) : Prop := a.1.length = b.1.length ∧ a.2.1 = b.2.1 ∧ a.2.2.2 = b.2.2.2

theorem rel_packCoeffL (x x' : Zq) (st st' : List U8 × Nat × U64 × Nat) (h : SameOff st st') :
    Rel SameOff (packCoeffL x st) (packCoeffL x' st') := by
  obtain ⟨a, b, c, e⟩ := st
  obtain ⟨a', b', c', e'⟩ := st'
  obtain ⟨h1, h2, h3⟩ := h
  have h2 : b = b' := h2
  have h3 : e = e' := h3
  subst h2 h3
  unfold packCoeffL
  refine Lk.Rel.bindT (Lk.Rel.liftT _ _) fun _ _ => Lk.Rel.bind (Rel.putLe _ _ _ _ _ _) fun y y' hy =>
    Lk.Rel.bindT (Lk.Rel.liftT _ _) fun _ _ => Lk.Rel.pure ⟨?_, rfl, rfl⟩
  show y.length = y'.length
  rw [hy.1, hy.2]; exact h1

theorem rel_packRowL (p p' : Poly) (st st' : List U8 × Nat) (h1 : st.1.length = st'.1.length) (h2 : st.2 = st'.2) :
    Rel (fun a b => a.1.length = b.1.length ∧ a.2 = b.2) (packRowL p st) (packRowL p' st') := by
  unfold packRowL
  refine Lk.Rel.bind (R := SameOff) (Lk.Rel.forL ⟨h1, h2, rfl⟩ fun i s s' h => ?_) ?_
  · exact Lk.Rel.bindT (Rel.rd _ _ _) fun _ _ => rel_packCoeffL _ _ _ _ h
  · rintro ⟨a, b, c, e⟩ ⟨a', b', c', e'⟩ ⟨h1, h2, -⟩
    exact Lk.Rel.pure ⟨h1, h2⟩

theorem rel_maskCompressL (E : Ext) (fuel κ : Nat) (s s' : PVec l d) {sc sc' : List U8} (h : sc.length = sc'.length) (p : Prng) :
    Rel (fun a b => a.1.length = b.1.length ∧ a.2 = b.2) (maskCompressL E fuel κ s sc p) (maskCompressL E fuel κ s' sc' p) := by
  unfold maskCompressL
  refine Lk.Rel.bindT (Lk.Rel.forT fun _ _ _ => ?_) fun x x' => ?_
  · exact Lk.Rel.bindT (Rel.rd _ _ _) fun _ _ => Lk.Rel.bindT (Rel.rd _ _ _) fun _ _ => Lk.Rel.bindT (Rel.rd _ _ _) fun _ _ =>
      Lk.Rel.bindT (Rel.wr _ _ _ _ _) fun _ _ => Rel.wr _ _ _ _ _
  refine Lk.Rel.bind (R := SameSeeds) (Lk.Rel.forL ⟨h, rfl⟩ fun i st st' h => rel_compressShareL E fuel κ s s' i st st' h) ?_
  rintro ⟨x, y, p⟩ ⟨x', y', p'⟩ ⟨h1, h2⟩
  refine Lk.Rel.bind (R := fun a b => a.1.length = b.1.length ∧ a.2 = b.2) (Lk.Rel.forL ⟨h1, rfl⟩ fun i st st' h => ?_) ?_
  · exact Lk.Rel.bindT (Rel.rd _ _ _) fun _ _ => Lk.Rel.bindT (Rel.rd _ _ _) fun _ _ => rel_packRowL _ _ _ _ h.1 h.2
  · rintro ⟨a, b⟩ ⟨a', b'⟩ h
    exact Lk.Rel.pure ⟨h.1, h2⟩

/-- Offsets agree. -/
def SameOff2 {α : Type} (a b : α × Nat × U64 × Nat) : Prop := a.2.1 = b.2.1 ∧ a.2.2.2 = b.2.2.2

theorem rel_unpackCoeffL (sc sc' : List U8) (st st' : Nat × U64 × Nat) (h1 : st.1 = st'.1) (h2 : st.2.2 = st'.2.2) :
    Rel SameOff2 (unpackCoeffL sc st) (unpackCoeffL sc' st') := by
  obtain ⟨a, b, c⟩ := st
  obtain ⟨a', b', c'⟩ := st'
  have h1 : a = a' := h1
  have h2 : c = c' := h2
  subst h1 h2
  unfold unpackCoeffL
  exact Lk.Rel.bind (Rel.subspan _ _ _ _) fun _ _ hw => Lk.Rel.bindT (Rel.fromLe _ hw) fun _ _ =>
    Lk.Rel.bindT (Lk.Rel.liftT _ _) fun _ _ => Lk.Rel.bindT (Lk.Rel.liftT _ _) fun _ _ => Lk.Rel.pure ⟨rfl, rfl⟩

theorem rel_unpackRowL (sc sc' : List U8) (o : Nat) : Rel (fun a b => a.2 = b.2) (unpackRowL sc o) (unpackRowL sc' o) := by
  unfold unpackRowL
  refine Lk.Rel.bind (R := SameOff2) (Lk.Rel.forL ⟨rfl, rfl⟩ fun i s s' h => ?_) ?_
  · refine Lk.Rel.bind (rel_unpackCoeffL sc sc' s.2 s'.2 h.1 h.2) ?_
    rintro ⟨x, st⟩ ⟨x', st'⟩ h
    exact Lk.Rel.bindT (Rel.wr _ _ _ _ _) fun _ _ => Lk.Rel.pure h
  · rintro ⟨a, b, c, e⟩ ⟨a', b', c', e'⟩ ⟨h1, -⟩
    exact Lk.Rel.pure h1

/-- The seeds `z` at the front of the compressed secret are the only bytes the observations depend on. -/
theorem rel_maskDecompressL (E : Ext) (fuel κ l d : Nat) (sc sc' : List U8)
    (h : ∀ j < d - 1, subspan sc (j * (κ / 8)) (κ / 8) = subspan sc' (j * (κ / 8)) (κ / 8)) :
    Rel T (maskDecompressL E fuel κ l d sc) (maskDecompressL E fuel κ l d sc') := by
  unfold maskDecompressL
  refine Lk.Rel.bind (R := fun a b => a.2 = b.2) (Lk.Rel.forL rfl fun i s s' h => ?_) ?_
  · have h : s.2 = s'.2 := h
    rw [h]
    refine Lk.Rel.bind (rel_unpackRowL sc sc' _) ?_
    rintro ⟨p, o⟩ ⟨p', o'⟩ (h : o = o')
    exact Lk.Rel.bindT (Rel.rd _ _ _) fun _ _ => Lk.Rel.bindT (Rel.wr _ _ _ _ _) fun _ _ =>
      Lk.Rel.bindT (Rel.wr _ _ _ _ _) fun _ _ => Lk.Rel.pure h
  · rintro ⟨s, o⟩ ⟨s', o'⟩ -
    unfold forL
    refine Lk.Rel.bindT ?_ fun _ _ => Lk.Rel.tick _ Lk.Rel.pureT
    have hl : (d - 1 + 1 - 1) / 1 = d - 1 := by omega
    rw [hl]
    have H : ∀ n a, a + n ≤ d → 1 ≤ a → ∀ s s' : PVec l d, Rel T
        ((List.range' a n).foldlM (fun s i => tick (.br true) (forL 0 l 1 (fun ridx s => do
          let hdr : List U8 := [0x4b, BitVec.ofNat 8 i, BitVec.ofNat 8 ridx, 0, 0, 0, 0, 0]
          let seed ← subspanL sc ((i - 1) * (κ / 8)) (κ / 8)
          let _discarded ← Poly.sampleQL E fuel hdr seed
          pure s) s)) s)
        ((List.range' a n).foldlM (fun s i => tick (.br true) (forL 0 l 1 (fun ridx s => do
          let hdr : List U8 := [0x4b, BitVec.ofNat 8 i, BitVec.ofNat 8 ridx, 0, 0, 0, 0, 0]
          let seed ← subspanL sc' ((i - 1) * (κ / 8)) (κ / 8)
          let _discarded ← Poly.sampleQL E fuel hdr seed
          pure s) s)) s') := by
      intro n
      induction n with
      | zero => intro a _ _ s s'; exact Lk.Rel.pureT
      | succ n ih =>
        intro a ha h1 s s'
        rw [List.range'_succ, List.foldlM_cons, List.foldlM_cons]
        refine Lk.Rel.bindT (Lk.Rel.tick _ (Lk.Rel.forT fun ridx s s' => ?_)) fun s s' => ih (a + 1) (by omega) (by omega) s s'
        have e : subspanL sc ((a - 1) * (κ / 8)) (κ / 8) = subspanL sc' ((a - 1) * (κ / 8)) (κ / 8) := by
          unfold subspanL
          rw [h (a - 1) (by omega)]
        refine Lk.Rel.bind (Lk.Rel.of_eq e) ?_
        rintro seed _ rfl
        exact Lk.Rel.bindT (Lk.Rel.rfl' _).t fun _ _ => Lk.Rel.pureT
    by_cases hd : 1 ≤ d
    · exact H (d - 1) 1 (by omega) (by omega) s s'
    · have : d - 1 = 0 := by omega
      rw [this]
      exact Lk.Rel.pureT

/-! ### Keys -/

theorem rel_centerVecL (q' : U64) (v v' : PVec k 1) : Rel T (centerVecL q' v) (centerVecL q' v') := by
  unfold centerVecL
  exact Lk.Rel.forT fun _ _ _ => Lk.Rel.bindT (Rel.rd _ _ _) fun _ _ => Lk.Rel.bindT (Rel.rd _ _ _) fun _ _ =>
    Lk.Rel.bindT (Poly.rel_centerL _ _ _) fun _ _ => Lk.Rel.tick _ (Lk.Rel.tick _ Lk.Rel.pureT)

theorem rel_sigMkL (n : Nat) {c c' : List U8} (hc : c.length = c'.length) (h h' : PVec k 1) (z z' : PVec l 1) :
    Rel T (Sig.mkL n c h z) (Sig.mkL n c' h' z') := by
  unfold Sig.mkL
  rw [hc]
  exact Lk.Rel.tick _ (Lk.Rel.bindT (rel_centerVecL _ _ _) fun _ _ => Lk.Rel.bindT (rel_centerVecL _ _ _) fun _ _ => Lk.Rel.pureT)

theorem par_sigMkL (n : Nat) (c : List U8) (h : PVec k 1) (z : PVec l 1) :
    (Sig.mkL n c h z).val.Par fun s => s.cHash = c := by
  unfold Sig.mkL
  rw [val_tick]
  exact par_bind fun _ => par_bind fun _ => Res.par_ok.2 rfl

theorem rel_skRefreshL (E : Ext) (fuel : Nat) (sk sk' : SKey k l d) : Rel T (sk.refreshL E fuel) (sk'.refreshL E fuel) := by
  unfold SKey.refreshL
  exact Lk.Rel.bind (PVec.rel_refreshL E fuel _ _ _) fun _ _ _ => Lk.Rel.pureT

theorem rel_skGenerateL (P : Par) (E : Ext) (fuel d ut rep : Nat) (e e' seed : List U8) :
    Rel T (SKey.generateL P E fuel d ut rep e seed) (SKey.generateL P E fuel d ut rep e' seed) := by
  unfold SKey.generateL
  refine Lk.Rel.bind (Lk.Rel.rfl' _) ?_
  rintro A _ rfl
  refine Lk.Rel.bind (Lk.Rel.rfl' _) ?_
  rintro ⟨s, m⟩ _ rfl
  refine Lk.Rel.bind (PVec.rel_addRepNoiseL E fuel _ _ _ _ _ _ _ _) ?_
  rintro ⟨s, p, m⟩ ⟨s', p', m'⟩ (h : m = m')
  subst h
  refine Lk.Rel.bindT (PVec.rel_nttL _ _) fun s s' => Lk.Rel.bindT (PMat.rel_mulVecL _ _ _ _) fun _ _ =>
    Lk.Rel.bindT (PVec.rel_inttL _ _) fun _ _ => ?_
  refine Lk.Rel.bind (PVec.rel_addRepNoiseL E fuel _ _ _ _ _ _ _ _) ?_
  rintro ⟨t, p, m⟩ ⟨t', p', m'⟩ -
  exact Lk.Rel.bindT (PVec.rel_decodeL _ _) fun _ _ => Lk.Rel.bindT (PVec.rel_roundingShrL _ _ _) fun _ _ => Lk.Rel.pureT

/-- Two attempts with the same signature object show the same. -/
theorem rel_signAttemptL (P : Par) (E : Ext) (fuel d uw rep : Nat) (A A' : PMat P.k P.l) (t t' : PVec P.k 1) {μ μ' : List U8}
    (hμ : μ.length = μ'.length) (st st' : SignSt P.l d) (hm : st.m = st'.m) (hb : st.sigBytes = st'.sigBytes) :
    RelIf (fun a b => a.2.2 = b.2.2) (fun a b => a.1 = b.1 ∧ a.2.1.m = b.2.1.m ∧ a.2.1.sigBytes = b.2.1.sigBytes)
      (signAttemptL P E fuel d uw rep A t μ st) (signAttemptL P E fuel d uw rep A' t' μ' st') := by
  unfold signAttemptL
  rw [hm, hb]
  refine Lk.RelIf.bind (Lk.Rel.rfl' _) ?_
  rintro ⟨r, m⟩ _ rfl
  refine Lk.RelIf.bind (PVec.rel_addRepNoiseL E fuel _ _ _ _ _ _ _ _) ?_
  rintro ⟨r, p, m⟩ ⟨r', p', m'⟩ (h : m = m')
  subst h
  refine Lk.RelIf.bindT (PVec.rel_nttL _ _) fun r r' => Lk.RelIf.bindT (PMat.rel_mulVecL _ _ _ _) fun _ _ =>
    Lk.RelIf.bindT (PVec.rel_inttL _ _) fun _ _ => ?_
  refine Lk.RelIf.bind (PVec.rel_addRepNoiseL E fuel _ _ _ _ _ _ _ _) ?_
  rintro ⟨w, p, m⟩ ⟨w', p', m'⟩ (h : m = m')
  subst h
  refine Lk.RelIf.bindT (PVec.rel_decodeL _ _) fun w w' => Lk.RelIf.bindT (PVec.rel_roundingShrL _ _ _) fun w w' => ?_
  refine Lk.RelIf.bind (rel_chalHashL E _ w w' hμ) fun c c' hcl => ?_
  -- the results contain the challenge hash
  have key : ∀ (A : PMat P.k P.l) (t : PVec P.k 1) (st : SignSt P.l d) (r : PVec P.l d) (p : Prng) (m : Mrng d)
      (w : PVec P.k 1) (c : List U8),
      (do
        let c' ← Poly.chalPolyL E fuel P.ω c
        let c' ← c'.nttLk
        let (s, m) ← st.s.refreshL E fuel m
        let (r, m) ← r.refreshL E fuel m
        let sc ← s.mulPolyL c'
        let z ← sc.addL r
        let (z, m) ← z.refreshL E fuel m
        let z' ← z.decodeL
        let Az ← A.mulVecL z'
        let tc ← t.mulPolyL c'
        let y ← Az.subL tc
        let y ← y.inttLk
        let z' ← z'.inttLk
        let y ← y.roundingShrL P.νw
        let h ← w.subModL (Q >>> P.νw) y
        let sig ← Sig.mkL P.νw c h z'
        let (isEncoded, sigBytes) ← encodeSigL sig.cHash sig.h sig.z st'.sigBytes
        branch ((!isEncoded) = true) (pure (false, ⟨s, p, m, sigBytes⟩, sig)) (do
          let inBounds ← sig.checkBoundsL P.νw P.Binf P.B22
          branch ((!inBounds) = true) (pure (false, ⟨s, p, m, sigBytes⟩, sig))
            (pure (true, ⟨s, p, m, sigBytes⟩, sig))) : Lk (Bool × SignSt P.l d × Sig)).val.Par
      (fun r => r.2.2.cHash = c) := by
    intro A t st r p m w c
    iterate 15 refine par_bind fun _ => ?_
    rw [val_bind']
    refine Res.Par.bind (par_sigMkL _ _ _ _) fun sig hs => ?_
    refine par_bind fun x => ?_
    obtain ⟨ok, bs⟩ := x
    dsimp only
    rw [val_branch]
    split
    · exact Res.par_ok.2 hs
    · refine par_bind fun x => ?_
      rw [val_branch]
      split <;> exact Res.par_ok.2 hs
  refine Lk.RelIf.use (key A t st r p m w c) (key A' t' st' r' p' m w' c') fun a b h1 h2 hab => ?_
  have hc : c = c' := by rw [← h1, ← h2, hab]
  subst hc
  refine Lk.RelIf.bind (Lk.Rel.rfl' _) ?_
  rintro c _ rfl
  refine Lk.RelIf.bindT (Poly.rel_nttL _ _) fun c1 c2 => ?_
  refine Lk.RelIf.bind (PVec.rel_refreshL E fuel _ _ _) ?_
  rintro ⟨s, m⟩ ⟨s', m'⟩ (h : m = m')
  subst h
  refine Lk.RelIf.bind (PVec.rel_refreshL E fuel _ _ _) ?_
  rintro ⟨r, m⟩ ⟨r', m'⟩ (h : m = m')
  subst h
  refine Lk.RelIf.bindT (PVec.rel_mulPolyL _ _ _ _) fun _ _ => Lk.RelIf.bindT (PVec.rel_addL _ _ _ _) fun _ _ => ?_
  refine Lk.RelIf.bind (PVec.rel_refreshL E fuel _ _ _) ?_
  rintro ⟨z, m⟩ ⟨z', m'⟩ (h : m = m')
  subst h
  refine Lk.RelIf.bindT (PVec.rel_decodeL _ _) fun _ _ => Lk.RelIf.bindT (PMat.rel_mulVecL _ _ _ _) fun _ _ =>
    Lk.RelIf.bindT (PVec.rel_mulPolyL _ _ _ _) fun _ _ => Lk.RelIf.bindT (PVec.rel_subL _ _ _ _) fun _ _ =>
    Lk.RelIf.bindT (PVec.rel_inttL _ _) fun _ _ => Lk.RelIf.bindT (PVec.rel_inttL _ _) fun _ _ =>
    Lk.RelIf.bindT (PVec.rel_roundingShrL _ _ _) fun _ _ => Lk.RelIf.bindT (PVec.rel_subModL _ _ _ _ _) fun _ _ =>
    Lk.RelIf.bindT (rel_sigMkL _ hcl _ _ _ _) fun sig sig' => ?_
  have key2 : ∀ (s : PVec P.l d) (p : Prng) (sig : Sig),
      (do
        let (isEncoded, sigBytes) ← encodeSigL sig.cHash sig.h sig.z st'.sigBytes
        branch ((!isEncoded) = true) (pure (false, ⟨s, p, m, sigBytes⟩, sig)) (do
          let inBounds ← sig.checkBoundsL P.νw P.Binf P.B22
          branch ((!inBounds) = true) (pure (false, ⟨s, p, m, sigBytes⟩, sig))
            (pure (true, ⟨s, p, m, sigBytes⟩, sig))) : Lk (Bool × SignSt P.l d × Sig)).val.Par
      (fun r => r.2.2 = sig) := by
    intro s p sig
    refine par_bind fun x => ?_
    obtain ⟨ok, bs⟩ := x
    dsimp only
    rw [val_branch]
    split
    · exact Res.par_ok.2 rfl
    · refine par_bind fun x => ?_
      rw [val_branch]
      split <;> exact Res.par_ok.2 rfl
  refine Lk.RelIf.use (key2 s p sig) (key2 s' p' sig') fun a b h1 h2 hab => ?_
  have hs : sig = sig' := by rw [← h1, ← h2, hab]
  subst hs
  refine Lk.RelIf.bind (Lk.Rel.rfl' _) ?_
  rintro ⟨ok, bs⟩ _ rfl
  dsimp only
  refine Lk.Rel.toIf (Lk.Rel.branch' (Lk.Rel.pure ⟨rfl, rfl, rfl⟩) ?_)
  refine Lk.Rel.bind (Lk.Rel.rfl' _) ?_
  rintro b _ rfl
  exact Lk.Rel.branch' (Lk.Rel.pure ⟨rfl, rfl, rfl⟩) (Lk.Rel.pure ⟨rfl, rfl, rfl⟩)

/-- One round of a retry loop. -/
theorem rel_retry {σ : Type} {J : σ → σ → Prop} {p p' : Lk (Bool × σ × Sig)} {k k' : σ → Lk (List U8 × List Sig)}
    {out : σ → List U8} {f f' : Bool × σ × Sig → Lk (List U8 × List Sig)}
    (hf : ∀ b s g, f (b, s, g) = if b then pure (out s, [g]) else k s >>= fun r => pure (r.1, g :: r.2))
    (hf' : ∀ b s g, f' (b, s, g) = if b then pure (out s, [g]) else k' s >>= fun r => pure (r.1, g :: r.2))
    (hp : RelIf (fun a b => a.2.2 = b.2.2) (fun a b => a.1 = b.1 ∧ J a.2.1 b.2.1) p p') (hout : ∀ s s', J s s' → out s = out s')
    (hk : ∀ s s', J s s' → RelIf (fun a b => a.2 = b.2) Eq (k s) (k' s')) :
    RelIf (fun a b => a.2 = b.2) Eq (p >>= f) (p' >>= f') := by
  intro x y hx hy hxy
  obtain ⟨⟨done, s1, sig⟩, ha, hx⟩ := bind_val_ok hx
  obtain ⟨⟨done', s1', sig'⟩, hb, hy⟩ := bind_val_ok hy
  have head : ∀ (k : σ → Lk (List U8 × List Sig)) (b : Bool) s g x,
      (if b then pure (out s, [g]) else k s >>= fun r => pure (r.1, g :: r.2) : Lk (List U8 × List Sig)).val = .ok x →
      x.2.head? = some g := by
    intro k b s g x h
    cases b
    · obtain ⟨a, -, h⟩ := bind_val_ok h
      rw [val_pure] at h
      rw [← Res.ok.inj h]; rfl
    · rw [if_pos rfl, val_pure] at h
      rw [← Res.ok.inj h]; rfl
  have hx0 := hx
  have hy0 := hy
  rw [hf] at hx
  rw [hf'] at hy
  have hsig : sig = sig' := by
    have e1 := head _ _ _ _ _ hx
    have e2 := head _ _ _ _ _ hy
    rw [hxy, e2] at e1
    exact (Option.some.inj e1).symm
  obtain ⟨h1, h2, h3⟩ := hp _ _ ha hb hsig
  have h2 : done = done' := h2
  subst h2 hsig
  rw [tr_bind_ok ha, tr_bind_ok hb, h1, hf, hf']
  cases done
  · obtain ⟨c, hc, hx⟩ := bind_val_ok hx
    obtain ⟨c', hc', hy⟩ := bind_val_ok hy
    rw [val_pure] at hx hy
    have ex := Res.ok.inj hx
    have ey := Res.ok.inj hy
    have e : c.2 = c'.2 := by
      rw [← ex, ← ey] at hxy
      exact (List.cons.inj hxy).2
    obtain ⟨i1, i2⟩ := hk s1 s1' h3 c c' hc hc' e
    refine ⟨?_, by rw [← ex, ← ey, i2]⟩
    simp only [Bool.false_eq_true, if_false]
    rw [tr_bind_ok hc, tr_bind_ok hc', i1]
    rfl
  · simp only [if_true] at hx hy ⊢
    rw [val_pure] at hx hy
    refine ⟨rfl, ?_⟩
    rw [← Res.ok.inj hx, ← Res.ok.inj hy, hout _ _ h3]

/-- Two signing loops with the same attempts show the same. -/
theorem rel_signLoopL (P : Par) (E : Ext) (fuel d uw rep : Nat) (A A' : PMat P.k P.l) (t t' : PVec P.k 1) {μ μ' : List U8}
    (hμ : μ.length = μ'.length) (n : Nat) : ∀ st st' : SignSt P.l d, st.m = st'.m → st.sigBytes = st'.sigBytes →
    RelIf (fun a b => a.2 = b.2) Eq (signLoopL P E fuel d uw rep A t μ n st) (signLoopL P E fuel d uw rep A' t' μ' n st') := by
  induction n with
  | zero => intro st st' _ _ a b ha; cases ha
  | succ n ih =>
    intro st st' hm hb
    rw [signLoopL, signLoopL]
    exact rel_retry (J := fun s s' => s.m = s'.m ∧ s.sigBytes = s'.sigBytes) (out := SignSt.sigBytes)
      (k := signLoopL P E fuel d uw rep A t μ n) (k' := signLoopL P E fuel d uw rep A' t' μ' n)
      (fun b s g => rfl) (fun b s g => rfl)
      (rel_signAttemptL P E fuel d uw rep A A' t t' hμ st st' hm hb) (fun s s' h => h.2) (fun s s' h => ih s s' h.1 h.2)

theorem rel_bindMsgL (E : Ext) (κ : Nat) {a a' b b' : List U8} (ha : a.length = a'.length) (hb : b.length = b'.length) :
    Rel (fun x y => x.length = y.length) (SKey.bindMsgL E κ a b) (SKey.bindMsgL E κ a' b') := by
  unfold SKey.bindMsgL
  refine Lk.Rel.bindT (Rel.absorb _ _ ha) fun _ _ => Lk.Rel.bind (Rel.squeeze _ _ _) ?_
  rintro ⟨x, h⟩ ⟨x', h'⟩ hx
  exact Lk.Rel.bindT (Rel.absorb _ _ hx) fun _ _ => Lk.Rel.bindT (Rel.absorb _ _ hb) fun _ _ =>
    Lk.Rel.bind (Rel.squeeze _ _ _) fun _ _ h => Lk.Rel.pure h

theorem rel_skSignL (P : Par) (E : Ext) (fuel d uw rep : Nat) (sk sk' : SKey P.k P.l d) (e e' : List U8) {m m' : List U8}
    (b : List U8) (hs : sk.pkey.seed = sk'.pkey.seed) (hm : m.length = m'.length) :
    RelIf (fun a b => a.2 = b.2) Eq (sk.signL P E fuel d uw rep e m b) (sk'.signL P E fuel d uw rep e' m' b) := by
  unfold SKey.signL
  refine Lk.RelIf.bindT (PVec.rel_shlL _ _ _) fun _ _ => Lk.RelIf.bindT (PVec.rel_nttL _ _) fun _ _ => ?_
  unfold PKey.toBytesL
  refine Lk.RelIf.bind (rel_encodePublicKeyL _ (by rw [hs]) _ _ rfl) fun x x' hx => ?_
  refine Lk.RelIf.bind (rel_bindMsgL E _ hx hm) fun μ μ' hμ => ?_
  rw [hs]
  refine Lk.RelIf.bind (Lk.Rel.rfl' _) ?_
  rintro A _ rfl
  exact rel_signLoopL P E fuel d uw rep A A _ _ hμ fuel _ _ rfl rfl

theorem rel_skToBytesL (E : Ext) (fuel κ n : Nat) (sk sk' : SKey k l d) (hs : sk.pkey.seed.length = sk'.pkey.seed.length)
    {b b' : List U8} (hb : b.length = b'.length) (p : Prng) :
    Rel (fun a b => a.1.length = b.1.length ∧ a.2 = b.2) (sk.toBytesL E fuel κ n b p) (sk'.toBytesL E fuel κ n b' p) := by
  unfold SKey.toBytesL PKey.toBytesL
  refine Lk.Rel.bind (Rel.subspan _ _ _ _) fun x x' hx => Lk.Rel.bind (rel_encodePublicKeyL _ hs _ _ hx) fun y y' hy => ?_
  refine Lk.Rel.bind (R := fun a b => a.length = b.length) (Lk.Rel.lift fun a b' ha hb' => ?_) fun w w' hw => ?_
  · rw [writeSpan_len ha, writeSpan_len hb', hb]
  rw [hw]
  refine Lk.Rel.bind (Rel.subspan _ _ _ _) fun x x' hx => ?_
  refine Lk.Rel.bind (rel_maskCompressL E fuel κ _ _ hx p) ?_
  rintro ⟨a, p⟩ ⟨a', p'⟩ ⟨h1, h2⟩
  refine Lk.Rel.bind (R := fun a b => a.length = b.length) (Lk.Rel.lift fun a b' ha hb' => ?_) fun w w' hw => ?_
  · rw [writeSpan_len ha, writeSpan_len hb', hw]
  · exact Lk.Rel.pure ⟨hw, h2⟩

end Raccoon
