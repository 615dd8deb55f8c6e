import Verif.Proofs.LeakShapeBytes
import Verif.Props.Leak
/-!
# C66 — everything that is observed

The lists of observations in `Spec/Trace.lean` are written from the loops, conditions and subscripts of the C++ sources, without reference to the
instrumented functions. Here: a completed run of an instrumented function shows such a list, so that no observation has been left out of the
instrumentation, and none is there that the list does not have.
-/
namespace Raccoon
open Lk
attribute [-instance] Monoid.toNPow

theorem Lk.Shows.observes {α : Type u} {p : Lk α} {t : List Ev} {Q : α → Prop} (h : p.Shows t Q) : p.Observes (Shape.one t) := fun a ha => (h a ha).1
theorem Lk.In.observes {α : Type u} {p : Lk α} {S : Shape} {Q : α → Prop} (h : p.In S Q) : p.Observes S := fun a ha => (h a ha).1

/-- C66: the observations of the arithmetic on polynomials, masked polynomials, vectors and matrices and of the comparison of byte strings, one by one. -/
theorem C66_observed_arithmetic (k l d n : Nat) (q : U64) (p r : Poly) (a b : MPoly d) (v w : PVec k d) (A : PMat l k) (x y : List U8) :
    ((Poly.addL p r).Observes (Shape.one Trace.polyOp2) ∧ (Poly.subL p r).Observes (Shape.one Trace.polyOp2) ∧
      (Poly.addModL q p r).Observes (Shape.one Trace.polyOp2) ∧ (Poly.subModL q p r).Observes (Shape.one Trace.polyOp2) ∧
      (Poly.mulL p r).Observes (Shape.one Trace.polyMul) ∧ (Poly.roundingShrL n p).Observes (Shape.one Trace.polyOp1) ∧
      (Poly.centerL q p).Observes (Shape.one Trace.polyOp1) ∧ (Poly.shlL p n).Observes (Shape.one Trace.polyShl) ∧
      (Poly.eqL p r).Observes (Shape.one Trace.polyEq) ∧ (Poly.nttLk p).Observes (Shape.one Trace.ntt) ∧
      (Poly.inttLk p).Observes (Shape.one Trace.intt)) ∧
    ((MPoly.addL a b).Observes (Shape.one (Trace.each2 d Trace.polyOp2)) ∧ (MPoly.subL a b).Observes (Shape.one (Trace.each2 d Trace.polyOp2)) ∧
      (MPoly.subModL q a b).Observes (Shape.one (Trace.each2 d Trace.polyOp2)) ∧ (MPoly.roundingShrL n a).Observes (Shape.one (Trace.each1 d Trace.polyOp1)) ∧
      (MPoly.shlL a n).Observes (Shape.one (Trace.each1 d Trace.polyShl)) ∧ (MPoly.eqL a b).Observes (Shape.one (Trace.eachEq d Trace.polyEq)) ∧
      (MPoly.nttLk a).Observes (Shape.one (Trace.each1 d Trace.ntt)) ∧ (MPoly.inttLk a).Observes (Shape.one (Trace.each1 d Trace.intt)) ∧
      (MPoly.decodeL a).Observes (Shape.one (Trace.decode d))) ∧
    ((PVec.addL v w).Observes (Shape.one (Trace.each2 k (Trace.each2 d Trace.polyOp2))) ∧
      (PVec.subL v w).Observes (Shape.one (Trace.each2 k (Trace.each2 d Trace.polyOp2))) ∧
      (PVec.subModL q v w).Observes (Shape.one (Trace.each2 k (Trace.each2 d Trace.polyOp2))) ∧
      (PVec.roundingShrL n v).Observes (Shape.one (Trace.each1 k (Trace.each1 d Trace.polyOp1))) ∧
      (PVec.shlL v n).Observes (Shape.one (Trace.each1 k (Trace.each1 d Trace.polyShl))) ∧
      (PVec.eqL v w).Observes (Shape.one (Trace.eachEq k (Trace.eachEq d Trace.polyEq))) ∧
      (PVec.nttLk v).Observes (Shape.one (Trace.each1 k (Trace.each1 d Trace.ntt))) ∧ (PVec.inttLk v).Observes (Shape.one (Trace.each1 k (Trace.each1 d Trace.intt))) ∧
      (PVec.decodeL v).Observes (Shape.one (Trace.each1 k (Trace.decode d))) ∧ (PVec.mulPolyL v p).Observes (Shape.one (Trace.scale k d)) ∧
      (PMat.mulVecL A v).Observes (Shape.one (Trace.mulVec l k d))) ∧
    (ctEqByteArrayL x y).Observes (Shape.one (Trace.bytesEq x.length)) :=
  ⟨⟨(Poly.shows_addL p r).observes, (Poly.shows_subL p r).observes, (Poly.shows_addModL q p r).observes, (Poly.shows_subModL q p r).observes,
    (Poly.shows_mulL p r).observes, (Poly.shows_roundingShrL n p).observes, (Poly.shows_centerL q p).observes, (Poly.shows_shlL p n).observes,
    (Poly.shows_eqL p r).observes, (Poly.shows_nttL p).observes, (Poly.shows_inttL p).observes⟩,
   ⟨(MPoly.shows_addL a b).observes, (MPoly.shows_subL a b).observes, (MPoly.shows_subModL q a b).observes, (MPoly.shows_roundingShrL n a).observes,
    (MPoly.shows_shlL a n).observes, (MPoly.shows_eqL a b).observes, (MPoly.shows_nttL a).observes, (MPoly.shows_inttL a).observes,
    (MPoly.shows_decodeL a).observes⟩,
   ⟨(PVec.shows_addL v w).observes, (PVec.shows_subL v w).observes, (PVec.shows_subModL q v w).observes, (PVec.shows_roundingShrL n v).observes,
   (PVec.shows_shlL v n).observes, (PVec.shows_eqL v w).observes, (PVec.shows_nttL v).observes, (PVec.shows_inttL v).observes,
   (PVec.shows_decodeL v).observes, (PVec.shows_mulPolyL v p).observes, (PMat.shows_mulVecL A v).observes⟩, fun _ _ => rfl⟩

/-- C66: the observations of `refresh`: for every row the masks of an encoding of zero, and `d` additions. -/
theorem C66_observed_refresh (P : Par) (E : Ext) (fuel d : Nat) (hd : ValidShares d) (sk : SKey P.k P.l d) :
    (Api.refreshL P E fuel sk).Observes (Shape.refreshVec P.l d) :=
  (SKey.in_refresh E fuel hd sk).observes

/-- C66: the observations of `generate`, with a public seed of `n` bytes. -/
theorem C66_observed_generate (P : Par) (E : Ext) (fuel d : Nat) (hd : ValidShares d)
    (entropy seed : List U8) : ∃ ut rep, tab (utTableOf P) (BitVec.ofNat 64 d) = .ok ut ∧ tab repTable (BitVec.ofNat 64 d) = .ok rep ∧
      (Api.generateL P (utTableOf P) E fuel d entropy seed).Observes (Shape.generate P d rep ut seed.length) := by
  obtain ⟨rep, -, ut1, ut2, e1, -, e3, e4, -, -, v1, v2, v3, v4⟩ := tab_ok hd
  obtain ⟨ut, e2, u1, u2⟩ : ∃ ut, tab (utTableOf P) (BitVec.ofNat 64 d) = .ok ut ∧ 0 < ut ∧ ut ≤ 7 := by
    unfold utTableOf
    split
    · exact ⟨ut2, e4, v3, v4⟩
    · exact ⟨ut1, e3, v1, v2⟩
  refine ⟨ut, rep, e2, e1, ?_⟩
  intro sk h
  unfold Api.generateL at h ⊢
  obtain ⟨u, hu, h⟩ := bind_val_ok h
  rw [tr_bind_ok hu]
  obtain ⟨x, hx, h⟩ := bind_val_ok h
  rw [tr_bind_ok hx]
  rw [val_lift, e2] at hu
  rw [val_lift, e1] at hx
  cases hu
  cases hx
  exact (SKey.in_generate P E fuel d hd u1 rep entropy seed sk h).1

/-- C66: the observations of `sign`, with the signatures of the attempts given: `L` is the list of `C66_sign_attempts`. -/
theorem C66_observed_sign (P : Par) (hP : P = raccoon128 ∨ P = raccoon192 ∨ P = raccoon256) (E : Ext) (fuel d : Nat) (hd : ValidShares d)
    (sk : SKey P.k P.l d) (entropy msg buf : List U8) : ∃ uw rep, tab uwTable (BitVec.ofNat 64 d) = .ok uw ∧ tab repTable (BitVec.ofNat 64 d) = .ok rep ∧
      ∀ b L, (Api.signL P E fuel d sk entropy msg buf).val = .ok (b, L) →
        Shape.sign P d rep uw sk.pkey.seed.length msg.length buf.length L (Api.signL P E fuel d sk entropy msg buf).tr := by
  obtain ⟨rep, uw, -, -, e1, e2, -, -, u1, u2, -⟩ := tab_ok hd
  refine ⟨uw, rep, e2, e1, ?_⟩
  intro b L h
  unfold Api.signL at h ⊢
  obtain ⟨u, hu, h⟩ := bind_val_ok h
  rw [tr_bind_ok hu]
  obtain ⟨x, hx, h⟩ := bind_val_ok h
  rw [tr_bind_ok hx]
  rw [val_lift, e2] at hu
  rw [val_lift, e1] at hx
  cases hu
  cases hx
  have hk : 0 < P.k ∧ P.νt = 42 := by rcases hP with rfl | rfl | rfl <;> exact ⟨by decide, rfl⟩
  exact SKey.out_sign P hk.1 hk.2 E fuel d hd u1 rep sk entropy msg buf (b, L) h

/-- C66: the observations of saving a secret key. -/
theorem C66_observed_as_bytes (P : Par) (hP : P = raccoon128 ∨ P = raccoon192 ∨ P = raccoon256) (E : Ext) (fuel d : Nat)
    (sk : SKey P.k P.l d) (entropy buf : List U8) :
    (Api.skAsBytesL P E fuel sk entropy buf).Observes (Shape.save P.κ P.k P.l d sk.pkey.seed.length buf.length) := by
  have hk : 0 < P.k ∧ P.νt = 42 := by rcases hP with rfl | rfl | rfl <;> exact ⟨by decide, rfl⟩
  unfold Api.skAsBytesL
  rw [hk.2]
  exact (Lk.In.map (SKey.in_toBytes E fuel P.κ hk.1 sk buf _)).observes

/-- C66: the observations of loading a secret key. -/
theorem C66_observed_from_bytes (P : Par) (hP : P = raccoon128 ∨ P = raccoon192 ∨ P = raccoon256) (E : Ext) (fuel d : Nat) (bytes : List U8) :
    (Api.skFromBytesL P E fuel d bytes).Observes (Shape.load P.κ P.k P.l d bytes.length) := by
  have hν : P.νt = 42 := by rcases hP with rfl | rfl | rfl <;> rfl
  unfold Api.skFromBytesL
  rw [hν]
  exact (SKey.in_fromBytes E fuel P.κ P.k P.l d bytes).observes

/-- Non-vacuity: the toy run of `Props/Demo` completes, so what it shows has these forms. -/
example (e seed e1 e2 msg : List U8) (hseed : seed.length = 16) : ∃ (sk sk1 sk2 : SKey 5 4 2) (skb : List U8) (L : List Sig), L ≠ [] ∧
    Shape.generate raccoon128 2 4 6 16 (Api.generateL raccoon128 (utTableOf raccoon128) demoE 512 2 e seed).tr ∧
    Shape.refreshVec 4 2 (Api.refreshL raccoon128 demoE 512 sk).tr ∧
    Shape.save 128 5 4 2 sk1.pkey.seed.length (SKey.byteLen 128 5 4 2 42)
      (Api.skAsBytesL raccoon128 demoE 512 sk1 e1 (List.replicate (SKey.byteLen 128 5 4 2 42) 0)).tr ∧
    Shape.load 128 5 4 2 skb.length (Api.skFromBytesL raccoon128 demoE 512 2 skb).tr ∧
    Shape.sign raccoon128 2 4 41 sk2.pkey.seed.length msg.length 11524 L (Api.signL raccoon128 demoE 512 2 sk2 e2 msg (List.replicate 11524 0)).tr := by
  have hP : raccoon128 = raccoon128 ∨ raccoon128 = raccoon192 ∨ raccoon128 = raccoon256 := Or.inl rfl
  obtain ⟨sk0, sk1, sk2, skb, b, h0, -, h1, h4, h5, hder, hsig, -⟩ := demo_run e seed e1 e2 msg hseed
  have w0 := C37_wellformed raccoon128 hP demoE 512 2 demo_d e seed hseed sk0 h0
  obtain ⟨w2, -, -⟩ := C38_history raccoon128 hP demoE 2 demo_d sk0 sk2 w0 hder
  obtain ⟨s, hss⟩ := PVec.IsNtt.exists sk2.s
  obtain ⟨L, h2, _, _, _, _, _, -, -, -, -, -, r⟩ := C66_sign_attempts raccoon128 hP demoE 512 2 demo_d sk2 w2 s hss e2 msg _ b hsig
  obtain ⟨ut, rep, t1, t2, g⟩ := C66_observed_generate raccoon128 demoE 512 2 demo_d e seed
  obtain ⟨uw, rep', t3, t4, g'⟩ := C66_observed_sign raccoon128 hP demoE 512 2 demo_d sk2 e2 msg (List.replicate 11524 0)
  cases t1
  cases t2
  cases t3
  cases t4
  rw [← (C66_same_program raccoon128 (utTableOf raccoon128) demoE 512 2 sk0 e seed [] []).1] at h0
  rw [← (C66_same_program raccoon128 [] demoE 512 2 sk0 [] [] [] []).2.2.1] at h1
  rw [← (C66_same_program raccoon128 [] demoE 512 2 sk1 e1 [] [] _).2.2.2.1] at h4
  rw [← (C66_same_program raccoon128 [] demoE 512 2 sk1 [] [] [] skb).2.2.2.2] at h5
  have r4 := C66_observed_as_bytes raccoon128 hP demoE 512 2 sk1 e1 _ skb h4
  rw [List.length_replicate] at r4
  refine ⟨sk0, sk1, sk2, skb, L, ?_, ?_, C66_observed_refresh raccoon128 demoE 512 2 demo_d sk0 sk1 h1, r4,
    C66_observed_from_bytes raccoon128 hP demoE 512 2 skb sk2 h5, ?_⟩
  · rintro rfl; exact r
  · have := g sk0 h0
    rwa [hseed] at this
  · have := g' b L h2
    rwa [List.length_replicate] at this
end Raccoon
