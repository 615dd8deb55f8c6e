import Verif.Spec.MatrixOracle
import Verif.Props.Uniform
import Verif.Props.Entropy
import Verif.Proofs.MaskSampler
/-!
# C85: public matrices are uniform
-/
namespace Raccoon
attribute [-instance] Monoid.toNPow
open Finset

theorem header_inj {k l : Nat} (hk : k ≤ 256) (hl : l ≤ 256) (seed : List U8) (e f : Fin k × Fin l) (h : matHdr e.1.val e.2.val ++ seed = matHdr f.1.val f.2.val ++ seed) : e = f := by
  have h1 := List.append_cancel_right h
  unfold matHdr at h1
  injection h1 with _ h1
  injection h1 with h2 h1
  injection h1 with h3 _
  have h4 := congrArg BitVec.toNat h2
  have h5 := congrArg BitVec.toNat h3
  rw [BitVec.toNat_ofNat, BitVec.toNat_ofNat] at h4 h5
  have a1 := e.1.isLt; have a2 := e.2.isLt; have a3 := f.1.isLt; have a4 := f.2.isLt
  exact Prod.ext (Fin.ext (by omega)) (Fin.ext (by omega))

theorem withMatrix_query {k l n : Nat} (E : Ext) (seed : List U8) (B : Fin k → Fin l → Fin n → U8) (hk : k ≤ 256) (hl : l ≤ 256) (r : Fin k) (j : Fin l) :
    (E.withMatrix seed B).shake256 (matHdr r.val j.val ++ seed) = prefixStream (B r j) := by
  have h : ∃ e : Fin k × Fin l, matHdr r.val j.val ++ seed = [0x41, BitVec.ofNat 8 e.1.val, BitVec.ofNat 8 e.2.val, 0, 0, 0, 0, 0] ++ seed := ⟨(r, j), rfl⟩
  have e : h.choose = (r, j) := header_inj hk hl seed _ _ h.choose_spec.symm
  unfold Ext.withMatrix
  show (if h : _ then _ else _) = _
  rw [dif_pos h, e]

/-- The streams that give the matrix `a`: those whose entries give the transformed entries. -/
theorem withMatrix_gives {k l m : Nat} (E : Ext) (seed : List U8) (hk : k ≤ 256) (hl : l ≤ 256) (B : Fin k → Fin l → Fin (m * 7) → U8) (a : Fin k → Fin l → RPoly) :
    ((∃ A, PMat.expandA (E.withMatrix seed B) m k l seed = .ok A) ∧ IsMatrixOf (E.withMatrix seed B) seed a) ↔
      ∀ r j, Poly.sampleQ (E.withStream (B r j)) m [] seed = .ok (Poly.ofZ (nttR (a r j))) := by
  have e : ∀ (r : Fin k) (j : Fin l), Poly.sampleQ (E.withMatrix seed B) m (matHdr r.val j.val) seed = Poly.sampleQ (E.withStream (B r j)) m [] seed := by
    intro r j
    rw [sampleQ_eq, sampleQ_eq, withMatrix_query E seed B hk hl]
    rfl
  constructor
  · rintro ⟨⟨A, hA⟩, ha⟩ r j
    have h := ((expandA_safe _ m k l seed).par A hA).2 r j
    have h1 := isUniform_of_sampleQ h
    have h2 := h1.unique (ha r j)
    rw [← e, h]
    refine congrArg Res.ok ((Poly.toZ_inj (sampleQ_can h) (Poly.ofZ_can _)).1 ?_)
    rw [h2, Poly.ofZ_toZ]
  · intro h
    constructor
    · refine expandA_ok _ fun r c hr hc => ⟨_, (e ⟨r, hr⟩ ⟨c, hc⟩).trans (h ⟨r, hr⟩ ⟨c, hc⟩)⟩
    · intro r j
      have h1 := isUniform_of_sampleQ ((e r j).trans (h r j))
      rw [Poly.ofZ_toZ] at h1
      exact h1

theorem card_pi2 {k l : Nat} {X : Type} [Finite X] (p : Fin k → Fin l → X → Prop) (c : Nat) (h : ∀ r j, Nat.card {x // p r j x} = c) :
    Nat.card {B : Fin k → Fin l → X // ∀ r j, p r j (B r j)} = ∏ _r : Fin k, ∏ _j : Fin l, c := by
  have e : {B : Fin k → Fin l → X // ∀ r j, p r j (B r j)} ≃ (∀ r : Fin k, ∀ j : Fin l, {x // p r j x}) :=
    ⟨fun B r j => ⟨B.1 r j, B.2 r j⟩, fun f => ⟨fun r j => (f r j).1, fun r j => (f r j).2⟩, fun _ => rfl, fun _ => rfl⟩
  rw [Nat.card_congr e, Nat.card_pi]
  refine Finset.prod_congr rfl fun r _ => ?_
  rw [Nat.card_pi]
  exact Finset.prod_congr rfl fun j _ => h r j

theorem matrix_card {k l : Nat} (E : Ext) (m : Nat) (seed : List U8) (hk : k ≤ 256) (hl : l ≤ 256) (a : Fin k → Fin l → RPoly) :
    Nat.card {B : Fin k → Fin l → Fin (m * 7) → U8 // (∃ A, PMat.expandA (E.withMatrix seed B) m k l seed = .ok A) ∧ IsMatrixOf (E.withMatrix seed B) seed a} =
      ∏ _r : Fin k, ∏ _j : Fin l, countBytes (m * 7) (fun B => Poly.sampleQ (E.withStream B) m [] seed = .ok (Poly.ofZ 0)) := by
  rw [Nat.card_congr (Equiv.subtypeEquivRight fun B => withMatrix_gives E seed hk hl B a)]
  exact card_pi2 (fun r j (b : Fin (m * 7) → U8) => Poly.sampleQ (E.withStream b) m [] seed = .ok (Poly.ofZ (nttR (a r j)))) _
    fun r j => C56_uniform E m [] seed _ _ (Poly.ofZ_can _) (Poly.ofZ_can _)

/-- C85: public matrices are uniform. Let SHAKE256 answer the queries for the entries of the matrix of a seed by independent uniform bytes, whatever it answers elsewhere; let the sampler
read at most `m` words for each entry. Then matrix expansion ends with every matrix over the ring equally often. -/
theorem C85_uniform {k l : Nat} (E : Ext) (m : Nat) (seed : List U8) (hk : k ≤ 256) (hl : l ≤ 256) (a a' : Fin k → Fin l → RPoly) :
    Nat.card {B : Fin k → Fin l → Fin (m * 7) → U8 // (∃ A, PMat.expandA (E.withMatrix seed B) m k l seed = .ok A) ∧ IsMatrixOf (E.withMatrix seed B) seed a} =
      Nat.card {B : Fin k → Fin l → Fin (m * 7) → U8 // (∃ A, PMat.expandA (E.withMatrix seed B) m k l seed = .ok A) ∧ IsMatrixOf (E.withMatrix seed B) seed a'} := by
  rw [matrix_card E m seed hk hl, matrix_card E m seed hk hl]

/-- C85: and each does occur, as soon as 512 words for each entry are allowed. -/
theorem C85_reached {k l : Nat} (E : Ext) (m : Nat) (hm : 512 ≤ m) (seed : List U8) (hk : k ≤ 256) (hl : l ≤ 256) (a : Fin k → Fin l → RPoly) :
    0 < Nat.card {B : Fin k → Fin l → Fin (m * 7) → U8 // (∃ A, PMat.expandA (E.withMatrix seed B) m k l seed = .ok A) ∧ IsMatrixOf (E.withMatrix seed B) seed a} := by
  rw [matrix_card E m seed hk hl]
  exact Finset.prod_pos fun _ _ => Finset.prod_pos fun _ _ => C56_uniform_reached E m hm [] seed _ (Poly.ofZ_can _)

theorem card_sigma_set {A B : Type} [Finite A] [Finite B] (R : B → A → Prop) (hu : ∀ b a a', R b a → R b a' → a = a') (X : A → Prop) (c : Nat) (h : ∀ a, Nat.card {b // R b a} = c) :
    Nat.card {b // ∃ a, R b a ∧ X a} = Nat.card {a // X a} * c := by
  classical
  have := Fintype.ofFinite A
  have e : {b // ∃ a, R b a ∧ X a} ≃ Σ a : {a // X a}, {b // R b a.1} :=
    ⟨fun b => ⟨⟨b.2.choose, b.2.choose_spec.2⟩, ⟨b.1, b.2.choose_spec.1⟩⟩, fun p => ⟨p.2.1, p.1.1, p.2.2, p.1.2⟩, fun _ => rfl, fun p => by
      obtain ⟨⟨a, ha⟩, ⟨b, hb⟩⟩ := p
      have hex : ∃ a, R b a ∧ X a := ⟨a, hb, ha⟩
      have ec : hex.choose = a := hu b _ _ hex.choose_spec.1 hb
      show (⟨⟨hex.choose, _⟩, ⟨b, _⟩⟩ : Σ a : {a // X a}, {b // R b a.1}) = _
      have key : ∀ (a' : A) (h1 : X a') (h2 : R b a'), a' = a → (⟨⟨a', h1⟩, ⟨b, h2⟩⟩ : Σ a : {a // X a}, {b // R b a.1}) = ⟨⟨a, ha⟩, ⟨b, hb⟩⟩ := by
        rintro a' h1 h2 rfl; rfl
      exact key _ _ _ ec⟩
  rw [Nat.card_congr e, Nat.card_sigma]
  simp only [h]
  rw [Finset.sum_const, smul_eq_mul, Finset.card_univ, Nat.card_eq_fintype_card]

/-- C85: so a property of matrices holds for the matrices that matrix expansion ends with as often as for matrices: (number of streams that give a matrix in `X`) : (number of streams for which
matrix expansion ends) = (number of matrices in `X`) : (number of matrices). -/
theorem C85_sets {k l : Nat} (E : Ext) (m : Nat) (seed : List U8) (hk : k ≤ 256) (hl : l ≤ 256) (X : (Fin k → Fin l → RPoly) → Prop) :
    Nat.card {B : Fin k → Fin l → Fin (m * 7) → U8 // ∃ a : Fin k → Fin l → RPoly, ((∃ A, PMat.expandA (E.withMatrix seed B) m k l seed = .ok A) ∧ IsMatrixOf (E.withMatrix seed B) seed a) ∧ X a} *
        Nat.card (Fin k → Fin l → RPoly) =
      Nat.card {a // X a} * Nat.card {B : Fin k → Fin l → Fin (m * 7) → U8 // ∃ A, PMat.expandA (E.withMatrix seed B) m k l seed = .ok A} := by
  have hu : ∀ (B : Fin k → Fin l → Fin (m * 7) → U8) (a a' : Fin k → Fin l → RPoly),
      ((∃ A, PMat.expandA (E.withMatrix seed B) m k l seed = .ok A) ∧ IsMatrixOf (E.withMatrix seed B) seed a) →
      ((∃ A, PMat.expandA (E.withMatrix seed B) m k l seed = .ok A) ∧ IsMatrixOf (E.withMatrix seed B) seed a') → a = a' :=
    fun _ _ _ h h' => h.2.unique h'.2
  have hfin : Finite (Fin k → Fin l → RPoly) := inferInstance
  have h1 := card_sigma_set _ hu X _ (matrix_card E m seed hk hl)
  have h2 := card_sigma_set _ hu (fun _ => True) _ (matrix_card E m seed hk hl)
  have e : Nat.card {B : Fin k → Fin l → Fin (m * 7) → U8 // ∃ A, PMat.expandA (E.withMatrix seed B) m k l seed = .ok A} =
      Nat.card {B : Fin k → Fin l → Fin (m * 7) → U8 // ∃ a : Fin k → Fin l → RPoly, ((∃ A, PMat.expandA (E.withMatrix seed B) m k l seed = .ok A) ∧ IsMatrixOf (E.withMatrix seed B) seed a) ∧ True} := by
    refine Nat.card_congr (Equiv.subtypeEquivRight fun B => ⟨?_, fun h => h.choose_spec.1.1⟩)
    rintro ⟨A, hA⟩
    obtain ⟨a, ha⟩ := PMat.Is.exists A
    exact ⟨a, ⟨⟨A, hA⟩, isMatrixOf_of hA ha⟩, trivial⟩
  rw [e, h1, h2, Nat.card_congr (Equiv.subtypeUnivEquiv fun _ : Fin k → Fin l → RPoly => trivial)]
  ring

theorem sets_bound {k l : Nat} (E : Ext) (m : Nat) (seed : List U8) (hk : k ≤ 256) (hl : l ≤ 256) (X : (Fin k → Fin l → RPoly) → Prop) (y : Nat)
    (h : Nat.card {a // X a} * y ≤ Nat.card (Fin k → Fin l → RPoly)) :
    Nat.card {B : Fin k → Fin l → Fin (m * 7) → U8 // ∃ a : Fin k → Fin l → RPoly, ((∃ A, PMat.expandA (E.withMatrix seed B) m k l seed = .ok A) ∧ IsMatrixOf (E.withMatrix seed B) seed a) ∧ X a} * y ≤
      Nat.card {B : Fin k → Fin l → Fin (m * 7) → U8 // ∃ A, PMat.expandA (E.withMatrix seed B) m k l seed = .ok A} := by
  have h1 := C85_sets E m seed hk hl X
  have hT : 0 < Nat.card (Fin k → Fin l → RPoly) := by rw [Nat.card_eq_fintype_card]; exact Fintype.card_pos
  generalize Nat.card (Fin k → Fin l → RPoly) = T at *
  generalize Nat.card {a // X a} = Z at *
  generalize Nat.card {B : Fin k → Fin l → Fin (m * 7) → U8 // ∃ A, PMat.expandA (E.withMatrix seed B) m k l seed = .ok A} = N at *
  generalize Nat.card {B : Fin k → Fin l → Fin (m * 7) → U8 // _} = Y at *
  refine Nat.le_of_mul_le_mul_right ?_ hT
  calc Y * y * T = Y * T * y := by ring
    _ = Z * y * N := by rw [h1]; ring
    _ ≤ T * N := Nat.mul_le_mul_right _ h
    _ = N * T := Nat.mul_comm _ _

/-- C85: in particular, C84 holds for the matrices the library expands: of all streams for which matrix expansion ends, for at most one 2^1022-th there is a commitment that is made from
more than one 2^512-th of the noise of a signing attempt. -/
theorem C85_commitments (P : Par) (hP : P = raccoon128 ∨ P = raccoon192 ∨ P = raccoon256) (hν : 0 < q / 2 ^ P.νw) (d : Nat) (hd : ValidShares d) (E : Ext) (m : Nat) (seed : List U8) :
    Nat.card {B : Fin P.k → Fin P.l → Fin (m * 7) → U8 // ∃ a : Fin P.k → Fin P.l → RPoly, ((∃ A, PMat.expandA (E.withMatrix seed B) m P.k P.l seed = .ok A) ∧ IsMatrixOf (E.withMatrix seed B) seed a) ∧
        ¬ Unpredictable P.νw (uwOf d) (Fin (repOf d) × Fin d) hν 512 a} * 2 ^ 1022 ≤
      Nat.card {B : Fin P.k → Fin P.l → Fin (m * 7) → U8 // ∃ A, PMat.expandA (E.withMatrix seed B) m P.k P.l seed = .ok A} := by
  have hk : P.k ≤ 256 := by rcases hP with rfl | rfl | rfl <;> decide
  have hl : P.l ≤ 256 := by rcases hP with rfl | rfl | rfl <;> decide
  exact sets_bound E m seed hk hl _ _ (C84_commitments P hP hν d hd)

end Raccoon
