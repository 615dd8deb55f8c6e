import Verif.Proofs.Noise
/-!
# C17–C19: the samplers (`polynomial/poly.hpp`, `polynomial/masked_poly.hpp`)
-/
namespace Raccoon
attribute [-instance] Monoid.toNPow

/-! ### C17 -/

/-- C17: `sampleQ` examining at most `fuel` words returns exactly the polynomial of the first 512 acceptable words of the
SHAKE256 stream of `hdr ‖ seed` if there are that many, and otherwise has not finished; it is never undefined. -/
theorem C17_sampleQ_exact (E : Ext) (fuel : Nat) (hdr seed : List U8) :
    Poly.sampleQ E fuel hdr seed =
      if 512 ≤ (accepted (E.shake256 (hdr ++ seed)) fuel).length then .ok (listPoly (accepted (E.shake256 (hdr ++ seed)) fuel))
      else .nofuel := sampleQ_eq E fuel hdr seed

/-- C17: every coefficient is canonical. -/
theorem C17_sampleQ_canonical (E : Ext) (fuel : Nat) (hdr seed : List U8) (p : Poly)
    (h : Poly.sampleQ E fuel hdr seed = .ok p) : p.Can := sampleQ_can h

/-- C17: it terminates iff the stream contains 512 acceptable words, and the result does not depend on the budget. -/
theorem C17_sampleQ_terminates (E : Ext) (hdr seed : List U8) :
    ((∃ fuel p, Poly.sampleQ E fuel hdr seed = .ok p) ↔ ∃ m, 512 ≤ (accepted (E.shake256 (hdr ++ seed)) m).length) ∧
    (∀ fuel fuel' p p', Poly.sampleQ E fuel hdr seed = .ok p → Poly.sampleQ E fuel' hdr seed = .ok p' → p = p') := by
  constructor
  · constructor
    · rintro ⟨fuel, p, h⟩
      rw [sampleQ_eq] at h
      split at h
      · exact ⟨fuel, by assumption⟩
      · cases h
    · rintro ⟨m, h⟩
      exact ⟨m, _, by rw [sampleQ_eq, if_pos h]⟩
  · intro fuel fuel' p p' h h'
    have h1 := sampleQ_mono (Nat.le_max_left fuel fuel') h
    have h2 := sampleQ_mono (Nat.le_max_right fuel fuel') h'
    exact Res.ok.inj (h1.symm.trans h2)

/-- Non-vacuity: on a stream of zero bytes 512 words suffice. -/
example (hdr seed : List U8) : ∃ p, Poly.sampleQ ⟨fun _ _ => 0, fun _ _ => 0, id, id, 0⟩ 512 hdr seed = .ok p := by
  have : accepted (fun _ => (0 : U8)) 512 = List.replicate 512 0 := by
    unfold accepted
    have e : qWord (fun _ => (0 : U8)) = fun _ => 0 := by
      funext j; unfold qWord streamWord; rfl
    rw [e, List.map_const', List.length_range, List.filter_replicate]
    rfl
  rw [sampleQ_eq]
  show ∃ p, (if 512 ≤ (accepted (fun _ => (0 : U8)) 512).length then _ else _) = _
  rw [this, List.length_replicate, if_pos (Nat.le_refl _)]
  exact ⟨_, rfl⟩

/-! ### C18 -/

/-- C18: the returned challenge has exactly ω non-zero coefficients, all of them 1 or q−1. -/
theorem C18_weight (E : Ext) (fuel ω : Nat) (cHash : List U8) (c : Poly) (h : Poly.chalPoly E fuel ω cHash = .ok c) :
    (Finset.univ.filter fun i : Fin 512 => (c[i.val]).raw.toNat ≠ 0).card = ω ∧
    ∀ i (hi : i < 512), (c[i]).raw.toNat = 0 ∨ (c[i]).raw.toNat = 1 ∨ (c[i]).raw.toNat = q - 1 := by
  have hh := chalPoly_eq E fuel ω cHash _ rfl
  by_cases hc : ω ≤ chalCount (E.shake256 ([0x63, BitVec.ofNat 8 ω, 0, 0, 0, 0, 0, 0] ++ cHash)) fuel
  · obtain ⟨m, -, hm, e⟩ := hh.1 hc
    rw [← Res.ok.inj (e.symm.trans h)]
    clear e h hh hc
    generalize E.shake256 ([0x63, BitVec.ofNat 8 ω, 0, 0, 0, 0, 0, 0] ++ cHash) = s at hm
    constructor
    · rw [← hm, ← chalSpec_weight]
      apply congrArg
      apply Finset.filter_congr
      intro i _
      constructor
      · intro h0 h1; apply h0; rw [h1]; rfl
      · intro h0 h1; apply h0; exact Zq.ext_nat h1
    · intro i hi
      rw [chalSpec_get _ _ _ hi]
      split
      · unfold chalSign; split <;> simp
      · left; rfl
  · rw [hh.2 hc] at h; cases h

/-- C18: exact result: signs at the first occurrences of the positions in the stream of `'c' ‖ ω ‖ 0⁶ ‖ c_hash`, stopping when
ω distinct positions were met; it terminates iff the stream mentions ω distinct positions, and is never undefined. -/
theorem C18_exact (E : Ext) (fuel ω : Nat) (cHash : List U8) (s : Nat → U8)
    (hs : s = E.shake256 ([0x63, BitVec.ofNat 8 ω, 0, 0, 0, 0, 0, 0] ++ cHash)) :
    (ω ≤ chalCount s fuel → ∃ m, m ≤ fuel ∧ chalCount s m = ω ∧ Poly.chalPoly E fuel ω cHash = .ok (chalSpec s m)) ∧
    (¬ ω ≤ chalCount s fuel → Poly.chalPoly E fuel ω cHash = .nofuel) := chalPoly_eq E fuel ω cHash s hs

/-- C18: the result does not depend on the budget. -/
theorem C18_deterministic (E : Ext) (fuel fuel' ω : Nat) (cHash : List U8) (c c' : Poly)
    (h : Poly.chalPoly E fuel ω cHash = .ok c) (h' : Poly.chalPoly E fuel' ω cHash = .ok c') : c = c' := by
  have h1 := chalPoly_mono (Nat.le_max_left fuel fuel') h
  have h2 := chalPoly_mono (Nat.le_max_right fuel fuel') h'
  exact Res.ok.inj (h1.symm.trans h2)

/-- Non-vacuity: a stream that addresses positions 0, 1, 2, … -/
example : ∃ c, Poly.chalPoly ⟨fun _ _ => 0, fun _ i => BitVec.ofNat 8 (if i % 2 = 0 then i else i / 256), id, id, 0⟩ 19 19 [] = .ok c := by
  obtain ⟨m, -, -, e⟩ := (C18_exact ⟨fun _ _ => 0, fun _ i => BitVec.ofNat 8 (if i % 2 = 0 then i else i / 256), id, id, 0⟩ 19 19 []
    (fun i => BitVec.ofNat 8 (if i % 2 = 0 then i else i / 256)) rfl).1 (by decide +kernel)
  exact ⟨_, e⟩

/-! ### C19 -/

/-- C19: coefficient `i` is the two's complement reading (`bmod 2^u`) of the `i`-th ⌈u/8⌉-byte word of the stream;
always defined. -/
theorem C19_sampleU_exact (E : Ext) (u : Nat) (hu : 0 < u) (hu' : u ≤ 63) (hdr seed : List U8) :
    MPoly.sampleU E u hdr seed =
      .ok (Vector.ofFn fun i : Fin 512 => ((streamWord (E.shake256 (hdr ++ seed)) ((u + 7) / 8) i.val : Nat) : Int).bmod (2 ^ u)) :=
  sampleU_eq E hu hu' hdr seed

/-- C19: all coefficients lie in [-2^(u-1), 2^(u-1)). -/
theorem C19_sampleU_range (E : Ext) (u : Nat) (hu : 0 < u) (hu' : u ≤ 63) (hdr seed : List U8) (f : Vector Int 512)
    (h : MPoly.sampleU E u hdr seed = .ok f) (i : Nat) (hi : i < 512) :
    -(2 ^ (u - 1) : Int) ≤ f[i] ∧ f[i] < (2 ^ (u - 1) : Int) := by
  rw [sampleU_eq E hu hu'] at h
  rw [← Res.ok.inj h, Vector.getElem_ofFn]
  exact bmod_range _ hu

/-- Non-vacuity: both ends of the interval occur. -/
example : MPoly.sampleUCoeff 6 [0b00100000] = .ok (-32) ∧ MPoly.sampleUCoeff 6 [0b11011111] = .ok 31 := by decide

end Raccoon
