import Verif.Spec.ProbingLife
import Verif.Proofs.ProbingNoise
import Verif.Proofs.Masked
/-!
# Observing the whole life of a key
-/
namespace Raccoon
attribute [-instance] Monoid.toNPow
open Finset

/-! ### linearity -/

theorem negacyclic_add_right (f g h : RPoly) : negacyclic f (g + h) = negacyclic f g + negacyclic f h :=
  nttR_inj (by rw [nttR_add, nttR_negacyclic, nttR_negacyclic, nttR_negacyclic, nttR_add, mul_add])

theorem negacyclic_zero_right (f : RPoly) : negacyclic f 0 = 0 :=
  nttR_inj (by rw [nttR_negacyclic, nttR_zero, mul_zero])

section
variable {m l k rep : Nat}

/-- Sum of two choices of noise. -/
def ComNoise.plus (n n' : ComNoise m l k rep) : ComNoise m l k rep := ⟨fun j r s => n.x j r s + n'.x j r s, fun i r s => n.y i r s + n'.y i r s⟩

theorem zeroEnc_add (ρ ρ' : Mask m) : refreshed (fun _ => (0 : RPoly)) (fun u => ρ u + ρ' u) = fun s => refreshed (fun _ => 0) ρ s + refreshed (fun _ => 0) ρ' s := by
  funext s
  rw [← refreshed_add]
  refine congrArg (fun f => refreshed f (fun u => ρ u + ρ' u) s) (funext fun _ => (add_zero _).symm)

theorem comX_add (n n' : ComNoise m l k rep) (ρ ρ' : ComMasks m l k rep) (j : Fin l) (s : Fin (2 ^ m)) : comX (n.plus n') (ρ + ρ') j s = comX n ρ j s + comX n' ρ' j s := by
  unfold comX
  rw [← noisy_add]
  show noisy (refreshed (fun _ => 0) fun u => ρ.1 j u + ρ'.1 j u) (pad fun r s => n.x j r s + n'.x j r s) (pad fun r u => ρ.2.1 j r u + ρ'.2.1 j r u) rep s = _
  rw [zeroEnc_add, pad_add, pad_add]

theorem comU_add (a : Fin k → Fin l → RPoly) (n n' : ComNoise m l k rep) (ρ ρ' : ComMasks m l k rep) (i : Fin k) (s : Fin (2 ^ m)) :
    comU a (n.plus n') (ρ + ρ') i s = comU a n ρ i s + comU a n' ρ' i s := by
  unfold comU ringMatVec
  rw [← Finset.sum_add_distrib]
  refine Finset.sum_congr rfl fun j _ => ?_
  dsimp only
  rw [comX_add, negacyclic_add_right]

theorem comT_add (a : Fin k → Fin l → RPoly) (n n' : ComNoise m l k rep) (ρ ρ' : ComMasks m l k rep) (i : Fin k) (s : Fin (2 ^ m)) :
    comT a (n.plus n') (ρ + ρ') i s = comT a n ρ i s + comT a n' ρ' i s := by
  unfold comT
  rw [← noisy_add]
  show noisy (comU a (n.plus n') (ρ + ρ') i) (pad fun r s => n.y i r s + n'.y i r s) (pad fun r u => ρ.2.2 i r u + ρ'.2.2 i r u) rep s = _
  rw [show comU a (n.plus n') (ρ + ρ') i = fun s => comU a n ρ i s + comU a n' ρ' i s from funext fun s => comU_add a n n' ρ ρ' i s, pad_add, pad_add]

theorem ComWire.val_add (a : Fin k → Fin l → RPoly) (n n' : ComNoise m l k rep) (ρ ρ' : ComMasks m l k rep) (x : ComWire m l k rep) :
    x.val a (n.plus n') (ρ + ρ') = x.val a n ρ + x.val a n' ρ' := by
  cases x with
  | zero j x =>
    show x.val (fun _ => 0) (fun u => ρ.1 j u + ρ'.1 j u) = x.val (fun _ => 0) (ρ.1 j) + x.val (fun _ => 0) (ρ'.1 j)
    rw [← Wire.val_add]
    refine congrArg (fun f => x.val f (fun u => ρ.1 j u + ρ'.1 j u)) (funext fun _ => (add_zero _).symm)
  | nx j r x =>
    show x.val (refreshed (fun _ => 0) fun u => ρ.1 j u + ρ'.1 j u) (pad fun r s => n.x j r s + n'.x j r s) (pad fun r u => ρ.2.1 j r u + ρ'.2.1 j r u) r.val = x.val _ _ _ _ + x.val _ _ _ _
    rw [← NoiseWire.val_add, zeroEnc_add, pad_add, pad_add]
  | sh j s => exact comX_add n n' ρ ρ' j s
  | hat j s =>
    show nttR _ = nttR _ + nttR _
    rw [comX_add, nttR_add]
  | prod i j s =>
    show _ * nttR _ = _ * nttR _ + _ * nttR _
    rw [comX_add, nttR_add, mul_add]
  | acc i c s =>
    show ∑ j : Fin l, _ = ∑ j : Fin l, _ + ∑ j : Fin l, _
    rw [← Finset.sum_add_distrib]
    refine Finset.sum_congr rfl fun j _ => ?_
    split
    · rw [comX_add, nttR_add, mul_add]
    · rw [add_zero]
  | ny i r x =>
    show x.val (comU a (n.plus n') (ρ + ρ') i) (pad fun r s => n.y i r s + n'.y i r s) (pad fun r u => ρ.2.2 i r u + ρ'.2.2 i r u) r.val = x.val _ _ _ _ + x.val _ _ _ _
    rw [← NoiseWire.val_add, show comU a (n.plus n') (ρ + ρ') i = fun s => comU a n ρ i s + comU a n' ρ' i s from funext fun s => comU_add a n n' ρ ρ' i s, pad_add, pad_add]

/-! ### hiding a change of the noise of a commitment -/

def comZX : ComWire m l k rep → Finset (Fin l × (Fin rep × NoiseWire m)) | .nx j r x => {(j, (r, x))} | _ => ∅
def comZY : ComWire m l k rep → Finset (Fin k × (Fin rep × NoiseWire m)) | .ny i r x => {(i, (r, x))} | _ => ∅
def comZS : ComWire m l k rep → Finset (Fin (2 ^ m))
  | .sh _ s => {s} | .hat _ s => {s} | .prod _ _ s => {s} | .acc _ _ s => {s} | _ => ∅

theorem com_parts (P : Finset (ComWire m l k rep)) : (P.biUnion comZX).card + (P.biUnion comZY).card + (P.biUnion comZS).card ≤ P.card := by
  have h1 := Finset.card_biUnion_le (s := P) (t := comZX)
  have h2 := Finset.card_biUnion_le (s := P) (t := comZY)
  have h3 := Finset.card_biUnion_le (s := P) (t := comZS)
  have h5 : ∑ x ∈ P, (comZX x).card + ∑ x ∈ P, (comZY x).card + ∑ x ∈ P, (comZS x).card ≤ P.card := by
    rw [← Finset.sum_add_distrib, ← Finset.sum_add_distrib, Finset.card_eq_sum_ones]
    refine Finset.sum_le_sum fun x _ => ?_
    cases x with
    | zero j x => exact Nat.zero_le 1
    | _ => exact le_refl 1
  omega

theorem rowsum_card {l : Nat} {α : Type} [DecidableEq α] (P : Finset (Fin l × α)) : ∑ r, (rowOf P r).card ≤ P.card :=
  (Finset.sum_le_sum fun r _ => rowOf_card P r).trans (rows_card P).le

theorem wire_zero (x : Wire m) : x.val (fun _ => (0 : RPoly)) 0 = 0 := by
  cases x with
  | input s => rfl
  | mask t => rfl
  | share t s =>
    show maskedUpto _ _ _ _ = 0
    unfold maskedUpto
    refine Finset.sum_eq_zero fun u _ => ?_
    split
    · show (if _ then (0 : RPoly) else 0) - (if _ then (0 : RPoly) else 0) = 0
      rw [ite_self, ite_self, sub_zero]
    · rfl

theorem refreshed_zero' (s : Fin (2 ^ m)) : refreshed (fun _ => (0 : RPoly)) (0 : Mask m) s = 0 := by
  unfold refreshed
  rw [maskedShare_upto]
  exact (zero_add _).trans (wire_zero (.share (maskSchedule m).length s))

theorem negacyclic_bump (a : Fin k → Fin l → RPoly) (kk : Fin (2 ^ m)) (X : Fin l → RPoly) (i : Fin k) (s : Fin (2 ^ m)) :
    ringMatVec a (fun j => bump kk (X j) s) i = bump kk (ringMatVec a X i) s := by
  unfold ringMatVec bump
  by_cases h : s = kk
  · simp only [if_pos h]
  · simp only [if_neg h]
    exact Finset.sum_eq_zero fun j _ => negacyclic_zero_right _

theorem com_hide (hrep : 0 < rep) (P : Finset (ComWire m l k rep)) (h : P.card < 2 ^ m) :
    ∃ (K : Finset (Fin (2 ^ m))) (I1 : Finset (Fin l × (Fin rep × Fin (2 ^ m)))) (I2 : Finset (Fin k × (Fin rep × Fin (2 ^ m)))), K.card ≤ P.card ∧ I1.card + I2.card ≤ P.card ∧
    ∀ (a : Fin k → Fin l → RPoly) (δ : ComNoise m l k rep), (∀ x ∈ I1, δ.x x.1 x.2.1 x.2.2 = 0) → (∀ x ∈ I2, δ.y x.1 x.2.1 x.2.2 = 0) →
      (∀ i, ringMatVec a δ.xSum i + δ.ySum i = 0) → ∀ kout, kout ∉ K →
    ∃ σ : ComMasks m l k rep, (∀ x ∈ P, x.val a δ σ = 0) ∧ (∀ i s, comT a δ σ i s = 0) ∧ ∀ j s, comX δ σ j s = bump kout (δ.xSum j) s := by
  classical
  have hp := com_parts P
  have hx := rowsum_card (P.biUnion comZX)
  have hy := rowsum_card (P.biUnion comZY)
  choose V1 K1 I1 a1 a2 a3 a4 using fun j : Fin l => noise_move (R := RPoly) m rep hrep (rowOf (P.biUnion comZX) j) (by have := row_card_le (P.biUnion comZX) j; omega)
  choose V2 K2 I2 b1 b2 b3 b4 using fun i : Fin k => noise_move (R := RPoly) m rep hrep (rowOf (P.biUnion comZY) i) (by have := row_card_le (P.biUnion comZY) i; omega)
  have hk2 : ∀ i : Fin k, ∃ kk, kk ∉ K2 i ∧ kk ∉ (∅ : Finset (Fin (2 ^ m))) := fun i => exists_outside (K2 i) ∅ (by
    have := b2 i
    have := row_card_le (P.biUnion comZY) i
    rw [Finset.card_empty]; omega)
  choose k2 hk2 _ using hk2
  refine ⟨univ.biUnion K1 ∪ univ.biUnion V2 ∪ P.biUnion comZS, ofRows I1, ofRows I2, ?_, ?_, fun a δ h1 h2 hT kout hk => ?_⟩
  · have e1 := Finset.card_union_le (univ.biUnion K1 ∪ univ.biUnion V2) (P.biUnion comZS)
    have e2 := Finset.card_union_le (univ.biUnion K1) (univ.biUnion V2)
    have e3 : (univ.biUnion K1).card ≤ ∑ j, (rowOf (P.biUnion comZX) j).card := Finset.card_biUnion_le.trans (Finset.sum_le_sum fun j _ => a2 j)
    have e4 : (univ.biUnion V2).card ≤ ∑ i, (rowOf (P.biUnion comZY) i).card := Finset.card_biUnion_le.trans (Finset.sum_le_sum fun i _ => b1 i)
    omega
  · have e3 : (ofRows I1).card ≤ ∑ j, (rowOf (P.biUnion comZX) j).card := (ofRows_card I1).trans (Finset.sum_le_sum fun j _ => a3 j)
    have e4 : (ofRows I2).card ≤ ∑ i, (rowOf (P.biUnion comZY) i).card := (ofRows_card I2).trans (Finset.sum_le_sum fun i _ => b3 i)
    omega
  · rw [Finset.mem_union, Finset.mem_union] at hk
    push Not at hk
    obtain ⟨⟨k1, k3⟩, k4⟩ := hk
    have k1 : ∀ j, kout ∉ K1 j := fun j hj => k1 (Finset.mem_biUnion.2 ⟨j, mem_univ _, hj⟩)
    have k3 : ∀ i, kout ∉ V2 i := fun i hi => k3 (Finset.mem_biUnion.2 ⟨i, mem_univ _, hi⟩)
    choose σ1 s1 s2 using fun j : Fin l => a4 j (fun _ => 0) (δ.x j) (fun _ _ => rfl) (fun x hx => h1 (j, x) (mem_ofRows.2 hx)) kout (k1 j)
    have eU : ∀ i s, ringMatVec a (fun j => noisy (fun _ => 0) (pad (δ.x j)) (pad (σ1 j)) rep s) i = bump kout (ringMatVec a δ.xSum i) s := fun i s => by
      rw [← negacyclic_bump]
      refine congrArg (fun f => ringMatVec a f i) (funext fun j => ?_)
      rw [s2 j s, Finset.sum_const_zero, zero_add]
      rfl
    choose σ2 t1 t2 using fun i : Fin k => b4 i (fun s => bump kout (ringMatVec a δ.xSum i) s) (δ.y i)
      (fun s hs => bump_ne (k := kout) (s := s) _ (fun e => k3 i (e ▸ hs))) (fun x hx => h2 (i, x) (mem_ofRows.2 hx)) (k2 i) (hk2 i)
    have ez : refreshed (fun _ => (0 : RPoly)) (0 : Mask m) = fun _ => 0 := funext fun s => refreshed_zero' s
    have eX : ∀ j s, comX δ (((fun _ => 0), σ1, σ2) : ComMasks m l k rep) j s = bump kout (δ.xSum j) s := fun j s => by
      unfold comX
      show noisy (refreshed (fun _ => 0) 0) (pad (δ.x j)) (pad (σ1 j)) rep s = _
      rw [ez, s2 j s, Finset.sum_const_zero, zero_add]
      rfl
    have eU' : ∀ i, comU a δ (((fun _ => 0), σ1, σ2) : ComMasks m l k rep) i = fun s => bump kout (ringMatVec a δ.xSum i) s := fun i => by
      funext s
      unfold comU
      rw [← negacyclic_bump]
      exact congrArg (fun f => ringMatVec a f i) (funext fun j => eX j s)
    refine ⟨((fun _ => 0), σ1, σ2), fun x hx => ?_, fun i s => ?_, eX⟩
    · have hs0 : ∀ s ∈ P.biUnion comZS, ∀ j, comX δ (((fun _ => 0), σ1, σ2) : ComMasks m l k rep) j s = 0 := fun s hs j => by
        rw [eX j s]
        exact bump_ne (k := kout) (s := s) _ (fun e => k4 (e ▸ hs))
      cases x with
      | zero j x => exact wire_zero x
      | nx j r x =>
        show x.val (refreshed (fun _ => 0) 0) (pad (δ.x j)) (pad (σ1 j)) r.val = 0
        rw [ez]
        exact s1 j (r, x) (mem_rowOf.2 (Finset.mem_biUnion.2 ⟨_, hx, Finset.mem_singleton_self _⟩))
      | sh j s => exact hs0 s (Finset.mem_biUnion.2 ⟨_, hx, Finset.mem_singleton_self _⟩) j
      | hat j s =>
        show nttR _ = 0
        rw [hs0 s (Finset.mem_biUnion.2 ⟨_, hx, Finset.mem_singleton_self _⟩) j, nttR_zero]
      | prod i j s =>
        show _ * nttR _ = 0
        rw [hs0 s (Finset.mem_biUnion.2 ⟨_, hx, Finset.mem_singleton_self _⟩) j, nttR_zero, mul_zero]
      | acc i c s =>
        show ∑ j : Fin l, _ = 0
        refine Finset.sum_eq_zero fun j _ => ?_
        rw [hs0 s (Finset.mem_biUnion.2 ⟨_, hx, Finset.mem_singleton_self _⟩) j, nttR_zero, mul_zero, ite_self]
      | ny i r x =>
        show x.val (comU a δ _ i) (pad (δ.y i)) (pad (σ2 i)) r.val = 0
        rw [eU']
        exact t1 i (r, x) (mem_rowOf.2 (Finset.mem_biUnion.2 ⟨_, hx, Finset.mem_singleton_self _⟩))
    · unfold comT
      show noisy (comU a δ _ i) (pad (δ.y i)) (pad (σ2 i)) rep s = 0
      rw [eU', t2 i s, bump_sum]
      have := hT i
      unfold ComNoise.ySum at this
      rw [this, bump_zero]

end

/-! ### hiding a change of the secret and of the ephemeral in a response -/

/-- The places inside the refresh of the secret. -/
def respS {m l : Nat} : Fin l × RespWire m → Finset (Fin l × Wire m) | (j, .s x) => {(j, x)} | _ => ∅

theorem resp_move (m l : Nat) (P : Finset (Fin l × RespWire m)) : ∃ I J K : Finset (Fin (2 ^ m)), I.card ≤ (P.biUnion respS).card ∧ J.card ≤ P.card ∧ K.card ≤ P.card ∧
    ∀ (c : RPoly) (δa δb : Fin l → Fin (2 ^ m) → RPoly), (∀ j, ∀ s ∈ I, δa j s = 0) → (∀ j, ∀ s ∈ J, δb j s = 0) → (∀ j, (∑ s, δa j s) * c + ∑ s, δb j s = 0) → ∀ kout, kout ∉ K →
    ∃ σ : Fin l → Masks3 m RPoly, (∀ x ∈ P, x.2.val c (δa x.1) (δb x.1) (σ x.1) = 0) ∧ (∀ j s, respOut c (δa j) (δb j) (σ j) s = 0) ∧
      ∀ j s, refreshed (δa j) (σ j 0) s = bump kout (∑ s, δa j s) s := by
  classical
  let fs : RespWire m → Finset (Wire m) := fun x => match x with
    | .s x => {x}
    | _ => ∅
  let fr : RespWire m → Finset (Wire m) := fun x => match x with
    | .r x => {x}
    | _ => ∅
  let fo : RespWire m → Finset (Fin (2 ^ m)) := fun x => match x with
    | .sOut i => {i}
    | .rOut i => {i}
    | .prod i => {i}
    | _ => ∅
  have hcard : ∀ j, ((rowOf P j).biUnion fs).card + ((rowOf P j).biUnion fr).card + ((rowOf P j).biUnion fo).card ≤ (rowOf P j).card := fun j => by
    have h1 := Finset.card_biUnion_le (s := rowOf P j) (t := fs)
    have h2 := Finset.card_biUnion_le (s := rowOf P j) (t := fr)
    have h4 := Finset.card_biUnion_le (s := rowOf P j) (t := fo)
    have h5 : ∑ x ∈ rowOf P j, (fs x).card + ∑ x ∈ rowOf P j, (fr x).card + ∑ x ∈ rowOf P j, (fo x).card ≤ (rowOf P j).card := by
      rw [← Finset.sum_add_distrib, ← Finset.sum_add_distrib, Finset.card_eq_sum_ones]
      refine Finset.sum_le_sum fun x _ => ?_
      cases x with
      | z x => exact Nat.zero_le 1
      | _ => exact le_refl 1
    omega
  have hrow := rowsum_card P
  have hrowS : ∀ j, (rowOf P j).biUnion fs = rowOf (P.biUnion respS) j := fun j => by
    ext x
    rw [mem_rowOf, Finset.mem_biUnion, Finset.mem_biUnion]
    constructor
    · rintro ⟨y, hy, hx⟩
      cases y with
      | s y =>
        obtain rfl := Finset.mem_singleton.1 hx
        exact ⟨(j, .s x), mem_rowOf.1 hy, Finset.mem_singleton_self _⟩
      | _ => exact absurd hx (Finset.notMem_empty _)
    · rintro ⟨⟨j', y⟩, hy, hx⟩
      cases y with
      | s y =>
        obtain ⟨rfl, rfl⟩ := Prod.mk.inj (Finset.mem_singleton.1 hx)
        exact ⟨.s x, mem_rowOf.2 hy, Finset.mem_singleton_self _⟩
      | _ => exact absurd hx (Finset.notMem_empty _)
  choose I1 a1 _ a3 using fun j : Fin l => hide_move (R := RPoly) m ((rowOf P j).biUnion fs)
  choose I2 b1 _ b3 using fun j : Fin l => hide_move (R := RPoly) m ((rowOf P j).biUnion fr)
  have big : ∀ f : Fin l → Finset (Fin (2 ^ m)), (∀ j, (f j).card ≤ (rowOf P j).card) → (univ.biUnion f).card ≤ P.card := fun f hf =>
    (Finset.card_biUnion_le.trans (Finset.sum_le_sum fun j _ => hf j)).trans hrow
  refine ⟨univ.biUnion I1, univ.biUnion I2, univ.biUnion fun j => I1 j ∪ I2 j ∪ (rowOf P j).biUnion fo, ?_, big _ fun j => ?_, big _ fun j => ?_, fun c δa δb ha hb hsum kout hk => ?_⟩
  · refine (Finset.card_biUnion_le.trans (Finset.sum_le_sum fun j _ => ?_)).trans (rowsum_card (P.biUnion respS))
    rw [← hrowS j]
    exact a1 j
  · have := hcard j; have := b1 j; omega
  · have := hcard j
    have := a1 j
    have := b1 j
    have := Finset.card_union_le (I1 j ∪ I2 j) ((rowOf P j).biUnion fo)
    have := Finset.card_union_le (I1 j) (I2 j)
    omega
  · have hk' : ∀ j, kout ∉ I1 j ∧ kout ∉ I2 j ∧ kout ∉ (rowOf P j).biUnion fo := fun j => by
      have : kout ∉ I1 j ∪ I2 j ∪ (rowOf P j).biUnion fo := fun e => hk (Finset.mem_biUnion.2 ⟨j, mem_univ _, e⟩)
      rw [Finset.mem_union, Finset.mem_union] at this
      push Not at this
      exact ⟨this.1.1, this.1.2, this.2⟩
    choose ρ0 p1 p2 using fun j : Fin l => a3 j (δa j) (fun s hs => ha j s (Finset.mem_biUnion.2 ⟨j, mem_univ _, hs⟩)) kout (hk' j).1
    choose ρ1 q1 q2 using fun j : Fin l => b3 j (δb j) (fun s hs => hb j s (Finset.mem_biUnion.2 ⟨j, mem_univ _, hs⟩)) kout (hk' j).2.1
    have za : ∀ j, ∀ s ∈ (rowOf P j).biUnion fo, refreshed (δa j) (ρ0 j) s = 0 := fun j s hs => by
      rw [p2 j s, bump_ne (k := kout) (s := s) _ (fun e => (hk' j).2.2 (e ▸ hs))]
    have zb : ∀ j, ∀ s ∈ (rowOf P j).biUnion fo, refreshed (δb j) (ρ1 j) s = 0 := fun j s hs => by
      rw [q2 j s, bump_ne (k := kout) (s := s) _ (fun e => (hk' j).2.2 (e ▸ hs))]
    have zin : ∀ j s, refreshed (δa j) (ρ0 j) s * c + refreshed (δb j) (ρ1 j) s = 0 := fun j s => by
      rw [p2 j s, q2 j s]
      unfold bump
      split
      · exact hsum j
      · rw [zero_mul, add_zero]
    let σ : Fin l → Masks3 m RPoly := fun j i => match i with | 0 => ρ0 j | 1 => ρ1 j | 2 => 0
    have zin' : ∀ j, respIn c (δa j) (δb j) (σ j) = fun _ => 0 := fun j => funext fun s => zin j s
    refine ⟨σ, fun x hx => ?_, fun j s => ?_, fun j s => p2 j s⟩
    · obtain ⟨j, x⟩ := x
      have hx : x ∈ rowOf P j := mem_rowOf.2 hx
      cases x with
      | s x => exact p1 j x (Finset.mem_biUnion.2 ⟨_, hx, Finset.mem_singleton_self _⟩)
      | r x => exact q1 j x (Finset.mem_biUnion.2 ⟨_, hx, Finset.mem_singleton_self _⟩)
      | sOut i => exact za j i (Finset.mem_biUnion.2 ⟨_, hx, Finset.mem_singleton_self _⟩)
      | rOut i => exact zb j i (Finset.mem_biUnion.2 ⟨_, hx, Finset.mem_singleton_self _⟩)
      | prod i =>
        show refreshed (δa j) (ρ0 j) i * c = 0
        rw [za j i (Finset.mem_biUnion.2 ⟨_, hx, Finset.mem_singleton_self _⟩), zero_mul]
      | z x =>
        show x.val (respIn c (δa j) (δb j) (σ j)) (0 : Mask m) = 0
        rw [zin']
        exact wire_zero x
    · unfold respOut
      rw [zin']
      exact refreshed_zero' s

/-! ### the whole life -/

section
variable {m l k rep N : Nat}

theorem pad_add' {α : Type} [AddZeroClass α] {N : Nat} (f g : Fin N → α) (b : Nat) : pad (f + g) b = pad f b + pad g b := by
  unfold pad
  by_cases h : b < N
  · rw [dif_pos h, dif_pos h, dif_pos h]; rfl
  · rw [dif_neg h, dif_neg h, dif_neg h, add_zero]

theorem skShares_zero (H : KeyUse N) (n : LifeNoise m l k rep N) (ρ : LifeMasks m l k rep N) : skShares H n ρ 0 = fun j s => nttR (comX (n 0) (ρ.1 0) j s) := itemOf.eq_1 ..
theorem skShares_succ (H : KeyUse N) (n : LifeNoise m l k rep N) (ρ : LifeMasks m l k rep N) (b : Nat) :
    skShares H n ρ (b + 1) = fun j => refreshed (skShares H n ρ (H.src b) j) (pad ρ.2 b j 0) := itemOf.eq_2 ..

theorem skShares_add (H : KeyUse N) (n n' : LifeNoise m l k rep N) (ρ ρ' : LifeMasks m l k rep N) : ∀ b j s,
    skShares H (fun p => (n p).plus (n' p)) (ρ + ρ') b j s = skShares H n ρ b j s + skShares H n' ρ' b j s := by
  intro b
  induction b using Nat.strongRecOn with
  | _ b ih =>
    intro j s
    cases b with
    | zero =>
      rw [skShares_zero, skShares_zero, skShares_zero]
      show nttR (comX ((n 0).plus (n' 0)) (ρ.1 0 + ρ'.1 0) j s) = nttR _ + nttR _
      rw [comX_add, nttR_add]
    | succ b =>
      rw [skShares_succ, skShares_succ, skShares_succ]
      show refreshed (skShares H _ _ (H.src b) j) (pad (ρ.2 + ρ'.2) b j 0) s = refreshed _ _ s + refreshed _ _ s
      rw [← refreshed_add, show skShares H (fun p => (n p).plus (n' p)) (ρ + ρ') (H.src b) j = fun s => skShares H n ρ (H.src b) j s + skShares H n' ρ' (H.src b) j s from
        funext fun s => ih _ (by have := H.older b; omega) j s, pad_add']
      rfl

theorem KeyOp.see_add (o : KeyOp) (a a' b b' : Fin (2 ^ m) → RPoly) (ρ ρ' : Masks3 m RPoly) (x : RespWire m) :
    o.see (fun s => a s + a' s) (fun s => b s + b' s) (ρ + ρ') x = o.see a b ρ x + o.see a' b' ρ' x := by
  cases o with
  | sign c => exact RespWire.val_add _ a a' b b' ρ ρ' x
  | refresh =>
    cases x with
    | s x => exact Wire.val_add a a' _ _ x
    | sOut i => exact refreshed_add a a' _ _ i
    | _ => exact (add_zero _).symm

theorem KeyOp.seeOut_add (o : KeyOp) (a a' b b' : Fin (2 ^ m) → RPoly) (ρ ρ' : Masks3 m RPoly) (s : Fin (2 ^ m)) :
    o.seeOut (fun s => a s + a' s) (fun s => b s + b' s) (ρ + ρ') s = o.seeOut a b ρ s + o.seeOut a' b' ρ' s := by
  cases o with
  | sign c => exact respOut_add _ a a' b b' ρ ρ' s
  | refresh => exact (add_zero _).symm

theorem LifeWire.val_add (a : Fin k → Fin l → RPoly) (H : KeyUse N) (n n' : LifeNoise m l k rep N) (ρ ρ' : LifeMasks m l k rep N) (x : LifeWire m l k rep N) :
    x.val a H (fun p => (n p).plus (n' p)) (ρ + ρ') = x.val a H n ρ + x.val a H n' ρ' := by
  have eb : ∀ (b : Fin N) j, (fun s => nttR (comX ((n b.succ).plus (n' b.succ)) (ρ.1 b.succ + ρ'.1 b.succ) j s)) =
      fun s => nttR (comX (n b.succ) (ρ.1 b.succ) j s) + nttR (comX (n' b.succ) (ρ'.1 b.succ) j s) := fun b j => funext fun s => by rw [comX_add, nttR_add]
  have ea : ∀ (b : Fin N) j, skShares H (fun p => (n p).plus (n' p)) (ρ + ρ') (H.src b.val) j = fun s => skShares H n ρ (H.src b.val) j s + skShares H n' ρ' (H.src b.val) j s := fun b j =>
    funext fun s => skShares_add H n n' ρ ρ' _ j s
  cases x with
  | com p x =>
    unfold LifeWire.val
    dsimp only
    split
    · exact ComWire.val_add a (n p) (n' p) (ρ.1 p) (ρ'.1 p) x
    · exact (add_zero _).symm
  | comOut p i s =>
    unfold LifeWire.val
    dsimp only
    split
    · exact comT_add a (n p) (n' p) (ρ.1 p) (ρ'.1 p) i s
    · exact (add_zero _).symm
  | resp b j x =>
    show (H.op b).see (skShares H _ _ (H.src b.val) j) (fun s => nttR (comX ((n b.succ).plus (n' b.succ)) (ρ.1 b.succ + ρ'.1 b.succ) j s)) (ρ.2 b j + ρ'.2 b j) x = (H.op b).see _ _ _ _ + (H.op b).see _ _ _ _
    rw [eb, ea, ← KeyOp.see_add]
  | respOut b j s =>
    show (H.op b).seeOut (skShares H _ _ (H.src b.val) j) (fun s => nttR (comX ((n b.succ).plus (n' b.succ)) (ρ.1 b.succ + ρ'.1 b.succ) j s)) (ρ.2 b j + ρ'.2 b j) s =
      (H.op b).seeOut _ _ _ s + (H.op b).seeOut _ _ _ s
    rw [eb, ea, ← KeyOp.seeOut_add]

def lifeC : LifeWire m l k rep N → Finset (ComWire m l k rep) | .com _ x => {x} | _ => ∅
def lifeR : LifeWire m l k rep N → Finset (Fin l × RespWire m) | .resp _ j x => {(j, x)} | _ => ∅

/-- What is observed of the commitment, and of the response, of phase `p`. -/
def phC (P : Finset (LifeWire m l k rep N)) (p : Nat) : Finset (ComWire m l k rep) := (P.filter fun x => x.phase = p).biUnion lifeC
def phR (P : Finset (LifeWire m l k rep N)) (p : Nat) : Finset (Fin l × RespWire m) := (P.filter fun x => x.phase = p).biUnion lifeR

theorem ph_card (P : Finset (LifeWire m l k rep N)) (p : Nat) : (phC P p).card + (phR P p).card ≤ (P.filter fun x => x.phase = p).card := by
  have h1 := Finset.card_biUnion_le (s := P.filter fun x => x.phase = p) (t := lifeC)
  have h2 := Finset.card_biUnion_le (s := P.filter fun x => x.phase = p) (t := lifeR)
  have h5 : ∑ x ∈ P.filter (fun x => x.phase = p), (lifeC x).card + ∑ x ∈ P.filter (fun x => x.phase = p), (lifeR x).card ≤ (P.filter fun x => x.phase = p).card := by
    rw [← Finset.sum_add_distrib, Finset.card_eq_sum_ones]
    refine Finset.sum_le_sum fun x _ => ?_
    cases x with
    | com p x => exact le_refl 1
    | resp p j x => exact le_refl 1
    | _ => exact Nat.zero_le 1
  unfold phC phR
  omega

theorem mem_phC {P : Finset (LifeWire m l k rep N)} {p : Fin (N + 1)} {x : ComWire m l k rep} (h : LifeWire.com p x ∈ P) : x ∈ phC P p.val :=
  Finset.mem_biUnion.2 ⟨_, Finset.mem_filter.2 ⟨h, rfl⟩, Finset.mem_singleton_self _⟩
theorem mem_phR {P : Finset (LifeWire m l k rep N)} {b : Fin N} {j : Fin l} {x : RespWire m} (h : LifeWire.resp b j x ∈ P) : (j, x) ∈ phR P (b.val + 1) :=
  Finset.mem_biUnion.2 ⟨_, Finset.mem_filter.2 ⟨h, rfl⟩, Finset.mem_singleton_self _⟩

theorem phS_card (P : Finset (LifeWire m l k rep N)) (b : Nat) : ((phR P (b + 1)).biUnion respS).card ≤ (P.filter fun x => x.onSecret b = true).card := by
  classical
  let g : LifeWire m l k rep N → Finset (Fin l × Wire m) := fun x => match x with
    | .resp _ j (.s x) => {(j, x)}
    | _ => ∅
  have hg : ∀ x, (g x).card ≤ 1 := fun x => by
    cases x with
    | resp b j x =>
      cases x with
      | s x => exact le_refl 1
      | _ => exact Nat.zero_le 1
    | _ => exact Nat.zero_le 1
  refine le_trans (Finset.card_le_card (t := (P.filter fun x => x.onSecret b = true).biUnion g) fun y hy => ?_) ((Finset.card_biUnion_le.trans (Finset.sum_le_sum fun x _ => hg x)).trans (by simp))
  obtain ⟨⟨j, x⟩, hx, hy⟩ := Finset.mem_biUnion.1 hy
  obtain ⟨w, hw, hx⟩ := Finset.mem_biUnion.1 hx
  obtain ⟨hw1, hw2⟩ := Finset.mem_filter.1 hw
  cases w with
  | resp b' j' x' =>
    obtain ⟨rfl, rfl⟩ := Prod.mk.inj (Finset.mem_singleton.1 hx)
    cases x with
    | s x =>
      have e : b'.val = b := by
        have : b'.val + 1 = b + 1 := hw2
        omega
      exact Finset.mem_biUnion.2 ⟨_, Finset.mem_filter.2 ⟨hw1, decide_eq_true e⟩, hy⟩
    | _ => exact absurd hy (Finset.notMem_empty _)
  | _ => exact absurd hx (Finset.notMem_empty _)

theorem ringMatVec_add (a : Fin k → Fin l → RPoly) (x y : Fin l → RPoly) (i : Fin k) : ringMatVec a (fun j => x j + y j) i = ringMatVec a x i + ringMatVec a y i := by
  unfold ringMatVec
  rw [← Finset.sum_add_distrib]
  exact Finset.sum_congr rfl fun j _ => negacyclic_add_right _ _ _

theorem ComNoise.xSum_plus (n n' : ComNoise m l k rep) : (n.plus n').xSum = fun j => n.xSum j + n'.xSum j := by
  funext j
  show ∑ r, ∑ s, (n.x j r s + n'.x j r s) = ∑ r, ∑ s, n.x j r s + ∑ r, ∑ s, n'.x j r s
  rw [← Finset.sum_add_distrib]
  exact Finset.sum_congr rfl fun r _ => Finset.sum_add_distrib
theorem ComNoise.ySum_plus (n n' : ComNoise m l k rep) : (n.plus n').ySum = fun j => n.ySum j + n'.ySum j := by
  funext j
  show ∑ r, ∑ s, (n.y j r s + n'.y j r s) = ∑ r, ∑ s, n.y j r s + ∑ r, ∑ s, n'.y j r s
  rw [← Finset.sum_add_distrib]
  exact Finset.sum_congr rfl fun r _ => Finset.sum_add_distrib

theorem bump_map (f : RPoly → RPoly) (h0 : f 0 = 0) {d : Nat} (kk : Fin d) (c : RPoly) (s : Fin d) : f (bump kk c s) = bump kk (f c) s := by
  unfold bump
  split
  · rfl
  · exact h0

/-- The change of noise `δ` leaves the public results as they are. -/
structure NoChange (a : Fin k → Fin l → RPoly) (H : KeyUse N) (δ : LifeNoise m l k rep N) : Prop where
  com : ∀ p, H.commits p → ∀ i, ringMatVec a (δ p).xSum i + (δ p).ySum i = 0
  resp : ∀ b c, H.op b = .sign c → ∀ j, negacyclic ((δ 0).xSum j) c + (δ b.succ).xSum j = 0

/-- The few noise terms for a phase. -/
def termsOf (p : Fin (N + 1)) (I1 : Finset (Fin l × (Fin rep × Fin (2 ^ m)))) (I2 : Finset (Fin k × (Fin rep × Fin (2 ^ m)))) : Finset (NoiseTerm m l k rep N) :=
  I1.image (fun y => .x p y.1 y.2.1 y.2.2) ∪ I2.image (fun y => .y p y.1 y.2.1 y.2.2)

theorem termsOf_card (p : Fin (N + 1)) (I1 : Finset (Fin l × (Fin rep × Fin (2 ^ m)))) (I2 : Finset (Fin k × (Fin rep × Fin (2 ^ m)))) :
    (termsOf p I1 I2).card ≤ I1.card + I2.card :=
  (Finset.card_union_le _ _).trans (Nat.add_le_add Finset.card_image_le Finset.card_image_le)

theorem termsOf_phase {p : Fin (N + 1)} {I1 : Finset (Fin l × (Fin rep × Fin (2 ^ m)))} {I2 : Finset (Fin k × (Fin rep × Fin (2 ^ m)))} {x : NoiseTerm m l k rep N}
    (h : x ∈ termsOf p I1 I2) : x.phase = p.val := by
  rcases Finset.mem_union.1 h with h | h
  · obtain ⟨y, -, rfl⟩ := Finset.mem_image.1 h; rfl
  · obtain ⟨y, -, rfl⟩ := Finset.mem_image.1 h; rfl

theorem life_hide (hrep : 0 < rep) (H : KeyUse N) (P : Finset (LifeWire m l k rep N)) (h : FewPlaces P H) :
    ∃ I : Finset (NoiseTerm m l k rep N), (∀ p, (I.filter fun x => x.phase = p).card ≤ (P.filter fun x => x.phase = p).card) ∧
    ∀ (a : Fin k → Fin l → RPoly) (δ : LifeNoise m l k rep N), (∀ x ∈ I, x.val δ = 0) → NoChange a H δ →
    ∃ σ : LifeMasks m l k rep N, ∀ x, x ∈ P ∨ x.Final → x.val a H δ σ = 0 := by
  classical
  have hc : ∀ p, (phC P p).card + (phR P p).card ≤ (P.filter fun x => x.phase = p).card := ph_card P
  have hlt : ∀ p : Fin (N + 1), (P.filter fun x => x.phase = p.val).card < 2 ^ m := fun p => lt_of_le_of_lt (Nat.le_add_right _ _) (h p.val (by omega))
  choose K I1 I2 k1 k2 k3 using fun p : Fin (N + 1) => com_hide (m := m) (l := l) (k := k) (rep := rep) hrep (phC P p.val) (by have := hc p.val; have := hlt p; omega)
  choose Ir Jr Kr r1 r2 r3 r4 using fun b : Fin N => resp_move m l (phR P (b.val + 1))
  -- where the change of the secret sits in sharing `v`, and where the change of the ephemeral of use `b` sits
  have hS : ∀ v : Fin (N + 1), ∃ kk, kk ∉ (Fin.cases (K 0) Kr v : Finset (Fin (2 ^ m))) ∧ kk ∉ univ.biUnion fun b : Fin N => if H.src b.val = v.val then Ir b else ∅ := fun v => exists_outside _ _ (by
    have h1 : (Fin.cases (K 0) Kr v : Finset (Fin (2 ^ m))).card ≤ (P.filter fun x => x.phase = v.val).card := by
      refine Fin.cases ?_ (fun b => ?_) v
      · have := k1 0; have := hc 0
        exact le_trans (k1 0) (le_trans (Nat.le_add_right _ _) (hc 0))
      · exact le_trans (r3 b) (le_trans (Nat.le_add_left _ _) (hc (b.val + 1)))
    have h2 : (univ.biUnion fun b : Fin N => if H.src b.val = v.val then Ir b else ∅).card ≤
        ∑ b : Fin N, (if H.src b.val = v.val then (P.filter fun x => x.onSecret b.val = true).card else 0) := by
      refine Finset.card_biUnion_le.trans (Finset.sum_le_sum fun b _ => ?_)
      by_cases hb : H.src b.val = v.val
      · rw [if_pos hb, if_pos hb]
        exact (r1 b).trans (phS_card P b.val)
      · rw [if_neg hb, if_neg hb]
        exact Nat.zero_le _
    have h3 := h v.val (by omega)
    omega)
  choose kS hS1 hS2 using hS
  have hR : ∀ b : Fin N, ∃ kk, kk ∉ K b.succ ∧ kk ∉ Jr b := fun b => exists_outside _ _ (by
    have h1 := hc (b.val + 1)
    have h2 := hlt b.succ
    have h3 := r2 b
    have h4 : (K b.succ).card ≤ (phC P (b.val + 1)).card := k1 b.succ
    have h5 : (P.filter fun x => x.phase = b.val + 1).card < 2 ^ m := h2
    omega)
  choose kR hR1 hR2 using hR
  let kC : Fin (N + 1) → Fin (2 ^ m) := fun p => Fin.cases (kS 0) kR p
  have hC : ∀ p, kC p ∉ K p := fun p => by
    refine Fin.cases ?_ (fun b => ?_) p
    · exact hS1 0
    · exact hR1 b
  refine ⟨univ.biUnion fun p : Fin (N + 1) => termsOf p (I1 p) (I2 p), fun p => ?_, fun a δ hI hN => ?_⟩
  · by_cases hp : p < N + 1
    · refine le_trans (Finset.card_le_card (t := termsOf ⟨p, hp⟩ (I1 ⟨p, hp⟩) (I2 ⟨p, hp⟩)) fun x hx => ?_) ?_
      · obtain ⟨h1, h2⟩ := Finset.mem_filter.1 hx
        obtain ⟨p', -, h1⟩ := Finset.mem_biUnion.1 h1
        have e : p' = ⟨p, hp⟩ := Fin.ext ((termsOf_phase h1).symm.trans h2)
        subst e
        exact h1
      · have h1 := termsOf_card (m := m) (l := l) (k := k) (rep := rep) (N := N) ⟨p, hp⟩ (I1 ⟨p, hp⟩) (I2 ⟨p, hp⟩)
        have h2 : (I1 ⟨p, hp⟩).card + (I2 ⟨p, hp⟩).card ≤ (phC P p).card := k2 ⟨p, hp⟩
        have := hc p
        omega
    · rw [Finset.filter_false_of_mem (fun x hx => ?_), Finset.card_empty]
      · exact Nat.zero_le _
      · obtain ⟨p', -, h1⟩ := Finset.mem_biUnion.1 hx
        rw [termsOf_phase h1]
        have := p'.isLt
        omega
  · have hm : ∀ p : Fin (N + 1), ∀ x ∈ termsOf p (I1 p) (I2 p), x.val δ = 0 := fun p x hx => hI x (Finset.mem_biUnion.2 ⟨p, mem_univ _, hx⟩)
    have hσ : ∀ p : Fin (N + 1), ∃ σ : ComMasks m l k rep, H.commits p → (∀ x ∈ phC P p.val, x.val a (δ p) σ = 0) ∧ (∀ i s, comT a (δ p) σ i s = 0) ∧
        ∀ j s, comX (δ p) σ j s = bump (kC p) ((δ p).xSum j) s := fun p => by
      by_cases hp : H.commits p
      · obtain ⟨σ, h1⟩ := k3 p a (δ p)
          (fun y hy => hm p (.x p y.1 y.2.1 y.2.2) (Finset.mem_union_left _ (Finset.mem_image.2 ⟨y, hy, rfl⟩)))
          (fun y hy => hm p (.y p y.1 y.2.1 y.2.2) (Finset.mem_union_right _ (Finset.mem_image.2 ⟨y, hy, rfl⟩))) (hN.com p hp) (kC p) (hC p)
        exact ⟨σ, fun _ => h1⟩
      · exact ⟨0, fun e => absurd e hp⟩
    choose σc hσc using hσ
    have hc0 : H.commits 0 := fun b e => absurd e (Fin.succ_ne_zero b).symm
    have eb : ∀ (b : Fin N), H.commits b.succ → ∀ j s, nttR (comX (δ b.succ) (σc b.succ) j s) = bump (kR b) (nttR ((δ b.succ).xSum j)) s := fun b hb j s => by
      rw [(hσc b.succ hb).2.2 j s]
      exact bump_map nttR nttR_zero _ _ s
    -- the change of the secret in sharing `v`
    let D : Fin (N + 1) → Fin l → Fin (2 ^ m) → RPoly := fun v j => bump (kS v) (nttR ((δ 0).xSum j))
    have hsrc : ∀ b : Fin N, H.src b.val < N + 1 := fun b => by have := H.older b.val; omega
    have hIr : ∀ b : Fin N, ∀ j, ∀ s ∈ Ir b, D ⟨H.src b.val, hsrc b⟩ j s = 0 := fun b j s hs =>
      bump_ne (k := kS ⟨H.src b.val, hsrc b⟩) (s := s) _ (fun e => hS2 ⟨H.src b.val, hsrc b⟩ (Finset.mem_biUnion.2 ⟨b, mem_univ _, by
        rw [if_pos rfl, ← e]; exact hs⟩))
    have hop : ∀ b : Fin N, ∃ σ : Fin l → Masks3 m RPoly,
        (∀ x ∈ phR P (b.val + 1), (H.op b).see (D ⟨H.src b.val, hsrc b⟩ x.1) (fun s => nttR (comX (δ b.succ) (σc b.succ) x.1 s)) (σ x.1) x.2 = 0) ∧
        (∀ j s, (H.op b).seeOut (D ⟨H.src b.val, hsrc b⟩ j) (fun s => nttR (comX (δ b.succ) (σc b.succ) j s)) (σ j) s = 0) ∧
        ∀ j s, refreshed (D ⟨H.src b.val, hsrc b⟩ j) (σ j 0) s = D b.succ j s := fun b => by
      cases ho : H.op b with
      | sign c =>
        have hb : H.commits b.succ := fun b' e => by
          obtain rfl := Fin.succ_inj.1 e
          rw [ho]
          exact fun e => nomatch e
        obtain ⟨σ, t1, t2, t3⟩ := r4 b (nttR c) (D ⟨H.src b.val, hsrc b⟩) (fun j s => nttR (comX (δ b.succ) (σc b.succ) j s)) (hIr b)
          (fun j s hs => by rw [eb b hb]; exact bump_ne (k := kR b) (s := s) _ (fun e => hR2 b (e ▸ hs)))
          (fun j => by
            rw [bump_sum, Finset.sum_congr rfl (fun s _ => eb b hb j s), bump_sum, ← nttR_negacyclic, ← nttR_add, hN.resp b c ho j, nttR_zero])
          (kS b.succ) (hS1 b.succ)
        exact ⟨σ, t1, t2, fun j s => (t3 j s).trans (by rw [bump_sum])⟩
      | refresh =>
        obtain ⟨σ, t1, t2, t3⟩ := r4 b 0 (D ⟨H.src b.val, hsrc b⟩) (fun _ _ => 0) (hIr b) (fun _ _ _ => rfl)
          (fun j => by rw [mul_zero, Finset.sum_const_zero, add_zero]) (kS b.succ) (hS1 b.succ)
        refine ⟨σ, fun x hx => ?_, fun j s => rfl, fun j s => (t3 j s).trans (by rw [bump_sum])⟩
        have := t1 x hx
        obtain ⟨j, x⟩ := x
        cases x with
        | s x => exact this
        | sOut i => exact this
        | _ => rfl
    choose σr t1 t2 t3 using hop
    have eS : ∀ v (hv : v < N + 1), ∀ j, skShares H δ (σc, σr) v j = D ⟨v, hv⟩ j := by
      intro v
      induction v using Nat.strongRecOn with
      | _ v ih =>
        intro hv j
        cases v with
        | zero =>
          funext s
          rw [skShares_zero]
          show nttR (comX (δ 0) (σc 0) j s) = _
          rw [(hσc 0 hc0).2.2 j s]
          exact bump_map nttR nttR_zero _ _ s
        | succ b =>
          funext s
          have hb : b < N := by omega
          rw [skShares_succ]
          show refreshed (skShares H δ (σc, σr) (H.src b) j) (pad σr b j 0) s = _
          rw [ih (H.src b) (by have := H.older b; omega) (hsrc ⟨b, hb⟩) j, show pad σr b = σr ⟨b, hb⟩ from dif_pos hb]
          exact t3 ⟨b, hb⟩ j s
    refine ⟨(σc, σr), fun x hx => ?_⟩
    cases x with
    | com p x =>
      unfold LifeWire.val
      dsimp only
      split
      · next hp => exact (hσc p hp).1 x (mem_phC (hx.resolve_right fun e => e))
      · rfl
    | comOut p i s =>
      unfold LifeWire.val
      dsimp only
      split
      · next hp => exact (hσc p hp).2.1 i s
      · rfl
    | resp b j x =>
      show (H.op b).see (skShares H δ (σc, σr) (H.src b.val) j) _ (σr b j) x = 0
      rw [eS _ (hsrc b) j]
      exact t1 b (j, x) (mem_phR (hx.resolve_right fun e => e))
    | respOut b j s =>
      show (H.op b).seeOut (skShares H δ (σc, σr) (H.src b.val) j) _ (σr b j) s = 0
      rw [eS _ (hsrc b) j]
      exact t2 b j s

end

end Raccoon
