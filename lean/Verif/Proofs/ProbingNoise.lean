import Verif.Proofs.ProbingResp
/-!
# Observing the addition of noise
-/
namespace Raccoon
attribute [-instance] Monoid.toNPow
open Finset

section
variable {R : Type} [AddCommGroup R]

theorem noisy_add {m : Nat} (v v' : Fin (2 ^ m) → R) (n n' : Nat → Fin (2 ^ m) → R) (ρ ρ' : Nat → Fin (maskSchedule m).length → R) : ∀ i s,
    noisy (fun s => v s + v' s) (fun i s => n i s + n' i s) (fun i u => ρ i u + ρ' i u) i s = noisy v n ρ i s + noisy v' n' ρ' i s := by
  intro i
  induction i with
  | zero => intro s; rfl
  | succ i ih =>
    intro s
    show refreshed _ _ s = refreshed _ _ s + refreshed _ _ s
    rw [← refreshed_add]
    refine congrArg (fun f => refreshed f (fun u => ρ i u + ρ' i u) s) (funext fun s => ?_)
    rw [ih s, add_add_add_comm]

theorem NoiseWire.val_add {m : Nat} (v v' : Fin (2 ^ m) → R) (n n' : Nat → Fin (2 ^ m) → R) (ρ ρ' : Nat → Fin (maskSchedule m).length → R) (i : Nat) (x : NoiseWire m) :
    x.val (fun s => v s + v' s) (fun i s => n i s + n' i s) (fun i u => ρ i u + ρ' i u) i = x.val v n ρ i + x.val v' n' ρ' i := by
  cases x with
  | noise s => rfl
  | old s => exact noisy_add v v' n n' ρ ρ' i s
  | ref x =>
    show x.val _ _ = x.val _ _ + x.val _ _
    rw [← Wire.val_add]
    refine congrArg (fun f => x.val f (fun u => ρ i u + ρ' i u)) (funext fun s => ?_)
    rw [noisy_add, add_add_add_comm]

theorem pad_add {rep : Nat} {α : Type} (f g : Fin rep → α → R) : pad (fun i u => f i u + g i u) = fun i u => pad f i u + pad g i u := by
  funext i u
  unfold pad
  by_cases h : i < rep
  · rw [dif_pos h, dif_pos h, dif_pos h]
  · rw [dif_neg h, dif_neg h, dif_neg h]
    exact (add_zero (0 : R)).symm

theorem pad_at {rep : Nat} {α : Type} [Zero α] (f : Fin rep → α) (i : Fin rep) : pad f i.val = f i := dif_pos i.isLt

/-- The parts of the observed places of one repetition. -/
def noiseN {m : Nat} : NoiseWire m → Finset (Fin (2 ^ m)) | .noise s => {s} | _ => ∅
def noiseO {m : Nat} : NoiseWire m → Finset (Fin (2 ^ m)) | .old s => {s} | _ => ∅
def noiseR {m : Nat} : NoiseWire m → Finset (Wire m) | .ref x => {x} | _ => ∅

theorem noise_parts {m : Nat} (P : Finset (NoiseWire m)) : (P.biUnion noiseN).card + (P.biUnion noiseO).card + (P.biUnion noiseR).card ≤ P.card := by
  have h1 := Finset.card_biUnion_le (s := P) (t := noiseN)
  have h2 := Finset.card_biUnion_le (s := P) (t := noiseO)
  have h3 := Finset.card_biUnion_le (s := P) (t := noiseR)
  have h5 : ∑ x ∈ P, (noiseN x).card + ∑ x ∈ P, (noiseO x).card + ∑ x ∈ P, (noiseR x).card = P.card := by
    rw [← Finset.sum_add_distrib, ← Finset.sum_add_distrib, Finset.card_eq_sum_ones]
    refine Finset.sum_congr rfl fun x _ => ?_
    cases x <;> rfl
  omega

/-- What `P` observes in repetition `i`. -/
def atRep {rep m : Nat} (P : Finset (Fin rep × NoiseWire m)) (i : Nat) : Finset (NoiseWire m) := (P.filter fun x => x.1.val = i).image Prod.snd

theorem mem_atRep {rep m : Nat} {P : Finset (Fin rep × NoiseWire m)} {i : Fin rep} {x : NoiseWire m} : x ∈ atRep P i.val ↔ (i, x) ∈ P := by
  unfold atRep
  rw [Finset.mem_image]
  constructor
  · rintro ⟨⟨r', y⟩, hy, rfl⟩
    obtain ⟨h1, h2⟩ := Finset.mem_filter.1 hy
    obtain rfl : r' = i := Fin.ext h2
    exact h1
  · intro h
    exact ⟨(i, x), Finset.mem_filter.2 ⟨h, rfl⟩, rfl⟩

theorem atRep_card {rep m : Nat} (P : Finset (Fin rep × NoiseWire m)) (i : Nat) : (atRep P i).card ≤ (P.filter fun x => x.1.val = i).card := Finset.card_image_le

theorem atRep_two {rep m : Nat} (P : Finset (Fin rep × NoiseWire m)) (i : Nat) : (atRep P i).card + (atRep P (i + 1)).card ≤ P.card := by
  have h1 := atRep_card P i
  have h2 := atRep_card P (i + 1)
  have h3 : ((P.filter fun x => x.1.val = i) ∪ (P.filter fun x => x.1.val = i + 1)).card = (P.filter fun x => x.1.val = i).card + (P.filter fun x => x.1.val = i + 1).card :=
    Finset.card_union_of_disjoint (Finset.disjoint_filter.2 fun x _ e => by omega)
  have h4 : ((P.filter fun x => x.1.val = i) ∪ (P.filter fun x => x.1.val = i + 1)).card ≤ P.card :=
    Finset.card_le_card (Finset.union_subset (Finset.filter_subset _ _) (Finset.filter_subset _ _))
  omega

theorem atRep_sum {rep m : Nat} (P : Finset (Fin rep × NoiseWire m)) : ∑ i : Fin rep, (atRep P i.val).card ≤ P.card := by
  rw [← rows_card P]
  refine Finset.sum_le_sum fun i _ => (atRep_card P i.val).trans (Finset.card_le_card fun x hx => ?_)
  obtain ⟨h1, h2⟩ := Finset.mem_filter.1 hx
  exact Finset.mem_filter.2 ⟨h1, Fin.ext h2⟩

/-- Changes of the sharing and of the noise outside few terms can be moved into any single share at the end, outside a few. -/
theorem noise_move (m rep : Nat) (hrep : 0 < rep) (P : Finset (Fin rep × NoiseWire m)) (h : P.card < 2 ^ m) :
    ∃ (V K : Finset (Fin (2 ^ m))) (I : Finset (Fin rep × Fin (2 ^ m))), V.card ≤ P.card ∧ K.card ≤ P.card ∧ I.card ≤ P.card ∧
    ∀ (δv : Fin (2 ^ m) → R) (δn : Fin rep → Fin (2 ^ m) → R), (∀ s ∈ V, δv s = 0) → (∀ x ∈ I, δn x.1 x.2 = 0) → ∀ kout, kout ∉ K →
    ∃ σ : Fin rep → Fin (maskSchedule m).length → R, (∀ x ∈ P, x.2.val δv (pad δn) (pad σ) x.1.val = 0) ∧
      ∀ s, noisy δv (pad δn) (pad σ) rep s = bump kout (∑ s, δv s + ∑ i, ∑ s, δn i s) s := by
  classical
  choose J hJ1 hJ2 hJ3 using fun i : Nat => hide_move (R := R) m ((atRep P i).biUnion noiseR)
  have hcard : ∀ i, (J i).card + ((atRep P i).biUnion noiseN).card + ((atRep P i).biUnion noiseO).card ≤ (atRep P i).card := fun i => by
    have := noise_parts (atRep P i)
    have := hJ1 i
    omega
  have hk : ∀ i, ∃ k, k ∉ J i ∧ k ∉ (atRep P (i + 1)).biUnion noiseO ∪ J (i + 1) := fun i => by
    have h1 := hcard i
    have h2 := hcard (i + 1)
    have h3 := atRep_two P i
    have h4 := Finset.card_union_le ((atRep P (i + 1)).biUnion noiseO) (J (i + 1))
    exact exists_outside (J i) _ (by omega)
  choose k0 hk01 hk02 using hk
  have hend : (atRep P rep).biUnion noiseO ∪ J rep = ∅ := by
    have e : atRep P rep = ∅ := by
      unfold atRep
      rw [Finset.filter_false_of_mem (fun x _ => by have := x.1.isLt; omega), Finset.image_empty]
    have hJ := hJ1 rep
    rw [e, Finset.biUnion_empty, Finset.card_empty] at hJ
    rw [e, Finset.biUnion_empty, Finset.empty_union]
    exact Finset.card_eq_zero.1 (by omega)
  refine ⟨(atRep P 0).biUnion noiseO ∪ J 0, J (rep - 1), ofRows fun i : Fin rep => (atRep P i.val).biUnion noiseN ∪ J i.val, ?_, ?_, ?_, fun δv δn hv hn kout hkout => ?_⟩
  · have h1 := hcard 0
    have h3 := atRep_two P 0
    have h4 := Finset.card_union_le ((atRep P 0).biUnion noiseO) (J 0)
    omega
  · have h1 := hcard (rep - 1)
    have h3 := atRep_two P (rep - 1)
    omega
  · refine (ofRows_card _).trans (le_trans (Finset.sum_le_sum fun i _ => ?_) (atRep_sum P))
    have h1 := hcard i.val
    have h4 := Finset.card_union_le ((atRep P i.val).biUnion noiseN) (J i.val)
    omega
  · let k : Nat → Fin (2 ^ m) := fun i => if i + 1 = rep then kout else k0 i
    have hk1 : ∀ i, k i ∉ J i := fun i => by
      show (if i + 1 = rep then kout else k0 i) ∉ J i
      by_cases hi : i + 1 = rep
      · rw [if_pos hi, show i = rep - 1 by omega]
        exact hkout
      · rw [if_neg hi]
        exact hk01 i
    have hk2 : ∀ i, k i ∉ (atRep P (i + 1)).biUnion noiseO ∪ J (i + 1) := fun i => by
      show (if i + 1 = rep then kout else k0 i) ∉ _
      by_cases hi : i + 1 = rep
      · rw [hi, hend]
        exact Finset.notMem_empty _
      · rw [if_neg hi]
        exact hk02 i
    -- the change of the shares at the start of each repetition
    let T : Nat → R := fun i => ∑ s, δv s + ∑ j ∈ range i, ∑ s, pad δn j s
    let ε : Nat → Fin (2 ^ m) → R := fun i => match i with
      | 0 => δv
      | i + 1 => bump (k i) (T (i + 1))
    have hεsum : ∀ i, ∑ s, ε i s = T i := fun i => by
      cases i with
      | zero => exact (add_zero _).symm
      | succ i => exact bump_sum _ _
    have hε : ∀ i, ∀ s ∈ (atRep P i).biUnion noiseO ∪ J i, ε i s = 0 := fun i s hs => by
      cases i with
      | zero => exact hv s hs
      | succ i => exact bump_ne (k := k i) (s := s) _ (fun e => hk2 i (e ▸ hs))
    have hnz : ∀ i, ∀ s ∈ (atRep P i).biUnion noiseN ∪ J i, pad δn i s = 0 := fun i s hs => by
      by_cases hi : i < rep
      · rw [show pad δn i = δn ⟨i, hi⟩ from dif_pos hi]
        exact hn (⟨i, hi⟩, s) (mem_ofRows.2 hs)
      · rw [show pad δn i = 0 from dif_neg hi]
        rfl
    choose σ s1 s2 using fun i : Nat => hJ3 i (fun s => ε i s + pad δn i s)
      (fun s hs => by rw [hε i s (Finset.mem_union_right _ hs), hnz i s (Finset.mem_union_right _ hs), add_zero]) (k i) (hk1 i)
    have hstep : ∀ i s, refreshed (fun s => ε i s + pad δn i s) (σ i) s = ε (i + 1) s := fun i s => by
      rw [s2 i s, Finset.sum_add_distrib, hεsum]
      show bump (k i) _ s = bump (k i) _ s
      refine congrArg (fun c => bump (k i) c s) ?_
      show (_ + ∑ j ∈ range i, _) + _ = _ + ∑ j ∈ range (i + 1), _
      rw [Finset.sum_range_succ, add_assoc]
    have hnoisy : ∀ i, i ≤ rep → noisy δv (pad δn) (pad fun i : Fin rep => σ i.val) i = ε i := by
      intro i
      induction i with
      | zero => intro _; rfl
      | succ i ih =>
        intro hi
        funext s
        show refreshed (fun s => noisy δv (pad δn) _ i s + pad δn i s) (pad (fun i : Fin rep => σ i.val) i) s = _
        rw [ih (by omega), show pad (fun i : Fin rep => σ i.val) i = σ i from dif_pos (by omega)]
        exact hstep i s
    refine ⟨fun i => σ i.val, fun x hx => ?_, fun s => ?_⟩
    · obtain ⟨i, x⟩ := x
      have hxi : x ∈ atRep P i.val := mem_atRep.2 hx
      have hno := hnoisy i.val (by omega)
      cases x with
      | noise s => exact hnz i.val s (Finset.mem_union_left _ (Finset.mem_biUnion.2 ⟨_, hxi, Finset.mem_singleton_self _⟩))
      | old s =>
        show noisy _ _ _ i.val s = 0
        rw [hno]
        exact hε i.val s (Finset.mem_union_left _ (Finset.mem_biUnion.2 ⟨_, hxi, Finset.mem_singleton_self _⟩))
      | ref x =>
        show x.val (fun s => noisy _ _ _ i.val s + pad δn i.val s) (pad (fun i : Fin rep => σ i.val) i.val) = 0
        rw [hno, pad_at (fun i : Fin rep => σ i.val)]
        exact s1 i.val x (Finset.mem_biUnion.2 ⟨_, hxi, Finset.mem_singleton_self _⟩)
    · rw [hnoisy rep (le_refl _)]
      obtain ⟨r, rfl⟩ : ∃ r, rep = r + 1 := ⟨rep - 1, by omega⟩
      show bump (if r + 1 = r + 1 then kout else k0 r) (T (r + 1)) s = _
      rw [if_pos rfl]
      refine congrArg (fun c => bump kout c s) ?_
      show _ + ∑ j ∈ range (r + 1), _ = _
      rw [Finset.sum_range]
      refine congrArg (_ + ·) (Finset.sum_congr rfl fun i _ => ?_)
      rw [pad_at]

theorem bump_zero {d : Nat} (k : Fin d) (s : Fin d) : bump k (0 : R) s = 0 := by
  unfold bump
  split <;> rfl

/-- Changes of the sharing and of the noise outside few terms, that leave the total as it is, can be hidden. -/
theorem noise_hide (m rep : Nat) (hrep : 0 < rep) (P : Finset (Fin rep × NoiseWire m)) (h : P.card < 2 ^ m) :
    ∃ (V : Finset (Fin (2 ^ m))) (I : Finset (Fin rep × Fin (2 ^ m))), V.card ≤ P.card ∧ I.card ≤ P.card ∧
    ∀ (δv : Fin (2 ^ m) → R) (δn : Fin rep → Fin (2 ^ m) → R), (∀ s ∈ V, δv s = 0) → (∀ x ∈ I, δn x.1 x.2 = 0) → ∑ s, δv s + ∑ i, ∑ s, δn i s = 0 →
    ∃ σ : Fin rep → Fin (maskSchedule m).length → R, (∀ x ∈ P, x.2.val δv (pad δn) (pad σ) x.1.val = 0) ∧ ∀ s, noisy δv (pad δn) (pad σ) rep s = 0 := by
  obtain ⟨V, K, I, h1, h2, h3, h4⟩ := noise_move (R := R) m rep hrep P h
  obtain ⟨k, hk, -⟩ := exists_outside K ∅ (by rw [Finset.card_empty]; omega)
  refine ⟨V, I, h1, h3, fun δv δn hv hn hsum => ?_⟩
  obtain ⟨σ, s1, s2⟩ := h4 δv δn hv hn k hk
  exact ⟨σ, s1, fun s => by rw [s2 s, hsum, bump_zero]⟩

end

/-! ### the code -/

theorem noiseShare_get (E : Ext) {u κ d iRep idx sidx : Nat} (hu : 0 < u) (hu' : u ≤ 49) (hs : sidx < d) (st : Nat → U8) (pos : Nat)
    (v : MPoly d) (prng : Prng) (hv : MPoly.Can v) (hst : prng.stream = st) (hpos : prng.pos = pos + (iRep * d + sidx) * (κ / 8)) :
    (MPoly.noiseShare E u κ iRep idx sidx (v, prng)).Ok (fun r => ∃ x : Poly, x.Can ∧ x.toZ = (v[sidx]).toZ + toR (noiseAt E u κ d idx st pos iRep sidx) ∧
      r = (v.set sidx x hs, prng.advance (κ / 8))) := by
  unfold MPoly.noiseShare
  show (MPoly.sampleU E u [0x75, BitVec.ofNat 8 iRep, BitVec.ofNat 8 idx, BitVec.ofNat 8 sidx, 0, 0, 0, 0] (prng.read (κ / 8)).1 >>= _).Ok _
  rw [sampleU_eq E hu (by omega), Res.ok_bind]
  show (v.rd sidx >>= _).Ok _
  rw [rd_ok hs, Res.ok_bind]
  have hn := addNoisePoly_spec (hv sidx hs) (n := Vector.ofFn fun i : Fin 512 => ((streamWord (E.shake256 ([0x75, BitVec.ofNat 8 iRep, BitVec.ofNat 8 idx, BitVec.ofNat 8 sidx, 0, 0, 0, 0] ++ (prng.read (κ / 8)).1)) ((u + 7) / 8) i.val : Nat) : Int).bmod (2 ^ u))
    (fun i hi => by rw [Vector.getElem_ofFn]; exact noise_bound hu hu' _)
  refine Res.Ok.bind hn ?_
  rintro x ⟨hx1, hx2⟩
  show (v.wr sidx x >>= _).Ok _
  rw [wr_ok hs, Res.ok_bind]
  have e : toR (fun i : Fin 512 => (Vector.ofFn fun i : Fin 512 => ((streamWord (E.shake256 ([0x75, BitVec.ofNat 8 iRep, BitVec.ofNat 8 idx, BitVec.ofNat 8 sidx, 0, 0, 0, 0] ++ (prng.read (κ / 8)).1)) ((u + 7) / 8) i.val : Nat) : Int).bmod (2 ^ u))[i.val]) = toR (noiseAt E u κ d idx st pos iRep sidx) := by
    refine congrArg toR (funext fun i => ?_)
    rw [Vector.getElem_ofFn, Prng.read_eq, hst, hpos]
    rfl
  exact ⟨_, rfl, x, hx1, by rw [hx2, e], rfl⟩

/-- One repetition: noise on every share, then a refresh. -/
theorem noiseRep_inv (E : Ext) (fuel : Nat) {u κ d iRep idx : Nat} (hu : 0 < u) (hu' : u ≤ 49) (st : Nat → U8) (pos : Nat)
    (v : MPoly d) (prng : Prng) (m : Mrng d) (hv : MPoly.Can v) (hst : prng.stream = st) (hpos : prng.pos = pos + (iRep * d) * (κ / 8))
    (v' : MPoly d) (p' : Prng) (m' : Mrng d) (h : MPoly.noiseRep E fuel u κ idx iRep (v, prng, m) = .ok (v', p', m')) :
    p' = prng.advance (d * (κ / 8)) ∧ ∃ x : MPoly d, MPoly.Can x ∧ (∀ (s : Nat) (hs : s < d), (x[s]).toZ = (v[s]).toZ + toR (noiseAt E u κ d idx st pos iRep s)) ∧
      MPoly.refresh E fuel x m = .ok (v', m') := by
  unfold MPoly.noiseRep at h
  obtain ⟨⟨x, p1⟩, e1, h⟩ := Res.bind_eq_ok.1 h
  obtain ⟨⟨y, m1⟩, e2, h⟩ := Res.bind_eq_ok.1 h
  have hp := Res.ok.inj h
  simp only [Prod.mk.injEq] at hp
  obtain ⟨rfl, rfl, rfl⟩ := hp
  obtain ⟨r, er, h1, h2, h3⟩ := forLoop_Ok1 (Nat.zero_le d) (body := fun sidx s => MPoly.noiseShare E u κ iRep idx sidx s) (s := (v, prng))
    (fun i (r : MPoly d × Prng) => MPoly.Can r.1 ∧ (∀ (s : Nat) (hs : s < d), ((r.1)[s]).toZ = (v[s]).toZ + if s < i then toR (noiseAt E u κ d idx st pos iRep s) else 0) ∧
      r.2 = prng.advance (i * (κ / 8))) ⟨hv, fun s hs => by rw [if_neg (by omega), add_zero], by rw [Nat.zero_mul]; rfl⟩ (by
    rintro i ⟨v', prng'⟩ - hi ⟨h1, h2, h3⟩
    replace h3 : prng' = _ := h3
    refine (noiseShare_get E hu hu' hi st pos v' prng' h1 ?_ ?_).mono ?_
    · rw [h3]; exact hst
    · rw [h3]
      show prng.pos + i * (κ / 8) = _
      rw [hpos, Nat.add_mul, Nat.add_assoc]
    · rintro ⟨v'', prng''⟩ ⟨x, g1, g2, g3⟩
      obtain ⟨rfl, rfl⟩ := Prod.mk.inj g3
      refine ⟨MPoly.can_set h1 hi g1, fun s hs => ?_, ?_⟩
      · show ((v'.set i x hi)[s]).toZ = _
        by_cases hsi : s = i
        · subst hsi
          rw [Vector.getElem_set_self, if_pos (by omega), g2, h2 s hs, if_neg (by omega), add_zero]
        · rw [Vector.getElem_set_ne _ _ (by omega), h2 s hs]
          by_cases hlt : s < i
          · rw [if_pos hlt, if_pos (by omega)]
          · rw [if_neg hlt, if_neg (by omega)]
      · show prng'.advance _ = _
        rw [h3, Prng.advance_advance, Nat.add_mul, Nat.one_mul])
  rw [e1] at er
  obtain rfl := Res.ok.inj er
  exact ⟨h3, x, h1, fun s hs => by rw [h2 s hs, if_pos hs], e2⟩

/-- The shares and generators between the repetitions. -/
theorem addRepNoise_trace (E : Ext) (fuel : Nat) {u κ d rep idx : Nat} (hd : PowTwo d) (hu : 0 < u) (hu' : u ≤ 49)
    (v : MPoly d) (prng : Prng) (m : Mrng d) (hv : MPoly.Can v) (v' : MPoly d) (p' : Prng) (m' : Mrng d)
    (h : MPoly.addRepNoise E fuel u rep κ idx v prng m = .ok (v', p', m')) :
    ∃ (X : Nat → MPoly d) (G : Nat → Mrng d), X 0 = v ∧ X rep = v' ∧ G 0 = m ∧ G rep = m' ∧ (∀ i, i ≤ rep → MPoly.Can (X i)) ∧
      ∀ i, i < rep → ∃ x : MPoly d, MPoly.Can x ∧ (∀ (s : Nat) (hs : s < d), (x[s]).toZ = ((X i)[s]).toZ + toR (noiseAt E u κ d idx prng.stream prng.pos i s)) ∧
        MPoly.refresh E fuel x (G i) = .ok (X (i + 1), G (i + 1)) := by
  unfold MPoly.addRepNoise at h
  suffices H : ∀ n i (y : MPoly d) (p : Prng) (g : Mrng d), i + n = rep → MPoly.Can y → p = prng.advance (i * d * (κ / 8)) →
      forLoop i rep 1 (fun iRep s => MPoly.noiseRep E fuel u κ idx iRep s) (y, p, g) = .ok (v', p', m') →
      ∃ (X : Nat → MPoly d) (G : Nat → Mrng d), X i = y ∧ X rep = v' ∧ G i = g ∧ G rep = m' ∧ (∀ j, i ≤ j → j ≤ rep → MPoly.Can (X j)) ∧
        ∀ j, i ≤ j → j < rep → ∃ x : MPoly d, MPoly.Can x ∧ (∀ (s : Nat) (hs : s < d), (x[s]).toZ = ((X j)[s]).toZ + toR (noiseAt E u κ d idx prng.stream prng.pos j s)) ∧
          MPoly.refresh E fuel x (G j) = .ok (X (j + 1), G (j + 1)) by
    obtain ⟨X, G, h1, h2, h3, h4, h5, h6⟩ := H rep 0 v prng m (by omega) hv (by rw [Nat.zero_mul, Nat.zero_mul]; rfl) h
    exact ⟨X, G, h1, h2, h3, h4, fun i hi => h5 i (Nat.zero_le _) hi, fun i hi => h6 i (Nat.zero_le _) hi⟩
  intro n
  induction n with
  | zero =>
    intro i y p g hi hy hp h
    rw [forLoop_nil (by omega) (by omega)] at h
    have e := Res.ok.inj h
    simp only [Prod.mk.injEq] at e
    obtain ⟨rfl, rfl, rfl⟩ := e
    exact ⟨fun _ => y, fun _ => g, rfl, rfl, rfl, rfl, fun _ _ _ => hy, fun j _ _ => by omega⟩
  | succ n ih =>
    intro i y p g hi hy hp h
    have hlt : i < rep := by omega
    rw [forLoop_cons hlt (by omega)] at h
    obtain ⟨⟨y1, p1, g1⟩, e1, h⟩ := Res.bind_eq_ok.1 h
    obtain ⟨ep, x, hx1, hx2, hx3⟩ := noiseRep_inv E fuel hu hu' prng.stream prng.pos y p g hy (by rw [hp]; rfl) (by rw [hp]; rfl) y1 p1 g1 e1
    have hy1 := MPoly.refresh_spec E fuel hd hx1 g
    rw [hx3] at hy1
    have hy1 : MPoly.Can y1 := hy1.1
    obtain ⟨X, G, k1, k2, k3, k4, k5, k6⟩ := ih (i + 1) y1 p1 g1 (by omega) hy1 (by
      rw [ep, hp, Prng.advance_advance]
      congr 1
      rw [Nat.add_mul, Nat.add_mul, Nat.one_mul]) h
    refine ⟨fun j => if j = i then y else X j, fun j => if j = i then g else G j, if_pos rfl, ?_, if_pos rfl, ?_, fun j hj hj' => ?_, fun j hj hj' => ?_⟩
    · show (if rep = i then y else X rep) = v'
      rw [if_neg (by omega)]
      exact k2
    · show (if rep = i then g else G rep) = m'
      rw [if_neg (by omega)]
      exact k4
    · show MPoly.Can (if j = i then y else X j)
      by_cases hji : j = i
      · rw [if_pos hji]
        exact hy
      · rw [if_neg hji]
        exact k5 j (by omega) hj'
    · by_cases hji : j = i
      · subst hji
        refine ⟨x, hx1, fun s hs => ?_, ?_⟩
        · rw [hx2 s hs]
          simp only [if_true]
        · simp only [if_true]
          rw [if_neg (by omega), if_neg (by omega), k1, k3]
          exact hx3
      · obtain ⟨z, z1, z2, z3⟩ := k6 j (by omega) hj'
        refine ⟨z, z1, fun s hs => ?_, ?_⟩
        · rw [z2 s hs]
          simp only [if_neg hji]
        · simp only [if_neg hji]
          rw [if_neg (by omega), if_neg (by omega)]
          exact z3

end Raccoon
