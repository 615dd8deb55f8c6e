import Verif.Proofs.LeakTrace2
/-!
# A larger budget never changes the observations of a completed run
-/
namespace Raccoon
open Lk

/-- `p'` is `p` (result and observations), unless `p` has not finished. -/
def Lk.Le (p p' : Lk α) : Prop := p.val = .nofuel ∨ p = p'

namespace Lk.Le
theorem rfl' (p : Lk α) : p.Le p := Or.inr rfl
theorem ok {p p' : Lk α} (h : p.Le p') {a : α} (e : p.val = .ok a) : p = p' := by
  rcases h with h | h
  · rw [h] at e; cases e
  · exact h
theorem bind {x x' : Lk α} {f f' : α → Lk β} (h : x.Le x') (hf : ∀ a, (f a).Le (f' a)) : (x >>= f).Le (x' >>= f') := by
  rcases h with h | rfl
  · exact Or.inl (by rw [val_bind', h]; rfl)
  · cases hx : x.val with
    | ok a =>
      rcases hf a with h | h
      · exact Or.inl (by rw [val_bind', hx]; exact h)
      · refine Or.inr ?_
        show Lk.bind x f = Lk.bind x f'
        unfold Lk.bind
        rw [hx]
        simp only [h]
    | ub =>
      refine Or.inr ?_
      show Lk.bind x f = Lk.bind x f'
      unfold Lk.bind
      rw [hx]
    | nofuel => exact Or.inl (by rw [val_bind', hx]; rfl)
theorem bind_right (x : Lk α) {f f' : α → Lk β} (hf : ∀ a, (f a).Le (f' a)) : (x >>= f).Le (x >>= f') := bind (rfl' x) hf
theorem tick {x x' : Lk α} (e : Ev) (h : x.Le x') : (Lk.tick e x).Le (Lk.tick e x') := by
  rcases h with h | rfl
  · exact Or.inl h
  · exact rfl' _
theorem branch (c : Prop) [Decidable c] {t t' e e' : Lk α} (ht : t.Le t') (he : e.Le e') :
    (Lk.branch c t e).Le (Lk.branch c t' e') := by
  unfold Lk.branch
  apply tick
  split
  · exact ht
  · exact he
theorem forL {σ : Type} {f f' : Nat → σ → Lk σ} (lo hi step : Nat) (hf : ∀ i s, (f i s).Le (f' i s)) (s : σ) :
    (Raccoon.forL lo hi step f s).Le (Raccoon.forL lo hi step f' s) := by
  unfold Raccoon.forL
  refine bind ?_ fun _ => rfl' _
  generalize List.range' lo ((hi - lo + step - 1) / step) step = L
  induction L generalizing s with
  | nil => exact rfl' _
  | cons a L ih =>
    rw [List.foldlM_cons, List.foldlM_cons]
    exact bind (tick _ (hf a s)) fun s => ih s
end Lk.Le
open Lk

theorem sampleQLoopL_le : ∀ (n k : Nat) (s : Poly.SampleQSt), (Poly.sampleQLoopL n s).Le (Poly.sampleQLoopL (n + k) s)
  | 0, 0, s => Le.rfl' _
  | 0, k + 1, s => by
    rw [Nat.zero_add]
    unfold Poly.sampleQLoopL
    exact Le.branch _ (Or.inl rfl) (Le.rfl' _)
  | n + 1, k, s => by
    rw [show n + 1 + k = (n + k) + 1 by omega]
    unfold Poly.sampleQLoopL
    exact Le.branch _ (Le.bind_right _ fun s' => sampleQLoopL_le n k s') (Le.rfl' _)

theorem samplePolyLoopL_le (E : Ext) (idx : Nat) : ∀ (n k : Nat) (m : Mrng d) (p : Poly) (ci : Nat),
    (Poly.samplePolyLoopL E idx n m p ci).Le (Poly.samplePolyLoopL E idx (n + k) m p ci)
  | 0, 0, m, p, ci => Le.rfl' _
  | 0, k + 1, m, p, ci => by
    rw [Nat.zero_add]
    unfold Poly.samplePolyLoopL
    exact Le.branch _ (Or.inl rfl) (Le.rfl' _)
  | n + 1, k, m, p, ci => by
    rw [show n + 1 + k = (n + k) + 1 by omega]
    unfold Poly.samplePolyLoopL
    exact Le.branch _ (Le.bind_right _ fun r => Le.branch _ (Le.bind_right _ fun p' => samplePolyLoopL_le E idx n k _ p' _)
      (samplePolyLoopL_le E idx n k _ _ _)) (Le.rfl' _)

theorem chalLoopL_le (ω : Nat) : ∀ (n k : Nat) (s : Xof × Poly × Nat), (Poly.chalLoopL ω n s).Le (Poly.chalLoopL ω (n + k) s)
  | 0, 0, s => Le.rfl' _
  | 0, k + 1, s => by
    rw [Nat.zero_add]
    unfold Poly.chalLoopL
    exact Le.branch _ (Or.inl rfl) (Le.rfl' _)
  | n + 1, k, s => by
    rw [show n + 1 + k = (n + k) + 1 by omega]
    unfold Poly.chalLoopL
    exact Le.branch _ (Le.bind_right _ fun s' => chalLoopL_le ω n k s') (Le.rfl' _)

variable {fuel fuel' : Nat}

theorem sampleQL_le (hf : fuel ≤ fuel') (E : Ext) (hdr seed : List U8) :
    (Poly.sampleQL E fuel hdr seed).Le (Poly.sampleQL E fuel' hdr seed) := by
  obtain ⟨k, rfl⟩ : ∃ k, fuel' = fuel + k := ⟨fuel' - fuel, by omega⟩
  exact Le.bind_right _ fun _ => Le.bind_right _ fun _ => Le.bind_right _ fun _ => sampleQLoopL_le fuel k _

theorem samplePolynomialL_le (hf : fuel ≤ fuel') (E : Ext) (idx : Nat) (m : Mrng d) :
    (Poly.samplePolynomialL E fuel idx m).Le (Poly.samplePolynomialL E fuel' idx m) := by
  obtain ⟨k, rfl⟩ : ∃ k, fuel' = fuel + k := ⟨fuel' - fuel, by omega⟩
  exact Le.branch _ (Le.rfl' _) (samplePolyLoopL_le E idx fuel k _ _ _)

theorem chalPolyL_le (hf : fuel ≤ fuel') (E : Ext) (ω : Nat) (c : List U8) :
    (Poly.chalPolyL E fuel ω c).Le (Poly.chalPolyL E fuel' ω c) := by
  obtain ⟨k, rfl⟩ : ∃ k, fuel' = fuel + k := ⟨fuel' - fuel, by omega⟩
  exact Le.bind_right _ fun _ => Le.bind_right _ fun _ => chalLoopL_le ω fuel k _

theorem expandAL_le (hf : fuel ≤ fuel') (E : Ext) (k l : Nat) (seed : List U8) :
    (PMat.expandAL E fuel k l seed).Le (PMat.expandAL E fuel' k l seed) :=
  Le.forL _ _ _ (fun _ A => Le.forL _ _ _ (fun _ _ => Le.bind (sampleQL_le hf E _ _) fun _ => Le.rfl' _) A) _

theorem maskPairL_le (hf : fuel ≤ fuel') (E : Ext) (sidx off : Nat) (s : MPoly d × Mrng d) :
    (MPoly.maskPairL E fuel sidx off s).Le (MPoly.maskPairL E fuel' sidx off s) :=
  Le.bind (samplePolynomialL_le hf E _ _) fun _ => Le.rfl' _

theorem zeroEncLoopL_le (hf : fuel ≤ fuel') (E : Ext) : ∀ (n dIdx : Nat) (s : MPoly d × Mrng d),
    (MPoly.zeroEncLoopL E fuel n dIdx s).Le (MPoly.zeroEncLoopL E fuel' n dIdx s)
  | 0, dIdx, s => by unfold MPoly.zeroEncLoopL; exact Le.rfl' _
  | n + 1, dIdx, s => by
    unfold MPoly.zeroEncLoopL
    exact Le.branch _ (Le.bind (Le.forL _ _ _ (fun _ s => Le.forL _ _ _ (fun _ s => maskPairL_le hf E _ _ s) s) _)
      fun s' => zeroEncLoopL_le hf E n _ s') (Le.rfl' _)

theorem zeroEncodingL_le (hf : fuel ≤ fuel') (E : Ext) (m : Mrng d) :
    (MPoly.zeroEncodingL E fuel m).Le (MPoly.zeroEncodingL E fuel' m) := by
  unfold MPoly.zeroEncodingL
  dsimp only
  split
  · exact Le.bind (Le.forL _ _ _ (fun _ s => maskPairL_le hf E _ _ s) _) fun s' => zeroEncLoopL_le hf E _ _ s'
  · exact Le.rfl' _

theorem mrefreshL_le (hf : fuel ≤ fuel') (E : Ext) (a : MPoly d) (m : Mrng d) :
    (MPoly.refreshL E fuel a m).Le (MPoly.refreshL E fuel' a m) :=
  Le.bind (zeroEncodingL_le hf E m) fun _ => Le.rfl' _

theorem maddRepNoiseL_le (hf : fuel ≤ fuel') (E : Ext) (u rep κ idx : Nat) (a : MPoly d) (prng : Prng) (m : Mrng d) :
    (MPoly.addRepNoiseL E fuel u rep κ idx a prng m).Le (MPoly.addRepNoiseL E fuel' u rep κ idx a prng m) :=
  Le.forL _ _ _ (fun _ _ => Le.bind_right _ fun _ => Le.bind (mrefreshL_le hf E _ _) fun _ => Le.rfl' _) _

theorem vzeroEncodingL_le (hf : fuel ≤ fuel') (E : Ext) (rows : Nat) (m : Mrng d) :
    (PVec.zeroEncodingL E fuel rows m).Le (PVec.zeroEncodingL E fuel' rows m) :=
  Le.forL _ _ _ (fun _ _ => Le.bind (zeroEncodingL_le hf E _) fun _ => Le.rfl' _) _

theorem vrefreshL_le (hf : fuel ≤ fuel') (E : Ext) (a : PVec rows d) (m : Mrng d) :
    (PVec.refreshL E fuel a m).Le (PVec.refreshL E fuel' a m) :=
  Le.forL _ _ _ (fun _ _ => Le.bind_right _ fun _ => Le.bind (mrefreshL_le hf E _ _) fun _ => Le.rfl' _) _

theorem vaddRepNoiseL_le (hf : fuel ≤ fuel') (E : Ext) (u rep κ : Nat) (a : PVec rows d) (prng : Prng) (m : Mrng d) :
    (PVec.addRepNoiseL E fuel u rep κ a prng m).Le (PVec.addRepNoiseL E fuel' u rep κ a prng m) :=
  Le.forL _ _ _ (fun _ _ => Le.bind_right _ fun _ => Le.bind (maddRepNoiseL_le hf E _ _ _ _ _ _ _) fun _ => Le.rfl' _) _

theorem compressShareL_le (hf : fuel ≤ fuel') (E : Ext) (κ : Nat) (s : PVec l d) (sidx : Nat) (st : PVec l 1 × List U8 × Prng) :
    (compressShareL E fuel κ s sidx st).Le (compressShareL E fuel' κ s sidx st) :=
  Le.bind_right _ fun _ => Le.bind_right _ fun _ => Le.bind (Le.forL _ _ _ (fun _ _ => Le.bind (sampleQL_le hf E _ _) fun _ =>
    Le.rfl' _) _) fun _ => Le.rfl' _

theorem maskCompressL_le (hf : fuel ≤ fuel') (E : Ext) (κ : Nat) (s : PVec l d) (sc : List U8) (prng : Prng) :
    (maskCompressL E fuel κ s sc prng).Le (maskCompressL E fuel' κ s sc prng) :=
  Le.bind_right _ fun _ => Le.bind (Le.forL _ _ _ (fun _ _ => compressShareL_le hf E _ _ _ _) _) fun _ => Le.rfl' _

theorem maskDecompressL_le (hf : fuel ≤ fuel') (E : Ext) (κ l d : Nat) (sc : List U8) :
    (maskDecompressL E fuel κ l d sc).Le (maskDecompressL E fuel' κ l d sc) :=
  Le.bind_right _ fun _ => Le.forL _ _ _ (fun _ _ => Le.forL _ _ _ (fun _ _ => Le.bind_right _ fun _ =>
    Le.bind (sampleQL_le hf E _ _) fun _ => Le.rfl' _) _) _

theorem skFromBytesL_le (hf : fuel ≤ fuel') (P : Par) (E : Ext) (d : Nat) (b : List U8) :
    (Api.skFromBytesL P E fuel d b).Le (Api.skFromBytesL P E fuel' d b) :=
  Le.bind_right _ fun _ => Le.bind_right _ fun _ => Le.bind_right _ fun _ => Le.bind (maskDecompressL_le hf E _ _ _ _) fun _ =>
    Le.rfl' _

theorem skAsBytesL_le (hf : fuel ≤ fuel') (P : Par) (E : Ext) (sk : SKey P.k P.l d) (entropy b : List U8) :
    (Api.skAsBytesL P E fuel sk entropy b).Le (Api.skAsBytesL P E fuel' sk entropy b) :=
  Le.bind (Le.bind_right _ fun _ => Le.bind_right _ fun _ => Le.bind_right _ fun _ => Le.bind_right _ fun _ =>
    Le.bind (maskCompressL_le hf E _ _ _ _) fun _ => Le.rfl' _) fun _ => Le.rfl' _

theorem refreshL_le (hf : fuel ≤ fuel') (P : Par) (E : Ext) (sk : SKey P.k P.l d) :
    (Api.refreshL P E fuel sk).Le (Api.refreshL P E fuel' sk) :=
  Le.bind (vrefreshL_le hf E _ _) fun _ => Le.rfl' _

theorem generateL_le (hf : fuel ≤ fuel') (P : Par) (uts : List Nat) (E : Ext) (d : Nat) (entropy seed : List U8) :
    (Api.generateL P uts E fuel d entropy seed).Le (Api.generateL P uts E fuel' d entropy seed) :=
  Le.bind_right _ fun _ => Le.bind_right _ fun _ => Le.bind (expandAL_le hf E _ _ _) fun _ => Le.bind (vzeroEncodingL_le hf E _ _)
    fun _ => Le.bind (vaddRepNoiseL_le hf E _ _ _ _ _ _) fun _ => Le.bind_right _ fun _ => Le.bind_right _ fun _ =>
    Le.bind_right _ fun _ => Le.bind (vaddRepNoiseL_le hf E _ _ _ _ _ _) fun _ => Le.rfl' _

theorem signAttemptL_le (hf : fuel ≤ fuel') (P : Par) (E : Ext) (d uw rep : Nat) (A : PMat P.k P.l) (t : PVec P.k 1) (μ : List U8)
    (st : SignSt P.l d) : (signAttemptL P E fuel d uw rep A t μ st).Le (signAttemptL P E fuel' d uw rep A t μ st) :=
  Le.bind (vzeroEncodingL_le hf E _ _) fun _ => Le.bind (vaddRepNoiseL_le hf E _ _ _ _ _ _) fun _ => Le.bind_right _ fun _ =>
  Le.bind_right _ fun _ => Le.bind_right _ fun _ => Le.bind (vaddRepNoiseL_le hf E _ _ _ _ _ _) fun _ => Le.bind_right _ fun _ =>
  Le.bind_right _ fun _ => Le.bind_right _ fun _ => Le.bind (chalPolyL_le hf E _ _) fun _ => Le.bind_right _ fun _ =>
  Le.bind (vrefreshL_le hf E _ _) fun _ => Le.bind (vrefreshL_le hf E _ _) fun _ => Le.bind_right _ fun _ => Le.bind_right _ fun _ =>
  Le.bind (vrefreshL_le hf E _ _) fun _ => Le.rfl' _

theorem signLoopL_le (hf : fuel ≤ fuel') (P : Par) (E : Ext) (d uw rep : Nat) (A : PMat P.k P.l) (t : PVec P.k 1) (μ : List U8)
    (k n : Nat) : ∀ st : SignSt P.l d,
    (signLoopL P E fuel d uw rep A t μ n st).Le (signLoopL P E fuel' d uw rep A t μ (n + k) st) := by
  induction n with
  | zero => intro st; exact Or.inl rfl
  | succ n ih =>
    intro st
    rw [show n + 1 + k = (n + k) + 1 by omega, signLoopL, signLoopL]
    refine Le.bind (signAttemptL_le hf P E _ _ _ _ _ _ _) fun a => ?_
    obtain ⟨b, st', g⟩ := a
    dsimp only
    split
    · exact Le.rfl' _
    · exact Le.bind (ih st') fun _ => Le.rfl' _

theorem signL_le (hf : fuel ≤ fuel') (P : Par) (E : Ext) (d : Nat) (sk : SKey P.k P.l d) (entropy msg b : List U8) :
    (Api.signL P E fuel d sk entropy msg b).Le (Api.signL P E fuel' d sk entropy msg b) := by
  refine Le.bind_right _ fun _ => Le.bind_right _ fun _ => Le.bind_right _ fun _ => Le.bind_right _ fun _ => Le.bind_right _ fun _ =>
    Le.bind_right _ fun _ => Le.bind (expandAL_le hf E _ _ _) fun A => ?_
  obtain ⟨k, rfl⟩ : ∃ k, fuel' = fuel + k := ⟨fuel' - fuel, by omega⟩
  exact signLoopL_le hf P E _ _ _ _ _ _ k fuel _

end Raccoon
