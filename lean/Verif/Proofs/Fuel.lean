import Verif.Model.Api
/-!
# The iteration budget of the model is not observable: a larger budget never changes an outcome other than "not finished"
-/
namespace Raccoon

/-- `r'` is what `r` is, unless `r` has not finished. -/
def Res.Le (r r' : Res α) : Prop := r = .nofuel ∨ r = r'

namespace Res.Le

theorem rfl' (r : Res α) : r.Le r := Or.inr rfl

theorem nofuel (r : Res α) : Res.nofuel.Le r := Or.inl rfl

theorem bind {x x' : Res α} {f f' : α → Res β} (h : x.Le x') (hf : ∀ a, (f a).Le (f' a)) : (x >>= f).Le (x' >>= f') := by
  rcases h with rfl | rfl
  · exact Or.inl (Res.nofuel_bind f)
  · cases x with
    | ok a => rw [Res.ok_bind, Res.ok_bind]; exact hf a
    | ub => rw [Res.ub_bind, Res.ub_bind]; exact Or.inr rfl
    | nofuel => exact Or.inl (Res.nofuel_bind f)

theorem bind_right (x : Res α) {f f' : α → Res β} (hf : ∀ a, (f a).Le (f' a)) : (x >>= f).Le (x >>= f') := bind (rfl' x) hf

theorem foldlM {σ ι : Type} {f f' : σ → ι → Res σ} (hf : ∀ i s, (f s i).Le (f' s i)) : ∀ (l : List ι) (s : σ), (l.foldlM f s).Le (l.foldlM f' s)
  | [], s => Or.inr rfl
  | i :: l, s => by
    rw [List.foldlM_cons, List.foldlM_cons]
    exact bind (hf i s) (fun s' => foldlM hf l s')

theorem forLoop {σ : Type} {f f' : Nat → σ → Res σ} (lo hi step : Nat) (hf : ∀ i s, (f i s).Le (f' i s)) (s : σ) :
    (Raccoon.forLoop lo hi step f s).Le (Raccoon.forLoop lo hi step f' s) := foldlM (fun i s => hf i s) _ _

theorem ok {r r' : Res α} (h : r.Le r') {a : α} (e : r = .ok a) : r' = .ok a := by
  rcases h with rfl | rfl
  · cases e
  · exact e

theorem ub {r r' : Res α} (h : r.Le r') (e : r = .ub) : r' = .ub := by
  rcases h with rfl | rfl
  · cases e
  · exact e

end Res.Le

open Res

theorem sampleQLoop_le : ∀ (n k : Nat) (s : Poly.SampleQSt), (Poly.sampleQLoop n s).Le (Poly.sampleQLoop (n + k) s)
  | 0, k, s => by
    by_cases hc : s.coeffIdx < 512
    · exact Or.inl (by unfold Poly.sampleQLoop; rw [if_pos hc])
    · exact Or.inr (by cases k with | zero => rfl | succ k => unfold Poly.sampleQLoop; rw [if_neg hc, if_neg hc])
  | n + 1, k, s => by
    rw [show n + 1 + k = (n + k) + 1 by omega]
    unfold Poly.sampleQLoop
    by_cases hc : s.coeffIdx < 512
    · rw [if_pos hc, if_pos hc]
      exact Le.bind_right _ fun s' => sampleQLoop_le n k s'
    · rw [if_neg hc, if_neg hc]; exact Le.rfl' _

theorem samplePolyLoop_le (E : Ext) (idx : Nat) : ∀ (n k : Nat) (m : Mrng d) (p : Poly) (ci : Nat),
    (Poly.samplePolyLoop E idx n m p ci).Le (Poly.samplePolyLoop E idx (n + k) m p ci)
  | 0, k, m, p, ci => by
    by_cases hc : ci < 512
    · exact Or.inl (by unfold Poly.samplePolyLoop; rw [if_pos hc])
    · exact Or.inr (by cases k with | zero => rfl | succ k => unfold Poly.samplePolyLoop; rw [if_neg hc, if_neg hc])
  | n + 1, k, m, p, ci => by
    rw [show n + 1 + k = (n + k) + 1 by omega]
    unfold Poly.samplePolyLoop
    by_cases hc : ci < 512
    · rw [if_pos hc, if_pos hc]
      dsimp only
      split
      · exact Le.bind_right _ fun p' => samplePolyLoop_le E idx n k _ p' _
      · exact samplePolyLoop_le E idx n k _ _ _
    · rw [if_neg hc, if_neg hc]; exact Le.rfl' _

theorem chalLoop_le (ω : Nat) : ∀ (n k : Nat) (s : Xof × Poly × Nat), (Poly.chalLoop ω n s).Le (Poly.chalLoop ω (n + k) s)
  | 0, k, s => by
    by_cases hc : s.2.2 < ω
    · exact Or.inl (by unfold Poly.chalLoop; rw [if_pos hc])
    · exact Or.inr (by cases k with | zero => rfl | succ k => unfold Poly.chalLoop; rw [if_neg hc, if_neg hc])
  | n + 1, k, s => by
    rw [show n + 1 + k = (n + k) + 1 by omega]
    unfold Poly.chalLoop
    by_cases hc : s.2.2 < ω
    · rw [if_pos hc, if_pos hc]
      exact Le.bind_right _ fun s' => chalLoop_le ω n k s'
    · rw [if_neg hc, if_neg hc]; exact Le.rfl' _

variable {fuel fuel' : Nat}

theorem sampleQ_le (hf : fuel ≤ fuel') (E : Ext) (hdr seed : List U8) : (Poly.sampleQ E fuel hdr seed).Le (Poly.sampleQ E fuel' hdr seed) := by
  obtain ⟨k, rfl⟩ : ∃ k, fuel' = fuel + k := ⟨fuel' - fuel, by omega⟩
  exact sampleQLoop_le fuel k _

theorem samplePolynomial_le (hf : fuel ≤ fuel') (E : Ext) (idx : Nat) (m : Mrng d) :
    (Poly.samplePolynomial E fuel idx m).Le (Poly.samplePolynomial E fuel' idx m) := by
  obtain ⟨k, rfl⟩ : ∃ k, fuel' = fuel + k := ⟨fuel' - fuel, by omega⟩
  unfold Poly.samplePolynomial
  split
  · exact Le.rfl' _
  · exact samplePolyLoop_le E idx fuel k _ _ _

theorem chalPoly_le (hf : fuel ≤ fuel') (E : Ext) (ω : Nat) (c : List U8) : (Poly.chalPoly E fuel ω c).Le (Poly.chalPoly E fuel' ω c) := by
  obtain ⟨k, rfl⟩ : ∃ k, fuel' = fuel + k := ⟨fuel' - fuel, by omega⟩
  exact chalLoop_le ω fuel k _

theorem expandA_le (hf : fuel ≤ fuel') (E : Ext) (k l : Nat) (seed : List U8) : (PMat.expandA E fuel k l seed).Le (PMat.expandA E fuel' k l seed) :=
  Le.forLoop _ _ _ (fun _ A => Le.forLoop _ _ _ (fun _ _ => Le.bind (sampleQ_le hf E _ _) fun _ => Le.rfl' _) A) _

theorem maskPair_le (hf : fuel ≤ fuel') (E : Ext) (sidx off : Nat) (s : MPoly d × Mrng d) :
    (MPoly.maskPair E fuel sidx off s).Le (MPoly.maskPair E fuel' sidx off s) :=
  Le.bind (samplePolynomial_le hf E _ _) fun _ => Le.rfl' _

theorem zeroEncLoop_le (hf : fuel ≤ fuel') (E : Ext) : ∀ (n dIdx : Nat) (s : MPoly d × Mrng d),
    (MPoly.zeroEncLoop E fuel n dIdx s).Le (MPoly.zeroEncLoop E fuel' n dIdx s)
  | 0, dIdx, s => by unfold MPoly.zeroEncLoop; exact Le.rfl' _
  | n + 1, dIdx, s => by
    unfold MPoly.zeroEncLoop
    split
    · exact Le.bind (Le.forLoop _ _ _ (fun _ s => Le.forLoop _ _ _ (fun _ s => maskPair_le hf E _ _ s) s) _) fun s' => zeroEncLoop_le hf E n _ s'
    · exact Le.rfl' _

theorem zeroEncoding_le (hf : fuel ≤ fuel') (E : Ext) (m : Mrng d) : (MPoly.zeroEncoding E fuel m).Le (MPoly.zeroEncoding E fuel' m) := by
  unfold MPoly.zeroEncoding
  dsimp only
  split
  · exact Le.bind (Le.forLoop _ _ _ (fun _ s => maskPair_le hf E _ _ s) _) fun s' => zeroEncLoop_le hf E _ _ s'
  · exact Le.rfl' _

theorem mrefresh_le (hf : fuel ≤ fuel') (E : Ext) (a : MPoly d) (m : Mrng d) : (MPoly.refresh E fuel a m).Le (MPoly.refresh E fuel' a m) :=
  Le.bind (zeroEncoding_le hf E m) fun _ => Le.rfl' _

theorem maddRepNoise_le (hf : fuel ≤ fuel') (E : Ext) (u rep κ idx : Nat) (a : MPoly d) (prng : Prng) (m : Mrng d) :
    (MPoly.addRepNoise E fuel u rep κ idx a prng m).Le (MPoly.addRepNoise E fuel' u rep κ idx a prng m) :=
  Le.forLoop _ _ _ (fun _ _ => Le.bind_right _ fun _ => Le.bind (mrefresh_le hf E _ _) fun _ => Le.rfl' _) _

theorem vzeroEncoding_le (hf : fuel ≤ fuel') (E : Ext) (rows : Nat) (m : Mrng d) :
    (PVec.zeroEncoding E fuel rows m).Le (PVec.zeroEncoding E fuel' rows m) :=
  Le.forLoop _ _ _ (fun _ _ => Le.bind (zeroEncoding_le hf E _) fun _ => Le.rfl' _) _

theorem vrefresh_le (hf : fuel ≤ fuel') (E : Ext) (a : PVec rows d) (m : Mrng d) : (PVec.refresh E fuel a m).Le (PVec.refresh E fuel' a m) :=
  Le.forLoop _ _ _ (fun _ _ => Le.bind_right _ fun _ => Le.bind (mrefresh_le hf E _ _) fun _ => Le.rfl' _) _

theorem vaddRepNoise_le (hf : fuel ≤ fuel') (E : Ext) (u rep κ : Nat) (a : PVec rows d) (prng : Prng) (m : Mrng d) :
    (PVec.addRepNoise E fuel u rep κ a prng m).Le (PVec.addRepNoise E fuel' u rep κ a prng m) :=
  Le.forLoop _ _ _ (fun _ _ => Le.bind_right _ fun _ => Le.bind (maddRepNoise_le hf E _ _ _ _ _ _ _) fun _ => Le.rfl' _) _

theorem compressShare_le (hf : fuel ≤ fuel') (E : Ext) (κ : Nat) (s : PVec l d) (sidx : Nat) (st : PVec l 1 × List U8 × Prng) :
    (compressShare E fuel κ s sidx st).Le (compressShare E fuel' κ s sidx st) :=
  Le.bind_right _ fun _ => Le.bind (Le.forLoop _ _ _ (fun _ _ => Le.bind (sampleQ_le hf E _ _) fun _ => Le.rfl' _) _) fun _ => Le.rfl' _

theorem maskCompress_le (hf : fuel ≤ fuel') (E : Ext) (κ : Nat) (s : PVec l d) (sc : List U8) (prng : Prng) :
    (maskCompress E fuel κ s sc prng).Le (maskCompress E fuel' κ s sc prng) :=
  Le.bind_right _ fun _ => Le.bind (Le.forLoop _ _ _ (fun _ _ => compressShare_le hf E _ _ _ _) _) fun _ => Le.rfl' _

theorem maskDecompress_le (hf : fuel ≤ fuel') (E : Ext) (κ l d : Nat) (sc : List U8) :
    (maskDecompress E fuel κ l d sc).Le (maskDecompress E fuel' κ l d sc) :=
  Le.bind_right _ fun _ => Le.forLoop _ _ _ (fun _ _ => Le.forLoop _ _ _ (fun _ _ => Le.bind_right _ fun _ =>
    Le.bind (sampleQ_le hf E _ _) fun _ => Le.rfl' _) _) _

theorem skFromBytes_le (hf : fuel ≤ fuel') (P : Par) (E : Ext) (d : Nat) (b : List U8) :
    (Api.skFromBytes P E fuel d b).Le (Api.skFromBytes P E fuel' d b) :=
  Le.bind_right _ fun _ => Le.bind_right _ fun _ => Le.bind_right _ fun _ => Le.bind (maskDecompress_le hf E _ _ _ _) fun _ => Le.rfl' _

theorem skAsBytes_le (hf : fuel ≤ fuel') (P : Par) (E : Ext) (sk : SKey P.k P.l d) (entropy b : List U8) :
    (Api.skAsBytes P E fuel sk entropy b).Le (Api.skAsBytes P E fuel' sk entropy b) :=
  Le.bind (Le.bind_right _ fun _ => Le.bind_right _ fun _ => Le.bind_right _ fun _ => Le.bind_right _ fun _ =>
    Le.bind (maskCompress_le hf E _ _ _ _) fun _ => Le.rfl' _) fun _ => Le.rfl' _

theorem refresh_le (hf : fuel ≤ fuel') (P : Par) (E : Ext) (sk : SKey P.k P.l d) : (Api.refresh P E fuel sk).Le (Api.refresh P E fuel' sk) :=
  Le.bind (vrefresh_le hf E _ _) fun _ => Le.rfl' _

theorem generate_le (hf : fuel ≤ fuel') (P : Par) (uts : List Nat) (E : Ext) (d : Nat) (entropy seed : List U8) :
    (Api.generate P uts E fuel d entropy seed).Le (Api.generate P uts E fuel' d entropy seed) :=
  Le.bind_right _ fun _ => Le.bind_right _ fun _ => Le.bind (expandA_le hf E _ _ _) fun _ => Le.bind (vzeroEncoding_le hf E _ _) fun _ =>
    Le.bind (vaddRepNoise_le hf E _ _ _ _ _ _) fun _ => Le.bind_right _ fun _ => Le.bind_right _ fun _ =>
    Le.bind (vaddRepNoise_le hf E _ _ _ _ _ _) fun _ => Le.rfl' _

theorem verify_le (hf : fuel ≤ fuel') (P : Par) (E : Ext) (pk : PKey P.k) (msg sig : List U8) :
    (Api.verify P E fuel pk msg sig).Le (Api.verify P E fuel' pk msg sig) := by
  unfold Api.verify PKey.verify
  refine Le.bind_right _ fun o => ?_
  cases o with
  | none => exact Le.rfl' _
  | some s =>
    refine Le.bind_right _ fun b => ?_
    dsimp only
    split
    · exact Le.rfl' _
    · exact Le.bind_right _ fun _ => Le.bind (expandA_le hf E _ _ _) fun _ => Le.bind_right _ fun _ => Le.bind_right _ fun _ => Le.bind_right _ fun _ =>
        Le.bind (chalPoly_le hf E _ _) fun _ => Le.rfl' _

theorem signAttempt_le (hf : fuel ≤ fuel') (P : Par) (E : Ext) (d uw rep : Nat) (A : PMat P.k P.l) (t : PVec P.k 1) (μ : List U8) (st : SignSt P.l d) :
    (signAttempt P E fuel d uw rep A t μ st).Le (signAttempt P E fuel' d uw rep A t μ st) :=
  Le.bind (vzeroEncoding_le hf E _ _) fun _ => Le.bind (vaddRepNoise_le hf E _ _ _ _ _ _) fun _ => Le.bind_right _ fun _ => Le.bind_right _ fun _ =>
  Le.bind (vaddRepNoise_le hf E _ _ _ _ _ _) fun _ => Le.bind_right _ fun _ => Le.bind (chalPoly_le hf E _ _) fun _ => Le.bind_right _ fun _ =>
  Le.bind (vrefresh_le hf E _ _) fun _ => Le.bind (vrefresh_le hf E _ _) fun _ => Le.bind (vrefresh_le hf E _ _) fun _ => Le.rfl' _

theorem signLoop_le (hf : fuel ≤ fuel') (P : Par) (E : Ext) (d uw rep : Nat) (A : PMat P.k P.l) (t : PVec P.k 1) (μ : List U8) :
    ∀ (n k : Nat) (st : SignSt P.l d), (signLoop P E fuel d uw rep A t μ n st).Le (signLoop P E fuel' d uw rep A t μ (n + k) st)
  | 0, k, st => Or.inl rfl
  | n + 1, k, st => by
    rw [show n + 1 + k = (n + k) + 1 by omega]
    unfold signLoop
    refine Le.bind (signAttempt_le hf P E _ _ _ _ _ _ _) fun a => ?_
    obtain ⟨b, st'⟩ := a
    dsimp only
    split
    · exact Le.rfl' _
    · exact signLoop_le hf P E d uw rep A t μ n k st'

theorem sign_le (hf : fuel ≤ fuel') (P : Par) (E : Ext) (d : Nat) (sk : SKey P.k P.l d) (entropy msg b : List U8) :
    (Api.sign P E fuel d sk entropy msg b).Le (Api.sign P E fuel' d sk entropy msg b) := by
  obtain ⟨k, rfl⟩ : ∃ k, fuel' = fuel + k := ⟨fuel' - fuel, by omega⟩
  exact Le.bind_right _ fun _ => Le.bind_right _ fun _ => Le.bind_right _ fun _ => Le.bind_right _ fun _ => Le.bind_right _ fun _ =>
    Le.bind (expandA_le hf E _ _ _) fun _ => signLoop_le hf P E d _ _ _ _ _ fuel k _

end Raccoon
