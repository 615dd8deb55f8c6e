import Verif.Proofs.SecKey
/-!
# Which functions cannot run out of budget
-/
namespace Raccoon
attribute [-instance] Monoid.toNPow

/-- The computation does not run out of its budget. -/
def Res.Fin (r : Res α) : Prop := r ≠ .nofuel

theorem Res.Fin.ok (a : α) : (Res.ok a).Fin := by intro h; cases h
theorem Res.Fin.ub : (Res.ub : Res α).Fin := by intro h; cases h

theorem Res.Fin.bind {r : Res α} {f : α → Res β} (h : r.Fin) (hf : ∀ a, r = .ok a → (f a).Fin) : (r >>= f).Fin := by
  cases r with
  | ok a => exact hf a rfl
  | ub => exact Res.Fin.ub
  | nofuel => exact absurd rfl h

theorem Res.Safe.ok {r : Res α} {P : α → Prop} (h : r.Safe P) (h' : r.Fin) : r.Ok P := by
  cases r with
  | ok a => exact ⟨a, rfl, h⟩
  | ub => exact absurd h id
  | nofuel => exact absurd rfl h'

theorem fin_rd (v : Vector α n) (i : Nat) : (v.rd i).Fin := by
  unfold Vector.rd; split
  · exact Res.Fin.ok _
  · exact Res.Fin.ub

theorem fin_wr (v : Vector α n) (i : Nat) (x : α) : (v.wr i x).Fin := by
  unfold Vector.wr; split
  · exact Res.Fin.ok _
  · exact Res.Fin.ub

theorem fin_shl64 (x : U64) (n : Nat) : (shl64 x n).Fin := by
  unfold shl64; split
  · exact Res.Fin.ok _
  · exact Res.Fin.ub

theorem fin_shr64 (x : U64) (n : Nat) : (shr64 x n).Fin := by
  unfold shr64; split
  · exact Res.Fin.ok _
  · exact Res.Fin.ub

theorem fin_subspan (b : List α) (o n : Nat) : (subspan b o n).Fin := by
  unfold subspan; split
  · exact Res.Fin.ok _
  · exact Res.Fin.ub

theorem fin_writeSpan (b : List U8) (o : Nat) (x : List U8) : (writeSpan b o x).Fin := by
  unfold writeSpan; split
  · exact Res.Fin.ok _
  · exact Res.Fin.ub

theorem fin_putLe (b : List U8) (o n : Nat) (v : U64) : (putLe b o n v).Fin := by
  unfold putLe
  exact (fin_subspan _ _ _).bind fun _ _ => fin_writeSpan _ _ _

theorem fin_forLoop {σ : Type u} (lo hi : Nat) {step : Nat} (hst : 0 < step) {body : Nat → σ → Res σ} (h : ∀ i s, (body i s).Fin) (s : σ) :
    (forLoop lo hi step body s).Fin := by
  suffices H : ∀ n i s, hi - i ≤ n → (forLoop i hi step body s).Fin from H (hi - lo) lo s (Nat.le_refl _)
  intro n
  induction n with
  | zero => intro i s h1; rw [forLoop_nil (by omega) hst]; exact Res.Fin.ok _
  | succ n ih =>
    intro i s h1
    rcases Nat.lt_or_ge i hi with hlt | hge
    · rw [forLoop_cons hlt hst]; exact (h i s).bind fun s' _ => ih _ _ (by omega)
    · rw [forLoop_nil hge hst]; exact Res.Fin.ok _

theorem fin_packCoeff (x : Zq) (st : List U8 × Nat × U64 × Nat) : (packCoeff x st).Fin := by
  unfold packCoeff
  exact (fin_shl64 _ _).bind fun _ _ => (fin_putLe _ _ _ _).bind fun _ _ => (fin_shr64 _ _).bind fun _ _ => Res.Fin.ok _

theorem fin_packRow (p : Poly) (st : List U8 × Nat) : (packRow p st).Fin := by
  unfold packRow
  exact (fin_forLoop _ _ (by omega) (fun i s => (fin_rd _ _).bind fun _ _ => fin_packCoeff _ _) _).bind fun _ _ => Res.Fin.ok _

theorem fin_compressShare (E : Ext) (fuel κ : Nat) (hq : ∀ hdr seed : List U8, hdr.length = 8 → seed.length = κ / 8 → ∃ p, Poly.sampleQ E fuel hdr seed = .ok p) (s : PVec l d) (sidx : Nat)
    (st : PVec l 1 × List U8 × Prng) : (compressShare E fuel κ s sidx st).Fin := by
  unfold compressShare
  refine (fin_writeSpan _ _ _).bind fun _ _ => ?_
  refine (fin_forLoop _ _ (by omega) (fun i s => ?_) _).bind fun _ _ => ?_
  · refine Res.Fin.bind (r := Poly.sampleQ _ _ _ _) ?_ fun _ _ => (fin_rd _ _).bind fun _ _ => (fin_rd _ _).bind fun _ _ =>
      (fin_wr _ _ _).bind fun _ _ => fin_wr _ _ _
    obtain ⟨p, e⟩ := hq [0x4b, BitVec.ofNat 8 sidx, BitVec.ofNat 8 i, 0, 0, 0, 0, 0] (st.2.2.state.squeeze (κ / 8)).1 rfl (by
      unfold Xof.squeeze; simp)
    rw [e]; exact Res.Fin.ok _
  · refine (fin_forLoop _ _ (by omega) (fun i s => ?_) _).bind fun _ _ => Res.Fin.ok _
    exact (fin_rd _ _).bind fun _ _ => (fin_rd _ _).bind fun _ _ => (fin_rd _ _).bind fun _ _ => (fin_rd _ _).bind fun _ _ =>
      (fin_wr _ _ _).bind fun _ _ => fin_wr _ _ _

theorem fin_maskCompress (E : Ext) (fuel κ : Nat) (hq : ∀ hdr seed : List U8, hdr.length = 8 → seed.length = κ / 8 → ∃ p, Poly.sampleQ E fuel hdr seed = .ok p) (s : PVec l d) (sc : List U8)
    (prng : Prng) : (maskCompress E fuel κ s sc prng).Fin := by
  unfold maskCompress
  refine (fin_forLoop _ _ (by omega) (fun i s => ?_) _).bind fun _ _ => ?_
  · exact (fin_rd _ _).bind fun _ _ => (fin_rd _ _).bind fun _ _ => (fin_rd _ _).bind fun _ _ => (fin_wr _ _ _).bind fun _ _ => fin_wr _ _ _
  · refine (fin_forLoop _ _ (by omega) (fun i s => fin_compressShare E fuel κ hq _ _ _) _).bind fun _ _ => ?_
    exact (fin_forLoop _ _ (by omega) (fun i s => (fin_rd _ _).bind fun _ _ => (fin_rd _ _).bind fun _ _ => fin_packRow _ _) _).bind
      fun _ _ => Res.Fin.ok _

theorem fin_pkFlush (νt : Nat) (s : PkEncSt) : (pkFlush νt s).Fin := by
  unfold pkFlush
  show (if _ then _ else _ : Res _).Fin
  split
  · exact (fin_putLe _ _ _ _).bind fun _ _ => Res.Fin.ok _
  · exact Res.Fin.ok _

theorem fin_encodePublicKey (νt : Nat) (seed : List U8) (t : PVec k 1) (b : List U8) : (encodePublicKey νt seed t b).Fin := by
  unfold encodePublicKey pkEncCoeff
  refine (fin_writeSpan _ _ _).bind fun _ _ => ?_
  refine (fin_forLoop _ _ (by omega) (fun i s => fin_forLoop _ _ (by omega) (fun j s => ?_) _) _).bind fun _ _ => ?_
  · exact (fin_rd _ _).bind fun _ _ => (fin_rd _ _).bind fun _ _ => (fin_rd _ _).bind fun _ _ => (fin_pkFlush _ _).bind fun _ _ =>
      (fin_shl64 _ _).bind fun _ _ => Res.Fin.ok _
  · exact (fin_pkFlush _ _).bind fun _ _ => Res.Fin.ok _

theorem fin_skToBytes (E : Ext) (fuel κ νt : Nat) (hq : ∀ hdr seed : List U8, hdr.length = 8 → seed.length = κ / 8 → ∃ p, Poly.sampleQ E fuel hdr seed = .ok p) (sk : SKey k l d) (b : List U8)
    (prng : Prng) : (sk.toBytes E fuel κ νt b prng).Fin := by
  unfold SKey.toBytes PKey.toBytes
  exact (fin_subspan _ _ _).bind fun _ _ => (fin_encodePublicKey _ _ _ _).bind fun _ _ => (fin_writeSpan _ _ _).bind fun _ _ =>
    (fin_subspan _ _ _).bind fun _ _ => (fin_maskCompress E fuel κ hq _ _ _).bind fun _ _ => (fin_writeSpan _ _ _).bind fun _ _ => Res.Fin.ok _

end Raccoon
