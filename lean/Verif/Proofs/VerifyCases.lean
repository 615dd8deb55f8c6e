import Verif.Proofs.KeyGen
/-!
# Case analysis of `verify`
-/
namespace Raccoon
attribute [-instance] Monoid.toNPow
open Finset

/-- Everything known about a signature object that came out of the parser. -/
theorem fromBytes_some {P : Par} {sig : List U8} {s : Sig} (h : Sig.fromBytes P.κ P.k P.l sig = .ok (some s)) :
    decodeSig (2 * P.κ / 8) (P.k * 512) (P.l * 512) sig = .ok (some (s.cHash, s.h, s.z)) := by
  unfold Sig.fromBytes at h
  obtain ⟨r, e, h⟩ := Res.bind_eq_ok.1 h
  rw [e]
  cases r with
  | none => exact absurd (Res.ok.inj h) (by simp)
  | some x =>
    obtain ⟨c, hh, z⟩ := x
    have := Option.some.inj (Res.ok.inj h)
    rw [← this]

theorem fromBytes_of {P : Par} {sig c : List U8} {hh z : List Int} (h : decodeSig (2 * P.κ / 8) (P.k * 512) (P.l * 512) sig = .ok (some (c, hh, z))) :
    Sig.fromBytes P.κ P.k P.l sig = .ok (some ⟨c, hh, z⟩) := by
  unfold Sig.fromBytes; rw [h]; rfl

/-- Some values bounding what the parser returns, in the form the norm check wants. -/
theorem checkBounds_parsed (P : Par) (hP : P = raccoon128 ∨ P = raccoon192 ∨ P = raccoon256) {sig : List U8} {s : Sig}
    (h : Sig.fromBytes P.κ P.k P.l sig = .ok (some s)) :
    s.cHash.length = 2 * P.κ / 8 ∧ s.h.length = P.k * 512 ∧ s.z.length = P.l * 512 ∧ (∀ x ∈ s.z, x.natAbs < 23 * 2 ^ 40) ∧
    s.checkBounds P.νw P.Binf P.B22 = .ok (decide (NormsOK P.νw P.Binf.toNat P.B22.toNat s.h s.z)) := by
  have e := fromBytes_some h
  obtain ⟨l1, l2, l3, -⟩ := C29_canonical _ _ _ _ _ _ _ e
  obtain ⟨b1, b2⟩ := C31_decoded_bound _ _ _ _ _ _ _ e
  have h40 : (2 : Nat) ^ 40 = 1099511627776 := by norm_num
  have hq : q = 549824583172097 := rfl
  refine ⟨l1, l2, l3, b2, C32_decides P hP s l2 l3 (fun x hx => ?_) (fun x hx => ?_)⟩
  · have := b1 x hx; omega
  · have := b2 x hx; omega

/-- The five things that can happen in `verify`. -/
theorem verify_cases (P : Par) (hP : P = raccoon128 ∨ P = raccoon192 ∨ P = raccoon256) (E : Ext) (fuel : Nat) (pk : PKey P.k) (hpk : pk.WF P) (msg sig : List U8) :
    (decodeSig (2 * P.κ / 8) (P.k * 512) (P.l * 512) sig = .ub ∧ pk.verify P E fuel msg sig = .ub) ∨
    (decodeSig (2 * P.κ / 8) (P.k * 512) (P.l * 512) sig = .ok none ∧ pk.verify P E fuel msg sig = .ok false) ∨
    ∃ c h z, decodeSig (2 * P.κ / 8) (P.k * 512) (P.l * 512) sig = .ok (some (c, h, z)) ∧
      ((¬ NormsOK P.νw P.Binf.toNat P.B22.toNat h z ∧ pk.verify P E fuel msg sig = .ok false) ∨
       (NormsOK P.νw P.Binf.toNat P.B22.toNat h z ∧
        (((PMat.expandA E fuel P.k P.l pk.seed = .nofuel ∨ Poly.chalPoly E fuel P.ω c = .nofuel) ∧ pk.verify P E fuel msg sig = .nofuel) ∨
         ∃ pkb A cp, pk.toBytes P.νt (List.replicate (PKey.byteLen P.κ P.k P.νt) 0) = .ok pkb ∧ PMat.expandA E fuel P.k P.l pk.seed = .ok A ∧
          Poly.chalPoly E fuel P.ω c = .ok cp ∧ ∀ a, A.Is a →
          (VerifyEq E P.κ P.νw P.νt a (PVec.val pk.t) cp.toZ (messageHash E P.κ pkb msg) c h z → pk.verify P E fuel msg sig = .ok true) ∧
          (¬ VerifyEq E P.κ P.νw P.νt a (PVec.val pk.t) cp.toZ (messageHash E P.κ pkb msg) c h z → pk.verify P E fuel msg sig = .ok false)))) := by
  obtain ⟨w1, w2, w3, w4, w5, -⟩ := par_bounds P hP
  by_cases hl : 2 * P.κ / 8 ≤ sig.length
  swap
  · refine Or.inl ⟨decodeSig_short hl, ?_⟩
    unfold PKey.verify Sig.fromBytes
    rw [decodeSig_short hl]; rfl
  rcases decodeSig_cases (2 * P.κ / 8) (P.k * 512) (P.l * 512) sig hl with e | ⟨c, h, z, e, -⟩ | ⟨e, -⟩
  · refine Or.inr (Or.inl ⟨e, ?_⟩)
    unfold PKey.verify Sig.fromBytes
    rw [e]; rfl
  · refine Or.inr (Or.inr ⟨c, h, z, e, ?_⟩)
    have hs := fromBytes_of e
    obtain ⟨l1, l2, l3, hz, hb⟩ := checkBounds_parsed P hP hs
    replace hz : ∀ x ∈ z, x.natAbs < 23 * 2 ^ 40 := hz
    replace hb : _ = Res.ok (decide (NormsOK P.νw P.Binf.toNat P.B22.toNat h z)) := hb
    by_cases hn : NormsOK P.νw P.Binf.toNat P.B22.toNat h z
    · rw [decide_eq_true hn] at hb
      refine Or.inr ⟨hn, ?_⟩
      obtain ⟨pkb, hpkb⟩ := pkBytes_ok P hP pk hpk.seed
      cases hA : PMat.expandA E fuel P.k P.l pk.seed with
      | ub => exact absurd hA (expandA_safe E fuel P.k P.l pk.seed).ne_ub
      | nofuel =>
        refine Or.inl ⟨Or.inl rfl, ?_⟩
        unfold PKey.verify
        rw [hs, Res.ok_bind]
        dsimp only
        rw [hb, Res.ok_bind]
        show (if (!true) = true then _ else _ : Res Bool) = _
        rw [if_neg (by decide), hpkb, Res.ok_bind, hA]
        rfl
      | ok A =>
        cases hc : Poly.chalPoly E fuel P.ω c with
        | ub => exact absurd hc (chalPoly_safe E fuel P.ω c).ne_ub
        | nofuel =>
          refine Or.inl ⟨Or.inr rfl, ?_⟩
          have h40 : (2 : Nat) ^ 40 = 1099511627776 := by norm_num
          have hq : q = 549824583172097 := rfl
          have h44 : (2 : Nat) ^ 44 = 17592186044416 := by norm_num
          have hB3 : P.Binf.toNat < 52776558133248 := by rcases hP with rfl | rfl | rfl <;> decide
          obtain ⟨hv, ehv, -⟩ := getH_spec (k := P.k) l2 (fun x hx => by have := hn.1 x hx; rw [w1, h44] at this; omega)
          obtain ⟨zv, ezv, zvc, -⟩ := getZ_spec (l := P.l) l3 (fun x hx => by have := hz x hx; omega)
          obtain ⟨zn, ezn, -⟩ := PVec.IsNtt.ntt zvc
          unfold PKey.verify
          rw [hs, Res.ok_bind]
          dsimp only
          rw [hb, Res.ok_bind]
          show (if (!true) = true then _ else _ : Res Bool) = _
          rw [if_neg (by decide), hpkb, Res.ok_bind, hA, Res.ok_bind, w1, ehv, Res.ok_bind, ezv, Res.ok_bind, ezn, Res.ok_bind, hc]
          rfl
        | ok cp =>
          refine Or.inr ⟨pkb, A, cp, hpkb, rfl, rfl, fun a ha => ?_⟩
          exact verify_eq P hP E fuel pk hpk.seed (PVec.below_iff.1 hpk.t) msg sig pkb hpkb ⟨c, h, z⟩ hs l1 l2 l3 hz hn hb A hA cp hc a ha
    · rw [decide_eq_false hn] at hb
      refine Or.inl ⟨hn, ?_⟩
      unfold PKey.verify
      rw [hs, Res.ok_bind]
      dsimp only
      rw [hb, Res.ok_bind]
      rfl
  · refine Or.inl ⟨e, ?_⟩
    unfold PKey.verify Sig.fromBytes
    rw [e]; rfl

end Raccoon
