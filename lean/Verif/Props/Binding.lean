import Verif.Proofs.Binding
import Verif.Props.Wire
/-!
# C58, C59, C61: what a signature binds, what two signatures reveal
-/
namespace Raccoon
attribute [-instance] Monoid.toNPow
open Finset

theorem q44' : q / 2 ^ 44 = 31 := by norm_num [q]

/-- The strings hashed during a verification are determined by key, message and signature: there are three of them. -/
theorem Hashed.three (P : Par) (E : Ext) (pkb msg sig : List U8) : ∃ c : List U8, ∀ x, Hashed P E pkb msg sig x →
    x = pkb ∨ x = xofOut E.shake256 pkb (2 * P.κ / 8) ++ msg ∨ x = c := by
  by_cases hex : ∃ x, Hashed P E pkb msg sig x ∧ x ≠ pkb ∧ x ≠ xofOut E.shake256 pkb (2 * P.κ / 8) ++ msg
  · obtain ⟨x, hx, n1, n2⟩ := hex
    refine ⟨x, fun y hy => ?_⟩
    cases hx with
    | key => exact absurd rfl n1
    | message => exact absurd rfl n2
    | commitment hs hl hp ha hc =>
      cases hy with
      | key => exact Or.inl rfl
      | message => exact Or.inr (Or.inl rfl)
      | commitment hs' hl' hp' ha' hc' =>
        obtain ⟨rfl, rfl⟩ := hp.unique hp'
        obtain rfl := ha.unique ha'
        obtain ⟨rfl, rfl, rfl⟩ := hs.inj hs' (hl.1.trans hl'.1.symm) (hl.2.1.trans hl'.2.1.symm) (hl.2.2.trans hl'.2.2.symm)
        obtain rfl := hc.unique hc'
        exact Or.inr (Or.inr rfl)
  · refine ⟨[], fun y hy => ?_⟩
    by_contra hc
    exact hex ⟨y, hy, fun e => hc (Or.inl e), fun e => hc (Or.inr (Or.inl e))⟩

/-- C58: a signature that is accepted for two different (public key, message) pairs exhibits a SHAKE256 collision between strings that the two
verifications hash (each hashes three strings, see `C58_strings`). -/
theorem C58_binds_key_and_message (P : Par) (hP : P = raccoon128 ∨ P = raccoon192 ∨ P = raccoon256) (E : Ext) (fuel fuel' : Nat) (pkb pkb' : List U8)
    (hl : pkb.length = PKey.byteLen P.κ P.k P.νt) (hl' : pkb'.length = PKey.byteLen P.κ P.k P.νt) (pk pk' : PKey P.k)
    (hpk : Api.pkFromBytes P pkb = .ok pk) (hpk' : Api.pkFromBytes P pkb' = .ok pk') (msg msg' sig : List U8)
    (h : Api.verify P E fuel pk msg sig = .ok true) (h' : Api.verify P E fuel' pk' msg' sig = .ok true) (hne : pkb ≠ pkb' ∨ msg ≠ msg') :
    ∃ x y, Hashed P E pkb msg sig x ∧ Hashed P E pkb' msg' sig y ∧ Collision E (2 * P.κ / 8) x y := by
  obtain ⟨c, hint, z, e, l1, l2, l3, -, seed, t, a, cI, g1, g2, g3, g4⟩ := C34_wire_sound P hP E fuel pkb hl pk hpk msg sig h
  obtain ⟨c', hint', z', e', l1', l2', l3', -, seed', t', a', cI', k1, k2, k3, k4⟩ := C34_wire_sound P hP E fuel' pkb' hl' pk' hpk' msg' sig h'
  obtain ⟨rfl, rfl, rfl⟩ := e.inj e' (l1.trans l1'.symm) (l2.trans l2'.symm) (l3.trans l3'.symm)
  obtain ⟨w1, -⟩ := par_bounds P hP
  have r1 : Hashed P E pkb msg sig _ := .commitment (E := E) (msg := msg) e ⟨l1, l2, l3⟩ g1 g2 g3
  have r2 : Hashed P E pkb' msg' sig _ := .commitment (E := E) (msg := msg') e' ⟨l1, l2, l3⟩ k1 k2 k3
  have heq := g4.symm.trans k4
  by_cases hin : hashInput (recomputed P.νw P.νt a (fun r i => (t r i : ZMod q)) (toR cI) hint z) (messageHash E P.κ pkb msg) =
      hashInput (recomputed P.νw P.νt a' (fun r i => (t' r i : ZMod q)) (toR cI') hint z) (messageHash E P.κ pkb' msg')
  · obtain ⟨-, hμ⟩ := hashInput_inj (fun r i => lt_trans (recomputed_lt _ _ w1 _ _ _ _ _ r i) (by norm_num))
      (fun r i => lt_trans (recomputed_lt _ _ w1 _ _ _ _ _ r i) (by norm_num)) hin
    by_cases hm : xofOut E.shake256 pkb (2 * P.κ / 8) ++ msg = xofOut E.shake256 pkb' (2 * P.κ / 8) ++ msg'
    · obtain ⟨h1, h2⟩ := List.append_inj hm (by rw [xofOut_length, xofOut_length])
      rcases hne with hne | hne
      · exact ⟨pkb, pkb', .key, .key, hne, h1⟩
      · exact absurd h2 hne
    · exact ⟨_, _, .message, .message, hm, hμ⟩
  · exact ⟨_, _, r1, r2, hin, heq⟩

/-- C58: the collision of `C58_binds_key_and_message` is between specific strings: a verification hashes the public key, its hash followed by the
message, and one more string. -/
theorem C58_strings (P : Par) (E : Ext) (pkb msg sig : List U8) : ∃ c : List U8, ∀ x, Hashed P E pkb msg sig x →
    x = pkb ∨ x = xofOut E.shake256 pkb (2 * P.κ / 8) ++ msg ∨ x = c := Hashed.three P E pkb msg sig

theorem negacyclic_sub_right' (f g g' : RPoly) : negacyclic f (g - g') = negacyclic f g - negacyclic f g' := by
  apply nttR_inj
  rw [nttR_negacyclic]
  funext i
  simp only [nttR_sub, nttR_negacyclic, Pi.mul_apply, Pi.sub_apply]
  ring

theorem ringMatVec_sub (a : Fin k → Fin l → RPoly) (x y : Fin l → RPoly) (r : Fin k) :
    ringMatVec a (fun j => x j - y j) r = ringMatVec a x r - ringMatVec a y r := by
  unfold ringMatVec
  rw [← Finset.sum_sub_distrib]
  exact Finset.sum_congr rfl fun j _ => negacyclic_sub_right' _ _ _

/-- Two responses with the same recomputed commitment: a(z − z') − 2^νt (c − c') t is short. -/
theorem special_soundness (νt : Nat) (a : Fin k → Fin l → RPoly) (t : Fin k → RPoly) (c c' : RPoly) (h h' z z' : List Int)
    (hl : h.length = k * 512) (hl' : h'.length = k * 512) (hb : ∀ x ∈ h, x.natAbs ≤ 2) (hb' : ∀ x ∈ h', x.natAbs ≤ 2)
    (e : recomputed 44 νt a t c h z = recomputed 44 νt a t c' h' z') (r : Fin k) :
    ShortR (6 * 2 ^ 44) (ringMatVec a (fun j => vecR (unflatten l z) j - vecR (unflatten l z') j) r - (2 ^ νt : ZMod q) • negacyclic (t r) (c - c')) := by
  intro i
  have e1 := congrFun (congrFun e r) i
  unfold recomputed commitY at e1
  rw [q44'] at e1
  have b1 := hb _ (mem_unflatten r i hl)
  have b2 := hb' _ (mem_unflatten r i hl')
  revert e1 b1 b2
  generalize hu : (ringMatVec a (vecR (unflatten l z)) r - (2 ^ νt : ZMod q) • negacyclic (t r) c) i = u
  generalize hu' : (ringMatVec a (vecR (unflatten l z')) r - (2 ^ νt : ZMod q) • negacyclic (t r) c') i = u'
  generalize unflatten k h r i = x
  generalize unflatten k h' r i = x'
  intro e1 b1 b2
  have e2 : (((roundZ 44 u : Nat) : Int) + x) % (31 : Nat) = (((roundZ 44 u' : Nat) : Int) + x') % (31 : Nat) := by
    revert e1
    generalize (((roundZ 44 u : Nat) : Int) + x) = y
    generalize (((roundZ 44 u' : Nat) : Int) + x') = y'
    intro e1
    omega
  have := round_close_mod u u' x x' b1 b2 e2
  have hd : (ringMatVec a (fun j => vecR (unflatten l z) j - vecR (unflatten l z') j) r - (2 ^ νt : ZMod q) • negacyclic (t r) (c - c')) i = u - u' := by
    rw [← hu, ← hu', ringMatVec_sub, negacyclic_sub_right', smul_sub]
    simp only [Pi.sub_apply]
    ring
  rw [hd]
  have p44 : (2 : Nat) ^ 44 = 17592186044416 := by norm_num
  rw [p44] at this ⊢
  refine Nat.le_trans this ?_
  omega

theorem vecR_sub (f g : Fin n → Fin 512 → Int) : (fun j => vecR f j - vecR g j) = vecR (fun j i => f j i - g j i) := by
  funext j i
  unfold vecR toR
  simp

theorem unflatten_ext (n : Nat) (x y : List Int) (hx : x.length = n * 512) (hy : y.length = n * 512) (hxy : ∀ r i, unflatten n x r i = unflatten n y r i) : x = y := by
  apply List.ext_getElem (by omega)
  intro j h1 h2
  have := hxy ⟨j / 512, by omega⟩ ⟨j % 512, by omega⟩
  unfold unflatten at this
  rw [List.getD_eq_getElem?_getD, List.getD_eq_getElem?_getD] at this
  dsimp only at this
  rw [show j / 512 * 512 + j % 512 = j by omega, List.getElem?_eq_getElem h1, List.getElem?_eq_getElem h2] at this
  exact this

/-- With the same response and challenge, the hint is determined by the recomputed commitment. -/
theorem hint_unique (νt : Nat) (a : Fin k → Fin l → RPoly) (t : Fin k → RPoly) (c : RPoly) (h h' z : List Int)
    (hl : h.length = k * 512) (hl' : h'.length = k * 512) (hb : ∀ x ∈ h, x.natAbs ≤ 2) (hb' : ∀ x ∈ h', x.natAbs ≤ 2)
    (e : recomputed 44 νt a t c h z = recomputed 44 νt a t c h' z) : h = h' := by
  refine unflatten_ext k h h' hl hl' fun r i => ?_
  have e1 := congrFun (congrFun e r) i
  unfold recomputed at e1
  rw [q44'] at e1
  have b1 := hb _ (mem_unflatten r i hl)
  have b2 := hb' _ (mem_unflatten r i hl')
  revert e1 b1 b2
  generalize unflatten k h r i = x
  generalize unflatten k h' r i = x'
  generalize ((commitY 44 νt a t c (vecR (unflatten l z)) r i : Nat) : Int) = y
  intro e1 b1 b2
  omega

/-- C59: two different accepted signatures of the same size under one public key that carry the same challenge hash (for whatever messages) either
exhibit a SHAKE256 collision between strings the two verifications hash, or the difference of their responses is a short non-zero vector that the
public matrix maps to a short vector. In particular a signature cannot be altered in the hint alone. -/
theorem C59_not_malleable (P : Par) (hP : P = raccoon128 ∨ P = raccoon192 ∨ P = raccoon256) (E : Ext) (fuel fuel' : Nat) (pkb : List U8)
    (hl : pkb.length = PKey.byteLen P.κ P.k P.νt) (pk : PKey P.k) (hpk : Api.pkFromBytes P pkb = .ok pk) (msg msg' sig sig' : List U8)
    (h : Api.verify P E fuel pk msg sig = .ok true) (h' : Api.verify P E fuel' pk msg' sig' = .ok true)
    (hlen : sig.length = sig'.length) (hne : sig ≠ sig') (hc : sig.take (2 * P.κ / 8) = sig'.take (2 * P.κ / 8)) :
    (∃ x y, Hashed P E pkb msg sig x ∧ Hashed P E pkb msg' sig' y ∧ Collision E (2 * P.κ / 8) x y) ∨
    ∃ (c : List U8) (hint hint' z z' : List Int) (seed : List U8) (t : Fin P.k → Fin 512 → Nat) (a : Fin P.k → Fin P.l → RPoly),
      IsSigEncoding c hint z sig.length sig ∧ IsSigEncoding c hint' z' sig'.length sig' ∧ IsPkOf P seed t pkb ∧ IsMatrixOf E seed a ∧
      c.length = 2 * P.κ / 8 ∧ (hint.length = P.k * 512 ∧ hint'.length = P.k * 512) ∧ (z.length = P.l * 512 ∧ z'.length = P.l * 512) ∧
      ShortKernel P a (fun j i => unflatten P.l z j i - unflatten P.l z' j i) := by
  obtain ⟨c, hint, z, e, l1, l2, l3, n1, seed, t, a, cI, g1, g2, g3, g4⟩ := C34_wire_sound P hP E fuel pkb hl pk hpk msg sig h
  obtain ⟨c', hint', z', e', l1', l2', l3', n1', seed', t', a', cI', k1, k2, k3, k4⟩ := C34_wire_sound P hP E fuel' pkb hl pk hpk msg' sig' h'
  obtain ⟨rfl, rfl⟩ := g1.unique k1
  obtain rfl := g2.unique k2
  have tk : ∀ {c : List U8} {hint z : List Int} {sig : List U8}, IsSigEncoding c hint z sig.length sig → c.length = 2 * P.κ / 8 → sig.take (2 * P.κ / 8) = c := by
    intro c hint z sig e hl
    obtain ⟨-, p, hb⟩ := e
    have hle : c.length ≤ sig.length := by
      have := congrArg List.length hb
      rw [bytesBits_length, List.length_append, List.length_append, bytesBits_length] at this
      omega
    apply bytesBits_inj
    have h2 : bytesBits sig = bytesBits (sig.take (2 * P.κ / 8)) ++ bytesBits (sig.drop (2 * P.κ / 8)) := by
      rw [← bytesBits_append, List.take_append_drop]
    rw [h2, List.append_assoc] at hb
    exact (List.append_inj hb (by rw [bytesBits_length, bytesBits_length, List.length_take]; omega)).1
  obtain rfl : c = c' := (tk e l1).symm.trans (hc.trans (tk e' l1'))
  obtain rfl := g3.unique k3
  obtain ⟨w1, -⟩ := par_bounds P hP
  have hbi : P.Binf.toNat / 2 ^ P.νw ≤ 2 := by rcases hP with rfl | rfl | rfl <;> decide
  have r1 : Hashed P E pkb msg sig _ := .commitment (E := E) (msg := msg) e ⟨l1, l2, l3⟩ g1 g2 g3
  have r2 : Hashed P E pkb msg' sig' _ := .commitment (E := E) (msg := msg') e' ⟨l1, l2', l3'⟩ g1 g2 g3
  have heq := g4.symm.trans k4
  by_cases hin : hashInput (recomputed P.νw P.νt a (fun r i => (t r i : ZMod q)) (toR cI) hint z) (messageHash E P.κ pkb msg) =
      hashInput (recomputed P.νw P.νt a (fun r i => (t r i : ZMod q)) (toR cI) hint' z') (messageHash E P.κ pkb msg')
  · obtain ⟨hw, -⟩ := hashInput_inj (fun r i => lt_trans (recomputed_lt _ _ w1 _ _ _ _ _ r i) (by norm_num))
      (fun r i => lt_trans (recomputed_lt _ _ w1 _ _ _ _ _ r i) (by norm_num)) hin
    have hb1 : ∀ x ∈ hint, x.natAbs ≤ 2 := fun x hx => le_trans (n1.1 x hx) hbi
    have hb2 : ∀ x ∈ hint', x.natAbs ≤ 2 := fun x hx => le_trans (n1'.1 x hx) hbi
    rw [w1] at hw
    right
    refine ⟨c, hint, hint', z, z', seed, t, a, e, e', g1, g2, l1, ⟨l2, l2'⟩, ⟨l3, l3'⟩, ?_, fun j i => ?_, fun r => ?_⟩
    · intro h0
      have hz : z = z' := unflatten_ext P.l z z' l3 l3' fun r i => by
        have := congrFun (congrFun h0 r) i
        exact sub_eq_zero.1 this
      subst hz
      obtain rfl := hint_unique P.νt a _ _ hint hint' z l2 l2' hb1 hb2 hw
      rw [← hlen] at e'
      exact hne (e.unique e')
    · have b1 := n1.2.1 _ (mem_unflatten j i l3)
      have b2 := n1'.2.1 _ (mem_unflatten j i l3')
      dsimp only
      omega
    · have := special_soundness P.νt a (fun r i => (t r i : ZMod q)) (toR cI) (toR cI) hint hint' z z' l2 l2' hb1 hb2 hw r
      rw [vecR_sub] at this
      intro i
      have h3 := this i
      have hz : negacyclic (fun i => (t r i : ZMod q)) (toR cI - toR cI) = 0 := by
        rw [negacyclic_sub_right', sub_self]
      rw [hz, smul_zero, sub_zero] at h3
      exact h3
  · exact Or.inl ⟨_, _, r1, r2, hin, heq⟩

/-- C59 (special soundness): two accepted signatures under one public key whose recomputed commitments agree give the short relation
a(z − z') − 2^νt (c − c') t. -/
theorem C59_special_soundness (P : Par) (hP : P = raccoon128 ∨ P = raccoon192 ∨ P = raccoon256) (E : Ext) (fuel fuel' : Nat) (pkb : List U8)
    (hl : pkb.length = PKey.byteLen P.κ P.k P.νt) (pk : PKey P.k) (hpk : Api.pkFromBytes P pkb = .ok pk) (msg msg' sig sig' : List U8)
    (h : Api.verify P E fuel pk msg sig = .ok true) (h' : Api.verify P E fuel' pk msg' sig' = .ok true) :
    ∃ (c c' : List U8) (hint hint' z z' : List Int) (seed : List U8) (t : Fin P.k → Fin 512 → Nat) (a : Fin P.k → Fin P.l → RPoly) (cI cI' : Fin 512 → Int),
      IsSigEncoding c hint z sig.length sig ∧ IsSigEncoding c' hint' z' sig'.length sig' ∧ IsPkOf P seed t pkb ∧ IsMatrixOf E seed a ∧
      IsChallengeOf E P.ω c cI ∧ IsChallengeOf E P.ω c' cI' ∧
      (∀ j i, (unflatten P.l z j i - unflatten P.l z' j i).natAbs ≤ 2 * P.Binf.toNat) ∧
      (recomputed P.νw P.νt a (fun r i => (t r i : ZMod q)) (toR cI) hint z = recomputed P.νw P.νt a (fun r i => (t r i : ZMod q)) (toR cI') hint' z' →
        ∀ r, ShortR (6 * 2 ^ 44) (ringMatVec a (vecR fun j i => unflatten P.l z j i - unflatten P.l z' j i) r -
          (2 ^ P.νt : ZMod q) • negacyclic (fun i => (t r i : ZMod q)) (toR cI - toR cI'))) := by
  obtain ⟨c, hint, z, e, l1, l2, l3, n1, seed, t, a, cI, g1, g2, g3, g4⟩ := C34_wire_sound P hP E fuel pkb hl pk hpk msg sig h
  obtain ⟨c', hint', z', e', l1', l2', l3', n1', seed', t', a', cI', k1, k2, k3, k4⟩ := C34_wire_sound P hP E fuel' pkb hl pk hpk msg' sig' h'
  obtain ⟨rfl, rfl⟩ := g1.unique k1
  obtain rfl := g2.unique k2
  obtain ⟨w1, -⟩ := par_bounds P hP
  have hbi : P.Binf.toNat / 2 ^ P.νw ≤ 2 := by rcases hP with rfl | rfl | rfl <;> decide
  refine ⟨c, c', hint, hint', z, z', seed, t, a, cI, cI', e, e', g1, g2, g3, k3, fun j i => ?_, fun hw r => ?_⟩
  · have b1 := n1.2.1 _ (mem_unflatten j i l3)
    have b2 := n1'.2.1 _ (mem_unflatten j i l3')
    omega
  · rw [w1] at hw
    have := special_soundness P.νt a (fun r i => (t r i : ZMod q)) (toR cI) (toR cI') hint hint' z z' l2 l2' (fun x hx => le_trans (n1.1 x hx) hbi)
      (fun x hx => le_trans (n1'.1 x hx) hbi) hw r
    rw [vecR_sub] at this
    exact this

/-! ### Entropy reuse -/

theorem negacyclicZ_sub (s c c' : Fin 512 → Int) (x : Fin 512) : negacyclicZ s c x - negacyclicZ s c' x = negacyclicZ s (fun i => c i - c' i) x := by
  unfold negacyclicZ
  rw [← Finset.sum_sub_distrib]
  refine Finset.sum_congr rfl fun i _ => ?_
  rw [← Finset.sum_sub_distrib]
  refine Finset.sum_congr rfl fun j _ => ?_
  split
  · ring
  · split <;> ring

/-- C61: signing twice with the same key and the same entropy: the i-th attempts of the two runs use the same ephemeral values, so whenever both runs
stop at the same attempt the difference of the two responses is (c − c')·s exactly, over the integers. -/
theorem C61_entropy_reuse (P : Par) (hP : P = raccoon128 ∨ P = raccoon192 ∨ P = raccoon256) (E : Ext) (fuel0 fuel fuel' d : Nat) (hd : ValidShares d)
    (entropy0 seed : List U8) (hseed : seed.length = P.κ / 8) (sk0 sk sk' : SKey P.k P.l d) (h0 : Api.generate P (utTableOf P) E fuel0 d entropy0 seed = .ok sk0)
    (hder : SKey.Derived P E sk0 sk) (hder' : SKey.Derived P E sk0 sk') (entropy msg msg' buf buf' b b' : List U8)
    (h : Api.sign P E fuel d sk entropy msg buf = .ok b) (h' : Api.sign P E fuel' d sk' entropy msg' buf' = .ok b') :
    ∃ (n n' : Nat) (c c' : List U8) (hint hint' z z' : List Int) (cI cI' : Fin 512 → Int),
      IsSigEncoding c hint z buf.length b ∧ IsSigEncoding c' hint' z' buf'.length b' ∧ IsChallengeOf E P.ω c cI ∧ IsChallengeOf E P.ω c' cI' ∧
      (∀ j x, unflatten P.l z j x = negacyclicZ (keySecret P E d entropy0 j) cI x + ephemeralR P E d entropy n j x) ∧
      (∀ j x, unflatten P.l z' j x = negacyclicZ (keySecret P E d entropy0 j) cI' x + ephemeralR P E d entropy n' j x) ∧
      (n = n' → ∀ j x, unflatten P.l z j x - unflatten P.l z' j x = negacyclicZ (keySecret P E d entropy0 j) (fun i => cI i - cI' i) x) := by
  have hwf0 := C37_wellformed P hP E fuel0 d hd entropy0 seed hseed sk0 h0
  obtain ⟨pkb, hpk⟩ := pkBytes_ok P hP sk0.pkey hwf0.pkey.seed
  obtain ⟨n, c, hint, z, g1, -, g3, -⟩ := C36_wire P hP E fuel0 fuel d hd entropy0 seed hseed sk0 sk h0 hder _ pkb List.length_replicate hpk entropy msg buf b h
  obtain ⟨n', c', hint', z', k1, -, k3, -⟩ := C36_wire P hP E fuel0 fuel' d hd entropy0 seed hseed sk0 sk' h0 hder' _ pkb List.length_replicate hpk entropy msg' buf' b' h'
  obtain ⟨_, t, a, cI, w, -, -, i3, -, -, -, -, i8, -⟩ := g1
  obtain ⟨_, t', a', cI', w', -, -, j3, -, -, -, -, j8, -⟩ := k1
  refine ⟨n, n', c, c', hint, hint', z, z', cI, cI', g3, k3, i3, j3, fun j x => by rw [i8], fun j x => by rw [j8], fun hn j x => ?_⟩
  subst hn
  rw [i8, j8, ← negacyclicZ_sub]
  ring

/-! ### Non-vacuity: with the toy hash of `Props/Demo.lean` (which ignores most of its input) one signature is accepted for all messages, and different
responses are accepted with the same challenge hash -/

/-- The challenge hash of every commitment under the toy hash. -/
def demoHash : List U8 := (List.range 32).map fun i => if i % 7 = 0 then 1 else 0

theorem demo_challengeHash (w : Fin 5 → Fin 512 → Nat) (μ : List U8) : challengeHash demoE 128 w μ = demoHash := by
  have h1 : (hashInput w μ).length ≠ 40 := by
    unfold hashInput
    rw [List.length_append, List.length_append, wBytes_length]
    simp only [List.length_cons, List.length_nil]
    omega
  have h2 : (hashInput w μ).head? ≠ some 0x75 := by
    unfold hashInput
    rw [List.append_assoc, List.cons_append, List.head?_cons]
    decide
  revert h1 h2
  unfold challengeHash
  generalize hashInput w μ = m
  intro h1 h2
  have hs : demoE.shake256 m = fun i => if i % 7 = 0 then 1 else 0 := by
    funext i
    show demoStream m i = _
    unfold demoStream
    rw [if_neg h1, if_neg h2]
  unfold xofOut demoHash
  rw [hs]

theorem demo_valid (pkb : List U8) (hl : pkb.length = PKey.byteLen 128 5 42) (msg : List U8) (h z : List Int) (hh : h.length = 2560) (hz : z.length = 2048)
    (hn : NormsOK 44 raccoon128.Binf.toNat raccoon128.B22.toNat h z) : ValidSig raccoon128 demoE pkb msg demoHash h z := by
  have hP : raccoon128 = raccoon128 ∨ raccoon128 = raccoon192 ∨ raccoon128 = raccoon256 := Or.inl rfl
  obtain ⟨pk, hpk, -⟩ := C24_api raccoon128 hP pkb hl
  obtain ⟨hwf, hip, -⟩ := pkFromBytes_wire hP hl hpk
  obtain ⟨A, hA⟩ := demo_finish.expandA pk.seed hwf.seed
  obtain ⟨a, ha⟩ := PMat.Is.exists A
  have hlen : demoHash.length = 2 * raccoon128.κ / 8 := by
    unfold demoHash
    rw [List.length_map, List.length_range]; rfl
  obtain ⟨cp, hcp⟩ := demo_finish.chal demoHash hlen
  exact ⟨hlen, hh, hz, hn, pk.seed, _, a, _, hip, isMatrixOf_of hA ha, isChallengeOf_of hcp, (demo_challengeHash _ _).symm⟩

theorem demo_encoding (v : Int) (hv : v = 0 ∨ v = 1) : ∃ b : List U8, b.length = 11524 ∧
    IsSigEncoding demoHash (List.replicate 2560 0) (List.replicate 2048 v) b.length b := by
  have h40 : (2 : Nat) ^ 40 = 1099511627776 := by norm_num
  have hlen : demoHash.length = 32 := by
    unfold demoHash
    rw [List.length_map, List.length_range]
  have hzb : ∀ x ∈ List.replicate 2048 v, x.natAbs ≤ 1 := by
    intro x hx
    obtain rfl := List.eq_of_mem_replicate hx
    rcases hv with rfl | rfl <;> decide
  obtain ⟨b, hb⟩ := C28_in_range demoHash (List.replicate 2560 0) (List.replicate 2048 v) (List.replicate 11524 0)
    (by rw [List.length_replicate, hlen]; omega) v
    (fun x hx => by rw [List.eq_of_mem_replicate hx]; decide)
    (fun x hx => by have := hzb x hx; rw [h40]; omega) (by rw [List.getLast?_replicate]; rfl)
    (by rw [h40]; rcases hv with rfl | rfl <;> decide)
  have hfit : 8 * demoHash.length + (sigBits (List.replicate 2560 0) (List.replicate 2048 v)).length ≤ 8 * (List.replicate 11524 (0 : U8)).length := by
    unfold sigBits
    rw [List.length_replicate, hlen, List.length_append, List.length_flatMap, List.length_flatMap, List.map_replicate, List.map_replicate,
      List.sum_replicate, List.sum_replicate, hintBits_length, respBits_length]
    rcases hv with rfl | rfl <;> simp
  rw [decide_eq_true hfit] at hb
  have := C28_format _ _ _ _ _ hb
  have hbl : b.length = 11524 := this.1.trans List.length_replicate
  refine ⟨b, hbl, ?_⟩
  rw [List.length_replicate, ← hbl] at this
  exact this

theorem demo_norms (v : Int) (hv : v = 0 ∨ v = 1) : NormsOK 44 raccoon128.Binf.toNat raccoon128.B22.toNat (List.replicate 2560 0) (List.replicate 2048 v) := by
  refine ⟨fun x hx => ?_, fun x hx => ?_, ?_⟩
  · rw [List.eq_of_mem_replicate hx]; exact Nat.zero_le _
  · rw [List.eq_of_mem_replicate hx]; rcases hv with rfl | rfl <;> decide
  · have h1 : sqSum (List.replicate 2560 0) = 0 := by unfold sqSum; rw [List.map_replicate, List.sum_replicate]; simp
    have h2 : scaledSqSum (List.replicate 2048 v) = 0 := by
      unfold scaledSqSum; rw [List.map_replicate, List.sum_replicate]
      rcases hv with rfl | rfl <;> simp
    rw [h1, h2]
    simp

/-- The hypotheses of C58 and C59 are met (with a hash function that has collisions). -/
example (pkb msg msg' : List U8) (hl : pkb.length = PKey.byteLen 128 5 42) :
    ∃ (pk : PKey 5) (sig sig' : List U8) (fuel : Nat), Api.pkFromBytes raccoon128 pkb = .ok pk ∧ sig ≠ sig' ∧ sig.length = sig'.length ∧ sig.take 32 = sig'.take 32 ∧
      Api.verify raccoon128 demoE fuel pk msg sig = .ok true ∧ Api.verify raccoon128 demoE fuel pk msg' sig = .ok true ∧
      Api.verify raccoon128 demoE fuel pk msg sig' = .ok true := by
  have hP : raccoon128 = raccoon128 ∨ raccoon128 = raccoon192 ∨ raccoon128 = raccoon256 := Or.inl rfl
  have h40 : (2 : Nat) ^ 40 = 1099511627776 := by norm_num
  obtain ⟨pk, hpk, -⟩ := C24_api raccoon128 hP pkb hl
  obtain ⟨b0, l0, e0⟩ := demo_encoding 0 (Or.inl rfl)
  obtain ⟨b1, l1, e1⟩ := demo_encoding 1 (Or.inr rfl)
  have v0 := fun msg => demo_valid pkb hl msg _ _ List.length_replicate List.length_replicate (demo_norms 0 (Or.inl rfl))
  have v1 := fun msg => demo_valid pkb hl msg _ _ List.length_replicate List.length_replicate (demo_norms 1 (Or.inr rfl))
  have small : ∀ v : Int, v = 0 ∨ v = 1 → ∀ x ∈ List.replicate 2048 v, x.natAbs < 15 * 2 ^ 40 := by
    intro v hv x hx
    rw [List.eq_of_mem_replicate hx, h40]
    rcases hv with rfl | rfl <;> decide
  obtain ⟨F0, k0⟩ := C34_wire_complete raccoon128 hP demoE pkb hl pk hpk msg b0 _ _ _ e0 (v0 msg) (small 0 (Or.inl rfl))
  obtain ⟨F0', k0'⟩ := C34_wire_complete raccoon128 hP demoE pkb hl pk hpk msg' b0 _ _ _ e0 (v0 msg') (small 0 (Or.inl rfl))
  obtain ⟨F1, k1⟩ := C34_wire_complete raccoon128 hP demoE pkb hl pk hpk msg b1 _ _ _ e1 (v1 msg) (small 1 (Or.inr rfl))
  refine ⟨pk, b0, b1, F0 + F0' + F1, hpk, ?_, l0.trans l1.symm, ?_, k0 _ (by omega), k0' _ (by omega), k1 _ (by omega)⟩
  · rintro rfl
    obtain ⟨-, -, h⟩ := e0.inj e1 rfl rfl (by rw [List.length_replicate, List.length_replicate])
    rw [List.replicate_inj] at h
    rcases h with ⟨-, h | h⟩
    · cases h
    · cases h
  · have tk : ∀ {hint z : List Int} {sig : List U8}, IsSigEncoding demoHash hint z sig.length sig → sig.take 32 = demoHash := by
      intro hint z sig e
      have hlen : demoHash.length = 32 := by
        unfold demoHash
        rw [List.length_map, List.length_range]
      obtain ⟨-, p, hb⟩ := e
      have hle : demoHash.length ≤ sig.length := by
        have := congrArg List.length hb
        rw [bytesBits_length, List.length_append, List.length_append, bytesBits_length] at this
        omega
      apply bytesBits_inj
      have h2 : bytesBits sig = bytesBits (sig.take 32) ++ bytesBits (sig.drop 32) := by
        rw [← bytesBits_append, List.take_append_drop]
      rw [h2, List.append_assoc] at hb
      exact (List.append_inj hb (by rw [bytesBits_length, bytesBits_length, List.length_take]; omega)).1
    exact (tk e0).trans (tk e1).symm

/-- The hypotheses of C61 are met, with both runs stopping at some attempt. -/
example (entropy0 seed entropy1 entropy2 msg msg' : List U8) (hseed : seed.length = 16) :
    ∃ (sk0 sk sk' : SKey 5 4 2) (b b' : List U8), Api.generate raccoon128 (utTableOf raccoon128) demoE 512 2 entropy0 seed = .ok sk0 ∧
      SKey.Derived raccoon128 demoE sk0 sk ∧ SKey.Derived raccoon128 demoE sk0 sk' ∧
      Api.sign raccoon128 demoE 512 2 sk entropy2 msg (List.replicate 11524 0) = .ok b ∧ Api.sign raccoon128 demoE 512 2 sk' entropy2 msg' (List.replicate 11524 0) = .ok b' := by
  obtain ⟨sk0, sk1, sk2, skb, b, h0, -, -, -, -, hd, hs, -⟩ := demo_run entropy0 seed entropy1 entropy2 msg hseed
  obtain ⟨sk0', sk1', sk2', skb', b', h0', -, -, -, -, hd', hs', -⟩ := demo_run entropy0 seed entropy1 entropy2 msg' hseed
  obtain rfl := Res.ok.inj (h0.symm.trans h0')
  exact ⟨sk0, sk2, sk2', b, b', h0, hd, hd', hs, hs'⟩

end Raccoon
