import Verif.Spec.Uniform
import Verif.Proofs.Sampling
import Verif.Proofs.Bytes
import Mathlib.Data.Fintype.BigOperators
import Mathlib.Algebra.BigOperators.Fin
import Mathlib.Data.Fin.Tuple.Basic
import Mathlib.Logic.Equiv.Fin.Basic
/-!
# Counting lemmas for the samplers
-/
namespace Raccoon
attribute [-instance] Monoid.toNPow
open Finset

instance : Fintype (BitVec n) := Fintype.ofEquiv (Fin (2 ^ n)) ⟨BitVec.ofFin, BitVec.toFin, fun _ => rfl, fun _ => rfl⟩

/-- A property of (m+1)-tuples, counted by the first entry. -/
theorem card_cons {W : Type} [Fintype W] (m : Nat) (p : (Fin (m + 1) → W) → Prop) :
    Nat.card { T : Fin (m + 1) → W // p T } = ∑ w, Nat.card { T : Fin m → W // p (Fin.cons w T : Fin (m + 1) → W) } := by
  rw [← Nat.card_sigma]
  refine Nat.card_congr ⟨fun T => ⟨T.1 0, Fin.tail T.1, by rw [Fin.cons_self_tail]; exact T.2⟩, fun x => ⟨(Fin.cons x.1 x.2.1 : Fin (m + 1) → W), x.2.2⟩, fun T => ?_, fun x => ?_⟩
  · exact Subtype.ext (Fin.cons_self_tail _)
  · rfl

/-- Drawing from equally likely values with rejection: every list of values of a given length is equally likely to come first. -/
theorem card_prefix {W V : Type} [Fintype W] [DecidableEq V] (g : W → Option V) (S : V → Prop) (c : Nat)
    (hS : ∀ v, S v → Nat.card { w // g w = some v } = c) : ∀ (m : Nat) (L L' : List V), L.length = L'.length → (∀ v ∈ L, S v) → (∀ v ∈ L', S v) →
      Nat.card { T : Fin m → W // L <+: (List.ofFn T).filterMap g } = Nat.card { T : Fin m → W // L' <+: (List.ofFn T).filterMap g } := by
  intro m
  induction m with
  | zero =>
    intro L L' hl _ _
    refine Nat.card_congr (Equiv.subtypeEquivRight fun T => ?_)
    rw [List.ofFn_zero, List.filterMap_nil, List.prefix_nil, List.prefix_nil, ← List.length_eq_zero_iff, ← List.length_eq_zero_iff, hl]
  | succ m ih =>
    intro L L' hl hL hL'
    cases L with
    | nil =>
      obtain rfl : L' = [] := List.length_eq_zero_iff.1 hl.symm
      rfl
    | cons v K =>
      cases L' with
      | nil => cases hl
      | cons v' K' =>
        have key : ∀ (v : V) (K : List V), S v → Nat.card { T : Fin (m + 1) → W // v :: K <+: (List.ofFn T).filterMap g } =
            Nat.card { w // g w = none } * Nat.card { T : Fin m → W // v :: K <+: (List.ofFn T).filterMap g } +
            c * Nat.card { T : Fin m → W // K <+: (List.ofFn T).filterMap g } := by
          intro v K hv
          rw [card_cons]
          have hw : ∀ w : W, Nat.card { T : Fin m → W // v :: K <+: (List.ofFn (Fin.cons w T : Fin (m + 1) → W)).filterMap g } =
              (if g w = none then Nat.card { T : Fin m → W // v :: K <+: (List.ofFn T).filterMap g } else 0) +
              (if g w = some v then Nat.card { T : Fin m → W // K <+: (List.ofFn T).filterMap g } else 0) := by
            intro w
            have hcons : ∀ T : Fin m → W, List.ofFn (Fin.cons w T : Fin (m + 1) → W) = w :: List.ofFn T := by
              intro T
              rw [List.ofFn_succ]
              rfl
            cases hg : g w with
            | none =>
              rw [if_pos rfl, if_neg (by exact nofun)]
              refine Eq.trans ?_ (Nat.add_zero _).symm
              refine Nat.card_congr (Equiv.subtypeEquivRight fun T => ?_)
              rw [hcons, List.filterMap_cons_none hg]
            | some x =>
              rw [if_neg (by exact nofun)]
              refine Eq.trans ?_ (Nat.zero_add _).symm
              by_cases hx : x = v
              · subst hx
                rw [if_pos rfl]
                refine Nat.card_congr (Equiv.subtypeEquivRight fun T => ?_)
                rw [hcons, List.filterMap_cons_some hg, List.cons_prefix_cons]
                exact and_iff_right rfl
              · rw [if_neg (fun e => hx (Option.some.inj e))]
                refine Nat.card_eq_zero.2 (Or.inl ⟨fun T => ?_⟩)
                have := T.2
                rw [hcons, List.filterMap_cons_some hg, List.cons_prefix_cons] at this
                exact hx this.1.symm
          have hcount : ∀ (p : W → Prop) (A : Nat) [DecidablePred p], (∑ w, if p w then A else 0) = Nat.card { w // p w } * A := by
            intro p A _
            rw [← Finset.sum_filter, Finset.sum_const, smul_eq_mul, Nat.card_eq_fintype_card, Fintype.card_subtype]
          rw [Finset.sum_congr rfl fun w _ => hw w, Finset.sum_add_distrib, hcount, hcount, hS v hv]
        rw [key v K (hL v (List.mem_cons_self ..)), key v' K' (hL' v' (List.mem_cons_self ..)),
          ih (v :: K) (v' :: K') hl hL hL', ih K K' (Nat.succ.inj hl) (fun x hx => hL x (List.mem_cons_of_mem _ hx)) (fun x hx => hL' x (List.mem_cons_of_mem _ hx))]

/-! ### Words -/

/-- The value of an `n`-byte word. -/
def wordVal (w : Fin n → U8) : Nat := leVal (List.ofFn w)

theorem wordVal_lt (w : Fin n → U8) : wordVal w < 2 ^ (8 * n) := by
  have := leVal_lt (List.ofFn w)
  rwa [List.length_ofFn] at this

theorem leBytes_length' : ∀ n v : Nat, (leBytes n v).length = n
  | 0, _ => rfl
  | n + 1, v => by rw [leBytes, List.length_cons, leBytes_length']

/-- Byte strings of length `n` and numbers below 256^n. -/
def wordEquiv (n : Nat) : (Fin n → U8) ≃ Fin (2 ^ (8 * n)) where
  toFun w := ⟨wordVal w, wordVal_lt w⟩
  invFun x := fun i => (leBytes n x.val)[i.val]'(by rw [leBytes_length']; exact i.isLt)
  left_inv w := by
    funext i
    have h := leBytes_leVal (List.ofFn w)
    rw [List.length_ofFn] at h
    have : ∀ (l : List U8) (h1 : i.val < l.length), l = List.ofFn w → l[i.val] = w i := by
      intro l h1 e
      subst e
      rw [List.getElem_ofFn]
    exact this _ _ h
  right_inv x := by
    apply Fin.ext
    show leVal (List.ofFn fun i : Fin n => (leBytes n x.val)[i.val]'_) = x.val
    have : (List.ofFn fun i : Fin n => (leBytes n x.val)[i.val]'(by rw [leBytes_length']; exact i.isLt)) = leBytes n x.val := by
      apply List.ext_getElem
      · rw [List.length_ofFn, leBytes_length']
      · intro j h1 h2
        rw [List.getElem_ofFn]
    rw [this, leVal_leBytes, Nat.mod_eq_of_lt x.isLt]

/-- Among the n-byte words, the residue `v` modulo a divisor `M` of 256^n occurs 256^n / M times. -/
theorem card_word_mod (n M k v : Nat) (h : 2 ^ (8 * n) = M * k) (hv : v < M) : Nat.card { w : Fin n → U8 // wordVal w % M = v } = k := by
  have e1 : Nat.card { w : Fin n → U8 // wordVal w % M = v } = Nat.card { x : Fin (2 ^ (8 * n)) // x.val % M = v } :=
    Nat.card_congr ((wordEquiv n).subtypeEquiv fun w => Iff.rfl)
  rw [e1, h]
  have e2 : { x : Fin (M * k) // x.val % M = v } ≃ Fin k := by
    refine ⟨fun x => ⟨x.1.val / M, Nat.div_lt_of_lt_mul x.1.isLt⟩, fun y => ⟨⟨v + M * y.val, ?_⟩, ?_⟩, fun x => ?_, fun y => ?_⟩
    · have := y.isLt
      calc v + M * y.val < M + M * y.val := by omega
        _ = M * (y.val + 1) := by ring
        _ ≤ M * k := Nat.mul_le_mul_left _ this
    · show (v + M * y.val) % M = v
      rw [Nat.add_mul_mod_self_left, Nat.mod_eq_of_lt hv]
    · apply Subtype.ext
      apply Fin.ext
      show v + M * (x.1.val / M) = x.1.val
      have h2 := Nat.mod_add_div x.1.val M
      rw [x.2] at h2
      exact h2
    · apply Fin.ext
      show (v + M * y.val) / M = y.val
      rw [Nat.add_mul_div_left _ _ (by omega), Nat.div_eq_of_lt hv, Nat.zero_add]
  rw [Nat.card_congr e2, Nat.card_fin]

/-! ### Streams as tables of words -/

/-- Strings of m·n bytes and tables of `m` words of `n` bytes. -/
def tableEquiv (m n : Nat) : (Fin (m * n) → U8) ≃ (Fin m → Fin n → U8) :=
  ((Equiv.arrowCongr finProdFinEquiv.symm (Equiv.refl U8))).trans (Equiv.curry _ _ _)

theorem tableEquiv_apply (m n : Nat) (B : Fin (m * n) → U8) (j : Fin m) (i : Fin n) :
    tableEquiv m n B j i = B ⟨i.val + n * j.val, (finProdFinEquiv (j, i)).isLt⟩ := rfl

theorem streamWord_prefix (m n : Nat) (B : Fin (m * n) → U8) (j : Fin m) : streamWord (prefixStream B) n j.val = wordVal (tableEquiv m n B j) := by
  unfold streamWord wordVal
  congr 1
  apply List.ext_getElem
  · simp
  · intro i h1 h2
    rw [List.getElem_map, List.getElem_range, List.getElem_ofFn, tableEquiv_apply]
    unfold prefixStream
    have hi : i < n := by simpa using h2
    have hlt : n * j.val + i < m * n := by
      have := (finProdFinEquiv (j, (⟨i, hi⟩ : Fin n))).isLt
      rw [finProdFinEquiv_apply_val] at this
      dsimp only at this
      omega
    rw [dif_pos hlt]
    congr 1
    apply Fin.ext
    show n * j.val + i = i + n * j.val
    omega

/-- Counting byte strings is counting tables of words. -/
theorem countBytes_table (m n : Nat) (p : (Fin (m * n) → U8) → Prop) (p' : (Fin m → Fin n → U8) → Prop) (h : ∀ B, p B ↔ p' (tableEquiv m n B)) :
    countBytes (m * n) p = Nat.card { T : Fin m → Fin n → U8 // p' T } :=
  Nat.card_congr ((tableEquiv m n).subtypeEquiv h)

/-! ### The uniform sampler -/

/-- Candidate of the uniform sampler carried by one 7-byte word. -/
def qCand (w : Fin 7 → U8) : Option Nat := if wordVal w % 2 ^ 49 < q then some (wordVal w % 2 ^ 49) else none

theorem accepted_table (m : Nat) (B : Fin (m * 7) → U8) : accepted (prefixStream B) m = (List.ofFn (tableEquiv m 7 B)).filterMap qCand := by
  have e : (List.range m).map (qWord (prefixStream B)) = (List.ofFn (tableEquiv m 7 B)).map fun w => wordVal w % 2 ^ 49 := by
    apply List.ext_getElem
    · rw [List.length_map, List.length_range, List.length_map, List.length_ofFn]
    · intro j h1 h2
      have hj : j < m := by rwa [List.length_map, List.length_range] at h1
      rw [List.getElem_map, List.getElem_range, List.getElem_map, List.getElem_ofFn]
      exact congrArg (· % 2 ^ 49) (streamWord_prefix m 7 B ⟨j, hj⟩)
  unfold accepted
  rw [e]
  generalize List.ofFn (tableEquiv m 7 B) = l
  induction l with
  | nil => rfl
  | cons w l ih =>
    rw [List.map_cons]
    by_cases hw : wordVal w % 2 ^ 49 < q
    · rw [List.filter_cons_of_pos (by exact decide_eq_true hw), List.filterMap_cons_some (show qCand w = some (wordVal w % 2 ^ 49) from if_pos hw), ih]
    · rw [List.filter_cons_of_neg (by simpa using hw), List.filterMap_cons_none (show qCand w = none from if_neg hw), ih]

theorem card_qCand (v : Nat) (hv : v < q) : Nat.card { w : Fin 7 → U8 // qCand w = some v } = 128 := by
  have h49 : q < 2 ^ 49 := by unfold q; norm_num
  have e : Nat.card { w : Fin 7 → U8 // qCand w = some v } = Nat.card { w : Fin 7 → U8 // wordVal w % 2 ^ 49 = v } := by
    refine Nat.card_congr (Equiv.subtypeEquivRight fun w => ?_)
    unfold qCand
    constructor
    · intro h
      split at h
      · exact Option.some.inj h
      · cases h
    · intro h
      rw [h, if_pos hv]
  rw [e]
  exact card_word_mod 7 (2 ^ 49) 128 v (by norm_num) (Nat.lt_trans hv h49)

/-- The coefficients of a polynomial as a list. -/
def polyNats (p : Poly) : List Nat := List.ofFn fun i : Fin 512 => (p[i.val]).raw.toNat

theorem ofFn_get (n : Nat) (f : Fin n → Nat) (l : List Nat) (e : l = List.ofFn f) (i : Nat) (h : i < l.length) (hi : i < n) : l[i]'h = f ⟨i, hi⟩ := by
  subst e
  rw [List.getElem_ofFn]

theorem polyNats_get (p : Poly) (l : List Nat) (e : polyNats p = l) (i : Nat) (h : i < l.length) (hi : i < 512) : l[i]'h = (p[i]'hi).raw.toNat :=
  ofFn_get 512 (fun i : Fin 512 => (p[i.val]).raw.toNat) l e.symm i h hi

theorem sampleQ_ok_iff (E : Ext) (fuel : Nat) (hdr seed : List U8) (p : Poly) :
    Poly.sampleQ E fuel hdr seed = .ok p ↔ polyNats p <+: accepted (E.shake256 (hdr ++ seed)) fuel := by
  rw [sampleQ_eq]
  have hlt := accepted_lt (E.shake256 (hdr ++ seed)) fuel
  generalize accepted (E.shake256 (hdr ++ seed)) fuel = l at hlt
  have hq : q < 2 ^ 64 := by unfold q; norm_num
  have hlen : (polyNats p).length = 512 := List.length_ofFn
  have hget := polyNats_get p _ rfl
  constructor
  · intro h
    split at h
    · rename_i hl
      have e := Res.ok.inj h
      generalize polyNats p = c at hlen hget
      rw [List.prefix_iff_eq_take, hlen]
      apply List.ext_getElem
      · rw [hlen, List.length_take, Nat.min_eq_left hl]
      · intro i h1 h2
        have hi : i < 512 := by rwa [hlen] at h1
        have h3 := hget i h1 hi
        subst e
        rw [h3, listPoly_get _ _ hi, List.getElem_take, BitVec.toNat_ofNat, List.getD_eq_getElem?_getD, List.getElem?_eq_getElem (by omega), Option.getD_some]
        exact Nat.mod_eq_of_lt (Nat.lt_trans (hlt _ (List.getElem_mem _)) hq)
    · cases h
  · intro h
    generalize polyNats p = c at hlen hget h
    have hl : 512 ≤ l.length := hlen ▸ h.length_le
    rw [if_pos hl]
    refine congrArg Res.ok ?_
    apply Vector.ext
    intro i hi
    have hc : i < c.length := by omega
    have h1 := List.prefix_iff_getElem?.1 h i hc
    apply Zq.ext_nat
    rw [listPoly_get _ _ hi, BitVec.toNat_ofNat, List.getD_eq_getElem?_getD, h1, Option.getD_some, hget i hc hi]
    exact Nat.mod_eq_of_lt (p[i]).raw.isLt

theorem sampleQ_count (E : Ext) (m : Nat) (hdr seed : List U8) (p : Poly) :
    countBytes (m * 7) (fun B => Poly.sampleQ (E.withStream B) m hdr seed = .ok p) =
      Nat.card { T : Fin m → Fin 7 → U8 // polyNats p <+: (List.ofFn T).filterMap qCand } := by
  refine countBytes_table m 7 _ _ fun B => ?_
  rw [sampleQ_ok_iff]
  show _ <+: accepted (prefixStream B) m ↔ _
  rw [accepted_table]

theorem sampleQ_uniform (E : Ext) (m : Nat) (hdr seed : List U8) (p p' : Poly) (hp : p.Can) (hp' : p'.Can) :
    countBytes (m * 7) (fun B => Poly.sampleQ (E.withStream B) m hdr seed = .ok p) =
      countBytes (m * 7) (fun B => Poly.sampleQ (E.withStream B) m hdr seed = .ok p') := by
  rw [sampleQ_count, sampleQ_count]
  have hc : ∀ p : Poly, p.Can → ∀ v ∈ polyNats p, v < q := by
    intro p hp v hv
    obtain ⟨i, rfl⟩ := List.mem_ofFn.1 hv
    exact hp i.val i.isLt
  exact card_prefix qCand (· < q) 128 card_qCand m _ _ (List.length_ofFn.trans List.length_ofFn.symm) (hc p hp) (hc p' hp')

end Raccoon
