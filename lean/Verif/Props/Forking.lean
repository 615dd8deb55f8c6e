import Verif.Proofs.Forking
import Verif.Props.Adaptive
import Verif.Props.Binding
import Verif.Props.Uniform
import Mathlib.Data.Nat.Choose.Basic
/-!
# C83: a forger, run twice, gives a short relation
-/
namespace Raccoon
attribute [-instance] Monoid.toNPow
open Finset

/-- C83: there are binom(512, ω) 2^ω challenge polynomials of weight ω. -/
theorem C83_challenges (ω : Nat) : Nat.card {γ : Fin 512 → Int // IsChallengeVec ω γ} = Nat.choose 512 ω * 2 ^ ω := card_challenges ω

/-- C83: which is at least 2^κ for each parameter set. -/
theorem C83_levels (P : Par) (hP : P = raccoon128 ∨ P = raccoon192 ∨ P = raccoon256) : 2 ^ P.κ ≤ Nat.card {γ : Fin 512 → Int // IsChallengeVec P.ω γ} := by
  rw [card_challenges, Nat.choose_eq_descFactorial_div_factorial]
  rcases hP with rfl | rfl | rfl
  · show 2 ^ 128 ≤ Nat.descFactorial 512 19 / Nat.factorial 19 * 2 ^ 19
    decide +kernel
  · show 2 ^ 192 ≤ Nat.descFactorial 512 31 / Nat.factorial 31 * 2 ^ 31
    decide +kernel
  · show 2 ^ 256 ≤ Nat.descFactorial 512 44 / Nat.factorial 44 * 2 ^ 44
    decide +kernel

/-- The polynomial of a challenge vector. -/
def chalOfVec (γ : Fin 512 → Int) : Poly := Vector.ofFn fun i => ⟨if γ i = 1 then 1#64 else if γ i = -1 then BitVec.ofNat 64 (q - 1) else 0#64⟩

theorem chalOfVec_get (γ : Fin 512 → Int) (i : Fin 512) : ((chalOfVec γ)[i.val]).raw.toNat = if γ i = 1 then 1 else if γ i = -1 then q - 1 else 0 := by
  unfold chalOfVec
  rw [Vector.getElem_ofFn]
  have h : (BitVec.ofNat 64 (q - 1)).toNat = q - 1 := by
    rw [BitVec.toNat_ofNat]
    decide
  dsimp only [Fin.eta]
  split
  · rfl
  · split
    · exact h
    · rfl

/-- C83: guessing the challenge polynomial of a hash value, for a XOF with uniform output. Over all byte strings that `m` two-byte words can be read from, a given polynomial is returned
by at most one binom(512, ω) 2^ω-th of those with which the sampler ends. -/
theorem C83_guess (E : Ext) (m ω : Nat) (cHash : List U8) (c : Poly) :
    (Nat.choose 512 ω * 2 ^ ω) * countBytes (m * 2) (fun B => Poly.chalPoly (E.withStream B) m ω cHash = .ok c) ≤
      countBytes (m * 2) (fun B => ∃ c', Poly.chalPoly (E.withStream B) m ω cHash = .ok c') := by
  by_cases h0 : ∃ B : Fin (m * 2) → U8, Poly.chalPoly (E.withStream B) m ω cHash = .ok c
  swap
  · have : countBytes (m * 2) (fun B => Poly.chalPoly (E.withStream B) m ω cHash = .ok c) = 0 := by
      unfold countBytes
      rw [Nat.card_eq_zero]
      exact Or.inl ⟨fun x => h0 ⟨x.1, x.2⟩⟩
    rw [this, Nat.mul_zero]
    exact Nat.zero_le _
  obtain ⟨B0, hB0⟩ := h0
  obtain ⟨w, ht⟩ := C18_weight _ _ _ _ _ hB0
  have hq1 : q - 1 ≠ 0 := by decide
  have key : ∀ γ : {γ : Fin 512 → Int // IsChallengeVec ω γ},
      countBytes (m * 2) (fun B => Poly.chalPoly (E.withStream B) m ω cHash = .ok (chalOfVec γ.1)) =
      countBytes (m * 2) (fun B => Poly.chalPoly (E.withStream B) m ω cHash = .ok c) := by
    rintro ⟨γ, h1, h2⟩
    refine C56_challenge E m ω cHash _ c ?_ ht ?_ w
    · intro i hi
      have := chalOfVec_get γ ⟨i, hi⟩
      dsimp only at this ⊢
      rw [this]
      split
      · exact Or.inr (Or.inl rfl)
      · split
        · exact Or.inr (Or.inr rfl)
        · exact Or.inl rfl
    · have e : ∀ i, |γ i| = if ((chalOfVec γ)[i.val]).raw.toNat ≠ 0 then 1 else 0 := by
        intro i
        have := h1 i
        rw [abs_le] at this
        rw [chalOfVec_get]
        rcases (by omega : γ i = -1 ∨ γ i = 0 ∨ γ i = 1) with e | e | e <;> simp [e, hq1]
      rw [Finset.sum_congr rfl fun i _ => e i, ← Finset.sum_filter, Finset.sum_const, nsmul_eq_mul, mul_one] at h2
      exact_mod_cast h2
  have : Finite {γ : Fin 512 → Int // IsChallengeVec ω γ} := Finite.of_equiv _ (chalEquiv ω).symm
  have := Fintype.ofFinite {γ : Fin 512 → Int // IsChallengeVec ω γ}
  have e : (Nat.choose 512 ω * 2 ^ ω) * countBytes (m * 2) (fun B => Poly.chalPoly (E.withStream B) m ω cHash = .ok c) =
      Nat.card (Σ γ : {γ : Fin 512 → Int // IsChallengeVec ω γ}, {B : Fin (m * 2) → U8 // Poly.chalPoly (E.withStream B) m ω cHash = .ok (chalOfVec γ.1)}) := by
    refine Eq.symm (Nat.card_sigma.trans ((Finset.sum_congr rfl fun γ _ => key γ).trans ?_))
    rw [Finset.sum_const, smul_eq_mul, Finset.card_univ, ← Nat.card_eq_fintype_card, card_challenges]
  rw [e]
  refine Nat.card_le_card_of_injective (fun x => (⟨x.2.1, chalOfVec x.1.1, x.2.2⟩ : {B : Fin (m * 2) → U8 // ∃ c', Poly.chalPoly (E.withStream B) m ω cHash = .ok c'})) ?_
  rintro ⟨⟨γ, hγ⟩, ⟨B, hB⟩⟩ ⟨⟨γ', hγ'⟩, ⟨B', hB'⟩⟩ h
  have e1 : B = B' := congrArg Subtype.val h
  subst e1
  have e2 : chalOfVec γ = chalOfVec γ' := Res.ok.inj (hB.symm.trans hB')
  have e3 : γ = γ' := by
    funext i
    have : ((chalOfVec γ)[i.val]).raw.toNat = ((chalOfVec γ')[i.val]).raw.toNat := by rw [e2]
    rw [chalOfVec_get, chalOfVec_get] at this
    have h1 := abs_le.1 (hγ.1 i)
    have h2 := abs_le.1 (hγ'.1 i)
    have hq2 : q - 1 ≠ 1 := by decide
    rcases (by omega : γ i = -1 ∨ γ i = 0 ∨ γ i = 1) with e | e | e <;> rcases (by omega : γ' i = -1 ∨ γ' i = 0 ∨ γ' i = 1) with e' | e' | e' <;>
      simp [e, e', hq1, hq2, hq1.symm, hq2.symm] at this ⊢
  subst e3
  rfl

/-- C83: two valid answers to different challenges for one commitment give a short relation. -/
theorem C83_relation (P : Par) (hP : P = raccoon128 ∨ P = raccoon192 ∨ P = raccoon256) (a : Fin P.k → Fin P.l → RPoly) (t : Fin P.k → RPoly)
    (γ γ' : Fin 512 → Int) (hγ : IsChallengeVec P.ω γ) (hγ' : IsChallengeVec P.ω γ') (h h' z z' : List Int) (T : TwoAnswers P a t γ γ' h h' z z') :
    ShortRelation P a t (fun j i => unflatten P.l z j i - unflatten P.l z' j i) (γ - γ') := by
  obtain ⟨hne, ⟨l1, l1', l2, l2'⟩, n1, n1', hw⟩ := T
  obtain ⟨w1, -⟩ := par_bounds P hP
  have hbi : P.Binf.toNat / 2 ^ P.νw ≤ 2 := by rcases hP with rfl | rfl | rfl <;> decide
  refine ⟨sub_ne_zero.2 hne, fun i => ?_, fun j i => ?_, fun r => ?_⟩
  · have b1 := abs_le.1 (hγ.1 i)
    have b2 := abs_le.1 (hγ'.1 i)
    show |γ i - γ' i| ≤ 2
    rw [abs_le]; constructor <;> omega
  · have b1 := n1.2.1 _ (mem_unflatten j i l2)
    have b2 := n1'.2.1 _ (mem_unflatten j i l2')
    omega
  · rw [w1] at hw
    have := special_soundness P.νt a t (toR γ) (toR γ') h h' z z' l1 l1' (fun x hx => le_trans (n1.1 x hx) hbi)
      (fun x hx => le_trans (n1'.1 x hx) hbi) hw r
    rw [vecR_sub] at this
    have e : toR (γ - γ') = toR γ - toR γ' := by
      funext i
      unfold toR
      simp
    rw [e]
    exact this

/-- The step of a game at which an attacker has forged. -/
theorem extracts_of {C D : Type} (P : Par) (hν : 0 < q / 2 ^ P.νw) {u M : Nat} {κ : Type} [Fintype κ] (A : Attacker P.k P.l P.νw C D) (a : Fin P.k → Fin P.l → RPoly)
    (b t : Fin P.k → RPoly) (ch : C → Fin 512 → Int) (out : List (Outcome P.k P.l P.νw C) → D × List Int × List Int) (W : NoiseTable M P.l P.k u κ) (c c' : Fin M → C) (n : Fin M)
    (hs : A.signs n = false)
    (h1 : ∃ hn : n.val < (simulatedGame A hν a b ch c W).length, (out (simulatedGame A hν a b ch c W)).2.1.length = P.k * 512 ∧
      (out (simulatedGame A hν a b ch c W)).2.2.length = P.l * 512 ∧ NormsOK P.νw P.Binf.toNat P.B22.toNat (out (simulatedGame A hν a b ch c W)).2.1 (out (simulatedGame A hν a b ch c W)).2.2 ∧
      ∀ r i, (((simulatedGame A hν a b ch c W)[n.val].1 r i).val : Int) =
        ((commitY P.νw P.νt a t (toR (ch (simulatedGame A hν a b ch c W)[n.val].2.1)) (vecR (unflatten P.l (out (simulatedGame A hν a b ch c W)).2.2)) r i : Int) +
          unflatten P.k (out (simulatedGame A hν a b ch c W)).2.1 r i) % (q / 2 ^ P.νw : Nat))
    (h2 : ∃ hn : n.val < (simulatedGame A hν a b ch (splice n c c') W).length, (out (simulatedGame A hν a b ch (splice n c c') W)).2.1.length = P.k * 512 ∧
      (out (simulatedGame A hν a b ch (splice n c c') W)).2.2.length = P.l * 512 ∧ NormsOK P.νw P.Binf.toNat P.B22.toNat (out (simulatedGame A hν a b ch (splice n c c') W)).2.1 (out (simulatedGame A hν a b ch (splice n c c') W)).2.2 ∧
      ∀ r i, (((simulatedGame A hν a b ch (splice n c c') W)[n.val].1 r i).val : Int) =
        ((commitY P.νw P.νt a t (toR (ch (simulatedGame A hν a b ch (splice n c c') W)[n.val].2.1)) (vecR (unflatten P.l (out (simulatedGame A hν a b ch (splice n c c') W)).2.2)) r i : Int) +
          unflatten P.k (out (simulatedGame A hν a b ch (splice n c c') W)).2.1 r i) % (q / 2 ^ P.νw : Nat))
    (hch : ch (c n) ≠ ch (c' n)) :
    Extracts P a t ch out n (simulatedGame A hν a b ch c W) (simulatedGame A hν a b ch (splice n c c') W) := by
  have hpre : (simulatedGame A hν a b ch c W).take n = (simulatedGame A hν a b ch (splice n c c') W).take n := by
    unfold simulatedGame
    refine play_prefix _ _ n (by omega) fun m hm => ?_
    have : splice n c c' m = c m := if_pos (show m < n from hm)
    rw [this]
  have hv : ∀ (x : Fin M → C) (hn : n.val < (simulatedGame A hν a b ch x W).length), (simulatedGame A hν a b ch x W)[n.val] =
      (A.commitment ((simulatedGame A hν a b ch x W).take n), x n, none) := by
    intro x hn
    have := (play_spec fun (n : Fin M) v =>
      (if A.signs n then simulatorW P.νw hν a b (ch (x n)) (maskOf W n) (errorOf W n) else A.commitment v, x n, if A.signs n then some (maskOf W n) else none)).2 n n.isLt hn
    simp only [Fin.eta, hs] at this
    exact this
  obtain ⟨hn, l1, l2, n1, e1⟩ := h1
  obtain ⟨hn', l1', l2', n1', e1'⟩ := h2
  have k1 := hv c hn
  have k2 := hv (splice n c c') hn'
  have hsp : splice n c c' n = c' n := if_neg (lt_irrefl n)
  have hc : ((simulatedGame A hν a b ch c W)[n.val]'hn).1 = ((simulatedGame A hν a b ch (splice n c c') W)[n.val]'hn').1 :=
    (congrArg Prod.fst k1).trans ((congrArg A.commitment hpre).trans (congrArg Prod.fst k2).symm)
  refine ⟨hn, hn', hc, ⟨?_, ⟨l1, l1', l2, l2'⟩, n1, n1', ?_⟩⟩
  · rw [k1, k2]
    show ch (c n) ≠ ch (splice n c c' n)
    rw [hsp]; exact hch
  · funext r i
    unfold recomputed
    rw [← e1 r i, ← e1' r i, hc]

theorem ratio_of_count {a x y Q F B : Nat} (hB : 0 < B) (hx : 0 < x) (hy : 0 < y) (h : B * (a * a) ≤ x * Q * (B * F + a * y)) :
    ((a : ℚ) / ((x * y : Nat) : ℚ)) * ((a : ℚ) / ((x * y : Nat) : ℚ) / Q - 1 / B) ≤ (F : ℚ) / ((x * (y * y) : Nat) : ℚ) := by
  have b0 : (0 : ℚ) < B := by exact_mod_cast hB
  have x0 : (0 : ℚ) < x := by exact_mod_cast hx
  have y0 : (0 : ℚ) < y := by exact_mod_cast hy
  have hq : (B : ℚ) * (a * a) ≤ x * Q * (B * F + a * y) := by exact_mod_cast h
  push_cast
  rcases Nat.eq_zero_or_pos Q with rfl | hQ
  · have : (a : ℚ) / (x * y) * (a / (x * y) / ((0 : Nat) : ℚ) - 1 / B) ≤ 0 := by
      rw [Nat.cast_zero, div_zero, zero_sub]
      exact mul_nonpos_of_nonneg_of_nonpos (by positivity) (by simp)
    exact le_trans this (by positivity)
  · have q0 : (0 : ℚ) < Q := by exact_mod_cast hQ
    rw [← sub_nonneg]
    have e : (F : ℚ) / (x * (y * y)) - a / (x * y) * (a / (x * y) / Q - 1 / B) = (x * Q * (B * F + a * y) - B * (a * a)) / (x * x * (y * y) * Q * B) := by
      field_simp
      ring
    rw [e]
    exact div_nonneg (sub_nonneg.2 hq) (by positivity)

/-- C83: rewinding. Against the simulator (which does not know the secret), let the attacker forge on a fraction S of all noise tables and hash values, with Q hash queries, and let
no challenge polynomial have more than 1/B of the hash values. Then a fraction of at least S (S/Q − 1/B) of all noise tables and pairs of tuples of hash values is such that the game and its
repetition from some hash query on, with the new hash values, give two valid answers to different challenges for one commitment. -/
theorem C83_fork (P : Par) (hν : 0 < q / 2 ^ P.νw) (d M : Nat) (C D : Type) [Nonempty C] [Fintype C] (A : Attacker P.k P.l P.νw C D)
    (a : Fin P.k → Fin P.l → RPoly) (b t : Fin P.k → RPoly) (ch : C → Fin 512 → Int) (B : Nat) (hB0 : 0 < B) (hB : ∀ γ, B * Nat.card {c // ch c = γ} ≤ Nat.card C)
    (out : List (Outcome P.k P.l P.νw C) → D × List Int × List Int) (S : ℚ)
    (hS : S = (Nat.card {x : NoiseTable M P.l P.k (uwOf d) (Fin (repOf d) × Fin d) × (Fin M → C) //
        Forges A P.νt P.Binf.toNat P.B22.toNat a t ch out (simulatedGame A hν a b ch x.2 x.1) ∧ Fresh A (simulatedGame A hν a b ch x.2 x.1)} : ℚ) /
      Nat.card (NoiseTable M P.l P.k (uwOf d) (Fin (repOf d) × Fin d) × (Fin M → C))) :
    S * (S / (univ.filter fun n : Fin M => A.signs n = false).card - 1 / B) ≤
      (Nat.card {x : NoiseTable M P.l P.k (uwOf d) (Fin (repOf d) × Fin d) × (Fin M → C) × (Fin M → C) //
        ∃ n : Fin M, A.signs n = false ∧ Extracts P a t ch out n (simulatedGame A hν a b ch x.2.1 x.1) (simulatedGame A hν a b ch (splice n x.2.1 x.2.2) x.1)} : ℚ) /
      Nat.card (NoiseTable M P.l P.k (uwOf d) (Fin (repOf d) × Fin d) × (Fin M → C) × (Fin M → C)) := by
  classical
  let X := NoiseTable M P.l P.k (uwOf d) (Fin (repOf d) × Fin d)
  let Good : List (Outcome P.k P.l P.νw C) → Prop := fun v => Forges A P.νt P.Binf.toNat P.B22.toNat a t ch out v ∧ Fresh A v
  let At : Fin M → List (Outcome P.k P.l P.νw C) → Prop := fun n v => A.signs n = false ∧ ∃ hn : n.val < v.length, (out v).2.1.length = P.k * 512 ∧ (out v).2.2.length = P.l * 512 ∧
      NormsOK P.νw P.Binf.toNat P.B22.toNat (out v).2.1 (out v).2.2 ∧ ∀ r i, ((v[n.val].1 r i).val : Int) =
      ((commitY P.νw P.νt a t (toR (ch v[n.val].2.1)) (vecR (unflatten P.l (out v).2.2)) r i : Int) + unflatten P.k (out v).2.1 r i) % (q / 2 ^ P.νw : Nat)
  have hAt : ∀ (W : X) c, Good (simulatedGame A hν a b ch c W) → ∃ n : Fin M, At n (simulatedGame A hν a b ch c W) := by
    rintro W c ⟨⟨n, hn, h1, -, h3⟩, -⟩
    have hl : (simulatedGame A hν a b ch c W).length = M := (play_spec _).1
    exact ⟨⟨n, by omega⟩, h1, hn, h3⟩
  let f : X → (Fin M → C) → Option (Fin M) := fun W c => if h : Good (simulatedGame A hν a b ch c W) then some (hAt W c h).choose else none
  have hf : ∀ W c n, f W c = some n → At n (simulatedGame A hν a b ch c W) := by
    intro W c n h
    dsimp only [f] at h
    split at h
    · rename_i hg
      rw [← Option.some.inj h]
      exact (hAt W c hg).choose_spec
    · cases h
  have hfs : ∀ W c, (f W c).isSome = true ↔ Good (simulatedGame A hν a b ch c W) := by
    intro W c
    dsimp only [f]
    split <;> simp [*]
  have hk := forking f (univ.filter fun n : Fin M => A.signs n = false) (fun x c n h => Finset.mem_filter.2 ⟨Finset.mem_univ _, (hf x c n h).1⟩) ch B (by
    intro γ
    have := hB γ
    rwa [Nat.card_eq_fintype_card, Nat.card_eq_fintype_card, Fintype.card_subtype] at this)
  have e1 : (univ.filter fun p : X × (Fin M → C) => (f p.1 p.2).isSome = true).card = Nat.card {x : X × (Fin M → C) // Good (simulatedGame A hν a b ch x.2 x.1)} := by
    rw [Nat.card_eq_fintype_card, Fintype.card_subtype]
    congr 1
    ext p
    simp only [Finset.mem_filter, Finset.mem_univ, true_and]
    exact hfs p.1 p.2
  rw [e1] at hk
  have e2 : (univ.filter fun p : X × (Fin M → C) × (Fin M → C) => ∃ n, f p.1 p.2.1 = some n ∧ f p.1 (splice n p.2.1 p.2.2) = some n ∧ ch (p.2.1 n) ≠ ch (p.2.2 n)).card ≤
      Nat.card {x : X × (Fin M → C) × (Fin M → C) // ∃ n : Fin M, A.signs n = false ∧
        Extracts P a t ch out n (simulatedGame A hν a b ch x.2.1 x.1) (simulatedGame A hν a b ch (splice n x.2.1 x.2.2) x.1)} := by
    rw [Nat.card_eq_fintype_card, Fintype.card_subtype]
    refine Finset.card_le_card fun p hp => ?_
    obtain ⟨n, h1, h2, h3⟩ := (Finset.mem_filter.1 hp).2
    have k1 := hf _ _ _ h1
    have k2 := hf _ _ _ h2
    exact Finset.mem_filter.2 ⟨Finset.mem_univ _, n, k1.1, extracts_of P hν A a b t ch out p.1 p.2.1 p.2.2 n k1.1 k1.2 k2.2 h3⟩
  have p1 : 0 < Fintype.card X := Fintype.card_pos
  have p2 : 0 < Fintype.card (Fin M → C) := Fintype.card_pos
  have hk2 := le_trans hk (Nat.mul_le_mul_left _ (Nat.add_le_add_right (Nat.mul_le_mul_left B e2) _))
  have := ratio_of_count hB0 p1 p2 hk2
  rw [hS, Nat.card_prod, Nat.card_prod, Nat.card_prod, Nat.card_eq_fintype_card (α := NoiseTable M P.l P.k (uwOf d) (Fin (repOf d) × Fin d)), Nat.card_eq_fintype_card (α := Fin M → C)]
  exact this

/-- C83: from a forger to short relations. Let the attacker, with signing attempts and hash queries of its choice, forge against the signer on a fraction ε of all noise tables and
oracles (without repeated hash queries), and let δ be ε less 2^−floodBits for each signing attempt. Then, for the simulator, which knows a s + e₀ but not the secret: of all
noise tables and pairs of tuples of hash values at least δ (δ/Q − 1/B) are such that the outputs of the game and of its repetition with new hash values from some hash query on are a
short relation a δ − 2^νt γ t = small with γ ≠ 0. -/
theorem C83_forgery (P : Par) (hP : P = raccoon128 ∨ P = raccoon192 ∨ P = raccoon256) (hν : 0 < q / 2 ^ P.νw) (d M : Nat) (hd : ValidShares d)
    (C D : Type) [Nonempty C] [Fintype C] [DecidableEq C] [Fintype D] [DecidableEq D] (A : Attacker P.k P.l P.νw C D)
    (a : Fin P.k → Fin P.l → RPoly) (s : Fin P.l → Fin 512 → Int) (e₀ : Fin P.k → Fin 512 → Int) (t : Fin P.k → RPoly)
    (hs : ∀ j x, |s j x| ≤ repOf d * d * 2 ^ (utOf P.κ d - 1)) (he : ∀ j x, |e₀ j x| ≤ repOf d * d * 2 ^ (utOf P.κ d - 1))
    (ch : C → Fin 512 → Int) (hch : ∀ c, IsChallengeVec P.ω (ch c)) (B : Nat) (hB0 : 0 < B) (hB : ∀ γ, B * Nat.card {c // ch c = γ} ≤ Nat.card C)
    (out : List (Outcome P.k P.l P.νw C) → D × List Int × List Int) (ε δ : ℚ)
    (hε : ε = (Nat.card {x : NoiseTable M P.l P.k (uwOf d) (Fin (repOf d) × Fin d) × (D × Commitment P.k P.νw → C) //
        Forges A P.νt P.Binf.toNat P.B22.toNat a t ch out (realGame A hν a s ch x.2 x.1) ∧ Fresh A (realGame A hν a s ch x.2 x.1)} : ℚ) /
      Nat.card (NoiseTable M P.l P.k (uwOf d) (Fin (repOf d) × Fin d) × (D × Commitment P.k P.νw → C)))
    (hδ : δ = ε - (univ.filter fun n : Fin M => A.signs n = true).card / 2 ^ floodBits P d) (hδ0 : 0 ≤ δ) :
    δ * (δ / (univ.filter fun n : Fin M => A.signs n = false).card - 1 / B) ≤
      (Nat.card {x : NoiseTable M P.l P.k (uwOf d) (Fin (repOf d) × Fin d) × (Fin M → C) × (Fin M → C) //
        ∃ n : Fin M, A.signs n = false ∧ ∃ v v', v = simulatedGame A hν a (publicB a s e₀) ch x.2.1 x.1 ∧ v' = simulatedGame A hν a (publicB a s e₀) ch (splice n x.2.1 x.2.2) x.1 ∧
          ShortRelation P a t (fun j i => unflatten P.l (out v).2.2 j i - unflatten P.l (out v').2.2 j i) (ch (x.2.1 n) - ch (x.2.2 n))} : ℚ) /
      Nat.card (NoiseTable M P.l P.k (uwOf d) (Fin (repOf d) × Fin d) × (Fin M → C) × (Fin M → C)) := by
  have h1 := C82_forgery P hP hν d M hd C D A a s e₀ t hs he ch (fun c => (hch c).2) out
  rw [← hε] at h1
  have h2 := C83_fork P hν d M C D A a (publicB a s e₀) t ch B hB0 hB out _ rfl
  have h3 : (Nat.card {x : NoiseTable M P.l P.k (uwOf d) (Fin (repOf d) × Fin d) × (Fin M → C) × (Fin M → C) //
        ∃ n : Fin M, A.signs n = false ∧ Extracts P a t ch out n (simulatedGame A hν a (publicB a s e₀) ch x.2.1 x.1) (simulatedGame A hν a (publicB a s e₀) ch (splice n x.2.1 x.2.2) x.1)}) ≤
      Nat.card {x : NoiseTable M P.l P.k (uwOf d) (Fin (repOf d) × Fin d) × (Fin M → C) × (Fin M → C) //
        ∃ n : Fin M, A.signs n = false ∧ ∃ v v', v = simulatedGame A hν a (publicB a s e₀) ch x.2.1 x.1 ∧ v' = simulatedGame A hν a (publicB a s e₀) ch (splice n x.2.1 x.2.2) x.1 ∧
          ShortRelation P a t (fun j i => unflatten P.l (out v).2.2 j i - unflatten P.l (out v').2.2 j i) (ch (x.2.1 n) - ch (x.2.2 n))} := by
    refine Nat.card_mono (Set.toFinite _) ?_
    rintro ⟨W, c, c'⟩ ⟨n, hs, hn, hn', -, hT⟩
    refine ⟨n, hs, _, _, rfl, rfl, ?_⟩
    have hv : ∀ (x : Fin M → C) (hn : n.val < (simulatedGame A hν a (publicB a s e₀) ch x W).length), (simulatedGame A hν a (publicB a s e₀) ch x W)[n.val].2.1 = x n := by
      intro x hn
      have := (play_spec fun (n : Fin M) v =>
        (if A.signs n then simulatorW P.νw hν a (publicB a s e₀) (ch (x n)) (maskOf W n) (errorOf W n) else A.commitment v, x n, if A.signs n then some (maskOf W n) else none)).2 n n.isLt hn
      exact congrArg (fun o => o.2.1) this
    have k1 := hv c hn
    have k2 := hv (splice n c c') hn'
    rw [show splice n c c' n = c' n from if_neg (lt_irrefl n)] at k2
    dsimp only at hT
    rw [k1, k2] at hT
    exact C83_relation P hP a t _ _ (hch _) (hch _) _ _ _ _ hT
  generalize (Nat.card {x : NoiseTable M P.l P.k (uwOf d) (Fin (repOf d) × Fin d) × (Fin M → C) // _} : ℚ) / _ = S at h1 h2
  have b0 : (0 : ℚ) < B := by exact_mod_cast hB0
  have h4 : δ ≤ S := by rw [hδ]; linarith
  have h5 : δ * (δ / (univ.filter fun n : Fin M => A.signs n = false).card - 1 / B) ≤ max 0 (S * (S / (univ.filter fun n : Fin M => A.signs n = false).card - 1 / B)) := by
    have hq : (0 : ℚ) ≤ (univ.filter fun n : Fin M => A.signs n = false).card := by positivity
    have hm : δ / (univ.filter fun n : Fin M => A.signs n = false).card - 1 / B ≤ S / (univ.filter fun n : Fin M => A.signs n = false).card - 1 / (B : ℚ) :=
      sub_le_sub_right (div_le_div_of_nonneg_right h4 hq) _
    by_cases hneg : δ / (univ.filter fun n : Fin M => A.signs n = false).card - 1 / (B : ℚ) ≤ 0
    · exact le_max_of_le_left (mul_nonpos_of_nonneg_of_nonpos hδ0 hneg)
    · exact le_max_of_le_right (mul_le_mul h4 hm (le_of_lt (not_le.1 hneg)) (le_trans hδ0 h4))
  refine le_trans h5 (max_le (by positivity) (le_trans h2 ?_))
  refine div_le_div_of_nonneg_right ?_ (by positivity)
  exact_mod_cast h3

/-- C83: the hypothesis on hash values, met. If hash values are the byte strings with which the challenge sampler ends, every challenge polynomial has at most one
binom(512, ω) 2^ω-th of them. -/
theorem C83_ideal (E : Ext) (m ω : Nat) (cHash : List U8) :
    ∃ ch : {B : Fin (m * 2) → U8 // ∃ c, Poly.chalPoly (E.withStream B) m ω cHash = .ok c} → Fin 512 → Int,
      (∀ B, IsChallengeVec ω (ch B)) ∧ (∀ B, Poly.chalPoly (E.withStream B.1) m ω cHash = .ok (chalOfVec (ch B))) ∧
      ∀ γ, (Nat.choose 512 ω * 2 ^ ω) * Nat.card {B // ch B = γ} ≤ Nat.card {B : Fin (m * 2) → U8 // ∃ c, Poly.chalPoly (E.withStream B) m ω cHash = .ok c} := by
  have hq1 : q - 1 ≠ 0 := by decide
  have hq2 : q - 1 ≠ 1 := by decide
  have hx : ∀ B : {B : Fin (m * 2) → U8 // ∃ c, Poly.chalPoly (E.withStream B) m ω cHash = .ok c}, ∃ γ, IsChallengeVec ω γ ∧
      Poly.chalPoly (E.withStream B.1) m ω cHash = .ok (chalOfVec γ) := by
    rintro ⟨B, c, hc⟩
    obtain ⟨w, ht⟩ := C18_weight _ _ _ _ _ hc
    refine ⟨fun i => if (c[i.val]).raw.toNat = 0 then 0 else if (c[i.val]).raw.toNat = 1 then 1 else -1, ⟨fun i => ?_, ?_⟩, ?_⟩
    · dsimp only
      split
      · decide
      · split <;> decide
    · have e : ∀ i : Fin 512, |if (c[i.val]).raw.toNat = 0 then (0 : Int) else if (c[i.val]).raw.toNat = 1 then 1 else -1| = if (c[i.val]).raw.toNat ≠ 0 then 1 else 0 := by
        intro i
        by_cases h : (c[i.val]).raw.toNat = 0
        · rw [if_pos h, if_neg (not_not.2 h)]; rfl
        · rw [if_neg h, if_pos h]
          split <;> rfl
      rw [Finset.sum_congr rfl fun i _ => e i, ← Finset.sum_filter, Finset.sum_const, nsmul_eq_mul, mul_one, w]
    · refine hc.trans (congrArg Res.ok ?_)
      apply Vector.ext
      intro i hi
      have aux : ∀ x y : Zq, x.raw.toNat = y.raw.toNat → x = y := by
        rintro ⟨x⟩ ⟨y⟩ h
        exact congrArg Zq.mk (BitVec.eq_of_toNat_eq h)
      refine aux _ _ ?_
      refine Eq.trans ?_ (chalOfVec_get _ ⟨i, hi⟩).symm
      dsimp only
      have h3 := ht i hi
      generalize (c[i]).raw.toNat = x at h3 ⊢
      rcases h3 with e | e | e <;> simp [e, hq1, hq2]
  choose ch h1 h2 using hx
  refine ⟨ch, h1, h2, fun γ => ?_⟩
  refine le_trans (Nat.mul_le_mul_left _ ?_) (C83_guess E m ω cHash (chalOfVec γ))
  refine Nat.card_le_card_of_injective (fun x => (⟨x.1.1, (h2 x.1).trans (by rw [x.2])⟩ : {B : Fin (m * 2) → U8 // Poly.chalPoly (E.withStream B) m ω cHash = .ok (chalOfVec γ)})) ?_
  rintro ⟨⟨B, hB⟩, e⟩ ⟨⟨B', hB'⟩, e'⟩ h
  have : B = B' := congrArg Subtype.val h
  subst this
  rfl

/-- Non-vacuity of `C83_forgery`, `C83_fork` and `C83_relation`: for the public vector 0, an attacker that has signed once and hashes once, and always forges. -/
example (hν : 0 < q / 2 ^ raccoon128.νw) (a : Fin raccoon128.k → Fin raccoon128.l → RPoly) : ∃ (C : Type) (_ : Nonempty C) (_ : Fintype C) (_ : DecidableEq C)
    (A : Attacker raccoon128.k raccoon128.l raccoon128.νw C Bool)
    (s : Fin raccoon128.l → Fin 512 → Int) (e₀ : Fin raccoon128.k → Fin 512 → Int) (ch : C → Fin 512 → Int)
    (out : List (Outcome raccoon128.k raccoon128.l raccoon128.νw C) → Bool × List Int × List Int),
    s ≠ 0 ∧ (∀ j x, |s j x| ≤ repOf 2 * 2 * 2 ^ (utOf raccoon128.κ 2 - 1)) ∧ (∀ j x, |e₀ j x| ≤ repOf 2 * 2 * 2 ^ (utOf raccoon128.κ 2 - 1)) ∧
      (∀ c, IsChallengeVec raccoon128.ω (ch c)) ∧ (∀ γ, 2 ^ 128 * Nat.card {c // ch c = γ} ≤ Nat.card C) ∧ A.signs 0 = true ∧ A.signs 1 = false ∧
      (∀ (b : Fin raccoon128.k → RPoly) (c : Fin 2 → C) (W : NoiseTable 2 raccoon128.l raccoon128.k (uwOf 2) (Fin (repOf 2) × Fin 2)),
        Forges A raccoon128.νt raccoon128.Binf.toNat raccoon128.B22.toNat a 0 ch out (simulatedGame A hν a b ch c W) ∧ Fresh A (simulatedGame A hν a b ch c W)) ∧
      (∀ (H : Bool × Commitment raccoon128.k raccoon128.νw → C) (W : NoiseTable 2 raccoon128.l raccoon128.k (uwOf 2) (Fin (repOf 2) × Fin 2)),
        Forges A raccoon128.νt raccoon128.Binf.toNat raccoon128.B22.toNat a 0 ch out (realGame A hν a s ch H W) ∧ Fresh A (realGame A hν a s ch H W)) ∧
      ∃ c c' : C, TwoAnswers raccoon128 a 0 (ch c) (ch c') (List.replicate (raccoon128.k * 512) 0) (List.replicate (raccoon128.k * 512) 0)
        (List.replicate (raccoon128.l * 512) 0) (List.replicate (raccoon128.l * 512) 0) := by
  classical
  have hP : raccoon128 = raccoon128 ∨ raccoon128 = raccoon192 ∨ raccoon128 = raccoon256 := Or.inl rfl
  have h7 : |(7 : Int)| ≤ repOf 2 * 2 * 2 ^ (utOf raccoon128.κ 2 - 1) := by decide +kernel
  have hfin : Finite {γ : Fin 512 → Int // IsChallengeVec raccoon128.ω γ} := Finite.of_equiv _ (chalEquiv raccoon128.ω).symm
  have hlev := C83_levels raccoon128 hP
  have hbig : 2 ≤ Nat.card {γ : Fin 512 → Int // IsChallengeVec raccoon128.ω γ} := le_trans (by decide) hlev
  have hne : Nonempty {γ : Fin 512 → Int // IsChallengeVec raccoon128.ω γ} := (Nat.card_pos_iff.1 (by omega)).1
  obtain ⟨c, c', hcc⟩ := (Finite.one_lt_card_iff_nontrivial.1 (by omega) : Nontrivial {γ : Fin 512 → Int // IsChallengeVec raccoon128.ω γ}).exists_pair_ne
  let A : Attacker raccoon128.k raccoon128.l raccoon128.νw {γ : Fin 512 → Int // IsChallengeVec raccoon128.ω γ} Bool := ⟨fun n => n == 0, fun v => v.length == 0, fun _ _ _ => ⟨0, hν⟩⟩
  let out : List (Outcome raccoon128.k raccoon128.l raccoon128.νw {γ : Fin 512 → Int // IsChallengeVec raccoon128.ω γ}) → Bool × List Int × List Int := fun _ =>
    (false, List.replicate (raccoon128.k * 512) 0, List.replicate (raccoon128.l * 512) 0)
  have hun : ∀ (n : Nat) r i, unflatten n (List.replicate (n * 512) 0) r i = 0 := by
    intro n r i
    have := mem_unflatten r i (List.length_replicate (n := n * 512) (a := (0 : Int)))
    exact (List.mem_replicate.1 this).2
  have hcom : ∀ (γ : RPoly) r i, commitY raccoon128.νw raccoon128.νt a 0 γ (vecR (unflatten raccoon128.l (List.replicate (raccoon128.l * 512) 0))) r i = 0 := by
    intro γ r i
    have e1 : vecR (unflatten raccoon128.l (List.replicate (raccoon128.l * 512) 0)) = 0 := by
      funext j x
      unfold vecR toR
      rw [hun]
      simp
    unfold commitY
    rw [e1]
    have e2 : (ringMatVec a 0 r - (2 ^ raccoon128.νt : ZMod q) • negacyclic ((0 : Fin raccoon128.k → RPoly) r) γ) i = 0 := by
      unfold ringMatVec negacyclic
      simp
    rw [e2]
    unfold roundZ
    rw [ZMod.val_zero, Nat.zero_add, Nat.div_eq_of_lt (by decide), Nat.zero_mod]
  have hnorm : NormsOK raccoon128.νw raccoon128.Binf.toNat raccoon128.B22.toNat (List.replicate (raccoon128.k * 512) 0) (List.replicate (raccoon128.l * 512) 0) := by
    have hz : ∀ n : Nat, sqSum (List.replicate n 0) = 0 := by
      intro n
      induction n with
      | zero => rfl
      | succ n ih => rw [List.replicate_succ]; exact (congrArg (0 + ·) ih)
    have hz2 : ∀ n : Nat, scaledSqSum (List.replicate n 0) = 0 := by
      intro n
      induction n with
      | zero => rfl
      | succ n ih => rw [List.replicate_succ]; exact (congrArg (0 + ·) ih)
    refine ⟨fun x hx => ?_, fun x hx => ?_, ?_⟩
    · rw [(List.mem_replicate.1 hx).2]; exact Nat.zero_le _
    · rw [(List.mem_replicate.1 hx).2]; exact Nat.zero_le _
    · rw [hz, hz2]; exact Nat.zero_le _
  have hgood : ∀ v : List (Outcome raccoon128.k raccoon128.l raccoon128.νw {γ : Fin 512 → Int // IsChallengeVec raccoon128.ω γ}), v.length = 2 →
      (∀ (h : 1 < v.length), v[1].1 = A.commitment (v.take 1)) →
      Forges A raccoon128.νt raccoon128.Binf.toNat raccoon128.B22.toNat a 0 Subtype.val out v ∧ Fresh A v := by
    intro v hl hv
    constructor
    · refine ⟨1, by omega, rfl, ?_, List.length_replicate, List.length_replicate, hnorm, fun r i => ?_⟩
      · show ((v.take 1).length == 0) = false
        rw [List.length_take_of_le (by omega)]; rfl
      · rw [hv (by omega), hcom, hun]
        rfl
    · intro n m hn hm hnm e
      have e1 : ((v.take n).length == 0) = ((v.take m).length == 0) := (Prod.mk.inj e).1
      rw [List.length_take_of_le (by omega), List.length_take_of_le (by omega)] at e1
      obtain rfl : n = 0 := by omega
      obtain rfl : m = 1 := by omega
      cases e1
  refine ⟨_, hne, Fintype.ofFinite _, Classical.decEq _, A, fun _ _ => 7, fun _ _ => 7, Subtype.val, out, ?_, fun _ _ => h7, fun _ _ => h7, fun c => c.2, fun γ => ?_, rfl, rfl, fun b c W => ?_,
    fun H W => ?_, c, c', ?_⟩
  · intro h
    exact absurd (congrFun (congrFun h ⟨0, by decide⟩) 0) (by decide)
  · have : Nat.card {c : {γ : Fin 512 → Int // IsChallengeVec raccoon128.ω γ} // c.1 = γ} ≤ 1 := by
      have : Subsingleton {c : {γ : Fin 512 → Int // IsChallengeVec raccoon128.ω γ} // c.1 = γ} := ⟨fun x y => Subtype.ext (Subtype.ext (x.2.trans y.2.symm))⟩
      exact Finite.card_le_one_iff_subsingleton.2 this
    refine le_trans (Nat.mul_le_mul_left _ this) ?_
    rw [Nat.mul_one]
    exact hlev
  · exact hgood _ (play_spec _).1 fun h => congrArg Prod.fst ((play_spec _).2 1 (by omega) h)
  · exact hgood _ (play_spec _).1 fun h => congrArg Prod.fst ((play_spec _).2 1 (by omega) h)
  · refine ⟨fun e => hcc (Subtype.ext e), ⟨List.length_replicate, List.length_replicate, List.length_replicate, List.length_replicate⟩, hnorm, hnorm, ?_⟩
    funext r i
    unfold recomputed
    rw [hcom, hcom]

end Raccoon
