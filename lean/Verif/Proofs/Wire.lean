import Verif.Spec.Wire
import Verif.Props.Sizes
/-!
# From the library's functions to the byte-level specification
-/
namespace Raccoon
attribute [-instance] Monoid.toNPow
open Finset

/-! ### Uniform polynomials and the matrix -/

theorem accepted_getD {s : Nat → U8} {m n i : Nat} (h : m ≤ n) (hi : i < (accepted s m).length) : (accepted s n).getD i 0 = (accepted s m).getD i 0 := by
  obtain ⟨k, rfl⟩ : ∃ k, n = m + k := ⟨n - m, by omega⟩
  obtain ⟨t, ht⟩ := accepted_prefix s m k
  rw [← ht]
  simp only [List.getD_eq_getElem?_getD]
  rw [List.getElem?_append_left hi]

theorem accepted_len {s : Nat → U8} {m n : Nat} (h : m ≤ n) : (accepted s m).length ≤ (accepted s n).length := by
  obtain ⟨k, rfl⟩ : ∃ k, n = m + k := ⟨n - m, by omega⟩
  exact (accepted_prefix s m k).length_le

theorem IsUniform.unique {s : Nat → U8} {f g : RPoly} (hf : IsUniform s f) (hg : IsUniform s g) : f = g := by
  obtain ⟨m, h1, h2⟩ := hf
  obtain ⟨n, h3, h4⟩ := hg
  funext i
  have hi := i.isLt
  rw [h2, h4]
  rcases Nat.le_total m n with h | h
  · rw [accepted_getD h (by omega)]
  · rw [accepted_getD h (by omega)]

theorem getD_accepted_lt (s : Nat → U8) (m i : Nat) : (accepted s m).getD i 0 < q := by
  rw [List.getD_eq_getElem?_getD]
  cases h : (accepted s m)[i]? with
  | none => show 0 < q; decide
  | some x => exact accepted_lt s m x (List.mem_of_getElem? h)

theorem listPoly_toZ (s : Nat → U8) (m : Nat) : (listPoly (accepted s m)).toZ = fun i : Fin 512 => (((accepted s m).getD i.val 0 : Nat) : ZMod q) := by
  funext i
  unfold Poly.toZ listPoly Zq.toZ
  rw [Vector.getElem_ofFn]
  have := getD_accepted_lt s m i.val
  have hq : q < 2 ^ 64 := by decide
  show (((BitVec.ofNat 64 ((accepted s m).getD i.val 0)).toNat : Nat) : ZMod q) = _
  rw [BitVec.toNat_ofNat, Nat.mod_eq_of_lt (by omega)]

theorem isUniform_of_sampleQ {E : Ext} {fuel : Nat} {hdr seed : List U8} {p : Poly} (h : Poly.sampleQ E fuel hdr seed = .ok p) :
    IsUniform (E.shake256 (hdr ++ seed)) p.toZ := by
  rw [sampleQ_eq] at h
  split at h
  · rename_i hl
    refine ⟨fuel, hl, fun i => ?_⟩
    rw [← Res.ok.inj h, listPoly_toZ]
  · cases h

theorem isMatrixOf_of {E : Ext} {fuel k l : Nat} {seed : List U8} {A : PMat k l} {a : Fin k → Fin l → RPoly} (h : PMat.expandA E fuel k l seed = .ok A)
    (ha : A.Is a) : IsMatrixOf E seed a := by
  intro r j
  rw [ha r j]
  exact isUniform_of_sampleQ (((expandA_safe E fuel k l seed).par A h).2 r j)

theorem IsMatrixOf.unique {E : Ext} {k l : Nat} {seed : List U8} {a b : Fin k → Fin l → RPoly} (ha : IsMatrixOf E seed a) (hb : IsMatrixOf E seed b) : a = b := by
  funext r j
  exact nttR_inj ((ha r j).unique (hb r j))

theorem IsMatrixOf.expandA {E : Ext} {k l : Nat} {seed : List U8} {a : Fin k → Fin l → RPoly} (ha : IsMatrixOf E seed a) :
    ∃ F, ∀ fuel, F ≤ fuel → ∃ A, PMat.expandA E fuel k l seed = .ok A ∧ A.Is a := by
  choose m h1 h2 using ha
  refine ⟨∑ r, ∑ j, m r j, fun fuel hf => ?_⟩
  have hm : ∀ r j, m r j ≤ fuel := by
    intro r j
    refine le_trans ?_ hf
    exact le_trans (Finset.single_le_sum (f := fun j => m r j) (fun _ _ => Nat.zero_le _) (mem_univ j))
      (Finset.single_le_sum (f := fun r => ∑ j, m r j) (fun _ _ => Nat.zero_le _) (mem_univ r))
  obtain ⟨A, hA⟩ := expandA_ok E (fuel := fuel) (k := k) (l := l) (seed := seed) (by
    intro r c hr hc
    have hl : 512 ≤ (accepted (E.shake256 (matHdr r c ++ seed)) fuel).length :=
      le_trans (h1 ⟨r, hr⟩ ⟨c, hc⟩) (accepted_len (hm ⟨r, hr⟩ ⟨c, hc⟩))
    exact ⟨_, by rw [sampleQ_eq, if_pos hl]⟩)
  refine ⟨A, hA, fun r j => ?_⟩
  exact IsUniform.unique ⟨m r j, h1 r j, h2 r j⟩ (isUniform_of_sampleQ (((expandA_safe E fuel k l seed).par A hA).2 r j))

/-! ### The challenge -/

theorem find_range_le {s : Nat → U8} {m n : Nat} (h : m ≤ n) (hc : chalCount s m = chalCount s n) (i : Nat) :
    (List.range n).find? (fun j => chalPos s j == i) = (List.range m).find? (fun j => chalPos s j == i) := by
  obtain ⟨k, rfl⟩ : ∃ k, n = m + k := ⟨n - m, by omega⟩
  have hsub : (range m).image (chalPos s) ⊆ (range (m + k)).image (chalPos s) :=
    Finset.image_subset_image (fun x hx => by rw [mem_range] at *; omega)
  have himg := Finset.eq_of_subset_of_card_le hsub (le_of_eq hc.symm)
  rw [List.range_add, List.find?_append]
  cases e : (List.range m).find? (fun j => chalPos s j == i) with
  | some j => rfl
  | none =>
    rw [Option.none_or, List.find?_eq_none]
    intro x hx hxi
    rw [List.mem_map] at hx
    obtain ⟨y, hy, rfl⟩ := hx
    rw [List.mem_range] at hy
    have hmem : chalPos s (m + y) ∈ (range (m + k)).image (chalPos s) := mem_image_of_mem _ (by rw [mem_range]; omega)
    rw [← himg, mem_image] at hmem
    obtain ⟨w, hw, hwe⟩ := hmem
    rw [List.find?_eq_none] at e
    refine e w (by rw [List.mem_range]; exact mem_range.1 hw) ?_
    rw [hwe]; exact hxi

theorem chalInt_eq {s : Nat → U8} {m n : Nat} (hc : chalCount s m = chalCount s n) : chalInt s m = chalInt s n := by
  funext i
  unfold chalInt
  rcases Nat.le_total m n with h | h
  · rw [find_range_le h hc]
  · rw [find_range_le h hc.symm]

theorem IsChallengeOf.unique {E : Ext} {ω : Nat} {cHash : List U8} {c c' : Fin 512 → Int} (h : IsChallengeOf E ω cHash c) (h' : IsChallengeOf E ω cHash c') : c = c' := by
  obtain ⟨m, h1, rfl⟩ := h
  obtain ⟨n, h2, rfl⟩ := h'
  exact chalInt_eq (h1.trans h2.symm)

theorem chalSpec_raw (s : Nat → U8) (m : Nat) (i : Fin 512) :
    ((chalSpec s m)[i.val]).raw.toNat = if chalInt s m i = -1 then q - 1 else (chalInt s m i).toNat := by
  unfold chalSpec chalInt
  rw [Vector.getElem_ofFn]
  cases (List.range m).find? (fun j => chalPos s j == i.val) with
  | none => rfl
  | some j =>
    show (BitVec.ofNat 64 (chalSign s j)).toNat = _
    unfold chalSign
    by_cases h : streamWord s 2 j % 2 = 1
    · simp only [h, if_true]; decide
    · simp only [h, if_false]; rfl

theorem chalInt_cases (s : Nat → U8) (m : Nat) (i : Fin 512) : chalInt s m i = -1 ∨ chalInt s m i = 0 ∨ chalInt s m i = 1 := by
  unfold chalInt
  split
  · split
    · exact Or.inl rfl
    · exact Or.inr (Or.inr rfl)
  · exact Or.inr (Or.inl rfl)

theorem qm1 : ((q - 1 : Nat) : Int).bmod q = -1 := by decide

theorem chalSpec_centered (s : Nat → U8) (m : Nat) : Poly.centered (chalSpec s m) = chalInt s m := by
  funext i
  unfold Poly.centered
  rw [chalSpec_raw]
  rcases chalInt_cases s m i with h | h | h
  · rw [h, if_pos rfl]; exact qm1
  · rw [h, if_neg (by decide)]; rfl
  · rw [h, if_neg (by decide)]; rfl

theorem toR_centered (p : Poly) : toR (Poly.centered p) = p.toZ := by
  funext i
  unfold toR Poly.centered Poly.toZ Zq.toZ
  have : ((((p[i.val]).raw.toNat : Int).bmod q : Int) : ZMod q) = (((p[i.val]).raw.toNat : Int) : ZMod q) := by
    rw [ZMod.intCast_eq_intCast_iff]
    exact Int.bmod_emod
  rw [this, Int.cast_natCast]

theorem isChallengeOf_of {E : Ext} {fuel ω : Nat} {cHash : List U8} {cp : Poly} (h : Poly.chalPoly E fuel ω cHash = .ok cp) :
    IsChallengeOf E ω cHash (Poly.centered cp) := by
  have hh := chalPoly_eq E fuel ω cHash _ rfl
  by_cases hc : ω ≤ chalCount (E.shake256 ([0x63, BitVec.ofNat 8 ω, 0, 0, 0, 0, 0, 0] ++ cHash)) fuel
  · obtain ⟨m, -, hm, e⟩ := hh.1 hc
    obtain rfl := Res.ok.inj (e.symm.trans h)
    exact ⟨m, hm, chalSpec_centered _ _⟩
  · rw [hh.2 hc] at h; cases h

theorem IsChallengeOf.chalPoly {E : Ext} {ω : Nat} {cHash : List U8} {c : Fin 512 → Int} (h : IsChallengeOf E ω cHash c) :
    ∃ F, ∀ fuel, F ≤ fuel → ∃ cp, Poly.chalPoly E fuel ω cHash = .ok cp ∧ cp.toZ = toR c := by
  obtain ⟨m, h1, h2⟩ := h
  refine ⟨m, fun fuel hf => ?_⟩
  obtain ⟨k, rfl⟩ : ∃ k, fuel = m + k := ⟨fuel - m, by omega⟩
  obtain ⟨m', -, -, e⟩ := (chalPoly_eq E (m + k) ω cHash _ rfl).1 (le_trans (le_of_eq h1.symm) (chalCount_mono _ m k))
  refine ⟨_, e, ?_⟩
  rw [← toR_centered, (isChallengeOf_of e).unique ⟨m, h1, h2⟩]

/-! ### Public keys -/

theorem range_flat {β : Type} (N : Nat) (f : Nat → List β) : ∀ k : Nat, (List.range (N * k)).flatMap f =
    (List.finRange k).flatMap fun r => (List.finRange N).flatMap fun i => f (N * r.val + i.val) := by
  have h1 : ∀ g : Nat → List β, ∀ n, (List.finRange n).flatMap (fun i => g i.val) = (List.range n).flatMap g := by
    intro g n
    rw [← List.map_coe_finRange_eq_range, List.flatMap_map]
  intro k
  rw [h1 (fun r => (List.finRange N).flatMap fun i => f (N * r + i.val)) k]
  induction k with
  | zero => rw [Nat.mul_zero]; rfl
  | succ k ih =>
    rw [List.range_succ, List.flatMap_append, ← ih, Nat.mul_succ, List.range_add, List.flatMap_append, List.flatMap_map]
    apply congrArg
    rw [List.flatMap_singleton, h1 (fun i => f (N * k + i)) N]

/-- The stored coefficients of an unmasked vector. -/
def PVec.raws (t : PVec k 1) : Fin k → Fin 512 → Nat := fun r i => (t[r.val][0][i.val]).raw.toNat

theorem vecBits_flat (n : Nat) (t : PVec k 1) : vecBits n t = (List.finRange k).flatMap fun r => (List.finRange 512).flatMap fun i => natBits n (PVec.raws t r i) := by
  unfold vecBits
  rw [range_flat]
  apply List.flatMap_congr
  intro r _
  apply List.flatMap_congr
  intro i _
  rw [coeffAt_rc r.isLt i.isLt]
  rfl

theorem PVec.raws_val (t : PVec k 1) : (fun r i => ((PVec.raws t r i : Nat) : ZMod q)) = PVec.val t := by
  funext r i
  unfold PVec.val MPoly.val
  rw [Fin.sum_univ_one]
  rfl

theorem flat_len (k : Nat) (f : Fin k → Fin 512 → List Bool) (n : Nat) (h : ∀ r i, (f r i).length = n) :
    ((List.finRange k).flatMap fun r => (List.finRange 512).flatMap fun i => f r i).length = k * (512 * n) := by
  have h1 : ∀ r, ((List.finRange 512).flatMap fun i => f r i).length = 512 * n := by
    intro r
    rw [List.length_flatMap, List.map_congr_left (fun i _ => h r i), List.map_const', List.sum_replicate, List.length_finRange]; rfl
  rw [List.length_flatMap, List.map_congr_left (fun r _ => h1 r), List.map_const', List.sum_replicate, List.length_finRange]; rfl

/-- A public key object and its bytes. -/
theorem isPkOf_of (P : Par) (hP : P = raccoon128 ∨ P = raccoon192 ∨ P = raccoon256) {pk : PKey P.k} (hpk : pk.WF P) {buf pkb : List U8}
    (hb : buf.length = PKey.byteLen P.κ P.k P.νt) (h : Api.pkAsBytes P pk buf = .ok pkb) : IsPkOf P pk.seed (PVec.raws pk.t) pkb := by
  obtain ⟨-, w2, -, -, -, -, -, -, -, h8, -⟩ := par_bounds P hP
  unfold Api.pkAsBytes at h
  rw [w2] at hb h
  obtain ⟨b', h1, h2, h3⟩ := C24_format P.κ P.k h8 pk hpk.seed buf hb
  obtain rfl := Res.ok.inj (h.symm.trans h1)
  refine ⟨hpk.seed, fun r i => PVec.below_iff.1 hpk.t r.val r.isLt i.val i.isLt, ?_⟩
  rw [h3, vecBits_flat]

theorem natBits_inj {n a b : Nat} (ha : a < 2 ^ n) (hb : b < 2 ^ n) (h : natBits n a = natBits n b) : a = b := by
  have := congrArg bitsVal h
  rwa [bitsVal_natBits, bitsVal_natBits, Nat.mod_eq_of_lt ha, Nat.mod_eq_of_lt hb] at this

theorem flatMap_inj_len {α β : Type} (n : Nat) : ∀ (l : List α) (f g : α → List β), (∀ x, (f x).length = n) → (∀ x, (g x).length = n) →
    l.flatMap f = l.flatMap g → ∀ x ∈ l, f x = g x := by
  intro l f g hf hg
  induction l with
  | nil => intro _ x hx; cases hx
  | cons y ys ih =>
    intro h x hx
    rw [List.flatMap_cons, List.flatMap_cons] at h
    obtain ⟨h1, h2⟩ := List.append_inj h (by rw [hf, hg])
    rcases List.mem_cons.1 hx with rfl | hx
    · exact h1
    · exact ih h2 x hx

theorem IsPkOf.unique {P : Par} {seed seed' : List U8} {t t' : Fin P.k → Fin 512 → Nat} {b : List U8} (h : IsPkOf P seed t b) (h' : IsPkOf P seed' t' b) :
    seed = seed' ∧ t = t' := by
  obtain ⟨h1, h2, h3⟩ := h
  obtain ⟨h1', h2', h3'⟩ := h'
  obtain ⟨e1, e2⟩ := List.append_inj (h3.symm.trans h3') (by rw [bytesBits_length, bytesBits_length, h1, h1'])
  refine ⟨bytesBits_inj e1, ?_⟩
  funext r i
  have hl : ∀ (t : Fin P.k → Fin 512 → Nat) r, ((List.finRange 512).flatMap fun i => natBits 7 (t r i)).length = 3584 := by
    intro t r
    rw [List.length_flatMap, List.map_congr_left (fun i _ => natBits_length 7 (t r i)), List.map_const', List.sum_replicate, List.length_finRange]; rfl
  have g1 := flatMap_inj_len 3584 _ _ _ (hl t) (hl t') e2 r (List.mem_finRange r)
  have g2 := flatMap_inj_len 7 _ _ _ (fun i => natBits_length 7 (t r i)) (fun i => natBits_length 7 (t' r i)) g1 i (List.mem_finRange i)
  exact natBits_inj (by exact h2 r i) (by exact h2' r i) g2

end Raccoon
