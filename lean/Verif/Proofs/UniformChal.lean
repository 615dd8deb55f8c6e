import Verif.Proofs.Uniform
import Verif.Proofs.Wire
import Mathlib.Logic.Equiv.Fintype
import Mathlib.Data.Int.CardIntervalMod
import Verif.Props.Field
import Verif.Props.Sampling
/-!
# Counting lemmas for the challenge and the noise sampler
-/
namespace Raccoon
attribute [-instance] Monoid.toNPow
open Finset

/-! ### Signed permutations of the positions -/

/-- The sign that a parity stands for. -/
def flip (ε : Nat) (x : Int) : Int := if ε % 2 = 1 then -x else x

theorem flip_zero (ε : Nat) : flip ε 0 = 0 := by unfold flip; split <;> rfl

/-- The words of `s'` are those of `s` with positions permuted and signs flipped by position. -/
def Acts (π : Equiv.Perm (Fin 512)) (ε : Fin 512 → Nat) (m : Nat) (s s' : Nat → U8) : Prop :=
  ∀ j, j < m → chalPos s' j = (π ⟨chalPos s j, chalPos_lt s j⟩).val ∧ streamWord s' 2 j % 2 = (streamWord s 2 j + ε ⟨chalPos s j, chalPos_lt s j⟩) % 2

theorem Acts.count {π : Equiv.Perm (Fin 512)} {ε : Fin 512 → Nat} {m : Nat} {s s' : Nat → U8} (h : Acts π ε m s s') {n : Nat} (hn : n ≤ m) :
    chalCount s' n = chalCount s n := by
  unfold chalCount
  let f : Nat → Nat := fun x => if hx : x < 512 then (π ⟨x, hx⟩).val else x
  have e : (range n).image (chalPos s') = ((range n).image (chalPos s)).image f := by
    rw [Finset.image_image]
    refine Finset.image_congr fun j hj => ?_
    have hj' : j < n := by simpa using hj
    rw [(h j (by omega)).1]
    show _ = f (chalPos s j)
    simp only [f, dif_pos (chalPos_lt s j)]
  rw [e]
  refine Finset.card_image_of_injOn ?_
  intro x hx y hy hxy
  have hx' : x < 512 := by
    obtain ⟨j, -, rfl⟩ := Finset.mem_image.1 (Finset.mem_coe.1 hx)
    exact chalPos_lt s j
  have hy' : y < 512 := by
    obtain ⟨j, -, rfl⟩ := Finset.mem_image.1 (Finset.mem_coe.1 hy)
    exact chalPos_lt s j
  simp only [f, dif_pos hx', dif_pos hy'] at hxy
  exact Fin.mk.inj_iff.1 (π.injective (Fin.ext hxy))

theorem Acts.int {π : Equiv.Perm (Fin 512)} {ε : Fin 512 → Nat} {m : Nat} {s s' : Nat → U8} (h : Acts π ε m s s') {n : Nat} (hn : n ≤ m) (i : Fin 512) :
    chalInt s' n (π i) = flip (ε i) (chalInt s n i) := by
  unfold chalInt
  have e : (List.range n).find? (fun j => chalPos s' j == (π i).val) = (List.range n).find? (fun j => chalPos s j == i.val) := by
    refine List.find?_congr fun j hj => ?_
    rw [List.mem_range] at hj
    rw [(h j (by omega)).1]
    by_cases hp : chalPos s j = i.val
    · have : (⟨chalPos s j, chalPos_lt s j⟩ : Fin 512) = i := Fin.ext hp
      rw [this, hp, beq_self_eq_true, beq_self_eq_true]
    · have : ¬ (π ⟨chalPos s j, chalPos_lt s j⟩).val = (π i).val := fun e => hp (congrArg Fin.val (π.injective (Fin.ext e)))
      rw [beq_eq_false_iff_ne.2 hp, beq_eq_false_iff_ne.2 this]
  rw [e]
  cases hf : (List.range n).find? (fun j => chalPos s j == i.val) with
  | none => exact (flip_zero _).symm
  | some j =>
    have hj : j < n := List.mem_range.1 (List.mem_of_find?_eq_some hf)
    have hp : chalPos s j = i.val := by
      have := List.find?_some hf
      exact eq_of_beq this
    have h2 := (h j (by omega)).2
    have : (⟨chalPos s j, chalPos_lt s j⟩ : Fin 512) = i := Fin.ext hp
    rw [this] at h2
    show (if streamWord s' 2 j % 2 = 1 then (-1 : Int) else 1) = flip (ε i) (if streamWord s 2 j % 2 = 1 then -1 else 1)
    unfold flip
    generalize streamWord s' 2 j = a at h2
    generalize streamWord s 2 j = b at h2
    generalize ε i = c at h2
    split <;> split <;> split <;> omega

/-- The action on the value of one word. -/
def actVal (π : Equiv.Perm (Fin 512)) (ε : Fin 512 → Nat) (v : Nat) : Nat :=
  (v + ε ⟨v / 2 % 512, Nat.mod_lt _ (by omega)⟩) % 2 + 2 * (π ⟨v / 2 % 512, Nat.mod_lt _ (by omega)⟩).val + 1024 * (v / 1024)

theorem actVal_lt (π : Equiv.Perm (Fin 512)) (ε : Fin 512 → Nat) (v : Nat) (hv : v < 65536) : actVal π ε v < 65536 := by
  unfold actVal
  have := (π ⟨v / 2 % 512, Nat.mod_lt _ (by omega)⟩).isLt
  omega

theorem actVal_pos (π : Equiv.Perm (Fin 512)) (ε : Fin 512 → Nat) (v : Nat) :
    actVal π ε v / 2 % 512 = (π ⟨v / 2 % 512, Nat.mod_lt _ (by omega)⟩).val ∧ actVal π ε v % 2 = (v + ε ⟨v / 2 % 512, Nat.mod_lt _ (by omega)⟩) % 2 ∧ actVal π ε v / 1024 = v / 1024 := by
  unfold actVal
  have := (π ⟨v / 2 % 512, Nat.mod_lt _ (by omega)⟩).isLt
  generalize (π ⟨v / 2 % 512, Nat.mod_lt _ (by omega)⟩).val = a at this
  generalize ε ⟨v / 2 % 512, Nat.mod_lt _ (by omega)⟩ = b
  omega

theorem actVal_inj (π : Equiv.Perm (Fin 512)) (ε : Fin 512 → Nat) (v w : Nat) (h : actVal π ε v = actVal π ε w) : v = w := by
  obtain ⟨a1, a2, a3⟩ := actVal_pos π ε v
  obtain ⟨b1, b2, b3⟩ := actVal_pos π ε w
  rw [h] at a1 a2 a3
  have hp := congrArg Fin.val (π.injective (Fin.ext (a1.symm.trans b1)))
  have hp' : v / 2 % 512 = w / 2 % 512 := hp
  have hε : ε ⟨v / 2 % 512, Nat.mod_lt _ (by omega)⟩ = ε ⟨w / 2 % 512, Nat.mod_lt _ (by omega)⟩ := congrArg ε (Fin.ext hp')
  rw [hε] at a2
  generalize ε ⟨w / 2 % 512, Nat.mod_lt _ (by omega)⟩ = b at a2 b2
  clear a1 b1 hε hp
  omega

/-- The action on words. -/
noncomputable def actWord (π : Equiv.Perm (Fin 512)) (ε : Fin 512 → Nat) : Equiv.Perm (Fin 2 → U8) :=
  (wordEquiv 2).trans ((Equiv.ofBijective (fun v : Fin (2 ^ (8 * 2)) => (⟨actVal π ε v.val, actVal_lt π ε v.val v.isLt⟩ : Fin (2 ^ (8 * 2))))
    (Finite.injective_iff_bijective.1 fun _ _ h => Fin.ext (actVal_inj π ε _ _ (congrArg Fin.val h)))).trans (wordEquiv 2).symm)

theorem actWord_val (π : Equiv.Perm (Fin 512)) (ε : Fin 512 → Nat) (w : Fin 2 → U8) : wordVal (actWord π ε w) = actVal π ε (wordVal w) := by
  have : wordEquiv 2 (actWord π ε w) = ⟨actVal π ε (wordVal w), actVal_lt π ε _ (wordVal_lt w)⟩ := Equiv.apply_symm_apply _ _
  exact congrArg Fin.val this

/-- The action on tables of words. -/
noncomputable def actTable (π : Equiv.Perm (Fin 512)) (ε : Fin 512 → Nat) (m : Nat) : Equiv.Perm (Fin (m * 2) → U8) :=
  (tableEquiv m 2).trans ((Equiv.piCongrRight fun _ => actWord π ε).trans (tableEquiv m 2).symm)

theorem acts_table (π : Equiv.Perm (Fin 512)) (ε : Fin 512 → Nat) (m : Nat) (B : Fin (m * 2) → U8) :
    Acts π ε m (prefixStream B) (prefixStream (actTable π ε m B)) := by
  intro j hj
  have e1 := streamWord_prefix m 2 B ⟨j, hj⟩
  have e2 := streamWord_prefix m 2 (actTable π ε m B) ⟨j, hj⟩
  have e3 : tableEquiv m 2 (actTable π ε m B) ⟨j, hj⟩ = actWord π ε (tableEquiv m 2 B ⟨j, hj⟩) := by
    have : tableEquiv m 2 (actTable π ε m B) = fun j => actWord π ε (tableEquiv m 2 B j) :=
      Equiv.apply_symm_apply (tableEquiv m 2) (fun j => actWord π ε (tableEquiv m 2 B j))
    rw [this]
  rw [e3, actWord_val, ← e1] at e2
  dsimp only at e2
  unfold chalPos
  obtain ⟨a1, a2, -⟩ := actVal_pos π ε (streamWord (prefixStream B) 2 j)
  rw [e2]
  exact ⟨a1, a2⟩

/-- Two ternary vectors of the same weight differ by a signed permutation. -/
theorem exists_signed (g g' : Fin 512 → Int) (hg : ∀ i, g i = -1 ∨ g i = 0 ∨ g i = 1) (hg' : ∀ i, g' i = -1 ∨ g' i = 0 ∨ g' i = 1)
    (h : (univ.filter fun i => g i ≠ 0).card = (univ.filter fun i => g' i ≠ 0).card) :
    ∃ (π : Equiv.Perm (Fin 512)) (ε : Fin 512 → Nat), ∀ i, g' (π i) = flip (ε i) (g i) := by
  rw [← Fintype.card_subtype, ← Fintype.card_subtype] at h
  have e := Fintype.equivOfCardEq h
  refine ⟨e.extendSubtype, fun i => if g i = g' (e.extendSubtype i) then 0 else 1, fun i => ?_⟩
  by_cases hi : g i ≠ 0
  · unfold flip
    have h2 : g' (e.extendSubtype i) ≠ 0 := e.extendSubtype_mem i hi
    rcases hg i with a | a | a <;> rcases hg' (e.extendSubtype i) with b | b | b <;> rw [a, b] <;> simp_all
  · have h2 : ¬ g' (e.extendSubtype i) ≠ 0 := e.extendSubtype_not_mem i hi
    rw [not_not] at hi h2
    rw [hi, h2]
    exact (flip_zero _).symm

/-! ### The challenge -/

theorem chalPoly_ok_iff (E : Ext) (fuel ω : Nat) (cHash : List U8) (s : Nat → U8) (hs : s = E.shake256 ([0x63, BitVec.ofNat 8 ω, 0, 0, 0, 0, 0, 0] ++ cHash)) (c : Poly) (hc : c.Can) :
    Poly.chalPoly E fuel ω cHash = .ok c ↔ ∃ m, m ≤ fuel ∧ chalCount s m = ω ∧ chalInt s m = Poly.centered c := by
  have hh := chalPoly_eq E fuel ω cHash s hs
  constructor
  · intro h
    by_cases hw : ω ≤ chalCount s fuel
    · obtain ⟨m, hm, h1, e⟩ := hh.1 hw
      rw [Res.ok.inj (h.symm.trans e)]
      exact ⟨m, hm, h1, (chalSpec_centered s m).symm⟩
    · rw [hh.2 hw] at h; cases h
  · rintro ⟨m, hm, h1, h2⟩
    obtain ⟨k, rfl⟩ : ∃ k, fuel = m + k := ⟨fuel - m, by omega⟩
    obtain ⟨n, hn, h3, e⟩ := hh.1 (h1 ▸ chalCount_mono s m k)
    rw [e]
    refine congrArg Res.ok ?_
    rw [← Poly.toZ_inj (chalPoly_can e) hc, ← toR_centered, ← toR_centered, chalSpec_centered, ← h2, chalInt_eq (h3.trans h1.symm)]

theorem chalPoly_uniform (E : Ext) (m ω : Nat) (cHash : List U8) (c c' : Poly) (hc : c.Can) (hc' : c'.Can)
    (ht : ∀ i, Poly.centered c i = -1 ∨ Poly.centered c i = 0 ∨ Poly.centered c i = 1)
    (ht' : ∀ i, Poly.centered c' i = -1 ∨ Poly.centered c' i = 0 ∨ Poly.centered c' i = 1)
    (hw : (univ.filter fun i => Poly.centered c i ≠ 0).card = (univ.filter fun i => Poly.centered c' i ≠ 0).card) :
    countBytes (m * 2) (fun B => Poly.chalPoly (E.withStream B) m ω cHash = .ok c) =
      countBytes (m * 2) (fun B => Poly.chalPoly (E.withStream B) m ω cHash = .ok c') := by
  obtain ⟨π, ε, h⟩ := exists_signed _ _ ht ht' hw
  refine Nat.card_congr ((actTable π ε m).subtypeEquiv fun B => ?_)
  rw [chalPoly_ok_iff _ _ _ _ (prefixStream B) rfl _ hc, chalPoly_ok_iff _ _ _ _ (prefixStream (actTable π ε m B)) rfl _ hc']
  have ha := acts_table π ε m B
  generalize prefixStream B = s at ha
  generalize prefixStream (actTable π ε m B) = s' at ha
  refine exists_congr fun n => ?_
  constructor
  · rintro ⟨hn, h1, h2⟩
    refine ⟨hn, (ha.count hn).trans h1, ?_⟩
    funext i
    obtain ⟨k, rfl⟩ := π.surjective i
    rw [ha.int hn, h, h2]
  · rintro ⟨hn, h1, h2⟩
    refine ⟨hn, (ha.count hn).symm.trans h1, ?_⟩
    funext i
    have h3 := ha.int hn i
    rw [h2, h] at h3
    unfold flip at h3
    split at h3 <;> omega

/-! ### The noise sampler -/

theorem card_pi_subtype {ι W : Type} [Fintype ι] (p : ι → W → Prop) : Nat.card { T : ι → W // ∀ i, p i (T i) } = ∏ i, Nat.card { w // p i w } := by
  rw [← Nat.card_pi]
  exact Nat.card_congr Equiv.subtypePiEquivPi

theorem sampleU_count (E : Ext) (u : Nat) (hu : 0 < u) (hu' : u ≤ 63) (hdr seed : List U8) (f : Vector Int 512)
    (hf : ∀ i (hi : i < 512), -(2 ^ (u - 1) : Int) ≤ f[i] ∧ f[i] < (2 ^ (u - 1) : Int)) :
    countBytes (512 * ((u + 7) / 8)) (fun B => MPoly.sampleU (E.withStream B) u hdr seed = .ok f) = (2 ^ (8 * ((u + 7) / 8) - u)) ^ 512 := by
  generalize hn : (u + 7) / 8 = n
  have hle : u ≤ 8 * n := by omega
  rw [countBytes_table 512 n _ (fun T => ∀ i : Fin 512, ((wordVal (T i) : Nat) : Int).bmod (2 ^ u) = f[i.val]) ?_, card_pi_subtype (fun (i : Fin 512) (w : Fin n → U8) => ((wordVal w : Nat) : Int).bmod (2 ^ u) = f[i.val])]
  · rw [Finset.prod_congr rfl (g := fun _ => 2 ^ (8 * n - u)) ?_, Finset.prod_const, Finset.card_univ, Fintype.card_fin]
    intro i _
    have hpow : 2 ^ (8 * n) = 2 ^ u * 2 ^ (8 * n - u) := by rw [← Nat.pow_add]; congr 1; omega
    obtain ⟨h1, h2⟩ := hf i.val i.isLt
    have h2u : (2 : Int) ^ u = 2 * 2 ^ (u - 1) := by
      obtain ⟨k, rfl⟩ : ∃ k, u = k + 1 := ⟨u - 1, by omega⟩
      rw [Int.pow_succ, Nat.add_sub_cancel]; omega
    have hpos : (0 : Int) < 2 ^ (u - 1) := Int.pow_pos (by omega)
    have hcast : ((2 ^ u : Nat) : Int) = 2 ^ u := Int.natCast_pow 2 u
    generalize f[i.val] = x at h1 h2
    have hv : (x % ((2 ^ u : Nat) : Int)).toNat < 2 ^ u := by
      have := Int.emod_lt_of_pos x (show (0 : Int) < ((2 ^ u : Nat) : Int) by rw [hcast]; omega)
      have := Int.emod_nonneg x (show ((2 ^ u : Nat) : Int) ≠ 0 by rw [hcast]; omega)
      omega
    rw [← card_word_mod n (2 ^ u) (2 ^ (8 * n - u)) (x % ((2 ^ u : Nat) : Int)).toNat hpow hv]
    refine Nat.card_congr (Equiv.subtypeEquivRight fun w => ?_)
    generalize wordVal w = a
    have hM : (0 : Int) < ((2 ^ u : Nat) : Int) := by rw [hcast]; omega
    have hx : x.bmod (2 ^ u) = x := by
      rw [Int.bmod_eq_of_le] <;> omega
    constructor
    · intro h
      have h3 : ((a : Int) % ((2 ^ u : Nat) : Int)) = x % ((2 ^ u : Nat) : Int) := by rw [← h, Int.bmod_emod]
      have h4 : ((a % 2 ^ u : Nat) : Int) = x % ((2 ^ u : Nat) : Int) := by rw [Int.natCast_mod]; exact h3
      rw [← h4, Int.toNat_natCast]
    · intro h
      have h4 : ((a % 2 ^ u : Nat) : Int) = x % ((2 ^ u : Nat) : Int) := by
        rw [h, Int.toNat_of_nonneg (Int.emod_nonneg _ (by omega))]
      rw [Int.natCast_mod] at h4
      rw [← hx, ← Int.emod_bmod (x := (a : Int)), h4, Int.emod_bmod]
  · intro B
    rw [sampleU_eq _ hu hu', hn]
    have he : ∀ i : Fin 512, streamWord (prefixStream B) n i.val = wordVal (tableEquiv 512 n B i) := fun i => streamWord_prefix 512 n B i
    constructor
    · intro h i
      have := Res.ok.inj h
      rw [← this, Vector.getElem_ofFn, ← he]
      rfl
    · intro h
      refine congrArg Res.ok ?_
      apply Vector.ext
      intro i hi
      rw [Vector.getElem_ofFn, ← h ⟨i, hi⟩, ← he]
      rfl

/-! ### Every value is reached -/

theorem prefix_reachable {W V : Type} (w0 : W) (g : W → Option V) : ∀ (L : List V) (m : Nat), (∀ v ∈ L, ∃ w, g w = some v) → L.length ≤ m →
    ∃ T : Fin m → W, L <+: (List.ofFn T).filterMap g := by
  intro L
  induction L with
  | nil => exact fun m _ _ => ⟨fun _ => w0, List.nil_prefix⟩
  | cons v K ih =>
    intro m h hm
    cases m with
    | zero => exact absurd hm (by simp)
    | succ m =>
      obtain ⟨w, hw⟩ := h v (List.mem_cons_self ..)
      obtain ⟨T, hT⟩ := ih m (fun x hx => h x (List.mem_cons_of_mem _ hx)) (by simpa using hm)
      refine ⟨(Fin.cons w T : Fin (m + 1) → W), ?_⟩
      rw [List.ofFn_succ, List.filterMap_cons_some (show g ((Fin.cons w T : Fin (m + 1) → W) 0) = some v from hw), List.cons_prefix_cons]
      exact ⟨rfl, hT⟩

theorem countBytes_pos {n : Nat} {p : (Fin n → U8) → Prop} (B : Fin n → U8) (h : p B) : 0 < countBytes n p := by
  have : Nonempty { B // p B } := ⟨⟨B, h⟩⟩
  exact Nat.card_pos

theorem sampleQ_reachable (E : Ext) (m : Nat) (hm : 512 ≤ m) (hdr seed : List U8) (p : Poly) (hp : p.Can) :
    0 < countBytes (m * 7) (fun B => Poly.sampleQ (E.withStream B) m hdr seed = .ok p) := by
  rw [sampleQ_count]
  have hlen : (polyNats p).length = 512 := List.length_ofFn
  have hr : ∀ v ∈ polyNats p, ∃ w, qCand w = some v := by
    intro v hv
    have hv' : v < q := by
      obtain ⟨i, rfl⟩ := List.mem_ofFn.1 hv
      exact hp i.val i.isLt
    have h0 : 0 < Nat.card { w : Fin 7 → U8 // qCand w = some v } := by rw [card_qCand v hv']; omega
    obtain ⟨⟨w, hw⟩⟩ := (Nat.card_pos_iff.1 h0).1
    exact ⟨w, hw⟩
  obtain ⟨T, hT⟩ := prefix_reachable (fun _ => 0) qCand (polyNats p) m hr (by omega)
  have : Nonempty { T : Fin m → Fin 7 → U8 // polyNats p <+: (List.ofFn T).filterMap qCand } := ⟨⟨T, hT⟩⟩
  exact Nat.card_pos

theorem centered_of_ternary {c : Poly} (h : ∀ i (hi : i < 512), (c[i]).raw.toNat = 0 ∨ (c[i]).raw.toNat = 1 ∨ (c[i]).raw.toNat = q - 1) (i : Fin 512) :
    (Poly.centered c i = -1 ∨ Poly.centered c i = 0 ∨ Poly.centered c i = 1) ∧ (Poly.centered c i ≠ 0 ↔ (c[i.val]).raw.toNat ≠ 0) := by
  unfold Poly.centered
  rcases h i.val i.isLt with e | e | e
  · rw [e]; exact ⟨Or.inr (Or.inl rfl), by decide⟩
  · rw [e]; exact ⟨Or.inr (Or.inr rfl), by decide⟩
  · rw [e, qm1]
    exact ⟨Or.inl rfl, by decide⟩

theorem ternary_can {c : Poly} (h : ∀ i (hi : i < 512), (c[i]).raw.toNat = 0 ∨ (c[i]).raw.toNat = 1 ∨ (c[i]).raw.toNat = q - 1) : c.Can := by
  intro i hi
  have hq : 1 < q := by unfold q; norm_num
  unfold Zq.Can
  rcases h i hi with e | e | e <;> rw [e] <;> omega

theorem chalPoly_uniform' (E : Ext) (m ω : Nat) (cHash : List U8) (c c' : Poly)
    (ht : ∀ i (hi : i < 512), (c[i]).raw.toNat = 0 ∨ (c[i]).raw.toNat = 1 ∨ (c[i]).raw.toNat = q - 1)
    (ht' : ∀ i (hi : i < 512), (c'[i]).raw.toNat = 0 ∨ (c'[i]).raw.toNat = 1 ∨ (c'[i]).raw.toNat = q - 1)
    (hw : (univ.filter fun i : Fin 512 => (c[i.val]).raw.toNat ≠ 0).card = (univ.filter fun i : Fin 512 => (c'[i.val]).raw.toNat ≠ 0).card) :
    countBytes (m * 2) (fun B => Poly.chalPoly (E.withStream B) m ω cHash = .ok c) =
      countBytes (m * 2) (fun B => Poly.chalPoly (E.withStream B) m ω cHash = .ok c') := by
  refine chalPoly_uniform E m ω cHash c c' (ternary_can ht) (ternary_can ht') (fun i => (centered_of_ternary ht i).1) (fun i => (centered_of_ternary ht' i).1) ?_
  rw [Finset.filter_congr fun i _ => (centered_of_ternary ht i).2, Finset.filter_congr fun i _ => (centered_of_ternary ht' i).2]
  exact hw

theorem chalPoly_reachable (E : Ext) (m ω : Nat) (hm : ω ≤ m) (cHash : List U8) (c : Poly)
    (ht : ∀ i (hi : i < 512), (c[i]).raw.toNat = 0 ∨ (c[i]).raw.toNat = 1 ∨ (c[i]).raw.toNat = q - 1)
    (hw : (univ.filter fun i : Fin 512 => (c[i.val]).raw.toNat ≠ 0).card = ω) :
    0 < countBytes (m * 2) (fun B => Poly.chalPoly (E.withStream B) m ω cHash = .ok c) := by
  have hω : ω ≤ 512 := by
    rw [← hw]
    exact le_trans (Finset.card_filter_le _ _) (le_of_eq (by rw [Finset.card_univ, Fintype.card_fin]))
  let B : Fin (m * 2) → U8 := (tableEquiv m 2).symm fun j => (wordEquiv 2).symm ⟨2 * j.val % 65536, Nat.mod_lt _ (by norm_num)⟩
  have hword : ∀ j, j < m → streamWord (prefixStream B) 2 j = 2 * j % 65536 := by
    intro j hj
    rw [streamWord_prefix m 2 B ⟨j, hj⟩]
    have : tableEquiv m 2 B = fun j => (wordEquiv 2).symm ⟨2 * j.val % 65536, Nat.mod_lt _ (by norm_num)⟩ := Equiv.apply_symm_apply _ _
    rw [this]
    exact congrArg Fin.val (Equiv.apply_symm_apply (wordEquiv 2) ⟨2 * j % 65536, Nat.mod_lt _ (by norm_num)⟩)
  have hcount : chalCount (prefixStream B) ω = ω := by
    unfold chalCount
    have : (range ω).image (chalPos (prefixStream B)) = (range ω).image id := by
      refine Finset.image_congr fun j hj => ?_
      have hj' : j < ω := by simpa using hj
      unfold chalPos
      rw [hword j (by omega)]
      show _ = j
      omega
    rw [this, Finset.image_id, Finset.card_range]
  obtain ⟨k, rfl⟩ : ∃ k, m = ω + k := ⟨m - ω, by omega⟩
  obtain ⟨n, -, -, e⟩ := (chalPoly_eq (E.withStream B) (ω + k) ω cHash (prefixStream B) rfl).1 (le_trans (le_of_eq hcount.symm) (chalCount_mono _ ω k))
  obtain ⟨w1, w2⟩ := C18_weight _ _ _ _ _ e
  rw [chalPoly_uniform' E (ω + k) ω cHash c _ ht w2 (hw.trans w1.symm)]
  exact countBytes_pos B e

/-! ### `zq_t::random` -/

theorem random_count (E : Ext) (seed : List U8) (r : Nat) (hr : r < q) :
    countBytes 8 (fun B => (Zq.random (Prng.new (E.withStream128 B) seed)).1.raw.toNat = r) = 2 ^ 64 / q + if r < 2 ^ 64 % q then 1 else 0 := by
  have h1 : countBytes 8 (fun B => (Zq.random (Prng.new (E.withStream128 B) seed)).1.raw.toNat = r) = Nat.card { x : Fin (2 ^ (8 * 8)) // x.val % q = r } := by
    refine Nat.card_congr ((wordEquiv 8).subtypeEquiv fun B => ?_)
    have h2 := (C07_random (Prng.new (E.withStream128 B) seed)).2.1
    rw [h2]
    have h3 : ((Prng.new (E.withStream128 B) seed).read 8).1 = List.ofFn B := by
      show (List.range 8).map (fun i => prefixStream B (0 + i)) = _
      apply List.ext_getElem
      · simp
      · intro i h1 h2
        have hi : i < 8 := by simpa using h1
        rw [List.getElem_map, List.getElem_range, List.getElem_ofFn, Nat.zero_add]
        unfold prefixStream
        rw [dif_pos hi]
    rw [h3, fromLeBytes64 (le_of_eq List.length_ofFn)]
    exact Iff.rfl
  have h4 : ∀ N : Nat, Nat.card { x : Fin N // x.val % q = r } = N.count (· ≡ r [MOD q]) := by
    intro N
    rw [Nat.count_eq_card_filter_range, ← Fintype.card_coe, ← Nat.card_eq_fintype_card]
    refine Nat.card_congr ⟨fun x => ⟨x.1.val, ?_⟩, fun y => ⟨⟨y.1, ?_⟩, ?_⟩, fun _ => rfl, fun _ => rfl⟩
    · rw [mem_filter, mem_range]
      exact ⟨x.1.isLt, by show x.1.val % q = r % q; rw [x.2, Nat.mod_eq_of_lt hr]⟩
    · exact mem_range.1 (mem_filter.1 y.2).1
    · have h5 : y.1 % q = r % q := (mem_filter.1 y.2).2
      rw [Nat.mod_eq_of_lt hr] at h5
      exact h5
  rw [h1, h4, Nat.count_modEq_card _ q_pos, Nat.mod_eq_of_lt hr]

end Raccoon
