import Verif.Props.KeyFile
import Verif.Props.Demo
/-!
# C69: corrupted key files

The encoder runs before the norm check and is undefined on responses it cannot write (C28). With the secret of a generated key that takes an extreme noise
value (C53), but a secret read from a file can be anything: here, a file on which *every* call of `sign` is undefined.
-/
set_option synthInstance.maxSize 1024
namespace Raccoon
attribute [-instance] Monoid.toNPow

/-- The constant polynomial. -/
def constR (K : ZMod q) : RPoly := fun i => if i.val = 0 then K else 0

theorem nttR_constR (K : ZMod q) : nttR (constR K) = fun _ => K := by
  funext i
  unfold nttR evalR constR
  rw [Finset.sum_eq_single (0 : Fin 512)]
  · have h0 : (0 : Fin 512).val = 0 := rfl
    rw [if_pos h0, h0, pow_zero, mul_one]
  · intro j _ hj
    have : j.val ≠ 0 := fun h => hj (Fin.ext h)
    rw [if_neg this, zero_mul]
  · intro h; exact absurd (Finset.mem_univ _) h

theorem negacyclic_constR (K : ZMod q) (c : RPoly) (x : Fin 512) : negacyclic (constR K) c x = K * c x := by
  unfold negacyclic constR
  rw [Finset.sum_eq_single (0 : Fin 512)]
  · rw [Finset.sum_eq_single x]
    · have h0 : (0 : Fin 512).val = 0 := rfl
      rw [if_pos (by rw [h0]; omega), if_pos h0]
    · intro j _ hj
      have h1 : j.val ≠ x.val := fun h => hj (Fin.ext h)
      have h0 : (0 : Fin 512).val = 0 := rfl
      have := j.isLt
      rw [if_neg (by rw [h0]; omega), if_neg (by rw [h0]; omega)]
    · intro h; exact absurd (Finset.mem_univ _) h
  · intro i _ hi
    have h1 : i.val ≠ 0 := fun h => hi (Fin.ext h)
    refine Finset.sum_eq_zero fun j _ => ?_
    rw [if_neg h1, zero_mul, neg_zero, ite_self, ite_self]
  · intro h; exact absurd (Finset.mem_univ _) h

/-- Either the code words of `xs` stay in the window, or there is a first one that does not. -/
theorem strict_or_first (e : Int → List Bool) : ∀ (xs : List Int) (p : Nat), StrictWindowFrom e p xs ∨
    ∃ x1 x x2, xs = x1 ++ x :: x2 ∧ StrictWindowFrom e p x1 ∧ 64 ≤ (p + (x1.flatMap e).length) % 8 + (e x).length := by
  intro xs
  induction xs with
  | nil => intro p; exact Or.inl trivial
  | cons x xs ih =>
    intro p
    by_cases h : p % 8 + (e x).length < 64
    · rcases ih (p + (e x).length) with h1 | ⟨x1, y, x2, h1, h2, h3⟩
      · exact Or.inl ⟨h, h1⟩
      · refine Or.inr ⟨x :: x1, y, x2, by rw [h1]; rfl, ⟨h, h2⟩, ?_⟩
        rw [List.flatMap_cons, List.length_append, ← Nat.add_assoc]
        exact h3
    · exact Or.inr ⟨[], x, xs, rfl, trivial, by rw [List.flatMap_nil, List.length_nil, Nat.add_zero]; omega⟩

theorem strict_hints : ∀ (h : List Int) (p : Nat), (∀ x ∈ h, x.natAbs ≤ 15) → StrictWindowFrom hintBits p h := by
  intro h
  induction h with
  | nil => intro _ _; exact trivial
  | cons x h ih =>
    intro p hx
    refine ⟨?_, ih _ fun y hy => hx y (List.mem_cons_of_mem _ hy)⟩
    rw [hintBits_length]
    have := hx x List.mem_cons_self
    split <;> omega

/-- Small hints, moderate responses, then one of at least 64·2^40, all within the room there is: a trap. -/
theorem encTrap_of_huge {L : Nat} {h z1 z2 : List Int} {x : Int} (hh : ∀ y ∈ h, y.natAbs ≤ 15) (hz : ∀ y ∈ z1, y.natAbs ≤ 35184372088832) (hx : 64 * 1099511627776 ≤ x.natAbs)
    (hL : 17 * h.length + 74 * z1.length ≤ 8 * L) : EncTrap L h (z1 ++ x :: z2) := by
  have hs := strict_hints h 0 hh
  have l1 : (h.flatMap hintBits).length ≤ 17 * h.length := flatMap_len _ _ _ fun y hy => by
    rw [hintBits_length]
    have := hh y hy
    split <;> omega
  have l0 : ∀ y ∈ z1, (respBits y).length ≤ 74 := fun y hy => by
    rw [respBits_length]
    have := hz y hy
    have p40 : (2 : Nat) ^ 40 = 1099511627776 := by norm_num
    rw [p40]
    split <;> omega
  have p40 : (2 : Nat) ^ 40 = 1099511627776 := by norm_num
  rcases strict_or_first respBits z1 (h.flatMap hintBits).length with hw | ⟨x1, y, x2, e, hw, h64⟩
  · have l2 : (z1.flatMap respBits).length ≤ 74 * z1.length := flatMap_len _ _ _ l0
    refine Or.inr ⟨z1, x, z2, rfl, hs, hw, ?_, Or.inl ?_⟩
    · unfold sigBits; rw [List.length_append]; omega
    · rw [p40]; omega
  · subst e
    have l2 : (x1.flatMap respBits).length ≤ 74 * x1.length := flatMap_len _ _ _ fun y hy => l0 y (List.mem_append_left _ hy)
    have l3 := l0 y (List.mem_append_right _ List.mem_cons_self)
    rw [List.length_append, List.length_cons] at hL
    refine Or.inr ⟨x1, y, x2 ++ x :: z2, by simp, hs, hw, ?_, Or.inr (Or.inl ⟨?_, ?_, ?_⟩)⟩
    · unfold sigBits; rw [List.length_append]; omega
    · intro h0
      have := congrArg List.length h0
      rw [List.length_append, List.length_cons, List.length_nil] at this
      omega
    · unfold sigBits; rw [List.length_append]; exact h64
    · unfold sigBits; rw [List.length_append]; omega

/-- Every attempt with a secret whose first polynomial is a constant in the middle of the range is a trap for the encoder. -/
theorem trapped_of_const (P : Par) (hP : P = raccoon128 ∨ P = raccoon192 ∨ P = raccoon256) (E : Ext) (fuel d uw rep : Nat) (hd : ValidShares d) 
    (e1 : tab uwTable (BitVec.ofNat 64 d) = .ok uw) (e2 : tab repTable (BitVec.ofNat 64 d) = .ok rep)
    (a : Fin P.k → Fin P.l → RPoly) (t : Fin P.k → RPoly) (s : Fin P.l → RPoly) (K : Nat) (hK : 96 * 2 ^ 40 ≤ K) (hK' : K + 96 * 2 ^ 40 ≤ q)
    (hl : 0 < P.l) (hs : s ⟨0, hl⟩ = constR (K : ZMod q)) (μ : List U8) (stream : Nat → U8) (n : Nat) (c : List U8) (h z : List Int)
    (g : AttemptSig P E fuel d uw rep a t s μ stream n c h z) (len : Nat) (hlen : P.sigLen ≤ len) : Trapped len c h z := by
  obtain ⟨cp, hcp, i⟩ := g
  have p40 : (2 : Nat) ^ 40 = 1099511627776 := by norm_num
  have hq : q = 549824583172097 := rfl
  rw [p40] at hK hK'
  obtain ⟨ut, e3⟩ : ∃ ut, tab (utTableOf P) (BitVec.ofNat 64 d) = .ok ut := by
    obtain ⟨_, _, u1, u2, -, -, h1, h2, -⟩ := tab_ok hd
    unfold utTableOf
    split
    · exact ⟨_, h2⟩
    · exact ⟨_, h1⟩
  obtain ⟨u1, -, n1, -⟩ := tab_num hd e2 e1 e3
  have p45 : (2 : Nat) ^ 45 = 35184372088832 := by norm_num
  rw [p45] at n1
  obtain ⟨hw1, hw2⟩ := C18_weight E fuel P.ω c cp hcp
  have hω : 0 < P.ω := by rcases hP with rfl | rfl | rfl <;> decide
  -- the first non-zero coefficient of the challenge
  have hex : ∃ x, ∃ hx : x < 512, (cp[x]).raw.toNat ≠ 0 := by
    rw [← hw1] at hω
    obtain ⟨y, hy⟩ := Finset.card_pos.1 hω
    exact ⟨y.val, y.isLt, (Finset.mem_filter.1 hy).2⟩
  classical
  obtain ⟨hx0, hne⟩ := Nat.find_spec hex
  have hmin : ∀ x (hx : x < 512), x < Nat.find hex → (cp[x]).raw.toNat = 0 := by
    intro x hx hlt
    by_contra hc
    exact Nat.find_min hex hlt ⟨hx, hc⟩
  generalize Nat.find hex = x0 at hx0 hne hmin
  -- the responses of the first row
  obtain ⟨r, hr⟩ : ∃ r : Fin 512 → Int, r = noiseVec E uw P.κ d rep P.l stream (n * ((P.l + P.k) * (rep * d * (P.κ / 8)))) ⟨0, hl⟩ := ⟨_, rfl⟩
  have hrb : ∀ x, |r x| ≤ 35184372088832 := by
    intro x
    have := totalNoise_bound E uw P.κ d rep P.l u1 stream (n * ((P.l + P.k) * (rep * d * (P.κ / 8)))) ⟨0, hl⟩ x
    rw [hr]
    refine le_trans this ?_
    have h2 : ((rep * d * 2 ^ (uw - 1) : Nat) : Int) ≤ 35184372088832 := by exact_mod_cast n1
    push_cast at h2
    exact h2
  have hzl : x0 < z.length := by rw [i.zlen]; omega
  have hresp : ∀ x (hx : x < 512), ((z[x]'(by rw [i.zlen]; omega) : Int) : ZMod q) = (K : ZMod q) * (cp[x]).toZ + ((r ⟨x, hx⟩ : Int) : ZMod q) := by
    intro x hx
    have h1 := congrFun (congrFun i.resp ⟨0, hl⟩) ⟨x, hx⟩
    replace h1 : ((unflatten P.l z ⟨0, hl⟩ ⟨x, hx⟩ : Int) : ZMod q) = negacyclic (s ⟨0, hl⟩) cp.toZ ⟨x, hx⟩ + _ := h1
    rw [hs, negacyclic_constR] at h1
    have h2 : unflatten P.l z ⟨0, hl⟩ ⟨x, hx⟩ = z[x]'(by rw [i.zlen]; omega) := by
      unfold unflatten
      dsimp only
      rw [List.getD_eq_getElem?_getD, Nat.zero_mul, Nat.zero_add, List.getElem?_eq_getElem (by rw [i.zlen]; omega)]
      rfl
    rw [h2] at h1
    rw [h1, hr]
    rfl
  have hcent : ∀ x (hx : x < z.length), 2 * (z[x]).natAbs < q := fun x hx => i.zcent _ (List.getElem_mem hx)
  have hsmall : ∀ x (hx : x < x0), (z[x]'(by omega)).natAbs ≤ 35184372088832 := by
    intro x hx
    have h1 := hresp x (by omega)
    have h2 : (cp[x]'(by omega)).toZ = 0 := by
      unfold Zq.toZ
      rw [hmin x (by omega) hx, Nat.cast_zero]
    rw [h2, mul_zero, zero_add] at h1
    have h3 := (ZMod.intCast_eq_intCast_iff_dvd_sub _ _ q).1 h1
    have h4 := hcent x (by omega)
    have h5 := hrb ⟨x, by omega⟩
    rw [abs_le] at h5
    rw [hq] at h3 h4
    omega
  have hbig : 64 * 1099511627776 ≤ (z[x0]).natAbs := by
    have h1 := hresp x0 hx0
    have h4 := hcent x0 hzl
    have h5 := hrb ⟨x0, hx0⟩
    rw [abs_le] at h5
    rw [hq] at h4 hK'
    rcases hw2 x0 hx0 with e | e | e
    · exact absurd e hne
    · have h2 : (cp[x0]).toZ = 1 := by unfold Zq.toZ; rw [e, Nat.cast_one]
      rw [h2, mul_one] at h1
      have h1' : ((z[x0] : Int) : ZMod q) = (((K : Int) + r ⟨x0, hx0⟩ : Int) : ZMod q) := by rw [h1]; push_cast; rfl
      have h3 := (ZMod.intCast_eq_intCast_iff_dvd_sub _ _ q).1 h1'
      rw [hq] at h3
      omega
    · have h2 : (cp[x0]).toZ = -1 := by
        unfold Zq.toZ
        rw [e, Nat.cast_sub (by decide), ZMod.natCast_self, Nat.cast_one, zero_sub]
      rw [h2, mul_neg, mul_one] at h1
      have h1' : ((z[x0] : Int) : ZMod q) = ((-(K : Int) + r ⟨x0, hx0⟩ : Int) : ZMod q) := by rw [h1]; push_cast; rfl
      have h3 := (ZMod.intCast_eq_intCast_iff_dvd_sub _ _ q).1 h1'
      rw [hq] at h3
      omega
  have hsplit : z = z.take x0 ++ z[x0] :: z.drop (x0 + 1) := by
    rw [← List.drop_eq_getElem_cons hzl, List.take_append_drop]
  have hcl : c.length = 2 * P.κ / 8 := by
    rw [i.hash]
    unfold challengeHash xofOut
    rw [List.length_map, List.length_range]
  have hh : ∀ y ∈ h, y.natAbs ≤ 15 := by
    intro y hy
    have h1 := i.hcent y hy
    have h2 : q / 2 ^ P.νw = 31 := by rcases hP with rfl | rfl | rfl <;> decide
    omega
  rw [hsplit]
  refine Or.inr (encTrap_of_huge hh ?_ hbig ?_)
  · intro y hy
    obtain ⟨j, hj, rfl⟩ := List.getElem_of_mem hy
    rw [List.length_take] at hj
    rw [List.getElem_take]
    exact hsmall j (by omega)
  · rw [List.length_take, i.hlen, hcl]
    have hm : min x0 z.length ≤ 511 := by omega
    rcases hP with rfl | rfl | rfl
    · have h1 : raccoon128.k = 5 := rfl
      have h2 : raccoon128.κ = 128 := rfl
      have h3 : raccoon128.sigLen = 11524 := rfl
      rw [h1, h2]; omega
    · have h1 : raccoon192.k = 7 := rfl
      have h2 : raccoon192.κ = 192 := rfl
      have h3 : raccoon192.sigLen = 14544 := rfl
      rw [h1, h2]; omega
    · have h1 : raccoon256.k = 9 := rfl
      have h2 : raccoon256.κ = 256 := rfl
      have h3 : raccoon256.sigLen = 20330 := rfl
      rw [h1, h2]; omega

/-- C69: there are key files on which signing is *always* undefined. If the 512 stored fields of the first row are all congruent to the same K with 96·2^40 ≤ K ≤ q − 96·2^40 (the
secret's first polynomial is the constant K), then — for every public part, every content of the other rows, every history of refreshes and reloads, every entropy, message
and output buffer of at least the published signature length — the first signing attempt already runs into undefined behaviour. -/
theorem C69_corrupt_undefined (P : Par) (hP : P = raccoon128 ∨ P = raccoon192 ∨ P = raccoon256) (E : Ext) (fuel0 fuel d : Nat) (hf : SamplersFinish P E fuel) (hpos : 0 < fuel) (hd : ValidShares d)
    (b : List U8) (hb : b.length = SKey.byteLen P.κ P.k P.l d P.νt) (K : Nat) (hK : 96 * 2 ^ 40 ≤ K) (hK' : K + 96 * 2 ^ 40 ≤ q) (hfile : ∀ c < 512, skField P d b 0 c % q = K)
    {sk0 sk : SKey P.k P.l d} (h0 : Api.skFromBytes P E fuel0 d b = .ok sk0) (hder : SKey.Derived P E sk0 sk) (entropy msg buf : List U8) (hbuf : P.sigLen ≤ buf.length) :
    Api.sign P E fuel d sk entropy msg buf = .ub := by
  have hl : 0 < P.l := by rcases hP with rfl | rfl | rfl <;> decide
  obtain ⟨skr, w, hp, hv, hsign⟩ := C69_reduced P hP E fuel0 d hd b hb h0 hder
  rw [hsign]
  obtain ⟨s, hs⟩ := PVec.IsNtt.exists skr.s
  have hs0 : s ⟨0, hl⟩ = constR (K : ZMod q) := by
    apply nttR_inj
    rw [hs ⟨0, hl⟩, hv, nttR_constR]
    funext c
    unfold fileSecret
    rw [← ZMod.natCast_mod, hfile c.val c.isLt]
  obtain ⟨uw, rep, pkb, A, a, e1, e2, -, -, -, hcase⟩ := C52_first_acceptable P hP E fuel d hd hf skr w s hs entropy msg buf
  have trap : ∀ n c h z, AttemptSig P E fuel d uw rep a (PVec.val skr.pkey.t) s (messageHash E P.κ pkb msg) (E.shake128 entropy) n c h z → Trapped buf.length c h z :=
    fun n c h z g => trapped_of_const P hP E fuel d uw rep hd e1 e2 a _ s K hK hK' hl hs0 _ _ n c h z g _ hbuf
  rcases hcase with ⟨n, b, -, -, -, c, h, z, g, -, -, hnt⟩ | ⟨n, -, e, -⟩ | ⟨-, hr⟩
  · exact absurd (trap n c h z g) hnt
  · exact e
  · obtain ⟨c, h, z, g, hna⟩ := hr 0 hpos
    exact absurd (trap 0 c h z g) hna.2

end Raccoon
