import Verif.Proofs.UniformChal
/-!
# C56: the distribution of the samplers, by counting over the bytes of an ideal extendable-output function

`countBytes n p` is the number of strings of `n` bytes with the property `p`; `E.withStream B` answers every SHAKE256 query by the stream that
starts with `B`. Equal numbers mean: equally likely when the bytes are uniform and independent.
-/
namespace Raccoon
attribute [-instance] Monoid.toNPow
open Finset

/-- C56: the uniform sampler returns every polynomial with canonical coefficients equally often, whatever number `m` of 7-byte words is allowed. -/
theorem C56_uniform (E : Ext) (m : Nat) (hdr seed : List U8) (p p' : Poly) (hp : p.Can) (hp' : p'.Can) :
    countBytes (m * 7) (fun B => Poly.sampleQ (E.withStream B) m hdr seed = .ok p) =
      countBytes (m * 7) (fun B => Poly.sampleQ (E.withStream B) m hdr seed = .ok p') := sampleQ_uniform E m hdr seed p p' hp hp'

/-- C56: and each of them does occur, as soon as 512 words are allowed. -/
theorem C56_uniform_reached (E : Ext) (m : Nat) (hm : 512 ≤ m) (hdr seed : List U8) (p : Poly) (hp : p.Can) :
    0 < countBytes (m * 7) (fun B => Poly.sampleQ (E.withStream B) m hdr seed = .ok p) := sampleQ_reachable E m hm hdr seed p hp

/-- C56: the challenge sampler returns every polynomial with ω coefficients ±1 and all others 0 equally often, whatever number `m` of two-byte
words is allowed. -/
theorem C56_challenge (E : Ext) (m ω : Nat) (cHash : List U8) (c c' : Poly)
    (ht : ∀ i (hi : i < 512), (c[i]).raw.toNat = 0 ∨ (c[i]).raw.toNat = 1 ∨ (c[i]).raw.toNat = q - 1)
    (ht' : ∀ i (hi : i < 512), (c'[i]).raw.toNat = 0 ∨ (c'[i]).raw.toNat = 1 ∨ (c'[i]).raw.toNat = q - 1)
    (hw : (univ.filter fun i : Fin 512 => (c[i.val]).raw.toNat ≠ 0).card = ω) (hw' : (univ.filter fun i : Fin 512 => (c'[i.val]).raw.toNat ≠ 0).card = ω) :
    countBytes (m * 2) (fun B => Poly.chalPoly (E.withStream B) m ω cHash = .ok c) =
      countBytes (m * 2) (fun B => Poly.chalPoly (E.withStream B) m ω cHash = .ok c') := chalPoly_uniform' E m ω cHash c c' ht ht' (hw.trans hw'.symm)

/-- C56: and each of them does occur, as soon as ω words are allowed. -/
theorem C56_challenge_reached (E : Ext) (m ω : Nat) (hm : ω ≤ m) (cHash : List U8) (c : Poly)
    (ht : ∀ i (hi : i < 512), (c[i]).raw.toNat = 0 ∨ (c[i]).raw.toNat = 1 ∨ (c[i]).raw.toNat = q - 1)
    (hw : (univ.filter fun i : Fin 512 => (c[i.val]).raw.toNat ≠ 0).card = ω) :
    0 < countBytes (m * 2) (fun B => Poly.chalPoly (E.withStream B) m ω cHash = .ok c) := chalPoly_reachable E m ω hm cHash c ht hw

/-- C56: the noise sampler returns every vector of 512 integers of [−2^(u−1), 2^(u−1)) equally often: 2^(8⌈u/8⌉−u) byte strings per coefficient. -/
theorem C56_noise (E : Ext) (u : Nat) (hu : 0 < u) (hu' : u ≤ 63) (hdr seed : List U8) (f : Vector Int 512)
    (hf : ∀ i (hi : i < 512), -(2 ^ (u - 1) : Int) ≤ f[i] ∧ f[i] < (2 ^ (u - 1) : Int)) :
    countBytes (512 * ((u + 7) / 8)) (fun B => MPoly.sampleU (E.withStream B) u hdr seed = .ok f) = (2 ^ (8 * ((u + 7) / 8) - u)) ^ 512 :=
  sampleU_count E u hu hu' hdr seed f hf

/-- C56: the random field element of `zq_t::random` is not uniform: a residue `r` is produced by ⌊2^64/q⌋ of the eight-byte strings, and by one more
when r < 2^64 mod q. -/
theorem C56_random (E : Ext) (seed : List U8) (r : Nat) (hr : r < q) :
    countBytes 8 (fun B => (Zq.random (Prng.new (E.withStream128 B) seed)).1.raw.toNat = r) = 2 ^ 64 / q + if r < 2 ^ 64 % q then 1 else 0 :=
  random_count E seed r hr

/-- C56: concretely, 0 is produced by 33551 strings and q−1 by 33550 of the 2^64. -/
theorem C56_random_biased (E : Ext) (seed : List U8) :
    countBytes 8 (fun B => (Zq.random (Prng.new (E.withStream128 B) seed)).1.raw.toNat = 0) = 33551 ∧
    countBytes 8 (fun B => (Zq.random (Prng.new (E.withStream128 B) seed)).1.raw.toNat = q - 1) = 33550 := by
  rw [random_count E seed 0 q_pos, random_count E seed (q - 1) (Nat.sub_lt q_pos (by omega))]
  unfold q
  norm_num

/-- Non-vacuity: the challenges x^k and −x^j, of weight one, are equally likely, and possible. -/
example (E : Ext) (m : Nat) (hm : 1 ≤ m) (cHash : List U8) (k j : Fin 512) (a b : Poly) (ha : a = Vector.ofFn fun i : Fin 512 => if i = k then ⟨1⟩ else ⟨0⟩)
    (hb : b = Vector.ofFn fun i : Fin 512 => if i = j then ⟨BitVec.ofNat 64 (q - 1)⟩ else ⟨0⟩) :
    countBytes (m * 2) (fun B => Poly.chalPoly (E.withStream B) m 1 cHash = .ok a) = countBytes (m * 2) (fun B => Poly.chalPoly (E.withStream B) m 1 cHash = .ok b) ∧
    0 < countBytes (m * 2) (fun B => Poly.chalPoly (E.withStream B) m 1 cHash = .ok a) := by
  have key : ∀ (x : Nat) (k : Fin 512) (a : Poly), x ≠ 0 → (x = 1 ∨ x = q - 1) → a = Vector.ofFn (fun i : Fin 512 => if i = k then ⟨BitVec.ofNat 64 x⟩ else ⟨0⟩) →
      (∀ i (hi : i < 512), (a[i]).raw.toNat = 0 ∨ (a[i]).raw.toNat = 1 ∨ (a[i]).raw.toNat = q - 1) ∧
      (univ.filter fun i : Fin 512 => (a[i.val]).raw.toNat ≠ 0).card = 1 := by
    intro x k a hx hx' e
    have hlt : x < 2 ^ 64 := by unfold q at hx'; norm_num; omega
    have hv : ∀ i : Fin 512, (a[i.val]).raw.toNat = if i = k then x else 0 := by
      intro i
      rw [e, Vector.getElem_ofFn]
      by_cases h : i = k
      · rw [if_pos h, if_pos h]
        exact (BitVec.toNat_ofNat _ _).trans (Nat.mod_eq_of_lt hlt)
      · rw [if_neg h, if_neg h]; rfl
    constructor
    · intro i hi
      have := hv ⟨i, hi⟩
      dsimp only at this
      rw [this]
      split
      · exact Or.inr hx'
      · exact Or.inl rfl
    · rw [Finset.card_eq_one]
      refine ⟨k, ?_⟩
      ext i
      rw [mem_filter, mem_singleton, hv i]
      constructor
      · intro h
        by_contra hne
        exact h.2 (if_neg hne)
      · intro h
        refine ⟨mem_univ _, ?_⟩
        rw [if_pos h]
        exact hx
  obtain ⟨a1, a2⟩ := key 1 k a (by omega) (Or.inl rfl) ha
  obtain ⟨b1, b2⟩ := key (q - 1) j b (by unfold q; omega) (Or.inr rfl) hb
  exact ⟨C56_challenge E m 1 cHash a b a1 b1 a2 b2, C56_challenge_reached E m 1 hm cHash a a1 a2⟩

end Raccoon
