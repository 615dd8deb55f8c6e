import Verif.Proofs.EntropyKey
import Verif.Spec.KeyEntropy
import Verif.Props.MatrixOracle
import Verif.Props.Simulate
/-!
# C86: public keys cannot be predicted
-/
namespace Raccoon
attribute [-instance] Monoid.toNPow
open Finset

theorem key_bits (P : Par) (hP : P = raccoon128 ∨ P = raccoon192 ∨ P = raccoon256) (d : Nat) (hd : ValidShares d) : 0 < utOf P.κ d ∧ 0 < repOf d ∧ 0 < d ∧
    (2 ^ utOf P.κ d / prime1 + 1) * 2 ^ 4 ≤ 2 ^ utOf P.κ d ∧ (2 ^ utOf P.κ d / prime2 + 1) * 2 ^ 4 ≤ 2 ^ utOf P.κ d := by
  obtain ⟨m, hm, rfl⟩ := hd
  rcases hP with rfl | rfl | rfl <;> rcases (by omega : m = 0 ∨ m = 1 ∨ m = 2 ∨ m = 3 ∨ m = 4 ∨ m = 5) with rfl | rfl | rfl | rfl | rfl | rfl <;> decide

theorem key_unpredictable_of {k l u : Nat} {κ : Type} [Fintype κ] [DecidableEq κ] (κ0 : κ) (hl : 0 < l) (hk : 5 ≤ k) (hu : 0 < u)
    (hp1 : (2 ^ u / prime1 + 1) * 2 ^ 4 ≤ 2 ^ u) (hp2 : (2 ^ u / prime2 + 1) * 2 ^ 4 ≤ 2 ^ u) (hν : 0 < q / 2 ^ 42) (x y : Nat) (hxy : 462 = 2 * x + y) :
    Nat.card {a : Fin k → Fin l → RPoly // ¬ Unpredictable 42 u κ hν x a} * 2 ^ y ≤ Nat.card (Fin k → Fin l → RPoly) := by
  classical
  have : Nonempty (NoiseTable 1 l k u κ) := ⟨fun _ _ => ⟨0, Nat.two_pow_pos u⟩⟩
  have h := markov (A := Fin k → Fin l → RPoly) (T := NoiseTable 1 l k u κ) (fun a W => signerW 42 hν a (maskOf W 0) (errorOf W 0)) x y
    (fun W' => key_coll κ0 ⟨0, hl⟩ hk hu hp1 hp2 hν W' (2 * x + y) hxy)
  rw [Nat.card_eq_fintype_card, Nat.card_eq_fintype_card, Fintype.card_subtype]
  refine le_trans (Nat.mul_le_mul_right _ (card_filter_mono _ _ fun a ha => ?_)) h
  unfold Unpredictable at ha
  push Not at ha
  obtain ⟨w, hw⟩ := ha
  refine ⟨w, ?_⟩
  rw [Nat.card_eq_fintype_card, Nat.card_eq_fintype_card, Fintype.card_subtype] at hw
  exact hw

/-- C86: public keys cannot be predicted. For all but one 2^206-th of the public matrices, no public vector t = ⌊a s + e⌉ is made from more than one 2^128-th of the noise of a key generation. -/
theorem C86_keys (P : Par) (hP : P = raccoon128 ∨ P = raccoon192 ∨ P = raccoon256) (hν : 0 < q / 2 ^ P.νt) (d : Nat) (hd : ValidShares d) :
    Nat.card {a : Fin P.k → Fin P.l → RPoly // ¬ Unpredictable P.νt (utOf P.κ d) (Fin (repOf d) × Fin d) hν 128 a} * 2 ^ 206 ≤ Nat.card (Fin P.k → Fin P.l → RPoly) := by
  obtain ⟨h1, h2, h3, h4, h5⟩ := key_bits P hP d hd
  obtain ⟨-, w1, -⟩ := par_bounds P hP
  have hl : 0 < P.l := by rcases hP with rfl | rfl | rfl <;> decide
  have hk : 5 ≤ P.k := by rcases hP with rfl | rfl | rfl <;> decide
  have key : ∀ (νt : Nat) (hν : 0 < q / 2 ^ νt), νt = 42 →
      Nat.card {a : Fin P.k → Fin P.l → RPoly // ¬ Unpredictable νt (utOf P.κ d) (Fin (repOf d) × Fin d) hν 128 a} * 2 ^ 206 ≤ Nat.card (Fin P.k → Fin P.l → RPoly) := by
    rintro _ hν rfl
    exact key_unpredictable_of ((⟨0, h2⟩, ⟨0, h3⟩) : Fin (repOf d) × Fin d) hl hk h1 h4 h5 hν 128 206 (by omega)
  exact key P.νt hν w1

/-- C86: so two key generations with the same such matrix give the same public vector for at most one 2^128-th of all pairs of noise tables. -/
theorem C86_pairs {k l ν u : Nat} {κ : Type} [Fintype κ] (hν : 0 < q / 2 ^ ν) (b : Nat) (a : Fin k → Fin l → RPoly) (ha : Unpredictable ν u κ hν b a) :
    2 ^ b * Nat.card {p : NoiseTable 1 l k u κ × NoiseTable 1 l k u κ // signerW ν hν a (maskOf p.1 0) (errorOf p.1 0) = signerW ν hν a (maskOf p.2 0) (errorOf p.2 0)} ≤
      Nat.card (NoiseTable 1 l k u κ × NoiseTable 1 l k u κ) := by
  classical
  have e : {p : NoiseTable 1 l k u κ × NoiseTable 1 l k u κ // signerW ν hν a (maskOf p.1 0) (errorOf p.1 0) = signerW ν hν a (maskOf p.2 0) (errorOf p.2 0)} ≃
      Σ W' : NoiseTable 1 l k u κ, {W : NoiseTable 1 l k u κ // signerW ν hν a (maskOf W 0) (errorOf W 0) = signerW ν hν a (maskOf W' 0) (errorOf W' 0)} :=
    ⟨fun p => ⟨p.1.2, p.1.1, p.2⟩, fun p => ⟨(p.2.1, p.1), p.2.2⟩, fun _ => rfl, fun _ => rfl⟩
  rw [Nat.card_congr e, Nat.card_sigma, Nat.card_prod, Finset.mul_sum]
  refine le_trans (Finset.sum_le_sum fun W' _ => ha _) ?_
  rw [Finset.sum_const, smul_eq_mul, Finset.card_univ, ← Nat.card_eq_fintype_card]

/-- C86: the same for the matrices the library expands: of all streams for which matrix expansion ends, all but one 2^206-th give such a matrix. -/
theorem C86_expanded (P : Par) (hP : P = raccoon128 ∨ P = raccoon192 ∨ P = raccoon256) (hν : 0 < q / 2 ^ P.νt) (d : Nat) (hd : ValidShares d) (E : Ext) (m : Nat) (seed : List U8) :
    Nat.card {B : Fin P.k → Fin P.l → Fin (m * 7) → U8 // ∃ a : Fin P.k → Fin P.l → RPoly, ((∃ A, PMat.expandA (E.withMatrix seed B) m P.k P.l seed = .ok A) ∧
        IsMatrixOf (E.withMatrix seed B) seed a) ∧ ¬ Unpredictable P.νt (utOf P.κ d) (Fin (repOf d) × Fin d) hν 128 a} * 2 ^ 206 ≤
      Nat.card {B : Fin P.k → Fin P.l → Fin (m * 7) → U8 // ∃ A, PMat.expandA (E.withMatrix seed B) m P.k P.l seed = .ok A} := by
  have hk : P.k ≤ 256 := by rcases hP with rfl | rfl | rfl <;> decide
  have hl : P.l ≤ 256 := by rcases hP with rfl | rfl | rfl <;> decide
  exact sets_bound E m seed hk hl _ _ (C86_keys P hP hν d hd)

theorem keyWords_sum (P : Par) (hP : P = raccoon128 ∨ P = raccoon192 ∨ P = raccoon256) (E : Ext) (d : Nat) (hd : ValidShares d) (entropy : List U8) :
    keySecret P E d entropy = maskOf (keyWords P E d entropy) 0 ∧ keyError P E d entropy = errorOf (keyWords P E d entropy) 0 := by
  obtain ⟨hu, -⟩ := key_bits P hP d hd
  constructor
  · funext j c
    unfold keySecret noiseVec totalNoise maskOf signedSum
    rw [Fintype.sum_prod_type, Finset.sum_range]
    refine Finset.sum_congr rfl fun r _ => ?_
    rw [Finset.sum_range]
    refine Finset.sum_congr rfl fun s _ => ?_
    unfold keyWords
    rw [signedWord_bmod hu]
    rfl
  · funext j c
    unfold keyError noiseVec totalNoise errorOf signedSum
    rw [Fintype.sum_prod_type, Finset.sum_range]
    refine Finset.sum_congr rfl fun r _ => ?_
    rw [Finset.sum_range]
    refine Finset.sum_congr rfl fun s _ => ?_
    unfold keyWords
    rw [signedWord_bmod hu]
    rfl

/-- C86: the public keys of the code are these: a generated key's public bytes are the seed and the vector made from the matrix of the seed and the noise words of the entropy. -/
theorem C86_generated (P : Par) (hP : P = raccoon128 ∨ P = raccoon192 ∨ P = raccoon256) (hν : 0 < q / 2 ^ P.νt) (E : Ext) (fuel d : Nat) (hd : ValidShares d) (entropy seed : List U8)
    (hs : seed.length = P.κ / 8) (sk : SKey P.k P.l d) (h : Api.generate P (utTableOf P) E fuel d entropy seed = .ok sk)
    (buf pkb : List U8) (hb : buf.length = PKey.byteLen P.κ P.k P.νt) (hpk : Api.pkAsBytes P (Api.getPkey P sk) buf = .ok pkb) :
    ∃ a : Fin P.k → Fin P.l → RPoly, IsMatrixOf E seed a ∧
      IsPkOf P seed (fun i x => (signerW P.νt hν a (maskOf (keyWords P E d entropy) 0) (errorOf (keyWords P E d entropy) 0) i x).val) pkb := by
  obtain ⟨t, a, h1, h2, h3⟩ := C37_wire P hP E fuel d hd entropy seed hs sk h buf pkb hb hpk
  refine ⟨a, h2, ?_⟩
  obtain ⟨e1, e2⟩ := keyWords_sum P hP E d hd entropy
  rw [e1, e2] at h3
  have : t = fun i x => (signerW P.νt hν a (maskOf (keyWords P E d entropy) 0) (errorOf (keyWords P E d entropy) 0) i x).val := by
    funext i x
    exact h3 i x
  rw [← this]
  exact h1

/-- C86: keys with different seeds differ in any case, keys with the same seed exactly if their vectors differ. -/
theorem C86_bytes (P : Par) (seed seed' : List U8) (t t' : Fin P.k → Fin 512 → Nat) (b : List U8) (h : IsPkOf P seed t b) (h' : IsPkOf P seed' t' b) : seed = seed' ∧ t = t' :=
  h.unique h'

/-- Non-vacuity of `C86_pairs` and of the hypotheses of `C86_generated`: a matrix for which public keys cannot be predicted; a generated key and its bytes. -/
example (hν : 0 < q / 2 ^ raccoon128.νt) : (∃ a : Fin raccoon128.k → Fin raccoon128.l → RPoly, Unpredictable raccoon128.νt (utOf raccoon128.κ 2) (Fin (repOf 2) × Fin 2) hν 128 a) ∧
    ∀ entropy seed : List U8, seed.length = raccoon128.κ / 8 → ∃ sk pkb, Api.generate raccoon128 (utTableOf raccoon128) demoE 512 2 entropy seed = .ok sk ∧
      Api.pkAsBytes raccoon128 (Api.getPkey raccoon128 sk) (List.replicate (PKey.byteLen raccoon128.κ raccoon128.k raccoon128.νt) 0) = .ok pkb := by
  constructor
  · by_contra hn
    push Not at hn
    have h := C86_keys raccoon128 (Or.inl rfl) hν 2 ⟨1, by omega, rfl⟩
    have e : Nat.card {a : Fin raccoon128.k → Fin raccoon128.l → RPoly // ¬ Unpredictable raccoon128.νt (utOf raccoon128.κ 2) (Fin (repOf 2) × Fin 2) hν 128 a} =
        Nat.card (Fin raccoon128.k → Fin raccoon128.l → RPoly) := Nat.card_congr (Equiv.subtypeUnivEquiv hn)
    rw [e] at h
    have hpos : 0 < Nat.card (Fin raccoon128.k → Fin raccoon128.l → RPoly) := by rw [Nat.card_eq_fintype_card]; exact Fintype.card_pos
    have key : ∀ T n : Nat, 0 < n → 0 < T → ¬ T * 2 ^ n ≤ T := fun T n h0 hT hle => by
      have h1 : 2 ^ 1 ≤ 2 ^ n := Nat.pow_le_pow_right (by omega) h0
      have h2 := Nat.mul_le_mul_left T h1
      omega
    exact key _ _ (by omega) hpos h
  · intro entropy seed hseed
    obtain ⟨sk0, -, -, -, -, h0, -⟩ := demo_run entropy seed [] [] [] hseed
    have hwf := C37_wellformed raccoon128 (Or.inl rfl) demoE 512 2 demo_d entropy seed hseed sk0 h0
    obtain ⟨pkb, hpk⟩ := pkBytes_ok raccoon128 (Or.inl rfl) sk0.pkey hwf.pkey.seed
    exact ⟨sk0, pkb, h0, hpk⟩

end Raccoon
