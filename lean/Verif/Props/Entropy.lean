import Verif.Proofs.EntropyGame
import Verif.Props.Forking
/-!
# C84: commitments cannot be predicted
-/
namespace Raccoon
attribute [-instance] Monoid.toNPow
open Finset

theorem noise_bits (d : Nat) (hd : ValidShares d) : 0 < uwOf d ∧ 0 < repOf d ∧ 0 < d ∧ (2 ^ uwOf d / prime1 + 1) * 2 ^ 20 ≤ 2 ^ uwOf d ∧ (2 ^ uwOf d / prime2 + 1) * 2 ^ 20 ≤ 2 ^ uwOf d := by
  obtain ⟨m, hm, rfl⟩ := hd
  rcases (by omega : m = 0 ∨ m = 1 ∨ m = 2 ∨ m = 3 ∨ m = 4 ∨ m = 5) with rfl | rfl | rfl | rfl | rfl | rfl <;> decide

theorem unpredictable_of {k l u : Nat} {κ : Type} [Fintype κ] [DecidableEq κ] (κ0 : κ) (hl : 0 < l) (hk : 5 ≤ k) (hu : 0 < u)
    (hp1 : (2 ^ u / prime1 + 1) * 2 ^ 20 ≤ 2 ^ u) (hp2 : (2 ^ u / prime2 + 1) * 2 ^ 20 ≤ 2 ^ u) (hν : 0 < q / 2 ^ 44) (x y : Nat) (hxy : 2046 = 2 * x + y) :
    Nat.card {a : Fin k → Fin l → RPoly // ¬ Unpredictable 44 u κ hν x a} * 2 ^ y ≤ Nat.card (Fin k → Fin l → RPoly) := by
  classical
  have : Nonempty (NoiseTable 1 l k u κ) := ⟨fun _ _ => ⟨0, Nat.two_pow_pos u⟩⟩
  have h := markov (A := Fin k → Fin l → RPoly) (T := NoiseTable 1 l k u κ) (fun a W => signerW 44 hν a (maskOf W 0) (errorOf W 0)) x y
    (fun W' => coll_count κ0 ⟨0, hl⟩ hk hu hp1 hp2 hν W' (2 * x + y) hxy)
  rw [Nat.card_eq_fintype_card, Nat.card_eq_fintype_card, Fintype.card_subtype]
  refine le_trans (Nat.mul_le_mul_right _ (card_filter_mono _ _ fun a ha => ?_)) h
  unfold Unpredictable at ha
  push Not at ha
  obtain ⟨w, hw⟩ := ha
  refine ⟨w, ?_⟩
  rw [Nat.card_eq_fintype_card, Nat.card_eq_fintype_card, Fintype.card_subtype] at hw
  exact hw

/-- C84: commitments cannot be predicted. For all but one 2^1022-th of the public matrices, no commitment is made from more than one 2^512-th of the noise of a signing attempt. -/
theorem C84_commitments (P : Par) (hP : P = raccoon128 ∨ P = raccoon192 ∨ P = raccoon256) (hν : 0 < q / 2 ^ P.νw) (d : Nat) (hd : ValidShares d) :
    Nat.card {a : Fin P.k → Fin P.l → RPoly // ¬ Unpredictable P.νw (uwOf d) (Fin (repOf d) × Fin d) hν 512 a} * 2 ^ 1022 ≤ Nat.card (Fin P.k → Fin P.l → RPoly) := by
  obtain ⟨h1, h2, h3, h4, h5⟩ := noise_bits d hd
  obtain ⟨w1, -⟩ := par_bounds P hP
  have hl : 0 < P.l := by rcases hP with rfl | rfl | rfl <;> decide
  have hk : 5 ≤ P.k := by rcases hP with rfl | rfl | rfl <;> decide
  have key : ∀ (νw : Nat) (hν : 0 < q / 2 ^ νw), νw = 44 →
      Nat.card {a : Fin P.k → Fin P.l → RPoly // ¬ Unpredictable νw (uwOf d) (Fin (repOf d) × Fin d) hν 512 a} * 2 ^ 1022 ≤ Nat.card (Fin P.k → Fin P.l → RPoly) := by
    rintro _ hν rfl
    exact unpredictable_of ((⟨0, h2⟩, ⟨0, h3⟩) : Fin (repOf d) × Fin d) hl hk h1 h4 h5 hν 512 1022 (by omega)
  exact key P.νw hν w1

section
variable {k l u ν M : Nat} {κ C D : Type} [Fintype κ]

/-- C84: hash values are hashed twice seldom. If commitments cannot be predicted and the attacker does not ask what it has seen, then of all noise tables and oracles at most one
2^b-th, for each signing attempt and each step of the game, is such that a signing attempt hits a pair (digest, commitment) that was hashed before. -/
theorem C84_fresh [Fintype C] [DecidableEq C] [Fintype D] [DecidableEq D] [DecidableEq κ] (A : Attacker k l ν C D) (hA : NeverAsksTwice A M) (hν : 0 < q / 2 ^ ν)
    (a : Fin k → Fin l → RPoly) (s : Fin l → Fin 512 → Int) (ch : C → Fin 512 → Int) (b : Nat) (ha : Unpredictable ν u κ hν b a) :
    Nat.card {x : NoiseTable M l k u κ × (D × Commitment k ν → C) // ¬ Fresh A (realGame A hν a s ch x.2 x.1)} * 2 ^ b ≤
      (univ.filter fun n : Fin M => A.signs n = true).card * M * Nat.card (NoiseTable M l k u κ × (D × Commitment k ν → C)) := by
  classical
  rw [Nat.card_eq_fintype_card, Nat.card_eq_fintype_card, Fintype.card_subtype]
  have h1 : (univ.filter fun x : NoiseTable M l k u κ × (D × Commitment k ν → C) => ¬ Fresh A (realGame A hν a s ch x.2 x.1)).card ≤
      ∑ p ∈ (univ.filter fun n : Fin M => A.signs n = true) ×ˢ (univ : Finset (Fin M)), (univ.filter (Hits (u := u) (κ := κ) A hν a s ch p.1 p.2)).card := by
    refine le_trans (Finset.card_le_card (t := ((univ.filter fun n : Fin M => A.signs n = true) ×ˢ (univ : Finset (Fin M))).biUnion fun p =>
      univ.filter (Hits (u := u) (κ := κ) A hν a s ch p.1 p.2)) ?_) Finset.card_biUnion_le
    intro x hx
    obtain ⟨n, m, hs, hh⟩ := not_fresh_hits A hA hν a s ch x (Finset.mem_filter.1 hx).2
    exact Finset.mem_biUnion.2 ⟨(n, m), Finset.mem_product.2 ⟨Finset.mem_filter.2 ⟨Finset.mem_univ _, hs⟩, Finset.mem_univ _⟩, Finset.mem_filter.2 ⟨Finset.mem_univ _, hh⟩⟩
  refine le_trans (Nat.mul_le_mul_right _ h1) ?_
  rw [Finset.sum_mul]
  refine le_trans (Finset.sum_le_sum fun p _ => hits_count A hν a s ch b ha p.1 p.2) ?_
  rw [Finset.sum_const, smul_eq_mul, Finset.card_product, Finset.card_univ, Fintype.card_fin]

end

theorem split_fresh {X : Type} [Finite X] (F G : X → Prop) : Nat.card {x // F x} ≤ Nat.card {x // F x ∧ G x} + Nat.card {x // ¬ G x} := by
  classical
  have := Fintype.ofFinite X
  rw [Nat.card_eq_fintype_card, Nat.card_eq_fintype_card, Nat.card_eq_fintype_card, Fintype.card_subtype, Fintype.card_subtype, Fintype.card_subtype]
  refine le_trans (Finset.card_le_card ?_) (Finset.card_union_le _ _)
  intro x hx
  by_cases h : G x
  · exact Finset.mem_union_left _ (Finset.mem_filter.2 ⟨Finset.mem_univ _, (Finset.mem_filter.1 hx).2, h⟩)
  · exact Finset.mem_union_right _ (Finset.mem_filter.2 ⟨Finset.mem_univ _, h⟩)

theorem relax_delta {T F G Z N M fl b B Q : Nat} {ε δ R : ℚ} (hT : 0 < T) (hsp : F ≤ G + Z) (hf : Z * 2 ^ b ≤ N * M * T) (hε : ε = (F : ℚ) / T)
    (hδ : δ = ε - N * (1 / 2 ^ fl + M / 2 ^ b)) (hδ0 : 0 ≤ δ) (hR0 : 0 ≤ R)
    (h : 0 ≤ (G : ℚ) / T - N / 2 ^ fl → ((G : ℚ) / T - N / 2 ^ fl) * (((G : ℚ) / T - N / 2 ^ fl) / Q - 1 / B) ≤ R) : δ * (δ / Q - 1 / B) ≤ R := by
  have t0 : (0 : ℚ) < T := by exact_mod_cast hT
  have b0 : (0 : ℚ) < 2 ^ b := by positivity
  have h1 : (F : ℚ) / T ≤ G / T + Z / T := by
    rw [← add_div]
    exact div_le_div_of_nonneg_right (by exact_mod_cast hsp) t0.le
  have h2 : (Z : ℚ) / T ≤ N * M / 2 ^ b := by
    rw [div_le_div_iff₀ t0 b0]
    exact_mod_cast hf
  have h3 : δ ≤ (G : ℚ) / T - N / 2 ^ fl := by
    have e : (N : ℚ) * (1 / 2 ^ fl + M / 2 ^ b) = N / 2 ^ fl + N * M / 2 ^ b := by ring
    rw [hδ, hε, e]
    linarith
  have h4 := h (le_trans hδ0 h3)
  generalize (G : ℚ) / T - N / 2 ^ fl = S at *
  have hq : (0 : ℚ) ≤ Q := by positivity
  have hm : δ / Q - 1 / B ≤ S / Q - 1 / (B : ℚ) := sub_le_sub_right (div_le_div_of_nonneg_right h3 hq) _
  by_cases hneg : δ / Q - 1 / (B : ℚ) ≤ 0
  · exact le_trans (mul_nonpos_of_nonneg_of_nonpos hδ0 hneg) hR0
  · exact le_trans (mul_le_mul h3 hm (le_of_lt (not_le.1 hneg)) (le_trans hδ0 h3)) h4

/-- C84: forgeries, without assumption on the games. If commitments cannot be predicted and the attacker does not ask what it has seen: let it forge against the signer on a fraction ε of all
noise tables and oracles, and let δ be ε less 2^−floodBits + M 2^−512 for each signing attempt, M being the number of steps. Then, for the simulator, which knows a s + e₀ but not the
secret: of all noise tables and pairs of tuples of hash values at least δ (δ/Q − 1/B) are such that the outputs of the game and of its repetition with new hash values from some
hash query on are a short relation a δ − 2^νt γ t = small with γ ≠ 0. -/
theorem C84_forgery (P : Par) (hP : P = raccoon128 ∨ P = raccoon192 ∨ P = raccoon256) (hν : 0 < q / 2 ^ P.νw) (d M : Nat) (hd : ValidShares d)
    (C D : Type) [Nonempty C] [Fintype C] [DecidableEq C] [Fintype D] [DecidableEq D] (A : Attacker P.k P.l P.νw C D) (hA : NeverAsksTwice A M)
    (a : Fin P.k → Fin P.l → RPoly) (ha : Unpredictable P.νw (uwOf d) (Fin (repOf d) × Fin d) hν 512 a) (s : Fin P.l → Fin 512 → Int) (e₀ : Fin P.k → Fin 512 → Int) (t : Fin P.k → RPoly)
    (hs : ∀ j x, |s j x| ≤ repOf d * d * 2 ^ (utOf P.κ d - 1)) (he : ∀ j x, |e₀ j x| ≤ repOf d * d * 2 ^ (utOf P.κ d - 1))
    (ch : C → Fin 512 → Int) (hch : ∀ c, IsChallengeVec P.ω (ch c)) (B : Nat) (hB0 : 0 < B) (hB : ∀ γ, B * Nat.card {c // ch c = γ} ≤ Nat.card C)
    (out : List (Outcome P.k P.l P.νw C) → D × List Int × List Int) (ε δ : ℚ)
    (hε : ε = (Nat.card {x : NoiseTable M P.l P.k (uwOf d) (Fin (repOf d) × Fin d) × (D × Commitment P.k P.νw → C) //
        Forges A P.νt P.Binf.toNat P.B22.toNat a t ch out (realGame A hν a s ch x.2 x.1)} : ℚ) /
      Nat.card (NoiseTable M P.l P.k (uwOf d) (Fin (repOf d) × Fin d) × (D × Commitment P.k P.νw → C)))
    (hδ : δ = ε - (univ.filter fun n : Fin M => A.signs n = true).card * (1 / 2 ^ floodBits P d + M / 2 ^ 512)) (hδ0 : 0 ≤ δ) :
    δ * (δ / (univ.filter fun n : Fin M => A.signs n = false).card - 1 / B) ≤
      (Nat.card {x : NoiseTable M P.l P.k (uwOf d) (Fin (repOf d) × Fin d) × (Fin M → C) × (Fin M → C) //
        ∃ n : Fin M, A.signs n = false ∧ ∃ v v', v = simulatedGame A hν a (publicB a s e₀) ch x.2.1 x.1 ∧ v' = simulatedGame A hν a (publicB a s e₀) ch (splice n x.2.1 x.2.2) x.1 ∧
          ShortRelation P a t (fun j i => unflatten P.l (out v).2.2 j i - unflatten P.l (out v').2.2 j i) (ch (x.2.1 n) - ch (x.2.2 n))} : ℚ) /
      Nat.card (NoiseTable M P.l P.k (uwOf d) (Fin (repOf d) × Fin d) × (Fin M → C) × (Fin M → C)) := by
  have hf := C84_fresh (M := M) A hA hν a s ch 512 ha
  have hsp := split_fresh (fun x : NoiseTable M P.l P.k (uwOf d) (Fin (repOf d) × Fin d) × (D × Commitment P.k P.νw → C) => Forges A P.νt P.Binf.toNat P.B22.toNat a t ch out (realGame A hν a s ch x.2 x.1))
    (fun x => Fresh A (realGame A hν a s ch x.2 x.1))
  have h := C83_forgery P hP hν d M hd C D A a s e₀ t hs he ch hch B hB0 hB out _ _ rfl rfl
  have hT : 0 < Nat.card (NoiseTable M P.l P.k (uwOf d) (Fin (repOf d) × Fin d) × (D × Commitment P.k P.νw → C)) := by
    rw [Nat.card_eq_fintype_card]; exact Fintype.card_pos
  generalize Nat.card {x : NoiseTable M P.l P.k (uwOf d) (Fin (repOf d) × Fin d) × (D × Commitment P.k P.νw → C) // ¬ Fresh A (realGame A hν a s ch x.2 x.1)} = Z at *
  generalize Nat.card {x : NoiseTable M P.l P.k (uwOf d) (Fin (repOf d) × Fin d) × (D × Commitment P.k P.νw → C) // Forges A P.νt P.Binf.toNat P.B22.toNat a t ch out (realGame A hν a s ch x.2 x.1)} = F at *
  generalize Nat.card {x : NoiseTable M P.l P.k (uwOf d) (Fin (repOf d) × Fin d) × (D × Commitment P.k P.νw → C) // Forges A P.νt P.Binf.toNat P.B22.toNat a t ch out (realGame A hν a s ch x.2 x.1) ∧
    Fresh A (realGame A hν a s ch x.2 x.1)} = G at *
  generalize Nat.card (NoiseTable M P.l P.k (uwOf d) (Fin (repOf d) × Fin d) × (D × Commitment P.k P.νw → C)) = T at *
  generalize hR : (Nat.card {x : NoiseTable M P.l P.k (uwOf d) (Fin (repOf d) × Fin d) × (Fin M → C) × (Fin M → C) // _} : ℚ) / _ = R at *
  have hR0 : 0 ≤ R := by rw [← hR]; positivity
  generalize (univ.filter fun n : Fin M => A.signs n = true).card = N at *
  generalize floodBits P d = fl at *
  exact relax_delta hT hsp hf hε hδ hδ0 hR0 h

/-- Non-vacuity of `C84_fresh` and `C84_forgery`: there are public matrices for which commitments cannot be predicted, and an attacker that has signed, asks for hash values of what it has seen
with other digests, and never asks twice. -/
example (hν : 0 < q / 2 ^ raccoon128.νw) : (∃ a : Fin raccoon128.k → Fin raccoon128.l → RPoly, Unpredictable raccoon128.νw (uwOf 2) (Fin (repOf 2) × Fin 2) hν 512 a) ∧
    ∃ A : Attacker raccoon128.k raccoon128.l raccoon128.νw Bool (Fin 10), NeverAsksTwice A 10 ∧ A.signs 0 = true ∧ A.signs 1 = false ∧
      ∃ v v', v.length = v'.length ∧ A.commitment v ≠ A.commitment v' := by
  constructor
  · by_contra hn
    push Not at hn
    have h := C84_commitments raccoon128 (Or.inl rfl) hν 2 ⟨1, by omega, rfl⟩
    have e : Nat.card {a : Fin raccoon128.k → Fin raccoon128.l → RPoly // ¬ Unpredictable raccoon128.νw (uwOf 2) (Fin (repOf 2) × Fin 2) hν 512 a} =
        Nat.card (Fin raccoon128.k → Fin raccoon128.l → RPoly) := Nat.card_congr (Equiv.subtypeUnivEquiv hn)
    rw [e] at h
    have hpos : 0 < Nat.card (Fin raccoon128.k → Fin raccoon128.l → RPoly) := by rw [Nat.card_eq_fintype_card]; exact Fintype.card_pos
    have key : ∀ T n : Nat, 0 < n → 0 < T → ¬ T * 2 ^ n ≤ T := fun T n h0 hT hle => by
      have h1 : 2 ^ 1 ≤ 2 ^ n := Nat.pow_le_pow_right (by omega) h0
      have h2 := Nat.mul_le_mul_left T h1
      omega
    exact key _ _ (by omega) hpos h
  · have hν1 : 1 < q / 2 ^ raccoon128.νw := by decide
    refine ⟨⟨fun n => n % 2 == 0, fun v => ⟨v.length % 10, Nat.mod_lt _ (by omega)⟩, fun v _ _ => if v.any (fun o => o.2.1) then ⟨1, hν1⟩ else ⟨0, hν⟩⟩, ?_, rfl, rfl, ?_⟩
    · intro v hv _ m hm e
      have e1 : (v.take m).length % 10 = v.length % 10 := congrArg Fin.val (Prod.mk.inj e).1
      rw [List.length_take_of_le hm.le] at e1
      omega
    · refine ⟨[(fun _ _ => ⟨0, hν⟩, true, none)], [(fun _ _ => ⟨0, hν⟩, false, none)], rfl, fun h => ?_⟩
      have h1 : (1 : Nat) = 0 := congrArg Fin.val (congrFun (congrFun h ⟨0, by decide⟩) 0)
      omega

end Raccoon
