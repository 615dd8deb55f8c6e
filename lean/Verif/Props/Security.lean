import Verif.Props.Strong
/-!
# C90: what an attacker of the interface gains
-/
namespace Raccoon
attribute [-instance] Monoid.toNPow

/-- From the forking bound to a bound on the forger. -/
theorem fork_solve {δ Q K p y : ℚ} (hQ : 0 < Q) (hK : 0 < K) (hy : 0 ≤ y) (h : δ * (δ / Q - 1 / K) ≤ p) (hp : p * Q ≤ y * y) : δ ≤ y + Q / K := by
  by_contra hlt
  have h1 : y + Q / K < δ := not_le.1 hlt
  have h2 : 0 < Q / K := div_pos hQ hK
  have h3 : y < δ - Q / K := by linarith
  have h4 : y * y < δ * (δ - Q / K) := by nlinarith
  have h5 : δ * (δ - Q / K) = δ * (δ / Q - 1 / K) * Q := by
    field_simp
  have h6 := mul_le_mul_of_nonneg_right h hQ.le
  rw [h5] at h4
  linarith

/-- C90: the gain of an attacker of the interface. Let the noise words be drawn at random and the challenge hash be a random oracle, and let the attacker B have at most N signing attempts
made, in M steps, and hand in a valid signature that is not one it was given, on a fraction ε of all noise tables and oracles. Two ways to use B without the secret are given explicitly: playing
against the simulator twice, with new hash values from some query on, finds short relations on a fraction p₁; and playing once shows a short vector with short image on a fraction p₂. Then
ε ≤ p₂ + √(Q p₁) + Q/K + N (2 · 2^−floodBits + (2 N(M+1) + 2 M + 1) 2^−512), where Q = (N+1) M + 1 and no challenge belongs to more than one in K hash values. (Any y whose square is
at least Q p₁ may be taken for the root.) -/
theorem C90_bound (P : Par) (hP : P = raccoon128 ∨ P = raccoon192 ∨ P = raccoon256) (hν : 0 < q / 2 ^ P.νw) (E : Ext) (d M N len : Nat) (hM : N * (M + 1) + M + 1 < 2 ^ 512)
    (hd : ValidShares d) (B : ApiAttacker P) (pkb : List U8)
    (a : Fin P.k → Fin P.l → RPoly) (ha : Unpredictable P.νw (uwOf d) (Fin (repOf d) × Fin d) hν 512 a) (s : Fin P.l → Fin 512 → Int) (e₀ : Fin P.k → Fin 512 → Int) (t : Fin P.k → RPoly)
    (hs : ∀ j x, |s j x| ≤ repOf d * d * 2 ^ (utOf P.κ d - 1)) (he : ∀ j x, |e₀ j x| ≤ repOf d * d * 2 ^ (utOf P.κ d - 1))
    (ht : ∀ r i, t r i = (roundZ P.νt (publicB a s e₀ r i) : ZMod q))
    (K : Nat) (hK0 : 0 < K) (hK : ∀ γ, K * Nat.card {c // challengeMap P E c = γ} ≤ Nat.card (HashVal P)) (ε p₁ p₂ y : ℚ)
    (A : FreeAttacker P.k P.l P.νw (HashVal P) (HashVal P)) (hA : A = B.free P a t (challengeMap P E) len hν (digestOf P E pkb))
    (out : List (Outcome P.k P.l P.νw (HashVal P)) → Forgery (HashVal P) (HashVal P)) (hout : out = B.handsIn P a t (challengeMap P E) len (digestOf P E pkb))
    (hε : ε = (Nat.card {x : NoiseTable N P.l P.k (uwOf d) (Fin (repOf d) × Fin d) × (HashVal P × Commitment P.k P.νw → HashVal P) //
        FreeWinsStrongly A P.νt P.Binf.toNat P.B22.toNat a t (challengeMap P E) x.2 out (freeGame A M N hν a s (challengeMap P E) x.2 x.1)} : ℚ) /
      Nat.card (NoiseTable N P.l P.k (uwOf d) (Fin (repOf d) × Fin d) × (HashVal P × Commitment P.k P.νw → HashVal P)))
    [Nontrivial (HashVal P)]
    -- the first way
    (A₁ : Attacker P.k P.l P.νw (HashVal P) (HashVal P))
    (hA₁ : A₁ = ((A.scheduled M N out).finishing (N * (M + 1) + M) hν P.νt a t (challengeMap P E) fun v => out (A.seen M N v)).careful)
    (out₁ : List (Outcome P.k P.l P.νw (HashVal P)) → HashVal P × List Int × List Int)
    (hout₁ : out₁ = carefulOut ((A.scheduled M N out).finishing (N * (M + 1) + M) hν P.νt a t (challengeMap P E) fun v => out (A.seen M N v)) (N * (M + 1) + M)
      fun v => out (A.seen M N v))
    (hp₁ : p₁ = (Nat.card {x : NoiseTable (N * (M + 1) + M + 1) P.l P.k (uwOf d) (Fin (repOf d) × Fin d) × (Fin (N * (M + 1) + M + 1) → HashVal P) × (Fin (N * (M + 1) + M + 1) → HashVal P) //
        ∃ n : Fin (N * (M + 1) + M + 1), A₁.signs n = false ∧
          ∃ v v', v = simulatedGame A₁ hν a (publicB a s e₀) (challengeMap P E) x.2.1 x.1 ∧
          v' = simulatedGame A₁ hν a (publicB a s e₀) (challengeMap P E) (splice n x.2.1 x.2.2) x.1 ∧
          ShortRelation P a t (fun j i => unflatten P.l (out₁ v).2.2 j i - unflatten P.l (out₁ v').2.2 j i) (challengeMap P E (x.2.1 n) - challengeMap P E (x.2.2 n))} : ℚ) /
      Nat.card (NoiseTable (N * (M + 1) + M + 1) P.l P.k (uwOf d) (Fin (repOf d) × Fin d) × (Fin (N * (M + 1) + M + 1) → HashVal P) × (Fin (N * (M + 1) + M + 1) → HashVal P)))
    -- the second way
    (A₂ : Attacker P.k P.l P.νw (HashVal P) (HashVal P)) (hA₂ : A₂ = (A.scheduled M N out).careful)
    (out₂ : List (Outcome P.k P.l P.νw (HashVal P)) → Forgery (HashVal P) (HashVal P)) (hout₂ : out₂ = fun v => out (A.seen M N ((A.scheduled M N out).memory v).view))
    (hp₂ : p₂ = (Nat.card {x : NoiseTable (N * (M + 1) + M) P.l P.k (uwOf d) (Fin (repOf d) × Fin d) × (Fin (N * (M + 1) + M) → HashVal P) //
        ∃ v, v = simulatedGame A₂ hν a (publicB a s e₀) (challengeMap P E) x.2 x.1 ∧ ∃ o ∈ v, ∃ z, o.2.2 = some z ∧
          ShortVector a (P.Binf.toNat + maskBound d) (imageBound P d) fun j i => z j i - unflatten P.l (out₂ v).2.2.2 j i} : ℚ) /
      Nat.card (NoiseTable (N * (M + 1) + M) P.l P.k (uwOf d) (Fin (repOf d) × Fin d) × (Fin (N * (M + 1) + M) → HashVal P)))
    (hy0 : 0 ≤ y) (hy : p₁ * (((N + 1) * M : Nat) + 1) ≤ y * y) :
    ε ≤ p₂ + y + (((N + 1) * M : Nat) + 1) / K + N * (2 / 2 ^ floodBits P d + (2 * (N * (M + 1) + M : Nat) + 1) / 2 ^ 512) := by
  obtain ⟨ε₁, hε₁⟩ : ∃ x : ℚ, x = (Nat.card {x : NoiseTable N P.l P.k (uwOf d) (Fin (repOf d) × Fin d) × (HashVal P × Commitment P.k P.νw → HashVal P) //
        FreeWins A P.νt P.Binf.toNat P.B22.toNat a t (challengeMap P E) x.2 out (freeGame A M N hν a s (challengeMap P E) x.2 x.1)} : ℚ) /
      Nat.card (NoiseTable N P.l P.k (uwOf d) (Fin (repOf d) × Fin d) × (HashVal P × Commitment P.k P.νw → HashVal P)) := exists_eq
  have h2 := C89_unforgeable P hP hν E d M N len (le_trans (Nat.le_succ _) hM.le) hd B pkb a ha s e₀ t hs he ht ε ε₁ A hA out hout hε hε₁ A₂ hA₂ out₂ hout₂
  rw [← hp₂] at h2
  obtain ⟨δ, hδ⟩ : ∃ δ : ℚ, δ = ε₁ - N * (1 / 2 ^ floodBits P d + ((N * (M + 1) + M : Nat) + 1) / 2 ^ 512) := exists_eq
  have hQ : (0 : ℚ) < ((N + 1) * M : Nat) + 1 := add_pos_of_nonneg_of_pos (Nat.cast_nonneg _) one_pos
  have hKq : (0 : ℚ) < K := by exact_mod_cast hK0
  have h1 : δ ≤ y + (((N + 1) * M : Nat) + 1) / K := by
    rcases lt_or_ge δ 0 with h | h
    · have : (0 : ℚ) ≤ (((N + 1) * M : Nat) + 1) / K := (div_pos hQ hKq).le
      linarith
    · have h1 := C88_unforgeable P hP hν E d M N len hM hd B pkb a ha s e₀ t hs he K hK0 hK ε₁ δ A hA out hout hε₁ hδ h A₁ hA₁ out₁ hout₁
      rw [← hp₁] at h1
      exact fork_solve hQ hKq hy0 h1 hy
  clear hε hε₁ hp₁ hp₂ hM
  have hB : (0 : ℚ) < 2 ^ 512 := by positivity
  generalize (2 : ℚ) ^ 512 = b at *
  generalize (2 : ℚ) ^ floodBits P d = g at *
  generalize ((N * (M + 1) + M : Nat) : ℚ) = X at *
  have e : (N : ℚ) * (2 / g + (2 * X + 1) / b) = N * (1 / g + X / b) + N * (1 / g + (X + 1) / b) := by ring
  rw [e]
  linarith

/-- C90: generated keys are as `C90_bound` asks: secret and error are small, and the public vector is t = ⌊a s + e₀⌉. -/
theorem C90_key (P : Par) (hP : P = raccoon128 ∨ P = raccoon192 ∨ P = raccoon256) (E : Ext) (fuel0 d : Nat) (hd : ValidShares d)
    (entropy0 seed : List U8) (hseed : seed.length = P.κ / 8) (sk0 : SKey P.k P.l d) (h0 : Api.generate P (utTableOf P) E fuel0 d entropy0 seed = .ok sk0)
    (pkBuf pkb : List U8) (hpl : pkBuf.length = PKey.byteLen P.κ P.k P.νt) (hpk : Api.pkAsBytes P (Api.getPkey P sk0) pkBuf = .ok pkb)
    (t : Fin P.k → Fin 512 → Nat) (a : Fin P.k → Fin P.l → RPoly) (hpkb : IsPkOf P seed t pkb) (hA : IsMatrixOf E seed a) :
    (∀ j x, |keySecret P E d entropy0 j x| ≤ repOf d * d * 2 ^ (utOf P.κ d - 1)) ∧ (∀ j x, |keyError P E d entropy0 j x| ≤ repOf d * d * 2 ^ (utOf P.κ d - 1)) ∧
      ∀ r i, (t r i : ZMod q) = (roundZ P.νt (publicB a (keySecret P E d entropy0) (keyError P E d entropy0) r i) : ZMod q) := by
  obtain ⟨t', a', h1, h2, h3⟩ := C37_wire P hP E fuel0 d hd entropy0 seed hseed sk0 h0 pkBuf pkb hpl hpk
  obtain ⟨-, rfl⟩ := hpkb.unique h1
  obtain rfl := hA.unique h2
  have hut : 0 < utOf P.κ d := by
    obtain ⟨m, hm, rfl⟩ := hd
    unfold utOf
    rcases (by omega : m = 0 ∨ m = 1 ∨ m = 2 ∨ m = 3 ∨ m = 4 ∨ m = 5) with rfl | rfl | rfl | rfl | rfl | rfl <;> norm_num
  exact ⟨fun j x => totalNoise_bound E (utOf P.κ d) P.κ d (repOf d) P.l hut (E.shake128 entropy0) 0 j x,
    fun j x => totalNoise_bound E (utOf P.κ d) P.κ d (repOf d) P.k hut (E.shake128 entropy0) _ j x, fun r i => congrArg Nat.cast (h3 r i)⟩

/-- Non-vacuity of `C90_bound`: there are matrices, secrets, errors and public vectors as it asks for, and with K = 1 and a suitable y its other conditions are met too. -/
example (hν : 0 < q / 2 ^ raccoon128.νw) (E : Ext) (M N : Nat) (p₁ : ℚ) :
    ∃ (a : Fin raccoon128.k → Fin raccoon128.l → RPoly) (s : Fin raccoon128.l → Fin 512 → Int) (e₀ : Fin raccoon128.k → Fin 512 → Int) (t : Fin raccoon128.k → RPoly) (y : ℚ),
      Unpredictable raccoon128.νw (uwOf 2) (Fin (repOf 2) × Fin 2) hν 512 a ∧ (∃ j x, s j x ≠ 0) ∧ (∀ j x, |s j x| ≤ repOf 2 * 2 * 2 ^ (utOf raccoon128.κ 2 - 1)) ∧
      (∀ j x, |e₀ j x| ≤ repOf 2 * 2 * 2 ^ (utOf raccoon128.κ 2 - 1)) ∧ (∀ r i, t r i = (roundZ raccoon128.νt (publicB a s e₀ r i) : ZMod q)) ∧
      (∀ γ, 1 * Nat.card {c // challengeMap raccoon128 E c = γ} ≤ Nat.card (HashVal raccoon128)) ∧ 0 ≤ y ∧ p₁ * (((N + 1) * M : Nat) + 1) ≤ y * y ∧ Nontrivial (HashVal raccoon128) := by
  obtain ⟨a, ha⟩ : ∃ a : Fin raccoon128.k → Fin raccoon128.l → RPoly, Unpredictable raccoon128.νw (uwOf 2) (Fin (repOf 2) × Fin 2) hν 512 a := by
    by_contra hn
    push Not at hn
    have h := C84_commitments raccoon128 (Or.inl rfl) hν 2 ⟨1, by omega, rfl⟩
    have e : Nat.card {a : Fin raccoon128.k → Fin raccoon128.l → RPoly // ¬ Unpredictable raccoon128.νw (uwOf 2) (Fin (repOf 2) × Fin 2) hν 512 a} =
        Nat.card (Fin raccoon128.k → Fin raccoon128.l → RPoly) := Nat.card_congr (Equiv.subtypeUnivEquiv hn)
    rw [e] at h
    have hpos : 0 < Nat.card (Fin raccoon128.k → Fin raccoon128.l → RPoly) := by rw [Nat.card_eq_fintype_card]; exact Fintype.card_pos
    have key : ∀ T n : Nat, 0 < n → 0 < T → ¬ T * 2 ^ n ≤ T := fun T n h0 hT hle => by
      have h1 : 2 ^ 1 ≤ 2 ^ n := Nat.pow_le_pow_right (by omega) h0
      have := Nat.mul_le_mul_left T h1
      omega
    exact key _ _ (by decide) hpos h
  have hb : |(1 : Int)| ≤ repOf 2 * 2 * 2 ^ (utOf raccoon128.κ 2 - 1) := by decide
  have hx : ∃ x, x = p₁ * (((N + 1) * M : Nat) + 1) := exists_eq
  obtain ⟨x, hx⟩ := hx
  refine ⟨a, fun _ _ => 1, fun _ _ => 1, _, |x| + 1, ha, ⟨⟨0, by decide⟩, 0, one_ne_zero⟩, fun _ _ => hb, fun _ _ => hb, fun r i => rfl, fun γ => ?_, by positivity, ?_,
    hashVal_nontrivial (Or.inl rfl)⟩
  · rw [Nat.one_mul]
    exact Nat.card_le_card_of_injective Subtype.val Subtype.val_injective
  · rw [← hx]
    nlinarith [le_abs_self x, abs_nonneg x]

end Raccoon
