import Verif.Proofs.Unforgeable
import Verif.Props.Entropy
/-!
# C87: forging means finding short relations, whatever the attacker asks
-/
namespace Raccoon
attribute [-instance] Monoid.toNPow
open Finset

section
variable {k l u ν M : Nat} {κ C D : Type} [Fintype κ]

/-- C87: the careful attacker, which keeps a log of the hash values it knows, never asks twice. -/
theorem C87_never [DecidableEq D] [Fintype D] (A : Attacker k l ν C D) (hM : M ≤ Fintype.card (D × Commitment k ν)) : NeverAsksTwice A.careful M := careful_never A hM

/-- C87: nothing is lost: with the same noise and hash function, what the careful attacker shows the attacker it works for is the game that attacker would have had itself. -/
theorem C87_view [DecidableEq D] (A : Attacker k l ν C D) (hν : 0 < q / 2 ^ ν) (a : Fin k → Fin l → RPoly) (s : Fin l → Fin 512 → Int) (ch : C → Fin 512 → Int)
    (H : D × Commitment k ν → C) (W : NoiseTable M l k u κ) : (A.memory (realGame A.careful hν a s ch H W)).view = realGame A hν a s ch H W :=
  careful_view_all A hν a s ch H W

/-- What the careful, finishing attacker outputs: digest, hint and response of the forgery. -/
noncomputable def carefulOut [DecidableEq D] (A : Attacker k l ν C D) (M : Nat) (out : List (Outcome k l ν C) → Forgery C D) (v : List (Outcome k l ν C)) : D × List Int × List Int :=
  ((out ((A.memory v).view.take M)).1, (out ((A.memory v).view.take M)).2.2)

/-- C87: whenever the attacker wins, its careful version has forged, having asked itself for the hash value of the forgery. -/
theorem C87_wins_forges [DecidableEq D] (A : Attacker k l ν C D) (hν : 0 < q / 2 ^ ν) (νt Binf B22 : Nat) (a : Fin k → Fin l → RPoly) (t : Fin k → RPoly) (s : Fin l → Fin 512 → Int)
    (ch : C → Fin 512 → Int) (H : D × Commitment k ν → C) (out : List (Outcome k l ν C) → Forgery C D) (W : NoiseTable (M + 1) l k u κ)
    (h : Wins A νt Binf B22 a t ch H out (realGame A hν a s ch H (firstRows W))) :
    Forges (A.finishing M hν νt a t ch out).careful νt Binf B22 a t ch (carefulOut (A.finishing M hν νt a t ch out) M out)
      (realGame (A.finishing M hν νt a t ch out).careful hν a s ch H W) := by
  exact careful_forges (A.finishing M hν νt a t ch out) hν νt Binf B22 a t s ch H W (fun v => ((out (v.take M)).1, (out (v.take M)).2.2))
    (finishing_forges A hν νt Binf B22 a t s ch H out W h)

end

theorem commitment_card {k ν : Nat} (hk : 0 < k) (hν : 1 < q / 2 ^ ν) (D : Type) [Fintype D] [Nonempty D] : 2 ^ 512 ≤ Fintype.card (D × Commitment k ν) := by
  have h1 : Fintype.card (Commitment k ν) = ((q / 2 ^ ν) ^ 512) ^ k := by
    rw [Fintype.card_fun, Fintype.card_fun, Fintype.card_fin, Fintype.card_fin, Fintype.card_fin]
  have h2 : ∀ x n : Nat, 1 < x → 2 ^ n ≤ (x ^ n) ^ k := fun x n hx => by
    refine le_trans (Nat.pow_le_pow_left (show 2 ≤ x from hx) n) ?_
    have h3 : 0 < x ^ n := Nat.pow_pos (by omega)
    calc x ^ n = (x ^ n) ^ 1 := (Nat.pow_one _).symm
      _ ≤ (x ^ n) ^ k := Nat.pow_le_pow_right h3 hk
  rw [Fintype.card_prod, h1]
  refine le_trans (h2 _ 512 hν) ?_
  exact Nat.le_mul_of_pos_left _ Fintype.card_pos

theorem relax_eps {ε ε' c B Q R : ℚ} (hε : ε ≤ ε') (h0 : 0 ≤ ε - c) (hQ : 0 ≤ Q) (hR0 : 0 ≤ R) (h : 0 ≤ ε' - c → (ε' - c) * ((ε' - c) / Q - 1 / B) ≤ R) :
    (ε - c) * ((ε - c) / Q - 1 / B) ≤ R := by
  have h3 : ε - c ≤ ε' - c := by linarith
  have h4 := h (le_trans h0 h3)
  have hm : (ε - c) / Q - 1 / B ≤ (ε' - c) / Q - 1 / B := sub_le_sub_right (div_le_div_of_nonneg_right h3 hQ) _
  by_cases hneg : (ε - c) / Q - 1 / B ≤ 0
  · exact le_trans (mul_nonpos_of_nonneg_of_nonpos h0 hneg) hR0
  · exact le_trans (mul_le_mul h3 hm (le_of_lt (not_le.1 hneg)) (le_trans h0 h3)) h4

theorem finishing_counts {k l ν M : Nat} {C D : Type} (A : Attacker k l ν C D) (hν : 0 < q / 2 ^ ν) (νt : Nat) (a : Fin k → Fin l → RPoly) (t : Fin k → RPoly)
    (ch : C → Fin 512 → Int) (out : List (Outcome k l ν C) → Forgery C D) :
    (univ.filter fun n : Fin (M + 1) => (A.finishing M hν νt a t ch out).signs n = true).card = (univ.filter fun n : Fin M => A.signs n = true).card ∧
    (univ.filter fun n : Fin (M + 1) => (A.finishing M hν νt a t ch out).signs n = false).card = (univ.filter fun n : Fin M => A.signs n = false).card + 1 := by
  have s1 : ∀ n : Fin M, (A.finishing M hν νt a t ch out).signs n.castSucc = A.signs n := fun n => by
    unfold Attacker.finishing
    simp only [Fin.val_castSucc, n.isLt, decide_true, Bool.true_and]
  have s2 : (A.finishing M hν νt a t ch out).signs (Fin.last M).val = false := by
    unfold Attacker.finishing
    simp only [Fin.val_last, lt_self_iff_false, decide_false, Bool.false_and]
  constructor
  · rw [Finset.card_filter, Finset.card_filter, Fin.sum_univ_castSucc, s2]
    simp only [s1]
    rfl
  · rw [Finset.card_filter, Finset.card_filter, Fin.sum_univ_castSucc, s2]
    simp only [s1]
    rfl

/-- C87: unforgeability, with no condition on the attacker. Let commitments be unpredictable for the public matrix (C84: all but one 2^1022-th are of this kind), and let the attacker, which
may repeat its hash queries and need not have asked for the hash value of what it hands in, play M < 2^512 − 1 steps against the signer and then hand in a valid signature whose digest and
commitment are not both those of a signing attempt (in particular: of a digest it never had signed), on a fraction ε of all noise tables and oracles. Let δ be ε less 2^−floodBits + (M+1) 2^−512 for each signing attempt. Then its careful, finishing version, played against the
simulator, which knows a s + e₀ but not the secret, and repeated with new hash values from some hash query on, gives a short relation a δ − 2^νt γ t = small with γ ≠ 0 on at least
δ (δ/(Q+1) − 1/B) of all noise tables and pairs of tuples of hash values, Q being the number of hash queries. -/
theorem C87_unforgeable (P : Par) (hP : P = raccoon128 ∨ P = raccoon192 ∨ P = raccoon256) (hν : 0 < q / 2 ^ P.νw) (d M : Nat) (hM : M + 1 < 2 ^ 512) (hd : ValidShares d)
    (C D : Type) [Nonempty C] [Fintype C] [DecidableEq C] [Fintype D] [DecidableEq D] (A : Attacker P.k P.l P.νw C D)
    (a : Fin P.k → Fin P.l → RPoly) (ha : Unpredictable P.νw (uwOf d) (Fin (repOf d) × Fin d) hν 512 a) (s : Fin P.l → Fin 512 → Int) (e₀ : Fin P.k → Fin 512 → Int) (t : Fin P.k → RPoly)
    (hs : ∀ j x, |s j x| ≤ repOf d * d * 2 ^ (utOf P.κ d - 1)) (he : ∀ j x, |e₀ j x| ≤ repOf d * d * 2 ^ (utOf P.κ d - 1))
    (ch : C → Fin 512 → Int) (hch : ∀ c, IsChallengeVec P.ω (ch c)) (B : Nat) (hB0 : 0 < B) (hB : ∀ γ, B * Nat.card {c // ch c = γ} ≤ Nat.card C)
    (out : List (Outcome P.k P.l P.νw C) → Forgery C D) (ε δ : ℚ)
    (hε : ε = (Nat.card {x : NoiseTable M P.l P.k (uwOf d) (Fin (repOf d) × Fin d) × (D × Commitment P.k P.νw → C) //
        Wins A P.νt P.Binf.toNat P.B22.toNat a t ch x.2 out (realGame A hν a s ch x.2 x.1)} : ℚ) /
      Nat.card (NoiseTable M P.l P.k (uwOf d) (Fin (repOf d) × Fin d) × (D × Commitment P.k P.νw → C)))
    (hδ : δ = ε - (univ.filter fun n : Fin M => A.signs n = true).card * (1 / 2 ^ floodBits P d + (M + 1) / 2 ^ 512)) (hδ0 : 0 ≤ δ)
    (A' : Attacker P.k P.l P.νw C D) (hA' : A' = (A.finishing M hν P.νt a t ch out).careful)
    (out' : List (Outcome P.k P.l P.νw C) → D × List Int × List Int) (hout' : out' = carefulOut (A.finishing M hν P.νt a t ch out) M out) :
    δ * (δ / ((univ.filter fun n : Fin M => A.signs n = false).card + 1) - 1 / B) ≤
      (Nat.card {x : NoiseTable (M + 1) P.l P.k (uwOf d) (Fin (repOf d) × Fin d) × (Fin (M + 1) → C) × (Fin (M + 1) → C) //
        ∃ n : Fin (M + 1), A'.signs n = false ∧ ∃ v v', v = simulatedGame A' hν a (publicB a s e₀) ch x.2.1 x.1 ∧ v' = simulatedGame A' hν a (publicB a s e₀) ch (splice n x.2.1 x.2.2) x.1 ∧
          ShortRelation P a t (fun j i => unflatten P.l (out' v).2.2 j i - unflatten P.l (out' v').2.2 j i) (ch (x.2.1 n) - ch (x.2.2 n))} : ℚ) /
      Nat.card (NoiseTable (M + 1) P.l P.k (uwOf d) (Fin (repOf d) × Fin d) × (Fin (M + 1) → C) × (Fin (M + 1) → C)) := by
  have hDne : Nonempty D := ⟨A.digest []⟩
  have hk : 0 < P.k := by rcases hP with rfl | rfl | rfl <;> decide
  have hν1 : 1 < q / 2 ^ P.νw := by rcases hP with rfl | rfl | rfl <;> decide
  have hnever : NeverAsksTwice A' (M + 1) := by
    rw [hA']
    exact C87_never _ (le_trans hM.le (commitment_card hk hν1 D))
  obtain ⟨n1, n2⟩ := finishing_counts (M := M) A hν P.νt a t ch out
  have n1' : (univ.filter fun n : Fin (M + 1) => A'.signs n = true).card = (univ.filter fun n : Fin M => A.signs n = true).card := by rw [hA']; exact n1
  have n2' : (univ.filter fun n : Fin (M + 1) => A'.signs n = false).card = (univ.filter fun n : Fin M => A.signs n = false).card + 1 := by rw [hA']; exact n2
  have h := C84_forgery P hP hν d (M + 1) hd C D A' hnever a ha s e₀ t hs he ch hch B hB0 hB out' _ _ rfl rfl
  have hle : Nat.card {x : NoiseTable (M + 1) P.l P.k (uwOf d) (Fin (repOf d) × Fin d) × (D × Commitment P.k P.νw → C) //
      Wins A P.νt P.Binf.toNat P.B22.toNat a t ch x.2 out (realGame A hν a s ch x.2 (firstRows x.1))} ≤
      Nat.card {x : NoiseTable (M + 1) P.l P.k (uwOf d) (Fin (repOf d) × Fin d) × (D × Commitment P.k P.νw → C) //
        Forges A' P.νt P.Binf.toNat P.B22.toNat a t ch out' (realGame A' hν a s ch x.2 x.1)} :=
    Nat.card_le_card_of_injective (fun x => ⟨x.1, by
      rw [hA', hout']
      exact C87_wins_forges A hν _ _ _ a t s ch x.1.2 out x.1.1 x.2⟩) fun x y e => Subtype.ext (congrArg (fun z => z.1) e)
  have hrows := firstRows_card (M := M) (l := P.l) (k := P.k) (u := uwOf d) (κ := Fin (repOf d) × Fin d) (C := C) (D := D) (D × Commitment P.k P.νw → C)
    (fun x => Wins A P.νt P.Binf.toNat P.B22.toNat a t ch x.2 out (realGame A hν a s ch x.2 x.1))
  have hT : 0 < Nat.card (NoiseTable M P.l P.k (uwOf d) (Fin (repOf d) × Fin d) × (D × Commitment P.k P.νw → C)) := by
    rw [Nat.card_eq_fintype_card]; exact Fintype.card_pos
  have hT' : 0 < Nat.card (NoiseTable (M + 1) P.l P.k (uwOf d) (Fin (repOf d) × Fin d) × (D × Commitment P.k P.νw → C)) := by
    rw [Nat.card_eq_fintype_card]; exact Fintype.card_pos
  rw [n1', n2'] at h
  clear hM
  generalize (2 : ℚ) ^ 512 = Y at h hδ
  generalize Nat.card {x : NoiseTable (M + 1) P.l P.k (uwOf d) (Fin (repOf d) × Fin d) × (D × Commitment P.k P.νw → C) //
      Wins A P.νt P.Binf.toNat P.B22.toNat a t ch x.2 out (realGame A hν a s ch x.2 (firstRows x.1))} = F1 at *
  generalize Nat.card {x : NoiseTable M P.l P.k (uwOf d) (Fin (repOf d) × Fin d) × (D × Commitment P.k P.νw → C) //
      Wins A P.νt P.Binf.toNat P.B22.toNat a t ch x.2 out (realGame A hν a s ch x.2 x.1)} = F at *
  generalize Nat.card {x : NoiseTable (M + 1) P.l P.k (uwOf d) (Fin (repOf d) × Fin d) × (D × Commitment P.k P.νw → C) //
        Forges A' P.νt P.Binf.toNat P.B22.toNat a t ch out' (realGame A' hν a s ch x.2 x.1)} = F' at *
  generalize Nat.card (NoiseTable (M + 1) P.l P.k (uwOf d) (Fin (repOf d) × Fin d) × (D × Commitment P.k P.νw → C)) = T' at *
  generalize Nat.card (NoiseTable M P.l P.k (uwOf d) (Fin (repOf d) × Fin d) × (D × Commitment P.k P.νw → C)) = T at *
  generalize hR : (Nat.card {x : NoiseTable (M + 1) P.l P.k (uwOf d) (Fin (repOf d) × Fin d) × (Fin (M + 1) → C) × (Fin (M + 1) → C) // _} : ℚ) / _ = R at *
  have hR0 : 0 ≤ R := by rw [← hR]; positivity
  have hεε : ε ≤ (F' : ℚ) / T' := by
    have e1 : ε = (F1 : ℚ) / T' := by
      rw [hε, div_eq_div_iff (by exact_mod_cast hT.ne') (by exact_mod_cast hT'.ne')]
      exact_mod_cast hrows.symm
    rw [e1]
    exact div_le_div_of_nonneg_right (by exact_mod_cast hle) (by positivity)
  generalize (2 : ℚ) ^ floodBits P d = Z at h hδ
  rw [Nat.cast_add, Nat.cast_one, Nat.cast_add, Nat.cast_one] at h
  rw [hδ] at hδ0 ⊢
  exact relax_eps hεε hδ0 (by positivity) hR0 h

/-- C87: winning is what a user fears. If what the attacker hands in are hash value, hint and response of a signature that `verify` accepts (C36) for a message with a digest it never
had signed, it has won in the sense of `Wins`, with the challenge hash of the code as oracle. (C82: an exchange with the code is a game with this oracle.) -/
theorem C87_valid_wins (P : Par) (hν : 0 < q / 2 ^ P.νw) (E : Ext) (seed pkb : List U8) (t : Fin P.k → Fin 512 → Nat) (a : Fin P.k → Fin P.l → RPoly)
    (hpk : IsPkOf P seed t pkb) (hA : IsMatrixOf E seed a) (ch : List U8 → Fin 512 → Int) (A : Attacker P.k P.l P.νw (List U8) (List U8))
    (out : List (Outcome P.k P.l P.νw (List U8)) → Forgery (List U8) (List U8)) (v : List (Outcome P.k P.l P.νw (List U8))) (msg cHash : List U8) (hint z : List Int)
    (hc : IsChallengeOf E P.ω cHash (ch cHash)) (hval : ValidSig P E pkb msg cHash hint z) (hout : out v = (messageHash E P.κ pkb msg, cHash, hint, z))
    (hnew : ∀ m, m < v.length → A.signs m = true → A.digest (v.take m) ≠ messageHash E P.κ pkb msg) :
    Wins A P.νt P.Binf.toNat P.B22.toNat a (fun r i => (t r i : ZMod q)) ch (fun x => challengeHash E P.κ (fun i y => (x.2 i y).val) x.1) out v := by
  obtain ⟨-, h2, h3, h4, seed', t', a', c, hpk', hA', hc', hv⟩ := hval
  obtain ⟨rfl, rfl⟩ := hpk.unique hpk'
  obtain rfl := hA.unique hA'
  obtain rfl := hc'.unique hc
  refine ⟨by rw [hout]; exact ⟨h2, h3⟩, by rw [hout]; exact h4, ?_⟩
  rw [hout]
  have hlt : ∀ r i, recomputed P.νw P.νt a (fun r i => (t r i : ZMod q)) (toR (ch cHash)) hint z r i < q / 2 ^ P.νw := fun r i => by
    unfold recomputed
    have := Int.emod_lt_of_pos ((commitY P.νw P.νt a (fun r i => (t r i : ZMod q)) (toR (ch cHash)) (vecR (unflatten P.l z)) r i : Int) + unflatten P.k hint r i)
      (by exact_mod_cast hν : (0 : Int) < (q / 2 ^ P.νw : Nat))
    omega
  exact ⟨fun r i => ⟨_, hlt r i⟩, fun r i => rfl, hv.symm, fun m hm hs e => hnew m hm hs (congrArg Prod.fst e)⟩

/-- Non-vacuity of `C87_valid_wins`: with the key and the signature of the toy run of `Props/Demo.lean`, an attacker that had something else signed and hands in this signature wins. -/
example (entropy0 seed entropy msg : List U8) (hseed : seed.length = 16) :
    ∃ (t : Fin 5 → Fin 512 → Nat) (a : Fin 5 → Fin 4 → RPoly) (ch : List U8 → Fin 512 → Int) (A : Attacker 5 4 44 (List U8) (List U8)) (v : List (Outcome 5 4 44 (List U8)))
      (out : List (Outcome 5 4 44 (List U8)) → Forgery (List U8) (List U8)), A.signs 0 = true ∧ v.length = 1 ∧
      Wins A 42 raccoon128.Binf.toNat raccoon128.B22.toNat a (fun r i => (t r i : ZMod q)) ch (fun x => challengeHash demoE 128 (fun i y => (x.2 i y).val) x.1) out v := by
  have hP : raccoon128 = raccoon128 ∨ raccoon128 = raccoon192 ∨ raccoon128 = raccoon256 := Or.inl rfl
  obtain ⟨sk0, sk1, sk2, skb, b, h0, -, -, -, -, hd, hs, hv⟩ := demo_run entropy0 seed [] entropy msg hseed
  have hwf := C37_wellformed raccoon128 hP demoE 512 2 demo_d entropy0 seed hseed sk0 h0
  obtain ⟨pkb, hpk⟩ := pkBytes_ok raccoon128 hP sk0.pkey hwf.pkey.seed
  obtain ⟨t, a, hk1, hk2, -⟩ := C37_wire raccoon128 hP demoE 512 2 demo_d entropy0 seed hseed sk0 h0 _ pkb List.length_replicate hpk
  obtain ⟨n, c, hint, z, g1, g2, g3, -⟩ := C36_wire raccoon128 hP demoE 512 512 2 demo_d entropy0 seed hseed sk0 sk2 h0 hd _ pkb List.length_replicate hpk entropy msg _ b hs
  have hval := C33_wire_correct raccoon128 hP demoE 2 pkb _ msg entropy n c hint z g1 g2.2
  have hm : 0 < q / 2 ^ 44 := by decide
  obtain ⟨-, -, -, -, seed', t', a', cI, k1, k2, k3, k4⟩ := id hval
  obtain ⟨rfl, rfl⟩ := hk1.unique k1
  obtain rfl := hk2.unique k2
  have hlen : (messageHash demoE raccoon128.κ pkb msg).length = 32 := by
    unfold messageHash xofOut
    rw [List.length_map, List.length_range]; rfl
  refine ⟨t, a, fun _ => cI, ⟨fun n => n == 0, fun _ => [], fun _ _ _ => ⟨0, hm⟩⟩, [(fun _ _ => ⟨0, hm⟩, c, some (unflatten 4 z))],
    fun _ => (messageHash demoE raccoon128.κ pkb msg, c, hint, z), rfl, rfl, ?_⟩
  refine C87_valid_wins raccoon128 hm demoE seed pkb t a hk1 hk2 (fun _ => cI) _ _ _ msg c hint z k3 hval rfl fun m _ _ e => ?_
  have := congrArg List.length e
  rw [hlen] at this
  exact absurd (show (0 : Nat) = 32 from this) (by omega)

/-- Non-vacuity of `C87_never` and `C87_unforgeable`: an attacker whose every hash query repeats a pair it has had signed, which C84 does not cover; its careful version never asks twice. -/
example (hν : 0 < q / 2 ^ raccoon128.νw) : ∃ A : Attacker raccoon128.k raccoon128.l raccoon128.νw Bool (Fin 10), A.signs 0 = true ∧ A.signs 1 = false ∧
    ¬ NeverAsksTwice A 10 ∧ NeverAsksTwice A.careful 10 := by
  refine ⟨⟨fun n => n == 0, fun _ => 0, fun v => match v with | [] => fun _ _ => ⟨0, hν⟩ | o :: _ => o.1⟩, rfl, rfl, fun h => ?_, C87_never _ ?_⟩
  · exact h [(fun _ _ => ⟨0, hν⟩, true, none)] (show (1 : Nat) < 10 by omega) rfl 0 Nat.one_pos rfl
  · rw [Fintype.card_prod, Fintype.card_fin]
    have : 0 < Fintype.card (Commitment raccoon128.k raccoon128.νw) := @Fintype.card_pos _ _ ⟨fun _ _ => ⟨0, hν⟩⟩
    omega

end Raccoon
