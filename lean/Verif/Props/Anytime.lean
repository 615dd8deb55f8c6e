import Verif.Proofs.Anytime
import Verif.Props.Unforgeable
/-!
# C87: signing attempts at any time
-/
namespace Raccoon
attribute [-instance] Monoid.toNPow
open Finset

/-- C87: unforgeability against an attacker that decides as it goes whether to ask for a signing attempt or for a hash value. Let commitments be unpredictable for the public matrix, and let
the attacker play M steps, at most N of them signing attempts, and win on a fraction ε of all noise tables (of N rows) and oracles. Let δ be ε less 2^−floodBits + (N(M+1)+M+1) 2^−512 for
each of the N attempts. Then its careful, finishing version on a timetable, played against the simulator, which does not know the secret, and repeated with new hash values from some hash query
on, gives a short relation on at least δ (δ/((N+1)M+1) − 1/B) of all noise tables and pairs of tuples of hash values. -/
theorem C87_anytime (P : Par) (hP : P = raccoon128 ∨ P = raccoon192 ∨ P = raccoon256) (hν : 0 < q / 2 ^ P.νw) (d M N : Nat) (hM : N * (M + 1) + M + 1 < 2 ^ 512) (hd : ValidShares d)
    (C D : Type) [Nonempty C] [Fintype C] [DecidableEq C] [Fintype D] [DecidableEq D] [Nontrivial D] (A : FreeAttacker P.k P.l P.νw C D)
    (a : Fin P.k → Fin P.l → RPoly) (ha : Unpredictable P.νw (uwOf d) (Fin (repOf d) × Fin d) hν 512 a) (s : Fin P.l → Fin 512 → Int) (e₀ : Fin P.k → Fin 512 → Int) (t : Fin P.k → RPoly)
    (hs : ∀ j x, |s j x| ≤ repOf d * d * 2 ^ (utOf P.κ d - 1)) (he : ∀ j x, |e₀ j x| ≤ repOf d * d * 2 ^ (utOf P.κ d - 1))
    (ch : C → Fin 512 → Int) (hch : ∀ c, IsChallengeVec P.ω (ch c)) (B : Nat) (hB0 : 0 < B) (hB : ∀ γ, B * Nat.card {c // ch c = γ} ≤ Nat.card C)
    (out : List (Outcome P.k P.l P.νw C) → Forgery C D) (ε δ : ℚ)
    (hε : ε = (Nat.card {x : NoiseTable N P.l P.k (uwOf d) (Fin (repOf d) × Fin d) × (D × Commitment P.k P.νw → C) //
        FreeWins A P.νt P.Binf.toNat P.B22.toNat a t ch x.2 out (freeGame A M N hν a s ch x.2 x.1)} : ℚ) /
      Nat.card (NoiseTable N P.l P.k (uwOf d) (Fin (repOf d) × Fin d) × (D × Commitment P.k P.νw → C)))
    (hδ : δ = ε - N * (1 / 2 ^ floodBits P d + ((N * (M + 1) + M : Nat) + 1) / 2 ^ 512)) (hδ0 : 0 ≤ δ)
    (A' : Attacker P.k P.l P.νw C D)
    (hA' : A' = ((A.scheduled M N out).finishing (N * (M + 1) + M) hν P.νt a t ch fun v => out (A.seen M N v)).careful)
    (out' : List (Outcome P.k P.l P.νw C) → D × List Int × List Int)
    (hout' : out' = carefulOut ((A.scheduled M N out).finishing (N * (M + 1) + M) hν P.νt a t ch fun v => out (A.seen M N v)) (N * (M + 1) + M) fun v => out (A.seen M N v)) :
    δ * (δ / (((N + 1) * M : Nat) + 1) - 1 / B) ≤
      (Nat.card {x : NoiseTable (N * (M + 1) + M + 1) P.l P.k (uwOf d) (Fin (repOf d) × Fin d) × (Fin (N * (M + 1) + M + 1) → C) × (Fin (N * (M + 1) + M + 1) → C) //
        ∃ n : Fin (N * (M + 1) + M + 1), A'.signs n = false ∧
          ∃ v v', v = simulatedGame A' hν a (publicB a s e₀) ch x.2.1 x.1 ∧ v' = simulatedGame A' hν a (publicB a s e₀) ch (splice n x.2.1 x.2.2) x.1 ∧
          ShortRelation P a t (fun j i => unflatten P.l (out' v).2.2 j i - unflatten P.l (out' v').2.2 j i) (ch (x.2.1 n) - ch (x.2.2 n))} : ℚ) /
      Nat.card (NoiseTable (N * (M + 1) + M + 1) P.l P.k (uwOf d) (Fin (repOf d) × Fin d) × (Fin (N * (M + 1) + M + 1) → C) × (Fin (N * (M + 1) + M + 1) → C)) := by
  have h := C87_unforgeable P hP hν d (N * (M + 1) + M) hM hd C D (A.scheduled M N out) a ha s e₀ t hs he ch hch B hB0 hB (fun v => out (A.seen M N v)) _ _ rfl rfl
  obtain ⟨n1, n2⟩ := schedule_counts (M := M) (N := N)
  have n1' : (univ.filter fun n : Fin (N * (M + 1) + M) => (A.scheduled M N out).signs n = true).card = N := n1
  have n2' : (univ.filter fun n : Fin (N * (M + 1) + M) => (A.scheduled M N out).signs n = false).card = (N + 1) * M := n2
  rw [n1', n2'] at h
  have hle : Nat.card {x : NoiseTable (N * (M + 1) + M) P.l P.k (uwOf d) (Fin (repOf d) × Fin d) × (D × Commitment P.k P.νw → C) //
      FreeWins A P.νt P.Binf.toNat P.B22.toNat a t ch x.2 out (freeGame A M N hν a s ch x.2 (signRows x.1))} ≤
      Nat.card {x : NoiseTable (N * (M + 1) + M) P.l P.k (uwOf d) (Fin (repOf d) × Fin d) × (D × Commitment P.k P.νw → C) //
        Wins (A.scheduled M N out) P.νt P.Binf.toNat P.B22.toNat a t ch x.2 (fun v => out (A.seen M N v)) (realGame (A.scheduled M N out) hν a s ch x.2 x.1)} :=
    Nat.card_le_card_of_injective (fun x => ⟨x.1, scheduled_wins A hν _ _ _ a t s ch x.1.2 out x.1.1 x.2⟩) fun x y e => Subtype.ext (congrArg (fun z => z.1) e)
  have hrows := signRows_card (M := M) (N := N) (l := P.l) (k := P.k) (u := uwOf d) (κ := Fin (repOf d) × Fin d) (D × Commitment P.k P.νw → C)
    (fun x => FreeWins A P.νt P.Binf.toNat P.B22.toNat a t ch x.2 out (freeGame A M N hν a s ch x.2 x.1))
  have hT : 0 < Nat.card (NoiseTable N P.l P.k (uwOf d) (Fin (repOf d) × Fin d) × (D × Commitment P.k P.νw → C)) := by
    rw [Nat.card_eq_fintype_card]; exact Fintype.card_pos
  have hT' : 0 < Nat.card (NoiseTable (N * (M + 1) + M) P.l P.k (uwOf d) (Fin (repOf d) × Fin d) × (D × Commitment P.k P.νw → C)) := by
    rw [Nat.card_eq_fintype_card]; exact Fintype.card_pos
  have h := h (A' := A') (hA' := hA') (out' := out') (hout' := hout')
  clear hM
  generalize (2 : ℚ) ^ 512 = Y at h hδ
  generalize Nat.card {x : NoiseTable (N * (M + 1) + M) P.l P.k (uwOf d) (Fin (repOf d) × Fin d) × (D × Commitment P.k P.νw → C) //
      FreeWins A P.νt P.Binf.toNat P.B22.toNat a t ch x.2 out (freeGame A M N hν a s ch x.2 (signRows x.1))} = F1 at *
  generalize Nat.card {x : NoiseTable N P.l P.k (uwOf d) (Fin (repOf d) × Fin d) × (D × Commitment P.k P.νw → C) //
      FreeWins A P.νt P.Binf.toNat P.B22.toNat a t ch x.2 out (freeGame A M N hν a s ch x.2 x.1)} = F at *
  generalize Nat.card {x : NoiseTable (N * (M + 1) + M) P.l P.k (uwOf d) (Fin (repOf d) × Fin d) × (D × Commitment P.k P.νw → C) //
        Wins (A.scheduled M N out) P.νt P.Binf.toNat P.B22.toNat a t ch x.2 (fun v => out (A.seen M N v)) (realGame (A.scheduled M N out) hν a s ch x.2 x.1)} = F' at *
  generalize Nat.card (NoiseTable (N * (M + 1) + M) P.l P.k (uwOf d) (Fin (repOf d) × Fin d) × (D × Commitment P.k P.νw → C)) = T' at *
  generalize Nat.card (NoiseTable N P.l P.k (uwOf d) (Fin (repOf d) × Fin d) × (D × Commitment P.k P.νw → C)) = T at *
  generalize hR : (Nat.card {x : NoiseTable (N * (M + 1) + M + 1) P.l P.k (uwOf d) (Fin (repOf d) × Fin d) × (Fin (N * (M + 1) + M + 1) → C) × (Fin (N * (M + 1) + M + 1) → C) // _} : ℚ) / _
    = R at *
  have hR0 : 0 ≤ R := by rw [← hR]; positivity
  have hεε : ε ≤ (F' : ℚ) / T' := by
    have e1 : ε = (F1 : ℚ) / T' := by
      rw [hε, div_eq_div_iff (by exact_mod_cast hT.ne') (by exact_mod_cast hT'.ne')]
      exact_mod_cast hrows.symm
    rw [e1]
    exact div_le_div_of_nonneg_right (by exact_mod_cast hle) (by positivity)
  generalize (2 : ℚ) ^ floodBits P d = Z at h hδ
  rw [hδ] at hδ0 ⊢
  exact relax_eps hεε hδ0 (by positivity) hR0 h

/-- C87: as in `C87_valid_wins`: a signature that `verify` accepts, for a message with a digest never signed, wins. -/
theorem C87_anytime_valid_wins (P : Par) (hν : 0 < q / 2 ^ P.νw) (E : Ext) (seed pkb : List U8) (t : Fin P.k → Fin 512 → Nat) (a : Fin P.k → Fin P.l → RPoly)
    (hpk : IsPkOf P seed t pkb) (hA : IsMatrixOf E seed a) (ch : List U8 → Fin 512 → Int) (A : FreeAttacker P.k P.l P.νw (List U8) (List U8))
    (out : List (Outcome P.k P.l P.νw (List U8)) → Forgery (List U8) (List U8)) (v : List (Outcome P.k P.l P.νw (List U8))) (msg cHash : List U8) (hint z : List Int)
    (hc : IsChallengeOf E P.ω cHash (ch cHash)) (hval : ValidSig P E pkb msg cHash hint z) (hout : out v = (messageHash E P.κ pkb msg, cHash, hint, z))
    (hnew : ∀ m (hm : m < v.length), v[m].2.2.isSome = true → A.digest (v.take m) ≠ messageHash E P.κ pkb msg) :
    FreeWins A P.νt P.Binf.toNat P.B22.toNat a (fun r i => (t r i : ZMod q)) ch (fun x => challengeHash E P.κ (fun i y => (x.2 i y).val) x.1) out v := by
  have h := C87_valid_wins P hν E seed pkb t a hpk hA ch ⟨fun _ => false, A.digest, A.commitment⟩ out v msg cHash hint z hc hval hout fun m _ e => absurd e Bool.false_ne_true
  obtain ⟨w, w1, w2, -⟩ := h.hash
  exact ⟨h.lengths, h.norms, w, w1, w2, fun m hm hs e => hnew m hm hs ((congrArg Prod.fst e).trans (by rw [hout]))⟩

/-- Non-vacuity: an attacker that has digest 0 signed and, unless the first coefficient of the response is 0, has it signed once more. What it asks for depends on the noise: in a game of two
steps with at most two attempts, with all-zero matrix and secret, it makes one attempt if all noise words are 0 and two if they are 1. -/
example (hν : 0 < q / 2 ^ 44) (H : Fin 2 × Commitment 1 44 → Bool) : ∃ A : FreeAttacker 1 1 44 Bool (Fin 2),
    signCount (freeGame A 2 2 hν (fun _ _ => 0) (fun _ _ => 0) (fun _ _ => 0) H (fun _ _ => ⟨0, by decide⟩ : NoiseTable 2 1 1 3 (Fin 1))) = 1 ∧
    signCount (freeGame A 2 2 hν (fun _ _ => 0) (fun _ _ => 0) (fun _ _ => 0) H (fun _ _ => ⟨1, by decide⟩ : NoiseTable 2 1 1 3 (Fin 1))) = 2 := by
  refine ⟨⟨fun v => match v with | [] => true | o :: _ => match o.2.2 with | some z => decide (z 0 0 ≠ 0) | none => false, fun _ => 0, fun _ _ _ => ⟨0, hν⟩⟩, ?_⟩
  have key : ∀ (A : FreeAttacker 1 1 44 Bool (Fin 2)) (W : NoiseTable 2 1 1 3 (Fin 1)),
      A.signs = (fun v => match v with | [] => true | o :: _ => match o.2.2 with | some z => decide (z 0 0 ≠ 0) | none => false) →
      signCount (freeGame A 2 2 hν (fun _ _ => 0) (fun _ _ => 0) (fun _ _ => 0) H W) = if maskOf W 0 0 0 = 0 then 1 else 2 := by
    intro A W hA
    obtain ⟨hl, hp⟩ := freeGame_spec (M := 2) (N := 2) A hν (fun _ _ => 0) (fun _ _ => 0) (fun _ _ => 0) H W
    generalize freeGame A 2 2 hν (fun _ _ => 0) (fun _ _ => 0) (fun _ _ => 0) H W = v at *
    match v, hl with
    | [o, o'], _ =>
      obtain ⟨hc, e⟩ := (hp 0 (by omega) (by show 0 < 2; omega)).1 (by unfold FreeAttacker.asksToSign; rw [hA]; rfl)
      have e : o.2.2 = some fun j x => negacyclicZ (fun _ => 0) (fun _ => 0) x + maskOf W 0 j x := congrArg (fun o : Outcome 1 1 44 Bool => o.2.2) e
      have hz : negacyclicZ (fun _ => 0) (fun _ => 0) 0 = 0 := by
        unfold negacyclicZ
        refine Finset.sum_eq_zero fun i _ => Finset.sum_eq_zero fun j _ => ?_
        rw [Int.zero_mul, Int.neg_zero, ite_self, ite_self]
      have h1 := hp 1 (by omega) (by show 1 < 2; omega)
      have hq : A.asksToSign 2 [o] = decide (maskOf W 0 0 0 ≠ 0) := by
        unfold FreeAttacker.asksToSign signCount
        rw [hA]
        simp only [e, hz, Int.zero_add, List.countP_cons, List.countP_nil, Option.isSome_some, if_true]
        exact Bool.and_true _
      by_cases hm : maskOf W 0 0 0 = 0
      · rw [if_pos hm]
        have e' : o'.2.2 = none := congrArg (fun o : Outcome 1 1 44 Bool => o.2.2) (h1.2 (by show A.asksToSign 2 [o] = false; rw [hq]; exact decide_eq_false (not_not.2 hm)))
        unfold signCount
        simp only [List.countP_cons, List.countP_nil, e, e', Option.isSome_some, Option.isSome_none, if_true, Bool.false_eq_true, if_false]
      · rw [if_neg hm]
        obtain ⟨hc', g⟩ := h1.1 (by show A.asksToSign 2 [o] = true; rw [hq]; exact decide_eq_true hm)
        have e' : o'.2.2.isSome = true := by
          have := congrArg (fun o : Outcome 1 1 44 Bool => o.2.2.isSome) g
          exact this
        unfold signCount
        simp only [List.countP_cons, List.countP_nil, e, e', Option.isSome_some, if_true]
  exact ⟨(key _ _ rfl).trans (by decide), (key _ _ rfl).trans (by decide)⟩

end Raccoon
