import Verif.Proofs.Strong
import Verif.Props.Exchange
/-!
# C89: a second signature of a signed message
-/
namespace Raccoon
attribute [-instance] Monoid.toNPow
open Finset

/-- C89: whatever happens in the game happens about as often without the secret: for an attacker that does not ask twice and any event, the fraction of noise tables and oracles for which the
game against the signer has it exceeds the fraction of noise tables and tuples of hash values for which the game against the simulator has it by at most 2^−floodBits + M 2^−512 for each
signing attempt. -/
theorem C89_transfer (P : Par) (hP : P = raccoon128 ∨ P = raccoon192 ∨ P = raccoon256) (hν : 0 < q / 2 ^ P.νw) (d M : Nat) (hd : ValidShares d)
    (C D : Type) [Nonempty C] [Fintype C] [DecidableEq C] [Fintype D] [DecidableEq D] (A : Attacker P.k P.l P.νw C D) (hA : NeverAsksTwice A M)
    (a : Fin P.k → Fin P.l → RPoly) (ha : Unpredictable P.νw (uwOf d) (Fin (repOf d) × Fin d) hν 512 a) (s : Fin P.l → Fin 512 → Int) (e₀ : Fin P.k → Fin 512 → Int)
    (hs : ∀ j x, |s j x| ≤ repOf d * d * 2 ^ (utOf P.κ d - 1)) (he : ∀ j x, |e₀ j x| ≤ repOf d * d * 2 ^ (utOf P.κ d - 1))
    (ch : C → Fin 512 → Int) (hch : ∀ c, ∑ i, |ch c i| = P.ω) (T : List (Outcome P.k P.l P.νw C) → Prop) :
    (Nat.card {x : NoiseTable M P.l P.k (uwOf d) (Fin (repOf d) × Fin d) × (D × Commitment P.k P.νw → C) // T (realGame A hν a s ch x.2 x.1)} : ℚ) /
      Nat.card (NoiseTable M P.l P.k (uwOf d) (Fin (repOf d) × Fin d) × (D × Commitment P.k P.νw → C)) ≤
    (Nat.card {x : NoiseTable M P.l P.k (uwOf d) (Fin (repOf d) × Fin d) × (Fin M → C) // T (simulatedGame A hν a (publicB a s e₀) ch x.2 x.1)} : ℚ) /
      Nat.card (NoiseTable M P.l P.k (uwOf d) (Fin (repOf d) × Fin d) × (Fin M → C)) +
    (univ.filter fun n : Fin M => A.signs n = true).card * (1 / 2 ^ floodBits P d + M / 2 ^ 512) := by
  have hf := C84_fresh (M := M) A hA hν a s ch 512 ha
  have hsp := split_fresh (fun x : NoiseTable M P.l P.k (uwOf d) (Fin (repOf d) × Fin d) × (D × Commitment P.k P.νw → C) => T (realGame A hν a s ch x.2 x.1))
    (fun x => Fresh A (realGame A hν a s ch x.2 x.1))
  have h := C82_adaptive P hP hν d M hd C D A a s e₀ hs he ch hch {v | T v}
  simp only [Set.mem_ofPred_eq] at h
  have hS : Nat.card {x : NoiseTable M P.l P.k (uwOf d) (Fin (repOf d) × Fin d) × (Fin M → C) //
        T (simulatedGame A hν a (publicB a s e₀) ch x.2 x.1) ∧ Fresh A (simulatedGame A hν a (publicB a s e₀) ch x.2 x.1)} ≤
      Nat.card {x : NoiseTable M P.l P.k (uwOf d) (Fin (repOf d) × Fin d) × (Fin M → C) // T (simulatedGame A hν a (publicB a s e₀) ch x.2 x.1)} :=
    Nat.card_le_card_of_injective (fun x => ⟨x.1, x.2.1⟩) fun x y e => Subtype.ext (congrArg (fun z => z.1) e)
  generalize Nat.card {x : NoiseTable M P.l P.k (uwOf d) (Fin (repOf d) × Fin d) × (D × Commitment P.k P.νw → C) //
        T (realGame A hν a s ch x.2 x.1) ∧ Fresh A (realGame A hν a s ch x.2 x.1)} = R at *
  generalize Nat.card {x : NoiseTable M P.l P.k (uwOf d) (Fin (repOf d) × Fin d) × (D × Commitment P.k P.νw → C) // T (realGame A hν a s ch x.2 x.1)} = F at *
  generalize Nat.card {x : NoiseTable M P.l P.k (uwOf d) (Fin (repOf d) × Fin d) × (D × Commitment P.k P.νw → C) // ¬ Fresh A (realGame A hν a s ch x.2 x.1)} = V at *
  generalize Nat.card {x : NoiseTable M P.l P.k (uwOf d) (Fin (repOf d) × Fin d) × (Fin M → C) //
        T (simulatedGame A hν a (publicB a s e₀) ch x.2 x.1) ∧ Fresh A (simulatedGame A hν a (publicB a s e₀) ch x.2 x.1)} = S0 at *
  generalize Nat.card {x : NoiseTable M P.l P.k (uwOf d) (Fin (repOf d) × Fin d) × (Fin M → C) // T (simulatedGame A hν a (publicB a s e₀) ch x.2 x.1)} = S at *
  rw [Nat.card_prod, Nat.card_eq_fintype_card, Nat.card_eq_fintype_card] at hf
  rw [Nat.card_prod, Nat.card_prod, Nat.card_eq_fintype_card, Nat.card_eq_fintype_card, Nat.card_eq_fintype_card]
  have p1 : 0 < Fintype.card (NoiseTable M P.l P.k (uwOf d) (Fin (repOf d) × Fin d)) := Fintype.card_pos
  have p2 : 0 < Fintype.card (D × Commitment P.k P.νw → C) := Fintype.card_pos
  have p3 : 0 < Fintype.card (Fin M → C) := Fintype.card_pos
  generalize Fintype.card (NoiseTable M P.l P.k (uwOf d) (Fin (repOf d) × Fin d)) = X at *
  generalize Fintype.card (D × Commitment P.k P.νw → C) = Y at *
  generalize Fintype.card (Fin M → C) = Z at *
  generalize (univ.filter fun n : Fin M => A.signs n = true).card = N at *
  generalize floodBits P d = f at *
  have q1 : (0 : ℚ) < X := by exact_mod_cast p1
  have q2 : (0 : ℚ) < Y := by exact_mod_cast p2
  have q3 : (0 : ℚ) < Z := by exact_mod_cast p3
  have hh : ((R : Int) * Z - S0 * Y) * 2 ^ f ≤ N * X * Z * Y := le_trans (mul_le_mul_of_nonneg_right (le_abs_self _) (by positivity)) h
  have hq : ((R : ℚ) * Z - S0 * Y) * 2 ^ f ≤ N * X * Z * Y := by exact_mod_cast hh
  have hfq : (V : ℚ) * 2 ^ 512 ≤ N * M * (X * Y) := by exact_mod_cast hf
  have hspq : (F : ℚ) ≤ R + V := by exact_mod_cast hsp
  have hSq : (S0 : ℚ) ≤ S := by exact_mod_cast hS
  have hF : (0 : ℚ) < 2 ^ f := by positivity
  have hB : (0 : ℚ) < 2 ^ 512 := by positivity
  generalize (2 : ℚ) ^ 512 = b at *
  generalize (2 : ℚ) ^ f = g at *
  clear h hh hf hsp hS
  push_cast
  -- the fresh games
  have k1 : (R : ℚ) / (X * Y) ≤ S0 / (X * Z) + N / g := by
    rw [div_add_div _ _ (by positivity) (by positivity), div_le_div_iff₀ (by positivity) (by positivity)]
    nlinarith [mul_le_mul_of_nonneg_right hq (by positivity : (0 : ℚ) ≤ X * X)]
  have k2 : (V : ℚ) / (X * Y) ≤ N * M / b := by
    rw [div_le_div_iff₀ (by positivity) (by positivity)]
    exact hfq
  have k3 : (F : ℚ) / (X * Y) ≤ R / (X * Y) + V / (X * Y) := by
    rw [← add_div]
    exact div_le_div_of_nonneg_right hspq (by positivity)
  have k4 : (S0 : ℚ) / (X * Z) ≤ S / (X * Z) := div_le_div_of_nonneg_right hSq (by positivity)
  have e : (N : ℚ) * (1 / g + M / b) = N / g + N * M / b := by ring
  rw [e]
  linarith

/-- C89: a second answer to what the simulator has answered is a short vector with a short image, if t = ⌊a s + e₀⌉. -/
theorem C89_short (P : Par) (hP : P = raccoon128 ∨ P = raccoon192 ∨ P = raccoon256) (hν : 0 < q / 2 ^ P.νw) (d M : Nat) (hd : ValidShares d) (C D : Type)
    (A : Attacker P.k P.l P.νw C D) (a : Fin P.k → Fin P.l → RPoly) (b t : Fin P.k → RPoly) (ht : ∀ r i, t r i = (roundZ P.νt (b r i) : ZMod q))
    (ch : C → Fin 512 → Int) (hch : ∀ c, ∑ i, |ch c i| = P.ω) (out : List (Outcome P.k P.l P.νw C) → Forgery C D) (c : Fin M → C)
    (W : NoiseTable M P.l P.k (uwOf d) (Fin (repOf d) × Fin d))
    (h : Reanswers P.νt P.Binf.toNat P.B22.toNat a t ch out (simulatedGame A hν a b ch c W)) :
    ∃ v, v = simulatedGame A hν a b ch c W ∧ ∃ o ∈ v, ∃ z, o.2.2 = some z ∧
      ShortVector a (P.Binf.toNat + maskBound d) (imageBound P d) fun j i => z j i - unflatten P.l (out v).2.2.2 j i := by
  refine ⟨_, rfl, ?_⟩
  obtain ⟨⟨h1, h2⟩, h3, o, ho, z, hz, hc, hne, hw⟩ := h
  refine ⟨o, ho, z, hz, ?_⟩
  obtain ⟨w1, w2, -⟩ := par_bounds P hP
  have hbi : P.Binf.toNat / 2 ^ P.νw ≤ 2 := by rcases hP with rfl | rfl | rfl <;> decide
  obtain ⟨n, hn, rfl⟩ := List.getElem_of_mem ho
  obtain ⟨pl, ps⟩ := play_spec (M := M) fun (n : Fin M) (v : List (Outcome P.k P.l P.νw C)) =>
    (if A.signs n then simulatorW P.νw hν a b (ch (c n)) (maskOf W n) (errorOf W n) else A.commitment v, c n, if A.signs n then some (maskOf W n) else none)
  change (simulatedGame A hν a b ch c W).length = M at pl
  have g : (simulatedGame A hν a b ch c W)[n] = _ := ps n (by omega) hn
  generalize out (simulatedGame A hν a b ch c W) = f at *
  rw [g] at hz hc hw
  simp only at hz hc hw
  by_cases hs : A.signs n = true
  swap
  · rw [if_neg hs] at hz
    cases hz
  rw [if_pos hs] at hz
  simp only [if_pos hs] at hw
  obtain rfl := Option.some.inj hz
  have hu := (noise_bits d hd).1
  have hG : ∀ x : Fin (repOf d) × Fin d → Fin (2 ^ uwOf d), |signedSum (uwOf d) x| ≤ (maskBound d : Nat) := fun x => by
    have := signedSum_le hu x
    rw [Fintype.card_prod, Fintype.card_fin, Fintype.card_fin] at this
    unfold maskBound
    exact_mod_cast this
  refine ⟨fun e => hne ?_, fun j i => ?_, fun r => ?_⟩
  · funext j i
    have := congrFun (congrFun e j) i
    exact sub_eq_zero.1 this
  · have b1 := hG (W (⟨n, by omega⟩, Sum.inl j, i))
    have b2 := h3.2.1 _ (mem_unflatten j i h2)
    show (signedSum (uwOf d) (W (⟨n, by omega⟩, Sum.inl j, i)) - _).natAbs ≤ _
    rw [abs_le] at b1
    omega
  · unfold imageBound
    have hw0 := hw r
    rw [← hc] at hw0
    have hsim : ∀ i, (simulatorW P.νw hν a b (ch (c ⟨n, by omega⟩)) (maskOf W ⟨n, by omega⟩) (errorOf W ⟨n, by omega⟩) r i).val =
      roundZ P.νw ((ringMatVec a (vecR (maskOf W ⟨n, by omega⟩)) r - negacyclic (b r) (toR (ch (c ⟨n, by omega⟩))) + vecR (errorOf W ⟨n, by omega⟩) r) i) := fun i => rfl
    have hw' := fun i => (hsim i).symm.trans (hw0 i)
    clear hsim hw0
    rw [w1, w2] at hw'
    rw [w2] at ht
    exact answers_short a t b ht (ch (c ⟨n, by omega⟩)) P.ω (hch _) (maskOf W ⟨n, by omega⟩) (errorOf W ⟨n, by omega⟩) (maskBound d) (fun r i => hG _) f.2.2.1 f.2.2.2 h1
      (fun x hx => le_trans (h3.1 x hx) hbi) r hw'

theorem card_or {X : Type} [Finite X] (F G : X → Prop) : Nat.card {x // F x ∨ G x} ≤ Nat.card {x // F x} + Nat.card {x // G x} := by
  classical
  have := Fintype.ofFinite X
  rw [Nat.card_eq_fintype_card, Nat.card_eq_fintype_card, Nat.card_eq_fintype_card]
  exact Fintype.card_subtype_or F G

/-- C89: strong unforgeability. As in C87_anytime, but the attacker also wins with a second signature of a message it had signed: let it hand in a valid signature other than all that signing
attempts for the same digest have shown, on a fraction ε of all noise tables and oracles. Then either it wins in the sense of C87_anytime (a fraction ε₁, from which short relations are
obtained there), or its careful version, played against the simulator, which does not know the secret, shows a short non-zero vector that the public matrix maps to a short vector: the
difference of the response handed in and one of the simulator's. The latter happens on at least ε − ε₁ of all noise tables and tuples of hash values, up to
2^−floodBits + (N(M+1)+M) 2^−512 for each of the N attempts. -/
theorem C89_anytime (P : Par) (hP : P = raccoon128 ∨ P = raccoon192 ∨ P = raccoon256) (hν : 0 < q / 2 ^ P.νw) (d M N : Nat) (hM : N * (M + 1) + M ≤ 2 ^ 512) (hd : ValidShares d)
    (C D : Type) [Nonempty C] [Fintype C] [DecidableEq C] [Fintype D] [DecidableEq D] [Nontrivial D] (A : FreeAttacker P.k P.l P.νw C D)
    (a : Fin P.k → Fin P.l → RPoly) (ha : Unpredictable P.νw (uwOf d) (Fin (repOf d) × Fin d) hν 512 a) (s : Fin P.l → Fin 512 → Int) (e₀ : Fin P.k → Fin 512 → Int) (t : Fin P.k → RPoly)
    (hs : ∀ j x, |s j x| ≤ repOf d * d * 2 ^ (utOf P.κ d - 1)) (he : ∀ j x, |e₀ j x| ≤ repOf d * d * 2 ^ (utOf P.κ d - 1))
    (ht : ∀ r i, t r i = (roundZ P.νt (publicB a s e₀ r i) : ZMod q))
    (ch : C → Fin 512 → Int) (hch : ∀ c, IsChallengeVec P.ω (ch c))
    (out : List (Outcome P.k P.l P.νw C) → Forgery C D) (ε ε₁ : ℚ)
    (hε : ε = (Nat.card {x : NoiseTable N P.l P.k (uwOf d) (Fin (repOf d) × Fin d) × (D × Commitment P.k P.νw → C) //
        FreeWinsStrongly A P.νt P.Binf.toNat P.B22.toNat a t ch x.2 out (freeGame A M N hν a s ch x.2 x.1)} : ℚ) /
      Nat.card (NoiseTable N P.l P.k (uwOf d) (Fin (repOf d) × Fin d) × (D × Commitment P.k P.νw → C)))
    (hε₁ : ε₁ = (Nat.card {x : NoiseTable N P.l P.k (uwOf d) (Fin (repOf d) × Fin d) × (D × Commitment P.k P.νw → C) //
        FreeWins A P.νt P.Binf.toNat P.B22.toNat a t ch x.2 out (freeGame A M N hν a s ch x.2 x.1)} : ℚ) /
      Nat.card (NoiseTable N P.l P.k (uwOf d) (Fin (repOf d) × Fin d) × (D × Commitment P.k P.νw → C)))
    (A' : Attacker P.k P.l P.νw C D) (hA' : A' = (A.scheduled M N out).careful)
    (out' : List (Outcome P.k P.l P.νw C) → Forgery C D) (hout' : out' = fun v => out (A.seen M N ((A.scheduled M N out).memory v).view)) :
    ε - ε₁ - N * (1 / 2 ^ floodBits P d + (N * (M + 1) + M : Nat) / 2 ^ 512) ≤
      (Nat.card {x : NoiseTable (N * (M + 1) + M) P.l P.k (uwOf d) (Fin (repOf d) × Fin d) × (Fin (N * (M + 1) + M) → C) //
        ∃ v, v = simulatedGame A' hν a (publicB a s e₀) ch x.2 x.1 ∧ ∃ o ∈ v, ∃ z, o.2.2 = some z ∧
          ShortVector a (P.Binf.toNat + maskBound d) (imageBound P d) fun j i => z j i - unflatten P.l (out' v).2.2.2 j i} : ℚ) /
      Nat.card (NoiseTable (N * (M + 1) + M) P.l P.k (uwOf d) (Fin (repOf d) × Fin d) × (Fin (N * (M + 1) + M) → C)) := by
  have hDne : Nonempty D := ⟨A.digest []⟩
  have hk : 0 < P.k := by rcases hP with rfl | rfl | rfl <;> decide
  have hν1 : 1 < q / 2 ^ P.νw := by rcases hP with rfl | rfl | rfl <;> decide
  have hnever : NeverAsksTwice A' (N * (M + 1) + M) := by
    rw [hA']
    exact C87_never _ (le_trans hM (commitment_card hk hν1 D))
  clear hM
  obtain ⟨n1, -⟩ := schedule_counts (M := M) (N := N)
  have n1' : (univ.filter fun n : Fin (N * (M + 1) + M) => A'.signs n = true).card = N := by rw [hA']; exact n1
  have h := C89_transfer P hP hν d (N * (M + 1) + M) hd C D A' hnever a ha s e₀ hs he ch (fun c => (hch c).2) (Reanswers P.νt P.Binf.toNat P.B22.toNat a t ch out')
  rw [n1'] at h
  -- strong wins
  have h1 := card_or (fun x : NoiseTable N P.l P.k (uwOf d) (Fin (repOf d) × Fin d) × (D × Commitment P.k P.νw → C) =>
    FreeWins A P.νt P.Binf.toNat P.B22.toNat a t ch x.2 out (freeGame A M N hν a s ch x.2 x.1)) fun x => Reanswers P.νt P.Binf.toNat P.B22.toNat a t ch out (freeGame A M N hν a s ch x.2 x.1)
  have h2 : Nat.card {x : NoiseTable N P.l P.k (uwOf d) (Fin (repOf d) × Fin d) × (D × Commitment P.k P.νw → C) //
      FreeWinsStrongly A P.νt P.Binf.toNat P.B22.toNat a t ch x.2 out (freeGame A M N hν a s ch x.2 x.1)} ≤
      Nat.card {x : NoiseTable N P.l P.k (uwOf d) (Fin (repOf d) × Fin d) × (D × Commitment P.k P.νw → C) //
        FreeWins A P.νt P.Binf.toNat P.B22.toNat a t ch x.2 out (freeGame A M N hν a s ch x.2 x.1) ∨
        Reanswers P.νt P.Binf.toNat P.B22.toNat a t ch out (freeGame A M N hν a s ch x.2 x.1)} :=
    Nat.card_le_card_of_injective (fun x => ⟨x.1, strong_split A hν _ _ _ a t s ch x.1.2 out x.1.1 x.2⟩) fun x y e => Subtype.ext (congrArg (fun z => z.1) e)
  -- on the timetable, carefully
  have h3 : Nat.card {x : NoiseTable (N * (M + 1) + M) P.l P.k (uwOf d) (Fin (repOf d) × Fin d) × (D × Commitment P.k P.νw → C) //
      Reanswers P.νt P.Binf.toNat P.B22.toNat a t ch out (freeGame A M N hν a s ch x.2 (signRows x.1))} ≤
      Nat.card {x : NoiseTable (N * (M + 1) + M) P.l P.k (uwOf d) (Fin (repOf d) × Fin d) × (D × Commitment P.k P.νw → C) //
        Reanswers P.νt P.Binf.toNat P.B22.toNat a t ch out' (realGame A' hν a s ch x.2 x.1)} :=
    Nat.card_le_card_of_injective (fun x => ⟨x.1, by
      rw [hA', hout']
      exact careful_reanswers _ hν _ _ _ a t s ch x.1.2 (fun v => out (A.seen M N v)) x.1.1 (scheduled_reanswers A hν _ _ _ a t s ch x.1.2 out x.1.1 x.2)⟩)
      fun x y e => Subtype.ext (congrArg (fun z => z.1) e)
  have h4 : Nat.card {x : NoiseTable (N * (M + 1) + M) P.l P.k (uwOf d) (Fin (repOf d) × Fin d) × (Fin (N * (M + 1) + M) → C) //
      Reanswers P.νt P.Binf.toNat P.B22.toNat a t ch out' (simulatedGame A' hν a (publicB a s e₀) ch x.2 x.1)} ≤
      Nat.card {x : NoiseTable (N * (M + 1) + M) P.l P.k (uwOf d) (Fin (repOf d) × Fin d) × (Fin (N * (M + 1) + M) → C) //
        ∃ v, v = simulatedGame A' hν a (publicB a s e₀) ch x.2 x.1 ∧ ∃ o ∈ v, ∃ z, o.2.2 = some z ∧
          ShortVector a (P.Binf.toNat + maskBound d) (imageBound P d) fun j i => z j i - unflatten P.l (out' v).2.2.2 j i} :=
    Nat.card_le_card_of_injective (fun x => ⟨x.1, C89_short P hP hν d _ hd C D A' a _ t ht ch (fun c => (hch c).2) out' x.1.2 x.1.1 x.2⟩)
      fun x y e => Subtype.ext (congrArg (fun z => z.1) e)
  have hrows := signRows_card (M := M) (N := N) (l := P.l) (k := P.k) (u := uwOf d) (κ := Fin (repOf d) × Fin d) (D × Commitment P.k P.νw → C)
    (fun x => Reanswers P.νt P.Binf.toNat P.B22.toNat a t ch out (freeGame A M N hν a s ch x.2 x.1))
  have hT : 0 < Nat.card (NoiseTable N P.l P.k (uwOf d) (Fin (repOf d) × Fin d) × (D × Commitment P.k P.νw → C)) := by
    rw [Nat.card_eq_fintype_card]; exact Fintype.card_pos
  have hT' : 0 < Nat.card (NoiseTable (N * (M + 1) + M) P.l P.k (uwOf d) (Fin (repOf d) × Fin d) × (D × Commitment P.k P.νw → C)) := by
    rw [Nat.card_eq_fintype_card]; exact Fintype.card_pos
  generalize Nat.card {x : NoiseTable (N * (M + 1) + M) P.l P.k (uwOf d) (Fin (repOf d) × Fin d) × (Fin (N * (M + 1) + M) → C) //
      Reanswers P.νt P.Binf.toNat P.B22.toNat a t ch out' (simulatedGame A' hν a (publicB a s e₀) ch x.2 x.1)} = S at *
  generalize Nat.card {x : NoiseTable (N * (M + 1) + M) P.l P.k (uwOf d) (Fin (repOf d) × Fin d) × (Fin (N * (M + 1) + M) → C) // ∃ v, _} = S' at *
  generalize Nat.card (NoiseTable (N * (M + 1) + M) P.l P.k (uwOf d) (Fin (repOf d) × Fin d) × (Fin (N * (M + 1) + M) → C)) = U at *
  generalize Nat.card {x : NoiseTable (N * (M + 1) + M) P.l P.k (uwOf d) (Fin (repOf d) × Fin d) × (D × Commitment P.k P.νw → C) //
        Reanswers P.νt P.Binf.toNat P.B22.toNat a t ch out' (realGame A' hν a s ch x.2 x.1)} = R' at *
  generalize Nat.card {x : NoiseTable (N * (M + 1) + M) P.l P.k (uwOf d) (Fin (repOf d) × Fin d) × (D × Commitment P.k P.νw → C) //
      Reanswers P.νt P.Binf.toNat P.B22.toNat a t ch out (freeGame A M N hν a s ch x.2 (signRows x.1))} = R1 at *
  generalize Nat.card {x : NoiseTable N P.l P.k (uwOf d) (Fin (repOf d) × Fin d) × (D × Commitment P.k P.νw → C) //
        FreeWins A P.νt P.Binf.toNat P.B22.toNat a t ch x.2 out (freeGame A M N hν a s ch x.2 x.1) ∨
        Reanswers P.νt P.Binf.toNat P.B22.toNat a t ch out (freeGame A M N hν a s ch x.2 x.1)} = O at *
  generalize Nat.card {x : NoiseTable N P.l P.k (uwOf d) (Fin (repOf d) × Fin d) × (D × Commitment P.k P.νw → C) //
        Reanswers P.νt P.Binf.toNat P.B22.toNat a t ch out (freeGame A M N hν a s ch x.2 x.1)} = R at *
  generalize Nat.card {x : NoiseTable N P.l P.k (uwOf d) (Fin (repOf d) × Fin d) × (D × Commitment P.k P.νw → C) //
        FreeWins A P.νt P.Binf.toNat P.B22.toNat a t ch x.2 out (freeGame A M N hν a s ch x.2 x.1)} = F at *
  generalize Nat.card {x : NoiseTable N P.l P.k (uwOf d) (Fin (repOf d) × Fin d) × (D × Commitment P.k P.νw → C) //
        FreeWinsStrongly A P.νt P.Binf.toNat P.B22.toNat a t ch x.2 out (freeGame A M N hν a s ch x.2 x.1)} = G at *
  generalize Nat.card (NoiseTable (N * (M + 1) + M) P.l P.k (uwOf d) (Fin (repOf d) × Fin d) × (D × Commitment P.k P.νw → C)) = T' at *
  generalize Nat.card (NoiseTable N P.l P.k (uwOf d) (Fin (repOf d) × Fin d) × (D × Commitment P.k P.νw → C)) = T at *
  generalize (N : ℚ) * (1 / 2 ^ floodBits P d + (N * (M + 1) + M : Nat) / 2 ^ 512) = c at *
  have e1 : (R : ℚ) / T = (R1 : ℚ) / T' := by
    rw [div_eq_div_iff (by exact_mod_cast hT.ne') (by exact_mod_cast hT'.ne')]
    exact_mod_cast hrows.symm
  have e2 : (G : ℚ) / T ≤ F / T + R / T := by
    rw [← add_div]
    exact div_le_div_of_nonneg_right (by exact_mod_cast h2.trans h1) (by positivity)
  have e3 : (R1 : ℚ) / T' ≤ R' / T' := div_le_div_of_nonneg_right (by exact_mod_cast h3) (by positivity)
  have e4 : (S : ℚ) / U ≤ S' / U := div_le_div_of_nonneg_right (by exact_mod_cast h4) (by positivity)
  rw [hε, hε₁]
  linarith

/-- A step of the game for the digest of the message handed in, with the commitment, hash value and response of the signature handed in, is shown to the attacker as that very signature. -/
theorem shown_as {P : Par} (hP : P = raccoon128 ∨ P = raccoon192 ∨ P = raccoon256) {a : Fin P.k → Fin P.l → RPoly} {t : Fin P.k → RPoly} {ch : HashVal P → Fin 512 → Int}
    {len : Nat} {c : HashVal P} {hint z : List Int} {sig : List U8} (henc : IsSigEncoding c.val hint z len sig) (lh : hint.length = P.k * 512) (lz : z.length = P.l * 512)
    (hnorm : NormsOK P.νw P.Binf.toNat P.B22.toNat hint z) {w : Commitment P.k P.νw} (hw : ∀ r i, (w r i).val = recomputed P.νw P.νt a t (toR (ch c)) hint z r i) (b : List U8) :
    ReleasedAs P a t ch len (w, c, some (unflatten P.l z)) b ↔ b = sig := by
  have hbi : P.Binf.toNat / 2 ^ P.νw ≤ 2 := by rcases hP with rfl | rfl | rfl <;> decide
  have hq : q / 2 ^ P.νw = 31 := by rw [(par_bounds P hP).1, q44']
  have hsm : ∀ x ∈ hint, 2 * x.natAbs < q / 2 ^ P.νw := fun x hx => by
    have := le_trans (hnorm.1 x hx) hbi
    omega
  have heq : ∀ r i, (unflatten P.k hint r i - (((w r i).val : Int) - commitY P.νw P.νt a t (toR (ch c)) (vecR (unflatten P.l z)) r i)) % (q / 2 ^ P.νw : Nat) = 0 := fun r i => by
    rw [hw]
    unfold recomputed
    rw [hq]
    omega
  unfold ReleasedAs
  constructor
  · rintro ⟨h', z', l1', l2', hz', hh', hb', k1, k2⟩
    obtain rfl : z = z' := unflatten_ext P.l z z' lz l2' fun r i => congrFun (congrFun (Option.some.inj hz') r) i
    obtain rfl : hint = h' := unflatten_ext P.k hint h' lh l1' fun r i => centered_unique (heq r i) (hh' r i) (hsm _ (mem_unflatten r i lh)) (hb' _ (mem_unflatten r i l1'))
    exact k2.unique henc
  · rintro rfl
    exact ⟨hint, z, lh, lz, rfl, heq, hsm, ⟨henc.fits, hnorm⟩, henc⟩

/-- C89: and for the interface. In an exchange as in C88, let the attacker hand in a message and a signature of the length signatures have (in the code this is in the type) that `verify` accepts under the public key and that is not
the one returned to it for this message (or one with the same digest). Then the game made from the attacker, with the noise words of the code's attempts and the challenge hash as oracle, is
won in the strong sense. -/
theorem C89_forgery (P : Par) (hP : P = raccoon128 ∨ P = raccoon192 ∨ P = raccoon256) (hν : 0 < q / 2 ^ P.νw) (E : Ext) (fuel0 fuel fuel' d len : Nat) (hd : ValidShares d)
    (entropy0 seed : List U8) (hseed : seed.length = P.κ / 8) (sk0 : SKey P.k P.l d) (h0 : Api.generate P (utTableOf P) E fuel0 d entropy0 seed = .ok sk0)
    (pkBuf pkb : List U8) (hpl : pkBuf.length = PKey.byteLen P.κ P.k P.νt) (hpk : Api.pkAsBytes P (Api.getPkey P sk0) pkBuf = .ok pkb)
    (t : Fin P.k → Fin 512 → Nat) (a : Fin P.k → Fin P.l → RPoly) (hpkb : IsPkOf P seed t pkb) (hA : IsMatrixOf E seed a)
    (sk : Nat → SKey P.k P.l d) (hder : ∀ i, SKey.Derived P E sk0 (sk i)) (entropy buf : Nat → List U8) (B : ApiAttacker P) (ans : List (List U8))
    (hex : IsExchange P E fuel d len sk entropy buf B ans)
    (hver : Api.verify P E fuel' (Api.getPkey P sk0) (B.forge ans).1 (B.forge ans).2 = .ok true) (hlen : (B.forge ans).2.length = len)
    (hnew : ∀ i (hi : i < ans.length) msg, B.next (ans.take i) = .sign msg → messageHash E P.κ pkb msg = messageHash E P.κ pkb (B.forge ans).1 → ans[i] ≠ (B.forge ans).2) :
    ∃ L : List (List U8 × Nat), (∀ x ∈ L, ∃ i < ans.length, x.1 = entropy i) ∧ ∀ M N, L.length ≤ N → L.length + ans.length ≤ M →
      FreeWinsStrongly (B.free P a (fun r i => (t r i : ZMod q)) (challengeMap P E) len hν (digestOf P E pkb)) P.νt P.Binf.toNat P.B22.toNat a (fun r i => (t r i : ZMod q)) (challengeMap P E)
        (hashOracle P E) (B.handsIn P a (fun r i => (t r i : ZMod q)) (challengeMap P E) len (digestOf P E pkb))
        (freeGame (B.free P a (fun r i => (t r i : ZMod q)) (challengeMap P E) len hν (digestOf P E pkb)) M N hν a (keySecret P E d entropy0) (challengeMap P E) (hashOracle P E)
          (exchangeTable P E d L N)) := by
  obtain ⟨cnt, -, hgame⟩ := C88_exchange P hP hν E fuel0 fuel d len hd entropy0 seed hseed sk0 h0 pkBuf pkb hpl hpk t a hpkb hA sk hder entropy buf B ans hex
  refine ⟨attemptsMade B entropy ans cnt ans.length, fun x hx => ?_, fun M N hN hM => ?_⟩
  · unfold attemptsMade at hx
    obtain ⟨i, hi, hx⟩ := List.mem_flatMap.1 hx
    refine ⟨i, List.mem_range.1 hi, ?_⟩
    split at hx
    · obtain ⟨n, -, rfl⟩ := List.mem_map.1 hx
      rfl
    · exact absurd hx List.not_mem_nil
  have hall := hgame M N hN hM
  obtain ⟨hl, hp⟩ := freeGame_spec (M := M) (N := N) (B.free P a (fun r i => (t r i : ZMod q)) (challengeMap P E) len hν (digestOf P E pkb)) hν a (keySecret P E d entropy0) (challengeMap P E)
    (hashOracle P E) (exchangeTable P E d (attemptsMade B entropy ans cnt ans.length) N)
  generalize freeGame (B.free P a (fun r i => (t r i : ZMod q)) (challengeMap P E) len hν (digestOf P E pkb)) M N hν a (keySecret P E d entropy0) (challengeMap P E)
    (hashOracle P E) (exchangeTable P E d (attemptsMade B entropy ans cnt ans.length) N) = G at *
  obtain ⟨c, hint, z, hparts, henc, lh, lz, hnorm, w, hw, hh⟩ := accepted_parts P hP hν E fuel0 fuel' d hd entropy0 seed hseed sk0 h0 pkBuf pkb hpl hpk t a hpkb hA _ _ hver
  rw [hlen] at henc
  have hout : B.handsIn P a (fun r i => (t r i : ZMod q)) (challengeMap P E) len (digestOf P E pkb) G = (digestOf P E pkb (B.forge ans).1, c, hint, z) := by
    unfold ApiAttacker.handsIn
    rw [hall, hparts]
  refine ⟨by rw [hout]; exact ⟨lh, lz⟩, by rw [hout]; exact hnorm, ?_⟩
  rw [hout]
  refine ⟨w, hw, hh, fun m hm hs e => ?_⟩
  obtain ⟨e1, e2⟩ := Prod.mk.inj e
  -- the step is an attempt for a message asked to be signed
  have hpre := heard_prefix (a := a) (t := fun r i => (t r i : ZMod q)) (ch := challengeMap P E) (len := len) B G (m + 1)
  rw [hall, List.take_succ_eq_append_getElem hm, heard_snoc, e2] at hpre
  have hask : (B.free P a (fun r i => (t r i : ZMod q)) (challengeMap P E) len hν (digestOf P E pkb)).asksToSign N (G.take m) = true := by
    cases hk : (B.free P a (fun r i => (t r i : ZMod q)) (challengeMap P E) len hν (digestOf P E pkb)).asksToSign N (G.take m) with
    | true => rfl
    | false =>
      rw [(hp m (by omega) hm).2 hk] at hs
      exact absurd hs Bool.false_ne_true
  have hask' := (Bool.and_eq_true _ _ ▸ hask : _ ∧ _).1
  unfold ApiAttacker.free at hask' e1
  simp only at hask' e1
  generalize B.heard P a (fun r i => (t r i : ZMod q)) (challengeMap P E) len (G.take m) = x at *
  cases hq : B.next x with
  | stop => rw [hq] at hask'; exact absurd hask' Bool.false_ne_true
  | hash y w => rw [hq] at hask'; exact absurd hask' Bool.false_ne_true
  | sign msg =>
    rw [hq] at e1
    rw [hear_one hq (shown_as hP henc lh lz hnorm hw)] at hpre
    have hlt : x.length < ans.length := by
      have := hpre.length_le
      rw [List.length_append, List.length_singleton] at this
      omega
    have hx : x = ans.take x.length := List.prefix_iff_eq_take.1 ((List.prefix_append _ _).trans hpre)
    have hg : ans[x.length] = (B.forge ans).2 := by
      obtain ⟨r, hr⟩ := hpre
      generalize (B.forge ans).2 = sg at hr ⊢
      have : ans[x.length]? = some sg := by
        rw [← hr, List.append_assoc, List.getElem?_append_right le_rfl, Nat.sub_self]; rfl
      obtain ⟨_, h⟩ := List.getElem?_eq_some_iff.1 this
      exact h
    exact hnew x.length hlt msg (by rw [← hx]; exact hq) (congrArg Subtype.val e1) hg

/-- C89: so attackers of the interface are covered. Let B be any, let the noise words be drawn at random and the challenge hash be a random oracle; let the game made from B be won in the
strong sense on a fraction ε and in the sense of C88 on ε₁. Then, up to the distance of the simulator, on ε − ε₁ of all noise tables and tuples of hash values the simulated game, in which the
secret is not used, shows a short vector with short image. -/
theorem C89_unforgeable (P : Par) (hP : P = raccoon128 ∨ P = raccoon192 ∨ P = raccoon256) (hν : 0 < q / 2 ^ P.νw) (E : Ext) (d M N len : Nat) (hM : N * (M + 1) + M ≤ 2 ^ 512)
    (hd : ValidShares d) (B : ApiAttacker P) (pkb : List U8)
    (a : Fin P.k → Fin P.l → RPoly) (ha : Unpredictable P.νw (uwOf d) (Fin (repOf d) × Fin d) hν 512 a) (s : Fin P.l → Fin 512 → Int) (e₀ : Fin P.k → Fin 512 → Int) (t : Fin P.k → RPoly)
    (hs : ∀ j x, |s j x| ≤ repOf d * d * 2 ^ (utOf P.κ d - 1)) (he : ∀ j x, |e₀ j x| ≤ repOf d * d * 2 ^ (utOf P.κ d - 1))
    (ht : ∀ r i, t r i = (roundZ P.νt (publicB a s e₀ r i) : ZMod q)) (ε ε₁ : ℚ)
    (A : FreeAttacker P.k P.l P.νw (HashVal P) (HashVal P)) (hA : A = B.free P a t (challengeMap P E) len hν (digestOf P E pkb))
    (out : List (Outcome P.k P.l P.νw (HashVal P)) → Forgery (HashVal P) (HashVal P)) (hout : out = B.handsIn P a t (challengeMap P E) len (digestOf P E pkb))
    (hε : ε = (Nat.card {x : NoiseTable N P.l P.k (uwOf d) (Fin (repOf d) × Fin d) × (HashVal P × Commitment P.k P.νw → HashVal P) //
        FreeWinsStrongly A P.νt P.Binf.toNat P.B22.toNat a t (challengeMap P E) x.2 out (freeGame A M N hν a s (challengeMap P E) x.2 x.1)} : ℚ) /
      Nat.card (NoiseTable N P.l P.k (uwOf d) (Fin (repOf d) × Fin d) × (HashVal P × Commitment P.k P.νw → HashVal P)))
    (hε₁ : ε₁ = (Nat.card {x : NoiseTable N P.l P.k (uwOf d) (Fin (repOf d) × Fin d) × (HashVal P × Commitment P.k P.νw → HashVal P) //
        FreeWins A P.νt P.Binf.toNat P.B22.toNat a t (challengeMap P E) x.2 out (freeGame A M N hν a s (challengeMap P E) x.2 x.1)} : ℚ) /
      Nat.card (NoiseTable N P.l P.k (uwOf d) (Fin (repOf d) × Fin d) × (HashVal P × Commitment P.k P.νw → HashVal P)))
    [Nontrivial (HashVal P)] (A' : Attacker P.k P.l P.νw (HashVal P) (HashVal P)) (hA' : A' = (A.scheduled M N out).careful)
    (out' : List (Outcome P.k P.l P.νw (HashVal P)) → Forgery (HashVal P) (HashVal P)) (hout' : out' = fun v => out (A.seen M N ((A.scheduled M N out).memory v).view)) :
    ε - ε₁ - N * (1 / 2 ^ floodBits P d + (N * (M + 1) + M : Nat) / 2 ^ 512) ≤
      (Nat.card {x : NoiseTable (N * (M + 1) + M) P.l P.k (uwOf d) (Fin (repOf d) × Fin d) × (Fin (N * (M + 1) + M) → HashVal P) //
        ∃ v, v = simulatedGame A' hν a (publicB a s e₀) (challengeMap P E) x.2 x.1 ∧ ∃ o ∈ v, ∃ z, o.2.2 = some z ∧
          ShortVector a (P.Binf.toNat + maskBound d) (imageBound P d) fun j i => z j i - unflatten P.l (out' v).2.2.2 j i} : ℚ) /
      Nat.card (NoiseTable (N * (M + 1) + M) P.l P.k (uwOf d) (Fin (repOf d) × Fin d) × (Fin (N * (M + 1) + M) → HashVal P)) := by
  have hω : P.ω ≤ 512 := by rcases hP with rfl | rfl | rfl <;> decide
  exact C89_anytime P hP hν d M N hM hd (HashVal P) (HashVal P) A a ha s e₀ t hs he ht (challengeMap P E) (challengeMap_vec hω E) out ε ε₁ hε hε₁ A' hA' out' hout'

/-- The bounds of `C89_anytime` say something: both are below q/2 for all parameter sets and share counts. -/
example (P : Par) (hP : P = raccoon128 ∨ P = raccoon192 ∨ P = raccoon256) (d : Nat) (hd : ValidShares d) : P.Binf.toNat + maskBound d < q / 2 ∧ imageBound P d < q / 2 := by
  obtain ⟨x, hx, rfl⟩ := hd
  have : x = 0 ∨ x = 1 ∨ x = 2 ∨ x = 3 ∨ x = 4 ∨ x = 5 := by omega
  rcases hP with rfl | rfl | rfl <;> rcases this with rfl | rfl | rfl | rfl | rfl | rfl <;> decide

/-- Non-vacuity of `C89_forgery`: with the toy code, an attacker that has the empty message signed and hands in a signature of another message. -/
example (entropy0 seed entropy : List U8) (hseed : seed.length = 16) :
    ∃ (sk0 sk : SKey 5 4 2) (pkb : List U8) (B : ApiAttacker raccoon128) (ans : List (List U8)), Api.generate raccoon128 (utTableOf raccoon128) demoE 512 2 entropy0 seed = .ok sk0 ∧
      Api.pkAsBytes raccoon128 (Api.getPkey raccoon128 sk0) (List.replicate (PKey.byteLen 128 5 42) 0) = .ok pkb ∧ SKey.Derived raccoon128 demoE sk0 sk ∧ B.next [] = .sign [] ∧ ans.length = 1 ∧
      IsExchange raccoon128 demoE 512 2 11524 (fun _ => sk) (fun _ => entropy) (fun _ => List.replicate 11524 0) B ans ∧
      Api.verify raccoon128 demoE 512 (Api.getPkey raccoon128 sk0) (B.forge ans).1 (B.forge ans).2 = .ok true ∧ (B.forge ans).2.length = 11524 ∧
      ∀ i (hi : i < ans.length) msg, B.next (ans.take i) = .sign msg →
        messageHash demoE raccoon128.κ pkb msg = messageHash demoE raccoon128.κ pkb (B.forge ans).1 → ans[i] ≠ (B.forge ans).2 := by
  obtain ⟨sk0, sk1, sk2, skb, b, h0, -, h1, h2, h3, hd, hs, -⟩ := demo_run entropy0 seed [] entropy [] hseed
  obtain ⟨sk0', -, sk2', -, b', h0', -, -, -, -, hd', hs', hv'⟩ := demo_run entropy0 seed [] entropy (List.replicate 8 0) hseed
  obtain rfl := Res.ok.inj (h0.symm.trans h0')
  have wf0 := C37_wellformed raccoon128 (Or.inl rfl) demoE 512 2 demo_d entropy0 seed hseed sk0 h0
  obtain ⟨pkb, hpk, -⟩ := C24_format 128 5 (by decide) (Api.getPkey raccoon128 sk0) wf0.pkey.seed (List.replicate (PKey.byteLen 128 5 42) 0) List.length_replicate
  have hb : b'.length = 11524 := by
    obtain ⟨n, c, hint, z, -, -, g, -⟩ := C36_wire raccoon128 (Or.inl rfl) demoE 512 512 2 demo_d entropy0 seed hseed sk0 sk2' h0 hd' _ pkb List.length_replicate hpk _ _ _ _ hs'
    exact g.1.trans List.length_replicate
  refine ⟨sk0, sk2, pkb, ⟨fun x => match x with
    | [] => .sign []
    | _ => .stop, fun _ => (List.replicate 8 0, b')⟩, [b], h0, hpk, hd, rfl, rfl, ⟨fun _ => List.length_replicate, ?_, ?_, ?_, rfl⟩, hv', hb, ?_⟩
  · intro i hi m hm
    match i, hi with
    | 0, _ => have hm : ApiQuery.sign (P := raccoon128) [] = .sign m := hm
              obtain rfl : [] = m := by injection hm
              exact hs
  · intro i hi x w hm
    match i, hi with
    | 0, _ => cases hm
  · intro i hi
    match i, hi with
    | 0, _ => intro h; cases h
  · intro i hi m hm e
    match i, hi with
    | 0, _ =>
      have hm : ApiQuery.sign (P := raccoon128) [] = .sign m := hm
      obtain rfl : [] = m := by injection hm
      exfalso
      have e := congrArg (fun x => x[2]?) e
      unfold messageHash xofOut at e
      simp [raccoon128, demoE] at e
      unfold demoStream at e
      simp at e

/-- Non-vacuity of `C89_short`: for the zero matrix any short vector is a second answer. -/
example (hν : 0 < q / 2 ^ raccoon128.νw) (ch : Unit → Fin 512 → Int) (A : Attacker 5 4 44 Unit Unit) (hA : ∀ n, A.signs n = true) :
    Reanswers 42 raccoon128.Binf.toNat raccoon128.B22.toNat (fun _ _ => 0) (fun _ => 0) ch (fun _ => ((), (), List.replicate 2560 0, List.replicate 2048 1))
      (simulatedGame A hν (fun _ _ => 0) (fun _ => 0) ch (fun _ : Fin 1 => ()) fun (_ : Fin 1 × (Fin 4 ⊕ Fin 5) × Fin 512) (_ : Fin 1) => (0 : Fin (2 ^ 41))) := by
  have h0 : ∀ j x, maskOf (fun (_ : Fin 1 × (Fin 4 ⊕ Fin 5) × Fin 512) (_ : Fin 1) => (0 : Fin (2 ^ 41))) (0 : Fin 1) j x = 0 := fun j x => by
    unfold maskOf signedSum signedWord
    simp
  have h1 : ∀ j x, errorOf (fun (_ : Fin 1 × (Fin 4 ⊕ Fin 5) × Fin 512) (_ : Fin 1) => (0 : Fin (2 ^ 41))) (0 : Fin 1) j x = 0 := fun j x => by
    unfold errorOf signedSum signedWord
    simp
  have hr : roundZ 44 (0 : ZMod q) = 0 := by simpa using roundZ_small 44 (Or.inr rfl) 0 (by norm_num)
  refine ⟨⟨List.length_replicate, List.length_replicate⟩, ⟨fun x hx => ?_, fun x hx => ?_, ?_⟩, _, List.mem_singleton.2 rfl, _, if_pos (hA _), rfl, fun e => ?_, fun r i => ?_⟩
  · rw [List.eq_of_mem_replicate hx]; decide
  · rw [List.eq_of_mem_replicate hx]; decide
  · unfold sqSum scaledSqSum
    dsimp only
    rw [List.map_replicate, List.map_replicate, List.sum_replicate, List.sum_replicate]
    decide
  · have := (h0 0 0).symm.trans (congrFun (congrFun e 0) 0)
    have h2 : unflatten 4 (List.replicate 2048 1) 0 0 = 1 := by
      unfold unflatten
      rw [List.getD_eq_getElem?_getD, List.getElem?_replicate, if_pos (by decide)]; rfl
    exact absurd (this.trans h2) (by decide)
  · change ((if A.signs (0 : Fin 1).val = true then _ else _ : Commitment 5 44) r i).val = _
    rw [if_pos (hA _)]
    show roundZ 44 ((ringMatVec (fun _ _ => 0) _ r - negacyclic 0 _ + vecR _ r) i) = _
    have hn0 : nttR (0 : RPoly) = 0 := by have := nttR_add 0 0; rw [add_zero] at this; exact left_eq_add.1 this
    have e1 : ∀ x : Fin 4 → RPoly, ringMatVec (fun _ _ => 0) x r = 0 := fun x => by
      unfold ringMatVec
      exact Finset.sum_eq_zero fun j _ => nttR_inj (by rw [nttR_negacyclic, hn0, zero_mul])
    have e2 : ∀ x, negacyclic (0 : RPoly) x = 0 := fun x => nttR_inj (by rw [nttR_negacyclic, hn0, zero_mul])
    have e3 : vecR (errorOf (fun (_ : Fin 1 × (Fin 4 ⊕ Fin 5) × Fin 512) (_ : Fin 1) => (0 : Fin (2 ^ 41))) (0 : Fin 1)) r i = 0 := by
      show ((errorOf _ _ r i : Int) : ZMod q) = 0
      rw [h1]; rfl
    have e4 : unflatten 5 (List.replicate 2560 0) r i = 0 := by
      unfold unflatten
      rw [List.getD_eq_getElem?_getD, List.getElem?_replicate]
      split <;> rfl
    have e5 : recomputed 44 42 (fun (_ : Fin 5) (_ : Fin 4) => (0 : RPoly)) (fun _ => 0) (toR (ch ())) (List.replicate 2560 0) (List.replicate 2048 1) r i = 0 := by
      unfold recomputed commitY
      rw [e4, e1, e2, show (0 - (2 ^ 42 : ZMod q) • (0 : RPoly)) i = 0 by rw [smul_zero, sub_zero]; rfl, hr]; rfl
    refine Eq.trans ?_ e5.symm
    rw [e1, e2, sub_zero, zero_add]
    exact (congrArg (roundZ 44) e3).trans hr

end Raccoon
