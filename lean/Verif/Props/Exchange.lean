import Verif.Proofs.Exchange
import Verif.Props.Anytime
import Verif.Props.Demo
import Mathlib.Data.Fintype.Vector
/-!
# C88: breaking the interface is winning the game
-/
namespace Raccoon
attribute [-instance] Monoid.toNPow

/-- C88: exchanges are games. Let an attacker have signatures made by the code, under a generated key that may be refreshed and stored in between, on messages of its choice, and have the
challenge hash computed on pairs of its choice, each asked for after seeing the answers so far. Then the attacker of the game made from it (`ApiAttacker.free`, which knows the public key
only) hears the very same answers, if the game's signer uses the noise words of the code's attempts and its oracle is the challenge hash; this for all games with room for these
steps. -/
theorem C88_exchange (P : Par) (hP : P = raccoon128 ∨ P = raccoon192 ∨ P = raccoon256) (hν : 0 < q / 2 ^ P.νw) (E : Ext) (fuel0 fuel d len : Nat) (hd : ValidShares d)
    (entropy0 seed : List U8) (hseed : seed.length = P.κ / 8) (sk0 : SKey P.k P.l d) (h0 : Api.generate P (utTableOf P) E fuel0 d entropy0 seed = .ok sk0)
    (pkBuf pkb : List U8) (hpl : pkBuf.length = PKey.byteLen P.κ P.k P.νt) (hpk : Api.pkAsBytes P (Api.getPkey P sk0) pkBuf = .ok pkb)
    (t : Fin P.k → Fin 512 → Nat) (a : Fin P.k → Fin P.l → RPoly) (hpkb : IsPkOf P seed t pkb) (hA : IsMatrixOf E seed a)
    (sk : Nat → SKey P.k P.l d) (hder : ∀ i, SKey.Derived P E sk0 (sk i)) (entropy buf : Nat → List U8) (B : ApiAttacker P) (ans : List (List U8))
    (hex : IsExchange P E fuel d len sk entropy buf B ans) :
    ∃ cnt : Nat → Nat, Releases P E d len pkb (keySecret P E d entropy0) entropy B ans cnt ∧
      ∀ M N, (attemptsMade B entropy ans cnt ans.length).length ≤ N → (attemptsMade B entropy ans cnt ans.length).length + ans.length ≤ M →
        B.heard P a (fun r i => (t r i : ZMod q)) (challengeMap P E) len
          (freeGame (B.free P a (fun r i => (t r i : ZMod q)) (challengeMap P E) len hν (digestOf P E pkb)) M N hν a (keySecret P E d entropy0) (challengeMap P E) (hashOracle P E)
            (exchangeTable P E d (attemptsMade B entropy ans cnt ans.length) N)) = ans := by
  have hrel : ∀ i, ∃ n, ∀ (hi : i < ans.length) msg, B.next (ans.take i) = .sign msg →
      (∃ c h z, IsAttempt P E d pkb (keySecret P E d entropy0) msg (entropy i) n c h z ∧ Acceptable P len c h z ∧ IsSigEncoding c h z len ans[i]) ∧
      ∀ m < n, ∃ c h z, IsAttempt P E d pkb (keySecret P E d entropy0) msg (entropy i) m c h z ∧ ¬ Acceptable P len c h z := by
    intro i
    by_cases hi : i < ans.length
    · cases hq : B.next (ans.take i) with
      | stop => exact ⟨0, fun _ msg h => by cases h⟩
      | hash x w => exact ⟨0, fun _ msg h => by cases h⟩
      | sign msg =>
        obtain ⟨n, c, h, z, g1, g2, g3, g4⟩ := C36_wire P hP E fuel0 fuel d hd entropy0 seed hseed sk0 (sk i) h0 (hder i) pkBuf pkb hpl hpk _ _ _ _ (hex.sign i hi msg hq)
        rw [hex.bufs i] at g2 g3 g4
        refine ⟨n, fun _ msg' hm => ?_⟩
        obtain rfl : msg = msg' := by injection hm
        refine ⟨⟨c, h, z, g1, g2, g3⟩, fun m hm => ?_⟩
        obtain ⟨c', h', z', k1, k2⟩ := g4 m hm
        exact ⟨c', h', z', k1, k2.1⟩
    · exact ⟨0, fun h => absurd h hi⟩
  choose cnt hcnt using hrel
  refine ⟨cnt, fun i hi msg h => hcnt i hi msg h, fun M N hN hM => ?_⟩
  exact exchange_heard hν hd hpkb hA _ entropy B ans cnt (fun i hi msg h => hcnt i hi msg h) hex.hash hex.going hex.stop M N hN hM

/-- A signature that `verify` accepts, taken apart. -/
theorem accepted_parts (P : Par) (hP : P = raccoon128 ∨ P = raccoon192 ∨ P = raccoon256) (hν : 0 < q / 2 ^ P.νw) (E : Ext) (fuel0 fuel' d : Nat) (hd : ValidShares d)
    (entropy0 seed : List U8) (hseed : seed.length = P.κ / 8) (sk0 : SKey P.k P.l d) (h0 : Api.generate P (utTableOf P) E fuel0 d entropy0 seed = .ok sk0)
    (pkBuf pkb : List U8) (hpl : pkBuf.length = PKey.byteLen P.κ P.k P.νt) (hpk : Api.pkAsBytes P (Api.getPkey P sk0) pkBuf = .ok pkb)
    (t : Fin P.k → Fin 512 → Nat) (a : Fin P.k → Fin P.l → RPoly) (hpkb : IsPkOf P seed t pkb) (hA : IsMatrixOf E seed a) (msg sig : List U8)
    (hver : Api.verify P E fuel' (Api.getPkey P sk0) msg sig = .ok true) :
    ∃ (c : HashVal P) (hint z : List Int), sigParts P sig = (c, hint, z) ∧ IsSigEncoding c.val hint z sig.length sig ∧ hint.length = P.k * 512 ∧ z.length = P.l * 512 ∧
      NormsOK P.νw P.Binf.toNat P.B22.toNat hint z ∧
      ∃ w : Commitment P.k P.νw, (∀ r i, (w r i).val = recomputed P.νw P.νt a (fun r i => (t r i : ZMod q)) (toR (challengeMap P E c)) hint z r i) ∧
        hashOracle P E (digestOf P E pkb msg, w) = c := by
  have hpkl : pkb.length = PKey.byteLen P.κ P.k P.νt ∧ Api.pkFromBytes P pkb = .ok (Api.getPkey P sk0) := by
    obtain ⟨-, w2, -, -, -, -, -, -, -, h8, -⟩ := par_bounds P hP
    have wf0 := C37_wellformed P hP E fuel0 d hd entropy0 seed hseed sk0 h0
    unfold Api.pkAsBytes at hpk
    unfold Api.pkFromBytes
    rw [w2] at hpk hpl ⊢
    obtain ⟨b, e1, e2, e3⟩ := C24_format P.κ P.k h8 (Api.getPkey P sk0) wf0.pkey.seed pkBuf hpl
    obtain rfl := Res.ok.inj (e1.symm.trans hpk)
    exact ⟨e2, C24_decode_encode P.κ P.k h8 (Api.getPkey P sk0) wf0.pkey.seed wf0.pkey.t _ b hpl hpk⟩
  obtain ⟨c, hint, z, henc, hval⟩ := C34_wire_sound P hP E fuel' pkb hpkl.1 _ hpkl.2 _ _ hver
  obtain ⟨lc, lh, lz, hnorm, seed', t', a', cp, hpk', hA', hc', hv⟩ := hval
  obtain ⟨rfl, rfl⟩ := hpkb.unique hpk'
  obtain rfl := hA.unique hA'
  have hparts : sigParts P sig = (⟨c, lc⟩, hint, z) := by
    unfold sigParts
    have hx : ∃ x : HashVal P × List Int × List Int, x.2.1.length = P.k * 512 ∧ x.2.2.length = P.l * 512 ∧ IsSigEncoding x.1.val x.2.1 x.2.2 sig.length sig :=
      ⟨(⟨c, lc⟩, hint, z), lh, lz, henc⟩
    rw [dif_pos hx]
    obtain ⟨y1, y2, y3⟩ := hx.choose_spec
    generalize hx.choose = y at y1 y2 y3 ⊢
    obtain ⟨i1, i2, i3⟩ := y3.inj henc (y.1.2.trans lc.symm) (y1.trans lh.symm) (y2.trans lz.symm)
    exact Prod.ext (Subtype.ext i1) (Prod.ext i2 i3)
  have hmap : challengeMap P E ⟨c, lc⟩ = cp := challengeMap_of hc'
  have hlt : ∀ r i, recomputed P.νw P.νt a (fun r i => (t r i : ZMod q)) (toR cp) hint z r i < q / 2 ^ P.νw := fun r i => by
    unfold recomputed
    have := Int.emod_lt_of_pos ((commitY P.νw P.νt a (fun r i => (t r i : ZMod q)) (toR cp) (vecR (unflatten P.l z)) r i : Int) + unflatten P.k hint r i)
      (by exact_mod_cast hν : (0 : Int) < (q / 2 ^ P.νw : Nat))
    omega
  refine ⟨⟨c, lc⟩, hint, z, hparts, henc, lh, lz, hnorm, fun r i => ⟨_, hlt r i⟩, fun r i => ?_, Subtype.ext hv.symm⟩
  rw [hmap]

/-- C88: and what the attacker hands in is what it hands in after the exchange: if that is a message, with a digest that no message it had signed has, and a signature that `verify`
accepts under the public key, then the game is won (`FreeWins`, the event of C87_anytime). -/
theorem C88_forgery (P : Par) (hP : P = raccoon128 ∨ P = raccoon192 ∨ P = raccoon256) (hν : 0 < q / 2 ^ P.νw) (E : Ext) (fuel0 fuel fuel' d len : Nat) (hd : ValidShares d)
    (entropy0 seed : List U8) (hseed : seed.length = P.κ / 8) (sk0 : SKey P.k P.l d) (h0 : Api.generate P (utTableOf P) E fuel0 d entropy0 seed = .ok sk0)
    (pkBuf pkb : List U8) (hpl : pkBuf.length = PKey.byteLen P.κ P.k P.νt) (hpk : Api.pkAsBytes P (Api.getPkey P sk0) pkBuf = .ok pkb)
    (t : Fin P.k → Fin 512 → Nat) (a : Fin P.k → Fin P.l → RPoly) (hpkb : IsPkOf P seed t pkb) (hA : IsMatrixOf E seed a)
    (sk : Nat → SKey P.k P.l d) (hder : ∀ i, SKey.Derived P E sk0 (sk i)) (entropy buf : Nat → List U8) (B : ApiAttacker P) (ans : List (List U8))
    (hex : IsExchange P E fuel d len sk entropy buf B ans)
    (hver : Api.verify P E fuel' (Api.getPkey P sk0) (B.forge ans).1 (B.forge ans).2 = .ok true)
    (hnew : ∀ i < ans.length, ∀ msg, B.next (ans.take i) = .sign msg → messageHash E P.κ pkb msg ≠ messageHash E P.κ pkb (B.forge ans).1) :
    ∃ L : List (List U8 × Nat), (∀ x ∈ L, ∃ i < ans.length, x.1 = entropy i) ∧ ∀ M N, L.length ≤ N → L.length + ans.length ≤ M →
      FreeWins (B.free P a (fun r i => (t r i : ZMod q)) (challengeMap P E) len hν (digestOf P E pkb)) P.νt P.Binf.toNat P.B22.toNat a (fun r i => (t r i : ZMod q)) (challengeMap P E)
        (hashOracle P E) (B.handsIn P a (fun r i => (t r i : ZMod q)) (challengeMap P E) len (digestOf P E pkb))
        (freeGame (B.free P a (fun r i => (t r i : ZMod q)) (challengeMap P E) len hν (digestOf P E pkb)) M N hν a (keySecret P E d entropy0) (challengeMap P E) (hashOracle P E)
          (exchangeTable P E d L N)) := by
  obtain ⟨cnt, -, hgame⟩ := C88_exchange P hP hν E fuel0 fuel d len hd entropy0 seed hseed sk0 h0 pkBuf pkb hpl hpk t a hpkb hA sk hder entropy buf B ans hex
  refine ⟨attemptsMade B entropy ans cnt ans.length, fun x hx => ?_, fun M N hN hM => ?_⟩
  · unfold attemptsMade at hx
    obtain ⟨i, hi, hx⟩ := List.mem_flatMap.1 hx
    refine ⟨i, List.mem_range.1 hi, ?_⟩
    split at hx
    · obtain ⟨n, -, rfl⟩ := List.mem_map.1 hx
      rfl
    · exact absurd hx List.not_mem_nil
  have hall := hgame M N hN hM
  obtain ⟨hl, hp⟩ := freeGame_spec (M := M) (N := N) (B.free P a (fun r i => (t r i : ZMod q)) (challengeMap P E) len hν (digestOf P E pkb)) hν a (keySecret P E d entropy0) (challengeMap P E)
    (hashOracle P E) (exchangeTable P E d (attemptsMade B entropy ans cnt ans.length) N)
  generalize freeGame (B.free P a (fun r i => (t r i : ZMod q)) (challengeMap P E) len hν (digestOf P E pkb)) M N hν a (keySecret P E d entropy0) (challengeMap P E)
    (hashOracle P E) (exchangeTable P E d (attemptsMade B entropy ans cnt ans.length) N) = G at *
  -- the forgery
  obtain ⟨c, hint, z, hparts, -, lh, lz, hnorm, w, hw, hh⟩ := accepted_parts P hP hν E fuel0 fuel' d hd entropy0 seed hseed sk0 h0 pkBuf pkb hpl hpk t a hpkb hA _ _ hver
  have hout : B.handsIn P a (fun r i => (t r i : ZMod q)) (challengeMap P E) len (digestOf P E pkb) G = (digestOf P E pkb (B.forge ans).1, c, hint, z) := by
    unfold ApiAttacker.handsIn
    rw [hall, hparts]
  have hdig : ∀ m (hm : m < G.length), G[m].2.2.isSome = true →
      (B.free P a (fun r i => (t r i : ZMod q)) (challengeMap P E) len hν (digestOf P E pkb)).digest (G.take m) ≠ digestOf P E pkb (B.forge ans).1 := by
    intro m hm hs
    -- the step is an attempt, so the message of it was asked to be signed in the exchange
    have hpre := heard_prefix (a := a) (t := fun r i => (t r i : ZMod q)) (ch := challengeMap P E) (len := len) B G m
    rw [hall] at hpre
    have hask : (B.free P a (fun r i => (t r i : ZMod q)) (challengeMap P E) len hν (digestOf P E pkb)).asksToSign N (G.take m) = true := by
      cases hk : (B.free P a (fun r i => (t r i : ZMod q)) (challengeMap P E) len hν (digestOf P E pkb)).asksToSign N (G.take m) with
      | true => rfl
      | false =>
        rw [(hp m (by omega) hm).2 hk] at hs
        exact absurd hs Bool.false_ne_true
    have hask' := (Bool.and_eq_true _ _ ▸ hask : _ ∧ _).1
    unfold ApiAttacker.free at hask' ⊢
    simp only at hask' ⊢
    generalize B.heard P a (fun r i => (t r i : ZMod q)) (challengeMap P E) len (G.take m) = x at *
    have hx : x = ans.take x.length := (List.prefix_iff_eq_take.1 hpre)
    cases hq : B.next x with
    | stop => rw [hq] at hask'; exact absurd hask' Bool.false_ne_true
    | hash y w => rw [hq] at hask'; exact absurd hask' Bool.false_ne_true
    | sign msg =>
      have hlt : x.length < ans.length := by
        rcases Nat.lt_or_ge x.length ans.length with h | h
        · exact h
        · rw [List.take_of_length_le h] at hx
          rw [hx, hex.stop] at hq
          cases hq
      simp only
      intro e
      exact hnew x.length hlt msg (by rw [← hx]; exact hq) (congrArg Subtype.val e)
  refine ⟨by rw [hout]; exact ⟨lh, lz⟩, by rw [hout]; exact hnorm, ?_⟩
  rw [hout]
  exact ⟨w, hw, hh, fun m hm hs e => hdig m hm hs (congrArg Prod.fst e)⟩

/-- The challenges the code samples are challenge vectors: ω coefficients are ±1, the others 0. -/
theorem chalInt_vec (s : Nat → U8) (m : Nat) : IsChallengeVec (chalCount s m) (chalInt s m) := by
  have habs : ∀ i : Fin 512, |chalInt s m i| = if i.val ∈ (Finset.range m).image (chalPos s) then 1 else 0 := by
    intro i
    unfold chalInt
    cases hf : (List.range m).find? (fun j => chalPos s j == i.val) with
    | none =>
      rw [if_neg]
      · rfl
      · intro h
        obtain ⟨j, hj, e⟩ := Finset.mem_image.1 h
        exact List.find?_eq_none.1 hf j (List.mem_range.2 (Finset.mem_range.1 hj)) (by rw [e]; exact beq_self_eq_true _)
    | some j =>
      have h1 := List.find?_some hf
      have h2 := List.mem_of_find?_eq_some hf
      rw [if_pos (Finset.mem_image.2 ⟨j, Finset.mem_range.2 (List.mem_range.1 h2), eq_of_beq h1⟩)]
      dsimp only
      split <;> rfl
  refine ⟨fun i => by rw [habs]; split <;> omega, ?_⟩
  simp only [habs]
  rw [Finset.sum_boole]
  have e : (Finset.univ.filter fun i : Fin 512 => i.val ∈ (Finset.range m).image (chalPos s)).card = chalCount s m := by
    unfold chalCount
    rw [← Finset.card_map Fin.valEmbedding]
    refine congrArg Finset.card (Finset.ext fun x => ?_)
    rw [Finset.mem_map]
    constructor
    · rintro ⟨i, hi, rfl⟩
      exact (Finset.mem_filter.1 hi).2
    · intro hx
      obtain ⟨j, -, rfl⟩ := Finset.mem_image.1 hx
      exact ⟨⟨chalPos s j, Nat.mod_lt _ (by decide)⟩, Finset.mem_filter.2 ⟨Finset.mem_univ _, hx⟩, rfl⟩
  exact_mod_cast e

theorem challengeMap_vec {P : Par} (hω : P.ω ≤ 512) (E : Ext) (c : HashVal P) : IsChallengeVec P.ω (challengeMap P E c) := by
  unfold challengeMap
  split
  · rename_i hx
    obtain ⟨m, h1, h2⟩ := hx.choose_spec
    have := chalInt_vec (E.shake256 ([0x63, BitVec.ofNat 8 P.ω, 0, 0, 0, 0, 0, 0] ++ c.val)) m
    rw [h1] at this
    rw [h2]
    exact this
  · refine ⟨fun i => by dsimp only; split <;> decide, ?_⟩
    have : ∀ i : Fin 512, |if i.val < P.ω then (1 : Int) else 0| = if i.val < P.ω then 1 else 0 := fun i => by split <;> rfl
    simp only [this]
    rw [Finset.sum_boole, Fin.card_filter_val_lt]
    rw [Nat.min_eq_right hω]

instance (P : Par) : Fintype (HashVal P) := inferInstanceAs (Fintype (List.Vector U8 (2 * P.κ / 8)))

/-- C88: so attackers of the interface are covered. Let B be any, let the noise words be drawn at random and the challenge hash be a random oracle, and let the game made from B, of M steps
and at most N attempts, be won on a fraction ε. With δ = ε − N (2^−floodBits + (N(M+1)+M+1) 2^−512), short relations for the public key are found, without the secret, on at least
δ (δ/((N+1)M+1) − 1/K) of all noise tables and pairs of tuples of hash values, where no challenge belongs to more than one in K hash values. -/
theorem C88_unforgeable (P : Par) (hP : P = raccoon128 ∨ P = raccoon192 ∨ P = raccoon256) (hν : 0 < q / 2 ^ P.νw) (E : Ext) (d M N len : Nat) (hM : N * (M + 1) + M + 1 < 2 ^ 512)
    (hd : ValidShares d) (B : ApiAttacker P) (pkb : List U8)
    (a : Fin P.k → Fin P.l → RPoly) (ha : Unpredictable P.νw (uwOf d) (Fin (repOf d) × Fin d) hν 512 a) (s : Fin P.l → Fin 512 → Int) (e₀ : Fin P.k → Fin 512 → Int) (t : Fin P.k → RPoly)
    (hs : ∀ j x, |s j x| ≤ repOf d * d * 2 ^ (utOf P.κ d - 1)) (he : ∀ j x, |e₀ j x| ≤ repOf d * d * 2 ^ (utOf P.κ d - 1))
    (K : Nat) (hK0 : 0 < K) (hK : ∀ γ, K * Nat.card {c // challengeMap P E c = γ} ≤ Nat.card (HashVal P)) (ε δ : ℚ)
    (A : FreeAttacker P.k P.l P.νw (HashVal P) (HashVal P)) (hA : A = B.free P a t (challengeMap P E) len hν (digestOf P E pkb))
    (out : List (Outcome P.k P.l P.νw (HashVal P)) → Forgery (HashVal P) (HashVal P)) (hout : out = B.handsIn P a t (challengeMap P E) len (digestOf P E pkb))
    (hε : ε = (Nat.card {x : NoiseTable N P.l P.k (uwOf d) (Fin (repOf d) × Fin d) × (HashVal P × Commitment P.k P.νw → HashVal P) //
        FreeWins A P.νt P.Binf.toNat P.B22.toNat a t (challengeMap P E) x.2 out (freeGame A M N hν a s (challengeMap P E) x.2 x.1)} : ℚ) /
      Nat.card (NoiseTable N P.l P.k (uwOf d) (Fin (repOf d) × Fin d) × (HashVal P × Commitment P.k P.νw → HashVal P)))
    (hδ : δ = ε - N * (1 / 2 ^ floodBits P d + ((N * (M + 1) + M : Nat) + 1) / 2 ^ 512)) (hδ0 : 0 ≤ δ) [Nontrivial (HashVal P)]
    (A' : Attacker P.k P.l P.νw (HashVal P) (HashVal P))
    (hA' : A' = ((A.scheduled M N out).finishing (N * (M + 1) + M) hν P.νt a t (challengeMap P E) fun v => out (A.seen M N v)).careful)
    (out' : List (Outcome P.k P.l P.νw (HashVal P)) → HashVal P × List Int × List Int)
    (hout' : out' = carefulOut ((A.scheduled M N out).finishing (N * (M + 1) + M) hν P.νt a t (challengeMap P E) fun v => out (A.seen M N v)) (N * (M + 1) + M)
      fun v => out (A.seen M N v)) :
    δ * (δ / (((N + 1) * M : Nat) + 1) - 1 / K) ≤
      (Nat.card {x : NoiseTable (N * (M + 1) + M + 1) P.l P.k (uwOf d) (Fin (repOf d) × Fin d) × (Fin (N * (M + 1) + M + 1) → HashVal P) × (Fin (N * (M + 1) + M + 1) → HashVal P) //
        ∃ n : Fin (N * (M + 1) + M + 1), A'.signs n = false ∧
          ∃ v v', v = simulatedGame A' hν a (publicB a s e₀) (challengeMap P E) x.2.1 x.1 ∧
          v' = simulatedGame A' hν a (publicB a s e₀) (challengeMap P E) (splice n x.2.1 x.2.2) x.1 ∧
          ShortRelation P a t (fun j i => unflatten P.l (out' v).2.2 j i - unflatten P.l (out' v').2.2 j i) (challengeMap P E (x.2.1 n) - challengeMap P E (x.2.2 n))} : ℚ) /
      Nat.card (NoiseTable (N * (M + 1) + M + 1) P.l P.k (uwOf d) (Fin (repOf d) × Fin d) × (Fin (N * (M + 1) + M + 1) → HashVal P) × (Fin (N * (M + 1) + M + 1) → HashVal P)) := by
  have hω : P.ω ≤ 512 := by rcases hP with rfl | rfl | rfl <;> decide
  exact C87_anytime P hP hν d M N hM hd (HashVal P) (HashVal P) A a ha s e₀ t hs he (challengeMap P E) (challengeMap_vec hω E) K hK0 hK out ε δ hε hδ hδ0 A' hA' out' hout'

/-- There are at least two hash values, as `C88_unforgeable` needs. -/
theorem hashVal_nontrivial {P : Par} (hP : P = raccoon128 ∨ P = raccoon192 ∨ P = raccoon256) : Nontrivial (HashVal P) := by
  have hκ : 2 * P.κ / 8 = 2 * P.κ / 8 - 1 + 1 := by rcases hP with rfl | rfl | rfl <;> decide
  exact ⟨⟨List.replicate (2 * P.κ / 8) 0, List.length_replicate⟩, ⟨List.replicate (2 * P.κ / 8) 1, List.length_replicate⟩, fun e => by
    have e := congrArg Subtype.val e
    dsimp only at e
    rw [hκ, List.replicate_succ, List.replicate_succ] at e
    exact absurd (List.cons.inj e).1 (by decide)⟩

/-- Non-vacuity of `C88_exchange`: with the code of the toy run of `Props/Demo.lean`, an attacker that has a message signed, under a refreshed and reloaded key, and then asks for a hash
value, has two answers. -/
example (entropy0 seed entropy msg : List U8) (hseed : seed.length = 16) (hν : 0 < q / 2 ^ raccoon128.νw) :
    ∃ (sk0 sk : SKey 5 4 2) (B : ApiAttacker raccoon128) (ans : List (List U8)), Api.generate raccoon128 (utTableOf raccoon128) demoE 512 2 entropy0 seed = .ok sk0 ∧
      SKey.Derived raccoon128 demoE sk0 sk ∧ B.next [] = .sign msg ∧ ans.length = 2 ∧
      IsExchange raccoon128 demoE 512 2 11524 (fun _ => sk) (fun _ => entropy) (fun _ => List.replicate 11524 0) B ans := by
  obtain ⟨sk0, sk1, sk2, skb, b, h0, -, -, -, -, hd, hs, hv⟩ := demo_run entropy0 seed [] entropy msg hseed
  refine ⟨sk0, sk2, ⟨fun x => match x with
    | [] => .sign msg
    | [_] => .hash (digestOf raccoon128 demoE [] []) (fun _ _ => ⟨0, hν⟩)
    | _ => .stop, fun _ => ([], [])⟩, [b, (hashOracle raccoon128 demoE (digestOf raccoon128 demoE [] [], fun _ _ => ⟨0, hν⟩)).val], h0, hd, rfl, rfl,
    fun _ => List.length_replicate, ?_, ?_, ?_, rfl⟩
  · intro i hi m hm
    match i, hi with
    | 0, _ => have hm : ApiQuery.sign (P := raccoon128) msg = .sign m := hm
              obtain rfl : msg = m := by injection hm
              exact hs
    | 1, _ => cases hm
  · intro i hi x w hm
    match i, hi with
    | 0, _ => cases hm
    | 1, _ => have hm : ApiQuery.hash (P := raccoon128) (digestOf raccoon128 demoE [] []) (fun _ _ => ⟨0, hν⟩) = .hash x w := hm
              injection hm with e1 e2
              rw [← e1, ← e2]; rfl
  · intro i hi
    match i, hi with
    | 0, _ => intro h; cases h
    | 1, _ => intro h; cases h

/-- Non-vacuity of `C88_forgery`: an attacker that has had one hash value, and hands in a signature that the toy code accepts. -/
example (entropy0 seed entropy msg : List U8) (hseed : seed.length = 16) (hν : 0 < q / 2 ^ raccoon128.νw) :
    ∃ (sk0 : SKey 5 4 2) (B : ApiAttacker raccoon128) (ans : List (List U8)), Api.generate raccoon128 (utTableOf raccoon128) demoE 512 2 entropy0 seed = .ok sk0 ∧ ans.length = 1 ∧
      IsExchange raccoon128 demoE 512 2 11524 (fun _ => sk0) (fun _ => entropy) (fun _ => List.replicate 11524 0) B ans ∧
      Api.verify raccoon128 demoE 512 (Api.getPkey raccoon128 sk0) (B.forge ans).1 (B.forge ans).2 = .ok true ∧ ∀ i < ans.length, ∀ m, B.next (ans.take i) ≠ .sign m := by
  obtain ⟨sk0, sk1, sk2, skb, b, h0, -, -, -, -, hd, hs, hv⟩ := demo_run entropy0 seed [] entropy msg hseed
  refine ⟨sk0, ⟨fun x => match x with
    | [] => .hash (digestOf raccoon128 demoE [] []) (fun _ _ => ⟨0, hν⟩)
    | _ => .stop, fun _ => (msg, b)⟩, [(hashOracle raccoon128 demoE (digestOf raccoon128 demoE [] [], fun _ _ => ⟨0, hν⟩)).val], h0, rfl,
    ⟨fun _ => List.length_replicate, ?_, ?_, ?_, rfl⟩, hv, ?_⟩
  · intro i hi m hm
    match i, hi with
    | 0, _ => cases hm
  · intro i hi x w hm
    match i, hi with
    | 0, _ => have hm : ApiQuery.hash (P := raccoon128) (digestOf raccoon128 demoE [] []) (fun _ _ => ⟨0, hν⟩) = .hash x w := hm
              injection hm with e1 e2
              rw [← e1, ← e2]; rfl
  · intro i hi
    match i, hi with
    | 0, _ => intro h; cases h
  · intro i hi m
    match i, hi with
    | 0, _ => intro h; cases h

end Raccoon
