import Verif.Spec.Exchange
import Verif.Proofs.Anytime
import Verif.Props.Adaptive
import Verif.Props.Binding
/-!
# What the attacker of the game hears is what the code answers
-/
namespace Raccoon
attribute [-instance] Monoid.toNPow

theorem challengeMap_of {P : Par} {E : Ext} {c : HashVal P} {p : Fin 512 → Int} (h : IsChallengeOf E P.ω c.val p) : challengeMap P E c = p := by
  unfold challengeMap
  have hx : ∃ p, IsChallengeOf E P.ω c.val p := ⟨p, h⟩
  rw [dif_pos hx]
  exact hx.choose_spec.unique h

theorem table_rows {P : Par} {E : Ext} {d : Nat} (hd : ValidShares d) {N : Nat} (f : Fin N → List U8) (g : Fin N → Nat) (n : Fin N) :
    maskOf (attemptTable P E d f g) n = ephemeralR P E d (f n) (g n) ∧ errorOf (attemptTable P E d f g) n = ephemeralE P E d (f n) (g n) := by
  constructor
  · funext j x
    rw [C73_words P E d hd]
    rfl
  · funext j x
    rw [errorWords_sum P E d hd]
    rfl

theorem centered_unique {x y A : Int} {m : Nat} (h1 : (x - A) % (m : Int) = 0) (h2 : (y - A) % (m : Int) = 0) (b1 : 2 * x.natAbs < m) (b2 : 2 * y.natAbs < m) : x = y := by
  obtain ⟨u, hu⟩ := Int.dvd_of_emod_eq_zero h1
  obtain ⟨v, hv⟩ := Int.dvd_of_emod_eq_zero h2
  have e : x - y = m * (u - v) := by rw [Int.mul_sub, ← hu, ← hv]; omega
  have : x - y = 0 := Int.eq_zero_of_abs_lt_dvd (m := m) ⟨_, e⟩ (by rw [abs_lt]; omega)
  omega

section
variable {P : Par} {E : Ext} {d len : Nat} {seed pkb : List U8} {t : Fin P.k → Fin 512 → Nat} {a : Fin P.k → Fin P.l → RPoly}

/-- The game's outcome of an attempt is released exactly if the code's is, and as the same bytes. -/
theorem attempt_shows (hν : 0 < q / 2 ^ P.νw) (hpk : IsPkOf P seed t pkb) (hA : IsMatrixOf E seed a) {s : Fin P.l → Fin 512 → Int} {msg ent : List U8} {n : Nat} {c : List U8} {h z : List Int}
    (g : IsAttempt P E d pkb s msg ent n c h z) {w : Commitment P.k P.νw} (hw : w = signerW P.νw hν a (ephemeralR P E d ent n) (ephemeralE P E d ent n)) (b : List U8) :
    ReleasedAs P a (fun r i => (t r i : ZMod q)) (challengeMap P E) len (w, hashOracle P E (digestOf P E pkb msg, w),
      some fun j x => negacyclicZ (s j) (challengeMap P E (hashOracle P E (digestOf P E pkb msg, w))) x + ephemeralR P E d ent n j x) b ↔
    Acceptable P len c h z ∧ IsSigEncoding c h z len b := by
  obtain ⟨seed', t', a', cp, w', hpk', hA', hc, hw', hch, l1, l2, hz, hh, hb⟩ := g
  obtain ⟨rfl, rfl⟩ := hpk.unique hpk'
  obtain rfl := hA.unique hA'
  have e1 : (fun r i => (w r i).val) = w' := by rw [hw, hw']; rfl
  have e2 : (hashOracle P E (digestOf P E pkb msg, w)).val = c := by
    rw [hch, ← e1]; rfl
  generalize hashOracle P E (digestOf P E pkb msg, w) = C at e2 ⊢
  subst e2
  have e3 : challengeMap P E C = cp := challengeMap_of hc
  have e1' : ∀ r i, (w r i).val = w' r i := fun r i => congrFun (congrFun e1 r) i
  unfold ReleasedAs
  simp only [e3, e1', ← hz]
  constructor
  · rintro ⟨h', z', l1', l2', hz', hh', hb', k1, k2⟩
    obtain rfl : z = z' := unflatten_ext P.l z z' l2 l2' fun r i => congrFun (congrFun (Option.some.inj hz') r) i
    obtain rfl : h = h' := unflatten_ext P.k h h' l1 l1' fun r i => centered_unique (hh r i) (hh' r i) (hb _ (mem_unflatten r i l1)) (hb' _ (mem_unflatten r i l1'))
    exact ⟨k1, k2⟩
  · rintro ⟨k1, k2⟩
    exact ⟨h, z, l1, l2, rfl, hh, hb, k1, k2⟩

end

section
variable {P : Par} {B : ApiAttacker P} {entropy : Nat → List U8} {ans : List (List U8)} {cnt : Nat → Nat}

theorem attemptsMade_succ (i : Nat) : attemptsMade B entropy ans cnt (i + 1) = attemptsMade B entropy ans cnt i ++
    (match B.next (ans.take i) with | .sign _ => (List.range (cnt i + 1)).map fun n => (entropy i, n) | _ => []) := by
  unfold attemptsMade
  rw [List.range_succ, List.flatMap_append, List.flatMap_singleton]
  rfl

theorem attemptsMade_prefix {i j : Nat} (h : i ≤ j) : attemptsMade B entropy ans cnt i <+: attemptsMade B entropy ans cnt j := by
  induction j with
  | zero => obtain rfl : i = 0 := by omega
            exact List.prefix_rfl
  | succ j ih =>
    rcases Nat.lt_or_ge i (j + 1) with h1 | h1
    · rw [attemptsMade_succ]
      exact (ih (by omega)).trans (List.prefix_append _ _)
    · obtain rfl : i = j + 1 := by omega
      exact List.prefix_rfl

theorem attemptsMade_get {i r m : Nat} {msg : List U8} (hi : i < m) (hs : B.next (ans.take i) = .sign msg) (hr : r ≤ cnt i) :
    (attemptsMade B entropy ans cnt m)[(attemptsMade B entropy ans cnt i).length + r]? = some (entropy i, r) := by
  have h1 : (attemptsMade B entropy ans cnt (i + 1))[(attemptsMade B entropy ans cnt i).length + r]? = some (entropy i, r) := by
    rw [attemptsMade_succ, hs, List.getElem?_append_right (by omega), Nat.add_sub_cancel_left]
    simp only [List.getElem?_map]
    rw [List.getElem?_range (by omega)]
    rfl
  obtain ⟨rest, e⟩ := attemptsMade_prefix (B := B) (entropy := entropy) (ans := ans) (cnt := cnt) (show i + 1 ≤ m from hi)
  rw [← e, List.getElem?_append_left]
  · exact h1
  · exact (List.getElem?_eq_some_iff.1 h1).1

end

section
variable {P : Par} {a : Fin P.k → Fin P.l → RPoly} {t : Fin P.k → RPoly} {ch : HashVal P → Fin 512 → Int} {len : Nat}

theorem heard_snoc (B : ApiAttacker P) (v : List (Outcome P.k P.l P.νw (HashVal P))) (o : Outcome P.k P.l P.νw (HashVal P)) :
    B.heard P a t ch len (v ++ [o]) = B.hear P a t ch len (B.heard P a t ch len v) o := by
  unfold ApiAttacker.heard
  rw [List.foldl_append]; rfl

theorem hear_prefix (B : ApiAttacker P) (x : List (List U8)) (o : Outcome P.k P.l P.νw (HashVal P)) : x <+: B.hear P a t ch len x o := by
  unfold ApiAttacker.hear
  split
  · split
    · exact List.prefix_append _ _
    · exact List.prefix_rfl
  · exact List.prefix_append _ _
  · exact List.prefix_rfl

theorem heard_prefix (B : ApiAttacker P) (v : List (Outcome P.k P.l P.νw (HashVal P))) (n : Nat) : B.heard P a t ch len (v.take n) <+: B.heard P a t ch len v := by
  conv => rhs; rw [← List.take_append_drop n v]
  generalize v.take n = x
  generalize v.drop n = y
  induction y using List.reverseRecOn with
  | nil => rw [List.append_nil]
  | append_singleton y o ih =>
    rw [← List.append_assoc, heard_snoc]
    exact ih.trans (hear_prefix _ _ _)

theorem hear_one {B : ApiAttacker P} {x : List (List U8)} {o : Outcome P.k P.l P.νw (HashVal P)} {msg b : List U8} (hs : B.next x = .sign msg)
    (h : ∀ b', ReleasedAs P a t ch len o b' ↔ b' = b) : B.hear P a t ch len x o = x ++ [b] := by
  unfold ApiAttacker.hear
  rw [hs]
  have hx : ∃ b', ReleasedAs P a t ch len o b' := ⟨b, (h b).2 rfl⟩
  simp only [dif_pos hx]
  rw [(h _).1 hx.choose_spec]

theorem hear_none {B : ApiAttacker P} {x : List (List U8)} {o : Outcome P.k P.l P.νw (HashVal P)} {msg : List U8} (hs : B.next x = .sign msg)
    (h : ∀ b, ¬ ReleasedAs P a t ch len o b) : B.hear P a t ch len x o = x := by
  unfold ApiAttacker.hear
  rw [hs]
  have hx : ¬ ∃ b', ReleasedAs P a t ch len o b' := fun ⟨b, hb⟩ => h b hb
  simp only [dif_neg hx]

end

section
variable {P : Par} {E : Ext} {d len : Nat} {seed pkb : List U8} {t : Fin P.k → Fin 512 → Nat} {a : Fin P.k → Fin P.l → RPoly}

theorem exchange_phase (hν : 0 < q / 2 ^ P.νw) (hd : ValidShares d) (hpk : IsPkOf P seed t pkb) (hA : IsMatrixOf E seed a) (s : Fin P.l → Fin 512 → Int) (entropy : Nat → List U8)
    (B : ApiAttacker P) (ans : List (List U8)) (cnt : Nat → Nat) (hrel : Releases P E d len pkb s entropy B ans cnt)
    (hhash : ∀ i (hi : i < ans.length) x w, B.next (ans.take i) = .hash x w → ans[i] = (hashOracle P E (x, w)).val)
    (hgo : ∀ i, i < ans.length → B.next (ans.take i) ≠ .stop) (M N : Nat) (hN : (attemptsMade B entropy ans cnt ans.length).length ≤ N)
    (hM : (attemptsMade B entropy ans cnt ans.length).length + ans.length ≤ M) (G : List (Outcome P.k P.l P.νw (HashVal P)))
    (hG : G = freeGame (B.free P a (fun r i => (t r i : ZMod q)) (challengeMap P E) len hν (digestOf P E pkb)) M N hν a s (challengeMap P E) (hashOracle P E)
      (exchangeTable P E d (attemptsMade B entropy ans cnt ans.length) N)) (i : Nat) (hi : i ≤ ans.length) :
    ∃ n, n ≤ (attemptsMade B entropy ans cnt i).length + i ∧ B.heard P a (fun r i => (t r i : ZMod q)) (challengeMap P E) len (G.take n) = ans.take i ∧
      signCount (G.take n) = (attemptsMade B entropy ans cnt i).length := by
  obtain ⟨hl, hp⟩ := freeGame_spec (M := M) (N := N) (B.free P a (fun r i => (t r i : ZMod q)) (challengeMap P E) len hν (digestOf P E pkb)) hν a s (challengeMap P E) (hashOracle P E)
    (exchangeTable P E d (attemptsMade B entropy ans cnt ans.length) N)
  rw [← hG] at hl hp
  induction i with
  | zero => exact ⟨0, Nat.zero_le _, rfl, rfl⟩
  | succ i ih =>
    obtain ⟨n, hn, h1, h2⟩ := ih (by omega)
    have hlen : (attemptsMade B entropy ans cnt (i + 1)).length ≤ (attemptsMade B entropy ans cnt ans.length).length := (attemptsMade_prefix hi).length_le
    have hans : ans.take (i + 1) = ans.take i ++ [ans[i]] := List.take_succ_eq_append_getElem (by omega)
    cases hq : B.next (ans.take i) with
    | stop => exact absurd hq (hgo i (by omega))
    | hash x w =>
      have e0 : attemptsMade B entropy ans cnt (i + 1) = attemptsMade B entropy ans cnt i := by rw [attemptsMade_succ, hq, List.append_nil]
      rw [e0] at hlen ⊢
      have hnM : n < M := by omega
      have g := (hp n hnM (by omega)).2 (by
        unfold FreeAttacker.asksToSign ApiAttacker.free
        simp only [h1, hq, Bool.false_and])
      have g2 : G[n] = (w, hashOracle P E (x, w), none) := by
        rw [g]
        unfold ApiAttacker.free
        simp only [h1, hq]
      refine ⟨n + 1, by omega, ?_, ?_⟩
      · rw [List.take_succ_eq_append_getElem (by omega), heard_snoc, h1, hans, hhash i (by omega) x w hq, g2]
        unfold ApiAttacker.hear
        rw [hq]
      · rw [List.take_succ_eq_append_getElem (by omega), g2]
        unfold signCount at h2 ⊢
        rw [List.countP_append, h2]; rfl
    | sign msg =>
      obtain ⟨⟨c, h, z, k1, k2, k3⟩, hrej⟩ := hrel i (by omega) msg hq
      have e0 : (attemptsMade B entropy ans cnt (i + 1)).length = (attemptsMade B entropy ans cnt i).length + (cnt i + 1) := by
        rw [attemptsMade_succ, hq, List.length_append, List.length_map, List.length_range]
      rw [e0] at hlen ⊢
      -- one attempt
      have step : ∀ n r, n < M → r ≤ cnt i → B.heard P a (fun r i => (t r i : ZMod q)) (challengeMap P E) len (G.take n) = ans.take i →
          signCount (G.take n) = (attemptsMade B entropy ans cnt i).length + r →
          signCount (G.take (n + 1)) = (attemptsMade B entropy ans cnt i).length + (r + 1) ∧
          ∃ o, B.heard P a (fun r i => (t r i : ZMod q)) (challengeMap P E) len (G.take (n + 1)) = B.hear P a (fun r i => (t r i : ZMod q)) (challengeMap P E) len (ans.take i) o ∧
            ∃ w, w = signerW P.νw hν a (ephemeralR P E d (entropy i) r) (ephemeralE P E d (entropy i) r) ∧ o = (w, hashOracle P E (digestOf P E pkb msg, w),
              some fun j x => negacyclicZ (s j) (challengeMap P E (hashOracle P E (digestOf P E pkb msg, w))) x + ephemeralR P E d (entropy i) r j x) := by
        intro n r hn hr h1 h2
        obtain ⟨hc, g⟩ := (hp n hn (by omega)).1 (by
          unfold FreeAttacker.asksToSign ApiAttacker.free
          simp only [h1, hq, Bool.true_and]
          exact decide_eq_true (by rw [h2]; omega))
        obtain ⟨r1, r2⟩ := table_rows (P := P) (E := E) hd (fun n : Fin N => ((attemptsMade B entropy ans cnt ans.length)[n.val]?.getD ([], 0)).1)
          (fun n : Fin N => ((attemptsMade B entropy ans cnt ans.length)[n.val]?.getD ([], 0)).2) ⟨_, hc⟩
        have hrow : (attemptsMade B entropy ans cnt ans.length)[signCount (G.take n)]? = some (entropy i, r) := by
          rw [h2]; exact attemptsMade_get (by omega) hq hr
        simp only [hrow, Option.getD_some] at r1 r2
        unfold exchangeTable at g
        rw [r1, r2] at g
        have hdig : (B.free P a (fun r i => (t r i : ZMod q)) (challengeMap P E) len hν (digestOf P E pkb)).digest (G.take n) = digestOf P E pkb msg := by
          unfold ApiAttacker.free
          simp only [h1, hq]
        rw [hdig] at g
        rw [List.take_succ_eq_append_getElem (by omega)]
        refine ⟨?_, G[n], by rw [heard_snoc, h1], _, rfl, g⟩
        unfold signCount at h2 ⊢
        rw [List.countP_append, h2, g]; rfl
      have inner : ∀ r, r ≤ cnt i → B.heard P a (fun r i => (t r i : ZMod q)) (challengeMap P E) len (G.take (n + r)) = ans.take i ∧
          signCount (G.take (n + r)) = (attemptsMade B entropy ans cnt i).length + r := by
        intro r
        induction r with
        | zero => intro _; exact ⟨h1, h2⟩
        | succ r ihr =>
          intro hr
          obtain ⟨i1, i2⟩ := ihr (by omega)
          obtain ⟨j1, o, j2, w, j3, j4⟩ := step (n + r) r (by omega) (by omega) i1 i2
          obtain ⟨c', h', z', g1, g2⟩ := hrej r (by omega)
          refine ⟨?_, j1⟩
          rw [← Nat.add_assoc, j2]
          refine hear_none hq fun b hb => ?_
          rw [j4] at hb
          exact g2 ((attempt_shows hν hpk hA g1 j3 b).1 hb).1
      obtain ⟨i1, i2⟩ := inner (cnt i) le_rfl
      obtain ⟨j1, o, j2, w, j3, j4⟩ := step (n + cnt i) (cnt i) (by omega) le_rfl i1 i2
      refine ⟨n + cnt i + 1, by omega, ?_, j1⟩
      rw [j2, hans]
      refine hear_one hq fun b => ?_
      rw [j4]
      refine (attempt_shows hν hpk hA k1 j3 b).trans ⟨fun hb => hb.2.unique k3, ?_⟩
      rintro rfl
      exact ⟨k2, k3⟩

/-- In the game of an exchange the attacker hears the answers of the exchange. -/
theorem exchange_heard (hν : 0 < q / 2 ^ P.νw) (hd : ValidShares d) (hpk : IsPkOf P seed t pkb) (hA : IsMatrixOf E seed a) (s : Fin P.l → Fin 512 → Int) (entropy : Nat → List U8)
    (B : ApiAttacker P) (ans : List (List U8)) (cnt : Nat → Nat) (hrel : Releases P E d len pkb s entropy B ans cnt)
    (hhash : ∀ i (hi : i < ans.length) x w, B.next (ans.take i) = .hash x w → ans[i] = (hashOracle P E (x, w)).val)
    (hgo : ∀ i, i < ans.length → B.next (ans.take i) ≠ .stop) (hstop : B.next ans = .stop) (M N : Nat) (hN : (attemptsMade B entropy ans cnt ans.length).length ≤ N)
    (hM : (attemptsMade B entropy ans cnt ans.length).length + ans.length ≤ M) :
    B.heard P a (fun r i => (t r i : ZMod q)) (challengeMap P E) len
      (freeGame (B.free P a (fun r i => (t r i : ZMod q)) (challengeMap P E) len hν (digestOf P E pkb)) M N hν a s (challengeMap P E) (hashOracle P E)
        (exchangeTable P E d (attemptsMade B entropy ans cnt ans.length) N)) = ans := by
  obtain ⟨n, -, h1, -⟩ := exchange_phase hν hd hpk hA s entropy B ans cnt hrel hhash hgo M N hN hM _ rfl ans.length le_rfl
  rw [List.take_length] at h1
  have key : ∀ G : List (Outcome P.k P.l P.νw (HashVal P)), B.heard P a (fun r i => (t r i : ZMod q)) (challengeMap P E) len (G.take n) = ans →
      B.heard P a (fun r i => (t r i : ZMod q)) (challengeMap P E) len G = ans := by
    intro G h1
    conv => lhs; rw [← List.take_append_drop n G]
    generalize G.take n = x at *
    generalize G.drop n = y
    induction y using List.reverseRecOn with
    | nil => rw [List.append_nil]; exact h1
    | append_singleton y o ih =>
      rw [← List.append_assoc, heard_snoc, ih]
      unfold ApiAttacker.hear
      rw [hstop]
  exact key _ h1

end

end Raccoon
