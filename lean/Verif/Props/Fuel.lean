import Verif.Spec.Budget
import Verif.Proofs.Fuel
import Verif.Props.Demo
/-!
# C55: every operation has one outcome; the iteration budget of the model is not observable
-/
namespace Raccoon
attribute [-instance] Monoid.toNPow

theorem budgetFree_of {f : Nat → Res α} (h : ∀ n m, n ≤ m → (f n).Le (f m)) : BudgetFree f := by
  have key : ∀ n, f n ≠ .nofuel → EndsWith f (f n) := by
    intro n hn
    refine ⟨hn, n, fun m hm => ?_⟩
    rcases h n m hm with e | e
    · exact absurd e hn
    · exact e.symm
  refine ⟨?_, key⟩
  by_cases hd : ∀ n, f n = .nofuel
  · exact Or.inl hd
  · obtain ⟨n, hn⟩ := not_forall.1 hd
    exact Or.inr ⟨_, key n hn⟩

/-- An operation ends with at most one outcome. -/
theorem EndsWith.unique {f : Nat → Res α} {r r' : Res α} (h : EndsWith f r) (h' : EndsWith f r') : r = r' := by
  obtain ⟨-, N, h⟩ := h
  obtain ⟨-, N', h'⟩ := h'
  exact (h (max N N') (le_max_left _ _)).symm.trans (h' _ (le_max_right _ _))

/-- C55: key generation, signing, verification, refreshing, saving and loading a key have one outcome each, fixed by their arguments and the entropy
they are given; how the loops are budgeted does not matter. -/
theorem C55_api (P : Par) (uts : List Nat) (E : Ext) (d : Nat) (sk : SKey P.k P.l d) (pk : PKey P.k) (entropy seed msg sig buf : List U8) :
    BudgetFree (fun fuel => Api.generate P uts E fuel d entropy seed) ∧
    BudgetFree (fun fuel => Api.sign P E fuel d sk entropy msg buf) ∧
    BudgetFree (fun fuel => Api.verify P E fuel pk msg sig) ∧
    BudgetFree (fun fuel => Api.refresh P E fuel sk) ∧
    BudgetFree (fun fuel => Api.skAsBytes P E fuel sk entropy buf) ∧
    BudgetFree (fun fuel => Api.skFromBytes P E fuel d buf) :=
  ⟨budgetFree_of fun _ _ h => generate_le h P uts E d entropy seed, budgetFree_of fun _ _ h => sign_le h P E d sk entropy msg buf,
    budgetFree_of fun _ _ h => verify_le h P E pk msg sig, budgetFree_of fun _ _ h => refresh_le h P E sk,
    budgetFree_of fun _ _ h => skAsBytes_le h P E sk entropy buf, budgetFree_of fun _ _ h => skFromBytes_le h P E d buf⟩

/-- C55: the same for the samplers. -/
theorem C55_samplers (E : Ext) (d k l ω idx : Nat) (m : Mrng d) (hdr seed cHash : List U8) (a : MPoly d) :
    BudgetFree (fun fuel => Poly.sampleQ E fuel hdr seed) ∧ BudgetFree (fun fuel => Poly.chalPoly E fuel ω cHash) ∧
    BudgetFree (fun fuel => Poly.samplePolynomial E fuel idx m) ∧ BudgetFree (fun fuel => PMat.expandA E fuel k l seed) ∧
    BudgetFree (fun fuel => MPoly.zeroEncoding E fuel m) ∧ BudgetFree (fun fuel => MPoly.refresh E fuel a m) :=
  ⟨budgetFree_of fun _ _ h => sampleQ_le h E hdr seed, budgetFree_of fun _ _ h => chalPoly_le h E ω cHash,
    budgetFree_of fun _ _ h => samplePolynomial_le h E idx m, budgetFree_of fun _ _ h => expandA_le h E k l seed,
    budgetFree_of fun _ _ h => zeroEncoding_le h E m, budgetFree_of fun _ _ h => mrefresh_le h E a m⟩

/-- C55: two runs of `sign` with the same key object, entropy and message that finish return the same bytes, whatever their budgets. -/
theorem C55_sign_deterministic (P : Par) (E : Ext) (d : Nat) (sk : SKey P.k P.l d) (entropy msg buf b b' : List U8) (fuel fuel' : Nat)
    (h : Api.sign P E fuel d sk entropy msg buf = .ok b) (h' : Api.sign P E fuel' d sk entropy msg buf = .ok b') : b = b' := by
  have e := (C55_api P [] E d sk sk.pkey entropy [] msg [] buf).2.1.2
  have e1 := e fuel (by dsimp only; rw [h]; exact nofun)
  have e2 := e fuel' (by dsimp only; rw [h']; exact nofun)
  have := e1.unique e2
  dsimp only at this
  rw [h, h'] at this
  exact Res.ok.inj this

/-- Both cases of `BudgetFree` occur: with the toy functions generation and signing end with a value; with streams of 0xff bytes the
uniform sampler rejects for ever. -/
example (entropy0 seed entropy2 msg : List U8) (hseed : seed.length = 16) :
    ∃ (sk0 sk2 : SKey 5 4 2) (b : List U8), EndsWith (fun fuel => Api.generate raccoon128 (utTableOf raccoon128) demoE fuel 2 entropy0 seed) (.ok sk0) ∧
      EndsWith (fun fuel => Api.sign raccoon128 demoE fuel 2 sk2 entropy2 msg (List.replicate 11524 0)) (.ok b) := by
  obtain ⟨sk0, sk1, sk2, skb, b, h0, -, -, -, -, -, hs, -⟩ := demo_run entropy0 seed [] entropy2 msg hseed
  refine ⟨sk0, sk2, b, ?_, ?_⟩
  · have := (C55_api raccoon128 (utTableOf raccoon128) demoE 2 sk2 sk2.pkey entropy0 seed [] [] []).1.2 512 (by dsimp only; rw [h0]; exact nofun)
    dsimp only at this
    rw [h0] at this
    exact this
  · have := (C55_api raccoon128 (utTableOf raccoon128) demoE 2 sk2 sk2.pkey entropy2 seed msg [] (List.replicate 11524 0)).2.1.2 512 (by dsimp only; rw [hs]; exact nofun)
    dsimp only at this
    rw [hs] at this
    exact this

example (hdr seed : List U8) : Diverges (fun fuel => Poly.sampleQ ⟨fun _ _ => 0, fun _ _ => 0xff, id, id, 0⟩ fuel hdr seed) := by
  intro n
  dsimp only
  rw [sampleQ_eq, if_neg]
  have : accepted (fun _ => (0xff : U8)) n = [] := by
    unfold accepted
    rw [List.filter_eq_nil_iff]
    intro x hx
    obtain ⟨j, -, rfl⟩ := List.mem_map.1 hx
    rw [decide_eq_true_eq]
    show ¬ qWord (fun _ => (0xff : U8)) j < q
    unfold qWord streamWord
    exact (by decide +kernel : ¬ leVal ((List.range 7).map fun _ => (0xff : U8)) % 2 ^ 49 < q)
  show ¬ 512 ≤ (accepted (fun _ => (0xff : U8)) n).length
  rw [this]
  decide

end Raccoon
