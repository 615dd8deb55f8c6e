import Verif.Props.Progress
/-!
# C25 for the API, and loading of arbitrary byte strings
-/
namespace Raccoon
attribute [-instance] Monoid.toNPow

/-! ### C25: the API, and arbitrary byte strings -/

/-- Coefficient (row `r`, index `c`) of the share stored in the bytes of a secret key for `d` shares: the 49-bit field number `512·r + c` after the
public key and the `d − 1` seeds. -/
def skField (P : Par) (d : Nat) (b : List U8) (r c : Nat) : Nat :=
  bitsVal (((bytesBits (b.drop (PKey.byteLen P.κ P.k P.νt + (d - 1) * (P.κ / 8)))).drop (49 * (512 * r + c))).take 49)

theorem skFrom_cases (E : Ext) (fuel : Nat) {κ k l d : Nat} (h8 : κ % 8 = 0) (hd : 0 < d) (b : List U8) (hb : b.length = SKey.byteLen κ k l d 42) :
    (SKey.fromBytes E fuel κ k l d 42 b).Safe (fun sk => PKey.fromBytes κ k 42 (b.take (PKey.byteLen κ k 42)) = .ok sk.pkey ∧
      sk.pkey.seed.length = κ / 8 ∧ PVec.Below 128 sk.pkey.t ∧
      (∀ r (hr : r < l) c (hc : c < 512), (sk.s[r][0][c]).raw.toNat =
        bitsVal (((bytesBits (b.drop (PKey.byteLen κ k 42 + (d - 1) * (κ / 8)))).drop (49 * (512 * r + c))).take 49)) ∧
      ∀ r (hr : r < l) j (hj : j < d), 0 < j → sk.s[r][j] = Poly.zero) := by
  have hl := hb
  rw [skLen k l d h8] at hl
  unfold SKey.fromBytes
  dsimp only
  rw [pkLen k h8, subspan_ok (by omega), Res.ok_bind]
  obtain ⟨pk, e1, g1, g2, -⟩ := C24_encode_decode κ k h8 (b.take (κ / 8 + 448 * k)) (by rw [pkLen k h8, List.length_take]; omega)
  rw [List.drop_zero, e1, Res.ok_bind, subspan_ok (by omega), Res.ok_bind]
  have hs := maskDecompress_spec E fuel (l := l) (sc := (b.drop (κ / 8 + 448 * k)).take (b.length - (κ / 8 + 448 * k))) h8 hd
    (by rw [List.length_take, List.length_drop]; omega)
  refine Res.Safe.bind hs ?_
  rintro s ⟨s1, s2⟩
  refine ⟨rfl, g1, g2, ?_, s2⟩
  intro r hr c hc
  have := s1 r hr c hc
  rw [show (b.drop (κ / 8 + 448 * k)).take (b.length - (κ / 8 + 448 * k)) = b.drop (κ / 8 + 448 * k) from
    List.take_of_length_le (by rw [List.length_drop]), List.drop_drop] at this
  exact this

theorem skFrom_total (E : Ext) (fuel : Nat) {κ k l d : Nat} (h8 : κ % 8 = 0) (hd : 0 < d)
    (hq : ∀ hdr seed : List U8, hdr.length = 8 → seed.length = κ / 8 → ∃ p, Poly.sampleQ E fuel hdr seed = .ok p)
    (b : List U8) (hb : b.length = SKey.byteLen κ k l d 42) : ∃ sk, SKey.fromBytes E fuel κ k l d 42 b = .ok sk := by
  have hl := hb
  rw [skLen k l d h8] at hl
  unfold SKey.fromBytes
  dsimp only
  rw [pkLen k h8, subspan_ok (by omega), Res.ok_bind]
  obtain ⟨pk, e1, -⟩ := C24_encode_decode κ k h8 (b.take (κ / 8 + 448 * k)) (by rw [pkLen k h8, List.length_take]; omega)
  rw [List.drop_zero, e1, Res.ok_bind, subspan_ok (by omega), Res.ok_bind]
  have hL : ((b.drop (κ / 8 + 448 * k)).take (b.length - (κ / 8 + 448 * k))).length = (d - 1) * (κ / 8) + 3136 * l := by
    rw [List.length_take, List.length_drop]; omega
  obtain ⟨s, e⟩ := maskDecompress_ok E fuel (l := l) h8 hd hL (by
    intro j h1 h2 r _
    refine hq _ _ rfl ?_
    have := seed_bound (m := κ / 8) h1 h2
    rw [List.length_take, List.length_drop, hL]
    omega)
  exact ⟨_, by rw [e, Res.ok_bind]⟩

/-- C25: loading a secret key from *any* byte string of the right length is defined. The public key is the one the first bytes load to, share 0 has
the stored 49-bit fields as coefficients, the other shares are zero, and the key is well-formed exactly if all those fields are below q — which
the library does not check. -/
theorem C25_any_bytes (P : Par) (hP : P = raccoon128 ∨ P = raccoon192 ∨ P = raccoon256) (E : Ext) (fuel d : Nat) (hd : ValidShares d) (b : List U8)
    (hb : b.length = SKey.byteLen P.κ P.k P.l d P.νt) :
    Api.skFromBytes P E fuel d b ≠ .ub ∧
    ∀ sk, Api.skFromBytes P E fuel d b = .ok sk →
      Api.pkFromBytes P (b.take (PKey.byteLen P.κ P.k P.νt)) = .ok sk.pkey ∧
      (∀ r (hr : r < P.l) c (hc : c < 512), (sk.s[r][0]'hd.pos)[c].raw.toNat = skField P d b r c) ∧
      (∀ r (hr : r < P.l) j (hj : j < d), 0 < j → sk.s[r][j] = Poly.zero) ∧
      (sk.WF P ↔ ∀ r < P.l, ∀ c < 512, skField P d b r c < q) := by
  obtain ⟨-, w2, -, -, -, -, -, -, -, h8, -⟩ := par_bounds P hP
  rw [w2] at hb
  have key := skFrom_cases E fuel h8 hd.pos b hb
  unfold Api.skFromBytes Api.pkFromBytes skField
  rw [w2]
  refine ⟨key.ne_ub, fun sk e => ?_⟩
  rw [e] at key
  obtain ⟨k1, k2, k3, k4, k5⟩ := key
  refine ⟨k1, k4, k5, ?_, ?_⟩
  · intro h r hr c hc
    rw [← k4 r hr c hc]
    exact h.s r hr 0 hd.pos c hc
  · intro h
    refine ⟨⟨k2, k3⟩, ?_⟩
    intro r hr j hj i hi
    rcases Nat.eq_zero_or_pos j with rfl | h0
    · show _ < q
      rw [k4 r hr i hi]
      exact h r hr i hi
    · rw [k5 r hr j hj h0]
      show (Poly.zero[i]).Can
      unfold Poly.zero
      rw [Vector.getElem_replicate]
      exact q_pos

/-- C25 for the API: whatever the entropy, the buffer and the budgets, serialising and loading a well-formed key gives a well-formed key with the same
public key, the same secret vector, and (d = 1) the same object; the serialised public key part loads to the public key. -/
theorem C25_api (P : Par) (hP : P = raccoon128 ∨ P = raccoon192 ∨ P = raccoon256) (E : Ext) (fuel fuel' d : Nat) (hd : ValidShares d)
    (sk : SKey P.k P.l d) (hsk : sk.WF P) (entropy buf : List U8) (hb : buf.length = SKey.byteLen P.κ P.k P.l d P.νt) :
    Api.skAsBytes P E fuel sk entropy buf ≠ .ub ∧
    ∀ b, Api.skAsBytes P E fuel sk entropy buf = .ok b →
      b.length = SKey.byteLen P.κ P.k P.l d P.νt ∧
      Api.pkFromBytes P (b.take (PKey.byteLen P.κ P.k P.νt)) = .ok sk.pkey ∧
      ∀ sk', Api.skFromBytes P E fuel' d b = .ok sk' →
        sk'.pkey = sk.pkey ∧ sk'.WF P ∧ PVec.val sk'.s = PVec.val sk.s ∧ (d = 1 → sk' = sk) := by
  obtain ⟨-, w2, -, -, -, -, -, -, -, h8, -⟩ := par_bounds P hP
  rw [w2] at hb ⊢
  have rt := C25_round_trip E fuel fuel P.κ P.k P.l d h8 hd.pos (Nat.le_refl _) sk hsk.pkey.seed hsk.pkey.t hsk.s buf hb (Prng.new E entropy)
  constructor
  · unfold Api.skAsBytes
    rw [w2]
    intro h
    generalize sk.toBytes E fuel P.κ 42 buf (Prng.new E entropy) = r at *
    cases r with
    | ok a => cases h
    | ub => exact rt.1 rfl
    | nofuel => cases h
  · intro b e
    unfold Api.skAsBytes at e
    rw [w2] at e
    obtain ⟨⟨b', p'⟩, e1, e2⟩ := Res.bind_eq_ok.1 e
    obtain rfl : b' = b := Res.ok.inj e2
    obtain ⟨l1, sk1, f1, g1, g2, g3, g4⟩ := rt.2 b' p' e1
    refine ⟨l1, ?_, ?_⟩
    · have key := skFrom_cases E fuel h8 hd.pos b' l1
      rw [f1] at key
      unfold Api.pkFromBytes
      rw [w2, key.1, g1]
    · intro sk' e'
      unfold Api.skFromBytes at e'
      rw [w2] at e'
      obtain rfl := skFromBytes_det E _ _ P.κ P.k P.l d h8 hd.pos b' l1 sk1 sk' f1 e'
      refine ⟨g1, ⟨by rw [g1]; exact hsk.pkey, g2⟩, g3, fun h => ?_⟩
      have h4 := g4 h
      cases sk1; cases sk
      simp only at g1 h4
      rw [g1, h4]

/-- The library loads secret keys that are not well-formed: the all-ones byte string, for each parameter set and number of shares. -/
theorem C25_unchecked (P : Par) (hP : P = raccoon128 ∨ P = raccoon192 ∨ P = raccoon256) (E : Ext) (fuel d : Nat) (hd : ValidShares d)
    (sk : SKey P.k P.l d) (h : Api.skFromBytes P E fuel d (List.replicate (SKey.byteLen P.κ P.k P.l d P.νt) 0xff) = .ok sk) : ¬ sk.WF P := by
  have hl : 0 < P.l := by rcases hP with rfl | rfl | rfl <;> decide
  have key := ((C25_any_bytes P hP E fuel d hd _ (by rw [List.length_replicate])).2 sk h).2.2.2
  rw [key]
  intro hc
  have := hc 0 hl 0 (by omega)
  revert this
  obtain ⟨-, w2, -, -, -, -, -, -, -, h8, -⟩ := par_bounds P hP
  unfold skField
  rw [w2, skLen _ _ _ h8, pkLen _ h8, List.drop_replicate, Nat.mul_zero, List.drop_zero]
  have hb : ∀ n, bytesBits (List.replicate n (0xff : U8)) = List.replicate (8 * n) true := by
    intro n
    induction n with
    | zero => rfl
    | succ n ih =>
      rw [List.replicate_succ, bytesBits, ih, Nat.mul_succ, Nat.add_comm, List.replicate_add]
      rfl
  rw [hb, List.take_replicate, Nat.min_eq_left (by omega), bitsVal_replicate_true]
  decide

/-- Non-vacuity of C25_unchecked: with the toy sampler the all-ones string is loaded, for two shares. -/
example : ∃ sk, Api.skFromBytes raccoon128 toyE 512 2 (List.replicate (SKey.byteLen 128 5 4 2 42) 0xff) = .ok sk ∧ ¬ sk.WF raccoon128 := by
  have hv : ValidShares 2 := ⟨1, by omega, rfl⟩
  obtain ⟨sk, e⟩ := skFrom_total toyE 512 (κ := 128) (k := 5) (l := 4) (d := 2) (by omega) (by omega) (fun hdr seed _ _ => toyE_sampleQ hdr seed)
    (List.replicate (SKey.byteLen 128 5 4 2 42) 0xff) (by rw [List.length_replicate])
  exact ⟨sk, e, C25_unchecked raccoon128 (Or.inl rfl) toyE 512 2 hv sk e⟩

end Raccoon
