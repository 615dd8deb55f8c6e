import Verif.Proofs.HintSize
import Verif.Props.Progress
/-!
# C53: signatures made with generated keys, over the integers

Non-vacuity: `demo_run` in `Props/Demo.lean` (and `demo_attempt`, which uses `C53_attempts`).
-/
namespace Raccoon
attribute [-instance] Monoid.toNPow
open Finset

/-- The three tables, for the share counts offered. -/
theorem tab_num {P : Par} {d rep uw ut : Nat} (hd : ValidShares d) (h1 : tab repTable (BitVec.ofNat 64 d) = .ok rep) (h2 : tab uwTable (BitVec.ofNat 64 d) = .ok uw)
    (h3 : tab (utTableOf P) (BitVec.ofNat 64 d) = .ok ut) :
    0 < uw ∧ 0 < ut ∧ rep * d * 2 ^ (uw - 1) ≤ 2 ^ 45 ∧ rep * d * 2 ^ (ut - 1) ≤ 2048 ∧ (d ≤ 4 → rep * d * 2 ^ (uw - 1) = 2 ^ 43) := by
  obtain ⟨m, hm, rfl⟩ := hd
  have h := C46_log2 m (by omega)
  unfold tab at h1 h2 h3
  rw [h] at h1 h2 h3
  have h3' : (match utTable192[m]? with | some v => Res.ok v | none => .ub) = Res.ok ut ∨ (match utTable[m]? with | some v => Res.ok v | none => .ub) = Res.ok ut := by
    unfold utTableOf at h3
    by_cases hκ : P.κ = 192
    · rw [if_pos hκ] at h3; exact Or.inl h3
    · rw [if_neg hκ] at h3; exact Or.inr h3
  clear h3
  rcases (by omega : m = 0 ∨ m = 1 ∨ m = 2 ∨ m = 3 ∨ m = 4 ∨ m = 5) with rfl | rfl | rfl | rfl | rfl | rfl <;>
  · obtain rfl := Res.ok.inj h1
    obtain rfl := Res.ok.inj h2
    rcases h3' with h3 | h3 <;> obtain rfl := Res.ok.inj h3 <;> norm_num

theorem mem_iff_unflatten {n : Nat} {x : List Int} (hx : x.length = n * 512) {y : Int} (hy : y ∈ x) : ∃ r i, y = unflatten n x r i := by
  obtain ⟨j, hj, rfl⟩ := List.getElem_of_mem hy
  refine ⟨⟨j / 512, by omega⟩, ⟨j % 512, by omega⟩, ?_⟩
  unfold unflatten
  dsimp only
  rw [List.getD_eq_getElem?_getD, show j / 512 * 512 + j % 512 = j by omega, List.getElem?_eq_getElem hj]
  rfl

theorem last_unflatten {n : Nat} {x : List Int} (hn : 0 < n) (hx : x.length = n * 512) {y : Int} (hy : x.getLast? = some y) :
    y = unflatten n x ⟨n - 1, by omega⟩ ⟨511, by omega⟩ := by
  rw [List.getLast?_eq_getElem?] at hy
  unfold unflatten
  rw [List.getD_eq_getElem?_getD]
  dsimp only
  rw [show (n - 1) * 512 + 511 = x.length - 1 by omega, hy]
  rfl

/-- C53: every signing attempt with the public vector and the secret of a generated key: the response is z = c·s + r over the integers (nothing
wraps around modulo q), where s is the generated secret, r the ephemeral noise and c the challenge with coefficients in {−1, 0, 1}; hence
|z| ≤ ω·rep·d·2^(ut−1) + rep·d·2^(uw−1); and every hint coefficient is at most 8 in absolute value. -/
theorem C53_attempts (P : Par) (hP : P = raccoon128 ∨ P = raccoon192 ∨ P = raccoon256) (E : Ext) (fuel0 fuel d : Nat) (hd : ValidShares d) (entropy0 seed : List U8)
    (sk0 : SKey P.k P.l d) (h0 : Api.generate P (utTableOf P) E fuel0 d entropy0 seed = .ok sk0) (ut rep uw : Nat)
    (e1 : tab (utTableOf P) (BitVec.ofNat 64 d) = .ok ut) (e2 : tab repTable (BitVec.ofNat 64 d) = .ok rep) (e3 : tab uwTable (BitVec.ofNat 64 d) = .ok uw)
    (A : PMat P.k P.l) (hA : PMat.expandA E fuel P.k P.l seed = .ok A) (a : Fin P.k → Fin P.l → RPoly) (ha : A.Is a) (μ : List U8) (stream : Nat → U8) (n : Nat)
    (c : List U8) (h z : List Int)
    (g : AttemptSig P E fuel d uw rep a (PVec.val sk0.pkey.t) (vecR (noiseVec E ut P.κ d rep P.l (E.shake128 entropy0) 0)) μ stream n c h z) :
    (∃ cp, Poly.chalPoly E fuel P.ω c = .ok cp ∧ (∀ i, Poly.centered cp i = -1 ∨ Poly.centered cp i = 0 ∨ Poly.centered cp i = 1) ∧
      unflatten P.l z = fun j x => negacyclicZ (noiseVec E ut P.κ d rep P.l (E.shake128 entropy0) 0 j) (Poly.centered cp) x +
        noiseVec E uw P.κ d rep P.l stream (n * ((P.l + P.k) * (rep * d * (P.κ / 8)))) j x) ∧
    (∀ x ∈ z, |x| ≤ P.ω * (rep * d * 2 ^ (ut - 1)) + rep * d * 2 ^ (uw - 1)) ∧ (∀ x ∈ h, |x| ≤ 8) := by
  obtain ⟨cp, hcp, i⟩ := g
  obtain ⟨u1, u2, n1, n2, -⟩ := tab_num hd e2 e3 e1
  obtain ⟨w1, w2, -⟩ := par_bounds P hP
  have hω : P.ω ≤ 44 := by rcases hP with rfl | rfl | rfl <;> decide
  have hwt := chal_weight hcp
  obtain ⟨ut', rep', A', a', e1', e2', hA', ha', g1, g2, g3, g4⟩ := (C37_key_generation P hP E fuel0 d hd entropy0 seed).2 sk0 h0
  obtain rfl := Res.ok.inj (e1.symm.trans e1')
  obtain rfl := Res.ok.inj (e2.symm.trans e2')
  obtain rfl : A = A' := by
    have m1 := expandA_mono (Nat.le_max_left fuel0 fuel) hA'
    have m2 := expandA_mono (Nat.le_max_right fuel0 fuel) hA
    exact Res.ok.inj (m2.symm.trans m1)
  obtain rfl := PMat.Is.unique ha ha'
  have hB : ∀ m pos (j : Fin m) x, |noiseVec E ut P.κ d rep m (E.shake128 entropy0) pos j x| ≤ ((rep * d * 2 ^ (ut - 1) : Nat) : Int) := by
    intro m pos j x
    have := totalNoise_bound E ut P.κ d rep m u2 (E.shake128 entropy0) pos j x
    push_cast; exact this
  have hG : ∀ m pos (j : Fin m) x, |noiseVec E uw P.κ d rep m stream pos j x| ≤ ((rep * d * 2 ^ (uw - 1) : Nat) : Int) := by
    intro m pos j x
    have := totalNoise_bound E uw P.κ d rep m u1 stream pos j x
    push_cast; exact this
  obtain ⟨B, hBd⟩ : ∃ B, B = rep * d * 2 ^ (ut - 1) := ⟨_, rfl⟩
  obtain ⟨G, hGd⟩ : ∃ G, G = rep * d * 2 ^ (uw - 1) := ⟨_, rfl⟩
  have p45 : (2 : Nat) ^ 45 = 35184372088832 := by norm_num
  rw [p45] at n1
  rw [← hBd] at n2 hB
  rw [← hGd] at n1 hG
  have hBω : B * P.ω ≤ 2048 * 44 := Nat.mul_le_mul n2 hω
  have hq : q = 549824583172097 := rfl
  have hint := i.integer (hB _ _) (hG _ _) hwt (by
    have : ((B : Int) * P.ω) = ((B * P.ω : Nat) : Int) := by push_cast; rfl
    rw [this]; omega)
  refine ⟨⟨cp, hcp, ?_, hint⟩, ?_, ?_⟩
  · intro y
    have := (C18_weight E fuel P.ω c cp hcp).2 y.val y.isLt
    unfold Poly.centered
    rcases this with e | e | e <;> rw [e]
    · exact Or.inr (Or.inl rfl)
    · exact Or.inr (Or.inr rfl)
    · exact Or.inl rfl
  · intro x hx
    obtain ⟨r, y, rfl⟩ := mem_iff_unflatten i.zlen hx
    rw [hint]
    have c1 : ((P.ω : Int) * (rep * d * 2 ^ (ut - 1)) + rep * d * 2 ^ (uw - 1)) = B * P.ω + G := by
      rw [hBd, hGd]; push_cast; ring
    rw [c1]
    refine le_trans (abs_add_le _ _) (add_le_add ?_ (hG _ _ _ _))
    rw [← hwt]
    exact negacyclicZ_bound (hB _ _ _) y
  · intro x hx
    obtain ⟨r, y, rfl⟩ := mem_iff_unflatten i.hlen hx
    have i' := i
    rw [w1, w2] at i'
    have hb : ((G : Int) + (B + (2 ^ 41 + (q - 125 * 2 ^ 42))) * P.ω + 4466815795201 < 14 * 17592186044416) ∧
        (G : Int) + (B + (2 ^ 41 + (q - 125 * 2 ^ 42))) * P.ω + 4466815795201 + 17592186044416 ≤ 9 * 17592186044416 := by
      have hm : ((B : Int) + (2 ^ 41 + (q - 125 * 2 ^ 42))) * P.ω ≤ 2267792541697 * 44 := by
        have h1 : (B : Int) + (2 ^ 41 + (q - 125 * 2 ^ 42)) ≤ 2267792541697 := by
          rw [hq]; norm_num; omega
        exact mul_le_mul h1 (by exact_mod_cast hω) (by omega) (by norm_num)
      omega
    have hh := i'.hint_small (e0 := noiseVec E ut P.κ d rep P.k (E.shake128 entropy0) (P.l * (rep * d * (P.κ / 8)))) (fun x y => ?_) (hB _ _) (hG _ _) hwt hb.1 r y
    · have := hb.2; clear * - hh this; omega
    · have := (g4 x.val x.isLt y.val y.isLt).2
      rw [coeffAt_rc x.isLt y.isLt, w2] at this
      rw [← this]
      unfold PVec.val
      rw [MPoly.val_one]
      rfl

/-- The secret of a derived key is the generated one. -/
theorem derived_secret {P : Par} (hP : P = raccoon128 ∨ P = raccoon192 ∨ P = raccoon256) {E : Ext} {fuel0 d : Nat} (hd : ValidShares d) {entropy0 seed : List U8}
    (hseed : seed.length = P.κ / 8) {sk0 sk : SKey P.k P.l d} (h0 : Api.generate P (utTableOf P) E fuel0 d entropy0 seed = .ok sk0) (hder : SKey.Derived P E sk0 sk) :
    sk.WF P ∧ sk.pkey = sk0.pkey ∧ ∃ ut rep, tab (utTableOf P) (BitVec.ofNat 64 d) = .ok ut ∧ tab repTable (BitVec.ofNat 64 d) = .ok rep ∧
      sk.s.IsNtt (vecR (noiseVec E ut P.κ d rep P.l (E.shake128 entropy0) 0)) := by
  obtain ⟨i1, i2, i3⟩ := C38_history P hP E d hd sk0 sk (C37_wellformed P hP E fuel0 d hd entropy0 seed hseed sk0 h0) hder
  obtain ⟨ut, rep, A, a, e1, e2, hA, ha, g1, g2, g3, g4⟩ := (C37_key_generation P hP E fuel0 d hd entropy0 seed).2 sk0 h0
  refine ⟨i1, i2, ut, rep, e1, e2, fun j => ?_⟩
  rw [i3]; exact g3 j

/-- C53: what `sign` returns with a key that was generated and then refreshed or reloaded any number of times: the encoding of (c_hash, h, z) with
z = c·s + r over the integers, s being the secret drawn from the key generation entropy and r the noise drawn from the n-th stretch of the signing
entropy, and |h| ≤ 8. -/
theorem C53_sign (P : Par) (hP : P = raccoon128 ∨ P = raccoon192 ∨ P = raccoon256) (E : Ext) (fuel0 fuel d : Nat) (hd : ValidShares d)
    (entropy0 seed : List U8) (hseed : seed.length = P.κ / 8) (sk0 sk : SKey P.k P.l d) (h0 : Api.generate P (utTableOf P) E fuel0 d entropy0 seed = .ok sk0)
    (hder : SKey.Derived P E sk0 sk) (entropy msg buf b : List U8) (h : Api.sign P E fuel d sk entropy msg buf = .ok b) :
    ∃ ut rep uw n c hint z cp, tab (utTableOf P) (BitVec.ofNat 64 d) = .ok ut ∧ tab repTable (BitVec.ofNat 64 d) = .ok rep ∧ tab uwTable (BitVec.ofNat 64 d) = .ok uw ∧
      IsSigEncoding c hint z buf.length b ∧ Poly.chalPoly E fuel P.ω c = .ok cp ∧
      (unflatten P.l z = fun j x => negacyclicZ (noiseVec E ut P.κ d rep P.l (E.shake128 entropy0) 0 j) (Poly.centered cp) x +
        noiseVec E uw P.κ d rep P.l (E.shake128 entropy) (n * ((P.l + P.k) * (rep * d * (P.κ / 8)))) j x) ∧
      (∀ x ∈ z, |x| ≤ P.ω * (rep * d * 2 ^ (ut - 1)) + rep * d * 2 ^ (uw - 1)) ∧ (∀ x ∈ hint, |x| ≤ 8) := by
  obtain ⟨i1, i2, ut, rep, e1, e2, hs⟩ := derived_secret hP hd hseed h0 hder
  have hse : sk0.pkey.seed = seed := by
    obtain ⟨_, _, _, _, _, _, _, _, g1, _⟩ := (C37_key_generation P hP E fuel0 d hd entropy0 seed).2 sk0 h0
    exact g1
  obtain ⟨uw, rep', n, c, hint, z, pkb, A, a, cp, e3, e2', f1, f2, f3, f4, f5, f6, f7⟩ := C36_signature_equations P hP E fuel d hd sk i1 _ hs entropy msg buf b h
  obtain rfl := Res.ok.inj (e2.symm.trans e2')
  rw [i2] at f7
  rw [i2, hse] at f4
  obtain ⟨⟨cp', k1, -, k2⟩, k3, k4⟩ := C53_attempts P hP E fuel0 fuel d hd entropy0 seed sk0 h0 ut rep uw e1 e2 e3 A f4 a f5 (messageHash E P.κ pkb msg) (E.shake128 entropy) n c hint z
    ⟨cp, f6, f7⟩
  exact ⟨ut, rep, uw, n, c, hint, z, cp', e1, e2, e3, f1, k1, k2, k3, k4⟩

/-- C53: with such a key, a buffer that has room for the hash, and samplers that finish, `sign` is undefined only in case of an extreme ephemeral
noise value: in some attempt a coefficient of r reaches 15·2^40, or the last one reaches 8·2^40, up to the size ω·rep·d·2^(ut−1) ≤ 90112 of c·s. -/
theorem C53_sign_defined (P : Par) (hP : P = raccoon128 ∨ P = raccoon192 ∨ P = raccoon256) (E : Ext) (fuel0 fuel d : Nat) (hd : ValidShares d)
    (entropy0 seed : List U8) (hseed : seed.length = P.κ / 8) (sk0 sk : SKey P.k P.l d) (h0 : Api.generate P (utTableOf P) E fuel0 d entropy0 seed = .ok sk0)
    (hder : SKey.Derived P E sk0 sk) (entropy msg buf : List U8) (hbuf : 2 * P.κ / 8 ≤ buf.length) (h : Api.sign P E fuel d sk entropy msg buf = .ub) :
    ∃ uw rep n, n < fuel ∧ tab uwTable (BitVec.ofNat 64 d) = .ok uw ∧ tab repTable (BitVec.ofNat 64 d) = .ok rep ∧
      ∃ (j : Fin P.l) (x : Fin 512), (15 * 2 ^ 40 - 90112 ≤ |noiseVec E uw P.κ d rep P.l (E.shake128 entropy) (n * ((P.l + P.k) * (rep * d * (P.κ / 8)))) j x| ∨
        8 * 2 ^ 40 - 90112 ≤ |noiseVec E uw P.κ d rep P.l (E.shake128 entropy) (n * ((P.l + P.k) * (rep * d * (P.κ / 8)))) j x| ∧ j.val = P.l - 1 ∧ x.val = 511) := by
  obtain ⟨i1, i2, ut, rep, e1, e2, hs⟩ := derived_secret hP hd hseed h0 hder
  have hse : sk0.pkey.seed = seed := by
    obtain ⟨_, _, _, _, _, _, _, _, g1, _⟩ := (C37_key_generation P hP E fuel0 d hd entropy0 seed).2 sk0 h0
    exact g1
  obtain ⟨w1, w2, -, -, -, -, -, w3, -⟩ := par_bounds P hP
  obtain ⟨A, f2⟩ : ∃ A, PMat.expandA E fuel P.k P.l sk.pkey.seed = .ok A := by
    cases hA : PMat.expandA E fuel P.k P.l sk.pkey.seed with
    | ok A => exact ⟨A, rfl⟩
    | ub => exact absurd hA (expandA_safe E fuel P.k P.l sk.pkey.seed).ne_ub
    | nofuel => rw [sign_expand_nofuel P hP E fuel d hd sk i1 hA] at h; cases h
  obtain ⟨uw, rep', pkb, a, e3, e2', f1, f3, hcase⟩ := sign_outcome P hP E fuel d hd sk i1 A f2 _ hs entropy msg buf
  obtain rfl := Res.ok.inj (e2.symm.trans e2')
  rw [i2, hse] at f2
  rw [i2] at hcase
  rcases hcase with ⟨n, b, -, e, -⟩ | ⟨n, hn, -, -, c, hint, z, g, -, hz⟩ | ⟨e, -⟩
  · rw [h] at e; cases e
  · obtain ⟨⟨cp, k1, -, k2⟩, -, -⟩ := C53_attempts P hP E fuel0 fuel d hd entropy0 seed sk0 h0 ut rep uw e1 e2 e3 A f2 a f3 _ _ n c hint z g
    have hwt := chal_weight k1
    have hzl : z.length = P.l * 512 := by obtain ⟨_, _, i⟩ := g; exact i.zlen
    obtain ⟨u1, u2, n1, n2, -⟩ := tab_num hd e2 e3 e1
    have hω : P.ω ≤ 44 := by rcases hP with rfl | rfl | rfl <;> decide
    have hsb : ∀ (j : Fin P.l) x, |negacyclicZ (noiseVec E ut P.κ d rep P.l (E.shake128 entropy0) 0 j) (Poly.centered cp) x| ≤ 90112 := by
      intro j x
      refine le_trans (negacyclicZ_bound (B := ((rep * d * 2 ^ (ut - 1) : Nat) : Int)) (fun y => ?_) x) ?_
      · have := totalNoise_bound E ut P.κ d rep P.l u2 (E.shake128 entropy0) 0 j y
        push_cast; exact this
      · rw [hwt]
        have : rep * d * 2 ^ (ut - 1) * P.ω ≤ 2048 * 44 := Nat.mul_le_mul n2 hω
        exact_mod_cast this
    have key : ∀ (j : Fin P.l) x (N : Int), N ≤ (unflatten P.l z j x).natAbs →
        N - 90112 ≤ |noiseVec E uw P.κ d rep P.l (E.shake128 entropy) (n * ((P.l + P.k) * (rep * d * (P.κ / 8)))) j x| := by
      intro j x N hN
      rw [k2] at hN
      have := hsb j x
      rw [Int.natCast_natAbs] at hN
      have := abs_add_le (negacyclicZ (noiseVec E ut P.κ d rep P.l (E.shake128 entropy0) 0 j) (Poly.centered cp) x)
        (noiseVec E uw P.κ d rep P.l (E.shake128 entropy) (n * ((P.l + P.k) * (rep * d * (P.κ / 8)))) j x)
      dsimp only at hN
      linarith
    refine ⟨uw, rep, n, hn, e3, e2, ?_⟩
    rcases hz with hz | ⟨x, hx, hb⟩ | ⟨x, hx, hb⟩
    · omega
    · obtain ⟨j, y, rfl⟩ := mem_iff_unflatten hzl hx
      refine ⟨j, y, Or.inl (key j y _ ?_)⟩
      exact_mod_cast hb
    · rw [last_unflatten w3 hzl hx] at hb
      refine ⟨⟨P.l - 1, by omega⟩, ⟨511, by omega⟩, Or.inr ⟨key _ _ _ ?_, rfl, rfl⟩⟩
      exact_mod_cast hb
  · rw [h] at e; cases e

end Raccoon
