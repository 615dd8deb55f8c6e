import Verif.Model.Extra
import Verif.Spec.OneSeed
import Verif.Props.DemoLike
/-!
# C79: one seed, one stream

The two calls that draw secrets, `generate` and `sign`, each open a generator on fresh entropy and then read it in the same way, with the same labels. Nothing but the
entropy keeps their outputs apart.
-/
namespace Raccoon
attribute [-instance] Monoid.toNPow
open Finset

/-- C79: a default-constructed generator is the generator seeded with the 32 bytes of the first eight words of the random device. -/
theorem C79_device (E : Ext) (rd : Nat → U32) : Prng.newDefault E rd = .ok (Prng.new E (deviceSeed rd)) ∧ (deviceSeed rd).length = 32 := by
  have hb : ∀ v : U32, (List.range 4).map (fun i => (v >>> (i * 8)).setWidth 8) = leBytes 4 v.toNat := by
    intro v
    rw [leBytes_eq_map]
    refine List.map_congr_left fun i _ => ?_
    apply BitVec.eq_of_toNat_eq
    rw [BitVec.toNat_setWidth, BitVec.toNat_ushiftRight, BitVec.toNat_ofNat, Nat.shiftRight_eq_div_pow]
  refine ⟨?_, by simp [deviceSeed]⟩
  unfold Prng.newDefault
  simp only [hb]
  have key : ∀ n ≤ 8, (List.range' 0 n 4).foldlM (fun (s : List U8 × Nat) off => do
      let seed ← writeSpan s.1 off (leBytes 4 (rd s.2).toNat)
      Res.ok (seed, s.2 + 1)) (List.replicate 32 0, 0) =
      Res.ok ((List.range n).flatMap (fun i => leBytes 4 (rd i).toNat) ++ List.replicate (32 - 4 * n) 0, n) := by
    intro n
    induction n with
    | zero => intro _; rfl
    | succ n ih =>
      intro hn
      rw [List.range'_concat, List.foldlM_append, ih (by omega), Res.ok_bind, List.foldlM_cons]
      dsimp only
      have hpre : ((List.range n).flatMap fun i => leBytes 4 (rd i).toNat).length = 4 * n := by simp [Nat.mul_comm]
      rw [List.range_succ, List.flatMap_append]
      simp only [List.flatMap_cons, List.flatMap_nil, List.append_nil]
      generalize ((List.range n).flatMap fun i => leBytes 4 (rd i).toNat) = pre at hpre
      unfold writeSpan
      rw [if_pos (by simp [hpre]; omega), leBytes_length, List.take_append_of_le_length (by omega), List.take_of_length_le (by omega),
        List.drop_append, List.drop_of_length_le (by omega), hpre, List.drop_replicate, List.nil_append,
        show 32 - 4 * n - (0 + 4 * n + 4 - 4 * n) = 32 - 4 * (n + 1) by omega]
      rfl
  have := key 8 (by omega)
  unfold forLoop
  rw [show (32 - 0 + 4 - 1) / 4 = 8 from rfl, this]
  show Res.ok (Prng.new E (_ ++ [])) = _
  rw [List.append_nil]
  rfl

/-- C79: the seed determines the eight words, and no later word matters. -/
theorem C79_device_seed_iff (rd rd' : Nat → U32) : deviceSeed rd = deviceSeed rd' ↔ ∀ i < 8, rd i = rd' i := by
  constructor
  · intro h
    have key : ∀ n, ((List.range n).flatMap fun i => leBytes 4 (rd i).toNat) = ((List.range n).flatMap fun i => leBytes 4 (rd' i).toNat) → ∀ i < n, rd i = rd' i := by
      intro n
      induction n with
      | zero => intro _ i hi; omega
      | succ n ih =>
        intro h i hi
        rw [List.range_succ, List.flatMap_append, List.flatMap_append] at h
        obtain ⟨h1, h2⟩ := List.append_inj h (by simp)
        rcases Nat.lt_succ_iff_lt_or_eq.1 hi with hi | rfl
        · exact ih h1 i hi
        · simp only [List.flatMap_cons, List.flatMap_nil, List.append_nil] at h2
          have := congrArg leVal h2
          rw [leVal_leBytes, leVal_leBytes, Nat.mod_eq_of_lt (rd i).isLt, Nat.mod_eq_of_lt (rd' i).isLt] at this
          exact BitVec.eq_of_toNat_eq this
    exact key 8 h
  · intro h
    unfold deviceSeed
    rw [List.flatMap_def, List.flatMap_def]
    congr 1
    exact List.map_congr_left fun i hi => by rw [h i (List.mem_range.1 hi)]

theorem streamWord_one (s : Nat → U8) (c : Nat) : streamWord s 1 c = (s c).toNat := by
  unfold streamWord
  simp [leVal]

theorem streamWord_low (s : Nat → U8) (n c : Nat) (hn : 0 < n) : streamWord s n c % 256 = (s (n * c)).toNat := by
  obtain ⟨n, rfl⟩ : ∃ m, n = m + 1 := ⟨n - 1, by omega⟩
  unfold streamWord
  rw [List.range_succ_eq_map, List.map_cons, leVal]
  have := (s ((n + 1) * c + 0)).isLt
  rw [Nat.add_zero] at *
  omega

/-- Noise of width `u` ≤ 8 (one byte per coefficient) and noise of a larger width `u'` read from one stream position with one vector index: coefficient `x` of the wide one
agrees in its low `u` bits with coefficient b·x of the narrow one, b the bytes per wide coefficient. -/
theorem C79_noise_overlap (E : Ext) (u u' κ d rep n : Nat) (hu : 0 < u) (hu8 : u ≤ 8) (hle : u ≤ u') (s : Nat → U8) (pos : Nat) (j : Fin n) (x y : Fin 512)
    (hy : y.val = (u' + 7) / 8 * x.val) :
    ((2 ^ u : Nat) : Int) ∣ noiseVec E u' κ d rep n s pos j x - noiseVec E u κ d rep n s pos j y := by
  unfold noiseVec totalNoise
  rw [← Finset.sum_sub_distrib]
  refine Finset.dvd_sum fun r _ => ?_
  rw [← Finset.sum_sub_distrib]
  refine Finset.dvd_sum fun sidx _ => ?_
  unfold noiseAt
  dsimp only
  generalize E.shake256 _ = st
  rw [show (u + 7) / 8 = 1 by omega, streamWord_one, hy]
  have hlow := streamWord_low st ((u' + 7) / 8) x.val (by omega)
  have d1 : ((2 ^ u : Nat) : Int) ∣ ((st ((u' + 7) / 8 * x.val)).toNat : Int) - ((st ((u' + 7) / 8 * x.val)).toNat : Int).bmod (2 ^ u) := Int.dvd_self_sub_bmod
  have d2 : ((2 ^ u' : Nat) : Int) ∣ ((streamWord st ((u' + 7) / 8) x.val : Nat) : Int) - ((streamWord st ((u' + 7) / 8) x.val : Nat) : Int).bmod (2 ^ u') := Int.dvd_self_sub_bmod
  have d2' : ((2 ^ u : Nat) : Int) ∣ _ := (Int.natCast_dvd_natCast.2 (Nat.pow_dvd_pow 2 hle)).trans d2
  have d3 : ((2 ^ u : Nat) : Int) ∣ ((streamWord st ((u' + 7) / 8) x.val : Nat) : Int) - ((st ((u' + 7) / 8 * x.val)).toNat : Int) := by
    refine (Int.natCast_dvd_natCast.2 (Nat.pow_dvd_pow 2 hu8)).trans ?_
    rw [show (2 : Nat) ^ 8 = 256 from rfl]
    omega
  have := (d3.sub d2').add d1
  convert this using 1
  ring


theorem widths_of {P : Par} (hP : P = raccoon128 ∨ P = raccoon192 ∨ P = raccoon256) {d : Nat} (hd : ValidShares d) :
    0 < utOf P.κ d ∧ utOf P.κ d ≤ 7 ∧ utOf P.κ d ≤ uwOf d := by
  obtain ⟨m, hm, rfl⟩ := hd
  obtain rfl | rfl | rfl | rfl | rfl | rfl : m = 0 ∨ m = 1 ∨ m = 2 ∨ m = 3 ∨ m = 4 ∨ m = 5 := by omega
  all_goals rcases hP with rfl | rfl | rfl <;> decide

/-- C79: a key generated and a first signing attempt made from the same entropy: coefficient `x` of the ephemeral response mask has the low bits of coefficient b·x of the
secret, and the ephemeral error those of the key's error, b = 5 or 6 the bytes of randomness a signing coefficient takes. -/
theorem C79_secret_in_ephemeral (P : Par) (hP : P = raccoon128 ∨ P = raccoon192 ∨ P = raccoon256) (E : Ext) (d : Nat) (hd : ValidShares d) (entropy : List U8)
    (x y : Fin 512) (hy : y.val = (uwOf d + 7) / 8 * x.val) :
    (∀ j, ((2 ^ utOf P.κ d : Nat) : Int) ∣ ephemeralR P E d entropy 0 j x - keySecret P E d entropy j y) ∧
    ∀ r, ((2 ^ utOf P.κ d : Nat) : Int) ∣ ephemeralE P E d entropy 0 r x - keyError P E d entropy r y := by
  obtain ⟨w1, w2, w3⟩ := widths_of hP hd
  constructor
  · intro j
    unfold ephemeralR keySecret
    rw [Nat.zero_mul]
    exact C79_noise_overlap E _ _ _ _ _ _ w1 (by omega) w3 _ _ j x y hy
  · intro r
    unfold ephemeralE keyError
    rw [Nat.zero_mul, Nat.zero_add]
    exact C79_noise_overlap E _ _ _ _ _ _ w1 (by omega) w3 _ _ r x y hy

/-- C79: if `sign` runs on the entropy the key was generated from and its first attempt is released, every b-th coefficient of the secret is a linear function of the signature
and the challenge multiple of the secret, modulo 2^ut: z_j[x] ≡ (c·s_j)[x] + s_j[b·x]. -/
theorem C79_same_entropy (P : Par) (hP : P = raccoon128 ∨ P = raccoon192 ∨ P = raccoon256) (E : Ext) (fuel0 fuel d : Nat) (hd : ValidShares d)
    (entropy seed : List U8) (hseed : seed.length = P.κ / 8) (sk0 sk : SKey P.k P.l d) (h0 : Api.generate P (utTableOf P) E fuel0 d entropy seed = .ok sk0)
    (hder : SKey.Derived P E sk0 sk) (pkBuf pkb : List U8) (hpl : pkBuf.length = PKey.byteLen P.κ P.k P.νt) (hpk : Api.pkAsBytes P (Api.getPkey P sk0) pkBuf = .ok pkb)
    (msg buf b : List U8) (h : Api.sign P E fuel d sk entropy msg buf = .ok b) :
    ∃ (n : Nat) (c : List U8) (hint z : List Int) (cI : Fin 512 → Int), IsSigEncoding c hint z buf.length b ∧ IsChallengeOf E P.ω c cI ∧
      (∀ i < n, ∃ c' h' z', IsAttempt P E d pkb (keySecret P E d entropy) msg entropy i c' h' z' ∧ Rejected P buf.length c' h' z') ∧
      (n = 0 → ∀ (j : Fin P.l) (x y : Fin 512), y.val = (uwOf d + 7) / 8 * x.val →
        ((2 ^ utOf P.κ d : Nat) : Int) ∣ unflatten P.l z j x - (negacyclicZ (keySecret P E d entropy j) cI x + keySecret P E d entropy j y)) := by
  obtain ⟨n, c, hint, z, g1, -, g3, g4⟩ := C36_wire P hP E fuel0 fuel d hd entropy seed hseed sk0 sk h0 hder pkBuf pkb hpl hpk entropy msg buf b h
  obtain ⟨_, t, a, cI, w, -, -, i3, -, -, -, -, i8, -⟩ := g1
  refine ⟨n, c, hint, z, cI, g3, i3, g4, fun hn j x y hy => ?_⟩
  subst hn
  rw [i8]
  have := (C79_secret_in_ephemeral P hP E d hd entropy x y hy).1 j
  convert this using 1
  ring

/-- Non-vacuity: a run of `generate` and `sign` on one and the same entropy in which the first attempt is released, so the congruence holds of the signature `sign` returns. -/
example : ∃ (sk0 : SKey 5 4 2) (b c : List U8) (h z : List Int) (cI : Fin 512 → Int),
    Api.generate raccoon128 (utTableOf raccoon128) demoE 512 2 (deviceSeed fun _ => 5) (List.replicate 16 3) = .ok sk0 ∧
    Api.sign raccoon128 demoE 512 2 sk0 (deviceSeed fun _ => 5) [1, 2, 3] (List.replicate 11524 0) = .ok b ∧ IsSigEncoding c h z 11524 b ∧
    ∀ (j : Fin 4) (x y : Fin 512), y.val = 6 * x.val →
      (64 : Int) ∣ unflatten 4 z j x - (negacyclicZ (keySecret raccoon128 demoE 2 (deviceSeed fun _ => 5) j) cI x + keySecret raccoon128 demoE 2 (deviceSeed fun _ => 5) j y) := by
  obtain ⟨sk0, pkb, h0, hpk, hrun⟩ := demo_like.toy_run (deviceSeed fun _ => 5) (List.replicate 16 3) List.length_replicate
  obtain ⟨b, c, h, z, e, g1, g3, -⟩ := hrun (deviceSeed fun _ => 5) [1, 2, 3]
  obtain ⟨_, t, a, cI, w, -, -, i3, -, -, -, -, i8, -⟩ := g1
  refine ⟨sk0, b, c, h, z, cI, h0, e, g3, fun j x y hy => ?_⟩
  have i8' := congrFun (congrFun i8 j) x
  have := (C79_secret_in_ephemeral raccoon128 (Or.inl rfl) demoE 2 demo_d (deviceSeed fun _ => 5) x y hy).1 j
  have e64 : ((2 ^ utOf raccoon128.κ 2 : Nat) : Int) = 64 := by decide
  rw [e64] at this
  have i8'' : unflatten 4 z j x = _ := i8'
  rw [i8'']
  convert this using 1
  exact add_sub_add_left_eq_sub _ _ _

end Raccoon
