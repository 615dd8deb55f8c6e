import Verif.Proofs.Norms
import Verif.Props.Sig
/-!
# The norm check: C32, and the rest of C31
-/
namespace Raccoon
attribute [-instance] Monoid.toNPow

theorem par_bounds (P : Par) (hP : P = raccoon128 ∨ P = raccoon192 ∨ P = raccoon256) :
    P.νw = 44 ∧ P.νt = 42 ∧ P.Binf.toNat < 70368744177664 ∧ 35184372088832 ≤ P.Binf.toNat ∧ P.k ≤ 9 ∧ 0 < P.k ∧ P.l ≤ 7 ∧ 0 < P.l ∧ 14656575897 ≤ P.B22.toNat ∧ P.κ % 8 = 0 ∧ 0 < P.κ := by
  rcases hP with rfl | rfl | rfl <;> decide

/-- C32: for each parameter set, every hint vector of int64 values (other than INT64_MIN, see below) and every response vector in the
centered range, `check_bounds` returns true exactly when the specified bounds hold over the integers. -/
theorem C32_decides (P : Par) (hP : P = raccoon128 ∨ P = raccoon192 ∨ P = raccoon256) (s : Sig) (hhl : s.h.length = P.k * 512) (hzl : s.z.length = P.l * 512)
    (hh : ∀ x ∈ s.h, -9223372036854775808 < x ∧ x ≤ 9223372036854775807) (hz : ∀ x ∈ s.z, x.natAbs ≤ (q - 1) / 2) :
    s.checkBounds P.νw P.Binf P.B22 = .ok (decide (NormsOK P.νw P.Binf.toNat P.B22.toNat s.h s.z)) := by
  obtain ⟨h1, -, h2, -, h3, -, h4, -⟩ := par_bounds P hP
  have h46 : (2 : Nat) ^ 46 = 70368744177664 := by norm_num
  rw [h1]
  refine checkBounds_eq P.Binf P.B22 (by omega) s (fun x hx => ?_) (by omega) (fun x hx => ?_) (by omega)
  · have := hh x hx; rw [pow63]; omega
  · have := hz x hx
    have hq : q = 549824583172097 := rfl
    omega

/-- C32: `std::abs(INT64_MIN)` is undefined. -/
theorem C32_int64_min (c : List U8) (z : List Int) (νw : Nat) (Binf B22 : U64) (t : List Int) :
    Sig.checkBounds νw Binf B22 ⟨c, -9223372036854775808 :: t, z⟩ = .ub := by
  have e : hNormStep ((0 : U64), (0 : U64)) (-9223372036854775808) = .ub := by
    unfold hNormStep i64
    rw [if_neg (by rw [pow63Z]; omega)]; rfl
  unfold Sig.checkBounds
  dsimp only
  rw [List.foldlM_cons, e]
  rfl

theorem sqSum_zero (n : Nat) : sqSum (List.replicate n 0) = 0 := by
  induction n with
  | zero => rfl
  | succ n ih => rw [List.replicate_succ]; show 0 * 0 + sqSum _ = 0; rw [ih]

theorem scaledSqSum_zero (n : Nat) : scaledSqSum (List.replicate n 0) = 0 := by
  induction n with
  | zero => rfl
  | succ n ih => rw [List.replicate_succ]; show 0 / 2 ^ 32 * (0 / 2 ^ 32) + scaledSqSum _ = 0; rw [ih, Nat.zero_div]

/-- The signature with zero hints and the single non-zero response coefficient 30·2^40. -/
def bigSig (P : Par) (c : List U8) : Sig := ⟨c, List.replicate (P.k * 512) 0, 32985348833280 :: List.replicate (P.l * 512 - 1) 0⟩

theorem bigSig_norms (P : Par) (hP : P = raccoon128 ∨ P = raccoon192 ∨ P = raccoon256) (c : List U8) :
    NormsOK P.νw P.Binf.toNat P.B22.toNat (bigSig P c).h (bigSig P c).z := by
  obtain ⟨-, -, -, h2, -, -, -, -, h5, -⟩ := par_bounds P hP
  refine ⟨?_, ?_, ?_⟩
  · intro x hx
    replace hx : x ∈ List.replicate (P.k * 512) (0 : Int) := hx
    rw [List.mem_replicate] at hx
    rw [hx.2]; exact Nat.zero_le _
  · intro x hx
    rcases List.mem_cons.1 hx with rfl | hx
    · show 32985348833280 ≤ _; omega
    · rw [List.mem_replicate] at hx
      rw [hx.2]; exact Nat.zero_le _
  · show _ * sqSum (List.replicate _ 0) + (32985348833280 / 2 ^ 32 * (32985348833280 / 2 ^ 32) + scaledSqSum (List.replicate _ 0)) ≤ _
    rw [sqSum_zero, scaledSqSum_zero, pow32]; omega

/-- C31: there are signatures inside the norm bounds of each parameter set, for every hash value, whose encoding would fit in the
signature length, on which `to_bytes` is undefined: the norm bound does not imply encodability. -/
theorem C31_norms_allow (P : Par) (hP : P = raccoon128 ∨ P = raccoon192 ∨ P = raccoon256) (c : List U8) (hc : c.length = 2 * P.κ / 8) (buf : List U8)
    (hb : buf.length = P.sigLen) :
    ∃ s : Sig, s.cHash = c ∧ s.h.length = P.k * 512 ∧ s.z.length = P.l * 512 ∧ s.checkBounds P.νw P.Binf P.B22 = .ok true ∧
      8 * c.length + (sigBits s.h s.z).length ≤ 8 * buf.length ∧ s.toBytes buf = .ub := by
  have h40 : (2 : Nat) ^ 40 = 1099511627776 := by norm_num
  obtain ⟨h1, -, -, h2, h3, h3', h4, h4', h5, -⟩ := par_bounds P hP
  have hl1 : (bigSig P c).h.length = P.k * 512 := List.length_replicate
  have hl2 : (bigSig P c).z.length = P.l * 512 := by
    show (32985348833280 :: List.replicate (P.l * 512 - 1) (0 : Int)).length = _
    rw [List.length_cons, List.length_replicate]; omega
  have hlen : ∀ n, ((List.replicate n (0 : Int)).flatMap hintBits).length = n := by
    intro n
    induction n with
    | zero => rfl
    | succ n ih => rw [List.replicate_succ, List.flatMap_cons, List.length_append, ih, hintBits_length]; simp; omega
  have hlen2 : ∀ n, ((List.replicate n (0 : Int)).flatMap respBits).length = 41 * n := by
    intro n
    induction n with
    | zero => rfl
    | succ n ih => rw [List.replicate_succ, List.flatMap_cons, List.length_append, ih, respBits_length]; simp; omega
  have hfit : 8 * c.length + (sigBits (bigSig P c).h (bigSig P c).z).length ≤ 8 * buf.length := by
    show 8 * c.length + ((List.replicate (P.k * 512) (0 : Int)).flatMap hintBits ++ (32985348833280 :: List.replicate (P.l * 512 - 1) (0 : Int)).flatMap respBits).length ≤ _
    rw [List.length_append, hlen, List.flatMap_cons, List.length_append, hlen2, respBits_length, hc, hb, h40]
    rw [show (32985348833280 : Int).natAbs / 1099511627776 = 30 by decide, if_neg (by decide)]
    rcases hP with rfl | rfl | rfl <;> decide
  refine ⟨bigSig P c, rfl, hl1, hl2, ?_, hfit, ?_⟩
  · rw [C32_decides P hP _ hl1 hl2 ?_ ?_, decide_eq_true (bigSig_norms P hP c)]
    · intro x hx
      replace hx : x ∈ List.replicate (P.k * 512) (0 : Int) := hx
      rw [List.mem_replicate] at hx
      omega
    · have hq : q = 549824583172097 := rfl
      intro x hx
      rcases List.mem_cons.1 hx with rfl | hx
      · show 32985348833280 ≤ _; omega
      · rw [List.mem_replicate] at hx
        rw [hx.2]; exact Nat.zero_le _
  · refine C31_large_undefined c _ _ buf 32985348833280 (List.mem_cons_self) ?_ hfit
    rw [h40]; decide

/-- C32: the check is not constant: the all-zero signature passes and one with a hint of 3 fails. -/
theorem C32_example (P : Par) (hP : P = raccoon128 ∨ P = raccoon192 ∨ P = raccoon256) (c : List U8) :
    Sig.checkBounds P.νw P.Binf P.B22 ⟨c, List.replicate (P.k * 512) 3, List.replicate (P.l * 512) 0⟩ = .ok false := by
  have hq : q = 549824583172097 := rfl
  have h44 : (2 : Nat) ^ 44 = 17592186044416 := by norm_num
  obtain ⟨h1, -, hB, h2, h3, h3', h4, h4', h5, -⟩ := par_bounds P hP
  rw [C32_decides P hP _ List.length_replicate List.length_replicate, decide_eq_false]
  · intro hn
    have hn1 := hn.1 3 (by show 3 ∈ List.replicate (P.k * 512) (3 : Int); rw [List.mem_replicate]; exact ⟨by omega, rfl⟩)
    rw [h1, h44] at hn1
    replace hn1 : 3 ≤ _ := hn1
    have : P.Binf.toNat < 52776558133248 := by rcases hP with rfl | rfl | rfl <;> decide
    omega
  · intro x hx
    replace hx : x ∈ List.replicate (P.k * 512) (3 : Int) := hx
    rw [List.mem_replicate] at hx
    omega
  · intro x hx
    replace hx : x ∈ List.replicate (P.l * 512) (0 : Int) := hx
    rw [List.mem_replicate] at hx
    rw [hx.2]; exact Nat.zero_le _

end Raccoon
