import Verif.Proofs.Bytes
import Verif.Model.Api
import Mathlib.Data.List.Basic
/-!
# C42–C46: parameter validation, byte lengths, byte helpers (`utility/params.hpp`, `utility/utils.hpp`)
-/
namespace Raccoon
attribute [-instance] Monoid.toNPow

/-! ### C42 -/

/-- Rows of the published tables: (𝜅, k, l, d, 𝑢t, 𝜈t, rep). -/
def keygenRows : List (U64 × U64 × U64 × U64 × U64 × U64 × U64) :=
  [(128,5,4,1,6,42,8), (128,5,4,2,6,42,4), (128,5,4,4,6,42,2), (128,5,4,8,5,42,4), (128,5,4,16,5,42,2), (128,5,4,32,4,42,4),
   (192,7,5,1,7,42,8), (192,7,5,2,7,42,4), (192,7,5,4,7,42,2), (192,7,5,8,6,42,4), (192,7,5,16,6,42,2), (192,7,5,32,5,42,4),
   (256,9,7,1,6,42,8), (256,9,7,2,6,42,4), (256,9,7,4,6,42,2), (256,9,7,8,5,42,4), (256,9,7,16,5,42,2), (256,9,7,32,4,42,4)]

/-- The masking-dependent part of the signing tables: (d, 𝑢w, rep). -/
def signMaskRows : List (U64 × U64 × U64) := [(1,41,8), (2,41,4), (4,41,2), (8,40,4), (16,40,2), (32,39,4)]

/-- The level-dependent part: (𝜅, k, l, 𝜈w, 𝜈t, 𝜔, signature bytes, Binf, B22). -/
def levelRows : List (U64 × U64 × U64 × U64 × U64 × U64 × U64 × U64 × U64) :=
  [(128,5,4,44,42,19,11524,41954689765971,14656575897),
   (192,7,5,44,42,31,14544,47419426657048,24964497408),
   (256,9,7,44,42,44,20330,50958538642039,38439957299)]

theorem isPowerOf2_iff (v : U64) : isPowerOf2 v = true ↔ v = 0 ∨ ∃ m, m < 64 ∧ v = BitVec.ofNat 64 (2 ^ m) := by
  unfold isPowerOf2
  rw [beq_iff_eq]
  by_cases h0 : v = 0
  · subst h0; simp
  · have hn : v.toNat ≠ 0 := fun hh => h0 (BitVec.eq_of_toNat_eq hh)
    have hv := v.isLt
    have e : (v - 1).toNat = v.toNat - 1 := by
      rw [BitVec.toNat_sub]
      have : (1 : U64).toNat = 1 := rfl
      rw [this]
      generalize v.toNat = x at *
      rw [pow64] at *; omega
    have e2 : v &&& (v - 1) = 0 ↔ v.toNat &&& (v.toNat - 1) = 0 := by
      constructor
      · intro h
        have := congrArg BitVec.toNat h
        rw [BitVec.toNat_and, e] at this; exact this
      · intro h
        apply BitVec.eq_of_toNat_eq
        rw [BitVec.toNat_and, e, h]; rfl
    rw [e2, Nat.and_sub_one_eq_zero_iff_isPowerOfTwo hn]
    constructor
    · rintro ⟨m, hm⟩
      have hm64 : m < 64 := by
        rw [hm] at hv
        exact (Nat.pow_lt_pow_iff_right (by norm_num)).1 hv
      refine Or.inr ⟨m, hm64, ?_⟩
      apply BitVec.eq_of_toNat_eq
      rw [BitVec.toNat_ofNat, ← hm, Nat.mod_eq_of_lt hv]
    · rintro (h | ⟨m, hm, h⟩)
      · exact absurd h h0
      · refine ⟨m, ?_⟩
        rw [h, BitVec.toNat_ofNat, Nat.mod_eq_of_lt (Nat.pow_lt_pow_right (by norm_num) hm)]

theorem isDValid_iff (d : U64) : isDValid d = true ↔ d ∈ ([1, 2, 4, 8, 16, 32] : List U64) := by
  constructor
  · intro h
    unfold isDValid at h
    simp only [Bool.and_eq_true, decide_eq_true_eq] at h
    obtain ⟨⟨h1, h2⟩, h3⟩ := h
    rw [isPowerOf2_iff] at h2
    rcases h2 with rfl | ⟨m, hm, rfl⟩
    · exact absurd h1 (by decide)
    · revert h3
      have : ∀ m, m < 64 → BitVec.ofNat 64 (2 ^ m) ≤ 32 → BitVec.ofNat 64 (2 ^ m) ∈ ([1, 2, 4, 8, 16, 32] : List U64) := by
        decide +kernel
      exact this m hm
  · intro h
    simp only [List.mem_cons, List.not_mem_nil, or_false] at h
    rcases h with rfl | rfl | rfl | rfl | rfl | rfl <;> decide

/-- C42: key generation arguments are accepted iff they are a row of the tables. -/
theorem C42_keygen_args (κ k l d ut νt rep : U64) :
    validateKeygenArgs κ k l d ut νt rep = true ↔ (κ, k, l, d, ut, νt, rep) ∈ keygenRows := by
  constructor
  · intro h
    unfold validateKeygenArgs at h
    simp only [Bool.or_eq_true, Bool.and_eq_true, decide_eq_true_eq] at h
    rcases h with (h | h) | h <;> obtain ⟨⟨⟨⟨⟨⟨rfl, rfl⟩, rfl⟩, hd⟩, hu⟩, rfl⟩, hr⟩ := h <;> rw [isDValid_iff] at hd <;>
      simp only [List.mem_cons, List.not_mem_nil, or_false] at hd <;>
      rcases hd with rfl | rfl | rfl | rfl | rfl | rfl <;>
      simp [keygenSwitch] at hu hr <;> subst hu <;> subst hr <;> decide
  · intro h
    have key : keygenRows.all (fun r =>
        validateKeygenArgs r.1 r.2.1 r.2.2.1 r.2.2.2.1 r.2.2.2.2.1 r.2.2.2.2.2.1 r.2.2.2.2.2.2) = true := by decide +kernel
    exact List.all_eq_true.1 key _ h

/-- C42: signing arguments are accepted iff the level part and the masking part are rows of the tables. -/
theorem C42_sign_args (κ k l d uw νw νt rep ω sigLen Binf B22 : U64) :
    validateSignArgs κ k l d uw νw νt rep ω sigLen Binf B22 = true ↔
      (κ, k, l, νw, νt, ω, sigLen, Binf, B22) ∈ levelRows ∧ (d, uw, rep) ∈ signMaskRows := by
  constructor
  · intro h
    unfold validateSignArgs at h
    simp only [Bool.or_eq_true, Bool.and_eq_true, decide_eq_true_eq] at h
    rcases h with (h | h) | h <;>
      obtain ⟨⟨⟨⟨⟨⟨⟨⟨⟨⟨⟨rfl, rfl⟩, rfl⟩, hd⟩, hu⟩, rfl⟩, rfl⟩, hr⟩, rfl⟩, rfl⟩, rfl⟩, rfl⟩ := h <;> rw [isDValid_iff] at hd <;>
      refine ⟨by decide, ?_⟩ <;>
      simp only [List.mem_cons, List.not_mem_nil, or_false] at hd <;>
      rcases hd with rfl | rfl | rfl | rfl | rfl | rfl <;>
      simp [signSwitch] at hu hr <;> subst hu <;> subst hr <;> decide
  · rintro ⟨h1, h2⟩
    simp only [levelRows, List.mem_cons, List.not_mem_nil, or_false, Prod.mk.injEq] at h1
    simp only [signMaskRows, List.mem_cons, List.not_mem_nil, or_false, Prod.mk.injEq] at h2
    rcases h1 with ⟨rfl, rfl, rfl, rfl, rfl, rfl, rfl, rfl, rfl⟩ | ⟨rfl, rfl, rfl, rfl, rfl, rfl, rfl, rfl, rfl⟩ |
      ⟨rfl, rfl, rfl, rfl, rfl, rfl, rfl, rfl, rfl⟩ <;>
    rcases h2 with ⟨rfl, rfl, rfl⟩ | ⟨rfl, rfl, rfl⟩ | ⟨rfl, rfl, rfl⟩ | ⟨rfl, rfl, rfl⟩ | ⟨rfl, rfl, rfl⟩ | ⟨rfl, rfl, rfl⟩ <;>
    decide

/-- C42: verification arguments. -/
theorem C42_verify_args (κ k l νw νt ω sigLen Binf B22 : U64) :
    validateVerifyArgs κ k l νw νt ω sigLen Binf B22 = true ↔ (κ, k, l, νw, νt, ω, sigLen, Binf, B22) ∈ levelRows := by
  unfold validateVerifyArgs levelRows
  simp only [Bool.or_eq_true, Bool.and_eq_true, decide_eq_true_eq, List.mem_cons, List.not_mem_nil, or_false, Prod.mk.injEq,
    and_assoc, or_assoc]

/-- The parameters of a security level as template arguments. -/
def Par.row (P : Par) : U64 × U64 × U64 × U64 × U64 × U64 × U64 × U64 × U64 :=
  (BitVec.ofNat 64 P.κ, BitVec.ofNat 64 P.k, BitVec.ofNat 64 P.l, BitVec.ofNat 64 P.νw, BitVec.ofNat 64 P.νt,
   BitVec.ofNat 64 P.ω, BitVec.ofNat 64 P.sigLen, P.Binf, P.B22)

/-- C42: every public instantiation (3 levels × 6 share counts) passes all three checks, with the table entries looked up
by `log2<d>()`. -/
theorem C42_api_instances :
    ∀ Pu ∈ ([(raccoon128, utTable), (raccoon192, utTable192), (raccoon256, utTable)] : List (Par × List Nat)),
    ∀ d ∈ ([1, 2, 4, 8, 16, 32] : List U64), ∃ ut uw rep,
      tab Pu.2 d = .ok ut ∧ tab uwTable d = .ok uw ∧ tab repTable d = .ok rep ∧
      validateKeygenArgs (BitVec.ofNat 64 Pu.1.κ) (BitVec.ofNat 64 Pu.1.k) (BitVec.ofNat 64 Pu.1.l) d (BitVec.ofNat 64 ut)
        (BitVec.ofNat 64 Pu.1.νt) (BitVec.ofNat 64 rep) = true ∧
      validateSignArgs (BitVec.ofNat 64 Pu.1.κ) (BitVec.ofNat 64 Pu.1.k) (BitVec.ofNat 64 Pu.1.l) d (BitVec.ofNat 64 uw)
        (BitVec.ofNat 64 Pu.1.νw) (BitVec.ofNat 64 Pu.1.νt) (BitVec.ofNat 64 rep) (BitVec.ofNat 64 Pu.1.ω)
        (BitVec.ofNat 64 Pu.1.sigLen) Pu.1.Binf Pu.1.B22 = true ∧
      validateVerifyArgs Pu.1.row.1 Pu.1.row.2.1 Pu.1.row.2.2.1 Pu.1.row.2.2.2.1 Pu.1.row.2.2.2.2.1 Pu.1.row.2.2.2.2.2.1
        Pu.1.row.2.2.2.2.2.2.1 Pu.1.row.2.2.2.2.2.2.2.1 Pu.1.row.2.2.2.2.2.2.2.2 = true := by
  intro Pu hP d hd
  simp only [List.mem_cons, List.not_mem_nil, or_false] at hP hd
  rcases hP with rfl | rfl | rfl <;> rcases hd with rfl | rfl | rfl | rfl | rfl | rfl
  case inl.inl => exact ⟨6, 41, 8, by decide, by decide, by decide, by decide, by decide, by decide⟩
  case inl.inr.inl => exact ⟨6, 41, 4, by decide, by decide, by decide, by decide, by decide, by decide⟩
  case inl.inr.inr.inl => exact ⟨6, 41, 2, by decide, by decide, by decide, by decide, by decide, by decide⟩
  case inl.inr.inr.inr.inl => exact ⟨5, 40, 4, by decide, by decide, by decide, by decide, by decide, by decide⟩
  case inl.inr.inr.inr.inr.inl => exact ⟨5, 40, 2, by decide, by decide, by decide, by decide, by decide, by decide⟩
  case inl.inr.inr.inr.inr.inr => exact ⟨4, 39, 4, by decide, by decide, by decide, by decide, by decide, by decide⟩
  case inr.inl.inl => exact ⟨7, 41, 8, by decide, by decide, by decide, by decide, by decide, by decide⟩
  case inr.inl.inr.inl => exact ⟨7, 41, 4, by decide, by decide, by decide, by decide, by decide, by decide⟩
  case inr.inl.inr.inr.inl => exact ⟨7, 41, 2, by decide, by decide, by decide, by decide, by decide, by decide⟩
  case inr.inl.inr.inr.inr.inl => exact ⟨6, 40, 4, by decide, by decide, by decide, by decide, by decide, by decide⟩
  case inr.inl.inr.inr.inr.inr.inl => exact ⟨6, 40, 2, by decide, by decide, by decide, by decide, by decide, by decide⟩
  case inr.inl.inr.inr.inr.inr.inr => exact ⟨5, 39, 4, by decide, by decide, by decide, by decide, by decide, by decide⟩
  case inr.inr.inl => exact ⟨6, 41, 8, by decide, by decide, by decide, by decide, by decide, by decide⟩
  case inr.inr.inr.inl => exact ⟨6, 41, 4, by decide, by decide, by decide, by decide, by decide, by decide⟩
  case inr.inr.inr.inr.inl => exact ⟨6, 41, 2, by decide, by decide, by decide, by decide, by decide, by decide⟩
  case inr.inr.inr.inr.inr.inl => exact ⟨5, 40, 4, by decide, by decide, by decide, by decide, by decide, by decide⟩
  case inr.inr.inr.inr.inr.inr.inl => exact ⟨5, 40, 2, by decide, by decide, by decide, by decide, by decide, by decide⟩
  case inr.inr.inr.inr.inr.inr.inr => exact ⟨4, 39, 4, by decide, by decide, by decide, by decide, by decide, by decide⟩

/-- C42: no other share count is accepted, whatever the other arguments. -/
theorem C42_other_d_rejected (d : U64) (hd : d ∉ ([1, 2, 4, 8, 16, 32] : List U64)) :
    (∀ κ k l ut νt rep, validateKeygenArgs κ k l d ut νt rep = false) ∧
    (∀ κ k l uw νw νt rep ω sigLen Binf B22, validateSignArgs κ k l d uw νw νt rep ω sigLen Binf B22 = false) := by
  have h : isDValid d = false := by
    rw [← Bool.not_eq_true, isDValid_iff]; exact hd
  constructor
  · intros; simp [validateKeygenArgs, h]
  · intros; simp [validateSignArgs, h]

example : (3 : U64) ∉ ([1, 2, 4, 8, 16, 32] : List U64) ∧ (0 : U64) ∉ ([1, 2, 4, 8, 16, 32] : List U64) := by decide

/-! ### C43 -/

/-- C43: the same for any dimensions and share count and any security level that is a multiple of 8. -/
theorem C43_lengths_general (κ k l d : Nat) (h8 : κ % 8 = 0) :
    8 * PKey.byteLen κ k 42 = κ + 7 * (k * 512) ∧
    8 * SKey.byteLen κ k l d 42 = 8 * PKey.byteLen κ k 42 + (d - 1) * κ + 49 * (l * 512) := by
  have hq : Q_BIT_WIDTH = 49 := by decide
  unfold SKey.byteLen skeyByteLen PKey.byteLen pkeyByteLen
  rw [hq]
  obtain ⟨m, rfl⟩ : ∃ m, κ = 8 * m := ⟨κ / 8, by omega⟩
  have e : (d - 1) * (8 * m) = 8 * ((d - 1) * m) := by rw [Nat.mul_left_comm]
  generalize hx : (d - 1) * m = x at *
  constructor
  · omega
  · simp only [e]
    omega

/-- C43: the advertised lengths are exact bit counts (no division truncates): seed plus 7 bits per coefficient of `t`;
public key plus `d-1` seeds plus 49 bits per coefficient of `s`. -/
theorem C43_lengths (P : Par) (hP : P = raccoon128 ∨ P = raccoon192 ∨ P = raccoon256) (d : Nat) :
    8 * PKey.byteLen P.κ P.k P.νt = P.κ + 7 * (P.k * 512) ∧
    8 * SKey.byteLen P.κ P.k P.l d P.νt = 8 * PKey.byteLen P.κ P.k P.νt + (d - 1) * P.κ + 49 * (P.l * 512) := by
  have hq : Q_BIT_WIDTH = 49 := by decide
  unfold SKey.byteLen skeyByteLen PKey.byteLen pkeyByteLen
  rw [hq]
  rcases hP with rfl | rfl | rfl
  · have e : (raccoon128.κ, raccoon128.k, raccoon128.l, raccoon128.νt) = (128, 5, 4, 42) := rfl
    simp only [Prod.mk.injEq] at e
    rw [e.1, e.2.1, e.2.2.1, e.2.2.2]; omega
  · have e : (raccoon192.κ, raccoon192.k, raccoon192.l, raccoon192.νt) = (192, 7, 5, 42) := rfl
    simp only [Prod.mk.injEq] at e
    rw [e.1, e.2.1, e.2.2.1, e.2.2.2]; omega
  · have e : (raccoon256.κ, raccoon256.k, raccoon256.l, raccoon256.νt) = (256, 9, 7, 42) := rfl
    simp only [Prod.mk.injEq] at e
    rw [e.1, e.2.1, e.2.2.1, e.2.2.2]; omega

/-- C43: the published numbers. -/
theorem C43_published :
    PKey.byteLen 128 5 42 = 2256 ∧ PKey.byteLen 192 7 42 = 3160 ∧ PKey.byteLen 256 9 42 = 4064 ∧
    SKey.byteLen 128 5 4 1 42 = 14800 ∧ SKey.byteLen 128 5 4 32 42 = 15296 ∧
    SKey.byteLen 192 7 5 1 42 = 18840 ∧ SKey.byteLen 256 9 7 1 42 = 26016 := by decide

/-! ### C44 -/

/-- C44: reading: the first `w/8` bytes count, little-endian. -/
theorem C44_from_le_bytes (w : Nat) (h8 : 8 ∣ w) (bs : List U8) : (fromLeBytes w bs).toNat = leVal (bs.take (w / 8)) :=
  fromLeBytes_toNat bs h8

/-- C44: writing: the low `min(8, n)` bytes, the rest of the span unchanged. -/
theorem C44_to_le_bytes (v : U64) (span : List U8) :
    toLeBytes v span = leBytes (min 8 span.length) v.toNat ++ span.drop (min 8 span.length) := toLeBytes_eq v span

/-- C44: the two are inverse on up to eight bytes. -/
theorem C44_round_trip (bs span : List U8) (h : bs.length ≤ 8) (hs : span.length = bs.length) :
    toLeBytes (fromLeBytes 64 bs) span = bs ∧
    ∀ v : U64, v.toNat < 2 ^ (8 * bs.length) → fromLeBytes 64 (toLeBytes v span) = v := by
  constructor
  · rw [toLeBytes_eq, hs, Nat.min_eq_right h, List.drop_eq_nil_of_le (by omega), List.append_nil, fromLeBytes64 h, leBytes_leVal]
  · intro v hv
    rw [toLeBytes_eq, hs, Nat.min_eq_right h, List.drop_eq_nil_of_le (by omega), List.append_nil]
    apply BitVec.eq_of_toNat_eq
    rw [fromLeBytes64 (by rw [leBytes_length]; exact h), leVal_leBytes, Nat.mod_eq_of_lt hv]

example : (fromLeBytes 64 [1, 2, 255]).toNat = 1 + 2 * 256 + 255 * 65536 := by decide

/-! ### C45 -/

/-- C45: constant-time comparison of equal-length arrays: all ones iff equal, else zero. -/
theorem C45_ct_eq (a b : List U8) (hl : a.length = b.length) :
    (a = b → ctEqByteArray a b = BitVec.allOnes 32) ∧ (a ≠ b → ctEqByteArray a b = 0) := by
  have key : ∀ (a b : List U8) (acc : U32), a.length = b.length → (acc = BitVec.allOnes 32 ∨ acc = 0) →
      (a.zip b).foldl (fun res ab => res &&& ctEq8 ab.1 ab.2) acc = if acc ≠ 0 ∧ a = b then BitVec.allOnes 32 else 0 := by
    intro a
    induction a with
    | nil =>
      intro b acc hl hacc
      cases b with
      | nil => rcases hacc with rfl | rfl <;> decide
      | cons => simp at hl
    | cons x a ih =>
      intro b acc hl hacc
      cases b with
      | nil => simp at hl
      | cons y b =>
        rw [List.zip_cons_cons, List.foldl_cons, ih b _ (by simpa using hl)]
        · unfold ctEq8
          by_cases hxy : x = y
          · subst hxy
            simp only [if_true, BitVec.and_allOnes, List.cons.injEq, true_and]
          · simp only [List.cons.injEq, hxy, false_and, and_false, if_false]
            simp
        · unfold ctEq8
          split
          · rw [BitVec.and_allOnes]; exact hacc
          · right; exact BitVec.and_zero
  have h := key a b (BitVec.allOnes 32) hl (Or.inl rfl)
  unfold ctEqByteArray
  rw [h]
  constructor
  · intro hab; rw [if_pos ⟨by decide, hab⟩]
  · intro hab; rw [if_neg (fun hh => hab hh.2)]

/-! ### C46 -/

/-- C46: true exactly for powers of two and for zero (zero is wrongly accepted). -/
theorem C46_is_power_of_2 (v : U64) : isPowerOf2 v = true ↔ v.toNat = 0 ∨ ∃ m, v.toNat = 2 ^ m := by
  rw [isPowerOf2_iff]
  constructor
  · rintro (rfl | ⟨m, hm, rfl⟩)
    · left; rfl
    · right; exact ⟨m, by rw [BitVec.toNat_ofNat, Nat.mod_eq_of_lt (Nat.pow_lt_pow_right (by norm_num) hm)]⟩
  · rintro (h | ⟨m, h⟩)
    · left; exact BitVec.eq_of_toNat_eq h
    · right
      have hv := v.isLt
      have hm : m < 64 := by
        rw [h] at hv
        exact (Nat.pow_lt_pow_iff_right (by norm_num)).1 hv
      refine ⟨m, hm, ?_⟩
      apply BitVec.eq_of_toNat_eq
      rw [BitVec.toNat_ofNat, ← h, Nat.mod_eq_of_lt hv]

/-- C46: `log2` of 2^m is m. -/
theorem C46_log2 : ∀ m, m < 64 → log2v (BitVec.ofNat 64 (2 ^ m)) = m := by decide +kernel

end Raccoon
