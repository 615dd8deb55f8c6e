import Verif.Props.Wire
import Verif.Props.SigExact
/-!
# C34 exactly: for which byte strings `verify` accepts, rejects and is undefined

Only the public API, byte strings and the specifications `Spec/Wire.lean`, `Spec/SigWindow.lean` are mentioned.
-/
namespace Raccoon
attribute [-instance] Monoid.toNPow
open Finset

theorem par_z_two {P : Par} (hP : P = raccoon128 ∨ P = raccoon192 ∨ P = raccoon256) : 2 ≤ P.l * 512 := by rcases hP with rfl | rfl | rfl <;> decide

/-- Hints within the norm bounds are readable. -/
theorem normsOK_readable {P : Par} (hP : P = raccoon128 ∨ P = raccoon192 ∨ P = raccoon256) {h z : List Int} (hn : NormsOK P.νw P.Binf.toNat P.B22.toNat h z) : HintsReadable 0 h := by
  obtain ⟨w1, -⟩ := par_bounds P hP
  have h44 : (2 : Nat) ^ 44 = 17592186044416 := by norm_num
  have hB3 : P.Binf.toNat < 52776558133248 := by rcases hP with rfl | rfl | rfl <;> decide
  have hlen : ∀ x ∈ h, (hintBits x).length < 56 := by
    intro x hx
    have := hn.1 x hx
    rw [w1, h44] at this
    rw [hintBits_length]; split <;> omega
  refine ⟨?_, fun x hx => by have := hlen x hx; omega⟩
  have : ∀ (xs : List Int) (p : Nat), (∀ x ∈ xs, (hintBits x).length < 56) → WindowFrom hintBits p xs := by
    intro xs
    induction xs with
    | nil => intro p _; trivial
    | cons x xs ih =>
      intro p hx
      refine ⟨?_, ih _ fun y hy => hx y (List.mem_cons_of_mem _ hy)⟩
      have := hx x (List.mem_cons_self ..)
      omega
  exact this h 0 hlen

/-- C34, exactly: with a large enough sampling budget `verify` accepts a byte string if and only if it is the specified encoding of a valid
signature whose responses lie in the decoder's window. -/
theorem C34_wire_accepts_iff (P : Par) (hP : P = raccoon128 ∨ P = raccoon192 ∨ P = raccoon256) (E : Ext) (pkb : List U8)
    (hl : pkb.length = PKey.byteLen P.κ P.k P.νt) (pk : PKey P.k) (hpk : Api.pkFromBytes P pkb = .ok pk) (msg sig : List U8) :
    (∃ F, ∀ fuel, F ≤ fuel → Api.verify P E fuel pk msg sig = .ok true) ↔
      ∃ c hint z, IsSigEncoding c hint z sig.length sig ∧ WindowFrom respBits (hint.flatMap hintBits).length z ∧ ValidSig P E pkb msg c hint z := by
  obtain ⟨hwf, hip, hb⟩ := pkFromBytes_wire hP hl hpk
  constructor
  · rintro ⟨F, hF⟩
    obtain ⟨c, hint, z, pkb', A, a, cp, g1, g2, g3, g4, g5, g6, g7⟩ := (C34_accepts_iff P hP E F pk hwf msg sig).1 (hF F (Nat.le_refl _))
    obtain rfl := Res.ok.inj (hb.symm.trans g3)
    obtain ⟨l1, l2, l3, i, -, w⟩ := (C30_accept_iff _ _ _ _ _ _ _ (par_z_two hP)).1 g1
    refine ⟨c, hint, z, i, w, l1, l2, l3, g2, pk.seed, PVec.raws pk.t, a, Poly.centered cp, hip, isMatrixOf_of g4 g5, isChallengeOf_of g6, ?_⟩
    rw [toR_centered, PVec.raws_val]
    exact g7
  · rintro ⟨c, hint, z, i, w, l1, l2, l3, hn, seed, t, a, cI, h1, h2, h3, h4⟩
    obtain ⟨rfl, rfl⟩ := h1.unique hip
    have hdec : decodeSig (2 * P.κ / 8) (P.k * 512) (P.l * 512) sig = .ok (some (c, hint, z)) :=
      (C30_accept_iff _ _ _ _ _ _ _ (par_z_two hP)).2 ⟨l1, l2, l3, i, normsOK_readable hP hn, w⟩
    obtain ⟨F1, k1⟩ := h2.expandA
    obtain ⟨F2, k2⟩ := h3.chalPoly
    refine ⟨max F1 F2, fun fuel hf => ?_⟩
    obtain ⟨A, hA, ha⟩ := k1 fuel (le_trans (Nat.le_max_left _ _) hf)
    obtain ⟨cp, hcp, hct⟩ := k2 fuel (le_trans (Nat.le_max_right _ _) hf)
    refine (C34_accepts_iff P hP E fuel pk hwf msg sig).2 ⟨c, hint, z, pkb, A, a, cp, hdec, hn, hb, hA, ha, hcp, ?_⟩
    rw [hct]
    rw [PVec.raws_val] at h4
    exact h4

/-- C34, exactly: whenever `verify` answers (whatever the budget), the answer is true if and only if the bytes are the specified encoding of a
valid signature whose responses lie in the decoder's window. -/
theorem C34_wire_answer_iff (P : Par) (hP : P = raccoon128 ∨ P = raccoon192 ∨ P = raccoon256) (E : Ext) (fuel : Nat) (pkb : List U8)
    (hl : pkb.length = PKey.byteLen P.κ P.k P.νt) (pk : PKey P.k) (hpk : Api.pkFromBytes P pkb = .ok pk) (msg sig : List U8) (r : Bool)
    (h : Api.verify P E fuel pk msg sig = .ok r) :
    r = true ↔ ∃ c hint z, IsSigEncoding c hint z sig.length sig ∧ WindowFrom respBits (hint.flatMap hintBits).length z ∧ ValidSig P E pkb msg c hint z := by
  obtain ⟨hwf, -, -⟩ := pkFromBytes_wire hP hl hpk
  rw [← C34_wire_accepts_iff P hP E pkb hl pk hpk msg sig]
  constructor
  · rintro rfl
    exact ⟨fuel, fun fuel' hf => C34_budget P hP E fuel fuel' hf pk hwf msg sig true h⟩
  · rintro ⟨F, hF⟩
    have h1 := hF (max F fuel) (Nat.le_max_left _ _)
    have h2 := C34_budget P hP E fuel (max F fuel) (Nat.le_max_right _ _) pk hwf msg sig r h
    exact Res.ok.inj (h2.symm.trans h1)

/-- C34, exactly: whatever the key, the message and the budget, `verify` is undefined if and only if the signature is shorter than the hash or
its payload leads into one of the traps of `SigTrap`. -/
theorem C34_wire_undefined_iff (P : Par) (hP : P = raccoon128 ∨ P = raccoon192 ∨ P = raccoon256) (E : Ext) (fuel : Nat) (pkb : List U8)
    (hl : pkb.length = PKey.byteLen P.κ P.k P.νt) (pk : PKey P.k) (hpk : Api.pkFromBytes P pkb = .ok pk) (msg sig : List U8) :
    Api.verify P E fuel pk msg sig = .ub ↔
      sig.length < 2 * P.κ / 8 ∨ SigTrap (P.k * 512) (P.l * 512) (bytesBits (sig.drop (2 * P.κ / 8))) := by
  obtain ⟨hwf, -, -⟩ := pkFromBytes_wire hP hl hpk
  rw [C34_defined P hP E fuel pk hwf msg sig]
  by_cases hc : 2 * P.κ / 8 ≤ sig.length
  · rw [C30_undefined_iff _ _ _ _ hc (par_z_two hP)]
    exact ⟨Or.inr, fun h => h.resolve_left (by omega)⟩
  · exact ⟨fun _ => Or.inl (by omega), fun _ => decodeSig_short hc⟩

/-- C34, exactly: on every other input `verify` answers, provided that the samplers finish: it is a decision procedure for the specification. -/
theorem C34_wire_decision (P : Par) (hP : P = raccoon128 ∨ P = raccoon192 ∨ P = raccoon256) (E : Ext) (fuel : Nat) (hf : SamplersFinish P E fuel) (pkb : List U8)
    (hl : pkb.length = PKey.byteLen P.κ P.k P.νt) (pk : PKey P.k) (hpk : Api.pkFromBytes P pkb = .ok pk) (msg sig : List U8)
    (hs : 2 * P.κ / 8 ≤ sig.length) (ht : ¬ SigTrap (P.k * 512) (P.l * 512) (bytesBits (sig.drop (2 * P.κ / 8)))) :
    ∃ r, Api.verify P E fuel pk msg sig = .ok r ∧
      (r = true ↔ ∃ c hint z, IsSigEncoding c hint z sig.length sig ∧ WindowFrom respBits (hint.flatMap hintBits).length z ∧ ValidSig P E pkb msg c hint z) := by
  obtain ⟨hwf, -, -⟩ := pkFromBytes_wire hP hl hpk
  rcases C52_verify P hP E fuel hf pk hwf msg sig with ⟨r, h⟩ | h
  · exact ⟨r, h, C34_wire_answer_iff P hP E fuel pkb hl pk hpk msg sig r h⟩
  · exact absurd ((C30_undefined_iff _ _ _ _ hs (par_z_two hP)).1 h) ht

/-! ### `sign`, exactly -/

/-- Two runs of the specification that stop, at attempts `n` and `n'`, stop at the same one. -/
theorem stop_unique {P : Par} {E : Ext} {d : Nat} {pkb : List U8} {s : Fin P.l → Fin 512 → Int} {msg entropy : List U8} {L n n' : Nat}
    (r : ∀ i < n, ∃ c h z, IsAttempt P E d pkb s msg entropy i c h z ∧ Rejected P L c h z) (r' : ∀ i < n', ∃ c h z, IsAttempt P E d pkb s msg entropy i c h z ∧ Rejected P L c h z)
    {c c' : List U8} {h h' z z' : List Int} (g : IsAttempt P E d pkb s msg entropy n c h z) (g' : IsAttempt P E d pkb s msg entropy n' c' h' z')
    (k : ¬ Rejected P L c h z) (k' : ¬ Rejected P L c' h' z') : n = n' ∧ c = c' ∧ h = h' ∧ z = z' := by
  have hn : n = n' := by
    rcases Nat.lt_trichotomy n n' with hl | hl | hl
    · obtain ⟨c1, h1, z1, a1, b1⟩ := r' n hl
      obtain ⟨rfl, rfl, rfl⟩ := C52_wire_unique P E d pkb s msg entropy n _ _ _ _ _ _ g a1
      exact absurd b1 k
    · exact hl
    · obtain ⟨c1, h1, z1, a1, b1⟩ := r n' hl
      obtain ⟨rfl, rfl, rfl⟩ := C52_wire_unique P E d pkb s msg entropy n' _ _ _ _ _ _ g' a1
      exact absurd b1 k'
  subst hn
  exact ⟨rfl, C52_wire_unique P E d pkb s msg entropy n _ _ _ _ _ _ g g'⟩

/-- C52, exactly: if the samplers finish, `sign` returns `b` if and only if, within the budget, the first attempt that is not rejected is
acceptable, not trapped, and `b` is its encoding in the length of the buffer. -/
theorem C52_wire_returns_iff (P : Par) (hP : P = raccoon128 ∨ P = raccoon192 ∨ P = raccoon256) (E : Ext) (fuel0 fuel d : Nat) (hd : ValidShares d)
    (hf : SamplersFinish P E fuel) (entropy0 seed : List U8) (hseed : seed.length = P.κ / 8) (sk0 sk : SKey P.k P.l d)
    (h0 : Api.generate P (utTableOf P) E fuel0 d entropy0 seed = .ok sk0) (hder : SKey.Derived P E sk0 sk) (pkBuf pkb : List U8)
    (hpl : pkBuf.length = PKey.byteLen P.κ P.k P.νt) (hpk : Api.pkAsBytes P (Api.getPkey P sk0) pkBuf = .ok pkb) (entropy msg buf : List U8) (b : List U8) :
    Api.sign P E fuel d sk entropy msg buf = .ok b ↔ ∃ n < fuel, (∀ i < n, ∃ c h z, IsAttempt P E d pkb (keySecret P E d entropy0) msg entropy i c h z ∧ Rejected P buf.length c h z) ∧
      ∃ c h z, IsAttempt P E d pkb (keySecret P E d entropy0) msg entropy n c h z ∧ Acceptable P buf.length c h z ∧ ¬ Trapped buf.length c h z ∧ IsSigEncoding c h z buf.length b := by
  rcases C52_wire_outcome P hP E fuel0 fuel d hd entropy0 seed hseed sk0 sk h0 hder pkBuf pkb hpl hpk entropy msg buf with
    ⟨n, b', hn, e, r, c, h, z, g1, g2, g3, g4⟩ | ⟨n, hn, e, r, c, h, z, g1, g2, -⟩ | ⟨e, r⟩
  · rw [e]
    constructor
    · intro hb
      obtain rfl := Res.ok.inj hb
      exact ⟨n, hn, r, c, h, z, g1, g2, g4, g3⟩
    · rintro ⟨n', -, r', c', h', z', k1, k2, k3, k4⟩
      obtain ⟨-, rfl, rfl, rfl⟩ := stop_unique r r' g1 k1 (fun x => x.1 g2) (fun x => x.1 k2)
      rw [g3.unique k4]
  · rw [e]
    refine ⟨fun hh => (nomatch hh), ?_⟩
    rintro ⟨n', -, r', c', h', z', k1, k2, k3, k4⟩
    obtain ⟨-, rfl, rfl, rfl⟩ := stop_unique r r' g1 k1 (fun x => x.2 g2) (fun x => x.1 k2)
    exact absurd g2 k3
  · rw [e]
    refine ⟨fun hh => (nomatch hh), ?_⟩
    rintro ⟨n', hn', -, c', h', z', k1, k2, -⟩
    obtain ⟨c1, h1, z1, a1, b1⟩ := r hf n' hn'
    obtain ⟨rfl, rfl, rfl⟩ := C52_wire_unique P E d pkb _ msg entropy n' _ _ _ _ _ _ k1 a1
    exact absurd k2 b1.1

/-- C52, exactly: if the samplers finish, `sign` is undefined if and only if, within the budget, the first attempt that is not rejected is
trapped (whether or not it would have been acceptable). -/
theorem C52_wire_undefined_iff (P : Par) (hP : P = raccoon128 ∨ P = raccoon192 ∨ P = raccoon256) (E : Ext) (fuel0 fuel d : Nat) (hd : ValidShares d)
    (hf : SamplersFinish P E fuel) (entropy0 seed : List U8) (hseed : seed.length = P.κ / 8) (sk0 sk : SKey P.k P.l d)
    (h0 : Api.generate P (utTableOf P) E fuel0 d entropy0 seed = .ok sk0) (hder : SKey.Derived P E sk0 sk) (pkBuf pkb : List U8)
    (hpl : pkBuf.length = PKey.byteLen P.κ P.k P.νt) (hpk : Api.pkAsBytes P (Api.getPkey P sk0) pkBuf = .ok pkb) (entropy msg buf : List U8) :
    Api.sign P E fuel d sk entropy msg buf = .ub ↔ ∃ n < fuel, (∀ i < n, ∃ c h z, IsAttempt P E d pkb (keySecret P E d entropy0) msg entropy i c h z ∧ Rejected P buf.length c h z) ∧
      ∃ c h z, IsAttempt P E d pkb (keySecret P E d entropy0) msg entropy n c h z ∧ Trapped buf.length c h z := by
  rcases C52_wire_outcome P hP E fuel0 fuel d hd entropy0 seed hseed sk0 sk h0 hder pkBuf pkb hpl hpk entropy msg buf with
    ⟨n, b', hn, e, r, c, h, z, g1, g2, g3, g4⟩ | ⟨n, hn, e, r, c, h, z, g1, g2, -⟩ | ⟨e, r⟩
  · rw [e]
    refine ⟨fun hh => (nomatch hh), ?_⟩
    rintro ⟨n', -, r', c', h', z', k1, k2⟩
    obtain ⟨-, rfl, rfl, rfl⟩ := stop_unique r r' g1 k1 (fun x => x.1 g2) (fun x => x.2 k2)
    exact absurd k2 g4
  · exact ⟨fun _ => ⟨n, hn, r, c, h, z, g1, g2⟩, fun _ => e⟩
  · rw [e]
    refine ⟨fun hh => (nomatch hh), ?_⟩
    rintro ⟨n', hn', -, c', h', z', k1, k2⟩
    obtain ⟨c1, h1, z1, a1, b1⟩ := r hf n' hn'
    obtain ⟨rfl, rfl, rfl⟩ := C52_wire_unique P E d pkb _ msg entropy n' _ _ _ _ _ _ k1 a1
    exact absurd k2 b1.2

/-- C52, exactly: if the samplers finish, `sign` uses up a budget of `fuel` attempts if and only if all of them are rejected. -/
theorem C52_wire_exhausts_iff (P : Par) (hP : P = raccoon128 ∨ P = raccoon192 ∨ P = raccoon256) (E : Ext) (fuel0 fuel d : Nat) (hd : ValidShares d)
    (hf : SamplersFinish P E fuel) (entropy0 seed : List U8) (hseed : seed.length = P.κ / 8) (sk0 sk : SKey P.k P.l d)
    (h0 : Api.generate P (utTableOf P) E fuel0 d entropy0 seed = .ok sk0) (hder : SKey.Derived P E sk0 sk) (pkBuf pkb : List U8)
    (hpl : pkBuf.length = PKey.byteLen P.κ P.k P.νt) (hpk : Api.pkAsBytes P (Api.getPkey P sk0) pkBuf = .ok pkb) (entropy msg buf : List U8) :
    Api.sign P E fuel d sk entropy msg buf = .nofuel ↔ ∀ i < fuel, ∃ c h z, IsAttempt P E d pkb (keySecret P E d entropy0) msg entropy i c h z ∧ Rejected P buf.length c h z := by
  rcases C52_wire_outcome P hP E fuel0 fuel d hd entropy0 seed hseed sk0 sk h0 hder pkBuf pkb hpl hpk entropy msg buf with
    ⟨n, b', hn, e, r, c, h, z, g1, g2, g3, g4⟩ | ⟨n, hn, e, r, c, h, z, g1, g2, -⟩ | ⟨e, r⟩
  · rw [e]
    refine ⟨fun hh => (nomatch hh), fun hr => ?_⟩
    obtain ⟨c1, h1, z1, a1, b1⟩ := hr n hn
    obtain ⟨rfl, rfl, rfl⟩ := C52_wire_unique P E d pkb _ msg entropy n _ _ _ _ _ _ g1 a1
    exact absurd g2 b1.1
  · rw [e]
    refine ⟨fun hh => (nomatch hh), fun hr => ?_⟩
    obtain ⟨c1, h1, z1, a1, b1⟩ := hr n hn
    obtain ⟨rfl, rfl, rfl⟩ := C52_wire_unique P E d pkb _ msg entropy n _ _ _ _ _ _ g1 a1
    exact absurd g2 b1.2
  · exact ⟨fun _ => r hf, fun _ => e⟩

/-- Non-vacuity: the run of `Props/Demo.lean` is an accepted signature; and for every key there are undefined inputs (the hint trap). -/
example (entropy0 seed entropy1 entropy2 msg : List U8) (hseed : seed.length = 16) :
    ∃ (pkb sig c : List U8) (hint z : List Int), IsSigEncoding c hint z sig.length sig ∧ WindowFrom respBits (hint.flatMap hintBits).length z ∧
      ValidSig raccoon128 demoE pkb msg c hint z ∧ SamplersFinish raccoon128 demoE 512 ∧
      ∃ n < 512, (∀ i < n, ∃ c h z, IsAttempt raccoon128 demoE 2 pkb (keySecret raccoon128 demoE 2 entropy0) msg entropy2 i c h z ∧ Rejected raccoon128 11524 c h z) ∧
        IsAttempt raccoon128 demoE 2 pkb (keySecret raccoon128 demoE 2 entropy0) msg entropy2 n c hint z ∧ ¬ Trapped 11524 c hint z := by
  have hP : raccoon128 = raccoon128 ∨ raccoon128 = raccoon192 ∨ raccoon128 = raccoon256 := Or.inl rfl
  obtain ⟨sk0, sk1, sk2, skb, b, h0, -, -, -, -, hd, hs, hv⟩ := demo_run entropy0 seed entropy1 entropy2 msg hseed
  have hwf := C37_wellformed raccoon128 hP demoE 512 2 demo_d entropy0 seed hseed sk0 h0
  obtain ⟨pkb, hpk⟩ := pkBytes_ok raccoon128 hP sk0.pkey hwf.pkey.seed
  obtain ⟨n, hn, r, c, hint, z, g1, g2, g3, g4⟩ := (C52_wire_returns_iff raccoon128 hP demoE 512 512 2 demo_d demo_finish entropy0 seed hseed sk0 sk2 h0 hd _ pkb
    List.length_replicate hpk entropy2 msg _ b).1 hs
  rw [List.length_replicate] at r g3
  have v := C33_wire_correct raccoon128 hP demoE 2 pkb _ msg entropy2 n c hint z g1 g2.2
  have hl : b.length = (List.replicate 11524 (0 : U8)).length := g4.1
  rw [← hl] at g4
  have hb : pkb.length = PKey.byteLen raccoon128.κ raccoon128.k raccoon128.νt := by
    obtain ⟨b', k1, k2, -⟩ := C24_format 128 5 (by decide) sk0.pkey hwf.pkey.seed (List.replicate (PKey.byteLen 128 5 42) 0) List.length_replicate
    obtain rfl : pkb = b' := Res.ok.inj (Eq.trans (Eq.symm hpk) k1)
    exact k2
  have hpf : Api.pkFromBytes raccoon128 pkb = .ok sk0.pkey := 
    C24_decode_encode 128 5 (by decide) sk0.pkey hwf.pkey.seed hwf.pkey.t (List.replicate (PKey.byteLen 128 5 42) 0) pkb List.length_replicate hpk
  have hv' : Api.verify raccoon128 demoE 512 sk0.pkey msg b = .ok true := hv
  obtain ⟨c', h', z', e1, e2, e3⟩ := (C34_wire_answer_iff raccoon128 hP demoE 512 pkb hb sk0.pkey hpf msg b true hv').1 rfl
  obtain ⟨rfl, rfl, rfl⟩ := g4.inj e1 (v.1.trans e3.1.symm) (v.2.1.trans e3.2.1.symm) (v.2.2.1.trans e3.2.2.1.symm)
  exact ⟨pkb, b, c, hint, z, g4, e2, v, demo_finish, n, hn, r, g1, g3⟩

end Raccoon
