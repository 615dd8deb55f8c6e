import Verif.Proofs.SigDecExact2
import Verif.Props.Sig
import Verif.Proofs.SigEncExact
/-!
# C28, C30, C31, exactly: on which inputs the signature encoder and decoder succeed, fail, or are undefined
-/
namespace Raccoon
attribute [-instance] Monoid.toNPow

/-! ### C28: the encoder -/

theorem strictWindow_iff (e : Int → List Bool) : ∀ (xs : List Int) (p : Nat), StrictWindowFrom e p xs ↔ FitFrom e p xs := by
  intro xs
  induction xs with
  | nil => intro p; exact Iff.rfl
  | cons x xs ih => intro p; exact and_congr_right' (ih _)

theorem pendFrom_snoc (e : Int → List Bool) (x : Int) : ∀ (init : List Int) (p b : Nat), pendFrom e p b (init ++ [x]) = (p + (init.flatMap e).length) % 8 + (e x).length := by
  intro init
  induction init with
  | nil => intro p b; rfl
  | cons y ys ih =>
    intro p b
    show pendFrom e (p + (e y).length) _ (ys ++ [x]) = _
    rw [ih, List.flatMap_cons, List.length_append, Nat.add_assoc]

theorem encodable_iff {h z : List Int} (hz : z ≠ []) : Encodable h z ↔ FitSig h z := by
  unfold Encodable FitSig
  rw [strictWindow_iff, strictWindow_iff]
  refine and_congr_right' (and_congr_right' ?_)
  obtain ⟨init, x, rfl⟩ : ∃ init x, z = init ++ [x] := ⟨z.dropLast, z.getLast hz, (List.dropLast_append_getLast hz).symm⟩
  rw [pendFrom_snoc]
  constructor
  · intro hh
    have := hh init x rfl
    unfold sigBits at this
    rw [List.length_append] at this
    exact this
  · intro hh init' x' he
    obtain ⟨rfl, hx⟩ := List.append_inj' he rfl
    obtain rfl : x = x' := (List.cons.inj hx).1
    unfold sigBits
    rw [List.length_append]
    exact hh

/-- C28, exactly: `encode_sig` returns true with bytes `b` if and only if the coefficients are encodable and `b` is the specified
encoding of them in the length of the buffer (so it fits). -/
theorem C28_success_iff (c : List U8) (h z : List Int) (buf b : List U8) (hc : c.length ≤ buf.length) (hz : z ≠ []) :
    encodeSig c h z buf = .ok (true, b) ↔ Encodable h z ∧ IsSigEncoding c h z buf.length b := by
  rw [encodable_iff hz]
  constructor
  · intro e
    obtain ⟨i, f⟩ := encodeSig_true e
    exact ⟨f, i⟩
  · rintro ⟨f, i⟩
    rcases encodeSig_cases c h z buf hc with ⟨b', e, i', -⟩ | ⟨b', e, hn⟩ | ⟨e, hn⟩
    · rw [e, i'.unique i]
    · have := i.fits
      omega
    · exact absurd f hn

/-- C28, exactly: if the encoding fits in the buffer, `encode_sig` is undefined if and only if the coefficients are not encodable. -/
theorem C28_undefined_iff (c : List U8) (h z : List Int) (buf : List U8) (hz : z ≠ []) (hfit : 8 * c.length + (sigBits h z).length ≤ 8 * buf.length) :
    encodeSig c h z buf = .ub ↔ ¬ Encodable h z := by
  rw [encodable_iff hz]
  rcases encodeSig_cases c h z buf (by omega) with ⟨b', e, -, f⟩ | ⟨b', e, hn⟩ | ⟨e, hn⟩
  · rw [e]; exact ⟨fun hh => (nomatch hh), fun hh => absurd f hh⟩
  · omega
  · exact ⟨fun _ => hn, fun _ => e⟩

/-- C28, exactly, also if the encoding does not fit: `encode_sig` is undefined if and only if there is no room for the hash or one of the
listed traps comes before the point at which the encoder notices that it has run out of room. -/
theorem C28_trap_iff (c : List U8) (h z : List Int) (buf : List U8) (hz : z ≠ []) :
    encodeSig c h z buf = .ub ↔ buf.length < c.length ∨ EncTrap (buf.length - c.length) h z := by
  by_cases hc : c.length ≤ buf.length
  · rw [encodeSig_ub_iff c h z buf hc hz]
    exact ⟨Or.inr, fun h => h.resolve_left (by omega)⟩
  · refine ⟨fun _ => Or.inl (by omega), fun _ => ?_⟩
    unfold encodeSig writeSpan
    rw [if_neg (by omega)]
    rfl

/-- C28, exactly: it returns false if and only if the encoding does not fit and there is no trap before that is noticed. -/
theorem C28_failure_iff (c : List U8) (h z : List Int) (buf : List U8) (hc : c.length ≤ buf.length) (hz : z ≠ []) :
    (∃ b, encodeSig c h z buf = .ok (false, b)) ↔ ¬ EncTrap (buf.length - c.length) h z ∧ 8 * buf.length < 8 * c.length + (sigBits h z).length := by
  rw [← encodeSig_ub_iff c h z buf hc hz]
  constructor
  · rintro ⟨b, e⟩
    refine ⟨by rw [e]; exact fun hh => (nomatch hh), ?_⟩
    rcases encodeSig_cases c h z buf hc with ⟨b', e', -⟩ | ⟨b', -, hn⟩ | ⟨e', -⟩
    · rw [e'] at e; cases e
    · exact hn
    · rw [e'] at e; cases e
  · rintro ⟨h1, h2⟩
    rcases encodeSig_cases c h z buf hc with ⟨b', e', i, -⟩ | ⟨b', e', -⟩ | ⟨e', -⟩
    · have := i.fits; omega
    · exact ⟨b', e'⟩
    · exact absurd e' h1

/-- C28: a buffer that is too small does not always give `false`: with a hint of 64 the encoder is undefined even if there is room for the hash only. -/
theorem C28_trap_no_room (c : List U8) (h z : List Int) (hz : z ≠ []) : encodeSig c (64 :: h) z c = .ub := by
  rw [C28_trap_iff c _ z c hz]
  exact Or.inr (Or.inl ⟨[], 64, h, rfl, trivial, Nat.zero_le _, Or.inl (by decide)⟩)

/-- C28: whereas with small coefficients it is false. -/
theorem C28_no_room (c : List U8) (z : List Int) : ∃ b, encodeSig c [] (0 :: 0 :: z) c = .ok (false, b) := by
  rw [C28_failure_iff c [] _ c (Nat.le_refl _) (by simp)]
  have e0 : (respBits 0).length = 41 := by rw [respBits_length]; decide
  constructor
  · rintro (⟨h1, x, h2, e, -⟩ | ⟨z1, x, z2, e, -, -, t⟩)
    · have := congrArg List.length e
      simp at this
    · obtain ⟨t1, t⟩ := t
      rw [Nat.sub_self] at t1 t
      cases z1 with
      | nil =>
        obtain ⟨rfl, rfl⟩ := List.cons.inj e
        rw [e0] at t
        have hp : (sigBits [] []).length = 0 := rfl
        rw [hp] at t
        rcases t with t | ⟨-, t, -⟩ | ⟨t, -⟩
        · exact absurd t (by decide)
        · omega
        · cases t
      | cons y z1 =>
        obtain ⟨rfl, -⟩ := List.cons.inj e
        have : (sigBits [] (0 :: z1)).length = 41 + (z1.flatMap respBits).length := by
          unfold sigBits
          rw [List.flatMap_nil, List.nil_append, List.flatMap_cons, List.length_append, e0]
        omega
  · unfold sigBits
    rw [List.flatMap_nil, List.nil_append, List.flatMap_cons, List.length_append, e0]
    omega

/-! ### C30: the decoder -/

/-- C30, exactly: `decode_sig` accepts a byte string with result (c, h, z) if and only if it is the specified encoding of (c, h, z) and
every code word lies in the decoder's window. -/
theorem C30_accept_iff (hashLen hLen zLen : Nat) (b c : List U8) (h z : List Int) (hz : 2 ≤ zLen) :
    decodeSig hashLen hLen zLen b = .ok (some (c, h, z)) ↔
      c.length = hashLen ∧ h.length = hLen ∧ z.length = zLen ∧ IsSigEncoding c h z b.length b ∧
      HintsReadable 0 h ∧ WindowFrom respBits (h.flatMap hintBits).length z := by
  constructor
  · intro e
    by_cases hl : hashLen ≤ b.length
    · rcases decodeSig_outcome hashLen hLen zLen b hl (by omega) with e' | ⟨c', h', z', e', hh⟩ | ⟨e', -⟩
      · rw [e'] at e; cases e
      · rw [e'] at e
        have := Option.some.inj (Res.ok.inj e)
        simp only [Prod.mk.injEq] at this
        obtain ⟨rfl, rfl, rfl⟩ := this
        exact hh
      · rw [e'] at e; cases e
    · rw [decodeSig_short hl] at e; cases e
  · rintro ⟨rfl, rfl, rfl, i, r, w⟩
    exact decodeSig_read i r w hz

/-- C30, exactly: on a byte string of at least the hash length, `decode_sig` is undefined if and only if its payload leads into one of the
listed traps. -/
theorem C30_undefined_iff (hashLen hLen zLen : Nat) (b : List U8) (hl : hashLen ≤ b.length) (hz : 2 ≤ zLen) :
    decodeSig hashLen hLen zLen b = .ub ↔ SigTrap hLen zLen (bytesBits (b.drop hashLen)) := by
  constructor
  · intro e
    rcases decodeSig_outcome hashLen hLen zLen b hl (by omega) with e' | ⟨c', h', z', e', -⟩ | ⟨-, ht⟩
    · rw [e'] at e; cases e
    · rw [e'] at e; cases e
    · exact ht
  · exact decodeSig_trap hl hz

/-- C30, exactly: in all other cases it returns false. -/
theorem C30_reject_iff (hashLen hLen zLen : Nat) (b : List U8) (hl : hashLen ≤ b.length) (hz : 2 ≤ zLen) :
    decodeSig hashLen hLen zLen b = .ok none ↔ ¬ SigTrap hLen zLen (bytesBits (b.drop hashLen)) ∧
      ¬ ∃ c h z, c.length = hashLen ∧ h.length = hLen ∧ z.length = zLen ∧ IsSigEncoding c h z b.length b ∧
        HintsReadable 0 h ∧ WindowFrom respBits (h.flatMap hintBits).length z := by
  rw [← C30_undefined_iff hashLen hLen zLen b hl hz]
  constructor
  · intro e
    refine ⟨by rw [e]; exact fun hh => (by cases hh), ?_⟩
    rintro ⟨c, h, z, hh⟩
    rw [← C30_accept_iff hashLen hLen zLen b c h z hz, e] at hh
    cases hh
  · rintro ⟨h1, h2⟩
    rcases decodeSig_outcome hashLen hLen zLen b hl (by omega) with e' | ⟨c', h', z', e', hh⟩ | ⟨e, -⟩
    · exact e'
    · exact absurd ⟨c', h', z', hh⟩ h2
    · exact absurd e h1

/-- C30 for `verify`: whatever the key and message, a signature whose payload leads into a trap makes `verify` undefined. -/
theorem C30_verify_trap (P : Par) (hP : P = raccoon128 ∨ P = raccoon192 ∨ P = raccoon256) (E : Ext) (fuel : Nat) (pk : PKey P.k) (msg b : List U8)
    (hl : 2 * P.κ / 8 ≤ b.length) (ht : SigTrap (P.k * 512) (P.l * 512) (bytesBits (b.drop (2 * P.κ / 8)))) : Api.verify P E fuel pk msg b = .ub := by
  have hz : 2 ≤ P.l * 512 := by rcases hP with rfl | rfl | rfl <;> decide
  unfold Api.verify PKey.verify Sig.fromBytes
  rw [decodeSig_trap hl hz ht]
  rfl

/-- A hint trap: a first hint of 62 ones, whatever follows. -/
theorem C30_trap_hint (hLen zLen : Nat) (hh : 0 < hLen) (tail : List U8) :
    SigTrap hLen zLen (bytesBits ([0xff, 0xff, 0xff, 0xff, 0xff, 0xff, 0xff, 0x3f] ++ tail)) := by
  refine Or.inl ⟨[], 62, false :: bytesBits tail, ?_, hh, ⟨trivial, by simp⟩, Or.inr ⟨rfl, rfl, by simp⟩, by simp⟩
  rw [bytesBits_append, C30_bytes]
  rfl

/-- A response trap: after `n` zero bytes of zero hints, a first response whose low part is 0 and whose 23 ones and zero end the window. -/
theorem C30_trap_response (n zLen : Nat) (hz : 0 < zLen) (x : U8) (tail : List U8) :
    SigTrap (8 * n) zLen (bytesBits (List.replicate n 0 ++ [0, 0, 0, 0, 0, 0xff, 0xff, 0x7f] ++ x :: tail)) := by
  have hb : bytesBits [0, 0, 0, 0, 0, 0xff, 0xff, 0x7f] = natBits 40 0 ++ List.replicate 23 true ++ [false] := by decide
  have hfl : ∀ n, (List.replicate n (0 : Int)).flatMap hintBits = List.replicate n false := by
    intro n
    induction n with
    | zero => rfl
    | succ n ih => rw [List.replicate_succ, List.flatMap_cons, ih]; rfl
  have hw : ∀ (n p : Nat), WindowFrom hintBits p (List.replicate n 0) := by
    intro n
    induction n with
    | zero => intro p; trivial
    | succ n ih =>
      intro p
      have h1 : (hintBits 0).length = 1 := rfl
      exact ⟨by omega, ih _⟩
  refine Or.inr ⟨List.replicate (8 * n) 0, [], 0, 23, bytesBits (x :: tail), ?_, by simp, hz, Nat.two_pow_pos 40, ⟨hw _ _, ?_⟩, trivial, by omega, Or.inl ⟨?_, ?_⟩⟩
  · rw [bytesBits_append, bytesBits_append, bytesBits_replicate_zero, hb]
    unfold sigBits
    rw [hfl, List.flatMap_nil, List.append_nil]
    simp only [List.append_assoc, List.cons_append, List.nil_append]
  · intro y hy
    rw [(List.mem_replicate.1 hy).2]
    decide
  · unfold sigBits
    rw [hfl, List.flatMap_nil, List.append_nil, List.length_replicate]
    omega
  · intro hh
    have := congrArg List.length hh
    rw [bytesBits_length, List.length_cons, List.length_nil] at this
    omega

/-- The right-hand sides of the three characterisations are met: accepted is the demo signature (`demo_sig_canonical`), undefined are the two
traps above, rejected is a payload of 64 ones (its first hint does not end in the window). -/
theorem C30_reject_example (c : List U8) (n m : Nat) : decodeSig c.length (n + 1) (m + 2) (c ++ [0xff, 0xff, 0xff, 0xff, 0xff, 0xff, 0xff, 0xff]) = .ok none := by
  have hd : (c ++ [0xff, 0xff, 0xff, 0xff, 0xff, 0xff, 0xff, 0xff] : List U8).drop c.length = [0xff, 0xff, 0xff, 0xff, 0xff, 0xff, 0xff, 0xff] := List.drop_left
  have hb : bytesBits [0xff, 0xff, 0xff, 0xff, 0xff, 0xff, 0xff, 0xff] = List.replicate 64 true := by decide
  have hno : ∀ A B : List Bool, List.replicate 64 true ≠ A ++ false :: B := by
    intro A B e
    have : false ∈ List.replicate 64 true := by rw [e]; simp
    exact absurd (List.eq_of_mem_replicate this) (by decide)
  rw [C30_reject_iff _ _ _ _ (by simp) (by omega), hd, hb]
  constructor
  · rintro (⟨h, k, rest, e, -⟩ | ⟨h, z, a, k, rest, e, -⟩)
    · exact hno _ _ e
    · exact hno _ _ e
  · rintro ⟨c', h, z, l1, l2, l3, ⟨-, pad, e⟩, -⟩
    rw [bytesBits_append, hb] at e
    rw [List.append_assoc] at e
    obtain ⟨-, e⟩ := List.append_inj e (by rw [bytesBits_length, bytesBits_length, l1])
    cases h with
    | nil => cases l2
    | cons x xs =>
      unfold sigBits at e
      rw [List.flatMap_cons, hintBits_eq, List.append_assoc, List.append_assoc, tailBits_append] at e
      exact hno _ _ e

/-! ### C31 -/

/-- C31: the decoder accepts responses that the encoder cannot write: 22·2^40 at a byte boundary is read back, but encoding it is undefined. -/
theorem C31_decoder_wider : ∃ b : List U8, decodeSig 0 0 2 b = .ok (some ([], [], [24189255811072, 0])) ∧
    encodeSig [] [] [24189255811072, 0] (List.replicate b.length 0) = .ub := by
  have h40 : (2 : Nat) ^ 40 = 1099511627776 := by norm_num
  refine ⟨[0, 0, 0, 0, 0, 0xff, 0xff, 0x3f, 0, 0, 0, 0, 0, 0], ?_, ?_⟩
  · rw [C30_accept_iff _ _ _ _ _ _ _ (by omega)]
    refine ⟨rfl, rfl, rfl, ⟨rfl, 7, ?_⟩, ⟨trivial, by simp⟩, ⟨?_, ?_, trivial⟩⟩
    · decide
    · rw [respBits_length]; decide
    · rw [respBits_length]; decide
  · refine C31_large_undefined [] [] _ _ 24189255811072 (List.mem_cons_self ..) (by rw [h40]; decide) ?_
    unfold sigBits
    rw [List.flatMap_nil, List.nil_append, List.flatMap_cons, List.flatMap_cons, List.length_append, List.length_append, respBits_length, respBits_length]
    decide

/-- C31: conversely everything the encoder writes is readable. -/
theorem C31_encodable_readable (h z : List Int) (e : Encodable h z) : HintsReadable 0 h ∧ WindowFrom respBits (h.flatMap hintBits).length z := by
  have mono : ∀ (f : Int → List Bool) (xs : List Int) (p : Nat), StrictWindowFrom f p xs → WindowFrom f p xs ∧ ∀ x ∈ xs, (f x).length < 64 := by
    intro f xs
    induction xs with
    | nil => intro p _; exact ⟨trivial, by simp⟩
    | cons x xs ih =>
      intro p ⟨h1, h2⟩
      obtain ⟨i1, i2⟩ := ih _ h2
      refine ⟨⟨by omega, i1⟩, ?_⟩
      intro y hy
      rcases List.mem_cons.1 hy with rfl | hy
      · omega
      · exact i2 y hy
  exact ⟨mono _ _ _ e.1, (mono _ _ _ e.2.1).1⟩

end Raccoon
