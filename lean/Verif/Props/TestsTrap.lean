import Verif.Props.TestsSigning
/-!
# C72: a flipped bit can make `verify` undefined; a complete run of the signing test
-/
set_option synthInstance.maxSize 1024
namespace Raccoon
attribute [-instance] Monoid.toNPow

theorem modify_left {α : Type} (f : α → α) : ∀ (A B : List α) (n : Nat), n < A.length → (A ++ B).modify n f = A.modify n f ++ B
  | [], _, _, h => absurd h (Nat.not_lt_zero _)
  | _ :: _, _, 0, _ => rfl
  | a :: A, B, n + 1, h => by
    rw [List.cons_append, List.modify_succ_cons, List.modify_succ_cons, modify_left f A B n (by simpa using h), List.cons_append]

theorem modify_right {α : Type} (f : α → α) : ∀ (A B : List α) (n : Nat), (A ++ B).modify (A.length + n) f = A ++ B.modify n f
  | [], _, n => by rw [List.nil_append, List.nil_append, List.length_nil, Nat.zero_add]
  | a :: A, B, n => by
    rw [List.cons_append, List.length_cons, show A.length + 1 + n = (A.length + n) + 1 by omega, List.modify_succ_cons, modify_right f A B n, List.cons_append]

theorem natBits_flip : ∀ (x : U8) (b : Fin 8), natBits 8 (x ^^^ ((1 : U8) <<< b.val)).toNat = (natBits 8 x.toNat).modify b.val not := by
  decide +kernel

/-- Flipping a bit of a byte string flips that bit of its bit string. -/
theorem bytesBits_flipBit : ∀ (data : List U8) (i b : Nat), i < data.length → b < 8 → bytesBits (flipBit data i b) = (bytesBits data).modify (8 * i + b) not
  | [], _, _, h, _ => absurd h (Nat.not_lt_zero _)
  | x :: data, 0, b, _, hb => by
    show natBits 8 (x ^^^ ((1 : U8) <<< b)).toNat ++ bytesBits data = (natBits 8 x.toNat ++ bytesBits data).modify (8 * 0 + b) not
    rw [Nat.mul_zero, Nat.zero_add, modify_left _ _ _ _ (by rw [natBits_length]; exact hb), natBits_flip x ⟨b, hb⟩]
  | x :: data, i + 1, b, h, hb => by
    show natBits 8 x.toNat ++ bytesBits (flipBit data i b) = (natBits 8 x.toNat ++ bytesBits data).modify (8 * (i + 1) + b) not
    have e : 8 * (i + 1) + b = (natBits 8 x.toNat).length + (8 * i + b) := by rw [natBits_length]; omega
    rw [e, modify_right, bytesBits_flipBit data i b (by simpa using h) hb]

/-- The responses of the trap: 24 zeros, −1, 2^21 − 1, zeros. -/
def trapZ (n : Nat) : List Int := List.replicate 24 0 ++ (-1) :: 2097151 :: List.replicate (n - 26) 0

theorem trapZ_mem {n : Nat} {x : Int} (h : x ∈ trapZ n) : x = 0 ∨ x = -1 ∨ x = 2097151 := by
  unfold trapZ at h
  rcases List.mem_append.1 h with h | h
  · exact Or.inl (List.eq_of_mem_replicate h)
  · rcases List.mem_cons.1 h with h | h
    · exact Or.inr (Or.inl h)
    · rcases List.mem_cons.1 h with h | h
      · exact Or.inr (Or.inr h)
      · exact Or.inl (List.eq_of_mem_replicate h)

theorem hint_zeros (n : Nat) : (List.replicate n (0 : Int)).flatMap hintBits = List.replicate n false := by
  induction n with
  | zero => rfl
  | succ n ih => rw [List.replicate_succ, List.flatMap_cons, ih, List.replicate_succ]; rfl

theorem resp_zeros (n : Nat) : (List.replicate n (0 : Int)).flatMap respBits = List.replicate (41 * n) false := by
  have h0 : respBits 0 = List.replicate 41 false := by
    unfold respBits
    have : (2 : Nat) ^ 40 = 1099511627776 := by norm_num
    rw [this]
    decide
  induction n with
  | zero => rfl
  | succ n ih => rw [List.replicate_succ, List.flatMap_cons, ih, h0, ← List.replicate_add, show 41 + 41 * n = 41 * (n + 1) by omega]

/-- The bits of the two responses in the middle. -/
theorem resp_mid : respBits (-1) = natBits 40 1 ++ false :: [true] ∧ respBits 2097151 = List.replicate 21 true ++ List.replicate 21 false := by
  unfold respBits
  have : (2 : Nat) ^ 40 = 1099511627776 := by norm_num
  rw [this]
  constructor <;> decide

theorem trapZ_norms (P : Par) (hP : P = raccoon128 ∨ P = raccoon192 ∨ P = raccoon256) (m n : Nat) :
    NormsOK P.νw P.Binf.toNat P.B22.toNat (List.replicate m 0) (trapZ n) := by
  have h32 : (2 : Nat) ^ 32 = 4294967296 := by norm_num
  refine ⟨fun x hx => ?_, fun x hx => ?_, ?_⟩
  · rw [List.eq_of_mem_replicate hx]; exact Nat.zero_le _
  · have hB : 2097151 ≤ P.Binf.toNat := by rcases hP with rfl | rfl | rfl <;> decide
    rcases trapZ_mem hx with rfl | rfl | rfl
    · exact Nat.zero_le _
    · show 1 ≤ _; omega
    · exact hB
  · have h1 : sqSum (List.replicate m 0) = 0 := by unfold sqSum; rw [List.map_replicate, List.sum_replicate]; simp
    have h2 : scaledSqSum (trapZ n) = 0 := by
      unfold scaledSqSum
      apply List.sum_eq_zero
      intro y hy
      obtain ⟨x, hx, rfl⟩ := List.mem_map.1 hy
      rw [h32]
      rcases trapZ_mem hx with rfl | rfl | rfl <;> rfl
    rw [h1, h2, Nat.mul_zero]
    exact Nat.zero_le _

theorem window_of_short (e : Int → List Bool) : ∀ (xs : List Int) (p : Nat), (∀ x ∈ xs, (e x).length ≤ 57) → WindowFrom e p xs := by
  intro xs
  induction xs with
  | nil => intro p _; trivial
  | cons x xs ih =>
    intro p hx
    refine ⟨?_, ih _ fun y hy => hx y (List.mem_cons_of_mem _ hy)⟩
    have := hx x List.mem_cons_self
    omega

/-- C72: some flips do make `verify` undefined, and the test helper makes them: for every parameter set, public key and message (but one length) there are a hash
function, changed in one place, and a signature of the regular size that `verify` accepts under it, such that `verify` is undefined on the signature with one
particular bit flipped, and `random_bitflip` flips that bit for some of the random words it may read. -/
theorem C72_flip_trap (P : Par) (hP : P = raccoon128 ∨ P = raccoon192 ∨ P = raccoon256) (E : Ext) (pkb : List U8)
    (hl : pkb.length = PKey.byteLen P.κ P.k P.νt) (pk : PKey P.k) (hpk : Api.pkFromBytes P pkb = .ok pk) (msg c : List U8) (hm : msg.length ≠ 8 + 512 * P.k)
    (hcl : c.length = 2 * P.κ / 8)
    (hA : ∃ a : Fin P.k → Fin P.l → RPoly, IsMatrixOf E (pkb.take (P.κ / 8)) a) (hC : ∃ cI, IsChallengeOf E P.ω c cI) :
    ∃ (x : List U8) (E' : Ext) (sig bad : List U8), SameExcept x E E' ∧ sig.length = P.sigLen ∧ OneBitOff sig bad ∧
      (∃ F, ∀ fuel, F ≤ fuel → Api.verify P E' fuel pk msg sig = .ok true) ∧ (∀ fuel, Api.verify P E' fuel pk msg bad = .ub) ∧
      ∃ E0 seed p', Tests.randomBitflip sig (Prng.new E0 seed) = .ok (bad, p') := by
  have h40 : (2 : Nat) ^ 40 = 1099511627776 := by norm_num
  have hsz : 2 * P.κ / 8 ≤ P.sigLen ∧ 8 * (2 * P.κ / 8) + (512 * P.k + (41 * 24 + (42 + (42 + 41 * (P.l * 512 - 26))))) ≤ 8 * P.sigLen ∧ 26 < P.l * 512 ∧
      (2 * P.κ / 8 + 64 * P.k + 128) % (if P.κ = 128 then 4 else if P.κ = 192 then 8 else 2) = 0 ∧ 2 * P.κ / 8 + 64 * P.k + 128 < P.sigLen := by
    rcases hP with rfl | rfl | rfl <;> decide
  obtain ⟨z1, z2, z3, z4, z5⟩ := hsz
  have hlh : (List.replicate (P.k * 512) (0 : Int)).length = P.k * 512 := List.length_replicate
  have hlz : (trapZ (P.l * 512)).length = P.l * 512 := by
    unfold trapZ
    rw [List.length_append, List.length_cons, List.length_cons, List.length_replicate, List.length_replicate]; omega
  have hbits : sigBits (List.replicate (P.k * 512) 0) (trapZ (P.l * 512)) =
      (List.replicate (P.k * 512) false ++ (List.replicate (41 * 24) false ++ natBits 40 1)) ++
        false :: (true :: (List.replicate 21 true ++ (List.replicate 21 false ++ List.replicate (41 * (P.l * 512 - 26)) false))) := by
    unfold sigBits trapZ
    rw [hint_zeros, List.flatMap_append, resp_zeros, List.flatMap_cons, List.flatMap_cons, resp_zeros, resp_mid.1, resp_mid.2]
    simp only [List.append_assoc, List.cons_append, List.nil_append]
  obtain ⟨sig, hsig⟩ := C28_in_range c (List.replicate (P.k * 512) 0) (trapZ (P.l * 512)) (List.replicate P.sigLen 0)
    (by rw [List.length_replicate, hcl]; omega) 0
    (fun x hx => by rw [List.eq_of_mem_replicate hx]; decide)
    (fun x hx => by rw [h40]; rcases trapZ_mem hx with rfl | rfl | rfl <;> decide)
    (by
      unfold trapZ
      rw [List.getLast?_append, List.getLast?_cons, List.getLast?_cons, List.getLast?_replicate, if_neg (by omega)]
      rfl)
    (by rw [h40]; decide)
  have hfit : 8 * c.length + (sigBits (List.replicate (P.k * 512) 0) (trapZ (P.l * 512))).length ≤ 8 * (List.replicate P.sigLen (0 : U8)).length := by
    rw [hbits, List.length_replicate, hcl]
    simp only [List.length_append, List.length_cons, List.length_replicate, natBits_length]
    omega
  rw [decide_eq_true hfit] at hsig
  have henc := C28_format _ _ _ _ _ hsig
  have hsl : sig.length = P.sigLen := henc.1.trans List.length_replicate
  rw [List.length_replicate, ← hsl] at henc
  obtain ⟨x, E', hE, F, hF⟩ := C67_simulation P hP E pkb hl pk hpk msg sig c _ _ hm henc ⟨hcl, hlh, hlz⟩ (trapZ_norms P hP _ _)
    (fun x hx => by rw [h40]; rcases trapZ_mem hx with rfl | rfl | rfl <;> decide) hA hC
  refine ⟨x, E', sig, flipBit sig (2 * P.κ / 8 + 64 * P.k + 128) 0, hE, hsl, ⟨_, 0, by omega, by omega, rfl⟩, ⟨F, hF⟩, ?_, ?_⟩
  · intro fuel
    rw [C34_wire_undefined_iff P hP E' fuel pkb hl pk hpk]
    right
    obtain ⟨-, pad, hb⟩ := henc
    have hflip := bytesBits_flipBit sig (2 * P.κ / 8 + 64 * P.k + 128) 0 (by omega) (by omega)
    rw [hb, hbits] at hflip
    have hpos : 8 * (2 * P.κ / 8 + 64 * P.k + 128) + 0 =
        (bytesBits c ++ (List.replicate (P.k * 512) false ++ (List.replicate (41 * 24) false ++ natBits 40 1))).length + 0 := by
      simp only [List.length_append, List.length_replicate, natBits_length, bytesBits_length, hcl]
      omega
    rw [← List.append_assoc (bytesBits c), List.append_assoc _ _ (List.replicate pad false), hpos, modify_right] at hflip
    rw [bytesBits_drop, hflip]
    have hdrop : ∀ X Y : List Bool, (bytesBits c ++ X ++ Y).drop (8 * (2 * P.κ / 8)) = X ++ Y := by
      intro X Y
      rw [List.append_assoc, List.drop_append_of_le_length (by rw [bytesBits_length, hcl]), List.drop_of_length_le (by rw [bytesBits_length, hcl]), List.nil_append]
    rw [hdrop]
    refine Or.inr ⟨List.replicate (P.k * 512) 0, List.replicate 24 0, 1, 23,
      List.replicate 20 false ++ (List.replicate (41 * (P.l * 512 - 26)) false ++ List.replicate pad false), ?_, hlh, ?_, by rw [h40]; omega, ?_, ?_, ?_⟩
    · unfold sigBits
      rw [hint_zeros, resp_zeros]
      show _ ++ (true :: true :: _) = _
      simp only [List.append_assoc]
      rfl
    · rw [List.length_replicate]; omega
    · exact normsOK_readable hP (trapZ_norms P hP (P.k * 512) 0)
    · refine window_of_short respBits _ _ fun x hx => ?_
      rw [List.eq_of_mem_replicate hx, respBits_length]; decide
    · refine ⟨by omega, Or.inl ⟨?_, ?_⟩⟩
      · unfold sigBits
        rw [hint_zeros, resp_zeros, List.length_append, List.length_replicate, List.length_replicate]
        omega
      · intro h
        have := congrArg List.length h
        rw [List.length_append, List.length_replicate, List.length_nil] at this
        omega
  · refine ((C70_coverage P hP).2 sig hsl _ 0 (by omega) (by omega)).2 ?_
    rw [z4, Nat.zero_mod]

/-- The hypotheses of `C72_flip_trap` are met (with the toy functions of `Props/Demo`) by every public key, message of another length and hash value. -/
example (pkb msg c : List U8) (hl : pkb.length = PKey.byteLen 128 5 42) (hc : c.length = 32) (hm : msg.length ≠ 2568) :
    ∃ (pk : PKey 5) (E' : Ext) (sig bad : List U8) (F : Nat), Api.pkFromBytes raccoon128 pkb = .ok pk ∧ OneBitOff sig bad ∧
      Api.verify raccoon128 E' F pk msg sig = .ok true ∧ Api.verify raccoon128 E' F pk msg bad = .ub := by
  obtain ⟨pk, sig0, hpk, -, -, hA, hC⟩ := programming_met pkb c hl hc
  obtain ⟨x, E', sig, bad, -, -, h1, ⟨F, hF⟩, h2, -⟩ := C72_flip_trap raccoon128 (Or.inl rfl) demoE pkb hl pk hpk msg c hm hc hA hC
  exact ⟨pk, E', sig, bad, F, hpk, h1, hF F (Nat.le_refl _), h2 F⟩

theorem demo_flip_word (entropy : List U8) (he : entropy.length = 172) (p : Prng) (hp : p = ⟨⟨demoE.shake128, entropy, 24⟩⟩) :
    leVal (p.read 8).1 % 11524 = 0 ∧ leVal (p.read 8).1 % 8 = 4 := by
  subst hp
  have e : (Prng.read ⟨⟨demoE.shake128, entropy, 24⟩⟩ 8).1 = (List.range 8).map fun i => BitVec.ofNat 8 (172 + (24 + i)) := by
    rw [← he]; rfl
  rw [e]
  decide +kernel

/-- Non-vacuity of C72: with the toy functions the signing test (messages of length 0) comes to its end. (The test's own generator is given an entropy of 172
bytes, so that the flipped bit of the signature lies in its hash.) -/
theorem demo_signing_test (entropy : List U8) (he : entropy.length = 172) (genEntropy saveEntropy : List U8) (signEntropy : Nat → List U8) :
    ∃ rs, Tests.signing raccoon128 demoE 512 2 entropy genEntropy saveEntropy signEntropy 0 = .ok rs := by
  have hP : raccoon128 = raccoon128 ∨ raccoon128 = raccoon192 ∨ raccoon128 = raccoon256 := Or.inl rfl
  have hpr : ∀ (n : Nat) (st : Tests.RoundSt raccoon128 2) (pk : PKey 5), ∀ r x, Tests.signingRound raccoon128 demoE 512 2 pk (signEntropy 0) 0 st = .ok (r, x) →
      ∃ rs, Tests.signingRounds raccoon128 demoE 512 2 pk signEntropy 0 st = .ok rs := by
    intro n st pk r x h
    unfold Tests.signingRounds
    rw [forLoop_cons (by omega) (by omega), h]
    exact ⟨_, rfl⟩
  unfold Tests.signing
  have hseed : ((Prng.new demoE entropy).read (raccoon128.κ / 8)).1.length = 16 := by
    show (List.map _ (List.range _)).length = _
    rw [List.length_map, List.length_range]; rfl
  have hst : ((Prng.new demoE entropy).read (raccoon128.κ / 8)).2 = ⟨⟨demoE.shake128, entropy, 16⟩⟩ := rfl
  simp only []
  rw [hst]
  generalize ((Prng.new demoE entropy).read (raccoon128.κ / 8)).1 = seed at *
  obtain ⟨sk0, h0⟩ := C52_generate raccoon128 hP demoE 512 2 demo_d demo_finish genEntropy seed hseed
  have wf0 := C37_wellformed raccoon128 hP demoE 512 2 demo_d genEntropy seed hseed sk0 h0
  rw [h0, Res.ok_bind]
  obtain ⟨b, sk, eb, esk⟩ := C52_reload raccoon128 hP demoE 512 2 demo_d demo_finish sk0 wf0 saveEntropy
    (List.replicate (SKey.byteLen raccoon128.κ raccoon128.k raccoon128.l 2 raccoon128.νt) 0) List.length_replicate
  rw [eb, Res.ok_bind, esk, Res.ok_bind]
  have hder : SKey.Derived raccoon128 demoE sk0 sk := .reload 512 512 saveEntropy _ b .refl List.length_replicate eb esk
  obtain ⟨pkb, p1, p2, p3⟩ := pkSave_ok raccoon128 hP (Api.getPkey raccoon128 sk0) wf0.pkey
  have hpne : pkb ≠ [] := by
    intro e
    rw [e] at p2
    exact absurd p2 (by decide)
  suffices H : ∃ x, Tests.signingRound raccoon128 demoE 512 2 (Api.getPkey raccoon128 sk0) (signEntropy 0) 0
      ⟨sk, ⟨⟨demoE.shake128, entropy, 16⟩⟩, List.replicate (PKey.byteLen raccoon128.κ raccoon128.k raccoon128.νt) 0, List.replicate raccoon128.sigLen 0⟩ = .ok x by
    obtain ⟨⟨r, x⟩, h⟩ := H
    exact hpr 0 _ _ r x h
  unfold Tests.signingRound
  simp only []
  rw [p1, Res.ok_bind, p3, Res.ok_bind, (C70_flip pkb _).2 hpne, Res.ok_bind]
  have hpl : 0 < pkb.length := List.length_pos_iff.2 hpne
  have h8 : ∀ u, u % 8 < 8 := fun u => Nat.mod_lt u (by omega)
  have hst2 : (Prng.read ⟨⟨demoE.shake128, entropy, 16⟩⟩ 8).2 = ⟨⟨demoE.shake128, entropy, 24⟩⟩ := rfl
  simp only []
  rw [hst2]
  generalize leVal (Prng.read ⟨⟨demoE.shake128, entropy, 16⟩⟩ 8).1 = u
  have hu1 := Nat.mod_lt u hpl
  have hu2 := h8 u
  generalize u % pkb.length = i at *
  generalize u % 8 = bi at *
  have hbl := (C70_flip_changes pkb i bi i bi hu1 hu1 hu2 hu2).1.trans p2
  generalize flipBit pkb i bi = badPk at *
  obtain ⟨badPkey, p4, -⟩ := C24_api raccoon128 hP badPk hbl
  rw [p4, Res.ok_bind]
  have hst3 : (Prng.read ⟨⟨demoE.shake128, entropy, 24⟩⟩ 0) = ([], ⟨⟨demoE.shake128, entropy, 24⟩⟩) := rfl
  rw [hst3]
  obtain ⟨wf1, -, -⟩ := C38_history raccoon128 hP demoE 2 demo_d sk0 sk wf0 hder
  obtain ⟨sk', esk'⟩ := C52_refresh raccoon128 demoE 512 2 demo_d demo_finish sk wf1
  rw [esk', Res.ok_bind]
  have hder' : SKey.Derived raccoon128 demoE sk0 sk' := .refresh 512 hder esk'
  obtain ⟨sig, esig⟩ := demo_sign genEntropy seed hseed sk0 sk' h0 hder' (signEntropy 0) [] (List.replicate raccoon128.sigLen 0) (by rw [List.length_replicate]; rfl)
  obtain ⟨wf2, -, -⟩ := C38_history raccoon128 hP demoE 2 demo_d sk0 sk' wf0 hder'
  have hsl : sig.length = 11524 :=
    (C35_only_acceptable raccoon128 hP demoE 512 2 demo_d sk' wf2 _ _ _ sig esig).1.trans (by rw [List.length_replicate]; rfl)
  rw [esig, Res.ok_bind, (C70_flip [] _).1 rfl, Res.ok_bind]
  have hsne : sig ≠ [] := by rintro rfl; rw [List.length_nil] at hsl; omega
  simp only []
  rw [(C70_flip sig _).2 hsne, Res.ok_bind, hsl]
  obtain ⟨w1, w2⟩ := demo_flip_word entropy he _ rfl
  simp only []
  rw [w1, w2]
  obtain ⟨-, pk', ep, v0⟩ := C33_correctness raccoon128 hP demoE 512 512 512 2 (Nat.le_refl _) demo_d genEntropy seed hseed sk0 sk' h0 hder' _ _ _ sig esig _ pkb
    List.length_replicate p1
  obtain rfl := Res.ok.inj (p3.symm.trans ep)
  have ntrap : ¬ SigTrap (raccoon128.k * 512) (raccoon128.l * 512) (bytesBits (sig.drop (2 * raccoon128.κ / 8))) := by
    intro ht
    have := (C34_wire_undefined_iff raccoon128 hP demoE 512 pkb p2 _ p3 [] sig).2 (Or.inr ht)
    rw [v0] at this
    cases this
  have hdrop : (flipBit sig 0 4).drop (2 * raccoon128.κ / 8) = sig.drop (2 * raccoon128.κ / 8) := by
    cases sig with
    | nil => exact absurd rfl hsne
    | cons x xs => rfl
  have hfl : (flipBit sig 0 4).length = 11524 := by unfold flipBit; rw [List.length_modify]; exact hsl
  have h32 : 2 * raccoon128.κ / 8 ≤ 11524 := by decide
  obtain ⟨r2, v2, -⟩ := C34_wire_decision raccoon128 hP demoE 512 demo_finish pkb p2 _ p3 [] (flipBit sig 0 4) (by rw [hfl]; exact h32) (by rw [hdrop]; exact ntrap)
  obtain ⟨r4, v4, -⟩ := C34_wire_decision raccoon128 hP demoE 512 demo_finish badPk hbl _ p4 [] sig (by rw [hsl]; exact h32) ntrap
  rw [v0, v2, v4]
  exact ⟨_, rfl⟩

end Raccoon
