import Verif.Props.KeyFileTrap
/-!
# C69: every choice of public part, seeds and fields is a file; concrete cases
-/
set_option synthInstance.maxSize 1024
namespace Raccoon
attribute [-instance] Monoid.toNPow

/-- The part of a key file between the public key and the secret fields. -/
def fileSeeds (P : Par) (d : Nat) (b : List U8) : List U8 := (b.drop (PKey.byteLen P.κ P.k P.νt)).take ((d - 1) * (P.κ / 8))

theorem groups_ext {n m : Nat} (hn : 0 < n) {x y : List Bool} (hx : x.length = n * m) (hy : y.length = n * m) (h : ∀ i < m, (x.drop (n * i)).take n = (y.drop (n * i)).take n) : x = y := by
  apply List.ext_getElem (by rw [hx, hy])
  intro i h1 h2
  have hi : i / n < m := Nat.div_lt_of_lt_mul (by omega)
  have hr : i % n < n := Nat.mod_lt _ hn
  have he := Nat.div_add_mod i n
  have h3 := congrArg (fun l => l[i % n]?) (h _ hi)
  rw [List.getElem?_take, List.getElem?_take, if_pos hr, if_pos hr, List.getElem?_drop, List.getElem?_drop, he, List.getElem?_eq_getElem h1, List.getElem?_eq_getElem h2] at h3
  exact Option.some.inj h3

theorem drop_append_len {α : Type} (a b : List α) {n : Nat} (h : n = a.length) : (a ++ b).drop n = b := by
  rw [h, List.drop_left]

theorem exists_words (l : Nat) (f : Nat → Nat → Nat) (hf : ∀ r < l, ∀ c < 512, f r c < 2 ^ 49) : ∃ t : PVec l 1, ∀ r (_ : r < l) c (_ : c < 512), coeffAt t (512 * r + c) = f r c := by
  refine ⟨Vector.ofFn fun r => Vector.ofFn fun _ => Vector.ofFn fun c => ⟨BitVec.ofNat 64 (f r.val c.val)⟩, fun r hr c hc => ?_⟩
  rw [coeffAt_rc hr hc]
  have e : ∀ (v : PVec l 1) (g : Nat → MPoly 1), (∀ r (h : r < l), v[r] = g r) → (v[r][0][c]).raw.toNat = ((g r)[0][c]).raw.toNat := by
    intro v g h
    rw [getElem_congr (getElem_congr (h r hr) rfl _) rfl]
  rw [e _ (fun r => Vector.ofFn fun _ => Vector.ofFn fun c => ⟨BitVec.ofNat 64 (f r c.val)⟩) (fun r h => Vector.getElem_ofFn _)]
  rw [getElem_congr (Vector.getElem_ofFn _) rfl, Vector.getElem_ofFn]
  show (BitVec.ofNat 64 (f r c)).toNat = _
  rw [BitVec.toNat_ofNat, Nat.mod_eq_of_lt]
  refine lt_of_lt_of_le (hf r hr c hc) ?_
  norm_num

/-- C69: a key file is exactly a public part, `d − 1` seeds and 512·ℓ fields of 49 bits, all of them arbitrary: for each choice there is one file, and only one. -/
theorem C69_file_layout (P : Par) (hP : P = raccoon128 ∨ P = raccoon192 ∨ P = raccoon256) (d : Nat) (pub seeds : List U8) (hpub : pub.length = PKey.byteLen P.κ P.k P.νt)
    (hseeds : seeds.length = (d - 1) * (P.κ / 8)) (f : Nat → Nat → Nat) (hf : ∀ r < P.l, ∀ c < 512, f r c < 2 ^ 49) :
    ∃! b : List U8, b.length = SKey.byteLen P.κ P.k P.l d P.νt ∧ filePublic P b = pub ∧ fileSeeds P d b = seeds ∧ ∀ r < P.l, ∀ c < 512, skField P d b r c = f r c := by
  obtain ⟨-, w2, -, -, -, -, -, -, -, h8, -⟩ := par_bounds P hP
  unfold filePublic fileSeeds skField
  rw [w2] at hpub ⊢
  rw [pkLen P.k h8] at hpub ⊢
  rw [skLen P.k P.l d h8]
  obtain ⟨t, ht⟩ := exists_words P.l f hf
  have hpl : (pub ++ seeds).length = P.κ / 8 + 448 * P.k + (d - 1) * (P.κ / 8) := by rw [List.length_append, hpub, hseeds]
  have hbl : (vecBits 49 t).length = 8 * (3136 * P.l) := by rw [vecBits_length]; omega
  have hpay : bytesBits (leBytes (3136 * P.l) (bitsVal (vecBits 49 t))) = vecBits 49 t := by
    rw [bytesBits_leBytes, ← hbl, natBits_bitsVal]
  refine ⟨pub ++ seeds ++ leBytes (3136 * P.l) (bitsVal (vecBits 49 t)), ⟨?_, ?_, ?_, ?_⟩, ?_⟩
  · rw [List.length_append, hpl, leBytes_length]
  · rw [List.append_assoc, take_append_len _ _ hpub.symm]
  · rw [List.append_assoc, drop_append_len _ _ hpub.symm, take_append_len _ _ hseeds.symm]
  · intro r hr c hc
    rw [drop_append_len _ _ hpl.symm, hpay, vecBits_group (by omega), bitsVal_natBits, ht r hr c hc, Nat.mod_eq_of_lt (hf r hr c hc)]
  · rintro b ⟨h1, h2, h3, h4⟩
    have e1 : b = pub ++ seeds ++ b.drop (P.κ / 8 + 448 * P.k + (d - 1) * (P.κ / 8)) := by
      have e2 : b.drop (P.κ / 8 + 448 * P.k + (d - 1) * (P.κ / 8)) = (b.drop (P.κ / 8 + 448 * P.k)).drop ((d - 1) * (P.κ / 8)) := by rw [List.drop_drop]
      rw [← h2, ← h3, List.append_assoc, e2, List.take_append_drop, List.take_append_drop]
    rw [e1]
    refine congrArg _ (bytesBits_inj ?_)
    rw [hpay]
    refine groups_ext (n := 49) (m := 512 * P.l) (by omega) ?_ ?_ fun i hi => ?_
    · rw [bytesBits_length, List.length_drop, h1]; omega
    · rw [hbl]; omega
    · rw [vecBits_group hi]
      have hr : i / 512 < P.l := by omega
      have hc : i % 512 < 512 := by omega
      have he : 512 * (i / 512) + i % 512 = i := by omega
      have h5 := h4 (i / 512) hr (i % 512) hc
      rw [← ht _ hr _ hc, he] at h5
      apply bitsVal_inj
      · rw [natBits_length, List.length_take, List.length_drop, bytesBits_length, List.length_drop, h1]; omega
      · rw [h5, bitsVal_natBits, Nat.mod_eq_of_lt]
        rw [← he, ht _ hr _ hc]
        exact hf _ hr _ hc

/-! ### concrete cases -/

theorem demo_load (b : List U8) (hb : b.length = SKey.byteLen raccoon128.κ raccoon128.k raccoon128.l 2 raccoon128.νt) : ∃ sk, Api.skFromBytes raccoon128 demoE 512 2 b = .ok sk :=
  skFrom_total demoE 512 (κ := 128) (k := 5) (l := 4) (d := 2) (by omega) (by omega) (fun hdr seed h1 h2 => demo_finish.sampleQ hdr seed h1 h2) b hb

theorem demo_zero_pk {pk : PKey 5} (h : Api.pkFromBytes raccoon128 (List.replicate (PKey.byteLen raccoon128.κ raccoon128.k raccoon128.νt) 0) = .ok pk) : PVec.val pk.t = 0 := by
  have hz : ∀ n, bytesBits (List.replicate n (0 : U8)) = List.replicate (8 * n) false := by
    intro n
    induction n with
    | zero => rfl
    | succ n ih =>
      rw [List.replicate_succ, bytesBits, ih, Nat.mul_succ, Nat.add_comm, List.replicate_add]
      rfl
  obtain ⟨t, e, g1, g2⟩ := decodePublicKey_spec (pk := List.replicate (PKey.byteLen raccoon128.κ raccoon128.k raccoon128.νt) (0 : U8)) (seedLen := 16) (k := 5)
    (by rw [List.length_replicate]; exact pkLen (κ := 128) 5 (by omega))
  replace h : PKey.fromBytes 128 5 42 (List.replicate (PKey.byteLen raccoon128.κ raccoon128.k raccoon128.νt) 0) = .ok pk := h
  unfold PKey.fromBytes at h
  rw [e, Res.ok_bind] at h
  obtain rfl := Res.ok.inj h
  rw [List.drop_replicate, hz] at g1
  funext r c
  have hr := r.isLt
  have hc := c.isLt
  have g3 := vecBits_group (n := 7) (t := t) (m := 512 * r.val + c.val) (by omega)
  rw [g1] at g3
  have g4 := congrArg bitsVal g3
  rw [List.drop_replicate, List.take_replicate, bitsVal_replicate_false, bitsVal_natBits, Nat.mod_eq_of_lt (g2 _ (by omega)), coeffAt_rc hr hc] at g4
  unfold PVec.val
  rw [MPoly.val_one]
  show ((_ : Nat) : ZMod q) = 0
  rw [← g4, Nat.cast_zero]


/-- Non-vacuity of C69_corrupt_undefined: the file with all-zero public part and seeds and every field 2^47 is loaded, and signing with it is undefined. -/
example (entropy msg : List U8) : ∃ (b : List U8) (sk : SKey 5 4 2), b.length = SKey.byteLen 128 5 4 2 42 ∧ Api.skFromBytes raccoon128 demoE 512 2 b = .ok sk ∧
    Api.sign raccoon128 demoE 512 2 sk entropy msg (List.replicate 11524 0) = .ub := by
  have hP : raccoon128 = raccoon128 ∨ raccoon128 = raccoon192 ∨ raccoon128 = raccoon256 := Or.inl rfl
  obtain ⟨b, ⟨h1, -, -, h4⟩, -⟩ := C69_file_layout raccoon128 hP 2 (List.replicate (PKey.byteLen raccoon128.κ raccoon128.k raccoon128.νt) 0) (List.replicate ((2 - 1) * (raccoon128.κ / 8)) 0)
    List.length_replicate List.length_replicate (fun _ _ => 140737488355328) (fun _ _ _ _ => by norm_num)
  obtain ⟨sk, e⟩ := demo_load b h1
  have hK : (140737488355328 : Nat) % q = 140737488355328 := by decide
  exact ⟨b, sk, h1, e, C69_corrupt_undefined raccoon128 hP demoE 512 512 2 demo_finish (by omega) demo_d b h1 140737488355328 (by norm_num) (by decide)
    (fun c hc => by rw [h4 0 (by decide) c hc]; exact hK) e .refl entropy msg _ (by rw [List.length_replicate]; exact Nat.le_refl _)⟩

/-- Non-vacuity of C69_history, C69_sign_same, C69_reduced and C69_sign_verifies: the file with all-zero public part and seeds and every field q — not a reduced value — is
loaded, the key is not well-formed, signing with it returns, and gives the bytes that the file with every field 0 and all-one seeds gives. -/
theorem demo_file (entropy msg : List U8) : ∃ (b b' sig : List U8) (sk sk' : SKey 5 4 2), b ≠ b' ∧ b.length = SKey.byteLen 128 5 4 2 42 ∧ b'.length = SKey.byteLen 128 5 4 2 42 ∧
    Api.skFromBytes raccoon128 demoE 512 2 b = .ok sk ∧ ¬ sk.WF raccoon128 ∧ Api.skFromBytes raccoon128 demoE 512 2 b' = .ok sk' ∧ 
    Api.sign raccoon128 demoE 512 2 sk entropy msg (List.replicate 11524 0) = .ok sig ∧ Api.sign raccoon128 demoE 512 2 sk' entropy msg (List.replicate 11524 0) = .ok sig ∧
    ∃ pk, Api.pkFromBytes raccoon128 (filePublic raccoon128 b) = .ok pk ∧ Api.verify raccoon128 demoE 512 pk msg sig = .ok true := by
  have hP : raccoon128 = raccoon128 ∨ raccoon128 = raccoon192 ∨ raccoon128 = raccoon256 := Or.inl rfl
  obtain ⟨b, ⟨h1, h2, h3, h4⟩, -⟩ := C69_file_layout raccoon128 hP 2 (List.replicate (PKey.byteLen raccoon128.κ raccoon128.k raccoon128.νt) 0) (List.replicate ((2 - 1) * (raccoon128.κ / 8)) 0)
    List.length_replicate List.length_replicate (fun _ _ => q) (fun _ _ _ _ => by decide)
  obtain ⟨b', ⟨h1', h2', h3', h4'⟩, -⟩ := C69_file_layout raccoon128 hP 2 (List.replicate (PKey.byteLen raccoon128.κ raccoon128.k raccoon128.νt) 0) (List.replicate ((2 - 1) * (raccoon128.κ / 8)) 0xff)
    List.length_replicate List.length_replicate (fun _ _ => 0) (fun _ _ _ _ => by decide)
  obtain ⟨sk, e⟩ := demo_load b h1
  obtain ⟨sk', e'⟩ := demo_load b' h1'
  have hsame := C69_sign_same raccoon128 hP demoE 512 512 512 2 demo_d b b' h1 h1' (h2.trans h2'.symm) (fun r hr c hc => by rw [h4 r hr c hc, h4' r hr c hc, Nat.mod_self, Nat.zero_mod]) e e' .refl .refl
    entropy msg (List.replicate 11524 0)
  have hnw : ¬ sk.WF raccoon128 := by
    rw [((C25_any_bytes raccoon128 hP demoE 512 2 demo_d b h1).2 sk e).2.2.2]
    intro h
    have := h 0 (by decide) 0 (by omega)
    rw [h4 0 (by decide) 0 (by omega)] at this
    exact absurd this (Nat.lt_irrefl _)
  have key := load_keyOfFile raccoon128 hP demoE 512 2 demo_d b' h1' sk' e'
  have hw : sk'.WF raccoon128 := by
    rw [((C25_any_bytes raccoon128 hP demoE 512 2 demo_d b' h1').2 sk' e').2.2.2]
    intro r hr c hc
    rw [h4' r hr c hc]
    decide
  have hsv : PVec.val sk'.s = 0 := by
    rw [key.val]
    funext r c
    unfold fileSecret
    rw [h4' r.val r.isLt c.val c.isLt]
    rfl
  have hsn : sk'.s.IsNtt 0 := fun j => by rw [hsv, Pi.zero_apply, nttR_zero]
  -- the public key: seed and vector are zero
  have hpk : PVec.val sk'.pkey.t = 0 ∧ sk'.pkey.seed.length = 16 := ⟨demo_zero_pk (h2' ▸ key.pkey), key.wf.seed⟩
  have hsig : ∃ sig, Api.sign raccoon128 demoE 512 2 sk' entropy msg (List.replicate 11524 0) = .ok sig := by
    obtain ⟨uw, rep', pkb, A, a, e3, e2', f1, f2, f3, hcase⟩ := C52_first_acceptable raccoon128 hP demoE 512 2 demo_d demo_finish sk' hw _ hsn entropy msg (List.replicate 11524 0)
    obtain rfl : 41 = uw := Res.ok.inj e3
    obtain rfl : 4 = rep' := Res.ok.inj e2'
    rw [List.length_replicate] at hcase
    have hat : ∀ n c h z, AttemptSig raccoon128 demoE 512 2 41 4 a (PVec.val sk'.pkey.t) 0 (messageHash demoE raccoon128.κ pkb msg) (demoE.shake128 entropy) n c h z →
        Acceptable raccoon128 11524 c h z ∧ (∀ x ∈ z, x.natAbs < 4294967296) ∧ (∀ x ∈ h, x = 0) ∧ c.length = 32 ∧ h.length = 2560 := by
      rintro n c h z ⟨cp, -, i⟩
      refine demo_attempt_core sk'.pkey.seed hpk.2 _ hpk.1 0 A f2 a f3 _ _ n c h z cp i fun j x => ?_
      have hr := congrFun (congrFun i.resp j) x
      have hn0 : negacyclic ((0 : Fin 4 → RPoly) j) cp.toZ = 0 := by
        apply nttR_inj
        rw [nttR_negacyclic, Pi.zero_apply, nttR_zero, zero_mul]
      replace hr : ((unflatten 4 z j x : Int) : ZMod q) = negacyclic ((0 : Fin 4 → RPoly) j) cp.toZ x + ((noiseVec demoE 41 128 2 4 4 (demoE.shake128 entropy) (n * ((4 + 5) * (4 * 2 * (128 / 8)))) j x : Int) : ZMod q) := hr
      rw [hn0, Pi.zero_apply, zero_add, demo_noise 41 (Or.inr rfl), if_pos (Or.inl rfl)] at hr
      have h3 := (ZMod.intCast_eq_intCast_iff_dvd_sub _ _ q).1 hr
      have h4 := i.zcent _ (mem_unflatten (n := 4) j x i.zlen)
      have hq : q = 549824583172097 := rfl
      rw [hq] at h3 h4
      rw [abs_le]
      omega
    rcases hcase with ⟨n, b, -, e, -⟩ | ⟨n, hn, -, -, c, hint, z, g, -, hz⟩ | ⟨-, hr⟩
    · exact ⟨b, e⟩
    · exfalso
      have := (hat n c hint z g).2.1
      rcases hz with hz | ⟨x, hx, hb⟩ | ⟨x, hx, hb⟩
      · exact absurd hz (by decide)
      · have := this x hx; norm_num at hb; omega
      · have := this x (List.mem_of_getLast? hx); norm_num at hb; omega
    · exfalso
      obtain ⟨c, hint, z, g, hna⟩ := hr 0 (by omega)
      exact hna.1 (hat 0 c hint z g).1
  obtain ⟨sig, hsig⟩ := hsig
  refine ⟨b, b', sig, sk, sk', ?_, h1, h1', e, hnw, e', hsame.trans hsig, hsig, ?_⟩
  · rintro rfl
    have h5 := (h4 0 (by decide) 0 (by omega)).symm.trans (h4' 0 (by decide) 0 (by omega))
    exact absurd h5 (by decide)
  · exact C69_sign_verifies raccoon128 hP demoE 512 512 512 2 (Nat.le_refl _) demo_d b h1 e .refl entropy msg _ sig (hsame.trans hsig)

end Raccoon
