import Verif.Proofs.KeyFile
import Verif.Props.KeyApi
import Verif.Props.Scheme
import Verif.Props.Sizes
/-!
# C69: what a key file means

The loader checks nothing, so any byte string of the right length is a key file. These theorems say what such a file *is*: the public key of its first
bytes and, for the secret, the stored 49-bit fields modulo q — nothing else. The seeds in the file and the choice of representative modulo q have no effect on
anything the library does with the key afterwards.
-/
set_option synthInstance.maxSize 1024
namespace Raccoon
attribute [-instance] Monoid.toNPow

/-- The secret a key file for `d` shares holds: its 49-bit fields, modulo q (number-theoretic-transform domain, as in the objects). -/
def fileSecret (P : Par) (d : Nat) (b : List U8) : Fin P.l → RPoly := fun r c => ((skField P d b r.val c.val : Nat) : ZMod q)

/-- The part of a key file that is the public key. -/
def filePublic (P : Par) (b : List U8) : List U8 := b.take (PKey.byteLen P.κ P.k P.νt)

/-! ### helpers -/

theorem loose_below49 {t : PVec l 1} (h : PVec.Loose t) : PVec.Below (2 ^ 49) t := by
  intro i hi
  rw [coeffAt_lt hi]
  exact (h (i / 512) (by omega) 0 (by omega)).1 (i % 512) (by omega)

/-- What `to_bytes` writes for a key whose share 0 need not be reduced. -/
theorem skToBytes_loose (E : Ext) (fuel : Nat) {κ k l d : Nat} (h8 : κ % 8 = 0) (hd : 0 < d) {sk : SKey k l d}
    (hseed : sk.pkey.seed.length = κ / 8) (hs : PVec.Loose sk.s) {buf : List U8} (hb : buf.length = SKey.byteLen κ k l d 42) (prng : Prng) :
    (sk.toBytes E fuel κ 42 buf prng).Safe (fun r => r.1.length = SKey.byteLen κ k l d 42 ∧
      ∃ pkb x, sk.pkey.toBytes 42 (List.replicate (PKey.byteLen κ k 42) 0) = .ok pkb ∧ PVec.Loose x ∧ PVec.val x = PVec.val sk.s ∧
        bytesBits r.1 = bytesBits pkb ++ bytesBits ((List.range ((d - 1) * (κ / 8))).map fun i => prng.stream (prng.pos + i)) ++ vecBits 49 x) := by
  rw [skLen k l d h8] at hb ⊢
  unfold SKey.toBytes
  dsimp only
  rw [pkLen' k h8, subspan_ok (by omega), Res.ok_bind]
  have hl0 : ((buf.drop 0).take (κ / 8 + 448 * k)).length = PKey.byteLen κ k 42 := by
    rw [pkLen k h8, List.length_take, List.length_drop]; omega
  obtain ⟨pkb, e1, e2, e3⟩ := C24_format κ k h8 sk.pkey hseed _ hl0
  obtain ⟨pkb', e1', e2', e3'⟩ := C24_format κ k h8 sk.pkey hseed (List.replicate (PKey.byteLen κ k 42) 0) (by simp)
  obtain rfl : pkb' = pkb := bytesBits_inj (e3'.trans e3.symm)
  rw [pkLen k h8] at e2
  rw [e1, Res.ok_bind, writeSpan_ok (by omega), Res.ok_bind, subspan_ok (by simp; omega), Res.ok_bind]
  refine Res.Safe.bind (maskCompress_loose E fuel h8 hs hd ?_) ?_
  · rw [List.length_take, List.length_drop, List.length_append, List.length_append, List.length_take, List.length_drop]; omega
  · rintro ⟨b1, prng'⟩ ⟨g1, ⟨x, gx, gv, g2⟩, -⟩
    replace g1 : b1.length = _ := g1
    rw [List.length_take, List.length_drop, List.length_append, List.length_append, List.length_take, List.length_drop] at g1
    show (writeSpan _ _ b1 >>= _).Safe _
    rw [writeSpan_ok (by simp; omega), Res.ok_bind]
    refine ⟨?_, _, x, e1', gx, gv, ?_⟩
    · simp; omega
    · have hd : List.drop (κ / 8 + 448 * k + b1.length) (buf.take 0 ++ pkb' ++ buf.drop (0 + pkb'.length)) = [] := by
        apply List.drop_of_length_le; simp; omega
      have ht : List.take (κ / 8 + 448 * k) (buf.take 0 ++ pkb' ++ buf.drop (0 + pkb'.length)) = pkb' := by
        rw [List.take_zero, List.nil_append]; exact take_append_len _ _ e2.symm
      show bytesBits (List.take _ _ ++ b1 ++ List.drop _ _) = _
      rw [hd, ht, List.append_nil, bytesBits_append, g2, List.append_assoc]

theorem skField_lt (P : Par) (d : Nat) (b : List U8) (r c : Nat) : skField P d b r c < 2 ^ 49 := by
  unfold skField
  refine lt_of_lt_of_le (bitsVal_lt _) (Nat.pow_le_pow_right (by omega) ?_)
  rw [List.length_take]; omega

theorem val_of_first {d : Nat} (hd : 0 < d) {s : PVec l d} (h : ∀ r (hr : r < l) j (hj : j < d), 0 < j → s[r][j] = Poly.zero) (r : Fin l) : PVec.val s r = (s[r.val][0]).toZ := by
  unfold PVec.val MPoly.val
  rw [Finset.sum_eq_single (⟨0, hd⟩ : Fin d)]
  · intro j _ hj
    have hj0 : 0 < j.val := by
      rcases Nat.eq_zero_or_pos j.val with h | h
      · exact absurd (Fin.ext h) hj
      · exact h
    rw [h r r.isLt j.val j.isLt hj0, Poly.zero_toZ]
  · intro h; exact absurd (Finset.mem_univ _) h

/-- What an object made from a file stands for: the file's public key and secret, with stored words the arithmetic can handle. -/
structure KeyOfFile (P : Par) (d : Nat) (b : List U8) (sk : SKey P.k P.l d) : Prop where
  pkey : Api.pkFromBytes P (filePublic P b) = .ok sk.pkey
  wf : PKey.WF P sk.pkey
  loose : PVec.Loose sk.s
  val : PVec.val sk.s = fileSecret P d b

theorem load_keyOfFile (P : Par) (hP : P = raccoon128 ∨ P = raccoon192 ∨ P = raccoon256) (E : Ext) (fuel d : Nat) (hd : ValidShares d) (b : List U8)
    (hb : b.length = SKey.byteLen P.κ P.k P.l d P.νt) (sk : SKey P.k P.l d) (e : Api.skFromBytes P E fuel d b = .ok sk) : KeyOfFile P d b sk := by
  obtain ⟨h1, h2, h3, -⟩ := (C25_any_bytes P hP E fuel d hd b hb).2 sk e
  obtain ⟨-, w2, -, -, -, -, -, -, -, h8, -⟩ := par_bounds P hP
  refine ⟨h1, ?_, ?_, ?_⟩
  · have hb' := hb
    rw [w2] at hb'
    have key := skFrom_cases E fuel h8 hd.pos b hb'
    unfold Api.skFromBytes at e
    rw [w2] at e
    rw [e] at key
    exact ⟨key.2.1, key.2.2.1⟩
  · intro r hr s hs
    constructor
    · rcases Nat.eq_zero_or_pos s with rfl | h0
      · intro i hi
        rw [h2 r hr i hi]
        exact skField_lt P d b r i
      · rw [h3 r hr s hs h0]; exact Poly.zero_can.loose
    · intro h0
      rw [h3 r hr s hs h0]; exact Poly.zero_can
  · funext r
    rw [val_of_first hd.pos h3]
    funext c
    show ((_ : Nat) : ZMod q) = _
    rw [h2 r.val r.isLt c.val c.isLt]
    rfl

theorem refresh_keyOfFile (P : Par) (E : Ext) (fuel d : Nat) (hd : ValidShares d) (b : List U8) (sk : SKey P.k P.l d) (h : KeyOfFile P d b sk) :
    (Api.refresh P E fuel sk).Safe (KeyOfFile P d b) := by
  unfold Api.refresh SKey.refresh
  refine Res.Safe.bind (PVec.refresh_loose E fuel hd.pow h.loose (Mrng.new E d)) ?_
  rintro ⟨s, g⟩ ⟨h1, h2⟩
  exact ⟨h.pkey, h.wf, h1, h2.trans h.val⟩

/-- Saving a key made from a file gives a file with the same public key and the same secret. -/
theorem save_keyOfFile (P : Par) (hP : P = raccoon128 ∨ P = raccoon192 ∨ P = raccoon256) (E : Ext) (fuel d : Nat) (hd : ValidShares d) (b : List U8) 
    (hb : b.length = SKey.byteLen P.κ P.k P.l d P.νt) (sk : SKey P.k P.l d) (h : KeyOfFile P d b sk) (entropy buf : List U8) (hl : buf.length = SKey.byteLen P.κ P.k P.l d P.νt) :
    (Api.skAsBytes P E fuel sk entropy buf).Safe (fun b' => b'.length = SKey.byteLen P.κ P.k P.l d P.νt ∧ filePublic P b' = filePublic P b ∧ fileSecret P d b' = fileSecret P d b) := by
  obtain ⟨-, w2, -, -, -, -, -, -, -, h8, -⟩ := par_bounds P hP
  have hpk := h.pkey
  unfold Api.pkFromBytes at hpk
  have hval := h.val
  unfold filePublic at hpk ⊢
  unfold fileSecret skField at hval ⊢
  unfold Api.skAsBytes
  rw [w2] at hpk hval hb hl ⊢
  refine Res.Safe.bind (skToBytes_loose E fuel h8 hd.pos h.wf.seed h.loose hl (Prng.new E entropy)) ?_
  rintro ⟨b', p'⟩ ⟨h1, pkb, x, hp1, hx, hv, hp2⟩
  replace h1 : b'.length = _ := h1
  replace hp2 : bytesBits b' = _ := hp2
  have hpl : pkb.length = P.κ / 8 + 448 * P.k := by
    obtain ⟨_, e1, e2, -⟩ := C24_format P.κ P.k h8 sk.pkey h.wf.seed (List.replicate (PKey.byteLen P.κ P.k 42) 0) (by simp)
    rw [Res.ok.inj (hp1.symm.trans e1), e2, pkLen P.k h8]
  have hsl : (bytesBits ((List.range ((d - 1) * (P.κ / 8))).map fun i => (Prng.new E entropy).stream ((Prng.new E entropy).pos + i))).length = 8 * ((d - 1) * (P.κ / 8)) := by
    rw [bytesBits_length, List.length_map, List.length_range]
  refine ⟨h1, ?_, ?_⟩
  · show List.take _ b' = _
    have hb1 : b'.take (P.κ / 8 + 448 * P.k) = pkb := by
      apply bytesBits_inj
      rw [bytesBits_take, hp2, List.append_assoc, take_append_len _ _ (by rw [bytesBits_length, hpl])]
    obtain ⟨pk, e1, -, -, e2⟩ := C24_encode_decode P.κ P.k h8 (b.take (PKey.byteLen P.κ P.k 42)) (by
      rw [List.length_take]
      have hb' := hb
      rw [skLen P.k P.l d h8] at hb'
      rw [pkLen P.k h8]
      omega)
    rw [hpk] at e1
    obtain rfl := Res.ok.inj e1
    rw [e2 _ (by simp)] at hp1
    rw [pkLen P.k h8] at hp1 ⊢
    rw [hb1, Res.ok.inj hp1]
  · have hpay : bytesBits (b'.drop (PKey.byteLen P.κ P.k 42 + (d - 1) * (P.κ / 8))) = vecBits 49 x := by
      rw [bytesBits_drop, hp2, pkLen P.k h8]
      rw [List.drop_append_of_le_length (by rw [List.length_append, bytesBits_length, hpl, hsl]; omega), List.drop_of_length_le (by rw [List.length_append, bytesBits_length, hpl, hsl]; omega), List.nil_append]
    rw [← hval, ← hv]
    funext r c
    show (((bitsVal _ : Nat)) : ZMod q) = _
    rw [show bytesBits (List.drop (PKey.byteLen P.κ P.k 42 + (d - 1) * (P.κ / 8)) b') = _ from hpay]
    have hr := r.isLt
    have hc := c.isLt
    rw [vecBits_group (by omega), bitsVal_natBits, Nat.mod_eq_of_lt (loose_below49 hx _ (by omega)), coeffAt_rc hr hc]
    unfold PVec.val
    rw [MPoly.val_one]
    rfl

theorem derived_keyOfFile (P : Par) (hP : P = raccoon128 ∨ P = raccoon192 ∨ P = raccoon256) (E : Ext) (d : Nat) (hd : ValidShares d) (b : List U8)
    (hb : b.length = SKey.byteLen P.κ P.k P.l d P.νt) (sk sk' : SKey P.k P.l d) (h : KeyOfFile P d b sk) (hder : SKey.Derived P E sk sk') : KeyOfFile P d b sk' := by
  induction hder with
  | refl => exact h
  | refresh fuel _ e ih => exact (refresh_keyOfFile P E fuel d hd b _ ih).par _ e
  | reload fuel fuel' entropy buf b' _ hl e e' ih =>
    obtain ⟨k1, k2, k3⟩ := (save_keyOfFile P hP E fuel d hd b hb _ ih entropy buf hl).par _ e
    have key := load_keyOfFile P hP E fuel' d hd b' k1 _ e'
    exact ⟨by rw [← k2]; exact key.pkey, key.wf, key.loose, by rw [← k3]; exact key.val⟩

/-! ### the claims -/

/-- C69: take *any* byte string of the right length, load it, and refresh, save and reload the key object in any order: no step is ever undefined, the public key is always
the one in the file's first bytes, and the shares always add up to the file's secret; a file written along the way has the same public part, byte for byte, and the same
secret. -/
theorem C69_history (P : Par) (hP : P = raccoon128 ∨ P = raccoon192 ∨ P = raccoon256) (E : Ext) (fuel d : Nat) (hd : ValidShares d) (b : List U8)
    (hb : b.length = SKey.byteLen P.κ P.k P.l d P.νt) :
    Api.skFromBytes P E fuel d b ≠ .ub ∧
    ∀ sk sk', Api.skFromBytes P E fuel d b = .ok sk → SKey.Derived P E sk sk' →
      Api.pkFromBytes P (filePublic P b) = .ok (Api.getPkey P sk') ∧ PVec.val sk'.s = fileSecret P d b ∧
      (∀ fuel', Api.refresh P E fuel' sk' ≠ .ub) ∧
      ∀ fuel' entropy buf, buf.length = SKey.byteLen P.κ P.k P.l d P.νt → Api.skAsBytes P E fuel' sk' entropy buf ≠ .ub ∧
        ∀ b', Api.skAsBytes P E fuel' sk' entropy buf = .ok b' →
          b'.length = SKey.byteLen P.κ P.k P.l d P.νt ∧ filePublic P b' = filePublic P b ∧ fileSecret P d b' = fileSecret P d b := by
  refine ⟨(C25_any_bytes P hP E fuel d hd b hb).1, fun sk sk' e hder => ?_⟩
  have key := derived_keyOfFile P hP E d hd b hb sk sk' (load_keyOfFile P hP E fuel d hd b hb sk e) hder
  refine ⟨key.pkey, key.val, fun fuel' => (refresh_keyOfFile P E fuel' d hd b sk' key).ne_ub, fun fuel' entropy buf hl => ?_⟩
  have hs := save_keyOfFile P hP E fuel' d hd b hb sk' key entropy buf hl
  exact ⟨hs.ne_ub, fun b' e' => hs.par b' e'⟩

/-- C69: signing depends on the file only through its public part and its secret modulo q: two files that agree on these — with different seeds, different representatives
modulo q, loaded with different budgets and followed by different histories of refreshes and reloads — sign alike, to the last byte, including when the call does not
return or is undefined. -/
theorem C69_sign_same (P : Par) (hP : P = raccoon128 ∨ P = raccoon192 ∨ P = raccoon256) (E : Ext) (fuel0 fuel0' fuel d : Nat) (hd : ValidShares d) (b b' : List U8)
    (hb : b.length = SKey.byteLen P.κ P.k P.l d P.νt) (hb' : b'.length = SKey.byteLen P.κ P.k P.l d P.νt) (hpub : filePublic P b = filePublic P b')
    (hsec : ∀ r < P.l, ∀ c < 512, skField P d b r c % q = skField P d b' r c % q) {sk0 sk0' sk sk' : SKey P.k P.l d}
    (h0 : Api.skFromBytes P E fuel0 d b = .ok sk0) (h0' : Api.skFromBytes P E fuel0' d b' = .ok sk0') (hder : SKey.Derived P E sk0 sk) (hder' : SKey.Derived P E sk0' sk')
    (entropy msg buf : List U8) : Api.sign P E fuel d sk entropy msg buf = Api.sign P E fuel d sk' entropy msg buf := by
  have key := derived_keyOfFile P hP E d hd b hb sk0 sk (load_keyOfFile P hP E fuel0 d hd b hb sk0 h0) hder
  have key' := derived_keyOfFile P hP E d hd b' hb' sk0' sk' (load_keyOfFile P hP E fuel0' d hd b' hb' sk0' h0') hder'
  have hp : sk.pkey = sk'.pkey := by
    have := key.pkey
    rw [hpub, key'.pkey] at this
    exact (Res.ok.inj this).symm
  have hv : PVec.val sk.s = PVec.val sk'.s := by
    rw [key.val, key'.val]
    funext r c
    exact (ZMod.natCast_eq_natCast_iff _ _ _).2 (hsec r.val r.isLt c.val c.isLt)
  obtain ⟨rep, uw, -, -, e1, e2, -, -, u1, u2, -⟩ := tab_ok hd
  unfold Api.sign
  rw [e2, Res.ok_bind, e1, Res.ok_bind]
  exact sign_like P E fuel d uw rep hd.pow (by omega) (by omega) hp key.loose key'.loose hv entropy msg buf

/-- The well-formed key object with the given public key and secret. -/
theorem exists_can (l : Nat) {d : Nat} (hd : 0 < d) (v : Fin l → RPoly) : ∃ s : PVec l d, PVec.Can s ∧ PVec.val s = v := by
  let s : PVec l d := Vector.ofFn fun r => Vector.ofFn fun j => if j.val = 0 then Poly.ofZ (v r) else Poly.zero
  have e : ∀ r (hr : r < l) j (hj : j < d), s[r][j] = if j = 0 then Poly.ofZ (v ⟨r, hr⟩) else Poly.zero := by
    intro r hr j hj
    show ((Vector.ofFn _)[r])[j] = _
    rw [getElem_congr (Vector.getElem_ofFn _) rfl, Vector.getElem_ofFn]
  refine ⟨s, ?_, ?_⟩
  · intro r hr j hj
    rw [e r hr j hj]
    split
    · exact Poly.ofZ_can _
    · exact Poly.zero_can
  · funext r
    rw [val_of_first hd (fun r hr j hj h0 => by rw [e r hr j hj, if_neg (by omega)]), e r.val r.isLt 0 hd, if_pos rfl]
    exact Poly.ofZ_toZ _

/-- C69: whatever is in the file, signing with the key loaded from it is signing with the *well-formed* key object that has the file's public key and the file's secret,
reduced: every theorem about well-formed keys says what happens. -/
theorem C69_reduced (P : Par) (hP : P = raccoon128 ∨ P = raccoon192 ∨ P = raccoon256) (E : Ext) (fuel0 d : Nat) (hd : ValidShares d) (b : List U8)
    (hb : b.length = SKey.byteLen P.κ P.k P.l d P.νt) {sk0 sk : SKey P.k P.l d} (h0 : Api.skFromBytes P E fuel0 d b = .ok sk0) (hder : SKey.Derived P E sk0 sk) :
    ∃ skr : SKey P.k P.l d, skr.WF P ∧ skr.pkey = sk.pkey ∧ PVec.val skr.s = fileSecret P d b ∧
      ∀ fuel entropy msg buf, Api.sign P E fuel d sk entropy msg buf = Api.sign P E fuel d skr entropy msg buf := by
  have key := derived_keyOfFile P hP E d hd b hb sk0 sk (load_keyOfFile P hP E fuel0 d hd b hb sk0 h0) hder
  obtain ⟨s, hs, hv⟩ := exists_can P.l hd.pos (fileSecret P d b)
  refine ⟨⟨sk.pkey, s⟩, ⟨key.wf, hs⟩, rfl, hv, fun fuel entropy msg buf => ?_⟩
  obtain ⟨rep, uw, -, -, e1, e2, -, -, u1, u2, -⟩ := tab_ok hd
  unfold Api.sign
  rw [e2, Res.ok_bind, e1, Res.ok_bind]
  exact sign_like P E fuel d uw rep hd.pow (by omega) (by omega) (sk := sk) (sk' := ⟨sk.pkey, s⟩) rfl key.loose hs.loose (key.val.trans hv.symm) entropy msg buf

/-- C69: whatever is in the file, if signing with the key loaded from it returns, the public key in the file accepts the signature — also when that public key has nothing to do
with the secret. -/
theorem C69_sign_verifies (P : Par) (hP : P = raccoon128 ∨ P = raccoon192 ∨ P = raccoon256) (E : Ext) (fuel0 fuel fuel' d : Nat) (hf : fuel ≤ fuel') (hd : ValidShares d) (b : List U8)
    (hb : b.length = SKey.byteLen P.κ P.k P.l d P.νt) {sk0 sk : SKey P.k P.l d} (h0 : Api.skFromBytes P E fuel0 d b = .ok sk0) (hder : SKey.Derived P E sk0 sk)
    (entropy msg buf sig : List U8) (h : Api.sign P E fuel d sk entropy msg buf = .ok sig) :
    ∃ pk, Api.pkFromBytes P (filePublic P b) = .ok pk ∧ Api.verify P E fuel' pk msg sig = .ok true := by
  obtain ⟨skr, w, hp, -, hs⟩ := C69_reduced P hP E fuel0 d hd b hb h0 hder
  have key := derived_keyOfFile P hP E d hd b hb sk0 sk (load_keyOfFile P hP E fuel0 d hd b hb sk0 h0) hder
  rw [hs] at h
  have hv := C33_sign_verify P hP E fuel fuel' d hf hd skr w entropy msg buf sig h
  unfold Api.getPkey at hv
  rw [hp] at hv
  exact ⟨sk.pkey, key.pkey, hv⟩

end Raccoon
