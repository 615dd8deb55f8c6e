import Verif.Proofs.LeakErase3
import Verif.Proofs.LeakTrace2
import Verif.Proofs.LeakFuel
import Verif.Props.Sig
import Verif.Props.Demo
import Verif.Proofs.LeakSign
import Verif.Proofs.LeakSigns
import Verif.Proofs.LeakParse
/-!
# C66 — what control flow and addresses reveal (source-level constant time)

`(f ...).tr` is the list of observations of a run of `f` (`Model/Leak`): the outcome of every branch and loop condition, the index
of every array access and the length of every buffer.  The hypotheses below speak about the plain functions; the bounds on loop
iterations (`fuel`) of two compared runs may differ.
-/
namespace Raccoon
open Lk
attribute [-instance] Monoid.toNPow

/-! ### The instrumented functions are the functions -/

/-- C66: dropping the observations gives the function that all other theorems are about. -/
theorem C66_same_program (P : Par) (uts : List Nat) (E : Ext) (fuel d : Nat) (sk : SKey P.k P.l d) (e s m b : List U8) :
    (Api.generateL P uts E fuel d e s).val = Api.generate P uts E fuel d e s ∧
    ((Api.signL P E fuel d sk e m b).val >>= fun r => Res.ok r.1) = Api.sign P E fuel d sk e m b ∧
    (Api.refreshL P E fuel sk).val = Api.refresh P E fuel sk ∧
    (Api.skAsBytesL P E fuel sk e b).val = Api.skAsBytes P E fuel sk e b ∧
    (Api.skFromBytesL P E fuel d b).val = Api.skFromBytes P E fuel d b := by
  refine ⟨?_, ?_, val_skRefreshL E fuel sk, ?_, val_skFromBytesL E fuel _ _ _ d _ b⟩
  · simp only [Api.generateL, Api.generate, val_bind, val_lift, val_skGenerateL]
  · simp only [Api.signL, Api.sign, val_bind, val_lift, bind_assoc, val_skSignL]
  · simp only [Api.skAsBytesL, Api.skAsBytes, val_bind, val_skToBytesL, val_pure]

/-- Two completed runs with any bounds are runs with a common bound. -/
theorem Lk.lift2 {α : Type} {f g : Nat → Lk α} (hf : ∀ m n, m ≤ n → (f m).Le (f n)) (hg : ∀ m n, m ≤ n → (g m).Le (g n))
    {m n : Nat} {a b : α} (ha : (f m).val = .ok a) (hb : (g n).val = .ok b) :
    f m = f (max m n) ∧ g n = g (max m n) :=
  ⟨(hf m _ (Nat.le_max_left _ _)).ok ha, (hg n _ (Nat.le_max_right _ _)).ok hb⟩

/-! ### Key generation, refresh -/

/-- C66: key generation shows the same whatever the entropy, that is, whatever the secret key. -/
theorem C66_generate (P : Par) (uts : List Nat) (E : Ext) (fuel fuel' d : Nat) (entropy entropy' seed : List U8)
    (sk sk' : SKey P.k P.l d) (h : Api.generate P uts E fuel d entropy seed = .ok sk)
    (h' : Api.generate P uts E fuel' d entropy' seed = .ok sk') :
    (Api.generateL P uts E fuel d entropy seed).tr = (Api.generateL P uts E fuel' d entropy' seed).tr := by
  rw [← (C66_same_program P uts E fuel d sk entropy seed [] []).1] at h
  rw [← (C66_same_program P uts E fuel' d sk entropy' seed [] []).1] at h'
  obtain ⟨e1, e2⟩ := Lk.lift2 (f := fun n => Api.generateL P uts E n d entropy seed) (g := fun n => Api.generateL P uts E n d entropy' seed)
    (fun m n hmn => generateL_le hmn P uts E d entropy seed) (fun m n hmn => generateL_le hmn P uts E d entropy' seed) h h'
  rw [e1] at h ⊢
  rw [e2] at h' ⊢
  refine (Lk.Rel.bind (Lk.Rel.rfl' _) ?_ : Rel T (Api.generateL P uts E _ d entropy seed) (Api.generateL P uts E _ d entropy' seed))
    sk sk' h h' |>.1
  rintro ut _ rfl
  refine Lk.Rel.bind (Lk.Rel.rfl' _) ?_
  rintro rep _ rfl
  exact rel_skGenerateL P E _ d ut rep entropy entropy' seed

/-- C66: refreshing shows the same for any two keys with the same parameters and number of shares. -/
theorem C66_refresh (P : Par) (E : Ext) (fuel fuel' : Nat) (sk sk' r r' : SKey P.k P.l d)
    (h : Api.refresh P E fuel sk = .ok r) (h' : Api.refresh P E fuel' sk' = .ok r') :
    (Api.refreshL P E fuel sk).tr = (Api.refreshL P E fuel' sk').tr := by
  rw [← (C66_same_program P [] E fuel d sk [] [] [] []).2.2.1] at h
  rw [← (C66_same_program P [] E fuel' d sk' [] [] [] []).2.2.1] at h'
  obtain ⟨e1, e2⟩ := Lk.lift2 (f := fun n => Api.refreshL P E n sk) (g := fun n => Api.refreshL P E n sk')
    (fun m n hmn => refreshL_le hmn P E sk) (fun m n hmn => refreshL_le hmn P E sk') h h'
  rw [e1] at h ⊢
  rw [e2] at h' ⊢
  exact (rel_skRefreshL E _ sk sk' r r' h h').1

/-! ### Saving and loading a key -/

/-- C66: serialising with the same entropy shows the same for any two secret keys (their public seeds, and the buffers, having the
same length). -/
theorem C66_as_bytes (P : Par) (E : Ext) (fuel fuel' : Nat) (sk sk' : SKey P.k P.l d) (entropy buf buf' b b' : List U8)
    (hs : sk.pkey.seed.length = sk'.pkey.seed.length) (hb : buf.length = buf'.length)
    (h : Api.skAsBytes P E fuel sk entropy buf = .ok b) (h' : Api.skAsBytes P E fuel' sk' entropy buf' = .ok b') :
    (Api.skAsBytesL P E fuel sk entropy buf).tr = (Api.skAsBytesL P E fuel' sk' entropy buf').tr := by
  rw [← (C66_same_program P [] E fuel d sk entropy [] [] buf).2.2.2.1] at h
  rw [← (C66_same_program P [] E fuel' d sk' entropy [] [] buf').2.2.2.1] at h'
  obtain ⟨e1, e2⟩ := Lk.lift2 (f := fun n => Api.skAsBytesL P E n sk entropy buf) (g := fun n => Api.skAsBytesL P E n sk' entropy buf')
    (fun m n hmn => skAsBytesL_le hmn P E sk entropy buf) (fun m n hmn => skAsBytesL_le hmn P E sk' entropy buf') h h'
  rw [e1] at h ⊢
  rw [e2] at h' ⊢
  exact (Lk.Rel.bind (rel_skToBytesL E _ _ _ sk sk' hs hb _) (fun _ _ _ => Lk.Rel.pureT (a := _) (b := _)) :
    Rel T (Api.skAsBytesL P E _ sk entropy buf) (Api.skAsBytesL P E _ sk' entropy buf')) b b' h h' |>.1

theorem subspan_congr {b b' : List U8} (hl : b.length = b'.length) (o n : Nat) (h : ∀ i, o ≤ i → i < o + n → b[i]? = b'[i]?) :
    subspan b o n = subspan b' o n := by
  unfold subspan
  rw [hl]
  have : (b.drop o).take n = (b'.drop o).take n := by
    apply List.ext_getElem?
    intro i
    rw [List.getElem?_take, List.getElem?_take]
    split
    · rw [List.getElem?_drop, List.getElem?_drop]; exact h _ (by omega) (by omega)
    · rfl
  rw [this]

/-- C66: loading shows the same for any two strings of the same length that carry the same mask seeds, the `(d−1)·κ/8` bytes after
the public key: nothing about the serialised secret itself shows. -/
theorem C66_from_bytes (P : Par) (E : Ext) (fuel fuel' d : Nat) (b b' : List U8) (sk sk' : SKey P.k P.l d)
    (hl : b.length = b'.length)
    (hseeds : ∀ i, PKey.byteLen P.κ P.k P.νt ≤ i → i < PKey.byteLen P.κ P.k P.νt + (d - 1) * (P.κ / 8) → b[i]? = b'[i]?)
    (h : Api.skFromBytes P E fuel d b = .ok sk) (h' : Api.skFromBytes P E fuel' d b' = .ok sk') :
    (Api.skFromBytesL P E fuel d b).tr = (Api.skFromBytesL P E fuel' d b').tr := by
  rw [← (C66_same_program P [] E fuel d sk [] [] [] b).2.2.2.2] at h
  rw [← (C66_same_program P [] E fuel' d sk' [] [] [] b').2.2.2.2] at h'
  obtain ⟨e1, e2⟩ := Lk.lift2 (f := fun n => Api.skFromBytesL P E n d b) (g := fun n => Api.skFromBytesL P E n d b')
    (fun m n hmn => skFromBytesL_le hmn P E d b) (fun m n hmn => skFromBytesL_le hmn P E d b') h h'
  rw [e1] at h ⊢
  rw [e2] at h' ⊢
  have H : Rel T (Api.skFromBytesL P E (max fuel fuel') d b) (Api.skFromBytesL P E (max fuel fuel') d b') := by
    unfold Api.skFromBytesL SKey.fromBytesL
    generalize hp : PKey.byteLen P.κ P.k P.νt = pklen at hseeds ⊢
    dsimp only
    refine Lk.Rel.bind (Rel.subspan _ _ _ _) fun x x' hx => Lk.Rel.bind (rel_decodePublicKeyL _ _ _ hx) ?_
    rintro ⟨s, t⟩ ⟨s', t'⟩ -
    rw [hl]
    intro u u' hu hu'
    obtain ⟨c, hc, hu⟩ := bind_val_ok hu
    obtain ⟨c', hc', hu'⟩ := bind_val_ok hu'
    rw [tr_bind_ok hc, tr_bind_ok hc']
    have hc0 : subspan b pklen (b'.length - pklen) = .ok c := hc
    have hc0' : subspan b' pklen (b'.length - pklen) = .ok c' := hc'
    unfold subspan at hc0 hc0'
    rw [hl] at hc0
    have e0 : pklen + (b'.length - pklen) ≤ b'.length := by
      by_contra hn
      rw [if_neg hn] at hc0; cases hc0
    rw [if_pos e0] at hc0 hc0'
    have hc1 := Res.ok.inj hc0
    have hc1' := Res.ok.inj hc0'
    have hsub : ∀ j < d - 1, subspan c (j * (P.κ / 8)) (P.κ / 8) = subspan c' (j * (P.κ / 8)) (P.κ / 8) := by
      intro j hj
      refine subspan_congr (by rw [← hc1, ← hc1', List.length_take, List.length_take, List.length_drop, List.length_drop, hl]) _ _ ?_
      intro i hi1 hi2
      rw [← hc1, ← hc1', List.getElem?_take, List.getElem?_take]
      split
      · rw [List.getElem?_drop, List.getElem?_drop]
        refine hseeds _ (by omega) ?_
        have : (j + 1) * (P.κ / 8) ≤ (d - 1) * (P.κ / 8) := Nat.mul_le_mul_right _ hj
        rw [Nat.add_mul, Nat.one_mul] at this
        omega
      · rfl
    have R := Lk.Rel.bind (S := T) (f := fun s1 => (Pure.pure (⟨⟨s, t⟩, s1⟩ : SKey P.k P.l d) : Lk _))
      (f' := fun s1 => (Pure.pure (⟨⟨s', t'⟩, s1⟩ : SKey P.k P.l d) : Lk _))
      (rel_maskDecompressL E (max fuel fuel') P.κ P.l d c c' hsub) (fun _ _ _ => Lk.Rel.pureT)
    obtain ⟨r, -⟩ := R u u' hu hu'
    refine ⟨?_, trivial⟩
    show (subspanL b pklen _).tr ++ _ = (subspanL b' pklen _).tr ++ _
    rw [r]
    rfl
  exact (H sk sk' h h').1

/-! ### Signing -/

/-- C66: the second component of the instrumented `sign` is the list of the signatures of the attempts (hash, hint, response): those
rejected, in order, and the released one. -/
theorem C66_sign_attempts (P : Par) (hP : P = raccoon128 ∨ P = raccoon192 ∨ P = raccoon256) (E : Ext) (fuel d : Nat) (hd : ValidShares d)
    (sk : SKey P.k P.l d) (hsk : sk.WF P) (s : Fin P.l → RPoly) (hs : sk.s.IsNtt s) (entropy msg buf b : List U8)
    (h : Api.sign P E fuel d sk entropy msg buf = .ok b) :
    ∃ L, (Api.signL P E fuel d sk entropy msg buf).val = .ok (b, L) ∧
    ∃ uw rep pkb A a, tab uwTable (BitVec.ofNat 64 d) = .ok uw ∧ tab repTable (BitVec.ofNat 64 d) = .ok rep ∧
      Api.pkAsBytes P sk.pkey (List.replicate (PKey.byteLen P.κ P.k P.νt) 0) = .ok pkb ∧
      PMat.expandA E fuel P.k P.l sk.pkey.seed = .ok A ∧ A.Is a ∧
      Attempts P E fuel d uw rep a (PVec.val sk.pkey.t) s (messageHash E P.κ pkb msg) (E.shake128 entropy) buf.length b 0 L := by
  rw [← (C66_same_program P [] E fuel d sk entropy [] msg buf).2.1] at h
  obtain ⟨⟨b', L⟩, h1, h2⟩ := Res.bind_eq_ok.1 h
  obtain rfl : b' = b := Res.ok.inj h2
  exact ⟨L, h1, signL_attempts P hP E fuel d hd sk hsk s hs entropy msg buf b' L h1⟩

/-- C66: what `sign` shows depends on the secret key, its shares, the entropy and the message only through the signatures of its
attempts: two runs with keys of the same public seed, messages of the same length and the same buffer, whose attempts have the same
signatures, show the same. -/
theorem C66_sign (P : Par) (E : Ext) (fuel fuel' d : Nat) (sk sk' : SKey P.k P.l d) (entropy entropy' msg msg' buf b b' : List U8)
    (L : List Sig) (hs : sk.pkey.seed = sk'.pkey.seed) (hm : msg.length = msg'.length)
    (h : (Api.signL P E fuel d sk entropy msg buf).val = .ok (b, L))
    (h' : (Api.signL P E fuel' d sk' entropy' msg' buf).val = .ok (b', L)) :
    (Api.signL P E fuel d sk entropy msg buf).tr = (Api.signL P E fuel' d sk' entropy' msg' buf).tr ∧ b = b' := by
  obtain ⟨e1, e2⟩ := Lk.lift2 (f := fun n => Api.signL P E n d sk entropy msg buf) (g := fun n => Api.signL P E n d sk' entropy' msg' buf)
    (fun m n hmn => signL_le hmn P E d sk entropy msg buf) (fun m n hmn => signL_le hmn P E d sk' entropy' msg' buf) h h'
  rw [e1] at h ⊢
  rw [e2] at h' ⊢
  have H : RelIf (fun a b => a.2 = b.2) Eq (Api.signL P E (max fuel fuel') d sk entropy msg buf)
      (Api.signL P E (max fuel fuel') d sk' entropy' msg' buf) := by
    refine Lk.RelIf.bind (Lk.Rel.rfl' _) ?_
    rintro uw _ rfl
    refine Lk.RelIf.bind (Lk.Rel.rfl' _) ?_
    rintro rep _ rfl
    exact rel_skSignL P E _ d uw rep sk sk' entropy entropy' buf hs hm
  obtain ⟨h1, h2⟩ := H _ _ h h' rfl
  exact ⟨h1, (Prod.mk.inj h2).1⟩

theorem Attempts.last {P : Par} {E : Ext} {fuel d uw rep : Nat} {a : Fin P.k → Fin P.l → RPoly} {t : Fin P.k → RPoly}
    {s : Fin P.l → RPoly} {μ : List U8} {stream : Nat → U8} {len : Nat} {b : List U8} : ∀ {L : List Sig} {n : Nat},
    Attempts P E fuel d uw rep a t s μ stream len b n L → ∃ R g, L = R ++ [g] ∧ IsSigEncoding g.cHash g.h g.z len b ∧
      g.cHash.length = 2 * P.κ / 8 ∧ g.h.length = P.k * 512 ∧ g.z.length = P.l * 512
  | [], _, h => h.elim
  | g :: L, n, ⟨⟨c, _, i⟩, h⟩ => by
    rcases h with ⟨rfl, -, e⟩ | ⟨-, h⟩
    · refine ⟨[], g, rfl, e, ?_, i.hlen, i.zlen⟩
      rw [i.hash]
      unfold challengeHash xofOut
      rw [List.length_map, List.length_range]
    · obtain ⟨R, g', rfl, r⟩ := Attempts.last h
      exact ⟨g :: R, g', rfl, r⟩

/-- C66: of the released attempt nothing shows beyond the signature itself: two runs that return the same signature after the same
rejected attempts show the same.  In particular (`R = []`), runs that return the same signature at the first attempt. -/
theorem C66_sign_released (P : Par) (hP : P = raccoon128 ∨ P = raccoon192 ∨ P = raccoon256) (E : Ext) (fuel fuel' d : Nat)
    (hd : ValidShares d) (sk sk' : SKey P.k P.l d) (hsk : sk.WF P) (hsk' : sk'.WF P) (entropy entropy' msg msg' buf b : List U8)
    (L L' : List Sig) (hs : sk.pkey.seed = sk'.pkey.seed) (hm : msg.length = msg'.length) (hR : L.dropLast = L'.dropLast)
    (h : (Api.signL P E fuel d sk entropy msg buf).val = .ok (b, L))
    (h' : (Api.signL P E fuel' d sk' entropy' msg' buf).val = .ok (b, L')) :
    (Api.signL P E fuel d sk entropy msg buf).tr = (Api.signL P E fuel' d sk' entropy' msg' buf).tr := by
  obtain ⟨s, hss⟩ := PVec.IsNtt.exists sk.s
  obtain ⟨s', hss'⟩ := PVec.IsNtt.exists sk'.s
  obtain ⟨uw, rep, pkb, A, a, -, -, -, -, -, r⟩ := signL_attempts P hP E fuel d hd sk hsk s hss entropy msg buf b L h
  obtain ⟨uw', rep', pkb', A', a', -, -, -, -, -, r'⟩ := signL_attempts P hP E fuel' d hd sk' hsk' s' hss' entropy' msg' buf b L' h'
  obtain ⟨R, g, rfl, e, l1, l2, l3⟩ := r.last
  obtain ⟨R', g', rfl, e', l1', l2', l3'⟩ := r'.last
  obtain ⟨k1, k2, k3⟩ := C29_format_injective _ _ _ _ _ _ _ _ e e' (by omega) (by omega) (by omega)
  have hg : g = g' := by
    cases g; cases g'
    dsimp only at k1 k2 k3
    rw [k1, k2, k3]
  rw [List.dropLast_concat, List.dropLast_concat] at hR
  rw [hR, hg] at h
  exact (C66_sign P E fuel fuel' d sk sk' entropy entropy' msg msg' buf b b _ hs hm h h').1

/-- The attempts are determined by the secret, not by its shares. -/
theorem Attempts.unique {P : Par} {E : Ext} {fuel d uw rep : Nat} {a : Fin P.k → Fin P.l → RPoly} {t : Fin P.k → RPoly}
    {s : Fin P.l → RPoly} {μ : List U8} {stream : Nat → U8} {len : Nat} {b b' : List U8} : ∀ {L L' : List Sig} {n : Nat},
    Attempts P E fuel d uw rep a t s μ stream len b n L → Attempts P E fuel d uw rep a t s μ stream len b' n L' → L = L'
  | [], _, _, h, _ => h.elim
  | _ :: _, [], _, _, h => h.elim
  | g :: L, g' :: L', n, ⟨x, h⟩, ⟨x', h'⟩ => by
    obtain ⟨k1, k2, k3⟩ := C52_attempt_unique P E fuel d uw rep a t s μ stream n _ _ _ _ _ _ x x'
    have hg : g = g' := by
      cases g; cases g'
      dsimp only at k1 k2 k3
      rw [k1, k2, k3]
    subst hg
    rcases h with ⟨rfl, h, -⟩ | ⟨h, r⟩
    · rcases h' with ⟨rfl, -⟩ | ⟨h', -⟩
      · rfl
      · exact absurd h h'.1
    · rcases h' with ⟨rfl, h', -⟩ | ⟨-, r'⟩
      · exact absurd h' h.1
      · rw [Attempts.unique r r']

/-- C66: two keys that share the same secret differently (for instance before and after a refresh or a trip through bytes) sign, with
the same entropy, with the same observations and the same result. -/
theorem C66_sign_shares (P : Par) (hP : P = raccoon128 ∨ P = raccoon192 ∨ P = raccoon256) (E : Ext) (fuel fuel' d : Nat)
    (hd : ValidShares d) (sk sk' : SKey P.k P.l d) (hsk : sk.WF P) (hsk' : sk'.WF P) (hpk : sk.pkey = sk'.pkey)
    (hv : PVec.val sk.s = PVec.val sk'.s) (entropy msg buf b b' : List U8) (h : Api.sign P E fuel d sk entropy msg buf = .ok b)
    (h' : Api.sign P E fuel' d sk' entropy msg buf = .ok b') :
    (Api.signL P E fuel d sk entropy msg buf).tr = (Api.signL P E fuel' d sk' entropy msg buf).tr ∧ b = b' := by
  obtain ⟨s, hss⟩ := PVec.IsNtt.exists sk.s
  have hss' : sk'.s.IsNtt s := fun j => by rw [← hv]; exact hss j
  rw [← (C66_same_program P [] E fuel d sk entropy [] msg buf).2.1] at h
  rw [← (C66_same_program P [] E fuel' d sk' entropy [] msg buf).2.1] at h'
  obtain ⟨⟨b1, L⟩, h1, h2⟩ := Res.bind_eq_ok.1 h
  obtain ⟨⟨b1', L'⟩, h1', h2'⟩ := Res.bind_eq_ok.1 h'
  obtain rfl : b1 = b := Res.ok.inj h2
  obtain rfl : b1' = b' := Res.ok.inj h2'
  obtain ⟨e1, e2⟩ := Lk.lift2 (f := fun n => Api.signL P E n d sk entropy msg buf) (g := fun n => Api.signL P E n d sk' entropy msg buf)
    (fun m n hmn => signL_le hmn P E d sk entropy msg buf) (fun m n hmn => signL_le hmn P E d sk' entropy msg buf) h1 h1'
  rw [e1] at h1 ⊢
  rw [e2] at h1' ⊢
  obtain ⟨uw, rep, pkb, A, a, t1, t2, t3, t4, t5, r⟩ := signL_attempts P hP E _ d hd sk hsk s hss entropy msg buf b1 L h1
  obtain ⟨uw', rep', pkb', A', a', t1', t2', t3', t4', t5', r'⟩ := signL_attempts P hP E _ d hd sk' hsk' s hss' entropy msg buf b1' L' h1'
  rw [← hpk] at t3' t4' r'
  obtain rfl := Res.ok.inj (t1.symm.trans t1')
  obtain rfl := Res.ok.inj (t2.symm.trans t2')
  obtain rfl := Res.ok.inj (t3.symm.trans t3')
  obtain rfl := Res.ok.inj (t4.symm.trans t4')
  obtain rfl := t5.unique t5'
  obtain rfl := r.unique r'
  exact C66_sign P E _ _ d sk sk' entropy entropy msg msg buf b1 b1' L (by rw [hpk]) rfl h1 h1'

/-! ### Building blocks -/

/-- C66: comparing polynomials, masked polynomials, vectors, or byte strings of a given length always shows the same. -/
theorem C66_comparisons (k d : Nat) (p p' r r' : Poly) (m m' n n' : MPoly d) (v v' w w' : PVec k d) (a a' b b' : List U8)
    (ha : a.length = a'.length) :
    (Poly.eqL p r).tr = (Poly.eqL p' r').tr ∧ (MPoly.eqL m n).tr = (MPoly.eqL m' n').tr ∧ (PVec.eqL v w).tr = (PVec.eqL v' w').tr ∧
    (ctEqByteArrayL a b).tr = (ctEqByteArrayL a' b').tr ∧
    (Poly.eqL p r).val = .ok (Poly.eq p r) ∧ (MPoly.eqL m n).val = .ok (MPoly.eq m n) ∧ (PVec.eqL v w).val = .ok (PVec.eq v w) :=
  ⟨(Poly.rel_eqL p r p' r' _ _ (Poly.val_eqL _ _) (Poly.val_eqL _ _)).1, (MPoly.rel_eqL m n m' n' _ _ (MPoly.val_eqL _ _) (MPoly.val_eqL _ _)).1,
    (PVec.rel_eqL v w v' w' _ _ (PVec.val_eqL _ _) (PVec.val_eqL _ _)).1,
    (Rel.ctEq ha _ _ (val_ctEqByteArrayL a b) (val_ctEqByteArrayL a' b')).1, Poly.val_eqL _ _, MPoly.val_eqL _ _, PVec.val_eqL _ _⟩

/-! ### What does show -/

/-- C66: `inv` is not constant time: its first observation is whether the element is zero (it is used on no secret). -/
theorem C66_inverse_shows_zero (x : Zq) : x.invL.tr.head? = some (.br (decide (x.raw = 0))) ∧ x.invL.val = x.inv := ⟨rfl, val_invL x⟩

/-- C66: the encoder, which `sign` runs before the norm check and hence also on responses that it then rejects, shows the sign of every
hint and response coefficient: two completed encodings that show the same have coefficients of the same signs. -/
theorem C66_encoder_shows_signs (c c' : List U8) (h h' z z' : List Int) (buf buf' b b' : List U8) (hc : c.length = c'.length)
    (hh : h.length = h'.length) (hz : z.length = z'.length) (hb : buf.length = buf'.length)
    (e : encodeSig c h z buf = .ok (true, b)) (e' : encodeSig c' h' z' buf' = .ok (true, b'))
    (ht : (encodeSigL c h z buf).tr = (encodeSigL c' h' z' buf').tr) :
    h.map Int.sign = h'.map Int.sign ∧ z.map Int.sign = z'.map Int.sign := encodeSig_signs hc hh hz hb e e' ht

/-- C66, what `sign` shows at least: two runs (with keys of the same public seed, messages and buffers of the same lengths) that show the
same made the same number of attempts, and attempt by attempt, *rejected ones included*, agree in which coefficients of the challenge are
zero, in whether the encoding fitted, and, where it did, in the sign of every coefficient of the hint and of the response. -/
theorem C66_sign_shows (P : Par) (E : Ext) (fuel fuel' d : Nat) (sk sk' : SKey P.k P.l d) (entropy entropy' msg msg' buf buf' b b' : List U8)
    (L L' : List Sig) (hs : sk.pkey.seed = sk'.pkey.seed) (hm : msg.length = msg'.length) (hb : buf.length = buf'.length)
    (h : (Api.signL P E fuel d sk entropy msg buf).val = .ok (b, L))
    (h' : (Api.signL P E fuel' d sk' entropy' msg' buf').val = .ok (b', L'))
    (ht : (Api.signL P E fuel d sk entropy msg buf).tr = (Api.signL P E fuel' d sk' entropy' msg' buf').tr) :
    L.length = L'.length ∧ List.Forall₂ (SameShown E P buf.length) L L' := by
  obtain ⟨e1, e2⟩ := Lk.lift2 (f := fun n => Api.signL P E n d sk entropy msg buf) (g := fun n => Api.signL P E n d sk' entropy' msg' buf')
    (fun m n hmn => signL_le hmn P E d sk entropy msg buf) (fun m n hmn => signL_le hmn P E d sk' entropy' msg' buf') h h'
  rw [e1] at h ht
  rw [e2] at h' ht
  have H : Sd (fun x y => List.Forall₂ (SameShown E P buf.length) x.2 y.2) (Api.signL P E (max fuel fuel') d sk entropy msg buf)
      (Api.signL P E (max fuel fuel') d sk' entropy' msg' buf') := by
    refine Lk.Sd.bind (Lk.Rel.rfl' _).sd ?_
    rintro uw _ rfl
    refine Lk.Sd.bind (Lk.Rel.rfl' _).sd ?_
    rintro rep _ rfl
    exact sd_skSignL P E _ d uw rep sk sk' entropy entropy' hs hm hb
  have r := (H _ _ [] [] h h' (by rw [ht])).1
  exact ⟨r.length_eq, r⟩

/-! ### The hypotheses are met -/

/-- Non-vacuity: the toy run of `Props/Demo` with two entropies and two messages: the generated keys, the refreshed keys and the saved
keys all show the same. -/
example (e e' seed e1 msg : List U8) (hseed : seed.length = 16) :
    ∃ (sk sk' r r' : SKey 5 4 2) (b b' : List U8),
      Api.generate raccoon128 (utTableOf raccoon128) demoE 512 2 e seed = .ok sk ∧
      Api.generate raccoon128 (utTableOf raccoon128) demoE 512 2 e' seed = .ok sk' ∧
      Api.refresh raccoon128 demoE 512 sk = .ok r ∧ Api.refresh raccoon128 demoE 512 sk' = .ok r' ∧
      Api.skAsBytes raccoon128 demoE 512 r e1 (List.replicate (SKey.byteLen 128 5 4 2 42) 0) = .ok b ∧
      Api.skAsBytes raccoon128 demoE 512 r' e1 (List.replicate (SKey.byteLen 128 5 4 2 42) 0) = .ok b' ∧
      (Api.generateL raccoon128 (utTableOf raccoon128) demoE 512 2 e seed).tr = (Api.generateL raccoon128 (utTableOf raccoon128) demoE 512 2 e' seed).tr ∧
      (Api.refreshL raccoon128 demoE 512 sk).tr = (Api.refreshL raccoon128 demoE 512 sk').tr := by
  obtain ⟨sk, r, _, b, _, h1, -, h2, h3, -⟩ := demo_run e seed e1 [] msg hseed
  obtain ⟨sk', r', _, b', _, h1', -, h2', h3', -⟩ := demo_run e' seed e1 [] msg hseed
  exact ⟨sk, sk', r, r', b, b', h1, h1', h2, h2', h3, h3', C66_generate _ _ _ _ _ _ _ _ _ sk sk' h1 h1', C66_refresh _ _ _ _ _ _ _ _ h2 h2'⟩

/-- Non-vacuity: the toy signer completes, so its attempts exist and `C66_sign` and `C66_sign_shares` apply to it. -/
example (entropy0 seed entropy1 entropy2 msg : List U8) (hseed : seed.length = 16) :
    ∃ (sk0 sk2 : SKey 5 4 2) (b : List U8) (L : List Sig), sk0.pkey = sk2.pkey ∧ PVec.val sk0.s = PVec.val sk2.s ∧ L ≠ [] ∧
      (Api.signL raccoon128 demoE 512 2 sk2 entropy2 msg (List.replicate 11524 0)).val = .ok (b, L) := by
  have hP : raccoon128 = raccoon128 ∨ raccoon128 = raccoon192 ∨ raccoon128 = raccoon256 := Or.inl rfl
  obtain ⟨sk0, sk1, sk2, skb, b, h0, -, -, -, -, hder, hsig, -⟩ := demo_run entropy0 seed entropy1 entropy2 msg hseed
  have w0 := C37_wellformed raccoon128 hP demoE 512 2 demo_d entropy0 seed hseed sk0 h0
  obtain ⟨w2, p2, v2⟩ := C38_history raccoon128 hP demoE 2 demo_d sk0 sk2 w0 hder
  obtain ⟨s, hss⟩ := PVec.IsNtt.exists sk2.s
  obtain ⟨L, h1, uw, rep, pkb, A, a, -, -, -, -, -, r⟩ := C66_sign_attempts raccoon128 hP demoE 512 2 demo_d sk2 w2 s hss entropy2 msg _ b hsig
  refine ⟨sk0, sk2, b, L, p2.symm, v2.symm, ?_, h1⟩
  rintro rfl
  exact r

end Raccoon
