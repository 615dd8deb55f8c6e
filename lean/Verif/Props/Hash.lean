import Verif.Proofs.Loops
import Verif.Proofs.Bytes
import Verif.Spec.Xof
import Verif.Spec.Poly
import Verif.Proofs.Field
import Verif.Model.Api
import Mathlib.Data.List.Basic
/-!
# C40, C41: challenge hash and message binding (`polynomial/challenge.hpp`, `public_key.hpp`, `secret_key.hpp`)
-/
namespace Raccoon
attribute [-instance] Monoid.toNPow

theorem squeeze_fst (x : Xof) (h : x.pos = 0) (n : Nat) : (x.squeeze n).1 = xofOut x.fn x.absorbed n := by
  unfold Xof.squeeze xofOut
  rw [h]
  apply List.map_congr_left
  intro i _
  rw [Nat.zero_add]

/-! ### C41 -/

/-- C41: the signer's and the verifier's copies of the code both compute H(H(pk)‖msg), hence agree. -/
theorem C41_mu (E : Ext) (κ : Nat) (pkBytes msg : List U8) :
    PKey.bindMsg E κ pkBytes msg = xofOut E.shake256 (xofOut E.shake256 pkBytes (2 * κ / 8) ++ msg) (2 * κ / 8) ∧
    SKey.bindMsg E κ pkBytes msg = PKey.bindMsg E κ pkBytes msg := by
  constructor
  · unfold PKey.bindMsg
    show (Xof.squeeze _ _).1 = _
    rw [squeeze_fst _ rfl]
    show xofOut E.shake256 (([] ++ _) ++ msg) _ = _
    rw [List.nil_append]
    apply congrArg (fun x => xofOut E.shake256 (x ++ msg) (2 * κ / 8))
    exact squeeze_fst _ rfl _
  · rfl

/-- The two messages given to the hash function when deriving 𝜇. -/
def muInputs (E : Ext) (κ : Nat) (pkBytes msg : List U8) : List U8 × List U8 :=
  (pkBytes, xofOut E.shake256 pkBytes (2 * κ / 8) ++ msg)

/-- C41: different public keys differ in the first hash input; with equal key digests, different messages differ in the second.
More generally the second input determines (digest, message). -/
theorem C41_binding (E : Ext) (κ : Nat) (pk pk' msg msg' : List U8) :
    (pk ≠ pk' → (muInputs E κ pk msg).1 ≠ (muInputs E κ pk' msg').1) ∧
    ((muInputs E κ pk msg).2 = (muInputs E κ pk' msg').2 →
      xofOut E.shake256 pk (2 * κ / 8) = xofOut E.shake256 pk' (2 * κ / 8) ∧ msg = msg') := by
  refine ⟨id, fun h => ?_⟩
  exact List.append_inj h (by simp [xofOut])

/-- C41: consequently, if both digests of the key and message derivation collide only for equal inputs (no collision of the
hash function among the inputs at hand), equal 𝜇 means equal key bytes and equal message. -/
theorem C41_collision_free (E : Ext) (κ : Nat) (pk pk' msg msg' : List U8)
    (h1 : xofOut E.shake256 pk (2 * κ / 8) = xofOut E.shake256 pk' (2 * κ / 8) → pk = pk')
    (h2 : xofOut E.shake256 (muInputs E κ pk msg).2 (2 * κ / 8) = xofOut E.shake256 (muInputs E κ pk' msg').2 (2 * κ / 8) →
      (muInputs E κ pk msg).2 = (muInputs E κ pk' msg').2)
    (h : SKey.bindMsg E κ pk msg = PKey.bindMsg E κ pk' msg') : pk = pk' ∧ msg = msg' := by
  rw [(C41_mu E κ pk msg).2, (C41_mu E κ pk msg).1, (C41_mu E κ pk' msg').1] at h
  have := (C41_binding E κ pk pk' msg msg').2 (h2 h)
  exact ⟨h1 this.1, this.2⟩

/-- Non-vacuity: hypotheses hold e.g. for a stream function that starts with the message itself. -/
example : ∃ E : Ext, xofOut E.shake256 [1] (2 * 128 / 8) ≠ xofOut E.shake256 [2] (2 * 128 / 8) :=
  ⟨⟨fun _ _ => 0, fun m i => (m[i]?).getD 0, id, id, 0⟩, by decide⟩

/-! ### C40 -/

/-- The bytes that identify the commitment: low byte of every coefficient, row by row. -/
def lowBytes (w : PVec k 1) : List U8 := w.toList.flatMap fun row => row[0].toList.map fun c => c.raw.setWidth 8

/-- The specified hash input: domain separator `'h'`, dimension, six zero bytes, the coefficients, 𝜇. -/
def chalInput (w : PVec k 1) (μ : List U8) : List U8 :=
  [0x68, BitVec.ofNat 8 k, 0, 0, 0, 0, 0, 0] ++ lowBytes w ++ μ

theorem lowBytes_length (w : PVec k 1) : (lowBytes w).length = k * 512 := by
  unfold lowBytes
  rw [List.length_flatMap]
  simp

theorem flatMap_get {α β : Type} (n : Nat) (f : α → List β) (hf : ∀ a, (f a).length = n) : ∀ (l : List α) (i : Nat) (_hn : 0 < n)
    (hi : i < (l.flatMap f).length) (h1 : i / n < l.length) (h2 : i % n < (f l[i / n]).length),
    (l.flatMap f)[i] = (f l[i / n])[i % n] := by
  intro l
  induction l with
  | nil => intro i hn hi; simp at hi
  | cons a l ih =>
    intro i hn hi h1 h2
    rcases Nat.lt_or_ge i n with hlt | hge
    · have e1 : i / n = 0 := Nat.div_eq_of_lt hlt
      have e2 : i % n = i := Nat.mod_eq_of_lt hlt
      simp only [List.flatMap_cons, e1, e2, List.getElem_cons_zero]
      rw [List.getElem_append_left (by rw [hf]; exact hlt)]
    · obtain ⟨j, rfl⟩ : ∃ j, i = j + n := ⟨i - n, by omega⟩
      have e1 : (j + n) / n = j / n + 1 := Nat.add_div_right _ hn
      have e2 : (j + n) % n = j % n := Nat.add_mod_right _ _
      simp only [List.flatMap_cons, e1, e2, List.getElem_cons_succ]
      rw [List.getElem_append_right (by rw [hf]; omega)]
      have e3 : j + n - (f a).length = j := by rw [hf]; omega
      simp only [e3]
      have h1' : j / n < l.length := by
        rw [e1] at h1; simpa using h1
      apply ih j hn _ h1'

theorem lowBytes_get (w : PVec k 1) (i : Nat) (_hi : i < k * 512) (h1 : i / 512 < k) (h2 : i % 512 < 512)
    (h3 : i < (lowBytes w).length) : (lowBytes w)[i] = (w[i / 512][0][i % 512]).raw.setWidth 8 := by
  have := flatMap_get 512 (fun row : MPoly 1 => row[0].toList.map fun c : Zq => (c.raw.setWidth 8 : U8)) (by intro a; simp) w.toList i
    (by omega) h3 (by simpa using h1) (by simpa using h2)
  refine Eq.trans this ?_
  simp

theorem take_set_succ (b : Vector U8 136) (off : Nat) (h : off < 136) (x : U8) :
    (b.set off x h).toList.take (off + 1) = b.toList.take off ++ [x] := by
  apply List.ext_getElem
  · simp; omega
  · intro j h1 h2
    have hj : j < off + 1 := by simp at h1; omega
    simp only [List.getElem_take, Vector.getElem_toList]
    rcases Nat.lt_or_ge j off with hlt | hge
    · rw [List.getElem_append_left (by simp; omega), Vector.getElem_set_ne _ _ (by omega)]; simp
    · have : j = off := by omega
      subst this
      rw [Vector.getElem_set_self, List.getElem_append_right (by simp)]
      simp

/-- C40: whatever happens in the 136-byte block buffer, `chal_hash` is SHAKE256 of exactly the specified input. -/
theorem C40_hash_input (E : Ext) (κ : Nat) (w : PVec k 1) (μ : List U8) :
    chalHash E κ w μ = .ok (xofOut E.shake256 (chalInput w μ) (2 * κ / 8)) := by
  let hdr : List U8 := [0x68, BitVec.ofNat 8 k, 0, 0, 0, 0, 0, 0]
  let buf0 : Vector U8 136 := (#v[0x68, BitVec.ofNat 8 k, 0, 0, 0, 0, 0, 0] : Vector U8 8) ++ (Vector.replicate 128 0 : Vector U8 128)
  have H := forLoop_Ok1 (lo := 0) (hi := k * 512) (by omega) (body := fun i s => chalHashStep w i s)
    (s := (Xof.new E.shake256, buf0, 8))
    (fun i s => s.1.fn = E.shake256 ∧ s.1.pos = 0 ∧ 0 < s.2.2 ∧ s.2.2 ≤ 136 ∧
      s.1.absorbed ++ s.2.1.toList.take s.2.2 = hdr ++ (lowBytes w).take i)
    ⟨rfl, rfl, Nat.le_of_ble_eq_true rfl, Nat.le_of_ble_eq_true rfl, by
      show [] ++ buf0.toList.take 8 = _
      simp only [buf0, hdr, List.take_zero, List.append_nil, List.nil_append, Vector.toList_append]
      rfl⟩
    (by
      rintro i ⟨xof, buf, off⟩ - hi ⟨h1, h2, h3, h4, h5⟩
      have hr : i / 512 < k := by omega
      have hc : i % 512 < 512 := by omega
      have hl : i < (lowBytes w).length := by rw [lowBytes_length]; exact hi
      have key : ∀ (xof : Xof) (off : Nat), xof.fn = E.shake256 → xof.pos = 0 → ∀ (ho : off < 136),
          xof.absorbed ++ buf.toList.take off = hdr ++ (lowBytes w).take i →
          (do let row ← w.rd (i / 512)
              let p ← row.rd 0
              let c ← p.rd (i % 512)
              let buf ← buf.wr off (c.raw.setWidth 8)
              Res.ok (xof, buf, off + 1)).Ok (fun s => s.1.fn = E.shake256 ∧ s.1.pos = 0 ∧ 0 < s.2.2 ∧ s.2.2 ≤ 136 ∧
                s.1.absorbed ++ s.2.1.toList.take s.2.2 = hdr ++ (lowBytes w).take (i + 1)) := by
        intro xof off g1 g2 ho g3
        rw [rd_ok hr, Res.ok_bind, rd_ok (by omega), Res.ok_bind, rd_ok hc, Res.ok_bind, wr_ok ho, Res.ok_bind, Res.ok_ok]
        refine ⟨g1, g2, by show 0 < off + 1; omega, by show off + 1 ≤ 136; omega, ?_⟩
        show xof.absorbed ++ (buf.set off _ ho).toList.take (off + 1) = _
        rw [take_set_succ, ← List.append_assoc, g3, List.append_assoc, List.take_add_one, List.getElem?_eq_getElem hl,
          lowBytes_get w i hi hr hc hl]
        rfl
      unfold chalHashStep
      by_cases ho : off = 136
      · subst ho
        refine key (xof.absorb buf.toList) 0 h1 h2 (by omega) ?_
        show (xof.absorbed ++ buf.toList) ++ [] = _
        rw [List.append_nil, ← h5]
        apply congrArg
        exact (List.take_of_length_le (by simp)).symm
      · replace h4 : off ≤ 136 := h4
        have e : (if off = 136 then (xof.absorb buf.toList, 0) else (xof, off)) = (xof, off) := if_neg ho
        simp only [e]
        exact key xof off h1 h2 (by omega) h5)
  obtain ⟨⟨xof, buf, off⟩, e, h1, h2, h3, h4, h5⟩ := H
  unfold chalHash
  show (forLoop 0 (k * 512) 1 (fun i s => chalHashStep w i s) (Xof.new E.shake256, buf0, 8) >>= _) = _
  rw [e, Res.ok_bind]
  replace h3 : 0 < off := h3
  replace h4 : off ≤ 136 := h4
  show ((if off > 0 then _ else _) >>= _) = _
  rw [if_pos h3, subspan_ok (by simp; omega), Res.ok_bind, Res.ok_bind]
  apply congrArg
  rw [squeeze_fst _ (by exact h2)]
  show xofOut xof.fn ((xof.absorbed ++ (buf.toList.drop 0).take off) ++ μ) _ = _
  replace h5 : xof.absorbed ++ buf.toList.take off = hdr ++ (lowBytes w).take (k * 512) := h5
  rw [List.drop_zero, h5, List.take_of_length_le (by rw [lowBytes_length])]
  rw [show xof.fn = E.shake256 from h1]
  rfl

theorem lowBytes_inj {w w' : PVec k 1} (hw : ∀ r (hr : r < k), Poly.Below 256 w[r][0]) (hw' : ∀ r (hr : r < k), Poly.Below 256 w'[r][0])
    (h : lowBytes w = lowBytes w') : w = w' := by
  apply Vector.ext
  intro r hr
  apply Vector.ext
  intro s hs
  obtain rfl : s = 0 := by omega
  apply Vector.ext
  intro c hc
  have hi : r * 512 + c < k * 512 := by omega
  have hl : r * 512 + c < (lowBytes w).length := by rw [lowBytes_length]; exact hi
  have hl' : r * 512 + c < (lowBytes w').length := by rw [lowBytes_length]; exact hi
  have e1 : (r * 512 + c) / 512 = r := by omega
  have e2 : (r * 512 + c) % 512 = c := by omega
  have g := lowBytes_get w (r * 512 + c) hi (by omega) (by omega) hl
  have g' := lowBytes_get w' (r * 512 + c) hi (by omega) (by omega) hl'
  simp only [e1, e2] at g g'
  have e : (lowBytes w)[r * 512 + c] = (lowBytes w')[r * 512 + c] := by simp only [h]
  rw [g, g'] at e
  have := congrArg BitVec.toNat e
  rw [BitVec.toNat_setWidth, BitVec.toNat_setWidth] at this
  have b1 := hw r hr c hc
  have b2 := hw' r hr c hc
  rw [Nat.mod_eq_of_lt b1, Nat.mod_eq_of_lt b2] at this
  exact Zq.ext_nat this

/-- C40: the framing is injective: equal hash inputs mean the same dimension, the same commitment and the same 𝜇
(for coefficients below 256 and `k < 256`, as in all parameter sets). -/
theorem C40_injective (k k' : Nat) (hk : k < 256) (hk' : k' < 256) (w : PVec k 1) (w' : PVec k' 1) (μ μ' : List U8)
    (hw : ∀ r (hr : r < k), Poly.Below 256 w[r][0]) (hw' : ∀ r (hr : r < k'), Poly.Below 256 w'[r][0])
    (h : chalInput w μ = chalInput w' μ') : (⟨k, w⟩ : (k : Nat) × PVec k 1) = ⟨k', w'⟩ ∧ μ = μ' := by
  unfold chalInput at h
  rw [List.append_assoc, List.append_assoc] at h
  have h1 := List.append_inj h rfl
  have hkk : k = k' := by
    have := h1.1
    simp only [List.cons.injEq, and_true, true_and] at this
    have := congrArg BitVec.toNat this
    rwa [BitVec.toNat_ofNat, BitVec.toNat_ofNat, Nat.mod_eq_of_lt hk, Nat.mod_eq_of_lt hk'] at this
  subst hkk
  have h2 := List.append_inj h1.2 (by rw [lowBytes_length, lowBytes_length])
  rw [lowBytes_inj hw hw' h2.1]
  exact ⟨rfl, h2.2⟩

/-- Non-vacuity: the all-zero commitment meets the hypotheses, and so does the all-255 one. -/
example : ∀ r (hr : r < 5), Poly.Below 256 ((Vector.replicate 5 (Vector.replicate 1 (Poly.fillWith ⟨255⟩)) : PVec 5 1)[r][0]) := by
  intro r hr c hc
  simp [Poly.fillWith]

end Raccoon
