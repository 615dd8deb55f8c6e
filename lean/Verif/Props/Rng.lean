import Verif.Proofs.Loops
import Verif.Proofs.Bytes
import Verif.Model.Api
import Mathlib.Data.List.Basic
import Mathlib.Logic.Function.Iterate
/-!
# C39, C48: the pseudo-random generators (`rng/prng.hpp`, `rng/mrng.hpp`)
-/
namespace Raccoon
attribute [-instance] Monoid.toNPow

/-! ### C48 -/

/-- A client reading spans of the given sizes one after the other: the spans' contents. -/
def prngReads (p : Prng) : List Nat → List (List U8)
  | [] => []
  | n :: ns => (p.read n).1 :: prngReads (p.read n).2 ns

theorem prngReads_aux (E : Ext) (seed : List U8) (ns : List Nat) (p : Prng) (hf : p.state.fn = E.shake128)
    (ha : p.state.absorbed = seed) :
    (prngReads p ns).flatten = (List.range ns.sum).map (fun i => E.shake128 seed (p.state.pos + i)) := by
  induction ns generalizing p with
  | nil => rfl
  | cons n ns ih =>
    rw [prngReads, List.flatten_cons, ih (p.read n).2 hf ha, List.sum_cons, List.range_add, List.map_append]
    have e1 : (p.read n).1 = (List.range n).map (fun i => E.shake128 seed (p.state.pos + i)) := by
      unfold Prng.read Xof.squeeze; rw [hf, ha]
    have e2 : (p.read n).2.state.pos = p.state.pos + n := rfl
    rw [e1, e2, List.map_map]
    apply congrArg
    apply List.map_congr_left
    intro i _
    show _ = E.shake128 seed (p.state.pos + (n + i))
    rw [Nat.add_assoc]

/-- C48: whatever the sizes of the reads, the bytes read are exactly the first bytes of the SHAKE128 stream of the seed,
every one once and in order. -/
theorem C48_reads_partition_stream (E : Ext) (seed : List U8) (ns : List Nat) :
    (prngReads (Prng.new E seed) ns).flatten = (List.range ns.sum).map (E.shake128 seed) := by
  rw [prngReads_aux E seed ns _ rfl rfl]
  apply List.map_congr_left
  intro i _
  show E.shake128 seed (0 + i) = _
  rw [Nat.zero_add]

/-- C48: each single read has the requested size. -/
theorem C48_read_sizes (p : Prng) (ns : List Nat) : (prngReads p ns).map List.length = ns := by
  induction ns generalizing p with
  | nil => rfl
  | cons n ns ih =>
    rw [prngReads, List.map_cons, ih]
    unfold Prng.read Xof.squeeze
    simp

/-! ### C39 -/

/-- Requesting masks from the generators with the given indices, one after the other: the values and the final object. -/
def mrngGets (E : Ext) (m : Mrng d) : List Nat → List U64 × Mrng d
  | [] => ([], m)
  | i :: is => let r := m.get E i; let rs := mrngGets E r.2 is; (r.1 :: rs.1, rs.2)

/-- The one fixed sequence: first word of the all-zero Ascon state after `n` applications of the 6-round permutation.
It depends on nothing: neither entropy, nor instance, nor generator index. -/
def fixedMask (E : Ext) (n : Nat) : U64 := (E.asconP6^[n] (Vector.replicate 5 0))[0]

theorem mrng_new_state (E : Ext) (d : Nat) : (Mrng.new E d).state = Vector.replicate (d - 1) (Vector.replicate 5 0) := by
  unfold Mrng.new
  show (List.range (d - 1)).foldl (fun st _ => st) _ = _
  generalize (Vector.replicate (d - 1) (Vector.replicate 5 0) : Vector AsconState (d - 1)) = st
  generalize List.range (d - 1) = l
  induction l with
  | nil => rfl
  | cons a l ih => rw [List.foldl_cons, ih]

theorem mrngGets_state (E : Ext) {d : Nat} (is : List Nat) (m : Mrng d) (j : Nat) (hj : j < d - 1) :
    (mrngGets E m is).2.state[j] = E.asconP6^[is.count j] m.state[j] := by
  induction is generalizing m with
  | nil => rfl
  | cons i is ih =>
    have e : (mrngGets E m (i :: is)).2 = (mrngGets E (m.get E i).2 is).2 := rfl
    rw [e, ih]
    unfold Mrng.get
    split
    · rename_i h
      have : i ≠ j := by omega
      rw [List.count_cons_of_ne this]
    · rename_i h
      show E.asconP6^[is.count j] (m.state.set i (E.asconP6 m.state[i]) (by omega))[j] = _
      by_cases hij : i = j
      · subst hij
        rw [List.count_cons_self, Function.iterate_succ_apply, Vector.getElem_set_self]
      · rw [List.count_cons_of_ne hij, Vector.getElem_set_ne _ _ hij]

/-- C39: after any history of requests to a freshly constructed `mrng_t<d>`, the next mask of *every* valid generator is the
entry of the one fixed sequence at the number of times that generator was used. -/
theorem C39_masks_fixed_sequence (E : Ext) (d : Nat) (hist : List Nat) (j : Nat) (hj : j < d - 1) :
    (((mrngGets E (Mrng.new E d) hist).2).get E j).1 = fixedMask E (hist.count j) := by
  unfold Mrng.get
  rw [dif_neg (by omega)]
  show ((mrngGets E (Mrng.new E d) hist).2.state[j])[0] = _
  rw [mrngGets_state E hist _ j hj]
  unfold fixedMask
  have : (Mrng.new E d).state[j] = Vector.replicate 5 0 := by
    rw [show (Mrng.new E d).state[j] = (Vector.replicate (d - 1) (Vector.replicate 5 0) : Vector AsconState (d-1))[j] from by
      congr 1; exact mrng_new_state E d]
    rw [Vector.getElem_replicate]
  rw [this]

/-- C39: two different generators, of two different instances (even with different share counts), asked equally often,
give the same mask: the streams are neither independent nor fresh. -/
theorem C39_generators_identical (E : Ext) (d d' : Nat) (hist hist' : List Nat) (i j : Nat) (hi : i < d - 1) (hj : j < d' - 1)
    (hc : hist.count i = hist'.count j) :
    (((mrngGets E (Mrng.new E d) hist).2).get E i).1 = (((mrngGets E (Mrng.new E d') hist').2).get E j).1 := by
  rw [C39_masks_fixed_sequence E d hist i hi, C39_masks_fixed_sequence E d' hist' j hj, hc]

/-- C39: requests with an index out of range return 0 and change nothing. -/
theorem C39_out_of_range (E : Ext) (d : Nat) (m : Mrng d) (i : Nat) (hi : d - 1 ≤ i) : m.get E i = (0, m) := by
  unfold Mrng.get; rw [dif_pos hi]

theorem mixKey_inj (a b e f : U64) (p p' : AsconState)
    (h : (#v[p[0], p[1], p[2] ^^^ a, p[3] ^^^ b, p[4] ^^^ e ^^^ f] : AsconState) =
      #v[p'[0], p'[1], p'[2] ^^^ a, p'[3] ^^^ b, p'[4] ^^^ e ^^^ f]) : p = p' := by
  have h0 := congrArg (fun v : AsconState => v[0]) h
  replace h0 : p[0] = p'[0] := h0
  have h1 := congrArg (fun v : AsconState => v[1]) h
  replace h1 : p[1] = p'[1] := h1
  have h2 : p[2] ^^^ a = p'[2] ^^^ a := congrArg (fun v : AsconState => v[2]) h
  have h3 : p[3] ^^^ b = p'[3] ^^^ b := congrArg (fun v : AsconState => v[3]) h
  have h4 : p[4] ^^^ e ^^^ f = p'[4] ^^^ e ^^^ f := congrArg (fun v : AsconState => v[4]) h
  rw [BitVec.xor_left_inj] at h2 h3 h4
  rw [BitVec.xor_left_inj] at h4
  ext k hk
  rcases (by omega : k = 0 ∨ k = 1 ∨ k = 2 ∨ k = 3 ∨ k = 4) with rfl | rfl | rfl | rfl | rfl
  · rw [h0]
  · rw [h1]
  · rw [h2]
  · rw [h3]
  · rw [h4]

/-- What the constructor *computes* (and then drops) does separate the generators: for an injective 12-round permutation the
states computed for two indices differ. The defect is only that they are stored into a copy. -/
theorem C39_intended_states_distinct (E : Ext) (hP : Function.Injective E.asconP12) (i j : Nat) (hi : i < 2 ^ 64) (hj : j < 2 ^ 64)
    (c c' : AsconState) (h : mrngInitShare E i c = mrngInitShare E j c') : i = j := by
  have hp := hP (mixKey_inj _ _ _ _ _ _ h)
  have h3 := congrArg (fun v : AsconState => v[3]) hp
  have h3' : mrngNonce0 + BitVec.ofNat 64 i = mrngNonce0 + BitVec.ofNat 64 j := h3
  have h4 := BitVec.add_right_inj mrngNonce0 |>.1 h3'
  have h5 := congrArg BitVec.toNat h4
  rwa [BitVec.toNat_ofNat, BitVec.toNat_ofNat, Nat.mod_eq_of_lt hi, Nat.mod_eq_of_lt hj] at h5

/-- The bytes of a word, most significant first. -/
def beBytes (w : U64) : List U8 := (List.range 8).map fun k => (w >>> (56 - 8 * k)).setWidth 8

/-- The 40 bytes of an Ascon state. -/
def stateBytes (s : AsconState) : List U8 := s.toList.flatMap beBytes

theorem beBytes_iv (iv : U64) (k : U32) : beBytes ((iv <<< 32) ||| (k.setWidth 64)) =
    (List.range 4).map (fun j => (iv >>> (24 - 8 * j)).setWidth 8) ++ (List.range 4).map (fun j => (k >>> (24 - 8 * j)).setWidth 8) := by
  have hi : ∀ n, n ≤ 24 → (((iv <<< 32) ||| (k.setWidth 64)) >>> (n + 32)).setWidth 8 = (iv >>> n).setWidth 8 := by
    intro n hn
    apply BitVec.eq_of_getLsbD_eq
    intro j hj
    simp only [BitVec.getLsbD_setWidth, BitVec.getLsbD_ushiftRight, BitVec.getLsbD_or, BitVec.getLsbD_shiftLeft]
    rw [BitVec.getLsbD_of_ge k _ (by omega)]
    simp only [show n + 32 + j < 64 by omega, show ¬ (n + 32 + j < 32) by omega, show n + 32 + j - 32 = n + j by omega, decide_true, decide_false, Bool.not_false,
      Bool.true_and, Bool.and_false, Bool.or_false]
  have lo : ∀ n, n ≤ 24 → (((iv <<< 32) ||| (k.setWidth 64)) >>> n).setWidth 8 = (k >>> n).setWidth 8 := by
    intro n hn
    apply BitVec.eq_of_getLsbD_eq
    intro j hj
    simp only [BitVec.getLsbD_setWidth, BitVec.getLsbD_ushiftRight, BitVec.getLsbD_or, BitVec.getLsbD_shiftLeft]
    simp only [show n + j < 64 by omega, show n + j < 32 by omega, decide_true, Bool.not_true, Bool.true_and, Bool.false_and, Bool.false_or]
  have e : beBytes ((iv <<< 32) ||| (k.setWidth 64)) = (List.range 4).map (fun j => (((iv <<< 32) ||| (k.setWidth 64)) >>> (24 - 8 * j + 32)).setWidth 8) ++
      (List.range 4).map (fun j => (((iv <<< 32) ||| (k.setWidth 64)) >>> (24 - 8 * j)).setWidth 8) := rfl
  rw [e]
  congr 1 <;> exact List.map_congr_left fun j _ => by first | exact hi _ (by omega) | exact lo _ (by omega)

theorem beBytes_xor (a b : U64) : beBytes (a ^^^ b) = List.zipWith (· ^^^ ·) (beBytes a) (beBytes b) := by
  unfold beBytes
  rw [List.zipWith_map_left, List.zipWith_map_right, List.zipWith_self]
  apply List.map_congr_left
  intro k _
  rw [BitVec.ushiftRight_xor_distrib, BitVec.setWidth_xor]

/-- What the constructor computes (and then drops) is the initialisation of Ascon-80pq with the 20-byte key 0, 1, 2, …, 19 and a 16-byte nonce 0, 1, …, 15 to whose first
half the index is added: the 12-round permutation of IV ‖ key ‖ nonce, to whose last 20 bytes the key is added, and 1 to the very last one. (Up to 248 shares; the
library uses at most 32.) -/
theorem C39_intended_init (E : Ext) (i : Nat) (hi : i < 249) (c : AsconState) :
    ∃ inp : AsconState,
      stateBytes inp = (List.range 4).map (fun j => (E.ascon80pqIV >>> (24 - 8 * j)).setWidth 8) ++ (List.range 20).map (BitVec.ofNat 8) ++
        ((List.range 7).map (BitVec.ofNat 8) ++ BitVec.ofNat 8 (7 + i) :: (List.range' 8 8).map (BitVec.ofNat 8)) ∧
      stateBytes (mrngInitShare E i c) = List.zipWith (· ^^^ ·) (stateBytes (E.asconP12 inp))
        (List.replicate 20 0 ++ ((List.range 19).map (BitVec.ofNat 8) ++ [(19 : U8) ^^^ 1])) := by
  have hn : ∀ i : Fin 249, beBytes (mrngNonce0 + BitVec.ofNat 64 i.val) = (List.range 7).map (BitVec.ofNat 8) ++ [BitVec.ofNat 8 (7 + i.val)] := by decide +kernel
  refine ⟨#v[(E.ascon80pqIV <<< 32) ||| (mrngKey0 >>> 32), (mrngKey0 <<< 32) ||| (mrngKey1 >>> 32), (mrngKey1 <<< 32) ||| mrngKey2,
    mrngNonce0 + BitVec.ofNat 64 i, mrngNonce1], ?_, ?_⟩
  · show beBytes _ ++ (beBytes _ ++ (beBytes _ ++ (beBytes _ ++ (beBytes _ ++ [])))) = _
    rw [hn ⟨i, hi⟩, show mrngKey0 >>> 32 = (0x00010203 : U32).setWidth 64 by decide +kernel, beBytes_iv]
    simp only [List.append_assoc, List.cons_append, List.nil_append]
    refine congrArg (fun x : List U8 => List.map (fun j => BitVec.setWidth 8 (E.ascon80pqIV >>> (24 - 8 * j))) (List.range 4) ++ x) ?_
    rw [show beBytes ((mrngKey0 <<< 32) ||| (mrngKey1 >>> 32)) = (List.range' 4 8).map (BitVec.ofNat 8) by decide +kernel,
      show beBytes ((mrngKey1 <<< 32) ||| mrngKey2) = (List.range' 12 8).map (BitVec.ofNat 8) by decide +kernel,
      show beBytes mrngNonce1 = (List.range' 8 8).map (BitVec.ofNat 8) by decide +kernel]
    rfl
  · unfold mrngInitShare
    simp only []
    generalize E.asconP12 _ = p
    have hp : p = #v[p[0], p[1], p[2], p[3], p[4]] := by
      ext k hk
      rcases (by omega : k = 0 ∨ k = 1 ∨ k = 2 ∨ k = 3 ∨ k = 4) with rfl | rfl | rfl | rfl | rfl <;> rfl
    generalize p[0] = p0 at *
    generalize p[1] = p1 at *
    generalize p[2] = p2 at *
    generalize p[3] = p3 at *
    generalize p[4] = p4 at *
    subst hp
    show beBytes _ ++ (beBytes _ ++ (beBytes _ ++ (beBytes _ ++ (beBytes _ ++ [])))) = List.zipWith _ (beBytes _ ++ (beBytes _ ++ (beBytes _ ++ (beBytes _ ++ (beBytes _ ++ []))))) _
    have hl : ∀ w, (beBytes w).length = 8 := fun w => by unfold beBytes; rw [List.length_map, List.length_range]
    have z0 : ∀ w : U64, beBytes w = List.zipWith (· ^^^ ·) (beBytes w) (beBytes 0) := fun w => by rw [← beBytes_xor]; exact congrArg beBytes BitVec.xor_zero.symm
    have key : (List.replicate 20 (0 : U8) ++ ((List.range 19).map (BitVec.ofNat 8) ++ [(19 : U8) ^^^ 1])) =
        beBytes 0 ++ (beBytes 0 ++ (beBytes (mrngKey0 >>> 32) ++ (beBytes ((mrngKey0 <<< 32) ||| (mrngKey1 >>> 32)) ++
          (beBytes (((mrngKey1 <<< 32) ||| mrngKey2) ^^^ 1) ++ [])))) := by decide +kernel
    rw [key]
    simp only [List.zipWith_append, hl]
    rw [← z0, ← z0, ← beBytes_xor, ← beBytes_xor, ← beBytes_xor, BitVec.xor_assoc]
    rfl

/-- Non-vacuity: two generators exist for `d = 4`, and an injective permutation exists. -/
example : (0 < 4 - 1 ∧ 2 < 4 - 1) ∧ ([0, 1, 2, 0].count 1 = [2, 0, 1].count 2) ∧ Function.Injective (id : AsconState → AsconState) :=
  ⟨by decide, by decide, fun _ _ h => h⟩

end Raccoon
