import Verif.Proofs.IntDomain
import Verif.Props.Binding
import Verif.Props.DemoLike
import Verif.Props.Programming
/-!
# C61: entropy reuse gives the secret away
-/
namespace Raccoon
attribute [-instance] Monoid.toNPow
open Finset

/-- C61: two attempts with the same number, made with one secret and the same entropy but with different challenges: the secret is the one and only family of integer
polynomials s' with z − z' = (c − c')·s' modulo x^512 + 1. -/
theorem C61_secret_determined (P : Par) (E : Ext) (d : Nat) (pkb : List U8) (s : Fin P.l → Fin 512 → Int) (entropy msg msg' : List U8) (n : Nat) (c c' : List U8)
    (h h' z z' : List Int) (g : IsAttempt P E d pkb s msg entropy n c h z) (g' : IsAttempt P E d pkb s msg' entropy n c' h' z') (cI cI' : Fin 512 → Int)
    (hc : IsChallengeOf E P.ω c cI) (hc' : IsChallengeOf E P.ω c' cI') (hne : cI ≠ cI') (s' : Fin P.l → Fin 512 → Int) :
    (∀ j x, unflatten P.l z j x - unflatten P.l z' j x = negacyclicZ (s' j) (fun i => cI i - cI' i) x) ↔ s' = s := by
  obtain ⟨_, t, a, dI, w, -, -, i3, -, -, -, -, i8, -⟩ := g
  obtain ⟨_, t', a', dI', w', -, -, j3, -, -, -, -, j8, -⟩ := g'
  obtain rfl := hc.unique i3
  obtain rfl := hc'.unique j3
  have key : ∀ j x, unflatten P.l z j x - unflatten P.l z' j x = negacyclicZ (s j) (fun i => cI i - cI' i) x := by
    intro j x
    rw [i8, j8, ← negacyclicZ_sub]
    ring
  constructor
  · intro hs
    funext j
    refine negacyclicZ_cancel (g := fun i => cI i - cI' i) ?_ (fun k => ?_)
    · by_contra hcon
      exact hne (funext fun i => by
        by_contra hi
        exact hcon ⟨i, sub_ne_zero.2 hi⟩)
    · rw [← hs, key]
  · rintro rfl
    exact key

/-- C61: two signatures made by `sign` from one generated key (possibly refreshed or reloaded in between) with the same entropy, both released at the same attempt, with
different challenges: everything in the equation z − z' = (c − c')·s' except s' is read off the signatures, and the secret of the key is its only solution. -/
theorem C61_signatures_give_secret (P : Par) (hP : P = raccoon128 ∨ P = raccoon192 ∨ P = raccoon256) (E : Ext) (fuel0 fuel fuel' d : Nat) (hd : ValidShares d)
    (entropy0 seed : List U8) (hseed : seed.length = P.κ / 8) (sk0 sk sk' : SKey P.k P.l d) (h0 : Api.generate P (utTableOf P) E fuel0 d entropy0 seed = .ok sk0)
    (hder : SKey.Derived P E sk0 sk) (hder' : SKey.Derived P E sk0 sk') (pkBuf pkb : List U8) (hpl : pkBuf.length = PKey.byteLen P.κ P.k P.νt)
    (hpk : Api.pkAsBytes P (Api.getPkey P sk0) pkBuf = .ok pkb) (entropy msg msg' buf buf' b b' : List U8)
    (h : Api.sign P E fuel d sk entropy msg buf = .ok b) (h' : Api.sign P E fuel' d sk' entropy msg' buf' = .ok b') :
    ∃ (n n' : Nat) (c c' : List U8) (hint hint' z z' : List Int) (cI cI' : Fin 512 → Int),
      IsSigEncoding c hint z buf.length b ∧ IsSigEncoding c' hint' z' buf'.length b' ∧ IsChallengeOf E P.ω c cI ∧ IsChallengeOf E P.ω c' cI' ∧
      (∀ i < n, ∃ c h z, IsAttempt P E d pkb (keySecret P E d entropy0) msg entropy i c h z ∧ Rejected P buf.length c h z) ∧
      (∀ i < n', ∃ c h z, IsAttempt P E d pkb (keySecret P E d entropy0) msg' entropy i c h z ∧ Rejected P buf'.length c h z) ∧
      (n = n' → cI ≠ cI' → ∀ s' : Fin P.l → Fin 512 → Int,
        (∀ j x, unflatten P.l z j x - unflatten P.l z' j x = negacyclicZ (s' j) (fun i => cI i - cI' i) x) ↔ s' = keySecret P E d entropy0) := by
  obtain ⟨n, c, hint, z, g1, -, g3, g4⟩ := C36_wire P hP E fuel0 fuel d hd entropy0 seed hseed sk0 sk h0 hder pkBuf pkb hpl hpk entropy msg buf b h
  obtain ⟨n', c', hint', z', k1, -, k3, k4⟩ := C36_wire P hP E fuel0 fuel' d hd entropy0 seed hseed sk0 sk' h0 hder' pkBuf pkb hpl hpk entropy msg' buf' b' h'
  obtain ⟨cI, i3⟩ : ∃ cI, IsChallengeOf E P.ω c cI := by
    obtain ⟨_, t, a, cI, w, -, -, i3, -⟩ := g1
    exact ⟨cI, i3⟩
  obtain ⟨cI', j3⟩ : ∃ cI, IsChallengeOf E P.ω c' cI := by
    obtain ⟨_, t, a, cI, w, -, -, i3, -⟩ := k1
    exact ⟨cI, i3⟩
  refine ⟨n, n', c, c', hint, hint', z, z', cI, cI', g3, k3, i3, j3, g4, k4, fun hn hne s' => ?_⟩
  subst hn
  exact C61_secret_determined P E d pkb _ entropy msg msg' n c c' hint hint' z z' g1 k1 cI cI' i3 j3 hne s'

/-! ### Non-vacuity: a toy instance in which the last byte of the message reaches the challenge -/

/-- Noise and matrix as in `demoE`; other inputs hash to their last byte repeated, and challenge words count upwards from the last bit of the input. -/
def reuseStream (m : List U8) (i : Nat) : U8 :=
  if m.length = 24 then demoStream m i
  else if m.length = 40 then (if i % 2 = 0 then BitVec.ofNat 8 i + ((m.getLast?.getD 0) &&& 1) else 0)
  else m.getLast?.getD 0

def reuseE : Ext := ⟨fun m i => BitVec.ofNat 8 (m.length + i), reuseStream, fun _ => Vector.replicate 5 7, fun s => s, 0⟩

theorem reuse_like : DemoLike reuseE := by
  refine ⟨fun m hm => ?_, fun m hm => ?_, rfl⟩
  · funext i
    show reuseStream m i = _
    unfold reuseStream
    rw [if_pos hm]
  · have hs : reuseE.shake256 m = fun i => if i % 2 = 0 then BitVec.ofNat 8 i + ((m.getLast?.getD 0) &&& 1) else 0 := by
      funext i
      show reuseStream m i = _
      unfold reuseStream
      rw [if_neg (by omega), if_pos hm]
    rw [hs]
    have h2 : (m.getLast?.getD 0) &&& 1 = 0 ∨ (m.getLast?.getD 0) &&& 1 = (1 : U8) := by
      generalize m.getLast?.getD 0 = b
      revert b
      decide +kernel
    rcases h2 with h | h <;> rw [h] <;> decide +kernel

/-- What a message ending in the byte `b` hashes to. -/
theorem reuse_hash (m : List U8) (b : U8) (hm : m.getLast? = some b) (h1 : m.length ≠ 24) (h2 : m.length ≠ 40) (k : Nat) : xofOut reuseE.shake256 m k = List.replicate k b := by
  unfold xofOut
  rw [List.eq_replicate_iff]
  refine ⟨by rw [List.length_map, List.length_range], fun x hx => ?_⟩
  obtain ⟨i, -, rfl⟩ := List.mem_map.1 hx
  show reuseStream m i = b
  unfold reuseStream
  rw [if_neg h1, if_neg h2, hm]
  rfl

theorem reuse_chash (w : Fin 5 → Fin 512 → Nat) (pkb : List U8) (b : U8) : challengeHash reuseE 128 w (messageHash reuseE 128 pkb [b]) = List.replicate 32 b := by
  have h1 : messageHash reuseE 128 pkb [b] = List.replicate 32 b := by
    unfold messageHash
    have hl : (xofOut reuseE.shake256 pkb (2 * 128 / 8) ++ [b]).length = 33 := by
      unfold xofOut
      rw [List.length_append, List.length_map, List.length_range]; rfl
    exact reuse_hash _ b (by rw [List.getLast?_append]; rfl) (by omega) (by omega) _
  rw [h1]
  have hl : (hashInput w (List.replicate 32 b)).length = 2600 := by
    rw [hashInput_length, List.length_replicate]
  exact reuse_hash _ b (by unfold hashInput; rw [List.getLast?_append, List.getLast?_replicate]; rfl) (by omega) (by omega) _

/-- The coefficient of x⁰ of the challenge is 1 for messages ending in an even byte, −1 for the others. -/
theorem reuse_challenge (b : U8) (hb : b = 0 ∨ b = 1) (cI : Fin 512 → Int) (h : IsChallengeOf reuseE raccoon128.ω (List.replicate 32 b) cI) :
    cI 0 = if b = 0 then 1 else -1 := by
  obtain ⟨m, h1, rfl⟩ := h
  have hs : reuseE.shake256 ([0x63, BitVec.ofNat 8 raccoon128.ω, 0, 0, 0, 0, 0, 0] ++ List.replicate 32 b) = fun i => if i % 2 = 0 then BitVec.ofNat 8 i + (b &&& 1) else 0 := by
    funext i
    generalize hx : [0x63, BitVec.ofNat 8 raccoon128.ω, 0, 0, 0, 0, 0, 0] ++ List.replicate 32 b = x
    have hl : x.length = 40 := by rw [← hx, List.length_append, List.length_replicate]; rfl
    show reuseStream x i = _
    unfold reuseStream
    rw [if_neg (by omega), if_pos hl, ← hx]
    rw [List.getLast?_append, List.getLast?_replicate]
    rfl
  rw [hs] at h1 ⊢
  have hm : m ≠ 0 := by
    rintro rfl
    have : (0 : Nat) = raccoon128.ω := h1
    exact absurd this (by decide)
  obtain ⟨m, rfl⟩ := Nat.exists_eq_succ_of_ne_zero hm
  unfold chalInt
  rw [Nat.succ_eq_add_one, List.range_succ_eq_map, List.find?_cons_of_pos]
  · rcases hb with rfl | rfl <;> decide +kernel
  · rcases hb with rfl | rfl <;> decide +kernel

/-- Non-vacuity of C61: with one key and the same entropy the messages 0 and 1 are signed, both with the first attempt and with different challenges; the secret is not zero. -/
example (entropy0 seed entropy : List U8) (hseed : seed.length = 16) :
    ∃ (sk0 : SKey 5 4 2) (pkb b b' c c' : List U8) (h z h' z' : List Int) (cI cI' : Fin 512 → Int),
      Api.generate raccoon128 (utTableOf raccoon128) reuseE 512 2 entropy0 seed = .ok sk0 ∧
      Api.sign raccoon128 reuseE 512 2 sk0 entropy [0] (List.replicate 11524 0) = .ok b ∧ Api.sign raccoon128 reuseE 512 2 sk0 entropy [1] (List.replicate 11524 0) = .ok b' ∧
      IsAttempt raccoon128 reuseE 2 pkb (keySecret raccoon128 reuseE 2 entropy0) [0] entropy 0 c h z ∧ IsSigEncoding c h z 11524 b ∧
      IsAttempt raccoon128 reuseE 2 pkb (keySecret raccoon128 reuseE 2 entropy0) [1] entropy 0 c' h' z' ∧ IsSigEncoding c' h' z' 11524 b' ∧
      IsChallengeOf reuseE raccoon128.ω c cI ∧ IsChallengeOf reuseE raccoon128.ω c' cI' ∧ cI ≠ cI' ∧ keySecret raccoon128 reuseE 2 entropy0 ≠ 0 := by
  have hE := reuse_like
  obtain ⟨sk0, pkb, h0, -, run⟩ := hE.toy_run entropy0 seed hseed
  obtain ⟨b, c, h, z, r1, r2, r3, -⟩ := run entropy [0]
  obtain ⟨b', c', h', z', r1', r2', r3', -⟩ := run entropy [1]
  have ex : ∀ (x : U8) (c : List U8) (h z : List Int), IsAttempt raccoon128 reuseE 2 pkb (keySecret raccoon128 reuseE 2 entropy0) [x] entropy 0 c h z →
      c = List.replicate 32 x ∧ ∃ cI, IsChallengeOf reuseE raccoon128.ω c cI := by
    rintro x c h z ⟨_, t, a, cI, w, -, -, i3, -, i5, -⟩
    exact ⟨i5.trans (reuse_chash w pkb x), cI, i3⟩
  obtain ⟨ec, cI, hc⟩ := ex 0 c h z r2
  obtain ⟨ec', cI', hc'⟩ := ex 1 c' h' z' r2'
  refine ⟨sk0, pkb, b, b', c, c', h, z, h', z', cI, cI', h0, r1, r1', r2, r3, r2', r3', hc, hc', ?_, ?_⟩
  · intro he
    have v := reuse_challenge 0 (Or.inl rfl) cI (ec ▸ hc)
    have v' := reuse_challenge 1 (Or.inr rfl) cI' (ec' ▸ hc')
    rw [he, v'] at v
    exact absurd v (by decide)
  · intro hz
    have := congrFun (congrFun hz ⟨0, by decide⟩) 0
    have h2 : keySecret raccoon128 reuseE 2 entropy0 ⟨0, by decide⟩ 0 = if 6 = 41 ∨ (0 : Fin 512).val % 6 = 0 then 8 else 0 :=
      hE.toy_noise 6 (Or.inl rfl) 4 (reuseE.shake128 entropy0) 0 ⟨0, by decide⟩ 0
    rw [h2] at this
    exact absurd this (by decide)

end Raccoon
