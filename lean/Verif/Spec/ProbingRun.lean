import Verif.Spec.ProbingLife
/-!
# The code holds, place by place, what the lists of places say

For each piece of code: a predicate saying that this piece ran, from which states to which states, and that everything it handled is what the list of places (`Wire`, `NoiseWire`,
`ComWire`, `RespWire`) says for the given noise and masks.
-/
namespace Raccoon
attribute [-instance] Monoid.toNPow
open Finset

/-- The generator, asked for the masks of one encoding of zero, delivers `ρ`. -/
def DrawnR (E : Ext) (fuel : Nat) {m : Nat} (g : Mrng (2 ^ m)) (ρ : Mask m) (g' : Mrng (2 ^ m)) : Prop :=
  ∃ r : Fin (maskSchedule m).length → Poly, Drawn E fuel (maskSchedule m) g (List.ofFn r) g' ∧ ∀ t, (r t).Can ∧ (r t).toZ = ρ t

/-- `zero_encoding` returned `z`, with the masks `ρ`; after `t` requests its shares are as listed. -/
structure ZeroRun (E : Ext) (fuel : Nat) {m : Nat} (g : Mrng (2 ^ m)) (z : MPoly (2 ^ m)) (g' : Mrng (2 ^ m)) (ρ : Mask m) : Prop where
  call : MPoly.zeroEncoding E fuel g = .ok (z, g')
  masks : DrawnR E fuel g ρ g'
  part : ∀ t, ∃ vt gt, ((maskSchedule m).take t).foldlM (fun s (p : Nat × Nat) => MPoly.maskPair E fuel p.1 p.2 s) (MPoly.zero (2 ^ m), g) = .ok (vt, gt) ∧
    ∀ s : Fin (2 ^ m), (vt[s.val]).toZ = (Wire.share t s).val (fun _ => 0) ρ
  out : ∀ s : Fin (2 ^ m), (z[s.val]).toZ = refreshed (fun _ => 0) ρ s

/-- `refresh` made `v'` of `v`, with the masks `ρ`: by adding an encoding of zero. -/
structure RefreshRun (E : Ext) (fuel : Nat) {m : Nat} (v : MPoly (2 ^ m)) (g : Mrng (2 ^ m)) (v' : MPoly (2 ^ m)) (g' : Mrng (2 ^ m)) (ρ : Mask m) : Prop where
  call : MPoly.refresh E fuel v g = .ok (v', g')
  zero : ∃ z, ZeroRun E fuel g z g' ρ ∧ v' = v.add z
  out : ∀ s : Fin (2 ^ m), (v'[s.val]).toZ = refreshed (fun i => (v[i.val]).toZ) ρ s

/-- `add_rep_noise` made `v'` of `v` (vector index `idx`): the shares `X r` at the start of repetition `r` and `Y r` before its refresh are as listed, the noise terms are derived from
the bytes at this position of the stream. -/
structure NoiseRun (E : Ext) (fuel u κ idx : Nat) {m rep : Nat} (v : MPoly (2 ^ m)) (prng : Prng) (g : Mrng (2 ^ m)) (v' : MPoly (2 ^ m)) (prng' : Prng) (g' : Mrng (2 ^ m))
    (n : Fin rep → Fin (2 ^ m) → RPoly) (ρ : Fin rep → Mask m) : Prop where
  call : MPoly.addRepNoise E fuel u rep κ idx v prng g = .ok (v', prng', g')
  noise : ∀ r s, n r s = toR (noiseAt E u κ (2 ^ m) idx prng.stream prng.pos r.val s.val)
  after : prng' = prng.advance (rep * 2 ^ m * (κ / 8))
  steps : ∃ (G : Nat → Mrng (2 ^ m)) (X Y : Nat → MPoly (2 ^ m)), G 0 = g ∧ G rep = g' ∧ X 0 = v ∧ X rep = v' ∧ ∀ r : Fin rep,
    RefreshRun E fuel (Y r.val) (G r.val) (X (r.val + 1)) (G (r.val + 1)) (ρ r) ∧
    ∀ s : Fin (2 ^ m), ((X r.val)[s.val]).toZ = (NoiseWire.old s).val (fun s => (v[s.val]).toZ) (pad n) (pad ρ) r.val ∧
      ((Y r.val)[s.val]).toZ = (NoiseWire.ref (.input s)).val (fun s => (v[s.val]).toZ) (pad n) (pad ρ) r.val
  out : ∀ s : Fin (2 ^ m), (v'[s.val]).toZ = noisy (fun s => (v[s.val]).toZ) (pad n) (pad ρ) rep s

/-- The noise of a commitment: derived from the bytes that follow in the stream of the PRNG, first for the rows of `x`, then for those of `y`. -/
def comNoiseOf (E : Ext) (u κ m l k rep : Nat) (prng : Prng) : ComNoise m l k rep :=
  ⟨fun j r s => toR (noiseAt E u κ (2 ^ m) j.val prng.stream (prng.pos + j.val * (rep * 2 ^ m * (κ / 8))) r.val s.val),
   fun i r s => toR (noiseAt E u κ (2 ^ m) i.val prng.stream (prng.pos + (l + i.val) * (rep * 2 ^ m * (κ / 8))) r.val s.val)⟩

/-- The lines of key generation and of a signing attempt that compute `t = A * x + y` (secret_key.hpp:72-84, 136-148), with `x` left behind in transformed form `xh`. -/
structure ComRun (E : Ext) (fuel u κ : Nat) {m l k rep : Nat} (A : PMat k l) (a : Fin k → Fin l → RPoly) (prng : Prng) (g : Mrng (2 ^ m)) (xh : PVec l (2 ^ m)) (t : PVec k (2 ^ m))
    (prng' : Prng) (g' : Mrng (2 ^ m)) (n : ComNoise m l k rep) (ρ : ComMasks m l k rep) : Prop where
  run : ∃ (x0 x1 : PVec l (2 ^ m)) (w : PVec k (2 ^ m)) (Gz Gx Gy : Nat → Mrng (2 ^ m)) (Px Py : Nat → Prng),
    -- the generators, from the start to the end
    (Gz 0 = g ∧ Gz l = Gx 0 ∧ Gx l = Gy 0 ∧ Gy k = g') ∧ (Px 0 = prng ∧ Px l = Py 0 ∧ Py k = prng') ∧
    -- encodings of zero
    (∀ j : Fin l, ZeroRun E fuel (Gz j.val) x0[j.val] (Gz (j.val + 1)) (ρ.1 j)) ∧
    -- noise
    (∀ j : Fin l, NoiseRun E fuel u κ j.val x0[j.val] (Px j.val) (Gx j.val) x1[j.val] (Px (j.val + 1)) (Gx (j.val + 1)) (n.x j) (ρ.2.1 j)) ∧
    (∀ j : Fin l, ∀ s : Fin (2 ^ m), (x1[j.val][s.val]).toZ = (ComWire.sh j s).val a n ρ) ∧
    -- transforms
    x1.ntt = .ok xh ∧ (∀ j : Fin l, ∀ s : Fin (2 ^ m), (xh[j.val][s.val]).toZ = (ComWire.hat j s).val a n ρ) ∧
    -- the matrix product, column by column
    (∀ (i : Fin k) (j : Fin l) (s : Fin (2 ^ m)), ((A.at' i j).mul xh[j.val][s.val]).toZ = (ComWire.prod i j s).val a n ρ) ∧
    (∀ (i : Fin k) (c : Nat) (s : Fin (2 ^ m)), (((List.finRange l).take c).foldl (fun acc j => Poly.add acc ((A.at' i j).mul xh[j.val][s.val])) Poly.zero).toZ = (ComWire.acc i c s).val a n ρ) ∧
    (A.mulVec xh).intt = .ok w ∧ (∀ (i : Fin k) (s : Fin (2 ^ m)), (w[i.val][s.val]).toZ = comU a n ρ i s) ∧
    -- noise
    (∀ i : Fin k, NoiseRun E fuel u κ i.val w[i.val] (Py i.val) (Gy i.val) t[i.val] (Py (i.val + 1)) (Gy (i.val + 1)) (n.y i) (ρ.2.2 i))
  out : ∀ (i : Fin k) (s : Fin (2 ^ m)), (t[i.val][s.val]).toZ = comT a n ρ i s

/-- The lines of a signing attempt that compute the response (secret_key.hpp:164-174): from the sharings `x` of the secret and `b` of the ephemeral to the refreshed secret `x'` and the shares `z`. -/
structure RespRun (E : Ext) (fuel : Nat) {m l : Nat} (c : Poly) (x b : PVec l (2 ^ m)) (g : Mrng (2 ^ m)) (x' z : PVec l (2 ^ m)) (g' : Mrng (2 ^ m)) (ρ : Fin l → Masks3 m RPoly) : Prop where
  run : ∃ (r y : PVec l (2 ^ m)) (G : Fin 3 → Nat → Mrng (2 ^ m)), (G 0 0 = g ∧ G 0 l = G 1 0 ∧ G 1 l = G 2 0 ∧ G 2 l = g') ∧ y = (x'.mulPoly c).add r ∧
    ∀ j : Fin l, RefreshRun E fuel x[j.val] (G 0 j.val) x'[j.val] (G 0 (j.val + 1)) (ρ j 0) ∧
      RefreshRun E fuel b[j.val] (G 1 j.val) r[j.val] (G 1 (j.val + 1)) (ρ j 1) ∧
      RefreshRun E fuel y[j.val] (G 2 j.val) z[j.val] (G 2 (j.val + 1)) (ρ j 2) ∧
      let see : RespWire m → RPoly := fun w => w.val c.toZ (fun s => (x[j.val][s.val]).toZ) (fun s => (b[j.val][s.val]).toZ) (ρ j)
      ∀ s : Fin (2 ^ m), (x[j.val][s.val]).toZ = see (.s (.input s)) ∧ (b[j.val][s.val]).toZ = see (.r (.input s)) ∧ (x'[j.val][s.val]).toZ = see (.sOut s) ∧
        (r[j.val][s.val]).toZ = see (.rOut s) ∧ ((x'.mulPoly c)[j.val][s.val]).toZ = see (.prod s) ∧ (y[j.val][s.val]).toZ = see (.z (.input s))
  out : ∀ (j : Fin l) (s : Fin (2 ^ m)), (z[j.val][s.val]).toZ = respOut c.toZ (fun s => (x[j.val][s.val]).toZ) (fun s => (b[j.val][s.val]).toZ) (ρ j) s

/-! ### What a sequence of calls does with a key -/

/-- A call on the key object: `sign`, with the challenges of its attempts, or `refresh`. -/
inductive KeyCall where
  | sign (cs : List RPoly)
  | refresh

/-- The attempts of one call of `sign`: the first works on sharing number `v`, each further one on what the one before left (they are numbered from `next`). -/
def attemptUses : (v next : Nat) → List RPoly → List (KeyOp × Nat)
  | _, _, [] => []
  | v, next, c :: cs => (.sign c, v) :: attemptUses next (next + 1) cs

/-- The uses a call makes, when the key object holds sharing number `cur`, and `next` is the number of the next sharing. -/
def KeyCall.uses (cur next : Nat) : KeyCall → List (KeyOp × Nat)
  | .sign cs => attemptUses cur next cs
  | .refresh => [(.refresh, cur)]

/-- The number of the sharing in the key object after the call: `sign` does not store what it refreshed. -/
def KeyCall.cur' (cur next : Nat) : KeyCall → Nat
  | .sign _ => cur
  | .refresh => next

def usesOf : (cur next : Nat) → List KeyCall → List (KeyOp × Nat)
  | _, _, [] => []
  | cur, next, x :: xs => x.uses cur next ++ usesOf (x.cur' cur next) (next + (x.uses cur next).length) xs

theorem attemptUses_older (cs : List RPoly) : ∀ v next, v < next → ∀ b (h : b < (attemptUses v next cs).length), (attemptUses v next cs)[b].2 < next + b := by
  induction cs with
  | nil => intro v next _ b h; exact absurd h (Nat.not_lt_zero b)
  | cons c cs ih =>
    intro v next hv b h
    cases b with
    | zero => exact hv
    | succ b =>
      have hb : b < (attemptUses next (next + 1) cs).length := Nat.lt_of_succ_lt_succ h
      have := ih next (next + 1) (Nat.lt_succ_self _) b hb
      show (attemptUses next (next + 1) cs)[b].2 < next + (b + 1)
      omega

theorem usesOf_older (ks : List KeyCall) : ∀ cur next, cur < next → ∀ b (h : b < (usesOf cur next ks).length), (usesOf cur next ks)[b].2 < next + b := by
  induction ks with
  | nil => intro v next _ b h; exact absurd h (Nat.not_lt_zero b)
  | cons x ks ih =>
    intro cur next hc b h
    have hx : ∀ b (h : b < (x.uses cur next).length), (x.uses cur next)[b].2 < next + b := by
      cases x with
      | sign cs => exact attemptUses_older cs cur next hc
      | refresh =>
        intro b h
        have : b = 0 := Nat.lt_one_iff.1 h
        subst this
        exact hc
    have hx0 : x.cur' cur next < next + (x.uses cur next).length := by
      cases x with
      | sign cs => exact lt_of_lt_of_le hc (Nat.le_add_right _ _)
      | refresh => exact Nat.lt_succ_self _
    have h' : b < (x.uses cur next ++ usesOf (x.cur' cur next) (next + (x.uses cur next).length) ks).length := h
    show (x.uses cur next ++ usesOf (x.cur' cur next) (next + (x.uses cur next).length) ks)[b].2 < next + b
    by_cases hb : b < (x.uses cur next).length
    · rw [List.getElem_append_left hb]
      exact hx b hb
    · rw [List.getElem_append_right (Nat.le_of_not_lt hb)]
      have := ih _ _ hx0 (b - (x.uses cur next).length) (by rw [List.length_append] at h'; omega)
      omega

/-- What the calls `ks` do with a freshly generated key. -/
def lifeOf (ks : List KeyCall) : KeyUse (usesOf 0 1 ks).length where
  op b := (usesOf 0 1 ks)[b.val].1
  src b := if h : b < (usesOf 0 1 ks).length then (usesOf 0 1 ks)[b].2 else 0
  older b := by
    split
    · have := usesOf_older ks 0 1 Nat.one_pos b ‹_›
      omega
    · exact Nat.zero_le b

/-! ### A sequence of calls of the code -/

/-- A call of the API on a key object; `entropy` is what the random device delivers to the PRNG of that call, `buf` the buffer for the signature. -/
inductive ApiCall where
  | sign (entropy msg buf : List U8)
  | refresh

/-- The calls, one after the other; the result: the signatures. -/
def SKey.calls (P : Par) (E : Ext) (fuel d uw rep : Nat) : SKey P.k P.l d → List ApiCall → Res (List (List U8))
  | _, [] => .ok []
  | sk, .sign entropy msg buf :: cs => do
    let sig ← sk.sign P E fuel d uw rep entropy msg buf
    let sigs ← SKey.calls P E fuel d uw rep sk cs
    .ok (sig :: sigs)
  | sk, .refresh :: cs => do
    let sk ← sk.refresh E fuel
    SKey.calls P E fuel d uw rep sk cs

/-- The call does what is listed: one or more attempts of `sign`, or a refresh. -/
def ApiCall.Does : ApiCall → KeyCall → Prop
  | .sign _ _ _, .sign cs => cs ≠ []
  | .refresh, .refresh => True
  | _, _ => False

/-- A signing attempt with challenge `c`, noise `n` and masks `ρ`, `ρ3`. -/
def AttemptRun (P : Par) (E : Ext) (fuel uw : Nat) {m rep : Nat} (A : PMat P.k P.l) (a : Fin P.k → Fin P.l → RPoly) (t : PVec P.k 1) (μ : List U8) (st st' : SignSt P.l (2 ^ m)) (c : RPoly)
    (n : ComNoise m P.l P.k rep) (ρ : ComMasks m P.l P.k rep) (ρ3 : Fin P.l → Masks3 m RPoly) : Prop :=
  (∃ done, signAttempt P E fuel (2 ^ m) uw rep A t μ st = .ok (done, st')) ∧ n = comNoiseOf E uw P.κ m P.l P.k rep st.prng ∧
  ∃ (b z : PVec P.l (2 ^ m)) (w : PVec P.k (2 ^ m)) (cHash : List U8) (c0 cn : Poly) (g1 : Mrng (2 ^ m)),
    ComRun E fuel uw P.κ A a st.prng st.m b w st'.prng g1 n ρ ∧
    chalHash E P.κ (w.decode.roundingShr P.νw) μ = .ok cHash ∧ Poly.chalPoly E fuel P.ω cHash = .ok c0 ∧ c0.toZ = c ∧ c0.ntt = .ok cn ∧
    RespRun E fuel cn st.s b g1 st'.s z st'.m ρ3

/-- A refresh of the key, with masks `ρ`. -/
def RefreshVecRun (E : Ext) (fuel : Nat) {m l : Nat} (x : PVec l (2 ^ m)) (g : Mrng (2 ^ m)) (x' : PVec l (2 ^ m)) (g' : Mrng (2 ^ m)) (ρ : Fin l → Mask m) : Prop :=
  PVec.refresh E fuel x g = .ok (x', g') ∧ ∃ G : Nat → Mrng (2 ^ m), G 0 = g ∧ G l = g' ∧ ∀ j : Fin l, RefreshRun E fuel x[j.val] (G j.val) x'[j.val] (G (j.val + 1)) (ρ j)

/-- Key generation and the uses `H` of the key went as listed, with noise `n`, masks `ρ` and the sharings `S` of the secret. -/
structure LifeRun (P : Par) (E : Ext) (fuel ut uw : Nat) {m rep N : Nat} (entropy seed : List U8) (sk : SKey P.k P.l (2 ^ m)) (H : KeyUse N) (a : Fin P.k → Fin P.l → RPoly)
    (n : LifeNoise m P.l P.k rep N) (ρ : LifeMasks m P.l P.k rep N) (S : Nat → PVec P.l (2 ^ m)) : Prop where
  /-- key generation -/
  keygen : ∃ (A : PMat P.k P.l) (t : PVec P.k (2 ^ m)) (p' : Prng) (g' : Mrng (2 ^ m)), PMat.expandA E fuel P.k P.l seed = .ok A ∧ A.Is a ∧
    n 0 = comNoiseOf E ut P.κ m P.l P.k rep (Prng.new E entropy) ∧
    ComRun E fuel ut P.κ A a (Prng.new E entropy) (Mrng.new E (2 ^ m)) (S 0) t p' g' (n 0) (ρ.1 0) ∧ sk.s = S 0 ∧ sk.pkey.t = t.decode.roundingShr P.νt
  /-- the attempts -/
  sign : ∀ b c, H.op b = .sign c → ∃ (A : PMat P.k P.l) (t : PVec P.k 1) (μ : List U8) (st st' : SignSt P.l (2 ^ m)), PMat.expandA E fuel P.k P.l seed = .ok A ∧
    st.s = S (H.src b.val) ∧ st'.s = S (b.val + 1) ∧ AttemptRun P E fuel uw A a t μ st st' c (n b.succ) (ρ.1 b.succ) (ρ.2 b)
  /-- the refreshes -/
  refresh : ∀ b, H.op b = .refresh → ∃ g', RefreshVecRun E fuel (S (H.src b.val)) (Mrng.new E (2 ^ m)) (S (b.val + 1)) g' (fun j => ρ.2 b j 0)
  /-- the sharings of the secret are as listed -/
  shares : ∀ v, v ≤ N → ∀ (j : Fin P.l) (s : Fin (2 ^ m)), ((S v)[j.val][s.val]).toZ = skShares H n ρ v j s

end Raccoon
