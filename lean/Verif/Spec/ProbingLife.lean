import Verif.Spec.Probing
import Verif.Spec.Scheme
import Mathlib.Algebra.Ring.Pi
/-!
# Observing the whole life of a key

Key generation computes `t = A * s + e`, a signing attempt first `w = A * r + e'` and then the response `z = s * c + r`, all of it on shares. The vectors `s`, `r`, `e`, `e'` are sums of
noise terms. This file lists the ring elements handled on the way, for key generation followed by any number of signing attempts.
-/
namespace Raccoon
attribute [-instance] Monoid.toNPow
open Finset

/-- The masks of one refresh. -/
abbrev Mask (m : Nat) := Fin (maskSchedule m).length → RPoly

/-! ### `A * x + y`, with `x` and `y` made of noise -/

/-- The noise terms: one for each row, repetition and share. -/
structure ComNoise (m l k rep : Nat) where
  x : Fin l → Fin rep → Fin (2 ^ m) → RPoly
  y : Fin k → Fin rep → Fin (2 ^ m) → RPoly

/-- The masks: for the encodings of zero, for the noise of `x`, for the noise of `y`. -/
abbrev ComMasks (m l k rep : Nat) := (Fin l → Mask m) × (Fin l → Fin rep → Mask m) × (Fin k → Fin rep → Mask m)

section
variable {m l k rep : Nat}

/-- What the noise terms add up to. -/
def ComNoise.xSum (n : ComNoise m l k rep) : Fin l → RPoly := fun j => ∑ r, ∑ s, n.x j r s
def ComNoise.ySum (n : ComNoise m l k rep) : Fin k → RPoly := fun i => ∑ r, ∑ s, n.y i r s

/-- The shares of `x`: an encoding of zero to which noise was added. -/
def comX (n : ComNoise m l k rep) (ρ : ComMasks m l k rep) : Fin l → Fin (2 ^ m) → RPoly := fun j =>
  noisy (refreshed (fun _ => 0) (ρ.1 j)) (pad (n.x j)) (pad (ρ.2.1 j)) rep

/-- The shares of `A * x`: the matrix is applied to each share. -/
def comU (a : Fin k → Fin l → RPoly) (n : ComNoise m l k rep) (ρ : ComMasks m l k rep) : Fin k → Fin (2 ^ m) → RPoly := fun i s =>
  ringMatVec a (fun j => comX n ρ j s) i

/-- The shares of `A * x + y`. -/
def comT (a : Fin k → Fin l → RPoly) (n : ComNoise m l k rep) (ρ : ComMasks m l k rep) : Fin k → Fin (2 ^ m) → RPoly := fun i =>
  noisy (comU a n ρ i) (pad (n.y i)) (pad (ρ.2.2 i)) rep

end

/-- The values that occur on the way, except for the final shares. -/
inductive ComWire (m l k rep : Nat) where
  /-- while the encoding of zero for row `j` is made -/
  | zero (j : Fin l) (x : Wire m)
  /-- in repetition `r` of the noise addition for row `j` of `x` -/
  | nx (j : Fin l) (r : Fin rep) (x : NoiseWire m)
  /-- a share of row `j` of `x` -/
  | sh (j : Fin l) (s : Fin (2 ^ m))
  /-- its transform -/
  | hat (j : Fin l) (s : Fin (2 ^ m))
  /-- the product of this with an entry of the matrix -/
  | prod (i : Fin k) (j : Fin l) (s : Fin (2 ^ m))
  /-- the sum of the first `c` products -/
  | acc (i : Fin k) (c : Nat) (s : Fin (2 ^ m))
  /-- in repetition `r` of the noise addition for row `i` of the result (`.old s` for `r = 0`: a share of `A * x`) -/
  | ny (i : Fin k) (r : Fin rep) (x : NoiseWire m)
deriving DecidableEq

/-- What is seen at a place. -/
def ComWire.val {m l k rep : Nat} (a : Fin k → Fin l → RPoly) (n : ComNoise m l k rep) (ρ : ComMasks m l k rep) : ComWire m l k rep → RPoly
  | .zero j x => x.val (fun _ => 0) (ρ.1 j)
  | .nx j r x => x.val (refreshed (fun _ => 0) (ρ.1 j)) (pad (n.x j)) (pad (ρ.2.1 j)) r.val
  | .sh j s => comX n ρ j s
  | .hat j s => nttR (comX n ρ j s)
  | .prod i j s => nttR (a i j) * nttR (comX n ρ j s)
  | .acc i c s => ∑ j : Fin l, if j.val < c then nttR (a i j) * nttR (comX n ρ j s) else 0
  | .ny i r x => x.val (comU a n ρ i) (pad (n.y i)) (pad (ρ.2.2 i)) r.val

/-! ### Key generation and `N` uses of the key

Phase 0 is key generation, phase `b + 1` is use number `b`. A use takes one of the sharings of the secret that exist already, and makes a new one by refreshing it. `sign` works on
a copy of the sharing in the key object: its first attempt starts from the sharing in the object, every further attempt from what the attempt before it left. `refresh` replaces
the sharing in the object. -/

/-- One use of the key. -/
inductive KeyOp where
  /-- a signing attempt with challenge `c` -/
  | sign (c : RPoly)
  /-- the key is refreshed -/
  | refresh

/-- What is done with a key: use `b` starts from sharing number `src b` (number 0: the one made by key generation, number `b + 1`: the one left by use `b`). -/
structure KeyUse (N : Nat) where
  op : Fin N → KeyOp
  src : Nat → Nat
  older : ∀ b, src b ≤ b

abbrev LifeNoise (m l k rep N : Nat) := Fin (N + 1) → ComNoise m l k rep
abbrev LifeMasks (m l k rep N : Nat) := (Fin (N + 1) → ComMasks m l k rep) × (Fin N → Fin l → Masks3 m RPoly)

/-- Item 0 is `base`, item `b + 1` is made by `step b` from item `src b`. -/
def itemOf {α : Type} (src : Nat → Nat) (h : ∀ b, src b ≤ b) (base : α) (step : Nat → α → α) : Nat → α
  | 0 => base
  | b + 1 => step b (itemOf src h base step (src b))
termination_by v => v
decreasing_by have := h b; omega

/-- The shares of the (transformed) secret: sharing number 0 is made by key generation, number `b + 1` is number `src b`, refreshed. -/
def skShares {m l k rep N : Nat} (H : KeyUse N) (n : LifeNoise m l k rep N) (ρ : LifeMasks m l k rep N) : Nat → Fin l → Fin (2 ^ m) → RPoly :=
  itemOf H.src H.older (fun j s => nttR (comX (n 0) (ρ.1 0) j s)) (fun b a j => refreshed (a j) (pad ρ.2 b j 0))

/-- The values that occur. -/
inductive LifeWire (m l k rep N : Nat) where
  /-- in the commitment of phase `p` -/
  | com (p : Fin (N + 1)) (x : ComWire m l k rep)
  /-- a final share of the commitment of phase `p` -/
  | comOut (p : Fin (N + 1)) (i : Fin k) (s : Fin (2 ^ m))
  /-- in row `j` of the response of use `b` (`.s x`: while the secret is refreshed; `.sOut i`: a share of the refreshed secret) -/
  | resp (b : Fin N) (j : Fin l) (x : RespWire m)
  /-- a final share of the response of use `b` -/
  | respOut (b : Fin N) (j : Fin l) (s : Fin (2 ^ m))
deriving DecidableEq

def LifeWire.phase {m l k rep N : Nat} : LifeWire m l k rep N → Nat
  | .com p _ => p.val
  | .comOut p _ _ => p.val
  | .resp b _ _ => b.val + 1
  | .respOut b _ _ => b.val + 1

/-- What is seen at a place of a use; a mere refresh has no ephemeral and no response. -/
def KeyOp.see {m : Nat} (o : KeyOp) (a b : Fin (2 ^ m) → RPoly) (ρ : Masks3 m RPoly) (x : RespWire m) : RPoly :=
  match o with
  | .sign c => x.val (nttR c) a b ρ
  | .refresh => match x with
    | .s x => x.val a (ρ 0)
    | .sOut i => refreshed a (ρ 0) i
    | _ => 0

def KeyOp.seeOut {m : Nat} (o : KeyOp) (a b : Fin (2 ^ m) → RPoly) (ρ : Masks3 m RPoly) (s : Fin (2 ^ m)) : RPoly :=
  match o with
  | .sign c => respOut (nttR c) a b ρ s
  | .refresh => 0

/-- Does phase `p` make a commitment? Key generation and signing attempts do. -/
def KeyUse.commits {N : Nat} (H : KeyUse N) (p : Fin (N + 1)) : Prop := ∀ b : Fin N, p = b.succ → H.op b ≠ .refresh

open Classical in
/-- What is seen at a place (nothing, if the place does not exist in this history). -/
noncomputable def LifeWire.val {m l k rep N : Nat} (a : Fin k → Fin l → RPoly) (H : KeyUse N) (n : LifeNoise m l k rep N) (ρ : LifeMasks m l k rep N) : LifeWire m l k rep N → RPoly
  | .com p x => if H.commits p then x.val a (n p) (ρ.1 p) else 0
  | .comOut p i s => if H.commits p then comT a (n p) (ρ.1 p) i s else 0
  | .resp b j x => (H.op b).see (skShares H n ρ (H.src b.val) j) (fun s => nttR (comX (n b.succ) (ρ.1 b.succ) j s)) (ρ.2 b j) x
  | .respOut b j s => (H.op b).seeOut (skShares H n ρ (H.src b.val) j) (fun s => nttR (comX (n b.succ) (ρ.1 b.succ) j s)) (ρ.2 b j) s

/-- The final shares, which are added up to get something public. -/
def LifeWire.Final {m l k rep N : Nat} : LifeWire m l k rep N → Prop
  | .comOut _ _ _ => True
  | .respOut _ _ _ => True
  | _ => False

/-- The places inside the refresh of the secret by use `b` (among them the shares it started from). -/
def LifeWire.onSecret {m l k rep N : Nat} (b : Nat) : LifeWire m l k rep N → Bool
  | .resp b' _ (.s _) => b'.val = b
  | _ => false

/-- What an observer of the places `P` sees: these places, and all final shares, hold what `w` says. -/
def LifeSeen {m l k rep N : Nat} (P : Finset (LifeWire m l k rep N)) (a : Fin k → Fin l → RPoly) (H : KeyUse N) (n : LifeNoise m l k rep N) (w : LifeWire m l k rep N → RPoly)
    (ρ : LifeMasks m l k rep N) : Prop :=
  ∀ x, x ∈ P ∨ x.Final → x.val a H n ρ = w x

/-- The observer picks, for each sharing of the secret, fewer places than there are shares: counting the phase that made the sharing, and the refreshes that started from it. -/
def FewPlaces {m l k rep N : Nat} (P : Finset (LifeWire m l k rep N)) (H : KeyUse N) : Prop :=
  ∀ v, v ≤ N → (P.filter fun x => x.phase = v).card + ∑ b : Fin N, (if H.src b.val = v then (P.filter fun x => x.onSecret b.val = true).card else 0) < 2 ^ m

/-- The public results are the same: what the noise makes of the commitments and of the responses. -/
structure SamePublic {m l k rep N : Nat} (a : Fin k → Fin l → RPoly) (H : KeyUse N) (n n' : LifeNoise m l k rep N) : Prop where
  com : ∀ p, H.commits p → ∀ i, ringMatVec a (n p).xSum i + (n p).ySum i = ringMatVec a (n' p).xSum i + (n' p).ySum i
  resp : ∀ b c, H.op b = .sign c → ∀ j, negacyclic ((n 0).xSum j) c + (n b.succ).xSum j = negacyclic ((n' 0).xSum j) c + (n' b.succ).xSum j

/-- The noise terms: of `x` or of `y`, by phase, row, repetition and share. -/
inductive NoiseTerm (m l k rep N : Nat) where
  | x (p : Fin (N + 1)) (j : Fin l) (r : Fin rep) (s : Fin (2 ^ m))
  | y (p : Fin (N + 1)) (i : Fin k) (r : Fin rep) (s : Fin (2 ^ m))
deriving DecidableEq

def NoiseTerm.val {m l k rep N : Nat} (n : LifeNoise m l k rep N) : NoiseTerm m l k rep N → RPoly
  | .x p j r s => (n p).x j r s
  | .y p i r s => (n p).y i r s

def NoiseTerm.phase {m l k rep N : Nat} : NoiseTerm m l k rep N → Nat
  | .x p _ _ _ => p.val
  | .y p _ _ _ => p.val

end Raccoon
