import Verif.Spec.Hiding
/-!
# Observing intermediate values of a refresh

The model of side channel observation ("probing model"): an observer learns some of the ring elements a computation handles. All masks are thought of as
drawn uniformly; "the observations are equally likely" is said by counting mask choices.
-/
namespace Raccoon
attribute [-instance] Monoid.toNPow
open Finset

/-- Share `s` of the encoding of zero under construction, after the first `t` mask requests have been served. -/
def maskedUpto {R : Type} [AddCommGroup R] (sch : List (Nat × Nat)) (ρ : Fin sch.length → R) (t s : Nat) : R :=
  ∑ u : Fin sch.length, if u.val < t then (if sch[u.val].1 = s then ρ u else 0) - (if sch[u.val].1 + sch[u.val].2 = s then ρ u else 0) else 0

/-- The values that occur while a sharing with 2^m shares is refreshed, except for the refreshed shares. -/
inductive Wire (m : Nat) where
  /-- a share of the argument -/
  | input (s : Fin (2 ^ m))
  /-- the mask drawn for request number `t` -/
  | mask (t : Fin (maskSchedule m).length)
  /-- share `s` of the encoding of zero after `t` requests -/
  | share (t : Nat) (s : Fin (2 ^ m))
deriving DecidableEq

/-- What is seen at a place when the sharing `a` is refreshed with masks `ρ`. -/
def Wire.val {R : Type} [AddCommGroup R] {m : Nat} (a : Fin (2 ^ m) → R) (ρ : Fin (maskSchedule m).length → R) : Wire m → R
  | .input s => a s
  | .mask t => ρ t
  | .share t s => maskedUpto (maskSchedule m) ρ t s.val

/-- The shares of the refreshed sharing. -/
def refreshed {R : Type} [AddCommGroup R] {m : Nat} (a : Fin (2 ^ m) → R) (ρ : Fin (maskSchedule m).length → R) : Fin (2 ^ m) → R := fun s =>
  a s + maskedShare (maskSchedule m) ρ s.val

/-! ### The response of a signing attempt

`sign` refreshes the shares `a` of (a row of) the secret and the shares `b` of the ephemeral `r`, computes the response share by share with the public challenge
`c`, refreshes the result and only then adds the shares up. -/

/-- The values that occur on the way, except for the shares that are added up in the end. -/
inductive RespWire (m : Nat) where
  /-- while the secret is refreshed -/
  | s (x : Wire m)
  /-- while the ephemeral is refreshed -/
  | r (x : Wire m)
  /-- a share of the refreshed secret -/
  | sOut (i : Fin (2 ^ m))
  /-- a share of the refreshed ephemeral -/
  | rOut (i : Fin (2 ^ m))
  /-- a share of the secret times the challenge -/
  | prod (i : Fin (2 ^ m))
  /-- while the response is refreshed (`.input i`: its share before that) -/
  | z (x : Wire m)
deriving DecidableEq

/-- The masks of the three refreshes. -/
abbrev Masks3 (m : Nat) (R : Type) := Fin 3 → Fin (maskSchedule m).length → R

/-- The shares of the response before it is refreshed, and after. -/
def respIn {R : Type} [Ring R] {m : Nat} (c : R) (a b : Fin (2 ^ m) → R) (ρ : Masks3 m R) : Fin (2 ^ m) → R := fun i =>
  refreshed a (ρ 0) i * c + refreshed b (ρ 1) i
def respOut {R : Type} [Ring R] {m : Nat} (c : R) (a b : Fin (2 ^ m) → R) (ρ : Masks3 m R) : Fin (2 ^ m) → R :=
  refreshed (respIn c a b ρ) (ρ 2)

/-- What is seen at a place. -/
def RespWire.val {R : Type} [Ring R] {m : Nat} (c : R) (a b : Fin (2 ^ m) → R) (ρ : Masks3 m R) : RespWire m → R
  | .s x => x.val a (ρ 0)
  | .r x => x.val b (ρ 1)
  | .sOut i => refreshed a (ρ 0) i
  | .rOut i => refreshed b (ρ 1) i
  | .prod i => refreshed a (ρ 0) i * c
  | .z x => x.val (respIn c a b ρ) (ρ 2)

/-- What an observer of the places `P` sees, when the shares of the secret and of the ephemeral are `a` and `b`, the challenge is `c` and the masks are `ρ`: these
places are seen to hold `w`, and the final shares are `o`. -/
def RespSeen {R : Type} [Ring R] {m l : Nat} (P : Finset (Fin l × RespWire m)) (c : R) (w : Fin l × RespWire m → R) (o : Fin l → Fin (2 ^ m) → R)
    (a b : Fin l → Fin (2 ^ m) → R) (ρ : Fin l → Masks3 m R) : Prop :=
  (∀ x ∈ P, x.2.val c (a x.1) (b x.1) (ρ x.1) = w x) ∧ ∀ i j, respOut c (a i) (b i) (ρ i) j = o i j

/-! ### Noise addition

`add_rep_noise` adds, in every repetition, one noise polynomial to each share and then refreshes. -/

/-- The shares at the start of repetition `i`, when `n i s` is the noise added to share `s` in repetition `i`. -/
def noisy {R : Type} [AddCommGroup R] {m : Nat} (v : Fin (2 ^ m) → R) (n : Nat → Fin (2 ^ m) → R) (ρ : Nat → Fin (maskSchedule m).length → R) : Nat → Fin (2 ^ m) → R
  | 0 => v
  | i + 1 => refreshed (fun s => noisy v n ρ i s + n i s) (ρ i)

/-- The values that occur in one repetition, except for the shares at its end. -/
inductive NoiseWire (m : Nat) where
  /-- the noise polynomial for a share -/
  | noise (s : Fin (2 ^ m))
  /-- a share before its noise is added -/
  | old (s : Fin (2 ^ m))
  /-- while refreshing (`.input s`: the share after its noise was added) -/
  | ref (x : Wire m)
deriving DecidableEq

/-- What is seen at a place of repetition `i`. -/
def NoiseWire.val {R : Type} [AddCommGroup R] {m : Nat} (v : Fin (2 ^ m) → R) (n : Nat → Fin (2 ^ m) → R) (ρ : Nat → Fin (maskSchedule m).length → R) (i : Nat) : NoiseWire m → R
  | .noise s => n i s
  | .old s => noisy v n ρ i s
  | .ref x => x.val (fun s => noisy v n ρ i s + n i s) (ρ i)

/-- What is given for the `rep` repetitions, continued by 0. -/
def pad {rep : Nat} {α : Type} [Zero α] (f : Fin rep → α) : Nat → α := fun i => if h : i < rep then f ⟨i, h⟩ else 0

/-- What an observer of the places `P` sees, when noise `n` is added to the sharing `v` in `rep` repetitions and the masks are `ρ`: these places are seen to hold `w`, and the
shares at the end are `o`. -/
def NoiseSeen {R : Type} [AddCommGroup R] {m rep : Nat} (P : Finset (Fin rep × NoiseWire m)) (w : Fin rep × NoiseWire m → R) (o : Fin (2 ^ m) → R)
    (v : Fin (2 ^ m) → R) (n : Fin rep → Fin (2 ^ m) → R) (ρ : Fin rep → Fin (maskSchedule m).length → R) : Prop :=
  (∀ x ∈ P, x.2.val v (pad n) (pad ρ) x.1.val = w x) ∧ ∀ s, noisy v (pad n) (pad ρ) rep s = o s

end Raccoon
