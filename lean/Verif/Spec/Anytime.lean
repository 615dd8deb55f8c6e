import Verif.Spec.Unforgeable
/-!
# An attacker that asks for signing attempts whenever it likes (for C87)
-/
namespace Raccoon
attribute [-instance] Monoid.toNPow
open Finset

/-- An attacker that also decides as it goes whether to ask for a signing attempt or for a hash value. -/
structure FreeAttacker (k l ν : Nat) (C D : Type) where
  signs : List (Outcome k l ν C) → Bool
  digest : List (Outcome k l ν C) → D
  commitment : List (Outcome k l ν C) → Commitment k ν

section
variable {k l u ν : Nat} {κ C D : Type} [Fintype κ]

/-- The number of signing attempts in a game. -/
def signCount (v : List (Outcome k l ν C)) : Nat := v.countP fun o => o.2.2.isSome

/-- One more step after the game so far, `v`: the signer, with secret `s`, makes a signing attempt if the attacker asks for it and it has made fewer than `N` (with the next row of the
noise words); otherwise the attacker gets the hash value of the pair it asks for. -/
def freeStep (A : FreeAttacker k l ν C D) (N : Nat) (hν : 0 < q / 2 ^ ν) (a : Fin k → Fin l → RPoly) (s : Fin l → Fin 512 → Int) (ch : C → Fin 512 → Int)
    (H : D × Commitment k ν → C) (W : NoiseTable N l k u κ) (v : List (Outcome k l ν C)) : Outcome k l ν C :=
  if h : A.signs v = true ∧ signCount v < N then
    let w := signerW ν hν a (maskOf W ⟨signCount v, h.2⟩) (errorOf W ⟨signCount v, h.2⟩)
    let c := H (A.digest v, w)
    (w, c, some fun j x => negacyclicZ (s j) (ch c) x + maskOf W ⟨signCount v, h.2⟩ j x)
  else (A.commitment v, H (A.digest v, A.commitment v), none)

/-- The game of `M` steps. -/
def freeGame (A : FreeAttacker k l ν C D) (M N : Nat) (hν : 0 < q / 2 ^ ν) (a : Fin k → Fin l → RPoly) (s : Fin l → Fin 512 → Int) (ch : C → Fin 512 → Int)
    (H : D × Commitment k ν → C) (W : NoiseTable N l k u κ) : List (Outcome k l ν C) := play fun (_ : Fin M) v => freeStep A N hν a s ch H W v

/-- The attacker has won after the game `v`: what it hands in is a valid signature, and no signing attempt was for the same digest and had the same commitment. -/
structure FreeWins (A : FreeAttacker k l ν C D) (νt Binf B22 : Nat) (a : Fin k → Fin l → RPoly) (t : Fin k → RPoly) (ch : C → Fin 512 → Int) (H : D × Commitment k ν → C)
    (out : List (Outcome k l ν C) → Forgery C D) (v : List (Outcome k l ν C)) : Prop where
  lengths : (out v).2.2.1.length = k * 512 ∧ (out v).2.2.2.length = l * 512
  norms : NormsOK ν Binf B22 (out v).2.2.1 (out v).2.2.2
  hash : ∃ w : Commitment k ν, (∀ r i, (w r i).val = recomputed ν νt a t (toR (ch (out v).2.1)) (out v).2.2.1 (out v).2.2.2 r i) ∧ H ((out v).1, w) = (out v).2.1 ∧
    ∀ m (hm : m < v.length), v[m].2.2.isSome = true → (A.digest (v.take m), v[m].1) ≠ ((out v).1, w)

/-- Whether the next step is a signing attempt. -/
def FreeAttacker.asksToSign (A : FreeAttacker k l ν C D) (N : Nat) (x : List (Outcome k l ν C)) : Bool := A.signs x && decide (signCount x < N)

/-- Playing on a fixed timetable, of `M` steps for hash queries and one for a signing attempt in turn: a step's outcome is passed on if it is the kind of step asked for. State: number of
the step, what was passed on. -/
def FreeAttacker.listen (A : FreeAttacker k l ν C D) (M N : Nat) (st : Nat × List (Outcome k l ν C)) (o : Outcome k l ν C) : Nat × List (Outcome k l ν C) :=
  (st.1 + 1, if st.2.length < M ∧ A.asksToSign N st.2 = decide (st.1 % (M + 1) = M) then st.2 ++ [o] else st.2)

def FreeAttacker.seen (A : FreeAttacker k l ν C D) (M N : Nat) (v : List (Outcome k l ν C)) : List (Outcome k l ν C) := (v.foldl (A.listen M N) (0, [])).2

/-- The attacker on the timetable. It idles in steps of the wrong kind; when the game is over it has something else signed than what it hands in. -/
noncomputable def FreeAttacker.scheduled [Nontrivial D] (A : FreeAttacker k l ν C D) (M N : Nat) (out : List (Outcome k l ν C) → Forgery C D) : Attacker k l ν C D where
  signs n := decide (n % (M + 1) = M)
  digest v := if (A.seen M N v).length < M then A.digest (A.seen M N v) else (exists_ne (out (A.seen M N v)).1).choose
  commitment v := A.commitment (A.seen M N v)

end

end Raccoon
