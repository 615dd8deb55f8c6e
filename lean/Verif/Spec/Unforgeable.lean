import Verif.Spec.Entropy
import Verif.Spec.Forking
/-!
# Winning against the signer, with no condition on what the attacker asks (for C87)
-/
namespace Raccoon
attribute [-instance] Monoid.toNPow
open Finset

/-- What an attacker hands in at the end: digest of a message, hash value, hint and response of a signature. -/
abbrev Forgery (C D : Type) := D × C × List Int × List Int

section
variable {k l ν : Nat} {C D : Type}

/-- The commitment a verifier recomputes from hash value, hint and response. -/
def recomputedW (hν : 0 < q / 2 ^ ν) (νt : Nat) (a : Fin k → Fin l → RPoly) (t : Fin k → RPoly) (ch : C → Fin 512 → Int) (f : Forgery C D) : Commitment k ν :=
  fun r i => ⟨recomputed ν νt a t (toR (ch f.2.1)) f.2.2.1 f.2.2.2 r i % (q / 2 ^ ν), Nat.mod_lt _ hν⟩

/-- The attacker has won after the game `v` with the hash function `H`: what it hands in (`out v`) is a valid signature, and no signing attempt was for the same digest and had the same
commitment. (In particular it has won with a valid signature of a digest it never had signed.) -/
structure Wins (A : Attacker k l ν C D) (νt Binf B22 : Nat) (a : Fin k → Fin l → RPoly) (t : Fin k → RPoly) (ch : C → Fin 512 → Int) (H : D × Commitment k ν → C)
    (out : List (Outcome k l ν C) → Forgery C D) (v : List (Outcome k l ν C)) : Prop where
  lengths : (out v).2.2.1.length = k * 512 ∧ (out v).2.2.2.length = l * 512
  norms : NormsOK ν Binf B22 (out v).2.2.1 (out v).2.2.2
  hash : ∃ w : Commitment k ν, (∀ r i, (w r i).val = recomputed ν νt a t (toR (ch (out v).2.1)) (out v).2.2.1 (out v).2.2.2 r i) ∧ H ((out v).1, w) = (out v).2.1 ∧
    ∀ m (hm : m < v.length), A.signs m = true → (A.digest (v.take m), v[m].1) ≠ ((out v).1, w)

/-- The attacker that, after its `M` steps, asks in one more step for the hash value of its own forgery. -/
def Attacker.finishing (A : Attacker k l ν C D) (M : Nat) (hν : 0 < q / 2 ^ ν) (νt : Nat) (a : Fin k → Fin l → RPoly) (t : Fin k → RPoly) (ch : C → Fin 512 → Int)
    (out : List (Outcome k l ν C) → Forgery C D) : Attacker k l ν C D where
  signs n := decide (n < M) && A.signs n
  digest v := if v.length < M then A.digest v else (out v).1
  commitment v := if v.length < M then A.commitment v else recomputedW hν νt a t ch (out v)

/-- What a careful attacker keeps in mind: the game as the attacker it works for sees it, and the pairs it knows the hash values of, with these. -/
structure Memory (k l ν : Nat) (C D : Type) where
  view : List (Outcome k l ν C)
  log : List ((D × Commitment k ν) × C)

variable [DecidableEq D]

/-- A pair whose hash value is not known yet. -/
noncomputable def Attacker.unknown (A : Attacker k l ν C D) (log : List ((D × Commitment k ν) × C)) : D × Commitment k ν :=
  open Classical in if h : ∃ x, ∀ e ∈ log, e.1 ≠ x then h.choose else (A.digest [], A.commitment [])

/-- What the attacker `A` would ask (or have signed). -/
def Attacker.wish (A : Attacker k l ν C D) (st : Memory k l ν C D) : D × Commitment k ν := (A.digest st.view, A.commitment st.view)

/-- The known hash value of a pair. -/
def Memory.known (st : Memory k l ν C D) (x : D × Commitment k ν) : Option C := (st.log.find? fun e => decide (e.1 = x)).map Prod.snd

/-- What is asked on behalf of `A`: what `A` wants to know, or something new if it is known already. -/
noncomputable def Attacker.ask (A : Attacker k l ν C D) (st : Memory k l ν C D) : D × Commitment k ν :=
  if A.signs st.view.length = true then A.wish st else if (st.known (A.wish st)).isSome then A.unknown st.log else A.wish st

/-- Keeping in mind what a step has shown; `A` is shown the known hash value if there is one. -/
noncomputable def Attacker.learn (A : Attacker k l ν C D) (st : Memory k l ν C D) (o : Outcome k l ν C) : Memory k l ν C D where
  view := st.view ++ [if A.signs st.view.length = true then o else match st.known (A.wish st) with | some c => ((A.wish st).2, c, none) | none => o]
  log := (((A.ask st).1, o.1), o.2.1) :: st.log

noncomputable def Attacker.memory (A : Attacker k l ν C D) (v : List (Outcome k l ν C)) : Memory k l ν C D := v.foldl A.learn ⟨[], []⟩

/-- The careful version of `A`: it plays as `A` does but never asks for a hash value it knows. -/
noncomputable def Attacker.careful (A : Attacker k l ν C D) : Attacker k l ν C D where
  signs := A.signs
  digest v := (A.ask (A.memory v)).1
  commitment v := (A.ask (A.memory v)).2

end

end Raccoon
