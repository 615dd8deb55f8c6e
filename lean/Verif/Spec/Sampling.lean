import Verif.Spec.Bytes
import Verif.Spec.Field
import Verif.Model.Poly
import Mathlib.Data.Finset.Card
import Mathlib.Data.Finset.Range
import Mathlib.Logic.Function.Iterate
/-!
# Specifications of the samplers, on the byte stream of the extendable-output function
-/
namespace Raccoon

/-- The `j`-th `n`-byte little-endian word of a byte stream. -/
def streamWord (s : Nat → U8) (n j : Nat) : Nat := leVal ((List.range n).map fun i => s (n * j + i))

/-- Candidate `j` of the uniform sampler: low 49 bits of the `j`-th 7-byte word. -/
def qWord (s : Nat → U8) (j : Nat) : Nat := streamWord s 7 j % 2 ^ 49

/-- The candidates below the modulus among the first `m`, in order. -/
def accepted (s : Nat → U8) (m : Nat) : List Nat := ((List.range m).map (qWord s)).filter (fun x => decide (x < q))

/-- The polynomial whose coefficients are the first 512 entries of a list. -/
def listPoly (l : List Nat) : Poly := Vector.ofFn fun i : Fin 512 => ⟨BitVec.ofNat 64 (l.getD i.val 0)⟩

/-- Position addressed by word `j` of the challenge stream: bits 1..9 of the `j`-th two-byte word. -/
def chalPos (s : Nat → U8) (j : Nat) : Nat := streamWord s 2 j / 2 % 512

/-- Sign carried by word `j` of the challenge stream: bit 0 set means −1 = q − 1. -/
def chalSign (s : Nat → U8) (j : Nat) : Nat := if streamWord s 2 j % 2 = 1 then q - 1 else 1

/-- The challenge polynomial after `m` words: the coefficient at position `i` is the sign carried by the *first* word that
addresses `i`, and 0 if none does. -/
def chalSpec (s : Nat → U8) (m : Nat) : Poly := Vector.ofFn fun i : Fin 512 =>
  ⟨BitVec.ofNat 64 (match (List.range m).find? (fun j => chalPos s j == i.val) with | some j => chalSign s j | none => 0)⟩

/-- Number of distinct positions addressed by the first `m` words. -/
def chalCount (s : Nat → U8) (m : Nat) : Nat := ((Finset.range m).image (chalPos s)).card

/-- Candidate `j` of the mask sampler started in Ascon state `st`: the first word after `j` applications of the 6-round
permutation, low 49 bits. -/
def maskWord (E : Ext) (st : AsconState) (j : Nat) : Nat := ((E.asconP6^[j] st)[0]).toNat % 2 ^ 49

/-- The candidates below the modulus among the first `m`, in order. -/
def acceptedMasks (E : Ext) (st : AsconState) (m : Nat) : List Nat := ((List.range m).map (maskWord E st)).filter (fun x => decide (x < q))

/-- The generators when generator `idx` has been used `n` times. -/
def Mrng.used (E : Ext) (m : Mrng d) (idx n : Nat) (h : idx < d - 1) : Mrng d := ⟨m.state.set idx (E.asconP6^[n] m.state[idx])⟩

end Raccoon
