import Verif.Model.Field
/-!
# `include/raccoon/internals/utility/utils.hpp`
and the span helpers used by the serialisers.
-/
namespace Raccoon

/-- utils.hpp:17-30 `from_le_bytes<T>` for a `w`-bit unsigned `T`; at most `sizeof(T)` bytes are used. -/
def fromLeBytes (w : Nat) (bytes : List U8) : BitVec w :=
  (bytes.take (w / 8)).zipIdx.foldl
    (fun (res : BitVec w) (bi : U8 × Nat) => res ||| ((bi.1.setWidth w : BitVec w) <<< (bi.2 * 8))) (0 : BitVec w)

/-- utils.hpp:34-42 `to_le_bytes` of a 64-bit word into a span: writes `min(8, size)` bytes, the rest
of the span keeps its content. -/
def toLeBytes (v : U64) (span : List U8) : List U8 :=
  (List.range (min 8 span.length)).map (fun i => (v >>> (i * 8)).setWidth 8) ++ span.drop (min 8 span.length)

/-- utils.hpp:45-51 `is_power_of_2`. -/
def isPowerOf2 (v : U64) : Bool := (v &&& (v - 1)) == 0

/-- utils.hpp:54-60 `log2<v>()` (only instantiated for `v > 0` with `is_power_of_2(v)`). -/
def log2v (v : U64) : Nat := countrZero v

/-- utils.hpp:63-68 `get_pkey_byte_len`. -/
def pkeyByteLen (κ k n νt : Nat) : Nat := (κ + k * n * (Q_BIT_WIDTH - νt)) / 8

/-- utils.hpp:71-77 `get_skey_byte_len` (`d > 0`). -/
def skeyByteLen (κ k l d n νt : Nat) : Nat :=
  pkeyByteLen κ k n νt + ((d - 1) * κ + l * n * Q_BIT_WIDTH) / 8

/-- Contract of `subtle::ct_eq<uint8_t, uint32_t>` (submodule `subtle`, not in the tree). -/
def ctEq8 (a b : U8) : U32 := if a = b then BitVec.allOnes 32 else 0

/-- Contract of `subtle::ct_ge<uint64_t, uint64_t>` (submodule `subtle`, not in the tree). -/
def ctGe64 (a b : U64) : U64 := if a ≥ b then BitVec.allOnes 64 else 0

/-- utils.hpp:82-91 `ct_eq_byte_array` (both spans have the same static extent). -/
def ctEqByteArray (a b : List U8) : U32 :=
  (a.zip b).foldl (fun res ab => res &&& ctEq8 ab.1 ab.2) (BitVec.allOnes 32)

/-- `span.subspan(off, cnt)`: undefined unless it lies inside the span. -/
def subspan {α : Type} (buf : List α) (off cnt : Nat) : Res (List α) :=
  if off + cnt ≤ buf.length then .ok ((buf.drop off).take cnt) else .ub

/-- Write the bytes `bs` into `buf` at offset `off`: undefined unless they fit. -/
def writeSpan (buf : List U8) (off : Nat) (bs : List U8) : Res (List U8) :=
  if off + bs.length ≤ buf.length then .ok (buf.take off ++ bs ++ buf.drop (off + bs.length)) else .ub

/-- `to_le_bytes(v, buf.subspan(off, cnt))`. -/
def putLe (buf : List U8) (off cnt : Nat) (v : U64) : Res (List U8) := do
  let sp ← subspan buf off cnt
  writeSpan buf off (toLeBytes v sp)

/-- `x & (-8ul)`: clear the low three bits. -/
def and8 (x : Nat) : Nat := x / 8 * 8

end Raccoon
