import Verif.Spec.Sig
/-!
# What the signature decoder can read, bit by bit

The decoder holds 64 bits: after a refill at bit position `p` of the payload it sees the bits up to the eighth byte boundary after
the byte that contains `p` (or the end of the data). These definitions say which code words it reads, and on which payloads the
C++ code runs into undefined behaviour (a shift by 64 or more), without reference to a buffer, a counter or an offset.
-/
namespace Raccoon

/-- The code words of `xs`, laid out from bit position `p` on, all lie in the 64 bits from the byte boundary at or before
their first bit. -/
def WindowFrom (e : Int → List Bool) : Nat → List Int → Prop
  | _, [] => True
  | p, x :: xs => p % 8 + (e x).length ≤ 64 ∧ WindowFrom e (p + (e x).length) xs

/-- The same with strict inequality: the 64-bit window of the encoder never fills up. -/
def StrictWindowFrom (e : Int → List Bool) : Nat → List Int → Prop
  | _, [] => True
  | p, x :: xs => p % 8 + (e x).length < 64 ∧ StrictWindowFrom e (p + (e x).length) xs

/-- What the encoder can write: no code word fills its window, and the last response leaves at least a byte of it free. -/
def Encodable (h z : List Int) : Prop :=
  StrictWindowFrom hintBits 0 h ∧ StrictWindowFrom respBits (h.flatMap hintBits).length z ∧
    ∀ init x, z = init ++ [x] → (sigBits h init).length % 8 + (respBits x).length ≤ 56

/-- The encoder, with room for `L` bytes of payload, gets to a code word of `len` bits with `n` ones at bit position `p` and is undefined
on it: the whole bytes before it fit, and it shifts by 64 or more: because of the ones alone, or because the window is full when the
next code word (or, after the last one, the rest) is to be written and that still fits. -/
def EncCodeTrap (L p n len : Nat) (last : Prop) : Prop :=
  p / 8 ≤ L ∧ (64 ≤ n ∨ (¬ last ∧ 64 ≤ p % 8 + len ∧ (p + len) / 8 ≤ L) ∨ (last ∧ 56 < p % 8 + len ∧ (p + len + 7) / 8 ≤ L))

/-- Encoding (h, z) with room for `L` bytes of payload is undefined: after code words that do not fill the window there comes a trap. -/
def EncTrap (L : Nat) (h z : List Int) : Prop :=
  (∃ h1 x h2, h = h1 ++ x :: h2 ∧ StrictWindowFrom hintBits 0 h1 ∧
    EncCodeTrap L (h1.flatMap hintBits).length x.natAbs (hintBits x).length False) ∨
  (∃ z1 x z2, z = z1 ++ x :: z2 ∧ StrictWindowFrom hintBits 0 h ∧ StrictWindowFrom respBits (h.flatMap hintBits).length z1 ∧
    EncCodeTrap L (sigBits h z1).length (x.natAbs / 2 ^ 40) (respBits x).length (z2 = []))

/-- Hints the decoder can read from bit position `p` on: as above, and no code word of exactly 64 bits. -/
def HintsReadable (p : Nat) (h : List Int) : Prop := WindowFrom hintBits p h ∧ ∀ x ∈ h, (hintBits x).length < 64

/-- A hint at bit position `p` with `m` ones and then a zero, followed by `rest`, on which the decoder is undefined: its zero is
the last bit of the window (so the sign bit is not there) and either data follow or there are at least 62 ones, or the code
word has exactly 64 bits. -/
def HintTrap (p m : Nat) (rest : List Bool) : Prop :=
  (p % 8 + m + 1 = 64 ∧ (62 ≤ m ∨ rest ≠ [])) ∨ (p % 8 = 0 ∧ m + 2 = 64 ∧ rest ≠ [])

/-- A response at bit position `p` with low part `a`, `m` ones and then a zero, followed by `rest`, on which the decoder is
undefined: not zero, and its zero is the last bit of the window, either before the end of the data or in the last coefficient. -/
def RespTrap (p a m : Nat) (rest : List Bool) (last : Prop) : Prop :=
  0 < a + m ∧ ((p % 8 + 41 + m = 64 ∧ rest ≠ []) ∨ (p % 8 + 41 + m ≤ 64 ∧ rest = [] ∧ last))

/-- The payload `P` leads the decoder of `hLen` hints and `zLen` responses into undefined behaviour: after readable hints (and
responses) there comes a trap. (A hint trap that ends the data one bit after a byte boundary is not reached if the hint before it
is that one bit: the decoder has then already seen the end of the data and rejects.) -/
def SigTrap (hLen zLen : Nat) (P : List Bool) : Prop :=
  (∃ h m rest, P = h.flatMap hintBits ++ List.replicate m true ++ false :: rest ∧ h.length < hLen ∧ HintsReadable 0 h ∧
    HintTrap (h.flatMap hintBits).length m rest ∧ ¬ (rest = [] ∧ h.getLast? = some 0 ∧ (h.flatMap hintBits).length % 8 = 1)) ∨
  (∃ h z a m rest, P = sigBits h z ++ natBits 40 a ++ List.replicate m true ++ false :: rest ∧ h.length = hLen ∧ z.length < zLen ∧ a < 2 ^ 40 ∧
    HintsReadable 0 h ∧ WindowFrom respBits (h.flatMap hintBits).length z ∧ RespTrap (sigBits h z).length a m rest (z.length + 1 = zLen))

end Raccoon
