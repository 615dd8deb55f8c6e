import Verif.Spec.Entropy
import Verif.Spec.Extreme
/-!
# The noise words of a key (for C86)
-/
namespace Raccoon

/-- The words that make up coefficient `c` of row `j` of the secret (`Sum.inl j`) or of the error (`Sum.inr j`) of the key made from the entropy, one for each repetition and share: word `c`
of the stream of `'u' ‖ repetition ‖ row ‖ share ‖ 0⁴ ‖ σ`, where σ is the next piece of the stream of the entropy. -/
def keyWords (P : Par) (E : Ext) (d : Nat) (entropy : List U8) : NoiseTable 1 P.l P.k (utOf P.κ d) (Fin (repOf d) × Fin d) := fun x rs =>
  let row : Nat := match x.2.1 with | Sum.inl j => j.val | Sum.inr j => j.val
  let start : Nat := match x.2.1 with | Sum.inl _ => 0 | Sum.inr _ => P.l * rowBytesOf P d
  ⟨streamWord (E.shake256 ([0x75, BitVec.ofNat 8 rs.1.val, BitVec.ofNat 8 row, BitVec.ofNat 8 rs.2.val, 0, 0, 0, 0] ++
      (List.range (P.κ / 8)).map fun b => E.shake128 entropy (start + row * rowBytesOf P d + (rs.1.val * d + rs.2.val) * (P.κ / 8) + b)))
    ((utOf P.κ d + 7) / 8) x.2.2.val % 2 ^ utOf P.κ d, Nat.mod_lt _ (Nat.pow_pos (by omega))⟩

end Raccoon
