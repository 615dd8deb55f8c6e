import Verif.Model.U128
/-!
# What a two-limb word denotes
-/
namespace Raccoon

/-- The natural number a `u128_t` stands for. -/
def U128.val (x : U128) : Nat := x.hi.toNat * 2 ^ 64 + x.lo.toNat

end Raccoon
