import Verif.Spec.Scheme
/-!
# The library with other mask generators (C78)

The same functions with the initial state of the mask generators as an argument: what the library would be if `mrng_t`'s constructor did something else
(for instance what its author intended).
-/
namespace Raccoon

/-- secret_key.hpp:62-96 `generate`, with mask generators that start in state `g`. -/
def SKey.generateWith (P : Par) (E : Ext) (fuel d ut rep : Nat) (g : Mrng d) (entropy seed : List U8) : Res (SKey P.k P.l d) := do
  let prng := Prng.new E entropy
  let A ← PMat.expandA E fuel P.k P.l seed
  let (s, m) ← PVec.zeroEncoding E fuel P.l g
  let (s, prng, m) ← s.addRepNoise E fuel ut rep P.κ prng m
  let s ← s.ntt
  let t := A.mulVec s
  let t ← t.intt
  let (t, _, _) ← t.addRepNoise E fuel ut rep P.κ prng m
  let t' := t.decode
  let t' := t'.roundingShr P.νt
  .ok ⟨⟨seed, t'⟩, s⟩

/-- secret_key.hpp:53-57 `refresh`, with mask generators that start in state `g`. -/
def SKey.refreshWith (E : Ext) (fuel : Nat) (g : Mrng d) (sk : SKey k l d) : Res (SKey k l d) := do
  let (s, _) ← sk.s.refresh E fuel g
  .ok { sk with s := s }

/-- secret_key.hpp:101-208 `sign`, with mask generators that start in state `g`. -/
def SKey.signWith (P : Par) (E : Ext) (fuel d uw rep : Nat) (g : Mrng d) (sk : SKey P.k P.l d) (entropy msg sigBytes : List U8) : Res (List U8) := do
  let t ← sk.pkey.t.shl P.νt
  let t ← t.ntt
  let pkBytes ← sk.pkey.toBytes P.νt (List.replicate (PKey.byteLen P.κ P.k P.νt) 0)
  let μ := SKey.bindMsg E P.κ pkBytes msg
  let A ← PMat.expandA E fuel P.k P.l sk.pkey.seed
  signLoop P E fuel d uw rep A t μ fuel ⟨sk.s, Prng.new E entropy, g, sigBytes⟩

/-- `raccoonXXX_skey_t<d>::generate`, `sign` and `refresh` (raccoon128.hpp:84-99), with mask generators that start in state `g`. -/
def Api.generateWith (P : Par) (uts : List Nat) (E : Ext) (fuel : Nat) (g : Mrng d) (entropy seed : List U8) : Res (SKey P.k P.l d) := do
  let ut ← tab uts (BitVec.ofNat 64 d)
  let rep ← tab repTable (BitVec.ofNat 64 d)
  SKey.generateWith P E fuel d ut rep g entropy seed
def Api.signWith (P : Par) (E : Ext) (fuel : Nat) (g : Mrng d) (sk : SKey P.k P.l d) (entropy msg sigBytes : List U8) : Res (List U8) := do
  let uw ← tab uwTable (BitVec.ofNat 64 d)
  let rep ← tab repTable (BitVec.ofNat 64 d)
  sk.signWith P E fuel d uw rep g entropy msg sigBytes
def Api.refreshWith (P : Par) (E : Ext) (fuel : Nat) (g : Mrng d) (sk : SKey P.k P.l d) : Res (SKey P.k P.l d) := sk.refreshWith E fuel g

/-- The external functions with another Ascon (permutations and initial value); the SHAKE functions stay. -/
def Ext.withAscon (E : Ext) (p6 p12 : AsconState → AsconState) (iv : U64) : Ext := { E with asconP6 := p6, asconP12 := p12, ascon80pqIV := iv }

/-- The generators as the constructor was meant to leave them: the computed states stored back (mrng.hpp:46-60 with `auto& i_share`). -/
def Mrng.intended (E : Ext) (d : Nat) : Mrng d := ⟨Vector.ofFn fun i => mrngInitShare E i.val (Vector.replicate 5 0)⟩

/-- What happens to a secret key object after it was made, when each refresh may start its mask generators in a state of its own (compare `SKey.Derived`). -/
inductive SKey.DerivedWith (P : Par) (E : Ext) (sk : SKey P.k P.l d) : SKey P.k P.l d → Prop
  | refl : SKey.DerivedWith P E sk sk
  | refresh {sk' sk'' : SKey P.k P.l d} (fuel : Nat) (g : Mrng d) (h : SKey.DerivedWith P E sk sk') (e : Api.refreshWith P E fuel g sk' = .ok sk'') : SKey.DerivedWith P E sk sk''
  | reload {sk' sk'' : SKey P.k P.l d} (fuel fuel' : Nat) (entropy buf b : List U8) (h : SKey.DerivedWith P E sk sk')
      (hb : buf.length = SKey.byteLen P.κ P.k P.l d P.νt) (e : Api.skAsBytes P E fuel sk' entropy buf = .ok b)
      (e' : Api.skFromBytes P E fuel' d b = .ok sk'') : SKey.DerivedWith P E sk sk''

/-- The library as it is. -/
theorem generateWith_new (P : Par) (uts : List Nat) (E : Ext) (fuel d : Nat) (entropy seed : List U8) :
    Api.generateWith P uts E fuel (Mrng.new E d) entropy seed = Api.generate P uts E fuel d entropy seed := rfl
theorem signWith_new (P : Par) (E : Ext) (fuel d : Nat) (sk : SKey P.k P.l d) (entropy msg buf : List U8) :
    Api.signWith P E fuel (Mrng.new E d) sk entropy msg buf = Api.sign P E fuel d sk entropy msg buf := rfl
theorem refreshWith_new (P : Par) (E : Ext) (fuel d : Nat) (sk : SKey P.k P.l d) : Api.refreshWith P E fuel (Mrng.new E d) sk = Api.refresh P E fuel sk := rfl
theorem derivedWith_new {P : Par} {E : Ext} {d : Nat} {sk sk' : SKey P.k P.l d} (h : SKey.Derived P E sk sk') : SKey.DerivedWith P E sk sk' := by
  induction h with
  | refl => exact .refl
  | refresh fuel _ e ih => exact .refresh fuel (Mrng.new E d) ih e
  | reload fuel fuel' entropy buf b _ hb e e' ih => exact .reload fuel fuel' entropy buf b ih hb e e'

end Raccoon
