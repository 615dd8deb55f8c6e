import Verif.Spec.Scheme
/-!
# What an observer of single shares sees over the life of a key (C77)
-/
namespace Raccoon

/-- A key object that came out of the API: generated, or loaded from a byte string of the right length (any bytes), and then refreshed, saved and reloaded in any order. -/
def SKey.Made (P : Par) (E : Ext) (sk : SKey P.k P.l d) : Prop :=
  ∃ sk0 fuel, ((∃ entropy seed, seed.length = P.κ / 8 ∧ Api.generate P (utTableOf P) E fuel d entropy seed = .ok sk0) ∨
    ∃ b, b.length = SKey.byteLen P.κ P.k P.l d P.νt ∧ Api.skFromBytes P E fuel d b = .ok sk0) ∧ SKey.Derived P E sk0 sk

/-- `s` is the refreshed sharing of the secret that attempt number `n` (from 0) of a call `sign(entropy, msg, buf)` on the key object works with (the lines before the loop, `n` attempts that
were given up, one more attempt: `Api.sign`). -/
def UsedInSign (P : Par) (E : Ext) (sk : SKey P.k P.l d) (n : Nat) (s : PVec P.l d) : Prop :=
  ∃ fuel uw rep t0 t pkb A entropy msg buf done st st', tab uwTable (BitVec.ofNat 64 d) = .ok uw ∧ tab repTable (BitVec.ofNat 64 d) = .ok rep ∧
    sk.pkey.t.shl P.νt = .ok t0 ∧ t0.ntt = .ok t ∧ sk.pkey.toBytes P.νt (List.replicate (PKey.byteLen P.κ P.k P.νt) 0) = .ok pkb ∧ PMat.expandA E fuel P.k P.l sk.pkey.seed = .ok A ∧
    Retries P E fuel d uw rep A t (SKey.bindMsg E P.κ pkb msg) n ⟨sk.s, Prng.new E entropy, Mrng.new E d, buf⟩ st ∧
    signAttempt P E fuel d uw rep A t (SKey.bindMsg E P.κ pkb msg) st = .ok (done, st') ∧ st'.s = s

/-- `s` is a sharing of the secret in memory: in the key object itself (`none`), or in attempt `n` of a call of `sign` on it (`some n`). -/
def InMemory (P : Par) (E : Ext) (sk : SKey P.k P.l d) : Option Nat → PVec P.l d → Prop
  | none, s => s = sk.s
  | some n, s => UsedInSign P E sk n s

/-- The key objects `keys 0, keys 1, …, keys N`: each is the one before it, refreshed. -/
def RefreshChain (P : Par) (E : Ext) (keys : Nat → SKey P.k P.l d) (N : Nat) : Prop := ∀ i, i < N → ∃ fuel, Api.refresh P E fuel (keys i) = .ok (keys (i + 1))

end Raccoon
