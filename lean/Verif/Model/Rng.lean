import Verif.Model.Utils
/-!
# External primitives, `rng/prng.hpp`, `rng/mrng.hpp`
-/
namespace Raccoon

/-- Ascon permutation state (`ascon_perm::ascon_perm_t`, submodule): five 64-bit words. -/
abbrev AsconState := Vector U64 5

/-- The primitives that live in git submodules outside the tree. Arbitrary functions: every theorem
quantifies over all of them. `shake128 m i` is byte `i` of the output stream after absorbing `m`. -/
structure Ext where
  shake128 : List U8 → Nat → U8
  shake256 : List U8 → Nat → U8
  /-- `ascon_perm_t::permute<6>()` -/
  asconP6 : AsconState → AsconState
  /-- `ascon_perm_t::permute<ascon_perm::MAX_ROUNDS>()` -/
  asconP12 : AsconState → AsconState
  /-- `ascon80pq_aead::IV` -/
  ascon80pqIV : U64

/-- A sponge object: which stream function, bytes absorbed so far, bytes squeezed so far. -/
structure Xof where
  fn : List U8 → Nat → U8
  absorbed : List U8
  pos : Nat

namespace Xof
def new (fn : List U8 → Nat → U8) : Xof := ⟨fn, [], 0⟩
def absorb (x : Xof) (bs : List U8) : Xof := { x with absorbed := x.absorbed ++ bs }
def finalize (x : Xof) : Xof := x
def reset (x : Xof) : Xof := { x with absorbed := [], pos := 0 }
/-- `squeeze` into a span of `n` bytes. -/
def squeeze (x : Xof) (n : Nat) : List U8 × Xof :=
  ((List.range n).map (fun i => x.fn x.absorbed (x.pos + i)), { x with pos := x.pos + n })
end Xof

/-- prng.hpp:27-30 `prng_t`. -/
structure Prng where
  state : Xof

/-- prng.hpp:33-51 (default constructor, with the 32 bytes obtained from `std::random_device` as argument)
and prng.hpp:53-57 (explicit seed). -/
def Prng.new (E : Ext) (seed : List U8) : Prng :=
  ⟨((Xof.new E.shake128).absorb seed).finalize⟩

/-- prng.hpp:59 `read` into a span of `n` bytes. -/
def Prng.read (p : Prng) (n : Nat) : List U8 × Prng :=
  let r := p.state.squeeze n
  (r.1, ⟨r.2⟩)

/-- field.hpp:195-201 `zq_t::random` (little-endian host, as utils.hpp:19 requires). -/
def Zq.random (p : Prng) : Zq × Prng :=
  let (b, p) := p.read 8
  (⟨barrettReduce (U128.from (fromLeBytes 64 b))⟩, p)

/-- mrng.hpp:16-19 `mrng_t<d>`: `d - 1` Ascon states. -/
structure Mrng (d : Nat) where
  state : Vector AsconState (d - 1)

/-- mrng.hpp:29-41: `std::iota` key and nonce (bytes 0,1,2,…) read big-endian. -/
def mrngKey0 : U64 := 0x0001020304050607
def mrngKey1 : U64 := 0x08090a0b0c0d0e0f
def mrngKey2 : U64 := 0x10111213
def mrngNonce0 : U64 := 0x0001020304050607
def mrngNonce1 : U64 := 0x08090a0b0c0d0e0f

/-- mrng.hpp:46-60: what the constructor computes for share `i` in the local variable `i_share`
(the initial content of the copy is overwritten). -/
def mrngInitShare (E : Ext) (i : Nat) (_copy : AsconState) : AsconState :=
  let s0 : U64 := (E.ascon80pqIV <<< 32) ||| (mrngKey0 >>> 32)
  let s1 : U64 := (mrngKey0 <<< 32) ||| (mrngKey1 >>> 32)
  let s2 : U64 := (mrngKey1 <<< 32) ||| mrngKey2
  let s3 : U64 := mrngNonce0 + BitVec.ofNat 64 i
  let s4 : U64 := mrngNonce1
  let p := E.asconP12 #v[s0, s1, s2, s3, s4]
  #v[p[0], p[1], p[2] ^^^ (mrngKey0 >>> 32),
     p[3] ^^^ ((mrngKey0 <<< 32) ||| (mrngKey1 >>> 32)),
     p[4] ^^^ ((mrngKey1 <<< 32) ||| mrngKey2) ^^^ 1]

/-- mrng.hpp:26-62 (and 65-68 for `d = 1`) constructor.  The members are value-initialised (all-zero states);
the loop `auto i_share = this->state[i]; …` works on a *copy* of element `i`, so nothing is stored back. -/
def Mrng.new (E : Ext) (d : Nat) : Mrng d :=
  let init : Vector AsconState (d - 1) := Vector.replicate (d - 1) (Vector.replicate 5 0)
  let state := (List.range (d - 1)).foldl
    (fun (st : Vector AsconState (d - 1)) i =>
      -- `auto i_share = this->state[i];` … the copy is initialised, then goes out of scope
      let _i_share := mrngInitShare E i (st.getD i (Vector.replicate 5 0))
      st) init
  ⟨state⟩

/-- mrng.hpp:72-82 `get`. -/
def Mrng.get (E : Ext) (m : Mrng d) (idx : Nat) : U64 × Mrng d :=
  if h : idx ≥ d - 1 then (0, m)
  else
    let st := m.state[idx]
    (st[0], ⟨m.state.set idx (E.asconP6 st)⟩)

end Raccoon
