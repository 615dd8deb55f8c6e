import Verif.Spec.Anytime
import Verif.Spec.Wire
import Verif.Spec.Simulate
/-!
# Attacking the interface, and the game this is (for C88)
-/
namespace Raccoon
attribute [-instance] Monoid.toNPow

/-- Hash values (of messages and of commitments). -/
abbrev HashVal (P : Par) := {c : List U8 // c.length = 2 * P.κ / 8}

/-- What an attacker may ask for: a signature, or the challenge hash of a digest and a commitment; or it has enough. -/
inductive ApiQuery (P : Par)
  | sign (msg : List U8)
  | hash (digest : HashVal P) (w : Commitment P.k P.νw)
  | stop

/-- An attacker: what it asks for after the answers so far, all of them bytes, and in the end its forgery, a message and the bytes of a signature. -/
structure ApiAttacker (P : Par) where
  next : List (List U8) → ApiQuery P
  forge : List (List U8) → List U8 × List U8

theorem xofOut_length (X : List U8 → Nat → U8) (m : List U8) (n : Nat) : (xofOut X m n).length = n := by unfold xofOut; rw [List.length_map, List.length_range]

/-- The challenge hash of the code. -/
def hashOracle (P : Par) (E : Ext) : HashVal P × Commitment P.k P.νw → HashVal P := fun x => ⟨challengeHash E P.κ (fun r i => (x.2 r i).val) x.1.val, xofOut_length _ _ _⟩

/-- The message digest of the code. -/
def digestOf (P : Par) (E : Ext) (pkb msg : List U8) : HashVal P := ⟨messageHash E P.κ pkb msg, xofOut_length _ _ _⟩

/-- The challenge that belongs to a hash value (if the sampler never finishes on it, some challenge). -/
noncomputable def challengeMap (P : Par) (E : Ext) (c : HashVal P) : Fin 512 → Int :=
  open Classical in if h : ∃ p, IsChallengeOf E P.ω c.val p then h.choose else fun i => if i.val < P.ω then 1 else 0

/-- The attacker `B` has had the answers `ans` from the code and has enough: the `i`-th answer is what `sign` returns for the message it asked to have signed, called with the key `sk i`,
fresh entropy and a buffer of `len` bytes, or the hash value it asked for. -/
structure IsExchange (P : Par) (E : Ext) (fuel d len : Nat) (sk : Nat → SKey P.k P.l d) (entropy buf : Nat → List U8) (B : ApiAttacker P) (ans : List (List U8)) : Prop where
  bufs : ∀ i, (buf i).length = len
  sign : ∀ i (hi : i < ans.length) msg, B.next (ans.take i) = .sign msg → Api.sign P E fuel d (sk i) (entropy i) msg (buf i) = .ok ans[i]
  hash : ∀ i (hi : i < ans.length) x w, B.next (ans.take i) = .hash x w → ans[i] = (hashOracle P E (x, w)).val
  going : ∀ i, i < ans.length → B.next (ans.take i) ≠ .stop
  stop : B.next ans = .stop

section
variable (P : Par) (a : Fin P.k → Fin P.l → RPoly) (t : Fin P.k → RPoly) (ch : HashVal P → Fin 512 → Int) (len : Nat)

/-- The outcome of an attempt is released, as the signature bytes `b`. -/
def ReleasedAs (o : Outcome P.k P.l P.νw (HashVal P)) (b : List U8) : Prop :=
  ∃ h z, h.length = P.k * 512 ∧ z.length = P.l * 512 ∧ o.2.2 = some (unflatten P.l z) ∧
    (∀ r i, (unflatten P.k h r i - (((o.1 r i).val : Int) - commitY P.νw P.νt a t (toR (ch o.2.1)) (vecR (unflatten P.l z)) r i)) % (q / 2 ^ P.νw : Nat) = 0) ∧
    (∀ x ∈ h, 2 * x.natAbs < q / 2 ^ P.νw) ∧ Acceptable P len o.2.1.val h z ∧ IsSigEncoding o.2.1.val h z len b

/-- What the attacker has heard after one more step of the game: rejected attempts are not shown to it. -/
noncomputable def ApiAttacker.hear (B : ApiAttacker P) (ans : List (List U8)) (o : Outcome P.k P.l P.νw (HashVal P)) : List (List U8) :=
  open Classical in match B.next ans with
  | .sign _ => if h : ∃ b, ReleasedAs P a t ch len o b then ans ++ [h.choose] else ans
  | .hash _ _ => ans ++ [o.2.1.val]
  | .stop => ans

noncomputable def ApiAttacker.heard (B : ApiAttacker P) (v : List (Outcome P.k P.l P.νw (HashVal P))) : List (List U8) := v.foldl (B.hear P a t ch len) []

/-- The attacker of the game: it asks for one attempt after the other until there is a signature to show, and idles when there is enough. -/
noncomputable def ApiAttacker.free (hν : 0 < q / 2 ^ P.νw) (B : ApiAttacker P) (μ : List U8 → HashVal P) : FreeAttacker P.k P.l P.νw (HashVal P) (HashVal P) where
  signs v := match B.next (B.heard P a t ch len v) with | .sign _ => true | _ => false
  digest v := match B.next (B.heard P a t ch len v) with | .sign msg => μ msg | .hash x _ => x | .stop => μ []
  commitment v := match B.next (B.heard P a t ch len v) with | .hash _ w => w | _ => fun _ _ => ⟨0, hν⟩

/-- The parts of the signature with bytes `sig`. -/
noncomputable def sigParts (sig : List U8) : HashVal P × List Int × List Int :=
  open Classical in if h : ∃ x : HashVal P × List Int × List Int, x.2.1.length = P.k * 512 ∧ x.2.2.length = P.l * 512 ∧ IsSigEncoding x.1.val x.2.1 x.2.2 sig.length sig then h.choose
    else (⟨List.replicate (2 * P.κ / 8) 0, List.length_replicate⟩, [], [])

/-- What the attacker hands in. -/
noncomputable def ApiAttacker.handsIn (B : ApiAttacker P) (μ : List U8 → HashVal P) (v : List (Outcome P.k P.l P.νw (HashVal P))) : Forgery (HashVal P) (HashVal P) :=
  (μ (B.forge (B.heard P a t ch len v)).1, sigParts P (B.forge (B.heard P a t ch len v)).2)

end

/-! ### The attempts of an exchange -/

/-- The attempts made in the first `i` calls of an exchange, if the `j`-th call, when it is one to `sign`, releases attempt `cnt j`. -/
def attemptsMade {P : Par} (B : ApiAttacker P) (entropy : Nat → List U8) (ans : List (List U8)) (cnt : Nat → Nat) (i : Nat) : List (List U8 × Nat) :=
  (List.range i).flatMap fun j => match B.next (ans.take j) with | .sign _ => (List.range (cnt j + 1)).map fun n => (entropy j, n) | _ => []

/-- Released attempts: `cnt i` is the number of the attempt the `i`-th call, if it is one to `sign`, returns; the ones before it were rejected. -/
def Releases (P : Par) (E : Ext) (d len : Nat) (pkb : List U8) (s : Fin P.l → Fin 512 → Int) (entropy : Nat → List U8) (B : ApiAttacker P) (ans : List (List U8)) (cnt : Nat → Nat) : Prop :=
  ∀ i (hi : i < ans.length) msg, B.next (ans.take i) = .sign msg →
    (∃ c h z, IsAttempt P E d pkb s msg (entropy i) (cnt i) c h z ∧ Acceptable P len c h z ∧ IsSigEncoding c h z len ans[i]) ∧
    ∀ n < cnt i, ∃ c h z, IsAttempt P E d pkb s msg (entropy i) n c h z ∧ ¬ Acceptable P len c h z

/-- The noise words of the attempts of an exchange. -/
def exchangeTable (P : Par) (E : Ext) (d : Nat) (L : List (List U8 × Nat)) (N : Nat) : NoiseTable N P.l P.k (uwOf d) (Fin (repOf d) × Fin d) :=
  attemptTable P E d (fun n => (L[n.val]?.getD ([], 0)).1) (fun n => (L[n.val]?.getD ([], 0)).2)

end Raccoon
