import Verif.Model.Utils
/-!
# `include/raccoon/internals/utility/params.hpp`
-/
namespace Raccoon

/-- params.hpp:11 and 123 `is_d_valid`. -/
def isDValid (d : U64) : Bool := decide (d > 0) && isPowerOf2 d && decide (d ≤ 32)

/-- params.hpp:13-95: the nested `switch (d) { switch (𝜅) }` computing (`is_𝑢t_valid`, `is_rep_valid`);
an unlisted `d` or `𝜅` leaves the flags `true`. -/
def keygenSwitch (κ d ut rep : U64) : Bool × Bool :=
  let sel (a b : U64) : Bool :=
    if κ = 128 ∨ κ = 256 then decide (ut = a) else if κ = 192 then decide (ut = b) else true
  if d = 1 then (sel 6 7, decide (rep = 8))
  else if d = 2 then (sel 6 7, decide (rep = 4))
  else if d = 4 then (sel 6 7, decide (rep = 2))
  else if d = 8 then (sel 5 6, decide (rep = 4))
  else if d = 16 then (sel 5 6, decide (rep = 2))
  else if d = 32 then (sel 4 5, decide (rep = 4))
  else (true, true)

/-- params.hpp:8-105 `validate_keygen_args`. -/
def validateKeygenArgs (κ k l d ut νt rep : U64) : Bool :=
  let is_d_valid := isDValid d
  let (is_ut_valid, is_rep_valid) := keygenSwitch κ d ut rep
  let v128 := decide (κ = 128) && decide (k = 5) && decide (l = 4) && is_d_valid && is_ut_valid && decide (νt = 42) && is_rep_valid
  let v192 := decide (κ = 192) && decide (k = 7) && decide (l = 5) && is_d_valid && is_ut_valid && decide (νt = 42) && is_rep_valid
  let v256 := decide (κ = 256) && decide (k = 9) && decide (l = 7) && is_d_valid && is_ut_valid && decide (νt = 42) && is_rep_valid
  v128 || v192 || v256

/-- params.hpp:125-159: `switch (d)` computing (`is_𝑢w_valid`, `is_rep_valid`). -/
def signSwitch (d uw rep : U64) : Bool × Bool :=
  if d = 1 then (decide (uw = 41), decide (rep = 8))
  else if d = 2 then (decide (uw = 41), decide (rep = 4))
  else if d = 4 then (decide (uw = 41), decide (rep = 2))
  else if d = 8 then (decide (uw = 40), decide (rep = 4))
  else if d = 16 then (decide (uw = 40), decide (rep = 2))
  else if d = 32 then (decide (uw = 39), decide (rep = 4))
  else (true, true)

/-- params.hpp:109-172 `validate_sign_args`. -/
def validateSignArgs (κ k l d uw νw νt rep ω sigLen Binf B22 : U64) : Bool :=
  let is_d_valid := isDValid d
  let (is_uw_valid, is_rep_valid) := signSwitch d uw rep
  let v128 := decide (κ = 128) && decide (k = 5) && decide (l = 4) && is_d_valid && is_uw_valid && decide (νw = 44) &&
    decide (νt = 42) && is_rep_valid && decide (ω = 19) && decide (sigLen = 11524) && decide (Binf = 41954689765971) &&
    decide (B22 = 14656575897)
  let v192 := decide (κ = 192) && decide (k = 7) && decide (l = 5) && is_d_valid && is_uw_valid && decide (νw = 44) &&
    decide (νt = 42) && is_rep_valid && decide (ω = 31) && decide (sigLen = 14544) && decide (Binf = 47419426657048) &&
    decide (B22 = 24964497408)
  let v256 := decide (κ = 256) && decide (k = 9) && decide (l = 7) && is_d_valid && is_uw_valid && decide (νw = 44) &&
    decide (νt = 42) && is_rep_valid && decide (ω = 44) && decide (sigLen = 20330) && decide (Binf = 50958538642039) &&
    decide (B22 = 38439957299)
  v128 || v192 || v256

/-- params.hpp:176-195 `validate_verify_args`. -/
def validateVerifyArgs (κ k l νw νt ω sigLen Binf B22 : U64) : Bool :=
  let v128 := decide (κ = 128) && decide (k = 5) && decide (l = 4) && decide (νw = 44) && decide (νt = 42) &&
    decide (ω = 19) && decide (sigLen = 11524) && decide (Binf = 41954689765971) && decide (B22 = 14656575897)
  let v192 := decide (κ = 192) && decide (k = 7) && decide (l = 5) && decide (νw = 44) && decide (νt = 42) &&
    decide (ω = 31) && decide (sigLen = 14544) && decide (Binf = 47419426657048) && decide (B22 = 24964497408)
  let v256 := decide (κ = 256) && decide (k = 9) && decide (l = 7) && decide (νw = 44) && decide (νt = 42) &&
    decide (ω = 44) && decide (sigLen = 20330) && decide (Binf = 50958538642039) && decide (B22 = 38439957299)
  v128 || v192 || v256

end Raccoon
