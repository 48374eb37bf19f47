/-!
# Rust integer semantics used by the model

Trusted reading of Rust's integer operations. A panic (arithmetic overflow in a debug build,
failed `assert!`, index out of range) is `none`. In a release build overflow wraps instead; the
two builds can differ only where the value here is `none`, so a theorem `f x = some y`
speaks about both builds.
-/

namespace Verif

/-- Rust `u64`. -/
abbrev U64 := BitVec 64

namespace Rust

/-- `a + b` on `u64` (checked). -/
def add (a b : U64) : Option U64 :=
  if a.toNat + b.toNat < 2 ^ 64 then some (a + b) else none

/-- `a - b` on `u64` (checked). -/
def sub (a b : U64) : Option U64 :=
  if b.toNat ≤ a.toNat then some (a - b) else none

/-- `a * b` on `u64` (checked). -/
def mul (a b : U64) : Option U64 :=
  if a.toNat * b.toNat < 2 ^ 64 then some (a * b) else none

/-- `(-(a as i64)) as u64`: negation of `i64::MIN` overflows. -/
def negI64 (a : U64) : Option U64 :=
  if a = 0x8000000000000000#64 then none else some (-a)

/-- `a << n` on `u64`: panics only if the shift amount is at least 64; bits shifted out are lost. -/
def shl (a : U64) (n : Nat) : Option U64 :=
  if n < 64 then some (a <<< n) else none

/-- `a >> n` on `u64`. -/
def shr (a : U64) (n : Nat) : Option U64 :=
  if n < 64 then some (a >>> n) else none

/-- `a - b` for unsigned quantities that are only used as small numbers (levels, indices),
kept as `Nat` (checked). -/
def natSub (a b : Nat) : Option Nat :=
  if b ≤ a then some (a - b) else none

/-- The range check of `i64` arithmetic. -/
def i64 (x : Int) : Option Int :=
  if -2 ^ 63 ≤ x ∧ x < 2 ^ 63 then some x else none

/-- `a % b` on `i64`: truncated remainder, panics for `b = 0` (and for `MIN % -1`). -/
def i64Rem (a b : Int) : Option Int :=
  if b = 0 ∨ (a = -2 ^ 63 ∧ b = -1) then none else some (a.tmod b)

/-- The range check of `i32` arithmetic. -/
def i32 (x : Int) : Option Int :=
  if -2 ^ 31 ≤ x ∧ x < 2 ^ 31 then some x else none

/-- `assert!`. -/
def assert (b : Bool) : Option Unit :=
  if b then some () else none

end Rust
end Verif
