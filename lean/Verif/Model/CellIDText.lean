import Verif.Model.CellID

/-!
# Model of the text forms of `src/s2/cellid.rs`

Tokens (lines 157-179), `Display` (79-83) and `Debug` (755-763). Text is a list of characters; `str::len` is the UTF-8
length in bytes. `u64::from_str_radix`, `format!("{:016x}")` and `trim_end_matches` belong to the
Rust standard library; they are modelled from their documentation.
-/

namespace Verif
open Rust

/-- Character of a hexadecimal digit as printed by `{:x}`. -/
def hexDigit (n : Nat) : Char := if n < 10 then Char.ofNat (48 + n) else Char.ofNat (87 + n)

/-- `char::to_digit(16)`. -/
def hexVal (c : Char) : Option Nat :=
  if 48 ≤ c.toNat ∧ c.toNat ≤ 57 then some (c.toNat - 48)
  else if 97 ≤ c.toNat ∧ c.toNat ≤ 102 then some (c.toNat - 87)
  else if 65 ≤ c.toNat ∧ c.toNat ≤ 70 then some (c.toNat - 55)
  else none

/-- The `m` low hexadecimal digits of `n`, most significant first: for `m = 16` and `n < 2^64`
this is `format!("{:016x}", n)`. -/
def hexDigits : Nat → Nat → List Char
  | 0, _ => []
  | m + 1, n => hexDigits m (n / 16) ++ [hexDigit (n % 16)]

/-- `trim_end_matches('0')`. -/
def trimZeros (s : List Char) : List Char := (s.reverse.dropWhile (fun c => c == '0')).reverse

/-- The digit loop of `u64::from_str_radix(s, 16)` with its overflow checks; `none` is `Err`. -/
def parseHex (acc : U64) : List Char → Option U64
  | [] => some acc
  | c :: rest => do
    let d ← hexVal c
    let m ← mul acc 16#64
    let a ← add m (BitVec.ofNat 64 d)
    parseHex a rest

/-- `u64::from_str_radix(s, 16)`: an optional `+`, then at least one digit; `none` is `Err`. -/
def fromStrRadix16 (s : List Char) : Option U64 :=
  match s with
  | [] => none
  | '+' :: [] => none
  | '+' :: rest => parseHex 0#64 rest
  | s => parseHex 0#64 s

/-- `str::len`. -/
def byteLen (s : List Char) : Nat := (s.map Char.utf8Size).sum

namespace CellID

/-- `from_token`, lines 159-169. -/
def fromToken (s : List Char) : Option CellID :=
  match fromStrRadix16 s with
  | none => some ⟨0#64⟩
  | some v =>
    if byteLen s < 16 then do
      let v ← shl v (4 * (16 - byteLen s))
      some ⟨v⟩
    else some ⟨v⟩

/-- `to_token`, lines 173-179, and `Display`, lines 79-83. -/
def toToken (c : CellID) : List Char :=
  if c.id = 0#64 then ['X'] else trimZeros (hexDigits 16 c.id.toNat)

/-- The digits written by the loop of `Debug`, lines 758-760, for the levels `l, l+1, ..`
(`n` of them). The positions are below 4, so `{}` prints one character. -/
def debugDigits (c : CellID) (l : Nat) : Nat → Option (List Char)
  | 0 => some []
  | n + 1 => do
    let p ← c.childPosition l
    let rest ← debugDigits c (l + 1) n
    some (Nat.digitChar p.toNat :: rest)

/-- `Debug::fmt`, lines 755-763. The face is below 8, so `{}` prints one character. -/
def debug (c : CellID) : Option (List Char) := do
  let k ← c.level
  let ds ← debugDigits c 1 k
  some (Nat.digitChar c.face :: '/' :: ds)

end CellID
end Verif
