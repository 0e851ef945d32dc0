/-!
Text primitives used by `Display`/`FromStr` code: decimal integers as printed by Rust's `to_string` and
parsed by `str::parse::<uN>` / `str::parse::<i64>`, and `str::split_once`.  Texts are `List Char`.
These are models of the Rust standard library, used by invoice/src/{amount,data,parse}.rs.
-/
namespace Rgb

abbrev Text := List Char

/-- `u64::MAX` -/
abbrev u64Max : Nat := 2 ^ 64 - 1
/-- `u32::MAX` -/
abbrev u32Max : Nat := 2 ^ 32 - 1

/-- Decimal digit character. Rust std formatting of integers. -/
def digitChar (d : Nat) : Char := Char.ofNat (48 + d)

/-- Value of a decimal digit character. Rust std `char::to_digit(10)`. -/
def charDigit (c : Char) : Option Nat :=
  if 48 ≤ c.toNat ∧ c.toNat ≤ 57 then some (c.toNat - 48) else none

/-- Decimal digits of `n`, most significant first, with recursion fuel. -/
def showFuel : Nat → Nat → Text
  | 0, _ => []
  | f + 1, n => if n < 10 then [digitChar n] else showFuel f (n / 10) ++ [digitChar (n % 10)]

/-- Rust std `to_string` of an unsigned integer: no sign, no leading zeros, "0" for zero. -/
def showNat (n : Nat) : Text := showFuel (n + 1) n

/-- Accumulating digit parser (the loop of Rust std `from_str_radix`); bound is checked by the caller. -/
def parseDigits : Nat → Text → Option Nat
  | acc, [] => some acc
  | acc, c :: cs => match charDigit c with
    | some d => parseDigits (acc * 10 + d) cs
    | none => none

/-- Removal of one optional leading `+` (Rust std `from_str_radix`) -/
def stripPlus : Text → Text
  | '+' :: rest => rest
  | s => s

/-- Non-empty digits with a bound (Rust std `from_str_radix` after the sign) -/
def parseBounded (max : Nat) (s : Text) : Option Nat :=
  if s = [] then none else
  match parseDigits 0 s with
  | some v => if v ≤ max then some v else none
  | none => none

/-- Rust std `str::parse::<uN>()` with `max = uN::MAX`: a leading `+` is allowed, empty text, sole sign, foreign
characters and values above `max` are errors (the kind of error is dropped). -/
def parseUint (max : Nat) (s : Text) : Option Nat := parseBounded max (stripPlus s)

/-- Rust std `to_string` of `i64`. -/
def showInt : Int → Text
  | .ofNat n => showNat n
  | .negSucc n => '-' :: showNat (n + 1)

/-- Rust std `str::parse::<i64>()`. -/
def parseI64 (s : Text) : Option Int :=
  match s with
  | '-' :: rest => match rest with
    | [] => none
    | b => match parseDigits 0 b with
      | some v => if v ≤ 2 ^ 63 then some (-(v : Int)) else none
      | none => none
  | s => match parseUint (2 ^ 63 - 1) s with
    | some v => some (v : Int)
    | none => none

/-- Rust std `str::split_once(char)`: split at the first occurrence. -/
def splitOnce (sep : Char) : Text → Option (Text × Text)
  | [] => none
  | c :: cs => if c = sep then some ([], cs) else
    match splitOnce sep cs with
    | some (a, b) => some (c :: a, b)
    | none => none

/-- Rust std `str::split(char)`: always at least one part. -/
def splitAll (sep : Char) : Text → List Text
  | [] => [[]]
  | c :: cs => if c = sep then [] :: splitAll sep cs else
    match splitAll sep cs with
    | p :: ps => (c :: p) :: ps
    | [] => [[c]]

/-- Rust `[T]::join(&str)` with a one-character separator. -/
def joinWith (sep : Char) : List Text → Text
  | [] => []
  | [p] => p
  | p :: q :: ps => p ++ sep :: joinWith sep (q :: ps)

end Rgb
