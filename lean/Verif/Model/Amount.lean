import Verif.Model.Base32
/-!
Model of invoice/src/amount.rs.  An `Amount` is a `Nat` (statements carry the `≤ u64Max` bound).
-/
namespace Rgb

/-- `u64::to_le_bytes`, used at invoice/src/amount.rs:180 -/
def leBytes (v : Nat) : List Nat :=
  [v % 256, v / 256 % 256, v / 256 ^ 2 % 256, v / 256 ^ 3 % 256, v / 256 ^ 4 % 256, v / 256 ^ 5 % 256,
   v / 256 ^ 6 % 256, v / 256 ^ 7 % 256]

/-- `u64::from_le_bytes` over zero-extended bytes, invoice/src/amount.rs:198-200 -/
def ofLeBytes : List Nat → Nat
  | [] => 0
  | b :: bs => b + 256 * ofLeBytes bs

/-- `bytes.iter().rposition(|b| *b != 0).unwrap_or(0) + 1`, invoice/src/amount.rs:181 -/
def trimPos (bytes : List Nat) : Nat :=
  match bytes.reverse.findIdx? (· != 0) with
  | some i => bytes.length - 1 - i + 1
  | none => 0 + 1

namespace Amount

/-- invoice/src/amount.rs:178-185 `Display for Amount` -/
def display (v : Nat) : Text :=
  let bytes := leBytes v
  Base32.encode (bytes.take (trimPos bytes))

/-- invoice/src/amount.rs:187-202 `FromStr for Amount`; `none` is `Err`. -/
def fromStr (strictPad : Bool) (s : Text) : Option Nat :=
  match Base32.decode strictPad s with
  | none => none
  | some bytes => if bytes.length > 8 then none else some (ofLeBytes bytes)

/-- invoice/src/amount.rs:131-133 `saturating_add`; also :138-140 `saturating_add_assign` -/
def saturatingAdd (a b : Nat) : Nat := min (a + b) u64Max
/-- invoice/src/amount.rs:134-136 `saturating_sub`; also :141-143 `saturating_sub_assign` -/
def saturatingSub (a b : Nat) : Nat := a - b
/-- invoice/src/amount.rs:146-148 `checked_add` -/
def checkedAdd (a b : Nat) : Option Nat := if a + b ≤ u64Max then some (a + b) else none
/-- invoice/src/amount.rs:150-152 `checked_sub` -/
def checkedSub (a b : Nat) : Option Nat := if b ≤ a then some (a - b) else none
/-- invoice/src/amount.rs:155-158 `checked_add_assign`: new value of `self` and the returned `Option<()>` -/
def checkedAddAssign (a b : Nat) : Nat × Option Unit :=
  match checkedAdd a b with
  | some v => (v, some ())
  | none => (a, none)
/-- invoice/src/amount.rs:160-163 `checked_sub_assign` -/
def checkedSubAssign (a b : Nat) : Nat × Option Unit :=
  match checkedSub a b with
  | some v => (v, some ())
  | none => (a, none)
/-- invoice/src/amount.rs:166-176 `Sum<u64>`, `Sum` -/
def sum (vs : List Nat) : Nat := vs.foldl saturatingAdd 0

end Amount

/-- invoice/src/amount.rs:213-234 `enum Precision` by its number of decimals (0..=18) -/
abbrev Precision := Fin 19

namespace Precision

/-- invoice/src/amount.rs:242-264 `Precision::multiplier` (the literal table) -/
def multiplier (p : Precision) : Nat :=
  match p.val with
  | 0 => 1
  | 1 => 10
  | 2 => 100
  | 3 => 1000
  | 4 => 10000
  | 5 => 100000
  | 6 => 1000000
  | 7 => 10000000
  | 8 => 100000000
  | 9 => 1000000000
  | 10 => 10000000000
  | 11 => 100000000000
  | 12 => 1000000000000
  | 13 => 10000000000000
  | 14 => 100000000000000
  | 15 => 1000000000000000
  | 16 => 10000000000000000
  | 17 => 100000000000000000
  | _ => 1000000000000000000

/-- `Precision::try_from(u8)` (derived `try_from_u8`), used at invoice/src/amount.rs:448 -/
def tryFrom (d : Nat) : Option Precision := if h : d < 19 then some ⟨d, h⟩ else none

/-- invoice/src/amount.rs:266-268 `unchecked_convert`; `none` is the arithmetic overflow (panic in debug builds) -/
def uncheckedConvert (p : Precision) (a : Nat) : Option Nat :=
  if a * p.multiplier ≤ u64Max then some (a * p.multiplier) else none
/-- invoice/src/amount.rs:270-275 `checked_convert`; also :88-90 `with_precision_checked` -/
def checkedConvert (p : Precision) (a : Nat) : Option Nat :=
  if a * p.multiplier ≤ u64Max then some (a * p.multiplier) else none
/-- invoice/src/amount.rs:276-278 `saturating_convert` -/
def saturatingConvert (p : Precision) (a : Nat) : Nat := min (a * p.multiplier) u64Max

end Precision

namespace Amount

/-- invoice/src/amount.rs:120-125 `floor` -/
def floor (v : Nat) (p : Precision) : Nat := if v = 0 then 0 else v / p.multiplier
/-- invoice/src/amount.rs:127-129 `rem` -/
def rem (v : Nat) (p : Precision) : Nat := v % p.multiplier
/-- invoice/src/amount.rs:94-99 `split` -/
def split (v : Nat) (p : Precision) : Nat × Nat := (floor v p, rem v p)
/-- invoice/src/amount.rs:101-109 `round` (all intermediate values fit `u64`, see `round_no_overflow`) -/
def round (v : Nat) (p : Precision) : Nat :=
  let mul := p.multiplier
  if v = 0 then 0 else
  let inc := 2 * rem v p / mul
  v / mul + inc
/-- invoice/src/amount.rs:111-118 `ceil` -/
def ceil (v : Nat) (p : Precision) : Nat :=
  if v = 0 then 0 else
  let inc := if rem v p > 0 then 1 else 0
  v / p.multiplier + inc

end Amount

/-- invoice/src/amount.rs:297-305 `struct CoinAmount` -/
structure CoinAmount where
  int : Nat
  fract : Nat
  precision : Precision
deriving DecidableEq, Repr

/-- Formatting flags of `std::fmt` visible to `CoinAmount::fmt`: fill character and alternate flag. -/
structure FmtFlags where
  fill : Char := ' '
  alternate : Bool := false
  hasPrecision : Bool := false

namespace CoinAmount

/-- invoice/src/amount.rs:308-317 `CoinAmount::new` -/
def new (v : Nat) (p : Precision) : CoinAmount :=
  let (int, fract) := Amount.split v p
  { int, fract, precision := p }

/-- invoice/src/amount.rs:319-336 `CoinAmount::with`; `none` is `PrecisionError` -/
def with_ (int fract : Nat) (p : Precision) : Option CoinAmount :=
  let pow := 10 ^ p.val
  if fract ≥ pow then none else some { int, fract, precision := p }

/-- invoice/src/amount.rs:338-351 `to_amount_unchecked`; `none` is the panic of either `expect` -/
def toAmountUnchecked (c : CoinAmount) : Option Nat :=
  let pow := 10 ^ c.precision.val
  if c.int * pow ≤ u64Max then
    if c.int * pow + c.fract ≤ u64Max then some (c.int * pow + c.fract) else none
  else none

/-- `<[u8]>::chunks(3)` -/
def chunks3 : Text → List Text
  | a :: b :: c :: r => [a, b, c] :: chunks3 r
  | [] => []
  | t => [t]

/-- invoice/src/amount.rs:363-376 closure `to_chunks` -/
def toChunks (fill : Char) (s : Text) : Text :=
  joinWith fill (((chunks3 s.reverse).map List.reverse).reverse)

/-- `str::trim_end_matches('0')` -/
def trimEndZeros (s : Text) : Text := (s.reverse.dropWhile (· == '0')).reverse

/-- invoice/src/amount.rs:387-396 left zero padding of the fraction; `none` is the panic "float precision overflow" -/
def padFract (fract decimals : Nat) : Option Text :=
  let float := showNat fract
  if float.length < decimals then some (List.replicate (decimals - float.length) '0' ++ float)
  else if float.length = decimals then some float
  else none

/-- invoice/src/amount.rs:354-407 `Display for CoinAmount`; `none` is any of its panics -/
def display (fl : FmtFlags) (c : CoinAmount) : Option Text :=
  if fl.fill ≠ ' ' ∧ fl.fill ≠ '_' then none else
  if fl.hasPrecision then none else
  let int := showNat c.int
  let int := if fl.alternate then toChunks fl.fill int else int
  if c.fract > 0 ∨ fl.alternate = true then
    match padFract c.fract c.precision.val with
    | none => none
    | some float =>
      let float := if fl.alternate then toChunks fl.fill float else trimEndZeros float
      some (int ++ '.' :: float ++ (if fl.alternate then [] else '~' :: showNat c.precision.val))
  else some (int ++ (if fl.alternate then [] else '~' :: showNat c.precision.val))

/-- invoice/src/amount.rs:428-451 `FromStr for CoinAmount`; `none` is any `AmountParseError`.
`precision` is parsed as `u64` (inferred from the other branch of the `if`), then converted to `u8`, then to the enum. -/
def fromStr (s : Text) : Option CoinAmount :=
  let s := s.filter (fun c => c != ' ' && c != '_')
  let (int, remain) := match splitOnce '.' s with
    | some p => p
    | none => (s, ['0'])
  let (fract, precision) := match splitOnce '~' remain with
    | some p => p
    | none => (remain, [])
  let precision := if precision.isEmpty then some fract.length else parseUint u64Max precision
  match precision with
  | none => none
  | some precision =>
    match parseUint u64Max int with
    | none => none
    | some int =>
      match parseUint u64Max fract with
      | none => none
      | some fract =>
        if precision ≤ 255 then
          match Precision.tryFrom precision with
          | none => none
          | some p => some { int, fract, precision := p }
        else none

end CoinAmount
end Rgb
