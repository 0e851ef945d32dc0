import Verif.Model.Text
import Verif.Model.Base

/-!
# Texts of the standard contract types

Models names, tickers, articles, details and media types (/repo/src/stl/specs.rs, /repo/src/stl/mime.rs).

External: `RString<C1, C, MIN, MAX>` of strict_encoding (a text of `MIN` to `MAX` characters, the first one from `C1`, the others from `C`; all
of them are ASCII, so characters are bytes) and `Confined<String, MIN, MAX>` of amplify, which counts bytes of UTF-8. Kinds of errors
(`InvalidRString`) are dropped. Precision is a number, strict encoding isn't modelled.
-/

namespace Rgb.Stl

/-- `AlphaSmall` of strict_encoding: `a`-`z`. -/
def isAlphaSmall (c : Char) : Bool := decide (97 ≤ c.toNat) && decide (c.toNat ≤ 122)

/-- `Alpha` of strict_encoding: `A`-`Z`, `a`-`z`. -/
def isAlpha (c : Char) : Bool := isAlphaSmall c || (decide (65 ≤ c.toNat) && decide (c.toNat ≤ 90))

/-- `0`-`9`. -/
def isDigit (c : Char) : Bool := decide (48 ≤ c.toNat) && decide (c.toNat ≤ 57)

/-- `AlphaNum` of strict_encoding. -/
def isAlphaNum (c : Char) : Bool := isAlpha c || isDigit c

/-- `AsciiPrintable` of strict_encoding: from the space to the tilde. -/
def isPrintable (c : Char) : Bool := decide (32 ≤ c.toNat) && decide (c.toNat ≤ 126)

/-- `MimeChar`, /repo/src/stl/mime.rs:120-212. -/
def isMimeChar (c : Char) : Bool := decide (c ∈ ['!', '#', '$', '&', '+', '-', '.', '^', '_']) || isDigit c || isAlphaSmall c

/-- Making an `RString<C1, C, 1, MAX>` from a text: `FromStr`, `TryFrom<String>`. -/
def rstring (first rest : Char → Bool) (max : Nat) (t : Text) : Option Text :=
  match t with
  | [] => none
  | c :: cs => if first c && cs.all rest && decide (t.length ≤ max) then some t else none

/-- Number of bytes of a character in UTF-8. -/
def utf8Bytes (c : Char) : Nat := if c.toNat < 128 then 1 else if c.toNat < 2048 then 2 else if c.toNat < 65536 then 3 else 4

/-- Number of bytes of a text in UTF-8. -/
def utf8Len (t : Text) : Nat := (t.map utf8Bytes).sum

/-- `Confined<String, MIN, MAX>`. -/
def confined (min max : Nat) (t : Text) : Option Text := if min ≤ utf8Len t ∧ utf8Len t ≤ max then some t else none

/-- `Article`, /repo/src/stl/specs.rs:77. -/
def article (t : Text) : Option Text := rstring isAlpha isAlphaNum 32 t

/-- `Ticker`, /repo/src/stl/specs.rs:91. -/
def ticker (t : Text) : Option Text := rstring isAlpha isAlphaNum 8 t

/-- `Name`, /repo/src/stl/specs.rs:117. -/
def name (t : Text) : Option Text := rstring isPrintable isPrintable 40 t

/-- `Details`, /repo/src/stl/specs.rs:140, made by `FromStr` (161-168) or `TryFrom<String>` (174-181): 1 to 255 bytes. -/
def details (t : Text) : Option Text := confined 1 255 t

/-- `RicardianContract`, /repo/src/stl/specs.rs:338-354: at most 65535 bytes. -/
def ricardian (t : Text) : Option Text := confined 0 65535 t

/-- `str::to_uppercase` for ASCII texts. -/
def upper (c : Char) : Char := if isAlphaSmall c then Char.ofNat (c.toNat - 32) else c

/-- `PartialEq for Ticker`, /repo/src/stl/specs.rs:93-99. -/
def Ticker.eq (a b : Text) : Bool := a.map upper = b.map upper

/-- `Hash for Ticker`, /repo/src/stl/specs.rs:101-103; `h` is the hash of strings. -/
def Ticker.hash (h : Text → Nat) (a : Text) : Nat := h (a.map upper)

/-- `Ord for Ticker`, derived (/repo/src/stl/specs.rs:82): the order of the strings. -/
def Ticker.cmp : Text → Text → Ordering
  | [], [] => .eq
  | [], _ :: _ => .lt
  | _ :: _, [] => .gt
  | a :: as, b :: bs => if a.toNat < b.toNat then .lt else if b.toNat < a.toNat then .gt else cmp as bs

/-- `AssetSpec`, /repo/src/stl/specs.rs:199-204. -/
structure AssetSpec where
  ticker : Text
  name : Text
  details : Option Text
  precision : Nat
  deriving DecidableEq, Repr

/-- `details.map(Details::from_str).transpose()`, /repo/src/stl/specs.rs:227. -/
def optDetails : Option Text → Option (Option Text)
  | none => some none
  | some t => (details t).map some

/-- `AssetSpec::with`, /repo/src/stl/specs.rs:218-230. -/
def AssetSpec.with_ (t n : Text) (precision : Nat) (d : Option Text) : Option AssetSpec := do
  let t ← Stl.ticker t
  let n ← Stl.name n
  let d ← optDetails d
  some ⟨t, n, d, precision⟩

/-- `AssetSpec::new`, /repo/src/stl/specs.rs:209-216; `none` is a panic. -/
def AssetSpec.new (t n : Text) (precision : Nat) : Option AssetSpec := do
  let t ← Stl.ticker t
  let n ← Stl.name n
  some ⟨t, n, none, precision⟩

/-- `PartialEq for AssetSpec`, derived (/repo/src/stl/specs.rs:191): tickers are compared by their own `PartialEq`. -/
def AssetSpec.eq (a b : AssetSpec) : Bool :=
  Ticker.eq a.ticker b.ticker && decide (a.name = b.name) && decide (a.details = b.details) && decide (a.precision = b.precision)

/-- `ContractSpec`, /repo/src/stl/specs.rs:267-272. -/
structure ContractSpec where
  article : Option Text
  name : Text
  details : Option Text
  precision : Nat
  deriving DecidableEq, Repr

/-- `ContractSpec::with`, /repo/src/stl/specs.rs:286-298. -/
def ContractSpec.with_ (a n : Text) (precision : Nat) (d : Option Text) : Option ContractSpec := do
  let a ← Stl.article a
  let n ← Stl.name n
  let d ← optDetails d
  some ⟨some a, n, d, precision⟩

/-- `MediaRegName`, /repo/src/stl/mime.rs:103. -/
def regName (t : Text) : Option Text := rstring isAlphaSmall isMimeChar 64 t

/-- `MediaType`, /repo/src/stl/mime.rs:39-45. -/
structure MediaType where
  ty : Text
  subtype : Option Text
  charset : Option Text
  deriving DecidableEq, Repr

/-- The subtype, /repo/src/stl/mime.rs:60. -/
def subtypeOf (t : Text) : Option (Option Text) := if t = ['*'] then some none else (regName t).map some

/-- `MediaType::with`, /repo/src/stl/mime.rs:56-63; `none` is a panic. -/
def MediaType.with_ (s : Text) : Option MediaType := do
  let (ty, sub) ← splitOnce '/' s
  let ty ← regName ty
  let sub ← subtypeOf sub
  some ⟨ty, sub, none⟩

/-- `Display for MediaType`, /repo/src/stl/mime.rs:83-92. -/
def MediaType.display (m : MediaType) : Text := m.ty ++ '/' :: m.subtype.getD ['*']

end Rgb.Stl
