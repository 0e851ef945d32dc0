import Verif.Model.Text

/-! # Vocabulary for texts of the standard types -/

namespace Rgb.Stl

def capitals : List Char := "ABCDEFGHIJKLMNOPQRSTUVWXYZ".toList
def smalls : List Char := "abcdefghijklmnopqrstuvwxyz".toList
def digits : List Char := "0123456789".toList
def mimeSigns : List Char := "!#$&+-.^_".toList

/-- Texts of at most `max` characters, starting with one of `first`, all others being of `rest`. -/
def Ident (first rest : List Char) (max : Nat) (t : Text) : Prop := ∃ c cs, t = c :: cs ∧ c ∈ first ∧ (∀ d ∈ cs, d ∈ rest) ∧ t.length ≤ max

/-- A letter followed by letters and digits. -/
def IsTicker : Text → Prop := Ident (capitals ++ smalls) (capitals ++ smalls ++ digits) 8

def IsArticle : Text → Prop := Ident (capitals ++ smalls) (capitals ++ smalls ++ digits) 32

/-- Printable ASCII characters, codes 32 to 126. -/
def IsName (t : Text) : Prop := t ≠ [] ∧ t.length ≤ 40 ∧ ∀ c ∈ t, 32 ≤ c.toNat ∧ c.toNat ≤ 126

/-- A name of RFC 6838 in small letters. -/
def IsRegName : Text → Prop := Ident smalls (mimeSigns ++ digits ++ smalls) 64

/-- The same character, or the same letter in the other case. -/
def SameLetter (c d : Char) : Prop := c = d ∨ (c, d) ∈ capitals.zip smalls ∨ (d, c) ∈ capitals.zip smalls

/-- Texts which differ at most in the case of letters. -/
inductive SameIgnoringCase : Text → Text → Prop
  | nil : SameIgnoringCase [] []
  | cons {c d : Char} {a b : Text} : SameLetter c d → SameIgnoringCase a b → SameIgnoringCase (c :: a) (d :: b)

end Rgb.Stl
