import Verif.Model.Text
/-!
Model of the `fast32` base32 codec with the alphabet of invoice/src/amount.rs:38-39.
`fast32` itself is an external crate; modelled as RFC 4648 bit packing (most significant bit first, no padding
characters), which agrees with the crate's documented behaviour.  Whether `fast32` rejects non-zero trailing bits isn't known from
/repo, thus decoding has a parameter `strictPad`; all theorems hold for both values.
-/
namespace Rgb.Base32

/-- invoice/src/amount.rs:38 `ENC_BASE32_NODIGIT` -/
def alphabet : Text := "abcdefghkmnABCDEFGHKMNPQRSTVWXYZ".toList

/-- Character of a 5-bit value. invoice/src/amount.rs:39 (`make_base32_alpha!` encoding table). -/
def encChar (v : Nat) : Char := alphabet.getD v 'a'

/-- Value of a character; invoice/src/amount.rs:39 (`DEC_BASE32_NODIGIT` decoding table). -/
def decChar (c : Char) : Option Nat := alphabet.findIdx? (· == c)

/-- Number of a list of bits, most significant first. -/
def bitsVal (bs : List Bool) : Nat := bs.foldl (fun a b => 2 * a + b.toNat) 0

/-- The eight bits of a byte, most significant first. -/
def bits8 (n : Nat) : List Bool :=
  [n.testBit 7, n.testBit 6, n.testBit 5, n.testBit 4, n.testBit 3, n.testBit 2, n.testBit 1, n.testBit 0]

/-- The five bits of a base32 digit, most significant first. -/
def bits5 (n : Nat) : List Bool :=
  [n.testBit 4, n.testBit 3, n.testBit 2, n.testBit 1, n.testBit 0]

/-- Groups of five bits, the last one is filled with zeros. `fast32` `encode`. -/
def pack5 : List Bool → List Nat
  | a :: b :: c :: d :: e :: r => bitsVal [a, b, c, d, e] :: pack5 r
  | [a, b, c, d] => [bitsVal [a, b, c, d, false]]
  | [a, b, c] => [bitsVal [a, b, c, false, false]]
  | [a, b] => [bitsVal [a, b, false, false, false]]
  | [a] => [bitsVal [a, false, false, false, false]]
  | [] => []

/-- Groups of eight bits, the incomplete tail is returned. `fast32` `decode`. -/
def pack8 : List Bool → List Nat × List Bool
  | a :: b :: c :: d :: e :: f :: g :: h :: r =>
    let (bs, t) := pack8 r
    (bitsVal [a, b, c, d, e, f, g, h] :: bs, t)
  | t => ([], t)

/-- `BASE32_NODIGIT.encode`, used at invoice/src/amount.rs:182 -/
def encode (bytes : List Nat) : Text := (pack5 (bytes.flatMap bits8)).map encChar

/-- `BASE32_NODIGIT.decode_str`, used at invoice/src/amount.rs:191. `none` is `DecodeError`: a foreign character or an
impossible length. -/
def decode (strictPad : Bool) (s : Text) : Option (List Nat) :=
  if s.length % 8 = 1 ∨ s.length % 8 = 3 ∨ s.length % 8 = 6 then none else
  match s.mapM decChar with
  | none => none
  | some vs =>
    let (bs, t) := pack8 (vs.flatMap bits5)
    if strictPad && t.any id then none else some bs

end Rgb.Base32
