import Verif.Model.Specs

/-!
# Reading the standard types from values of contract state

Models the functions `from_strict_val_unchecked` of /repo/src/stl/specs.rs, /repo/src/stl/mime.rs, /repo/src/stl/chain.rs, /repo/invoice/src/amount.rs and
/repo/invoice/src/data.rs. Contract state is given to a client as values of strict_types, which know names of fields; these functions make
typed data of them. `none` is a panic.

External: `StrictVal` of strict_types with its `unwrap_*` methods. A value within newtypes is read through them.
-/

namespace Rgb.Stl

/-- `StrictVal` of strict_types, as far as it is read. `absent` and `given` are the two variants of an option, `wrap` is a newtype. -/
inductive StrictVal where
  | num (n : Nat)
  | str (t : Text)
  | bytes (b : List Nat)
  | enum (tag : Nat)
  | absent
  | given (v : StrictVal)
  | struct (fields : List (Text × StrictVal))
  | wrap (v : StrictVal)

namespace StrictVal

/-- Newtypes are skipped by every `unwrap_*`. -/
def skip : StrictVal → StrictVal
  | .wrap v => v.skip
  | v => v

/-- A field of a list of fields. -/
def fieldIn (name : Text) : List (Text × StrictVal) → Option StrictVal
  | [] => none
  | (n, v) :: fs => if n = name then some v else fieldIn name fs

/-- `unwrap_struct` of strict_types. -/
def unwrapStruct (v : StrictVal) (name : Text) : Option StrictVal :=
  match v.skip with
  | .struct fs => fieldIn name fs
  | _ => none

/-- `unwrap_string` of strict_types. -/
def unwrapString (v : StrictVal) : Option Text :=
  match v.skip with
  | .str t => some t
  | _ => none

/-- `unwrap_bytes` of strict_types. -/
def unwrapBytes (v : StrictVal) : Option (List Nat) :=
  match v.skip with
  | .bytes b => some b
  | _ => none

/-- `unwrap_uint` of strict_types; `max` is the largest number of the target type. -/
def unwrapUint (max : Nat) (v : StrictVal) : Option Nat :=
  match v.skip with
  | .num n => if n ≤ max then some n else none
  | _ => none

/-- `unwrap_enum` of strict_types for an enum with tags up to `last`. -/
def unwrapEnum (last : Nat) (v : StrictVal) : Option Nat :=
  match v.skip with
  | .enum n => if n ≤ last then some n else none
  | _ => none

/-- `unwrap_option` of strict_types. -/
def unwrapOption (v : StrictVal) : Option (Option StrictVal) :=
  match v.skip with
  | .absent => some none
  | .given w => some (some w)
  | _ => none

end StrictVal

open StrictVal

/-- `map` over an option with a function which may panic. -/
def mapOpt {α : Type} (f : StrictVal → Option α) : Option StrictVal → Option (Option α)
  | none => some none
  | some v => (f v).map some

/-- `Amount::from_strict_val_unchecked`, /repo/invoice/src/amount.rs:80-82; `OwnedFraction::from_strict_val_unchecked`, /repo/invoice/src/data.rs:98-100. -/
def readAmount (v : StrictVal) : Option Nat := v.unwrapUint (2 ^ 64 - 1)

/-- `Precision::from_strict_val_unchecked`, /repo/invoice/src/amount.rs:239. -/
def readPrecision (v : StrictVal) : Option Nat := v.unwrapEnum 18

/-- `Name::from_strict_val_unchecked`, /repo/src/stl/specs.rs:126-128. -/
def readName (v : StrictVal) : Option Text := v.unwrapString.bind name

/-- `Details::from_strict_val_unchecked`, /repo/src/stl/specs.rs:150-152. -/
def readDetails (v : StrictVal) : Option Text := v.unwrapString.bind details

/-- `MediaRegName::from_strict_val_unchecked`, /repo/src/stl/mime.rs:109-111. -/
def readRegName (v : StrictVal) : Option Text := v.unwrapString.bind regName

/-- `MediaType::from_strict_val_unchecked`, /repo/src/stl/mime.rs:65-80. -/
def MediaType.read (v : StrictVal) : Option MediaType := do
  let ty ← (v.unwrapStruct "type".toList).bind readRegName
  let subtype ← ((v.unwrapStruct "subtype".toList).bind unwrapOption).bind (mapOpt readRegName)
  let charset ← ((v.unwrapStruct "charset".toList).bind unwrapOption).bind (mapOpt readRegName)
  some ⟨ty, subtype, charset⟩

/-- `AssetSpec::from_strict_val_unchecked`, /repo/src/stl/specs.rs:232-250. -/
def AssetSpec.read (v : StrictVal) : Option AssetSpec := do
  let t ← (v.unwrapStruct "ticker".toList).bind unwrapString
  let n ← (v.unwrapStruct "name".toList).bind unwrapString
  let d ← ((v.unwrapStruct "details".toList).bind unwrapOption).bind (mapOpt unwrapString)
  let p ← (v.unwrapStruct "precision".toList).bind readPrecision
  let t ← Stl.ticker t
  let n ← Stl.name n
  let d ← optDetails d
  some ⟨t, n, d, p⟩

/-- `ContractSpec::from_strict_val_unchecked`, /repo/src/stl/specs.rs:300-320. -/
def ContractSpec.read (v : StrictVal) : Option ContractSpec := do
  let a ← (v.unwrapStruct "article".toList).bind unwrapOption
  let n ← (v.unwrapStruct "name".toList).bind unwrapString
  let d ← ((v.unwrapStruct "details".toList).bind unwrapOption).bind (mapOpt unwrapString)
  let p ← (v.unwrapStruct "precision".toList).bind readPrecision
  let a ← mapOpt (fun w => w.unwrapString.bind Stl.article) a
  let n ← Stl.name n
  let d ← optDetails d
  some ⟨a, n, d, p⟩

/-- `Attachment`, /repo/src/stl/specs.rs:364-369. -/
structure Attachment where
  ty : MediaType
  digest : List Nat
  deriving DecidableEq, Repr

/-- `Attachment::from_strict_val_unchecked`, /repo/src/stl/specs.rs:374-382. -/
def Attachment.read (v : StrictVal) : Option Attachment := do
  let ty ← (v.unwrapStruct "type".toList).bind MediaType.read
  let d ← (v.unwrapStruct "digest".toList).bind unwrapBytes
  if d.length = 32 then some ⟨ty, d⟩ else none

/-- `ContractTerms`, /repo/src/stl/specs.rs:393-396. -/
structure ContractTerms where
  text : Text
  media : Option Attachment
  deriving DecidableEq, Repr

/-- `ContractTerms::from_strict_val_unchecked`, /repo/src/stl/specs.rs:401-409. -/
def ContractTerms.read (v : StrictVal) : Option ContractTerms := do
  let t ← ((v.unwrapStruct "text".toList).bind unwrapString).bind ricardian
  let m ← ((v.unwrapStruct "media".toList).bind unwrapOption).bind (mapOpt Attachment.read)
  some ⟨t, m⟩

/-- `ProofOfReserves`, /repo/src/stl/chain.rs:35-38. -/
structure ProofOfReserves where
  txid : List Nat
  vout : Nat
  proof : List Nat
  deriving DecidableEq, Repr

/-- `ProofOfReserves::from_strict_val_unchecked`, /repo/src/stl/chain.rs:46-55. -/
def ProofOfReserves.read (v : StrictVal) : Option ProofOfReserves := do
  let utxo ← v.unwrapStruct "utxo".toList
  let txid ← (utxo.unwrapStruct "txid".toList).bind unwrapBytes
  let vout ← (utxo.unwrapStruct "vout".toList).bind (unwrapUint (2 ^ 32 - 1))
  let proof ← (v.unwrapStruct "proof".toList).bind unwrapBytes
  if txid.length = 32 ∧ proof.length ≤ 65535 then some ⟨txid, vout, proof⟩ else none

end Rgb.Stl
