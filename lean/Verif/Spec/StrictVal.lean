import Verif.Model.StrictVal
import Verif.Spec.Specs

/-! What it means that a value of contract state is a specification, and which specifications are proper. -/

namespace Rgb.Stl

/-- The second value is the first one, within any number of newtypes. -/
inductive Within : StrictVal → StrictVal → Prop where
  | refl (v : StrictVal) : Within v v
  | wrap {v w : StrictVal} : Within v w → Within v (.wrap w)

/-- The value is a structure with the given field (the first of this name). -/
def HasField (v : StrictVal) (name : String) (w : StrictVal) : Prop :=
  ∃ before after, Within (.struct (before ++ (name.toList, w) :: after)) v ∧ ∀ e ∈ before, e.1 ≠ name.toList

/-- The value is an option of what is described by `P`. -/
def OptIn {α : Type} (P : α → StrictVal → Prop) : Option α → StrictVal → Prop
  | none, v => Within .absent v
  | some a, v => ∃ w, Within (.given w) v ∧ P a w

/-- The value is a text. -/
def TextIn (t : Text) (v : StrictVal) : Prop := Within (.str t) v

/-- The field of the value is described by `P`. -/
def FieldIn {α : Type} (P : α → StrictVal → Prop) (a : α) (name : String) (v : StrictVal) : Prop := ∃ w, HasField v name w ∧ P a w

structure MediaType.In (m : MediaType) (v : StrictVal) : Prop where
  ty : FieldIn TextIn m.ty "type" v
  subtype : FieldIn (OptIn TextIn) m.subtype "subtype" v
  charset : FieldIn (OptIn TextIn) m.charset "charset" v

structure MediaType.Proper (m : MediaType) : Prop where
  ty : IsRegName m.ty
  subtype : ∀ t, m.subtype = some t → IsRegName t
  charset : ∀ t, m.charset = some t → IsRegName t

structure AssetSpec.In (s : AssetSpec) (v : StrictVal) : Prop where
  ticker : FieldIn TextIn s.ticker "ticker" v
  name : FieldIn TextIn s.name "name" v
  details : FieldIn (OptIn TextIn) s.details "details" v
  precision : FieldIn (fun n w => Within (.enum n) w) s.precision "precision" v

/-- A text of 1 to 255 bytes. -/
def IsDetails (t : Text) : Prop := 1 ≤ (t.map utf8Bytes).sum ∧ (t.map utf8Bytes).sum ≤ 255

structure AssetSpec.Proper (s : AssetSpec) : Prop where
  ticker : IsTicker s.ticker
  name : IsName s.name
  details : ∀ t, s.details = some t → IsDetails t
  precision : s.precision ≤ 18

structure ContractSpec.In (s : ContractSpec) (v : StrictVal) : Prop where
  article : FieldIn (OptIn TextIn) s.article "article" v
  name : FieldIn TextIn s.name "name" v
  details : FieldIn (OptIn TextIn) s.details "details" v
  precision : FieldIn (fun n w => Within (.enum n) w) s.precision "precision" v

structure ContractSpec.Proper (s : ContractSpec) : Prop where
  article : ∀ t, s.article = some t → IsArticle t
  name : IsName s.name
  details : ∀ t, s.details = some t → IsDetails t
  precision : s.precision ≤ 18

structure Attachment.In (a : Attachment) (v : StrictVal) : Prop where
  ty : FieldIn MediaType.In a.ty "type" v
  digest : FieldIn (fun b w => Within (.bytes b) w) a.digest "digest" v

structure Attachment.Proper (a : Attachment) : Prop where
  ty : a.ty.Proper
  digest : a.digest.length = 32

structure ContractTerms.In (t : ContractTerms) (v : StrictVal) : Prop where
  text : FieldIn TextIn t.text "text" v
  media : FieldIn (OptIn Attachment.In) t.media "media" v

structure ContractTerms.Proper (t : ContractTerms) : Prop where
  text : (t.text.map utf8Bytes).sum ≤ 65535
  media : ∀ a, t.media = some a → a.Proper

structure ProofOfReserves.In (p : ProofOfReserves) (v : StrictVal) : Prop where
  txid : FieldIn (FieldIn (fun b w => Within (.bytes b) w) · "txid") p.txid "utxo" v
  vout : FieldIn (FieldIn (fun n w => Within (.num n) w) · "vout") p.vout "utxo" v
  proof : FieldIn (fun b w => Within (.bytes b) w) p.proof "proof" v

structure ProofOfReserves.Proper (p : ProofOfReserves) : Prop where
  txid : p.txid.length = 32
  vout : p.vout ≤ 2 ^ 32 - 1
  proof : p.proof.length ≤ 65535

/-! ## The values of the standard types

As `StrictType` is derived for them: fields in the order of declaration, with their names unless renamed; a text is a newtype of a string. -/

def textVal (t : Text) : StrictVal := .wrap (.str t)

def optVal {α : Type} (f : α → StrictVal) : Option α → StrictVal
  | none => .absent
  | some a => .given (f a)

/-- /repo/src/stl/mime.rs:35-45 -/
def MediaType.value (m : MediaType) : StrictVal :=
  .struct [("type".toList, textVal m.ty), ("subtype".toList, optVal textVal m.subtype), ("charset".toList, optVal textVal m.charset)]

/-- /repo/src/stl/specs.rs:191-204 -/
def AssetSpec.value (s : AssetSpec) : StrictVal :=
  .struct [("ticker".toList, textVal s.ticker), ("name".toList, textVal s.name), ("details".toList, optVal textVal s.details), ("precision".toList, .enum s.precision)]

/-- /repo/src/stl/specs.rs:259-272 -/
def ContractSpec.value (s : ContractSpec) : StrictVal :=
  .struct [("article".toList, optVal textVal s.article), ("name".toList, textVal s.name), ("details".toList, optVal textVal s.details), ("precision".toList, .enum s.precision)]

/-- /repo/src/stl/specs.rs:356-369; the digest is a newtype of an array of bytes -/
def Attachment.value (a : Attachment) : StrictVal := .struct [("type".toList, a.ty.value), ("digest".toList, .wrap (.bytes a.digest))]

/-- /repo/src/stl/specs.rs:385-396 -/
def ContractTerms.value (t : ContractTerms) : StrictVal := .struct [("text".toList, textVal t.text), ("media".toList, optVal Attachment.value t.media)]

/-- /repo/src/stl/chain.rs:31-38 -/
def ProofOfReserves.value (p : ProofOfReserves) : StrictVal :=
  .struct [("utxo".toList, .struct [("txid".toList, .wrap (.bytes p.txid)), ("vout".toList, .wrap (.num p.vout))]), ("proof".toList, .bytes p.proof)]

end Rgb.Stl
