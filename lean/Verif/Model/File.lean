import Verif.Model.Stash
import Verif.Model.Text

/-!
# Container files

Models /repo/src/containers/file.rs and reading of consignments and kits from armored text (/repo/src/containers/consignment.rs:381-447,
/repo/src/containers/kit.rs:196-271).

External: the strict encoding (`StreamCodec`), the armor (`Armor`) and ids of containers.
-/

namespace Rgb

/-- `Consignment<TRANSFER>` with its version and kind flag, /repo/src/containers/consignment.rs:176-186. The type parameter `TRANSFER` isn't stored:
`Contract` and `Transfer` have the same fields and the same encoding. -/
structure ConsignmentFile where
  version : Nat
  transfer : Bool
  body : Consignment
  deriving DecidableEq, Repr

/-- `into_contract`, /repo/src/containers/consignment.rs:307-324. -/
def ConsignmentFile.intoContract (c : ConsignmentFile) : ConsignmentFile := { c with transfer := false }

namespace File

/-- `StrictEncode`/`StrictDecode` over a stream: decoding takes bytes from the beginning of the stream and leaves the rest there. -/
structure StreamCodec (α : Type) where
  enc : α → List Nat
  dec : List Nat → Option (α × List Nat)

/-- `RGB_PREFIX`, /repo/src/containers/file.rs:33. -/
def rgbPrefix : List Nat := [82, 71, 66, 0]

/-- `FileContent::MAGIC`, /repo/src/containers/file.rs:104-114. -/
def kitMagic : List Nat := [75, 73, 84]
def contractMagic : List Nat := [67, 79, 78]
def transferMagic : List Nat := [84, 70, 82]

/-- `LoadError`, /repo/src/containers/file.rs:36-51, and a panic (`parseTypeHeader`). -/
inductive LoadErr where
  | invalidMagic
  | decode
  | armor
  | panic
  deriving DecidableEq, Repr

/-- `Read::read_exact`: an error if there are less bytes. -/
def readExact (n : Nat) (d : List Nat) : Option (List Nat × List Nat) :=
  if n ≤ d.length then some (d.take n, d.drop n) else none

/-- `StreamReader::new::<FILE_MAX_LEN>` with `strict_read`, /repo/src/containers/file.rs:63-64: at most `U32` bytes are taken. What follows is ignored. -/
def strictRead {α : Type} (C : StreamCodec α) (d : List Nat) : Except LoadErr α :=
  match C.dec d with
  | none => .error .decode
  | some (a, rest) => if d.length - rest.length ≤ u32Max then .ok a else .error .decode

/-- `FileContent::load`, /repo/src/containers/file.rs:54-67. -/
def load {α : Type} (C : StreamCodec α) (magic : List Nat) (data : List Nat) : Except LoadErr α :=
  match readExact 4 data with
  | none => .error .decode
  | some (rgb, data) =>
    match readExact 3 data with
    | none => .error .decode
    | some (m, data) => if rgb ≠ rgbPrefix ∨ m ≠ magic then .error .invalidMagic else strictRead C data

/-- `FileContent::save`, /repo/src/containers/file.rs:69-77: `none` if the encoding is longer than `U32` (an i/o error, with a part of the file
written). Errors of the writer itself: see `crash`. -/
def save {α : Type} (C : StreamCodec α) (magic : List Nat) (a : α) : Option (List Nat) :=
  if (C.enc a).length ≤ u32Max then some (rgbPrefix ++ magic ++ C.enc a) else none

/-- `UniversalFile`, /repo/src/containers/file.rs:119-136. -/
inductive Universal where
  | kit (k : Kit)
  | contract (c : ConsignmentFile)
  | transfer (c : ConsignmentFile)
  deriving DecidableEq, Repr

/-- `UniversalFile::load`, /repo/src/containers/file.rs:139-154. -/
def Universal.load (K : StreamCodec Kit) (C : StreamCodec ConsignmentFile) (data : List Nat) : Except LoadErr Universal :=
  match readExact 4 data with
  | none => .error .decode
  | some (rgb, data) =>
    match readExact 3 data with
    | none => .error .decode
    | some (m, data) =>
      if rgb ≠ rgbPrefix then .error .invalidMagic
      else if m = kitMagic then (strictRead K data).map .kit
      else if m = contractMagic then (strictRead C data).map .contract
      else if m = transferMagic then (strictRead C data).map .transfer
      else .error .invalidMagic

/-- `UniversalFile::save`, /repo/src/containers/file.rs:156-172. -/
def Universal.save (K : StreamCodec Kit) (C : StreamCodec ConsignmentFile) : Universal → Option (List Nat)
  | .kit k => if (K.enc k).length ≤ u32Max then some (rgbPrefix ++ kitMagic ++ K.enc k) else none
  | .contract c => if (C.enc c).length ≤ u32Max then some (rgbPrefix ++ contractMagic ++ C.enc c) else none
  | .transfer c => if (C.enc c).length ≤ u32Max then some (rgbPrefix ++ transferMagic ++ C.enc c) else none

/-- What is in a file when `save_file` (/repo/src/containers/file.rs:86-89, 181-184) stopped after `n` steps: the first step (`File::create`) empties
the file, each next one writes a byte of what is to be written. -/
def crash (old written : List Nat) : Nat → List Nat
  | 0 => old
  | n + 1 => written.take n

/-! ## Armored text -/

/-- `ArmorHeader` of the armor crate. -/
structure ArmorHeader where
  title : String
  values : List String
  params : List (String × String) := []
  deriving DecidableEq, Repr

/-- The armor: a text with a title, an id, headers and binary data. -/
structure Armor where
  print : String → Nat → List ArmorHeader → List Nat → String
  parse : String → Option (String × Nat × List ArmorHeader × List Nat)

/-- `StrictArmor`: the title, the id, the headers of a container, and the check of headers which were read (`none` is a panic). -/
structure Plate (α : Type) where
  title : String
  id : α → Nat
  headers : α → List ArmorHeader
  checkHeaders : α → List ArmorHeader → Option Unit

/-- How ids, names and developers are printed (external), and what `ContentRef` of documents are. The version of a kit is here since `Kit` is without it;
`ifaceIdShort` and `schemaIdShort` print the ids an implementation refers to. -/
structure Labels where
  version : Nat → String
  contract : Op → String
  schema : SchemaDoc → String
  ifaceName : IfaceDoc → String
  bundle : Nat → String
  kitVersion : Kit → String
  schemaName : SchemaDoc → String
  schemaShort : SchemaDoc → String
  schemaDev : SchemaDoc → String
  ifaceShort : IfaceDoc → String
  ifaceDev : IfaceDoc → String
  implShort : IimplDoc → String
  implDev : IimplDoc → String
  ifaceIdShort : Nat → String
  schemaIdShort : Nat → String
  supplShort : SupplDoc → String
  types : List Nat → String
  lib : Nat → String
  schemaRef : SchemaDoc → Nat
  ifaceRef : IfaceDoc → Nat
  implRef : IimplDoc → Nat

/-- `armor_headers` of consignments, /repo/src/containers/consignment.rs:386-409. Titles: /repo/src/containers/mod.rs:67-77. -/
def consignmentHeaders (L : Labels) (c : ConsignmentFile) : List ArmorHeader :=
  [{ title := "Version", values := [L.version c.version] },
   { title := "Type", values := [if c.transfer then "transfer" else "contract"] },
   { title := "Contract", values := [L.contract c.body.data.genesis] },
   { title := "Schema", values := [L.schema c.body.schema] }] ++
  (if c.body.ifaces.isEmpty then [] else [{ title := "Interface", values := c.body.ifaces.map (fun e => L.ifaceName e.1) }]) ++
  (if c.body.terminals.isEmpty then [] else [{ title := "Terminal", values := c.body.terminals.map (fun e => L.bundle e.1) }])

/-- `parse_armor_headers` of consignments, /repo/src/containers/consignment.rs:410-422: `header.values[0]` panics if there are no values. Nothing is
refused: the body of the condition is empty. -/
def checkTypeHeader (c : ConsignmentFile) (headers : List ArmorHeader) : Option Unit :=
  match headers.find? (fun h => decide (h.title = "Type")) with
  | none => some ()
  | some h =>
    if c.transfer ∧ h.values.length ≠ 1 then (h.values[0]?).map (fun _ => ())
    else some ()

/-- The parameter with the first supplement found for a document, /repo/src/containers/kit.rs:212-221. -/
def supplParam (L : Labels) (k : Kit) (ref : Nat) : List (String × String) :=
  match k.supplements.find? (fun s => decide (s.ref = ref)) with
  | none => []
  | some s => [("suppl", L.supplShort s)]

/-- `armor_headers` of kits, /repo/src/containers/kit.rs:201-265. -/
def kitHeaders (L : Labels) (k : Kit) : List ArmorHeader :=
  [{ title := "Version", values := [L.kitVersion k] }] ++
  k.schemata.map (fun d => ⟨"Schema", [L.schemaName d],
    [("id", L.schemaShort d), ("dev", L.schemaDev d)] ++ supplParam L k (L.schemaRef d)⟩) ++
  k.ifaces.map (fun d => ⟨"Interface", [L.ifaceName d],
    [("id", L.ifaceShort d), ("dev", L.ifaceDev d)] ++ supplParam L k (L.ifaceRef d)⟩) ++
  k.iimpls.map (fun d => ⟨"Implementation", [L.implShort d],
    [("interface", L.ifaceIdShort d.ifaceId), ("schema", L.schemaIdShort d.schemaId), ("dev", L.implDev d)] ++ supplParam L k (L.implRef d)⟩) ++
  [{ title := "Type-System", values := [L.types k.types] }] ++
  k.scripts.map (fun l => { title := "Alu-Lib", values := [L.lib l] })

/-- `Consignment::PLATE_TITLE`, /repo/src/containers/consignment.rs:383, the same for contracts and transfers. -/
def consignmentPlate (L : Labels) (id : ConsignmentFile → Nat) : Plate ConsignmentFile :=
  ⟨"RGB CONSIGNMENT", id, consignmentHeaders L, checkTypeHeader⟩

/-- `Kit::PLATE_TITLE`, /repo/src/containers/kit.rs:198. Headers of kits aren't checked (the default `parse_armor_headers`). -/
def kitPlate (L : Labels) (id : Kit → Nat) : Plate Kit := ⟨"RGB KIT", id, kitHeaders L, fun _ _ => some ()⟩

/-- `to_ascii_armored_string`, used in `save_armored`, /repo/src/containers/file.rs:99-101, and in `Display`. -/
def toArmored {α : Type} (A : Armor) (C : StreamCodec α) (P : Plate α) (a : α) : String := A.print P.title (P.id a) (P.headers a) (C.enc a)

/-- `from_ascii_armored_str`, used in `load_armored`, /repo/src/containers/file.rs:92-96: the title and the id are checked, all data have to be used.
It is code of the armor crate; whether headers or the id are checked first matters only for texts with both wrong. -/
def fromArmored {α : Type} (A : Armor) (C : StreamCodec α) (P : Plate α) (s : String) : Except LoadErr α :=
  match A.parse s with
  | none => .error .armor
  | some (title, id, headers, data) =>
    if title ≠ P.title then .error .armor
    else
      match C.dec data with
      | none => .error .armor
      | some (a, rest) =>
        if rest ≠ [] then .error .armor
        else
          match P.checkHeaders a headers with
          | none => .error .panic
          | some _ => if P.id a ≠ id then .error .armor else .ok a

/-- `ConsignmentParseError`, /repo/src/containers/consignment.rs:426-434, and a panic. -/
inductive ParseErr where
  | armor
  | type
  | panic
  deriving DecidableEq, Repr

/-- `FromStr for Consignment<TRANSFER>`, /repo/src/containers/consignment.rs:436-447. -/
def fromStr (A : Armor) (C : StreamCodec ConsignmentFile) (L : Labels) (id : ConsignmentFile → Nat) (TRANSFER : Bool) (s : String) :
    Except ParseErr ConsignmentFile :=
  match fromArmored A C (consignmentPlate L id) s with
  | .error .panic => .error .panic
  | .error _ => .error .armor
  | .ok c => if c.transfer ≠ TRANSFER then .error .type else .ok c

end File
end Rgb
