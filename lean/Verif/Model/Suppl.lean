import Verif.Model.Base

/-!
# Supplements

Models `Supplement` with its annotations and `VelocityHint`, /repo/src/containers/suppl.rs:124-357.
-/

namespace Rgb.Suppl

/-- `SupplSub`, /repo/src/containers/suppl.rs:135-147. -/
inductive Sub where
  | itself | «meta» | global | owned | valency | assignment | genesis | transition | extension | exception
  deriving DecidableEq, Repr

/-- The discriminants, /repo/src/containers/suppl.rs:136-146, which is also the order. -/
def Sub.num : Sub → Nat
  | .itself => 0 | .meta => 1 | .global => 2 | .owned => 3 | .valency => 4 | .assignment => 5 | .genesis => 6 | .transition => 7 | .extension => 8
  | .exception => 9

theorem Sub.num_inj {a b : Sub} (h : a.num = b.num) : a = b := by cases a <;> cases b <;> simp [Sub.num] at h <;> rfl

instance : Key Sub where
  enc s := [s.num]
  enc_inj := by intro a b h; exact Sub.num_inj (by simpa using h)

/-- `SupplItem`, /repo/src/containers/suppl.rs:157-170. Names are numbered. -/
inductive Item where
  | «default»
  | typeNo (n : Nat)
  | typeName (n : Nat)
  | fieldName (n : Nat)
  | variantName (n : Nat)
  deriving DecidableEq, Repr

instance : Key Item where
  enc
    | .default => [0]
    | .typeNo n => [1, n]
    | .typeName n => [2, n]
    | .fieldName n => [3, n]
    | .variantName n => [4, n]
  enc_inj := by intro a b h; cases a <;> cases b <;> simp at h ⊢ <;> exact h

/-- `Annotations`, /repo/src/containers/suppl.rs:185: the name to the blob (numbered). -/
abbrev Annotations := OMap Nat Nat

/-- `SupplMap`, /repo/src/containers/suppl.rs:177. -/
abbrev SMap := OMap Item Annotations

/-- `Supplement::annotations`, /repo/src/containers/suppl.rs:201-207. The other fields aren't changed by the methods. -/
structure Supplement where
  annotations : OMap Sub SMap := []
  deriving DecidableEq, Repr

/-- Why annotating fails: the value can't be serialized (it has more than 64 KiB), or one of the maps is full. -/
inductive Err where
  | serialize
  | confinement
  deriving DecidableEq, Repr

/-- `TinyOrdMap::insert`: an error if the map has 255 entries (also if the key is one of them). -/
def tinyInsert {κ ν : Type} [Key κ] [DecidableEq κ] (m : OMap κ ν) (k : κ) (v : ν) : Except Err (OMap κ ν) :=
  if m.length ≥ 255 then .error .confinement else .ok (OMap.insert m k v)

/-- `annotate`, /repo/src/containers/suppl.rs:272-292. `data` is what `to_strict_serialized` returns. The entry is taken out of the map before anything
may fail, so an error comes with a changed supplement. -/
def annotate (s : Supplement) (sub : Sub) (item : Item) (name : Nat) (data : Option Nat) : Supplement × Except Err Bool :=
  let a := (OMap.get? s.annotations sub).getD []
  let s : Supplement := ⟨OMap.erase s.annotations sub⟩
  let b := (OMap.get? a item).getD []
  let a := OMap.erase a item
  match data with
  | none => (s, .error .serialize)
  | some blob =>
    match tinyInsert b name blob with
    | .error e => (s, .error e)
    | .ok b' =>
      match tinyInsert a item b' with
      | .error e => (s, .error e)
      | .ok a' =>
        match tinyInsert s.annotations sub a' with
        | .error e => (s, .error e)
        | .ok all => (⟨all⟩, .ok (OMap.get? b name).isSome)

/-- `annotate_default`, /repo/src/containers/suppl.rs:263-270. -/
def annotateDefault (s : Supplement) (sub : Sub) (name : Nat) (data : Option Nat) : Supplement × Except Err Bool :=
  annotate s sub .default name data

/-- `annotate_itself`, /repo/src/containers/suppl.rs:255-261. -/
def annotateItself (s : Supplement) (name : Nat) (data : Option Nat) : Supplement × Except Err Bool := annotateDefault s .itself name data

/-- `get`, /repo/src/containers/suppl.rs:245-253; `de` is `from_strict_serialized` of the type asked for. -/
def get {T E : Type} (de : Nat → Except E T) (s : Supplement) (sub : Sub) (item : Item) (name : Nat) : Option (Except E T) :=
  (OMap.get? s.annotations sub).bind fun a => (OMap.get? a item).bind fun b => (OMap.get? b name).map de

/-- `get_default`, /repo/src/containers/suppl.rs:232-243. -/
def getDefault {T E : Type} (de : Nat → Except E T) (s : Supplement) (sub : Sub) (name : Nat) : Option (Except E T) :=
  (OMap.get? s.annotations sub).bind fun a => (OMap.get? a .default).bind fun b => (OMap.get? b name).map de

/-- `get_default_opt`, /repo/src/containers/suppl.rs:224-230. -/
def getDefaultOpt {T E : Type} (de : Nat → Except E T) (s : Supplement) (sub : Sub) (name : Nat) : Option T :=
  match getDefault de s sub name with
  | some (.ok v) => some v
  | _ => none

/-- `VelocityHint`, /repo/src/containers/suppl.rs:325-339. -/
inductive Velocity where
  | unspecified | seldom | episodic | regular | frequent | highFrequency
  deriving DecidableEq, Repr

/-- The discriminants, /repo/src/containers/suppl.rs:326-338. -/
def Velocity.num : Velocity → Nat
  | .unspecified => 0 | .seldom => 15 | .episodic => 31 | .regular => 63 | .frequent => 127 | .highFrequency => 255

/-- `VelocityHint::with_value`, /repo/src/containers/suppl.rs:345-354. -/
def Velocity.withValue (v : Nat) : Velocity :=
  if v = 0 then .unspecified
  else if v ≤ 15 then .seldom
  else if v ≤ 31 then .episodic
  else if v ≤ 63 then .regular
  else if v ≤ 127 then .frequent
  else .highFrequency

end Rgb.Suppl
