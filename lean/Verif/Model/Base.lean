/-!
# Ordered maps and sets

Rust's `BTreeMap`, `BTreeSet` (and the size-confined `TinyOrdMap`, `SmallOrdMap`, `MediumOrdMap`,
`LargeOrdMap`, … wrappers of the `amplify` crate) as association lists kept in key order, so that
iterating over the list is iterating over the Rust map.

Models the standard library interface used all over /repo/src (for instance
/repo/src/persistence/memory.rs:22-41). Simplification: size limits of the confined wrappers are
dropped here; code which depends on a limit models it explicitly at the place of use.
-/

namespace Rgb

/-- Strict lexicographic comparison of key encodings: the order of derived `Ord` on structures whose
fields are listed in order (Rust `#[derive(Ord)]`). -/
def lexLt : List Nat → List Nat → Bool
  | [], [] => false
  | [], _ :: _ => true
  | _ :: _, [] => false
  | a :: as, b :: bs => if a < b then true else if b < a then false else lexLt as bs

/-- A type used as a key of an ordered collection: it has an injective encoding by the list of its
fields, and is ordered lexicographically by it (Rust `#[derive(Ord)]`). -/
class Key (α : Type) where
  enc : α → List Nat
  enc_inj : ∀ a b : α, enc a = enc b → a = b

/-- `a < b` in the `Ord` of the key type. -/
def Key.lt {α : Type} [Key α] (a b : α) : Bool := lexLt (Key.enc a) (Key.enc b)

instance : Key Nat where
  enc n := [n]
  enc_inj := by intro a b h; simpa using h

/-- `BTreeMap<κ, ν>` as the list of its entries in iteration order. -/
abbrev OMap (κ ν : Type) := List (κ × ν)

namespace OMap
variable {κ ν : Type} [Key κ] [DecidableEq κ]

/-- `BTreeMap::insert` (the returned old value is obtained with `get?` beforehand). -/
def insert (m : OMap κ ν) (k : κ) (v : ν) : OMap κ ν :=
  match m with
  | [] => [(k, v)]
  | (k', v') :: m' =>
    if k = k' then (k, v) :: m'
    else if Key.lt k k' then (k, v) :: (k', v') :: m'
    else (k', v') :: insert m' k v

/-- `BTreeMap::get`. -/
def get? (m : OMap κ ν) (k : κ) : Option ν :=
  match m with
  | [] => none
  | (k', v') :: m' => if k = k' then some v' else get? m' k

/-- `BTreeMap::contains_key`. -/
def contains (m : OMap κ ν) (k : κ) : Bool := (get? m k).isSome

/-- `BTreeMap::remove`. -/
def erase (m : OMap κ ν) (k : κ) : OMap κ ν := m.filter (fun e => decide (e.1 ≠ k))

/-- `BTreeMap::keys`. -/
def keys (m : OMap κ ν) : List κ := m.map Prod.fst

/-- `BTreeMap::values`. -/
def vals (m : OMap κ ν) : List ν := m.map Prod.snd

/-- `BTreeMap::values_mut().for_each(f)`. -/
def mapVals {μ : Type} (f : ν → μ) (m : OMap κ ν) : OMap κ μ := m.map (fun e => (e.1, f e.2))

/-- `BTreeMap::extend` with an iterator of entries: later entries override. -/
def extend (m : OMap κ ν) (es : List (κ × ν)) : OMap κ ν := es.foldl (fun m e => insert m e.1 e.2) m

/-- `BTreeMap::from_iter`. -/
def ofList (es : List (κ × ν)) : OMap κ ν := extend [] es

/-- The invariant of a `BTreeMap`: keys in strictly increasing order. -/
def Sorted (m : OMap κ ν) : Prop := (keys m).Pairwise (fun a b => Key.lt a b = true)

end OMap

/-- `BTreeSet<α>` as the list of its members in iteration order. -/
abbrev OSet (α : Type) := List α

namespace OSet
variable {α : Type} [Key α] [DecidableEq α]

/-- `BTreeSet::insert`; a member equal to the new one is kept. -/
def insert (s : OSet α) (a : α) : OSet α :=
  match s with
  | [] => [a]
  | b :: s' => if a = b then b :: s' else if Key.lt a b then a :: b :: s' else b :: insert s' a

/-- `BTreeSet::extend`. -/
def extend (s : OSet α) (as : List α) : OSet α := as.foldl insert s

/-- `BTreeSet::from_iter`. -/
def ofList (as : List α) : OSet α := extend [] as

/-- The invariant of a `BTreeSet`. -/
def Sorted (s : OSet α) : Prop := s.Pairwise (fun a b => Key.lt a b = true)

end OSet

end Rgb
