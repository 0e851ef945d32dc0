import Verif.Model.Base

/-!
# Store transactions and files

Models `StoreTransaction` (/repo/src/persistence/mod.rs:62-70), `Stock::store_transaction`
(/repo/src/persistence/stock.rs:1249-1276), and saving of the three stores to files (/repo/src/persistence/fs.rs,
`Stock::load`, `Stock::store` at stock.rs:406-450).

The contents of the stores are arbitrary types here: what is modelled is when they are written, kept and restored.
-/

namespace Rgb

/-- A provider of a store, /repo/src/persistence/mod.rs:62-70. `true` is `Ok`; the store may change also in case of an
error. `none` of `rollback` is a panic, which is the behaviour of all in-memory providers
(`unreachable!()`, /repo/src/persistence/memory.rs:171, 542, 1266). -/
structure TxProvider (σ : Type) where
  begin_ : σ → σ × Bool
  commit : σ → σ × Bool
  rollback : σ → Option σ

/-- The fields of `Stock`, /repo/src/persistence/stock.rs:363-371. -/
structure Stores (S T X : Type) where
  stash : S
  state : T
  index : X
  deriving DecidableEq, Repr

/-- Where `store_transaction` failed. -/
inductive TxErr (ε : Type) where
  | beginState
  | beginStash
  | beginIndex
  | body (e : ε)
  | commitIndex
  | commitState
  | commitStash
  deriving DecidableEq, Repr

section
variable {S T X ε : Type} (ps : TxProvider S) (pt : TxProvider T) (px : TxProvider X)

/-- The closure of /repo/src/persistence/stock.rs:1271-1275. -/
def rollbackAll (k : Stores S T X) : Option (Stores S T X) :=
  match pt.rollback k.state, ps.rollback k.stash, px.rollback k.index with
  | some t, some s, some x => some ⟨s, t, x⟩
  | _, _, _ => none

/-- The commits, /repo/src/persistence/stock.rs:1266-1275. -/
def commitAll (k : Stores S T X) : Option (Stores S T X × Option (TxErr ε)) :=
  let x := px.commit k.index
  let k := { k with index := x.1 }
  if x.2 = false then (rollbackAll ps pt px k).map (fun k => (k, some .commitIndex)) else
  let t := pt.commit k.state
  let k := { k with state := t.1 }
  if t.2 = false then (rollbackAll ps pt px k).map (fun k => (k, some .commitState)) else
  let s := ps.commit k.stash
  let k := { k with stash := s.1 }
  if s.2 = false then (rollbackAll ps pt px k).map (fun k => (k, some .commitStash)) else
  some (k, none)

/-- `store_transaction`, /repo/src/persistence/stock.rs:1249-1276. If the body fails, line 1265 returns without a rollback.
`none` is a panic. -/
def storeTransaction (f : Stores S T X → Option (Stores S T X × Option ε)) (k : Stores S T X) :
    Option (Stores S T X × Option (TxErr ε)) :=
  let t := pt.begin_ k.state
  let k := { k with state := t.1 }
  if t.2 = false then some (k, some .beginState) else
  let s := ps.begin_ k.stash
  let k := { k with stash := s.1 }
  if s.2 = false then (ps.rollback k.stash).map (fun s => ({ k with stash := s }, some .beginStash)) else
  let x := px.begin_ k.index
  let k := { k with index := x.1 }
  if x.2 = false then
    match pt.rollback k.state, ps.rollback k.stash with
    | some t, some s => some ({ k with state := t, stash := s }, some .beginIndex)
    | _, _ => none
  else
  match f k with
  | none => none
  | some (k, some e) => some (k, some (.body e))
  | some (k, none) => commitAll ps pt px k

end

/-! ## Files -/

/-- `FsBinStore`, /repo/src/persistence/fs.rs:32-36: bytes of `stash.dat`, `state.dat`, `index.dat`. -/
abbrev Disk := Stores (List Nat) (List Nat) (List Nat)

inductive Which where
  | stash
  | state
  | index
  deriving DecidableEq, Repr

/-- What happens with a file: it is opened with truncation (`File::create`), or a byte is appended. -/
inductive DiskEv where
  | truncate (w : Which)
  | write (w : Which) (byte : Nat)
  deriving DecidableEq, Repr

def Disk.get (d : Disk) : Which → List Nat
  | .stash => d.stash
  | .state => d.state
  | .index => d.index

def Disk.set (d : Disk) (w : Which) (l : List Nat) : Disk :=
  match w with
  | .stash => { d with stash := l }
  | .state => { d with state := l }
  | .index => { d with index := l }

def DiskEv.apply (d : Disk) : DiskEv → Disk
  | .truncate w => d.set w []
  | .write w b => d.set w (d.get w ++ [b])

def Disk.run (d : Disk) (es : List DiskEv) : Disk := es.foldl DiskEv.apply d

/-- Strict encoding of a store, of the `strict_encoding` crate, not in the sandbox. -/
structure Codec (α : Type) where
  enc : α → List Nat
  dec : List Nat → Option α

/-- Strict encodings of the three stores. -/
structure Codecs3 (S T X : Type) where
  stash : Codec S
  state : Codec T
  index : Codec X

/-- `strict_serialize_to_file`, used in /repo/src/persistence/fs.rs:65-69, 78-82, 91-95: the file is created (truncated) and
the encoding is written in place. -/
def fileEvents (w : Which) (bytes : List Nat) : List DiskEv := .truncate w :: bytes.map (.write w)

/-- `FsBinStore::load` (/repo/src/persistence/fs.rs:60-63, 73-76, 86-89) and `Stock::load`
(/repo/src/persistence/stock.rs:406-417): fails if one of the files can't be decoded. -/
def loadStock {S T X : Type} (C : Codecs3 S T X) (d : Disk) : Option (Stores S T X) :=
  match C.stash.dec d.stash, C.state.dec d.state, C.index.dec d.index with
  | some s, some t, some x => some ⟨s, t, x⟩
  | _, _, _ => none

/-- A stock with persistence: contents and the dirty flags (`Persistence` of the `nonasync` crate, not in the sandbox). -/
structure PStock (S T X : Type) where
  cur : Stores S T X
  dirty : Stores Bool Bool Bool
  deriving DecidableEq, Repr

/-- An operation on the persistent stock. -/
inductive POp (S T X : Type) where
  /-- `consume_consignment`, `consume_fascia`: `store_transaction` with the body, /repo/src/persistence/stock.rs:1302-1355. -/
  | transact (f : Stores S T X → Stores S T X × Bool)
  /-- `import_kit`, `store_secret_seal`: the stash only, /repo/src/persistence/stock.rs:1278-1284, 1402-1407. -/
  | stashTx (f : S → S × Bool)
  /-- `update_witnesses`: the state only, /repo/src/persistence/memory.rs:650-679. -/
  | stateTx (f : T → T)
  /-- `Stock::store`, /repo/src/persistence/stock.rs:442-450. -/
  | store

namespace PStock
variable {S T X : Type}

/-- `Persisting::store` for one store: writes it if it's dirty and clears the flag. -/
def save (C : Codecs3 S T X) (k : PStock S T X) : Which → PStock S T X × List DiskEv
  | .stash => if k.dirty.stash then ({ k with dirty := { k.dirty with stash := false } }, fileEvents .stash (C.stash.enc k.cur.stash)) else (k, [])
  | .state => if k.dirty.state then ({ k with dirty := { k.dirty with state := false } }, fileEvents .state (C.state.enc k.cur.state)) else (k, [])
  | .index => if k.dirty.index then ({ k with dirty := { k.dirty with index := false } }, fileEvents .index (C.index.enc k.cur.index)) else (k, [])

/-- Saving several stores in the given order. -/
def saveAll (C : Codecs3 S T X) : List Which → PStock S T X → PStock S T X × List DiskEv
  | [], k => (k, [])
  | w :: ws, k =>
    let a := k.save C w
    let b := saveAll C ws a.1
    (b.1, a.2 ++ b.2)

/-- One operation: `begin_transaction` of the in-memory providers marks the store as dirty, `commit_transaction` is
`store()` (/repo/src/persistence/memory.rs:160-172, 531-543, 1255-1267). The order of commits is index, state, stash
(/repo/src/persistence/stock.rs:1266-1270). After a failed body nothing is written and the flags stay. An I/O error of a commit leads to the panic in
`rollback_transaction`: it is the same as the process being stopped at this point. -/
def exec (C : Codecs3 S T X) (k : PStock S T X) : POp S T X → PStock S T X × List DiskEv
  | .transact f =>
    let r := f k.cur
    let k' : PStock S T X := ⟨r.1, ⟨true, true, true⟩⟩
    if r.2 then saveAll C [.index, .state, .stash] k' else (k', [])
  | .stashTx f =>
    let r := f k.cur.stash
    let k' : PStock S T X := ⟨{ k.cur with stash := r.1 }, { k.dirty with stash := true }⟩
    if r.2 then k'.saveAll C [.stash] else (k', [])
  | .stateTx f =>
    saveAll C [.state] ⟨{ k.cur with state := f k.cur.state }, { k.dirty with state := true }⟩
  | .store => k.saveAll C [.stash, .state, .index]

/-- A sequence of operations with the events on the disk. -/
def run (C : Codecs3 S T X) : List (POp S T X) → PStock S T X → PStock S T X × List DiskEv
  | [], k => (k, [])
  | op :: ops, k =>
    let a := k.exec C op
    let b := run C ops a.1
    (b.1, a.2 ++ b.2)

end PStock

end Rgb
