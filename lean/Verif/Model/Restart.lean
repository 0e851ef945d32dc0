import Verif.Model.StoreTx
import Verif.Spec.Stock

/-!
# A running wallet: the stock with its files

Puts the calls of the in-memory stock (/repo/src/persistence/stock.rs:1249-1355, 1402-1415) together with their writes to the files (`PStock.exec`), with stopping of
the process and with loading at the next start (`Stock::load`, stock.rs:406-417).
-/

namespace Rgb

/-- The stock in memory with its persistence, and the three files. -/
structure Live where
  mem : PStock MemStash MemState Index
  disk : Disk

/-- What the wallet does. -/
inductive LiveStep where
  | call (e : StockEvent)
  /-- `Stock::store` -/
  | store
  /-- the process ends between the calls, and is started again -/
  | restart

namespace Live
variable (H : Commit) (I : Ids) (M : Mpc) (G : SchemaDoc → SchemaGlobals) (C : Codecs3 MemStash MemState Index)

/-- `Stock::load`, /repo/src/persistence/stock.rs:406-417, at the start of the process: nothing loaded is marked dirty (the `nonasync` crate, not in the sandbox). -/
def load (d : Disk) : Option Live := (loadStock C d).map (fun k => ⟨⟨k, ⟨false, false, false⟩⟩, d⟩)

/-- The effect of an operation on the memory and on the files. -/
def operate (l : Live) (x : POp MemStash MemState Index) : Live :=
  ⟨(l.mem.exec C x).1, l.disk.run (l.mem.exec C x).2⟩

/-- A call of the API, with `true` for `Ok`, `false` for an error; after a panic, which ends the process, the wallet is started again, and `false` is returned.
`none` if it can't be started.
Consignments and fascias go through `store_transaction` (/repo/src/persistence/stock.rs:1249-1276): a failed body is returned by `?` without rolling back. `import_kit`
(1278-1284) works in a transaction of the stash, `store_secret_seal` too (/repo/src/persistence/stash.rs:675-688), `update_witnesses`
(/repo/src/persistence/memory.rs:650-679) in one of the state. `set_trust` (/repo/src/persistence/memory.rs:392-399) opens no transaction: neither does it mark the stash dirty. -/
def call (l : Live) : StockEvent → Option (Live × Bool)
  | .consignment con r =>
    match Stock.consumeConsignment H I M G r con l.mem.cur with
    | none => (load C l.disk).map (fun l => (l, false))
    | some (k, e) => some (l.operate C (.transact (fun _ => (k, e.isNone))), e.isNone)
  | .fascia f r =>
    match Stock.consumeFascia H r f l.mem.cur with
    | none => (load C l.disk).map (fun l => (l, false))
    | some (k, e) => some (l.operate C (.transact (fun _ => (k, e.isNone))), e.isNone)
  | .kit x =>
    match l.mem.cur.stash.consumeKit I x with
    | none => (load C l.disk).map (fun l => (l, false))
    | some (s, .ok _) => some (l.operate C (.stashTx (fun _ => (s, true))), true)
    | some (s, .error _) => some (l.operate C (.stashTx (fun _ => (s, false))), false)
  | .secretSeal x =>
    match l.mem.cur.stash.addSecretSeal x with
    | none => (load C l.disk).map (fun l => (l, false))
    | some (s, .ok _) => some (l.operate C (.stashTx (fun _ => (s, true))), true)
    | some (_, .error _) => (load C l.disk).map (fun l => (l, false))
  | .trust i t =>
    match l.mem.cur.stash.setTrust i t with
    | none => (load C l.disk).map (fun l => (l, false))
    | some (s, .ok _) => some ({ l with mem := { l.mem with cur := { l.mem.cur with stash := s } } }, true)
    | some (s, .error _) => some ({ l with mem := { l.mem with cur := { l.mem.cur with stash := s } } }, false)
  | .update r after => some (l.operate C (.stateTx (fun s => (s.updateWitnesses r after).1)), true)

/-- One step. -/
def step (l : Live) : LiveStep → Option Live
  | .call e => (l.call H I M G C e).map Prod.fst
  | .store => some (l.operate C .store)
  | .restart => load C l.disk

/-- Any sequence of calls, savings and restarts. -/
def run : List LiveStep → Live → Option Live
  | [], l => some l
  | x :: xs, l => (l.step H I M G C x).bind (run xs)

/-- The calls of a wallet which is restarted after each error. Not in /repo: it is what its user can do. -/
def careful : List StockEvent → Live → Option Live
  | [], l => some l
  | e :: es, l => (l.call H I M G C e).bind fun p => if p.2 then careful es p.1 else (load C p.1.disk).bind (careful es)

end Live

end Rgb
