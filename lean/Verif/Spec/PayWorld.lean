import Verif.Props.Builder
import Verif.Spec.Compose
import Verif.Spec.StockWorld

/-!
A small world for examples of payments: a stock with two contracts. Not a part of the model of the code.

* contract 0 has amounts (type 4000): 10 at 50:0, 7 at 51:0 (closed with tapret), and twice 2⁶³ at 52:0 and 53:0;
  rights (type 4001) at 50:0 and 54:0; tokens (type 4002): 5 at 50:0 and 6 at 54:0, and 8 at 51:0;
* contract 2 has amounts: 20 at 50:0 and 21 at 51:0 (closed with tapret), and rights at 50:0 and 54:0.
-/

namespace Rgb.PayWorld

open Rgb.Props

def sO (txid vout : Nat) : Seal := ⟨.bitcoin, .opretFirst, some txid, vout, 1⟩
def sT (txid vout : Nat) : Seal := ⟨.bitcoin, .tapretFirst, some txid, vout, 1⟩

def half : Nat := 9223372036854775808

def seals : List Seal := [sO 50 0, sT 51 0, sO 52 0, sO 53 0, sO 54 0, sO 55 0]
def states : List RState :=
  [.fungible 10 1 1000, .fungible 7 2 1000, .fungible half 3 1000, .fungible half 4 1000, .void, .data 5 0, .data 6 0, .data 8 0,
    .fungible 20 5 1000, .fungible 21 6 1000]

def g0 : Op :=
  { kind := .genesis
    assigns :=
      [(4000, ⟨.fungible, [.revealed (sO 50 0) (.fungible 10 1 1000), .revealed (sT 51 0) (.fungible 7 2 1000),
          .revealed (sO 52 0) (.fungible half 3 1000), .revealed (sO 53 0) (.fungible half 4 1000)]⟩),
        (4001, ⟨.declarative, [.revealed (sO 50 0) .void, .revealed (sO 54 0) .void]⟩),
        (4002, ⟨.structured, [.revealed (sO 50 0) (.data 5 0), .revealed (sO 54 0) (.data 6 0), .revealed (sT 51 0) (.data 8 0)]⟩)] }

def g1 : Op :=
  { kind := .genesis, nonce := 1
    assigns :=
      [(4000, ⟨.fungible, [.revealed (sO 50 0) (.fungible 20 5 1000), .revealed (sT 51 0) (.fungible 21 6 1000)]⟩),
        (4001, ⟨.declarative, [.revealed (sO 50 0) .void, .revealed (sO 54 0) .void]⟩)] }

/-- A transition of contract 2 (id 4) which gives 20 to an output of another transaction. -/
def t0 : Op :=
  { kind := .transition, contract := 2, nonce := 2, inputs := [⟨2, 4000, 0⟩]
    assigns := [(4000, ⟨.fungible, [.revealed (sO 55 0) (.fungible 20 5 1000)]⟩)] }

/-- Ids of seals and states only. -/
noncomputable def H₀ : Commit := tableCommit seals states [] []

noncomputable def H : Commit := tableCommit seals states ([g0, g1, t0].map (Op.conceal H₀)) [(.opretFirst, [(0, 4)])]

theorem H_binding : H.Binding := tableCommit_binding _ _ _ _

def b0 : Bundle := ⟨.opretFirst, [(0, 4)], [(4, t0)]⟩

theorem ids : [g0, g1, t0].map (Op.id H) = [0, 2, 4] ∧ b0.id H = 0 := by decide +kernel

/-- A consignment with a genesis only. -/
def con (g : Op) : Consignment where
  data := ⟨g, [], []⟩
  schema := ⟨0⟩
  ifaces := [(⟨7, [], 0⟩, ⟨10, 20, 0⟩)]
  types := [1, 2]
  scripts := [5]

def events : List StockEvent := [.consignment (con g0) World.r, .consignment (con g1) World.r]

theorem con_proper (g : Op) (hk : g.kind = .genesis) (hg : g.Proper) : StockEvent.Proper H (.consignment (con g) World.r) := by
  refine ⟨⟨hk, hg.1, ?_, ?_⟩, ?_, hg, ?_, ?_⟩ <;> intro x hx <;> cases hx

theorem events_proper : ∀ e ∈ events, StockEvent.Proper H e := by
  intro e he
  simp only [events, List.mem_cons, List.not_mem_nil, or_false] at he
  have h0 : OMap.Sorted g0.assigns := by unfold OMap.Sorted; decide +kernel
  have h1 : OMap.Sorted g1.assigns := by unfold OMap.Sorted; decide +kernel
  rcases he with rfl | rfl
  · exact con_proper _ rfl ⟨h0, List.Pairwise.nil⟩
  · exact con_proper _ rfl ⟨h1, List.Pairwise.nil⟩

theorem run_some : (runStock H World.I World.M World.G events .empty).isSome = true := by decide +kernel

/-- The stock which got the contracts. -/
noncomputable def k : Stock := (runStock H World.I World.M World.G events .empty).get run_some

theorem k_reachable : k.Reachable H := ⟨World.I, World.M, World.G, events, World.G_sorted, events_proper, by simp [k]⟩

/-- A history where a transition of contract 2 was accepted and its transaction was replaced by another one later. -/
def eventsA : List StockEvent :=
  [.consignment (con g0) World.r, .consignment (con g1) World.r,
    .fascia ⟨⟨.bitcoin, .tx ⟨61, 0⟩⟩, .opret ⟨0, 8, [(2, 0)]⟩, [(2, b0)]⟩ World.r, .update (fun _ => some .archived) 0]

theorem b0_check : World.CheckB H b0 := by decide +kernel

theorem eventsA_proper : ∀ e ∈ eventsA, StockEvent.Proper H e := by
  intro e he
  have h0 := events_proper (.consignment (con g0) World.r) (by simp [events])
  have h1 := events_proper (.consignment (con g1) World.r) (by simp [events])
  simp only [eventsA, List.mem_cons, List.not_mem_nil, or_false] at he
  rcases he with rfl | rfl | rfl | rfl
  · exact h0
  · exact h1
  · intro e he
    simp only [List.mem_singleton] at he
    subst he
    exact ⟨b0_check.wf, b0_check.proper⟩
  · trivial

theorem runA_some : (runStock H World.I World.M World.G eventsA .empty).isSome = true := by decide +kernel

/-- The stock after it. -/
noncomputable def kA : Stock := (runStock H World.I World.M World.G eventsA .empty).get runA_some

theorem kA_reachable : kA.Reachable H := ⟨World.I, World.M, World.G, eventsA, World.G_sorted, eventsA_proper, by simp [kA]⟩

/-- The environment of a debug build. The token of an allocation is its index. -/
noncomputable def E : CEnv where
  B := calcEnv
  S := World.E
  H := H
  I := World.I
  now := 1000
  name := fun t => t.length
  schemaOf := fun _ => mixedSchema
  ifaceOf := fun _ => mixedIface
  implOf := fun _ => mixedImpl
  tagsOf := fun _ => [(4000, 1000), (4004, 1000)]
  genesisRef := id
  velocity := fun _ _ => 0
  dataOf := fun a => a.tokenIndex
  ordOuts := fun _ m => m.reverse
  ordOpouts := fun _ _ m => m
  ordContracts := fun m => m

theorem E_lawful : E.Lawful 97 where
  B := calcEnv_lawful
  outs := fun _ m => m.reverse_perm
  opouts := fun _ _ m => .refl m
  contracts := fun m => .refl m

/-- The environment of a release build. -/
noncomputable def R : CEnv := { E with B := { calcEnv with debug := false } }

theorem R_lawful : R.Lawful 97 where
  B := ⟨calcEnv_lawful.1, calcEnv_lawful.2⟩
  outs := fun _ m => m.reverse_perm
  opouts := fun _ _ m => .refl m
  contracts := fun m => .refl m

/-- An invoice of the contract 0 to a secret seal. Names are numbers by their length: the interface is 7, the assignment 1 has the type
4000, 2 has the type 4001 and 3 has the type 4002. -/
def inv (assignment : Option Text) (st : Inv.InvoiceState) : Inv.Invoice where
  transports := []
  contract := some 0
  iface := some "RGBTest".toList
  operation := none
  assignment := assignment
  beneficiary := .bitcoinMainnet (.blindedSeal 77)
  ownedState := st
  expiry := some 2000
  unknownQuery := []

/-- The same to an address. -/
def invA (assignment : Option Text) (st : Inv.InvoiceState) : Inv.Invoice :=
  { inv assignment st with beneficiary := .bitcoinMainnet (.witnessVout ⟨.opretFirst, .wpkh []⟩) }

def siteNo : Site → Nat
  | .beneficiary => 1
  | .change => 2
  | .token => 3
  | .moved c _ o => 1000 + 10 * o.ty + o.no + 100 * c

/-- A wallet with the method opret which gives each state a seal of its own on the output 1. -/
def W : Wallet where
  method := .opretFirst
  vout := none
  priority := 18446744073709551615
  alloc := fun _ _ _ _ => some 1
  factors := siteNo
  seals := siteNo

/-- A wallet which gives the same seal each time. -/
def W1 : Wallet := { W with seals := fun _ => 9 }

/-- The same, paying to the output 1. -/
def W2 : Wallet := { W1 with vout := some 1 }

def out (method : CloseMethod) (txid : Nat) : OutSeal := ⟨.bitcoin, method, txid, 0⟩

/-- What is spent in most of the examples. -/
def prevs : List OutSeal := [out .opretFirst 50, out .tapretFirst 51]

/-- A property of a computed value. -/
theorem ok_any {ε α : Type} {y : Except ε α} {P : α → Prop} [DecidablePred P] (h : y.toOption.any (fun a => decide (P a)) = true) :
    ∃ a, y = .ok a ∧ P a := by
  cases y with
  | error e => cases h
  | ok a => exact ⟨a, rfl, by simpa [Except.toOption] using h⟩

end Rgb.PayWorld
