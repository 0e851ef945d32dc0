import Verif.Spec.PayWorld
import Verif.Spec.Issue

/-!
A small world for examples of issuing contracts: a stock which knows a schema, an interface and an implementation, from a contract without state.
Not a part of the model of the code.
-/

namespace Rgb.IssueWorld

open Rgb.Props PayWorld

/-- Two amounts to one seal, of which the second one counts, amounts to another one and to a secret seal, rights and a token; global state. -/
def calls : List CCall :=
  [.addGlobal 1 (some 42), .addGlobal 2 (some 1), .addAssetTag 1 1000, .addGlobal 2 (some 2), .addFungible 1 (.revealed (sO 50 0)) 500 31 999,
    .addFungible 1 (.concealed .bitcoin 77) 250 32 998, .addRights 2 (.revealed (sO 50 0)), .addFungible 1 (.revealed (sO 50 0)) 400 33 997,
    .addFungible 1 (.revealed (sT 51 0)) 100 35 997, .addData 3 (.revealed (sO 54 0)) (some 13) 14]

/-- What they give. -/
def g : BuiltGenesis where
  timestamp := 0
  testnet := true
  liquid := false
  tags := [(4000, 1000)]
  metadata := []
  globals := [(2000, [42]), (2001, [1, 2])]
  assigns :=
    [(4000, ⟨.fungible, [.revealed (sO 50 0) (.fungible 400 33 1000), .revealed (sT 51 0) (.fungible 100 35 1000), .confidentialSeal 154 (.fungible 250 58 1000)]⟩),
      (4001, ⟨.declarative, [.revealed (sO 50 0) .void]⟩), (4002, ⟨.structured, [.revealed (sO 54 0) (.data 13 14)]⟩)]
  issuer := 1

/-- The other fields are numbered by the issuer. -/
def rest (schema : Nat) (g : BuiltGenesis) : Nat := 100 * schema + g.issuer

def g0 : Op := { kind := .genesis, nonce := 7 }

noncomputable def H₀ : Commit := tableCommit [sO 50 0, sT 51 0, sO 54 0] [.fungible 400 33 1000, .fungible 100 35 1000, .fungible 250 58 1000, .void, .data 13 14] [] []

/-- The contract known has the id 0, the one issued has the id 2. -/
noncomputable def H : Commit :=
  tableCommit [sO 50 0, sT 51 0, sO 54 0] [.fungible 400 33 1000, .fungible 100 35 1000, .fungible 250 58 1000, .void, .data 13 14] ([g0, g.op rest 10].map (Op.conceal H₀)) []

theorem H_binding : H.Binding := tableCommit_binding _ _ _ _

theorem ids : g0.id H = 0 ∧ (g.op rest 10).id H = 2 := by decide +kernel

def G : SchemaDoc → SchemaGlobals := fun d => ⟨10 + d.body, [(2000, 1), (2001, 9)]⟩

theorem G_sorted (d : SchemaDoc) : OMap.Sorted (G d).maxItems := by
  have : OMap.Sorted (ν := Nat) [(2000, 1), (2001, 9)] := by unfold OMap.Sorted; decide
  exact this

/-- Interfaces have different names, implementations have the ids of the interfaces. -/
noncomputable def E : CEnv := { PayWorld.E with H := H, ifaceOf := fun d => { mixedIface with name := 300 + d.body }, implOf := fun x => { mixedImpl with ifaceId := x.ifaceId }, tagsOf := fun _ => [(4000, 1000)] }

theorem E_tags : E.TagMaps := fun _ => ⟨List.pairwise_singleton _ _, Nat.le_of_ble_eq_true rfl⟩

theorem E_globals : E.SameGlobals G := by
  intro d ty h
  have : ty ∈ [2000, 2001] := by
    have h : OMap.contains mixedSchema.globalTypes ty = true := h
    by_contra hn
    simp only [List.mem_cons, List.not_mem_nil, or_false, not_or] at hn
    simp [mixedSchema, OMap.contains, OMap.get?, hn.1, hn.2] at h
  simp only [List.mem_cons, List.not_mem_nil, or_false] at this
  rcases this with rfl | rfl <;> rfl

def events : List StockEvent := [.consignment (con g0) World.r]

theorem events_proper : ∀ e ∈ events, StockEvent.Proper H e := by
  intro e he
  rw [List.mem_singleton.mp he]
  refine ⟨⟨rfl, .nil, ?_, ?_⟩, ?_, ⟨.nil, .nil⟩, ?_, ?_⟩ <;> intro x hx <;> cases hx

theorem run_some : (runStock E.H E.I World.M G events .empty).isSome = true := by decide +kernel

noncomputable def k : Stock := (runStock E.H E.I World.M G events .empty).get run_some

theorem k_run : runStock E.H E.I World.M G events .empty = some k := (Option.some_get _).symm

theorem seals : GenesisSeals mixedImpl calls := by
  have h : ∀ c ∈ calls, (c.assigned mixedImpl).all (fun p => match p.2.1 with | .revealed s => s.txid.isSome | _ => true) = true := by decide +kernel
  intro c hc ty s st hs
  have := h c hc
  rw [hs] at this
  exact this

end Rgb.IssueWorld
