import Verif.Spec.PaidWorld

/-!
The world of `Verif.Spec.PayWorld`, with payments of a token made in it. Not a part of the model of the code.

The invoices ask for the token 5, to be paid to the secret seal `sX` (with the hash 12) or to an address, for which the wallet uses the output 0. The output which is spent also has 10 and a right of the contract 0, and 20 and
a right of the contract 2. `tS` (id 4, bundle 0) and `tA` (id 6, bundle 2) pay the token, `q` (id 8, bundle 4) is the blank transition of the contract 2.
-/

namespace Rgb.TokenWorld

open Rgb.Props PayWorld
open Rgb.PaidWorld (sX sW)

/-- The seal for the address. -/
def sB : Seal := ⟨.bitcoin, .opretFirst, none, 0, 1⟩

def seals : List Seal := PayWorld.seals ++ [sX, sB, sW 41000, sW 41010, sW 41200, sW 41210]
def states : List RState := PayWorld.states ++ [.data 5 3]

def pay (token : Assign) : Op :=
  { kind := .transition, ty := 10000, nonce := 18446744073709551615, inputs := [⟨0, 4000, 0⟩, ⟨0, 4001, 0⟩, ⟨0, 4002, 0⟩]
    assigns :=
      [(4000, ⟨.fungible, [.revealed (sW 41000) (.fungible 10 1 1000)]⟩), (4001, ⟨.declarative, [.revealed (sW 41010) .void]⟩),
        (4002, ⟨.structured, [token]⟩)] }

def tS : Op := pay (.confidentialSeal 12 (.data 5 3))
def tA : Op := pay (.revealed sB (.data 5 3))

def q : Op :=
  { kind := .transition, contract := 2, ty := 65535, nonce := 18446744073709551615, inputs := [⟨2, 4000, 0⟩, ⟨2, 4001, 0⟩]
    assigns := [(4000, ⟨.fungible, [.revealed (sW 41200) (.fungible 20 5 1000)]⟩), (4001, ⟨.declarative, [.revealed (sW 41210) .void]⟩)] }

/-- Ids of seals and states only. -/
noncomputable def H₀ : Commit := tableCommit seals states [] []

noncomputable def H : Commit :=
  tableCommit seals states ([g0, g1, tS, tA, q].map (Op.conceal H₀)) [(.opretFirst, [(0, 4)]), (.opretFirst, [(0, 6)]), (.opretFirst, [(0, 8)])]

theorem H_binding : H.Binding := tableCommit_binding _ _ _ _

def bS : Bundle := ⟨.opretFirst, [(0, 4)], [(4, tS)]⟩
def bA : Bundle := ⟨.opretFirst, [(0, 6)], [(6, tA)]⟩
def bQ : Bundle := ⟨.opretFirst, [(0, 8)], [(8, q)]⟩

theorem ids : [g0, g1, tS, tA, q].map (Op.id H) = [0, 2, 4, 6, 8] ∧ [bS, bA, bQ].map (Bundle.id H) = [0, 2, 4] ∧ H.sealHash sX = 12 := by decide +kernel

theorem con_proper (g : Op) (hk : g.kind = .genesis) (hg : g.Proper) : StockEvent.Proper H (.consignment (con g) World.r) := by
  refine ⟨⟨hk, hg.1, ?_, ?_⟩, ?_, hg, ?_, ?_⟩ <;> intro x hx <;> cases hx

theorem events_proper : ∀ e ∈ events, StockEvent.Proper H e := by
  intro e he
  simp only [events, List.mem_cons, List.not_mem_nil, or_false] at he
  have h0 : OMap.Sorted g0.assigns := by unfold OMap.Sorted; decide +kernel
  have h1 : OMap.Sorted g1.assigns := by unfold OMap.Sorted; decide +kernel
  rcases he with rfl | rfl
  · exact con_proper _ rfl ⟨h0, List.Pairwise.nil⟩
  · exact con_proper _ rfl ⟨h1, List.Pairwise.nil⟩

theorem run_some : (runStock H World.I World.M World.G events .empty).isSome = true := by decide +kernel

/-- The stock of the payer, before the payment. -/
noncomputable def k : Stock := (runStock H World.I World.M World.G events .empty).get run_some

theorem k_run : runStock H World.I World.M World.G events .empty = some k := by simp [k]

noncomputable def E : CEnv := { PayWorld.E with H := H }

theorem E_lawful : E.Lawful 97 where
  B := calcEnv_lawful
  outs := fun _ m => m.reverse_perm
  opouts := fun _ _ m => .refl m
  contracts := fun m => .refl m

/-- The wallet, paying to the output 0. -/
def WA : Wallet := { PayWorld.W with vout := some 0 }

def invS : Inv.Invoice := { PayWorld.inv (some "abc".toList) (.data ⟨5, 0⟩) with beneficiary := .bitcoinMainnet (.blindedSeal 6) }
def invA : Inv.Invoice := PayWorld.invA (some "abc".toList) (.data ⟨5, 0⟩)

def prevs : List OutSeal := [out .opretFirst 50]

/-- The fasciae with the transitions. -/
def fS : Stock.Fascia := ⟨⟨.bitcoin, .tx ⟨61, 0⟩⟩, .opret ⟨0, 8, [(0, 0), (2, 4)]⟩, [(0, bS), (2, bQ)]⟩
def fA : Stock.Fascia := ⟨⟨.bitcoin, .tx ⟨61, 0⟩⟩, .opret ⟨0, 8, [(0, 2), (2, 4)]⟩, [(0, bA), (2, bQ)]⟩

theorem bS_check : World.CheckB H bS := by decide +kernel
theorem bA_check : World.CheckB H bA := by decide +kernel
theorem bQ_check : World.CheckB H bQ := by decide +kernel

theorem fS_sound : StockEvent.Sound H (.fascia fS World.r) where
  proper := by
    intro e he
    simp only [fS, List.mem_cons, List.not_mem_nil, or_false] at he
    rcases he with rfl | rfl
    · exact ⟨bS_check.wf, bS_check.proper⟩
    · exact ⟨bQ_check.wf, bQ_check.proper⟩
  nonempty := by
    intro c b w hb
    cases hb with
    | fascia _ _ _ _ hm =>
      simp only [fS, List.mem_cons, List.not_mem_nil, or_false, Prod.mk.injEq] at hm
      rcases hm with ⟨-, rfl⟩ | ⟨-, rfl⟩ <;> simp [bS, bQ]
  methods := by intro con r h; cases h
  anchored := by
    intro f r h c b hm
    cases h
    simp only [fS, List.mem_cons, List.not_mem_nil, or_false, Prod.mk.injEq] at hm
    rcases hm with ⟨rfl, rfl⟩ | ⟨rfl, rfl⟩ <;> simp [AnchorSet.knows, fS, bS, bQ, OMap.keys]

theorem fA_sound : StockEvent.Sound H (.fascia fA World.r) where
  proper := by
    intro e he
    simp only [fA, List.mem_cons, List.not_mem_nil, or_false] at he
    rcases he with rfl | rfl
    · exact ⟨bA_check.wf, bA_check.proper⟩
    · exact ⟨bQ_check.wf, bQ_check.proper⟩
  nonempty := by
    intro c b w hb
    cases hb with
    | fascia _ _ _ _ hm =>
      simp only [fA, List.mem_cons, List.not_mem_nil, or_false, Prod.mk.injEq] at hm
      rcases hm with ⟨-, rfl⟩ | ⟨-, rfl⟩ <;> simp [bA, bQ]
  methods := by intro con r h; cases h
  anchored := by
    intro f r h c b hm
    cases h
    simp only [fA, List.mem_cons, List.not_mem_nil, or_false, Prod.mk.injEq] at hm
    rcases hm with ⟨rfl, rfl⟩ | ⟨rfl, rfl⟩ <;> simp [AnchorSet.knows, fA, bA, bQ, OMap.keys]

end Rgb.TokenWorld
