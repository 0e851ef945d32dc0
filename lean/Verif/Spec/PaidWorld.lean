import Verif.Spec.PayWorld
import Verif.Spec.Usable

/-!
The world of `Verif.Spec.PayWorld`, with a payment made in it. Not a part of the model of the code.

The invoice asks for 12, to be paid to the secret seal `sX` (with the hash 12). The outputs which are spent have 10, closed with opret, and 7, closed with tapret. So
there are two transitions: `p0` (id 4, bundle 0) pays 10, and `p1` (id 6, bundle 2) pays 2 and has a change of 5.
-/

namespace Rgb.PaidWorld

open Rgb.Props PayWorld

/-- The seal of the payee. -/
def sX : Seal := sO 56 0

/-- A seal on the output 1 of the transaction made for the payment. -/
def sW (blinding : Nat) : Seal := ⟨.bitcoin, .opretFirst, none, 1, blinding⟩

def seals : List Seal := PayWorld.seals ++ [sX, sW 41010, sW 41020, sW 2, sW 41022]
def states : List RState := PayWorld.states ++ [.fungible 10 1 1000, .fungible 5 2 1000, .fungible 2 0 1000]

def p0 : Op :=
  { kind := .transition, ty := 10000, nonce := 18446744073709551615, inputs := [⟨0, 4000, 0⟩, ⟨0, 4001, 0⟩, ⟨0, 4002, 0⟩]
    assigns :=
      [(4000, ⟨.fungible, [.confidentialSeal 12 (.fungible 10 1 1000)]⟩), (4001, ⟨.declarative, [.revealed (sW 41010) .void]⟩),
        (4002, ⟨.structured, [.revealed (sW 41020) (.data 5 0)]⟩)] }

def p1 : Op :=
  { kind := .transition, ty := 10000, nonce := 18446744073709551615, inputs := [⟨0, 4000, 1⟩, ⟨0, 4002, 2⟩]
    assigns :=
      [(4000, ⟨.fungible, [.revealed (sW 2) (.fungible 5 2 1000), .confidentialSeal 12 (.fungible 2 0 1000)]⟩),
        (4002, ⟨.structured, [.revealed (sW 41022) (.data 8 0)]⟩)] }

/-- Ids of seals and states only. -/
noncomputable def H₀ : Commit := tableCommit seals states [] []

noncomputable def H : Commit := tableCommit seals states ([g0, g1, p0, p1].map (Op.conceal H₀)) [(.opretFirst, [(0, 4)]), (.tapretFirst, [(1, 6)])]

theorem H_binding : H.Binding := tableCommit_binding _ _ _ _

def b0 : Bundle := ⟨.opretFirst, [(0, 4)], [(4, p0)]⟩
def b1 : Bundle := ⟨.tapretFirst, [(1, 6)], [(6, p1)]⟩

theorem ids : [g0, g1, p0, p1].map (Op.id H) = [0, 2, 4, 6] ∧ b0.id H = 0 ∧ b1.id H = 2 ∧ H.sealHash sX = 12 := by decide +kernel

theorem con_proper (g : Op) (hk : g.kind = .genesis) (hg : g.Proper) : StockEvent.Proper H (.consignment (con g) World.r) := by
  refine ⟨⟨hk, hg.1, ?_, ?_⟩, ?_, hg, ?_, ?_⟩ <;> intro x hx <;> cases hx

theorem events_proper : ∀ e ∈ events, StockEvent.Proper H e := by
  intro e he
  simp only [events, List.mem_cons, List.not_mem_nil, or_false] at he
  have h0 : OMap.Sorted g0.assigns := by unfold OMap.Sorted; decide +kernel
  have h1 : OMap.Sorted g1.assigns := by unfold OMap.Sorted; decide +kernel
  rcases he with rfl | rfl
  · exact con_proper _ rfl ⟨h0, List.Pairwise.nil⟩
  · exact con_proper _ rfl ⟨h1, List.Pairwise.nil⟩

theorem run_some : (runStock H World.I World.M World.G events .empty).isSome = true := by decide +kernel

/-- The stock of the payer, before the payment. -/
noncomputable def k : Stock := (runStock H World.I World.M World.G events .empty).get run_some

theorem k_run : runStock H World.I World.M World.G events .empty = some k := by simp [k]

noncomputable def E : CEnv := { PayWorld.E with H := H }

theorem E_lawful : E.Lawful 97 where
  B := calcEnv_lawful
  outs := fun _ m => m.reverse_perm
  opouts := fun _ _ m => .refl m
  contracts := fun m => .refl m

def inv : Inv.Invoice := { PayWorld.inv none (.amount 12) with beneficiary := .bitcoinMainnet (.blindedSeal 6) }

/-- The fascia with both transitions. -/
def fascia : Stock.Fascia := ⟨⟨.bitcoin, .tx ⟨61, 0⟩⟩, .double ⟨0, 8, [(0, 2)]⟩ ⟨0, 9, [(0, 0)]⟩, [(0, b0), (0, b1)]⟩

theorem b0_check : World.CheckB H b0 := by decide +kernel
theorem b1_check : World.CheckB H b1 := by decide +kernel

theorem fascia_sound : StockEvent.Sound H (.fascia fascia World.r) where
  proper := by
    intro e he
    simp only [fascia, List.mem_cons, List.not_mem_nil, or_false] at he
    rcases he with rfl | rfl
    · exact ⟨b0_check.wf, b0_check.proper⟩
    · exact ⟨b1_check.wf, b1_check.proper⟩
  nonempty := by
    intro c b w hb
    cases hb with
    | fascia _ _ _ _ hm =>
      simp only [fascia, List.mem_cons, List.not_mem_nil, or_false, Prod.mk.injEq] at hm
      rcases hm with ⟨-, rfl⟩ | ⟨-, rfl⟩ <;> simp [b0, b1]
  methods := by intro con r h; cases h
  anchored := by
    intro f r h c b hm
    cases h
    simp only [fascia, List.mem_cons, List.not_mem_nil, or_false, Prod.mk.injEq] at hm
    rcases hm with ⟨rfl, rfl⟩ | ⟨rfl, rfl⟩ <;> simp [AnchorSet.knows, fascia, b0, b1, OMap.keys]

end Rgb.PaidWorld
