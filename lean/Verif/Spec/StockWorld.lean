import Verif.Spec.TableCommit
import Verif.Spec.Stock
import Verif.Lemmas.Base

/-!
A small world for examples: a contract with transitions, a collision-free commitment scheme which evaluates on them,
and a stock which got them. Not a part of the model of the code.

* the genesis (id 0) gives 10 to an output of transaction 50, and has the global state 77 of type 5;
* `t1` (id 2, bundle 0, witness 61) splits it in 4 and 6;
* `t2` (id 4) gives the 4 to a secret seal and `t3` (id 6) gives the 6 to an output of the witness, both in the bundle 2
  with the witness 62.

For the counterexamples: `t4` (id 10) spends the output of the extension `x` (id 8); `t5` (id 12) assigns twice to one secret seal;
`t6` (id 14) assigns to an output of the witness and to a secret seal; `t7` and `t8` (ids 16, 18) assign to the same output of the witness
with different closing methods.
-/

namespace Rgb.World

def sG : Seal := ⟨.bitcoin, .opretFirst, some 50, 0, 1⟩
def sA : Seal := ⟨.bitcoin, .opretFirst, none, 1, 2⟩
def sB : Seal := ⟨.bitcoin, .opretFirst, none, 2, 3⟩
def sC : Seal := ⟨.bitcoin, .opretFirst, some 70, 0, 4⟩
def sD : Seal := ⟨.bitcoin, .opretFirst, none, 1, 5⟩

def sT : Seal := ⟨.bitcoin, .tapretFirst, none, 1, 6⟩

def seals : List Seal := [sG, sA, sB, sC, sD, sT]
def states : List RState := [.fungible 10 0 0, .fungible 4 0 0, .fungible 6 0 0]

def g : Op :=
  { kind := .genesis, globals := [(5, [77])], assigns := [(1, ⟨.fungible, [.revealed sG (.fungible 10 0 0)]⟩)] }
def t1 : Op :=
  { kind := .transition, nonce := 1, inputs := [⟨0, 1, 0⟩],
    assigns := [(1, ⟨.fungible, [.revealed sA (.fungible 4 0 0), .revealed sB (.fungible 6 0 0)]⟩)] }
def t2 : Op :=
  { kind := .transition, nonce := 2, inputs := [⟨2, 1, 0⟩],
    assigns := [(1, ⟨.fungible, [.confidentialSeal 6 (.fungible 4 0 0)]⟩)] }
def t3 : Op :=
  { kind := .transition, nonce := 3, inputs := [⟨2, 1, 1⟩],
    assigns := [(1, ⟨.fungible, [.revealed sD (.fungible 6 0 0)]⟩)] }

def x : Op :=
  { kind := .extension, nonce := 4, redeemed := [(3, 0)], assigns := [(1, ⟨.fungible, [.revealed sG (.fungible 4 0 0)]⟩)] }
def t4 : Op :=
  { kind := .transition, nonce := 5, inputs := [⟨8, 1, 0⟩],
    assigns := [(1, ⟨.fungible, [.revealed sD (.fungible 4 0 0)]⟩)] }
def t5 : Op :=
  { kind := .transition, nonce := 6, inputs := [⟨2, 1, 1⟩],
    assigns := [(1, ⟨.fungible, [.confidentialSeal 6 (.fungible 4 0 0), .confidentialSeal 6 (.fungible 4 0 0)]⟩)] }
def t6 : Op :=
  { kind := .transition, nonce := 7, inputs := [⟨2, 1, 1⟩],
    assigns := [(1, ⟨.fungible, [.revealed sD (.fungible 4 0 0), .confidentialSeal 6 (.fungible 4 0 0)]⟩)] }
def t7 : Op :=
  { kind := .transition, nonce := 8, inputs := [⟨2, 1, 0⟩],
    assigns := [(1, ⟨.fungible, [.revealed sD (.fungible 4 0 0)]⟩)] }
def t8 : Op :=
  { kind := .transition, nonce := 9, inputs := [⟨2, 1, 1⟩],
    assigns := [(1, ⟨.fungible, [.revealed sT (.fungible 6 0 0)]⟩)] }

/-- Ids of seals and states only. -/
noncomputable def H₀ : Commit := tableCommit seals states [] []

/-- The commitments: ids of operations are numbered in the order given. -/
noncomputable def H : Commit :=
  tableCommit seals states ([g, t1, t2, t3, x, t4, t5, t6, t7, t8].map (Op.conceal H₀))
    [(.opretFirst, [(0, 2)]), (.opretFirst, [(0, 4), (1, 6)]), (.opretFirst, [(0, 10)]), (.opretFirst, [(0, 12)]),
      (.opretFirst, [(0, 14)]), (.opretFirst, [(0, 16)]), (.tapretFirst, [(0, 18)])]

theorem H_binding : H.Binding := tableCommit_binding _ _ _ _

def b1 : Bundle := ⟨.opretFirst, [(0, 2)], [(2, t1)]⟩
def b2 : Bundle := ⟨.opretFirst, [(0, 4), (1, 6)], [(4, t2), (6, t3)]⟩

def b4 : Bundle := ⟨.opretFirst, [(0, 10)], [(10, t4)]⟩
def b5 : Bundle := ⟨.opretFirst, [(0, 12)], [(12, t5)]⟩
def b6 : Bundle := ⟨.opretFirst, [(0, 14)], [(14, t6)]⟩
def b7 : Bundle := ⟨.opretFirst, [(0, 16)], [(16, t7)]⟩
def b8 : Bundle := ⟨.tapretFirst, [(0, 18)], [(18, t8)]⟩

theorem ids : [g, t1, t2, t3, x, t4, t5, t6, t7, t8].map (Op.id H) = [0, 2, 4, 6, 8, 10, 12, 14, 16, 18] ∧
    [b1, b2, b4, b5, b6, b7, b8].map (Bundle.id H) = [0, 2, 4, 6, 8, 10, 12] := by
  decide +kernel

/-- Ids of documents: the schema 10, the interface 20, the library 30. -/
def I : Ids where
  schema d := 10 + d.body
  iface d := 20 + d.body
  lib l := 30 + l
  genesisSchema _ := 10

/-- Merkle blocks: the proof is the root, the block knows the one contract. -/
def M : Mpc where
  block p c b := some (p, [(c, b)])

def E : Stock.Env where
  toProof root known c := if OMap.contains known c then some root else none
  schemaTypes _ := [1]
  ifaceTypes _ := [2]
  schemaLibs _ := [35]

def G : SchemaDoc → SchemaGlobals := fun d => ⟨10 + d.body, [(5, 2)]⟩

/-- Everything is in the memory pool. -/
def r : Resolver := fun _ => some .tentative

/-- A consignment with the given extensions and bundles. -/
def conOf (exts : List Op) (bundles : List WitnessBundle) : Consignment where
  data := ⟨g, exts, bundles⟩
  schema := ⟨0⟩
  ifaces := [(⟨7, [], 0⟩, ⟨10, 20, 0⟩)]
  types := [1, 2]
  scripts := [5]

/-- A bundle with its witness. -/
def wb (p : PubWitness) (b : Bundle) : WitnessBundle := ⟨⟨.bitcoin, p⟩, .opret ⟨7, ⟨.opretFirst, 0⟩, b⟩⟩

/-- The consignment with the genesis and `t1`. -/
def con : Consignment := conOf [] [wb (.tx ⟨61, 0⟩) b1]

/-- A fascia with one bundle. -/
def fasciaOf (txid : Nat) (b : Bundle) : Stock.Fascia := ⟨⟨.bitcoin, .tx ⟨txid, 0⟩⟩, .opret ⟨0, 8, [(0, 2)]⟩, [(0, b)]⟩

/-- A fascia with `t7` and `t8`, in bundles with different closing methods. -/
def fascia78 : Stock.Fascia :=
  ⟨⟨.bitcoin, .tx ⟨66, 0⟩⟩, .double ⟨0, 8, [(0, 12)]⟩ ⟨0, 9, [(0, 10)]⟩, [(0, b7), (0, b8)]⟩

/-- The fascia with `t2` and `t3`. -/
def fascia : Stock.Fascia := fasciaOf 62 b2

def events : List StockEvent := [.consignment con r, .fascia fascia r]

/-- The parts of `Bundle.WF` which can be checked by evaluation. -/
def CheckB (H : Commit) (b : Bundle) : Prop :=
  (OMap.keys b.known).Pairwise (fun x y => Key.lt x y = true) ∧
  ∀ e ∈ b.known, e.2.id H = e.1 ∧ e.1 ∈ OMap.vals b.inputMap ∧
    (OMap.keys e.2.assigns).Pairwise (fun x y => Key.lt x y = true) ∧
    (OMap.keys e.2.globals).Pairwise (fun x y => Key.lt x y = true) ∧ e.2.kind = .transition

noncomputable instance (H : Commit) (b : Bundle) : Decidable (CheckB H b) := by unfold CheckB; infer_instance

theorem CheckB.wf {H : Commit} {b : Bundle} (h : CheckB H b) : b.WF H where
  sorted := h.1
  keyed k t e := by
    have := h.2 _ (OMap.mem_of_get? e)
    exact ⟨this.1, this.2.2.1⟩
  spent k t e := (h.2 _ (OMap.mem_of_get? e)).2.1

theorem CheckB.proper {H : Commit} {b : Bundle} (h : CheckB H b) (t : Op) (ht : t ∈ OMap.vals b.known) :
    t.Proper ∧ t.kind = .transition := by
  simp only [OMap.vals, List.mem_map] at ht
  obtain ⟨e, he, rfl⟩ := ht
  have := h.2 e he
  exact ⟨⟨this.2.2.1, this.2.2.2.1⟩, this.2.2.2.2⟩

theorem b1_check : CheckB H b1 := by decide +kernel
theorem b2_check : CheckB H b2 := by decide +kernel

theorem conOf_proper {H : Commit} (exts : List Op) (he : ∀ e ∈ exts, e.Proper ∧ e.kind = .extension) (bs : List (PubWitness × Bundle))
    (hb : ∀ b ∈ bs, CheckB H b.2 ∧ b.2.closeMethod = .opretFirst) (r : Resolver) :
    StockEvent.Proper H (.consignment (conOf exts (bs.map (fun b => wb b.1 b.2))) r) := by
  have key : ∀ w ∈ (conOf exts (bs.map (fun b => wb b.1 b.2))).data.bundles, ∃ b ∈ bs, w = wb b.1 b.2 := by
    intro w hw
    simp only [conOf, List.mem_map] at hw
    obtain ⟨b, h1, h2⟩ := hw
    exact ⟨b, h1, h2.symm⟩
  refine ⟨⟨rfl, List.pairwise_singleton _ _, fun e h => (he e h).1.1, ?_⟩, ?_, ⟨List.pairwise_singleton _ _, List.pairwise_singleton _ _⟩, he, ?_⟩
  · intro w hw b' hb'
    obtain ⟨b, h1, rfl⟩ := key w hw
    simp only [wb, AnchoredBundles.bundles, AnchoredBundles.list, List.map_cons, List.map_nil, List.mem_singleton] at hb'
    subst hb'
    exact (hb b h1).1.wf
  · intro w hw
    obtain ⟨b, h1, rfl⟩ := key w hw
    exact (hb b h1).2
  · intro w hw b' hb' t ht
    obtain ⟨b, h1, rfl⟩ := key w hw
    simp only [wb, AnchoredBundles.bundles, AnchoredBundles.list, List.map_cons, List.map_nil, List.mem_singleton] at hb'
    subst hb'
    exact (hb b h1).1.proper t ht

theorem con_proper : StockEvent.Proper H (.consignment con r) :=
  conOf_proper [] (by simp) [(.tx ⟨61, 0⟩, b1)] (by intro b hb; simp only [List.mem_singleton] at hb; subst hb; exact ⟨b1_check, rfl⟩) r

theorem fasciaOf_proper {H : Commit} (txid : Nat) (b : Bundle) (hb : CheckB H b) : StockEvent.Proper H (.fascia (fasciaOf txid b) r) := by
  intro e he
  simp only [fasciaOf, List.mem_singleton] at he
  subst he
  exact ⟨hb.wf, hb.proper⟩

theorem fascia_proper : StockEvent.Proper H (.fascia fascia r) := fasciaOf_proper _ _ b2_check

theorem events_proper : ∀ e ∈ events, StockEvent.Proper H e := by
  intro e he
  simp only [events, List.mem_cons, List.not_mem_nil, or_false] at he
  rcases he with rfl | rfl
  · exact con_proper
  · exact fascia_proper

theorem G_sorted (d : SchemaDoc) : OMap.Sorted (G d).maxItems := List.pairwise_singleton _ _

theorem run_some : (runStock H I M G events .empty).isSome = true := by decide +kernel

/-- The stock after these events. -/
noncomputable def k : Stock := (runStock H I M G events .empty).get run_some

theorem k_reachable : k.Reachable H := ⟨I, M, G, events, G_sorted, events_proper, by simp [k]⟩

/-! For evaluating examples. -/

deriving instance DecidableEq for Except

instance (k : Stock) (o b : Nat) (t : Op) : Decidable (Stock.Knows k o b t) :=
  decidable_of_iff (OMap.get? k.index.opBundle o = some b ∧ (k.stash.bundle b).bind (fun x => OMap.get? x.known o) = some t)
    (by simp only [Stock.Knows, Option.bind_eq_some_iff])

/-- A stock with the given history which satisfies `P`. -/
theorem obtain (es : List StockEvent) (he : ∀ e ∈ es, StockEvent.Proper H e) (P : Stock → Prop) [DecidablePred P]
    (h : (runStock H I M G es .empty).any (fun k => decide (P k)) = true) : ∃ k : Stock, k.Reachable H ∧ P k := by
  cases e : runStock H I M G es .empty with
  | none => rw [e] at h; cases h
  | some k =>
    rw [e] at h
    exact ⟨k, ⟨I, M, G, es, G_sorted, he, e⟩, by simpa using h⟩

theorem any_ok {ε α : Type} {y : Option (Except ε α)} {P : α → Prop} [DecidablePred P]
    (h : (y.bind Except.toOption).any (fun a => decide (P a)) = true) : ∃ a, y = some (.ok a) ∧ P a := by
  cases y with
  | none => cases h
  | some y =>
    cases y with
    | error e => cases h
    | ok a => exact ⟨a, rfl, by simpa [Except.toOption] using h⟩

end Rgb.World
