import Verif.Lemmas.Indexed
import Verif.Spec.StockWorld

/-!
# C58: lookups in a consignment
-/

namespace Rgb.Props
open Rgb

/-- Looking up a bundle finds one exactly if the consignment has a bundle with this id; the bundle found has this id, and the anchor
found for it is the one it came with. -/
theorem C58_bundle (H : Commit) (I : Ids) (c : Consignment) (bid : Nat) :
    (bid ∈ (Indexed.new H I c).bundleIds ↔ ∃ (w : WitnessBundle) (a : ClientBundle), c.Holds w a ∧ a.bundle.id H = bid) ∧
    ((∃ b : Bundle, (Indexed.new H I c).bundle bid = some b) ↔ bid ∈ (Indexed.new H I c).bundleIds) ∧
    (∀ b : Bundle, (Indexed.new H I c).bundle bid = some b → b.id H = bid ∧
      ∃ (w : WitnessBundle) (a : ClientBundle), c.Holds w a ∧ a.bundle = b ∧ (Indexed.new H I c).anchor bid = some (w.id, a.anchor)) := by
  have hk : bid ∈ (Indexed.new H I c).bundleIds ↔ ((Indexed.new H I c).bundle bid).isSome = true := by
    rw [Indexed.bundleIds, Indexed.bundle, OMap.get?_isSome_iff]
  rcases Indexed.bundle_cases H I c bid with ⟨w, a, hh, hid, hb, ha⟩ | ⟨hb, ha, hn⟩
  · refine ⟨?_, ?_, ?_⟩
    · rw [hk, hb]; exact ⟨fun _ => ⟨w, a, hh, hid⟩, fun _ => rfl⟩
    · rw [hk, hb]; exact ⟨fun _ => rfl, fun _ => ⟨_, rfl⟩⟩
    · intro b h; rw [hb] at h; cases h; exact ⟨hid, w, a, hh, rfl, ha⟩
  · refine ⟨?_, ?_, ?_⟩
    · rw [hk, hb]; exact ⟨fun h => absurd h (by simp), fun ⟨w, a, h, he⟩ => absurd he (hn w a h)⟩
    · rw [hk, hb]; exact ⟨fun ⟨_, h⟩ => absurd h (by simp), fun h => absurd h (by simp)⟩
    · intro b h; rw [hb] at h; cases h

/-- The bundle found commits to the same as every bundle of the consignment with this id. -/
theorem C58_bundle_commits {H : Commit} (hH : H.Binding) (I : Ids) (c : Consignment) (w : WitnessBundle) (a : ClientBundle) (h : c.Holds w a) :
    ∃ b : Bundle, (Indexed.new H I c).bundle (a.bundle.id H) = some b ∧ b.closeMethod = a.bundle.closeMethod ∧
      b.inputMap = a.bundle.inputMap := by
  obtain ⟨h1, h2, h3⟩ := C58_bundle H I c (a.bundle.id H)
  obtain ⟨b, hb⟩ := h2.2 (h1.2 ⟨w, a, h, rfl⟩)
  exact ⟨b, hb, hH.bundle_inj _ _ _ _ (h3 b hb).1⟩

/-- A bundle is found with all it discloses if no other bundle has its id. -/
theorem C58_bundle_exact (H : Commit) (I : Ids) (c : Consignment) (w : WitnessBundle) (a : ClientBundle) (h : c.Holds w a)
    (hu : ∀ (w' : WitnessBundle) (a' : ClientBundle), c.Holds w' a' → a'.bundle.id H = a.bundle.id H → w' = w ∧ a' = a) :
    (Indexed.new H I c).bundle (a.bundle.id H) = some a.bundle ∧ (Indexed.new H I c).anchor (a.bundle.id H) = some (w.id, a.anchor) := by
  rcases Indexed.bundle_cases H I c (a.bundle.id H) with ⟨w', a', hh, hid, hb, ha⟩ | ⟨_, _, hn⟩
  · obtain ⟨rfl, rfl⟩ := hu w' a' hh hid; exact ⟨hb, ha⟩
  · exact absurd rfl (hn w a h)

/-- A public witness is found exactly if the consignment has one with this id, and what is found is from the consignment with this id. -/
theorem C58_witness (H : Commit) (I : Ids) (c : Consignment) (id : WitnessId) :
    ((∃ p : XPubWitness, (Indexed.new H I c).pubWitness id = some p) ↔ ∃ w ∈ c.data.bundles, w.id = id) ∧
    (∀ p : XPubWitness, (Indexed.new H I c).pubWitness id = some p → p.id = id ∧ ∃ w ∈ c.data.bundles, w.pub = p) := by
  rw [Indexed.pubWitness_eq]
  constructor
  · constructor
    · rintro ⟨p, hp⟩
      obtain ⟨w, hw, he⟩ := List.mem_map.1 (lastFor_mem hp)
      exact ⟨w, hw, congrArg Prod.fst he⟩
    · rintro ⟨w, hw, rfl⟩
      exact lastFor_exists (List.mem_map.2 ⟨w, hw, rfl⟩)
  · intro p hp
    obtain ⟨w, hw, he⟩ := List.mem_map.1 (lastFor_mem hp)
    cases he
    exact ⟨rfl, w, hw, rfl⟩

/-- The genesis is found by its id. -/
theorem C58_genesis (H : Commit) (I : Ids) (c : Consignment) :
    (Indexed.new H I c).operation H (c.data.genesis.id H) = some c.data.genesis := by
  simp [Indexed.operation, Indexed.new_eq]

/-- Only operations of the consignment are found. If known transitions are listed under their own ids, the operation found has the id it
was looked up by.

The full property has no such condition: see `C58_miskeyed_fails`. -/
theorem C58_operation_partial (H : Commit) (I : Ids) (c : Consignment) (opid : Nat) (op : Op)
    (h : (Indexed.new H I c).operation H opid = some op) : c.HasOp op ∧ (c.Keyed H → op.id H = opid) := by
  unfold Indexed.operation at h
  split at h
  · rename_i he
    have hg : (Indexed.new H I c).genesis = c.data.genesis := by rw [Indexed.new_eq]
    cases h
    rw [hg] at he ⊢
    exact ⟨.genesis rfl, fun _ => he.symm⟩
  · rw [Option.or_eq_some_iff] at h
    rcases h with h | ⟨_, h⟩
    · have := Indexed.transition_knows H I c h
      exact ⟨.transition _ this, fun k => k.own _ _ this⟩
    · rw [Indexed.extension_eq] at h
      obtain ⟨e, he, h⟩ := List.mem_map.1 (lastFor_mem h)
      cases h
      exact ⟨.extension he, fun _ => rfl⟩

/-- Every operation of the consignment is found by its id, if known transitions are listed under their own ids and bundles with the same id
disclose the same transitions.

The full property has no such conditions: see `C58_miskeyed_fails` and `C58_shadowed_fails`. -/
theorem C58_found_partial (H : Commit) (I : Ids) (c : Consignment) (hk : c.Keyed H) (hd : c.SameDisclosure H) (op : Op) (h : c.HasOp op) :
    ∃ op' : Op, (Indexed.new H I c).operation H (op.id H) = some op' ∧ op'.id H = op.id H := by
  have key : ∃ op' : Op, (Indexed.new H I c).operation H (op.id H) = some op' := by
    by_cases hg : op.id H = c.data.genesis.id H
    · rw [hg]; exact ⟨_, C58_genesis H I c⟩
    · have hg' : ¬ op.id H = (Indexed.new H I c).genesis.id H := by rw [Indexed.new_eq]; exact hg
      simp only [Indexed.operation, if_neg hg']
      cases h with
      | genesis h => exact absurd (by rw [h]) hg
      | extension h =>
        cases ht : (Indexed.new H I c).transition (op.id H) with
        | some t => exact ⟨t, rfl⟩
        | none =>
          rw [Option.none_or, Indexed.extension_eq]
          exact lastFor_exists (List.mem_map.2 ⟨op, h, rfl⟩)
      | transition opid h =>
        rw [hk.own _ _ h]
        obtain ⟨t, ht⟩ := Indexed.transition_found H I c hd h
        exact ⟨t, by rw [ht]; rfl⟩
  obtain ⟨op', h'⟩ := key
  exact ⟨op', h', (C58_operation_partial H I c _ _ h').2 hk⟩

/-- With collision-free ids what is found differs from the operation of the consignment only in what is disclosed, and not at all if
the consignment has it once.
Missing: as in `C58_found_partial`, see `C58_shadowed_fails` and `C58_miskeyed_fails`. -/
theorem C58_found_same_partial {H : Commit} (hH : H.Binding) (I : Ids) (c : Consignment) (hk : c.Keyed H) (hd : c.SameDisclosure H) (op : Op)
    (h : c.HasOp op) :
    ∃ op' : Op, (Indexed.new H I c).operation H (op.id H) = some op' ∧ c.HasOp op' ∧ op'.conceal H = op.conceal H ∧
      ((∀ o : Op, c.HasOp o → o.id H = op.id H → o = op) → op' = op) := by
  obtain ⟨op', h1, h2⟩ := C58_found_partial H I c hk hd op h
  have h3 := (C58_operation_partial H I c _ _ h1).1
  exact ⟨op', h1, h3, hH.op_inj _ _ h2, fun hu => hu op' h3 h2⟩

/-- The witness of an operation is found exactly if some bundle discloses the operation, and is the witness of such a bundle. -/
theorem C58_op_witness (H : Commit) (I : Ids) (c : Consignment) (opid : Nat) :
    ((∃ w : WitnessId, (Indexed.new H I c).opWitnessId opid = some w) ↔ ∃ op : Op, c.Knows opid op) ∧
    (∀ wid : WitnessId, (Indexed.new H I c).opWitnessId opid = some wid →
      ∃ (w : WitnessBundle) (a : ClientBundle) (op : Op), c.Holds w a ∧ w.id = wid ∧ (opid, op) ∈ a.bundle.known) := by
  rcases Indexed.op_cases H I c opid with ⟨w, a, hh, hm, _, hw⟩ | ⟨_, hw, hn⟩
  · obtain ⟨e, he, rfl⟩ := List.mem_map.1 hm
    rw [hw]
    refine ⟨⟨fun _ => ⟨e.2, w, a, hh, he⟩, fun _ => ⟨_, rfl⟩⟩, fun wid h => ?_⟩
    cases h
    exact ⟨w, a, e.2, hh, rfl, he⟩
  · rw [hw]
    refine ⟨⟨fun ⟨_, h⟩ => absurd h (by simp), fun ⟨op, w, a, hh, hm⟩ => absurd (List.mem_map.2 ⟨_, hm, rfl⟩) (hn w a hh)⟩, fun wid h => ?_⟩
    cases h

/-- If bundles have distinct ids, the transition found, its bundle, the anchor of the bundle and the witness of the transition are from the same
witness. -/
theorem C58_consistent (H : Commit) (I : Ids) (c : Consignment)
    (hu : ∀ (w w' : WitnessBundle) (a a' : ClientBundle), c.Holds w a → c.Holds w' a' → a.bundle.id H = a'.bundle.id H → w = w' ∧ a = a')
    (opid : Nat) (op : Op) (h : (Indexed.new H I c).transition opid = some op) :
    ∃ (w : WitnessBundle) (a : ClientBundle), c.Holds w a ∧ OMap.get? a.bundle.known opid = some op ∧
      (Indexed.new H I c).bundle (a.bundle.id H) = some a.bundle ∧ (Indexed.new H I c).anchor (a.bundle.id H) = some (w.id, a.anchor) ∧
      (Indexed.new H I c).opWitnessId opid = some w.id := by
  rcases Indexed.op_cases H I c opid with ⟨w, a, hh, hm, hb, hw⟩ | ⟨hb, _, _⟩
  · obtain ⟨h1, h2⟩ := C58_bundle_exact H I c w a hh (fun w' a' h' he => by
      obtain ⟨r1, r2⟩ := hu w w' a a' hh h' he.symm; exact ⟨r1.symm, r2.symm⟩)
    refine ⟨w, a, hh, ?_, h1, h2, hw⟩
    rw [Indexed.bundle] at h1
    simpa [Indexed.transition, hb, h1] using h
  · simp [Indexed.transition, hb] at h

/-- Libraries are found exactly by their ids. -/
theorem C58_script (H : Commit) (I : Ids) (c : Consignment) (hI : ∀ l ∈ c.scripts, ∀ l' ∈ c.scripts, I.lib l = I.lib l' → l = l') (id l : Nat) :
    (Indexed.new H I c).script id = some l ↔ l ∈ c.scripts ∧ I.lib l = id := by
  have he : (Indexed.new H I c).script id = lastFor id (c.scripts.map (fun l => (I.lib l, l))) := by
    rw [Indexed.script, Indexed.new_eq]; exact Indexed.get?_extend_nil _ _
  have hm : ∀ l', (Indexed.new H I c).script id = some l' → l' ∈ c.scripts ∧ I.lib l' = id := by
    intro l' h
    rw [he] at h
    obtain ⟨x, hx, hxe⟩ := List.mem_map.1 (lastFor_mem h)
    cases hxe; exact ⟨hx, rfl⟩
  refine ⟨hm l, fun ⟨h1, h2⟩ => ?_⟩
  subst h2
  obtain ⟨l', hl'⟩ := lastFor_exists (List.mem_map.2 ⟨l, h1, rfl⟩ : (I.lib l, l) ∈ c.scripts.map (fun l => (I.lib l, l)))
  rw [he, hl']
  have := hm l' (he.trans hl')
  rw [hI _ this.1 _ h1 this.2]

/-! ## Counterexamples and examples -/

/-- The bundle `b2` with `t2` disclosed and with `t3` disclosed. -/
def b2part1 : Bundle := ⟨.opretFirst, [(0, 4), (1, 6)], [(4, World.t2)]⟩
def b2part2 : Bundle := ⟨.opretFirst, [(0, 4), (1, 6)], [(6, World.t3)]⟩

/-- Two witnesses with the same bundle, each disclosing another transition. -/
def shadowCon : Consignment := World.conOf [] [World.wb (.tx ⟨62, 0⟩) b2part1, World.wb (.tx ⟨63, 0⟩) b2part2]

theorem shadowCon_keyed : shadowCon.Keyed World.H := by
  constructor
  · rintro opid op ⟨w, a, ⟨hw, ha⟩, hm⟩
    simp only [shadowCon, World.conOf, List.mem_cons, List.not_mem_nil, or_false] at hw
    rcases hw with rfl | rfl <;> simp only [World.wb, AnchoredBundles.list, List.mem_singleton] at ha <;> subst ha <;>
      simp only [b2part1, b2part2, List.mem_singleton, Prod.mk.injEq] at hm <;> obtain ⟨rfl, rfl⟩ := hm <;> decide +kernel
  · rintro w a ⟨hw, ha⟩
    simp only [shadowCon, World.conOf, List.mem_cons, List.not_mem_nil, or_false] at hw
    rcases hw with rfl | rfl <;> simp only [World.wb, AnchoredBundles.list, List.mem_singleton] at ha <;> subst ha <;>
      exact List.pairwise_singleton _ _

/-- A transition disclosed in a bundle isn't found if a later witness has the same bundle not disclosing it: lookups return nothing
although `op_witness_id` says that the transition is there. -/
theorem C58_shadowed_fails : ¬ ∀ (H : Commit) (I : Ids) (c : Consignment) (op : Op), H.Binding → c.Keyed H → c.HasOp op →
    ∃ op' : Op, (Indexed.new H I c).operation H (op.id H) = some op' := by
  intro h
  obtain ⟨op', ho⟩ := h World.H World.I shadowCon World.t2 World.H_binding shadowCon_keyed
    (.transition 4 ⟨World.wb (.tx ⟨62, 0⟩) b2part1, ⟨7, ⟨.opretFirst, 0⟩, b2part1⟩, ⟨.head _, .head _⟩, .head _⟩)
  have : (Indexed.new World.H World.I shadowCon).operation World.H (World.t2.id World.H) = none := by decide +kernel
  rw [this] at ho; cases ho

example : (Indexed.new World.H World.I shadowCon).opWitnessId 4 = some ⟨.bitcoin, 62⟩ ∧
    (Indexed.new World.H World.I shadowCon).anchor 2 = some (⟨.bitcoin, 63⟩, ⟨7, ⟨.opretFirst, 0⟩⟩) ∧
    (Indexed.new World.H World.I shadowCon).operation World.H 6 = some World.t3 := by decide +kernel

/-- `t3` listed under the id of `t2`. -/
def miskeyedCon : Consignment := World.conOf [] [World.wb (.tx ⟨62, 0⟩) ⟨.opretFirst, [(0, 4), (1, 6)], [(4, World.t3)]⟩]

/-- Ids under which a bundle lists transitions are taken for granted: looking up by an id may return a transition with a different id, and a
transition may be not found by its id. -/
theorem C58_miskeyed_fails :
    (¬ ∀ (H : Commit) (I : Ids) (c : Consignment) (opid : Nat) (op : Op), H.Binding → c.SameDisclosure H →
      (Indexed.new H I c).operation H opid = some op → op.id H = opid) ∧
    (¬ ∀ (H : Commit) (I : Ids) (c : Consignment) (op : Op), H.Binding → c.SameDisclosure H → c.HasOp op →
      ∃ op' : Op, (Indexed.new H I c).operation H (op.id H) = some op') := by
  have hs : miskeyedCon.SameDisclosure World.H := by
    rintro w w' a a' ⟨hw, ha⟩ ⟨hw', ha'⟩ _
    simp only [miskeyedCon, World.conOf, List.mem_cons, List.not_mem_nil, or_false] at hw hw'
    subst hw hw'
    simp only [World.wb, AnchoredBundles.list, List.mem_singleton] at ha ha'
    rw [ha, ha']
  constructor
  · intro h
    exact absurd (h World.H World.I miskeyedCon 4 World.t3 World.H_binding hs (by decide +kernel)) (by decide +kernel)
  · intro h
    obtain ⟨op', ho⟩ := h World.H World.I miskeyedCon World.t3 World.H_binding hs
      (.transition 4 ⟨_, _, ⟨.head _, .head _⟩, .head _⟩)
    have : (Indexed.new World.H World.I miskeyedCon).operation World.H (World.t3.id World.H) = none := by decide +kernel
    rw [this] at ho; cases ho

/-- A consignment with an extension and two bundles meets the conditions of the theorems. -/
def fullCon : Consignment := World.conOf [World.x] [World.wb (.tx ⟨61, 0⟩) World.b1, World.wb (.tx ⟨62, 0⟩) World.b2]

theorem fullCon_holds {w : WitnessBundle} {a : ClientBundle} (h : fullCon.Holds w a) :
    (w = World.wb (.tx ⟨61, 0⟩) World.b1 ∧ a = ⟨7, ⟨.opretFirst, 0⟩, World.b1⟩) ∨
    (w = World.wb (.tx ⟨62, 0⟩) World.b2 ∧ a = ⟨7, ⟨.opretFirst, 0⟩, World.b2⟩) := by
  obtain ⟨hw, ha⟩ := h
  simp only [fullCon, World.conOf, List.mem_cons, List.not_mem_nil, or_false] at hw
  rcases hw with rfl | rfl <;> simp only [World.wb, AnchoredBundles.list, List.mem_singleton] at ha <;> subst ha
  · exact .inl ⟨rfl, rfl⟩
  · exact .inr ⟨rfl, rfl⟩

theorem fullCon_distinct (w w' : WitnessBundle) (a a' : ClientBundle) (h : fullCon.Holds w a) (h' : fullCon.Holds w' a')
    (he : a.bundle.id World.H = a'.bundle.id World.H) : w = w' ∧ a = a' := by
  have h1 : World.b1.id World.H ≠ World.b2.id World.H := by decide +kernel
  rcases fullCon_holds h with ⟨rfl, rfl⟩ | ⟨rfl, rfl⟩ <;> rcases fullCon_holds h' with ⟨rfl, rfl⟩ | ⟨rfl, rfl⟩
  · exact ⟨rfl, rfl⟩
  · exact absurd he h1
  · exact absurd he.symm h1
  · exact ⟨rfl, rfl⟩

example : fullCon.SameDisclosure World.H := fun w w' a a' h h' he => by rw [(fullCon_distinct w w' a a' h h' he).2]

example : fullCon.Keyed World.H where
  own := by
    rintro opid op ⟨w, a, hh, hm⟩
    rcases fullCon_holds hh with ⟨rfl, rfl⟩ | ⟨rfl, rfl⟩
    · exact (World.b1_check.2 _ hm).1
    · exact (World.b2_check.2 _ hm).1
  sorted := by
    intro w a hh
    rcases fullCon_holds hh with ⟨rfl, rfl⟩ | ⟨rfl, rfl⟩
    · exact World.b1_check.1
    · exact World.b2_check.1

example : [0, 2, 4, 6, 8, 10].map ((Indexed.new World.H World.I fullCon).operation World.H) =
    [some World.g, some World.t1, some World.t2, some World.t3, some World.x, none] := by decide +kernel
example : (Indexed.new World.H World.I fullCon).bundleIds = [0, 2] ∧ (Indexed.new World.H World.I fullCon).script 35 = some 5 ∧
    (Indexed.new World.H World.I fullCon).pubWitness ⟨.bitcoin, 62⟩ = some ⟨.bitcoin, .tx ⟨62, 0⟩⟩ := by decide +kernel

end Rgb.Props
