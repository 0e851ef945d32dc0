import Verif.Lemmas.Compare
import Verif.Spec.StockWorld

/-! C106: equal containers have equal contents, and comparisons are lawful. -/

namespace Rgb.Props
open Rgb

/-- **C106** (witnesses). Witness transactions, and the entries of consignments which hold them, are compared by the id of the transaction and by its
chain: equality is an equivalence, and the order is a total one which agrees with it. -/
theorem C106_witness :
    (EqLaws PubWitness.eq ∧ OrdLaws PubWitness.eq PubWitness.cmp ∧ ∀ a b, PubWitness.eq a b = true ↔ a.id = b.id) ∧
    (EqLaws XPubWitness.eq ∧ OrdLaws XPubWitness.eq XPubWitness.cmp ∧ ∀ a b, XPubWitness.eq a b = true ↔ a.id = b.id) ∧
    (EqLaws WitnessBundle.eq ∧ OrdLaws WitnessBundle.eq WitnessBundle.cmp ∧ ∀ a b, WitnessBundle.eq a b = true ↔ a.id = b.id) := by
  have e : XPubWitness.eq = fun a b => decide (XPubWitness.id a = XPubWitness.id b) := by funext a b; exact XPubWitness.eq_id a b
  have c : XPubWitness.cmp = fun a b => Key.cmp (XPubWitness.id a) (XPubWitness.id b) := by funext a b; exact XPubWitness.cmp_id a b
  have e' : WitnessBundle.eq = fun a b => decide (WitnessBundle.id a = WitnessBundle.id b) := by funext a b; exact XPubWitness.eq_id _ _
  have c' : WitnessBundle.cmp = fun a b => Key.cmp (WitnessBundle.id a) (WitnessBundle.id b) := by funext a b; exact XPubWitness.cmp_id _ _
  refine ⟨⟨EqLaws.comap PubWitness.id, OrdLaws.comap PubWitness.id, fun a b => by simp [PubWitness.eq]⟩, ?_, ?_⟩
  · rw [e, c]
    exact ⟨EqLaws.comap _, OrdLaws.comap _, fun a b => by simp⟩
  · rw [e', c']
    exact ⟨EqLaws.comap _, OrdLaws.comap _, fun a b => by simp⟩

/-- **C106** (transitions and interfaces). Transitions of a batch are compared, ordered and hashed by the id they were made with, and interfaces by
their id: equality is an equivalence, the order is a total one which agrees with it, and what is equal has the same hash. -/
theorem C106_ids (id : Iface → Nat) :
    (EqLaws TransitionInfo.eq ∧ OrdLaws TransitionInfo.eq TransitionInfo.cmp ∧ HashLaw TransitionInfo.eq TransitionInfo.fed) ∧
    (EqLaws (Iface.eq id) ∧ OrdLaws (Iface.eq id) (Iface.cmp id) ∧ HashLaw (Iface.eq id) (Iface.fed id)) ∧
    (∀ (H : Commit) (t u : BuiltTransition) (s s' : List OutSeal) (i j : TransitionInfo), TransitionInfo.new H t s = .ok i →
      TransitionInfo.new H u s' = .ok j → (i.eq j = true ↔ t.op.id H = u.op.id H)) ∧
    (∀ a b, Iface.eq id a b = true ↔ id a = id b) := by
  refine ⟨⟨EqLaws.comap TransitionInfo.id, OrdLaws.comap TransitionInfo.id, fun a b h => by simpa [TransitionInfo.eq, TransitionInfo.fed] using h⟩,
    ⟨EqLaws.comap id, OrdLaws.comap id, fun a b h => by simpa [Iface.eq, Iface.fed] using h⟩, ?_, fun a b => by simp [Iface.eq]⟩
  have key : ∀ (H : Commit) (t : BuiltTransition) (s : List OutSeal) (i : TransitionInfo), TransitionInfo.new H t s = .ok i → i.id = t.op.id H := by
    intro H t s i h
    cases s with
    | nil => simp [TransitionInfo.new] at h
    | cons a s =>
      simp only [TransitionInfo.new, bind, Except.bind] at h
      split at h
      · simp at h
      · split at h
        · simp at h
        · cases h; rfl
  intro H t u s s' i j hi hj
  simp [TransitionInfo.eq, key H t s i hi, key H u s' j hj]

/-- Two transitions which the same seal closes. -/
def cmpSeal : OutSeal := ⟨.bitcoin, .tapretFirst, 5, 0⟩

example : ∃ (H : Commit) (i j : TransitionInfo),
    TransitionInfo.new H ⟨{ kind := .transition, nonce := 1 }, []⟩ [cmpSeal] = .ok i ∧
    TransitionInfo.new H ⟨{ kind := .transition, nonce := 2 }, []⟩ [cmpSeal] = .ok j ∧ i ≠ j :=
  ⟨World.H, _, _, rfl, rfl, fun h => absurd (congrArg (fun i => i.transition.op.nonce) h) (by decide)⟩

/-- **C106** (batches). Comparing batches is an equivalence. Two batches are equal exactly if they have the same transitions, by their ids, at the same
places. -/
theorem C106_batch (a b : Batch) : EqLaws Batch.eq ∧
    (a.eq b = true ↔ a.main.map TransitionInfo.id = b.main.map TransitionInfo.id ∧
      a.blanks.map (Dichotomy.map TransitionInfo.id) = b.blanks.map (Dichotomy.map TransitionInfo.id)) := by
  have hT : EqLaws TransitionInfo.eq := EqLaws.comap TransitionInfo.id
  have hD := hT.dichotomy
  have hd : ∀ x y : Dichotomy TransitionInfo, Dichotomy.eq TransitionInfo.eq x y = decide (x.map TransitionInfo.id = y.map TransitionInfo.id) := by
    rintro ⟨x, x'⟩ ⟨y, y'⟩
    cases x' <;> cases y' <;> simp [Dichotomy.eq, Dichotomy.map, TransitionInfo.eq, optEq, Bool.decide_and]
  constructor
  · constructor
    · intro a; simp [Batch.eq, hD.refl, hD.seq.refl]
    · intro a b h
      simp only [Batch.eq, Bool.and_eq_true] at h ⊢
      exact ⟨hD.symm _ _ h.1, hD.seq.symm _ _ h.2⟩
    · intro a b c h h'
      simp only [Batch.eq, Bool.and_eq_true] at h h' ⊢
      exact ⟨hD.trans _ _ _ h.1 h'.1, hD.seq.trans _ _ _ h.2 h'.2⟩
  · have : Dichotomy.eq TransitionInfo.eq = fun x y => decide (Dichotomy.map TransitionInfo.id x = Dichotomy.map TransitionInfo.id y) := by
      funext x y; exact hd x y
    simp only [Batch.eq, Bool.and_eq_true, this, seqEq_comap, decide_eq_true_eq]

/-- **C106** (priority). Setting the priority of a batch changes its operations, and the batch still compares equal to what it was. -/
theorem C106_priority_fails : ¬ ∀ a b : Batch, a.eq b = true → a.toList.map (fun i => i.transition) = b.toList.map (fun i => i.transition) := by
  intro h
  have := h ⟨⟨⟨7, [], ⟨{ kind := .transition }, []⟩, .tapretFirst⟩, none⟩, []⟩
    (Batch.setPriority 3 ⟨⟨⟨7, [], ⟨{ kind := .transition }, []⟩, .tapretFirst⟩, none⟩, []⟩) (by decide)
  exact absurd this (by decide)

/-- **C106** (allocations). Allocations are compared by the output of the operation they come from and by the seal: equality is an equivalence and
the order is a total one which agrees with it. Missing: hashes, see `C106_alloc_fails`. -/
theorem C106_alloc_partial : EqLaws OutAssign.eq ∧ OrdLaws OutAssign.eq OutAssign.cmp ∧
    ∀ a b, OutAssign.eq a b = true ↔ a.opout = b.opout ∧ a.sl = b.sl := by
  have e : OutAssign.eq = fun a b => decide (OutAssign.cmpKey a = OutAssign.cmpKey b) := by funext a b; exact OutAssign.eq_key a b
  have c : OutAssign.cmp = fun a b => Key.cmp (OutAssign.cmpKey a) (OutAssign.cmpKey b) := by funext a b; exact OutAssign.cmp_key a b
  refine ⟨?_, ?_, fun a b => by simp [OutAssign.eq]⟩
  · rw [e]; exact EqLaws.comap _
  · rw [e, c]; exact OrdLaws.comap _

/-- **C106** (allocations). `Hash` of allocations is derived, and looks at the state and the witness, which equality ignores: the same allocation seen
before and after its transaction has a witness are equal, and feed different things to the hasher. -/
theorem C106_alloc_fails : ¬ HashLaw OutAssign.eq OutAssign.fed := by
  intro h
  exact absurd (h ⟨⟨1, 2, 0⟩, cmpSeal, .void, none⟩ ⟨⟨1, 2, 0⟩, cmpSeal, .void, some ⟨.bitcoin, 9⟩⟩ (by decide)) (by decide)

/-- **C106** (implementations). Comparing an implementation to itself finds it equal, and the order of the two doesn't matter. What is equal agrees on
the version, schema, interface, time and developer, and binds as many fields of each kind. Missing: see `C106_impl_fails`. -/
theorem C106_impl_partial (a b : IfaceImpl) : a.eq a = true ∧ a.eq b = b.eq a ∧
    (a.eq b = true → a.version = b.version ∧ a.schemaId = b.schemaId ∧ a.ifaceId = b.ifaceId ∧ a.timestamp = b.timestamp ∧ a.developer = b.developer ∧
      ([a.metadata, a.globalState, a.assignments, a.valencies, a.transitions, a.extensions, a.errors].map List.length =
        [b.metadata, b.globalState, b.assignments, b.valencies, b.transitions, b.extensions, b.errors].map List.length)) := by
  have hr : ∀ f, NamedField.eq f f = true := fun f => by simp [NamedField.eq]
  have hs : ∀ f g, NamedField.eq f g = NamedField.eq g f := fun f g => by simp only [NamedField.eq, eq_comm]
  have hss : ∀ l m, seqEq NamedField.eq l m = seqEq NamedField.eq m l := by
    intro l
    induction l with
    | nil => intro m; cases m <;> rfl
    | cons x l ih => intro m; cases m <;> simp [seqEq, hs x, ih]
  have hl : ∀ l m, seqEq NamedField.eq l m = true → l.length = m.length := by
    intro l
    induction l with
    | nil => intro m; cases m <;> simp [seqEq]
    | cons x l ih =>
      intro m h
      cases m with
      | nil => simp [seqEq] at h
      | cons y m =>
        simp only [seqEq, Bool.and_eq_true] at h
        simp [ih m h.2]
  refine ⟨by simp [IfaceImpl.eq, seqEq_refl hr], ?_, ?_⟩
  · simp only [IfaceImpl.eq, hss a.metadata, hss a.globalState, hss a.assignments, hss a.valencies, hss a.transitions, hss a.extensions, hss a.errors,
      eq_comm (a := a.version), eq_comm (a := a.schemaId), eq_comm (a := a.ifaceId), eq_comm (a := a.timestamp), eq_comm (a := a.developer)]
  · intro h
    simp only [IfaceImpl.eq, Bool.and_eq_true, decide_eq_true_eq] at h
    obtain ⟨⟨⟨⟨⟨⟨⟨⟨⟨⟨⟨h1, h2⟩, h3⟩, h4⟩, h5⟩, h6⟩, h7⟩, h8⟩, h9⟩, h10⟩, h11⟩, h12⟩ := h
    exact ⟨h1, h2, h3, h4, h12, by simp [hl _ _ h5, hl _ _ h6, hl _ _ h7, hl _ _ h8, hl _ _ h9, hl _ _ h10, hl _ _ h11]⟩

/-- An implementation which binds one field. -/
def cmpImpl (id name : Nat) : IfaceImpl := { schemaId := 1, ifaceId := 2, globalState := [⟨id, name, 0⟩] }

/-- **C106** (implementations). Fields of implementations are equal if their numbers or their names are. This is no equivalence, it disagrees with
the order, and an implementation compares equal to one which binds the same name to another type. -/
theorem C106_impl_fails : ¬ EqLaws IfaceImpl.eq ∧ ¬ EqLaws NamedField.eq ∧ ¬ OrdLaws NamedField.eq NamedField.cmp ∧
    ∃ a b : IfaceImpl, a.eq b = true ∧ ∃ name, typeByName a.globalState name ≠ typeByName b.globalState name := by
  refine ⟨fun h => ?_, fun h => ?_, fun h => ?_, cmpImpl 1 5, cmpImpl 2 5, by decide, 5, by decide⟩
  · exact absurd (h.trans (cmpImpl 1 5) (cmpImpl 1 6) (cmpImpl 2 6) (by decide) (by decide)) (by decide)
  · exact absurd (h.trans ⟨1, 5, 0⟩ ⟨1, 6, 0⟩ ⟨2, 6, 0⟩ (by decide) (by decide)) (by decide)
  · exact absurd ((h.same ⟨1, 5, 0⟩ ⟨1, 6, 0⟩).2 (by decide)) (by decide)

/-- **C106** (laws). If comparing the parts is an equivalence, so is comparing consignments, kits and fascias. -/
theorem C106_laws {E : Eqs} (hE : E.Lawful) : EqLaws (ConsignmentFile.eq E) ∧ EqLaws (KitFile.eq E) ∧ EqLaws (Stock.Fascia.eq E) := by
  have hw : EqLaws WitnessBundle.eq := C106_witness.2.2.1
  have hx : EqLaws XPubWitness.eq := C106_witness.2.1.1
  have hp := (hE.iface.pair hE.impl).seq
  have hb := ((EqLaws.comap (fun x : Nat => x)).pair hE.bundle).seq
  refine ⟨⟨?_, ?_, ?_⟩, ⟨?_, ?_, ?_⟩, ⟨?_, ?_, ?_⟩⟩
  · intro a
    simp [ConsignmentFile.eq, hE.op.refl, hE.op.seq.refl, hw.seq.refl, hE.schema.refl, hp.refl, hE.suppl.seq.refl, hE.types.refl, hE.lib.seq.refl]
  · intro a b h
    simp only [ConsignmentFile.eq, Bool.and_eq_true, decide_eq_true_eq] at h ⊢
    obtain ⟨⟨⟨⟨⟨⟨⟨⟨⟨⟨⟨⟨h1, h2⟩, h3⟩, h4⟩, h5⟩, h6⟩, h7⟩, h8⟩, h9⟩, h10⟩, h11⟩, h12⟩, h13⟩ := h
    exact ⟨⟨⟨⟨⟨⟨⟨⟨⟨⟨⟨⟨h1.symm, h2.symm⟩, h3.symm⟩, hE.op.symm _ _ h4⟩, hE.op.seq.symm _ _ h5⟩, hw.seq.symm _ _ h6⟩, hE.schema.symm _ _ h7⟩,
      hp.symm _ _ h8⟩, hE.suppl.seq.symm _ _ h9⟩, hE.types.symm _ _ h10⟩, hE.lib.seq.symm _ _ h11⟩, h12.symm⟩, h13.symm⟩
  · intro a b c h h'
    simp only [ConsignmentFile.eq, Bool.and_eq_true, decide_eq_true_eq] at h h' ⊢
    obtain ⟨⟨⟨⟨⟨⟨⟨⟨⟨⟨⟨⟨h1, h2⟩, h3⟩, h4⟩, h5⟩, h6⟩, h7⟩, h8⟩, h9⟩, h10⟩, h11⟩, h12⟩, h13⟩ := h
    obtain ⟨⟨⟨⟨⟨⟨⟨⟨⟨⟨⟨⟨k1, k2⟩, k3⟩, k4⟩, k5⟩, k6⟩, k7⟩, k8⟩, k9⟩, k10⟩, k11⟩, k12⟩, k13⟩ := h'
    exact ⟨⟨⟨⟨⟨⟨⟨⟨⟨⟨⟨⟨h1.trans k1, h2.trans k2⟩, h3.trans k3⟩, hE.op.trans _ _ _ h4 k4⟩, hE.op.seq.trans _ _ _ h5 k5⟩, hw.seq.trans _ _ _ h6 k6⟩,
      hE.schema.trans _ _ _ h7 k7⟩, hp.trans _ _ _ h8 k8⟩, hE.suppl.seq.trans _ _ _ h9 k9⟩, hE.types.trans _ _ _ h10 k10⟩,
      hE.lib.seq.trans _ _ _ h11 k11⟩, h12.trans k12⟩, h13.trans k13⟩
  · intro a
    simp [KitFile.eq, hE.iface.seq.refl, hE.schema.seq.refl, hE.impl.seq.refl, hE.suppl.seq.refl, hE.types.refl, hE.lib.seq.refl]
  · intro a b h
    simp only [KitFile.eq, Bool.and_eq_true, decide_eq_true_eq] at h ⊢
    obtain ⟨⟨⟨⟨⟨⟨⟨h1, h2⟩, h3⟩, h4⟩, h5⟩, h6⟩, h7⟩, h8⟩ := h
    exact ⟨⟨⟨⟨⟨⟨⟨h1.symm, hE.iface.seq.symm _ _ h2⟩, hE.schema.seq.symm _ _ h3⟩, hE.impl.seq.symm _ _ h4⟩, hE.suppl.seq.symm _ _ h5⟩,
      hE.types.symm _ _ h6⟩, hE.lib.seq.symm _ _ h7⟩, h8.symm⟩
  · intro a b c h h'
    simp only [KitFile.eq, Bool.and_eq_true, decide_eq_true_eq] at h h' ⊢
    obtain ⟨⟨⟨⟨⟨⟨⟨h1, h2⟩, h3⟩, h4⟩, h5⟩, h6⟩, h7⟩, h8⟩ := h
    obtain ⟨⟨⟨⟨⟨⟨⟨k1, k2⟩, k3⟩, k4⟩, k5⟩, k6⟩, k7⟩, k8⟩ := h'
    exact ⟨⟨⟨⟨⟨⟨⟨h1.trans k1, hE.iface.seq.trans _ _ _ h2 k2⟩, hE.schema.seq.trans _ _ _ h3 k3⟩, hE.impl.seq.trans _ _ _ h4 k4⟩,
      hE.suppl.seq.trans _ _ _ h5 k5⟩, hE.types.trans _ _ _ h6 k6⟩, hE.lib.seq.trans _ _ _ h7 k7⟩, h8.trans k8⟩
  · intro a
    simp [Stock.Fascia.eq, hx.refl, hE.anchor.refl, hb.refl]
  · intro a b h
    simp only [Stock.Fascia.eq, Bool.and_eq_true] at h ⊢
    exact ⟨⟨hx.symm _ _ h.1.1, hE.anchor.symm _ _ h.1.2⟩, hb.symm _ _ h.2⟩
  · intro a b c h h'
    simp only [Stock.Fascia.eq, Bool.and_eq_true] at h h' ⊢
    exact ⟨⟨hx.trans _ _ _ h.1.1 h'.1.1, hE.anchor.trans _ _ _ h.1.2 h'.1.2⟩, hb.trans _ _ _ h.2 h'.2⟩

/-- **C106** (kits). If comparing the parts is exact, two kits are equal exactly if they are the same. -/
theorem C106_kit {E : Eqs} (hE : E.Exact) : Exact (KitFile.eq E) := by
  intro a b
  obtain ⟨v, ⟨a1, a2, a3, a4, a5, a6, a7⟩⟩ := a
  obtain ⟨v', ⟨b1, b2, b3, b4, b5, b6, b7⟩⟩ := b
  simp only [KitFile.eq, Bool.and_eq_true, decide_eq_true_eq, seqEq_exact hE.iface a1 b1, seqEq_exact hE.schema a2 b2, seqEq_exact hE.impl a3 b3,
    seqEq_exact hE.suppl a4 b4, hE.types a5 b5, seqEq_exact hE.lib a6 b6, KitFile.mk.injEq, Kit.mk.injEq]
  tauto

/-- **C106** (consignments and fascias). If comparing the parts is exact, two consignments are equal exactly if they are the same up to what is under
their witnesses and up to whether the transactions are there, and two fascias exactly if they are the same up to whether the transaction is there.
Missing: see `C106_history_fails`. -/
theorem C106_contents_partial {E : Eqs} (hE : E.Exact) :
    (∀ a b : ConsignmentFile, a.eq E b = true ↔ a.SameBut b) ∧
    (∀ a b : Stock.Fascia, a.eq E b = true ↔ a.witness.id = b.witness.id ∧ a.anchor = b.anchor ∧ a.bundles = b.bundles) := by
  have hp := seqEq_exact (pairEq_exact hE.iface hE.impl)
  have hn : Exact (fun x y : Nat => decide (x = y)) := fun x y => by simp
  have hb := seqEq_exact (pairEq_exact hn hE.bundle)
  constructor
  · intro a b
    simp only [ConsignmentFile.eq, Bool.and_eq_true, decide_eq_true_eq, hE.op _ _, seqEq_exact hE.op _ _, WitnessBundle.seqEq_ids, hE.schema _ _,
      hp _ _, seqEq_exact hE.suppl _ _, hE.types _ _, seqEq_exact hE.lib _ _]
    constructor
    · rintro ⟨⟨⟨⟨⟨⟨⟨⟨⟨⟨⟨⟨h1, h2⟩, h3⟩, h4⟩, h5⟩, h6⟩, h7⟩, h8⟩, h9⟩, h10⟩, h11⟩, h12⟩, h13⟩
      exact ⟨h1, h2, h3, h4, h5, h6, h7, h8, h9, h10, h11, h12, h13⟩
    · rintro ⟨h1, h2, h3, h4, h5, h6, h7, h8, h9, h10, h11, h12, h13⟩
      exact ⟨⟨⟨⟨⟨⟨⟨⟨⟨⟨⟨⟨h1, h2⟩, h3⟩, h4⟩, h5⟩, h6⟩, h7⟩, h8⟩, h9⟩, h10⟩, h11⟩, h12⟩, h13⟩
  · intro a b
    simp only [Stock.Fascia.eq, Bool.and_eq_true, XPubWitness.eq_id, decide_eq_true_eq, hE.anchor _ _, hb _ _]
    tauto

/-- Comparisons which find equal what is the same. -/
def exactEqs : Eqs where
  op a b := decide (a = b)
  schema a b := decide (a = b)
  iface a b := decide (a = b)
  impl a b := decide (a = b)
  suppl a b := decide (a = b)
  types a b := decide (a = b)
  lib a b := decide (a = b)
  bundle a b := decide (a = b)
  anchor a b := decide (a = b)

theorem exactEqs_exact : exactEqs.Exact := by constructor <;> (intro a b; simp [exactEqs])

theorem exactEqs_lawful : exactEqs.Lawful := by
  constructor <;> exact ⟨fun _ => by simp [exactEqs], fun _ _ h => by simp [exactEqs] at h ⊢; exact h.symm,
    fun _ _ _ h h' => by simp [exactEqs] at h h' ⊢; exact h.trans h'⟩

example : ∃ E : Eqs, E.Exact ∧ E.Lawful := ⟨exactEqs, exactEqs_exact, exactEqs_lawful⟩

/-- A consignment with one witness, under which there is the given bundle. -/
def cmpCon (b : Bundle) : ConsignmentFile :=
  ⟨2, true, { data := ⟨{ kind := .genesis }, [], [⟨⟨.bitcoin, .txid 9⟩, .tapret ⟨0, ⟨.tapretFirst, 0⟩, b⟩⟩]⟩, schema := ⟨1⟩ }⟩

/-- A bundle with the operation, and one where it is hidden. -/
def cmpBundle : Bundle := ⟨.tapretFirst, [(0, 4)], [(4, { kind := .transition })]⟩
def cmpHidden : Bundle := ⟨.tapretFirst, [(0, 4)], []⟩

/-- **C106** (history). Two consignments which compare equal may have different operations under the same witnesses, however their other parts are
compared: one has the history, and the other doesn't. Their ids differ. -/
theorem C106_history_fails (E : Eqs) (hE : E.Lawful) : ∃ a b : ConsignmentFile, a.eq E b = true ∧
    a.body.data.bundles.flatMap (fun w => w.anchored.bundles.flatMap (fun x => OMap.vals x.known)) ≠
      b.body.data.bundles.flatMap (fun w => w.anchored.bundles.flatMap (fun x => OMap.vals x.known)) ∧
    ∀ (H : Commit) (I : Ids) (D : CIds) (hash : ConCommitted → Nat), Function.Injective hash → Function.Injective D.witnessBundle →
      a.id H I D hash ≠ b.id H I D hash := by
  refine ⟨cmpCon cmpBundle, cmpCon cmpHidden, ?_, by decide, ?_⟩
  · have hp := (hE.iface.pair hE.impl).seq
    simp [ConsignmentFile.eq, cmpCon, hE.op.refl, hE.op.seq.refl, hE.schema.refl, hE.types.refl, seqEq, WitnessBundle.eq, XPubWitness.eq, PubWitness.eq]
  · intro H I D hash hh hD h
    have h := congrArg ConCommitted.bundles (hh h)
    have h : OSet.insert [] (D.witnessBundle _) = OSet.insert [] (D.witnessBundle _) := h
    have h := hD (List.cons.inj (show [_] = [_] from h)).1
    exact absurd h (by decide)

end Rgb.Props
