import Verif.Lemmas.IfaceFit

/-!
# Interfaces: C47 – C53, C63

The identifier of an interface is a hash of it, an arbitrary function `hid` here: the theorems hold for each.
-/

namespace Rgb.Props

open Rgb

/-! ### Examples used below -/

/-- A named asset: a typed and required global state 1, an owner's assignment 1 of any kind, a transition 1 which moves it. -/
def namedAsset : Iface where
  name := 100
  metadata := [(1, 10)]
  globalState := [(1, .mk' (some 7) .required)]
  assignments := [(1, .mk' false .any .required)]
  valencies := [(1, false)]
  genesis := { modifier := .abstract, globals := [(1, ⟨1, 0⟩)], assignments := [(1, ⟨1, 0⟩)] }
  transitions := [(1, { modifier := .abstract, inputs := [(1, ⟨1, 0⟩)], assignments := [(1, ⟨1, 0⟩)], defaultAssignment := some 1 })]
  defaultOperation := some 1
  errors := [(5, 50)]

/-- A fungible asset: the owned state is an amount, there may be many of them; a public global state 2 with the supply. -/
def fungibleAsset : Iface where
  name := 101
  globalState := [(2, .mk' none .oneOrMore)]
  assignments := [(1, .mk' false .amount .oneOrMore)]
  genesis := { modifier := .override, globals := [(2, ⟨1, 0⟩)], assignments := [(1, ⟨2, 0⟩)] }
  transitions := [(1, { modifier := .final, inputs := [(1, ⟨1, 0⟩)], assignments := [(1, ⟨1, 1⟩)] })]
  errors := [(6, 60)]

/-- An asset which may be burned, by the same right. -/
def burnableAsset : Iface where
  name := 102
  assignments := [(2, .mk' true .rights .optional)]
  genesis := { modifier := .final }
  transitions := [(1, { modifier := .override, inputs := [(1, ⟨2, 0⟩)] }), (2, { modifier := .final, inputs := [(2, ⟨1, 0⟩)] })]

/-- What the two give together: the interface 200. -/
def tokenIface : Iface where
  name := 200
  inherits := [100, 101]
  metadata := [(1, 10)]
  globalState := [(1, .mk' (some 7) .required), (2, .mk' none .oneOrMore)]
  assignments := [(1, .mk' false .amount .oneOrMore)]
  valencies := [(1, false)]
  genesis := { modifier := .abstract, globals := [(1, ⟨1, 0⟩), (2, ⟨1, 0⟩)], assignments := [(1, ⟨2, 0⟩)] }
  transitions := [(1, { modifier := .abstract, inputs := [(1, ⟨1, 0⟩)], assignments := [(1, ⟨1, 1⟩)], defaultAssignment := some 1 })]
  defaultOperation := some 1
  errors := [(5, 50), (6, 60)]

theorem tokenIface_made : namedAsset.extended (fun i => i.name) fungibleAsset 200 = .ok tokenIface := by decide +kernel

theorem namedAsset_wf : namedAsset.WF := Iface.wf_of (by decide +kernel)

theorem fungibleAsset_wf : fungibleAsset.WF := Iface.wf_of (by decide +kernel)

theorem burnableAsset_wf : burnableAsset.WF := Iface.wf_of (by decide +kernel)

/-! ### C47 -/

/-- **C47.** A type of owned state is more general than another exactly when it allows all the states the other does. -/
theorem C47_exact (a b : OwnedIface) : a.isSuperset b = true ↔ ∀ k, b.Allows k → a.Allows k := OwnedIface.isSuperset_iff a b

/-- **C47.** Generalisation is a partial order. -/
theorem C47_partial_order (a b c : OwnedIface) :
    a.isSuperset a = true ∧
      (a.isSuperset b = true → b.isSuperset a = true → a = b) ∧
      (a.isSuperset b = true → b.isSuperset c = true → a.isSuperset c = true) := by
  refine ⟨?_, ?_, ?_⟩
  · rw [C47_exact]; exact fun _ h => h
  · intro h1 h2
    cases a <;> cases b <;> simp_all [OwnedIface.isSuperset]
  · intro h1 h2
    rw [C47_exact] at *
    exact fun k hk => h1 k (h2 k hk)

example : OwnedIface.isSuperset .any .anyData = true ∧ OwnedIface.isSuperset .anyData (.data 5) = true ∧
    OwnedIface.isSuperset (.data 5) (.data 6) = false ∧ OwnedIface.isSuperset (.data 5) .anyData = false ∧
    OwnedIface.isSuperset .rights .amount = false := by decide

/-! ### C48 -/

/-- **C48.** An interface derived from another, by any tree of extensions, has each global state, assignment, valency and error of it; what
was required is required, what was public is public, a type isn't relaxed (neither are the numbers of items demanded by genesis); and it
lists the parent with all of its parents. -/
theorem C48_parents_kept (hid : Iface → Nat) (c p : Iface) (h : Iface.Derived hid c p) :
    c.Keeps p ∧ hid p ∈ c.inherits ∧ ∀ a ∈ p.inherits, a ∈ c.inherits := h.keeps

/-- **C48.** The same for `inherit` with any list of interfaces: each of them is kept and listed. -/
theorem C48_inherit (hid : Iface → Nat) (name : Nat) (i j : Iface) (rest : List Iface) (c : Iface)
    (hw : ∀ p ∈ i :: j :: rest, p.WF) (h : Iface.inherit hid name (i :: j :: rest) = some (.ok c)) :
    ∀ p ∈ i :: j :: rest, c.Keeps p ∧ hid p ∈ c.inherits ∧ ∀ a ∈ p.inherits, a ∈ c.inherits := by
  simp only [Iface.inherit, Option.some.injEq] at h
  have hd := Iface.inheritLoop_derived (hid := hid) (name := name) (j :: rest) i c (hw i (by simp))
    (fun p hp => hw p (by simp only [List.mem_cons] at hp ⊢; exact Or.inr hp)) h
  intro p hp
  rcases List.mem_cons.mp hp with rfl | hp
  · exact (hd.2.2 (by simp)).keeps
  · exact (hd.2.1 p hp).keeps

/-- **C48.** As long as the entries fit the collections, an extension succeeds exactly when the interfaces are compatible: it doesn't
relax a type, make a required or public item optional or private, demand fewer items, or override what is final. -/
theorem C48_refused_exact (hid : Iface → Nat) (a b : Iface) (name : Nat) (hw : b.WF) (hf : a.Fit b) :
    (∃ c, a.extended hid b name = .ok c) ↔ a.Compatible b :=
  ⟨fun ⟨_, h⟩ => Iface.compatible_of_ok hw h, fun h => Iface.extended_fits hid name hw h hf⟩

/-- **C48.** Whatever the sizes, an extension which is incompatible fails, and a failure has a reason. -/
theorem C48_incompatible (hid : Iface → Nat) (a b : Iface) (name : Nat) (hw : b.WF) (hn : ¬a.Compatible b) :
    ∃ e es, a.extended hid b name = .error (e :: es) := by
  cases h : a.extended hid b name with
  | ok c => exact absurd (Iface.compatible_of_ok hw h) hn
  | error es =>
    cases es with
    | nil => exact absurd rfl (Iface.extended_error h)
    | cons e es => exact ⟨e, es, rfl⟩

/-- **C48.** A failed extension has a reason. -/
theorem C48_reason (hid : Iface → Nat) (a b : Iface) (name : Nat) (es : List ExtErr) (h : a.extended hid b name = .error es) : es ≠ [] :=
  Iface.extended_error h

/-- **C48.** `inherit` fails exactly when one of the interfaces, added to what the preceding ones give, is refused; the error names this interface
and has the reasons. -/
theorem C48_inherit_refused (hid : Iface → Nat) (name : Nat) (l : List Iface) (n : Nat) (es : List ExtErr) :
    Iface.inherit hid name l = some (.error (n, es)) ↔ ∃ before ext after p, l = before ++ ext :: after ∧
      Iface.inherit hid name before = some (.ok p) ∧ p.extended hid ext name = .error es ∧ n = ext.name := by
  have loop : ∀ (rest : List Iface) (i : Iface), Iface.inheritLoop hid name i rest = .error (n, es) ↔
      ∃ before ext after p, rest = before ++ ext :: after ∧ Iface.inheritLoop hid name i before = .ok p ∧
        p.extended hid ext name = .error es ∧ n = ext.name := by
    intro rest
    induction rest with
    | nil => intro i; simp [Iface.inheritLoop]
    | cons j rest ih =>
      intro i
      simp only [Iface.inheritLoop]
      cases h : i.extended hid j name with
      | error es' =>
        simp only [Except.error.injEq, Prod.mk.injEq]
        constructor
        · rintro ⟨rfl, rfl⟩
          exact ⟨[], j, rest, i, rfl, rfl, h, rfl⟩
        · rintro ⟨before, ext, after, p, h1, h2, h3, h4⟩
          cases before with
          | nil =>
            simp only [List.nil_append, List.cons.injEq] at h1
            cases h2
            rw [← h1.1, h] at h3
            cases h3
            exact ⟨h1.1 ▸ h4.symm, rfl⟩
          | cons b before =>
            simp only [List.cons_append, List.cons.injEq] at h1
            rw [← h1.1] at h2
            simp [Iface.inheritLoop, h] at h2
      | ok i' =>
        simp only [ih]
        constructor
        · rintro ⟨before, ext, after, p, rfl, h2, h3⟩
          exact ⟨j :: before, ext, after, p, rfl, by simp [Iface.inheritLoop, h, h2], h3⟩
        · rintro ⟨before, ext, after, p, h1, h2, h3, h4⟩
          cases before with
          | nil =>
            simp only [List.nil_append, List.cons.injEq] at h1
            cases h2
            rw [← h1.1, h] at h3
            cases h3
          | cons b before =>
            simp only [List.cons_append, List.cons.injEq] at h1
            rw [← h1.1] at h2
            simp only [Iface.inheritLoop, h] at h2
            exact ⟨before, ext, after, p, h1.2, h2, h3, h4⟩
  cases l with
  | nil => simp [Iface.inherit]
  | cons i rest =>
    simp only [Iface.inherit, Option.some.injEq, loop]
    constructor
    · rintro ⟨before, ext, after, p, rfl, h2, h3⟩
      exact ⟨i :: before, ext, after, p, rfl, by simpa [Iface.inherit] using h2, h3⟩
    · rintro ⟨before, ext, after, p, h1, h2, h3⟩
      cases before with
      | nil => simp [Iface.inherit] at h2
      | cons b before =>
        simp only [List.cons_append, List.cons.injEq] at h1
        simp only [Iface.inherit, Option.some.injEq] at h2
        exact ⟨before, ext, after, p, h1.2, h1.1 ▸ h2, h3⟩

/-- The third of three interfaces is refused. -/
example : ∃ es, Iface.inherit (fun i => i.name) 300 [namedAsset, fungibleAsset, namedAsset] = some (.error (namedAsset.name, es)) :=
  ⟨_, rfl⟩

/-- Extending the other way round is incompatible, as the named asset would relax the type. -/
example : ¬fungibleAsset.Compatible namedAsset := by
  intro h
  have := (h.assignments 1 _ _ rfl rfl).1 .rights trivial
  cases this

example : ∃ c, Iface.Derived (fun i => i.name) c namedAsset ∧ Iface.Derived (fun i => i.name) c fungibleAsset ∧
    Iface.Derived (fun i => i.name) c burnableAsset ∧ c.inherits = [100, 101, 200, 102] := by
  have h1 := tokenIface_made
  have ht : tokenIface.WF := (Iface.extended_ok h1).wf namedAsset_wf fungibleAsset_wf
  have h2 : ∃ c, tokenIface.extended (fun i => i.name) burnableAsset 300 = .ok c ∧ c.inherits = [100, 101, 200, 102] := by
    have : ((tokenIface.extended (fun i => i.name) burnableAsset 300).toOption.map (fun c => c.inherits)) = some [100, 101, 200, 102] := by
      decide +kernel
    cases hx : tokenIface.extended (fun i => i.name) burnableAsset 300 with
    | error e => rw [hx] at this; simp [Except.toOption] at this
    | ok c => rw [hx] at this; simp [Except.toOption] at this; exact ⟨c, rfl, this⟩
  obtain ⟨c, hc, hi⟩ := h2
  exact ⟨c, .baseTrans (.base namedAsset_wf fungibleAsset_wf h1) burnableAsset_wf hc,
    .baseTrans (.ext fungibleAsset_wf namedAsset_wf h1) burnableAsset_wf hc, .ext burnableAsset_wf ht hc, hi⟩

/-! ### C49 -/

/-- **C49**, in part: an operation which is final in an interface stays as it is in everything made by extending this interface. Missing: an
interface which takes part in an extension on the other side, see `C49_fails`. -/
theorem C49_final_partial (hid : Iface → Nat) (p c : Iface) (h : Iface.Extends hid p c) (n : Nat) (t : OpIface)
    (hf : t.modifier = .final) :
    (OMap.get? p.transitions n = some t → OMap.get? c.transitions n = some t) ∧
      (OMap.get? p.extensions n = some t → OMap.get? c.extensions n = some t) ∧
      (p.genesis.modifier = .final → c = p) := by
  induction h with
  | self => exact ⟨fun h => h, fun h => h, fun _ => rfl⟩
  | step hq hx ih =>
    have hk := Iface.extended_ok hx
    refine ⟨fun h => ?_, fun h => ?_, fun h => ?_⟩
    · rw [hk.transitions.2]; exact (opsLoop_final _ _ hk.transitions.1 n t (ih.1 h) hf).2
    · rw [hk.extensions.2]; exact (opsLoop_final _ _ hk.extensions.1 n t (ih.2.1 h) hf).2
    · have := ih.2.2 h
      subst this
      exact absurd h hk.genesis.notFinal

/-- **C49**, in part: an extension which defines an operation which is final fails; so does each extension of an interface with a final
genesis.
Missing: final operations of interfaces which were added as the extending ones, see `C49_fails`. -/
theorem C49_refused_partial (hid : Iface → Nat) (p e : Iface) (name n : Nat) (t : OpIface) (hf : t.modifier = .final)
    (h : (OMap.get? p.transitions n = some t ∧ n ∈ OMap.keys e.transitions) ∨
         (OMap.get? p.extensions n = some t ∧ n ∈ OMap.keys e.extensions) ∨ p.genesis.modifier = .final) :
    ∃ errs, p.extended hid e name = .error errs := by
  cases hx : p.extended hid e name with
  | error errs => exact ⟨errs, rfl⟩
  | ok c =>
    have hk := Iface.extended_ok hx
    rcases h with ⟨h1, h2⟩ | ⟨h1, h2⟩ | h
    · exact absurd h2 (opsLoop_final _ _ hk.transitions.1 n t h1 hf).1
    · exact absurd h2 (opsLoop_final _ _ hk.extensions.1 n t h1 hf).1
    · exact absurd h hk.genesis.notFinal

/-- **C49** is false of the code: an operation may be declared final by the interface which extends another one. The result keeps the
modifier of the other interface (the field isn't assigned, /repo/src/interface/inheritance.rs:569-678), so the next extension
overrides it: here the transition 1, final in `fungibleAsset`, is overridden by `burnableAsset`. -/
theorem C49_fails : ∃ (hid : Iface → Nat) (p q e c : Iface) (name n : Nat) (t : OpIface),
    Iface.Derived hid q p ∧ OMap.get? p.transitions n = some t ∧ t.modifier = .final ∧ q.extended hid e name = .ok c ∧
      n ∈ OMap.keys e.transitions ∧ OMap.get? c.transitions n ≠ OMap.get? q.transitions n := by
  refine ⟨fun i => i.name, fungibleAsset, tokenIface, burnableAsset,
    match tokenIface.extended (fun i => i.name) burnableAsset 300 with | .ok c => c | .error _ => tokenIface, 300, 1,
    { modifier := .final, inputs := [(1, ⟨1, 0⟩)], assignments := [(1, ⟨1, 1⟩)] },
    .ext fungibleAsset_wf namedAsset_wf tokenIface_made, ?_, rfl, ?_, ?_, ?_⟩
  all_goals decide +kernel

/-- An interface with a final transition and one extending it elsewhere. -/
example : ∃ p e c t, Iface.extended (fun i => i.name) p e 7 = .ok c ∧ OMap.get? p.transitions 2 = some t ∧ t.modifier = .final ∧
    t.inputs ≠ [] ∧ c.transitions.length = 2 := by
  refine ⟨{ burnableAsset with genesis := {modifier := .abstract} }, { fungibleAsset with transitions := [] },
    match Iface.extended (fun i => i.name) { burnableAsset with genesis := {modifier := .abstract} } { fungibleAsset with transitions := [] } 7 with
    | .ok c => c | .error _ => burnableAsset, { modifier := .final, inputs := [(2, ⟨1, 0⟩)] }, ?_, ?_, ?_, ?_, ?_⟩
  all_goals decide +kernel

/-! ### C50 -/

/-- **C50.** `check` reports an error exactly when the interface has this fault. -/
theorem C50_exact (i : Iface) (hw : i.WF) (validTs : Int → Bool) (now : Int) (e : IfaceErr) :
    e ∈ i.check validTs now ↔ i.Faulty validTs now e := by
  rw [Iface.mem_check hw]
  cases e with
  | invalidTimestamp t => simp [Iface.Faulty, Iface.OpFaulty]; intro h; rw [h]
  | futureTimestamp t => simp [Iface.Faulty, Iface.OpFaulty]; intro h; rw [h]
  | unknownGlobal op n =>
    simp only [Iface.Faulty, Iface.OpFaulty, reduceCtorEq, false_and, exists_false, false_or, or_false, IfaceErr.unknownGlobal.injEq,
      and_false]
    constructor
    · rintro ⟨op', t, ho, n', ⟨rfl, rfl⟩, h⟩; exact ⟨t, ho, h⟩
    · rintro ⟨t, ho, h⟩; exact ⟨op, t, ho, n, ⟨rfl, rfl⟩, h⟩
  | unknownAssignment op n =>
    simp only [Iface.Faulty, Iface.OpFaulty, reduceCtorEq, false_and, exists_false, false_or, or_false, IfaceErr.unknownAssignment.injEq,
      and_false]
    constructor
    · rintro ⟨op', t, ho, n', ⟨rfl, rfl⟩, h⟩; exact ⟨t, ho, h⟩
    · rintro ⟨t, ho, h⟩; exact ⟨op, t, ho, n, ⟨rfl, rfl⟩, h⟩
  | unknownValency op n =>
    simp only [Iface.Faulty, Iface.OpFaulty, reduceCtorEq, false_and, exists_false, false_or, or_false, IfaceErr.unknownValency.injEq,
      and_false]
    constructor
    · rintro ⟨op', t, ho, n', ⟨rfl, rfl⟩, h⟩; exact ⟨t, ho, h⟩
    · rintro ⟨t, ho, h⟩; exact ⟨op, t, ho, n, ⟨rfl, rfl⟩, h⟩
  | unknownError op n =>
    simp only [Iface.Faulty, Iface.OpFaulty, reduceCtorEq, false_and, exists_false, false_or, or_false, IfaceErr.unknownError.injEq,
      and_false]
    constructor
    · rintro ⟨op', t, ho, n', ⟨rfl, rfl⟩, h⟩; exact ⟨t, ho, h⟩
    · rintro ⟨t, ho, h⟩; exact ⟨op, t, ho, n, ⟨rfl, rfl⟩, h⟩
  | unknownMetadata op n =>
    simp only [Iface.Faulty, Iface.OpFaulty, reduceCtorEq, false_and, exists_false, false_or, or_false, IfaceErr.unknownMetadata.injEq,
      and_false]
    constructor
    · rintro ⟨op', t, ho, n', ⟨rfl, rfl⟩, h⟩; exact ⟨t, ho, h⟩
    · rintro ⟨t, ho, h⟩; exact ⟨op, t, ho, n, ⟨rfl, rfl⟩, h⟩
  | multipleGlobal op n =>
    simp only [Iface.Faulty, Iface.OpFaulty, reduceCtorEq, false_and, exists_false, false_or, or_false, IfaceErr.multipleGlobal.injEq,
      and_false]
    constructor
    · rintro ⟨op', t, ho, n', o, ⟨rfl, rfl⟩, h⟩; exact ⟨t, o, ho, (hw.op ho).globals.get?_of_mem h.1, h.2⟩
    · rintro ⟨t, o, ho, h⟩; exact ⟨op, t, ho, n, o, ⟨rfl, rfl⟩, OMap.mem_of_get? h.1, h.2⟩
  | multipleAssignment op n =>
    simp only [Iface.Faulty, Iface.OpFaulty, reduceCtorEq, false_and, exists_false, false_or, or_false, IfaceErr.multipleAssignment.injEq,
      and_false]
    constructor
    · rintro ⟨op', t, ho, n', o, ⟨rfl, rfl⟩, h⟩; exact ⟨t, o, ho, (hw.op ho).assignments.get?_of_mem h.1, h.2⟩
    · rintro ⟨t, o, ho, h⟩; exact ⟨op, t, ho, n, o, ⟨rfl, rfl⟩, OMap.mem_of_get? h.1, h.2⟩
  | unknownInput op n =>
    simp only [Iface.Faulty, Iface.OpFaulty, reduceCtorEq, false_and, exists_false, false_or, or_false, IfaceErr.unknownInput.injEq,
      and_false]
    constructor
    · rintro ⟨nm, t, ho, n', ⟨rfl, rfl⟩, h⟩; exact ⟨nm, t, rfl, ho, h⟩
    · rintro ⟨nm, t, rfl, ho, h⟩; exact ⟨nm, t, ho, n, ⟨rfl, rfl⟩, h⟩
  | multipleInputs op n =>
    simp only [Iface.Faulty, Iface.OpFaulty, reduceCtorEq, false_and, exists_false, false_or, or_false, IfaceErr.multipleInputs.injEq,
      and_false]
    constructor
    · rintro ⟨nm, t, ho, n', o, ⟨rfl, rfl⟩, h⟩; exact ⟨nm, t, o, rfl, ho, (hw.op ho).inputs.get?_of_mem h.1, h.2⟩
    · rintro ⟨nm, t, o, rfl, ho, h⟩; exact ⟨nm, t, ho, n, o, ⟨rfl, rfl⟩, OMap.mem_of_get? h.1, h.2⟩
  | unknownRedeem op n =>
    simp only [Iface.Faulty, Iface.OpFaulty, reduceCtorEq, false_and, exists_false, false_or, or_false, IfaceErr.unknownRedeem.injEq,
      and_false]
    constructor
    · rintro ⟨nm, t, ho, n', ⟨rfl, rfl⟩, h⟩; exact ⟨nm, t, rfl, ho, h⟩
    · rintro ⟨nm, t, rfl, ho, h⟩; exact ⟨nm, t, ho, n, ⟨rfl, rfl⟩, h⟩
  | unknownDefaultAssignment op n =>
    simp only [Iface.Faulty, Iface.OpFaulty, reduceCtorEq, false_and, exists_false, false_or, or_false,
      IfaceErr.unknownDefaultAssignment.injEq, and_false]
    constructor
    · rintro ⟨op', t, hg, ho, n', ⟨rfl, rfl⟩, h⟩; exact ⟨hg, t, ho, h⟩
    · rintro ⟨hg, t, ho, h⟩; exact ⟨op, t, hg, ho, n, ⟨rfl, rfl⟩, h⟩
  | unknownDefaultOp n => simp [Iface.Faulty, Iface.OpFaulty]
  | repeatedOperationName n => simp [Iface.Faulty, Iface.OpFaulty]
  | requiredGlobalAbsent n => simp [Iface.Faulty, Iface.OpFaulty]
  | requiredAssignmentAbsent n => simp [Iface.Faulty, Iface.OpFaulty]
  | requiredValencyAbsent n => simp [Iface.Faulty, Iface.OpFaulty]

/-- **C50.** `check` succeeds exactly when the interface has no fault. -/
theorem C50_passes (i : Iface) (hw : i.WF) (validTs : Int → Bool) (now : Int) :
    i.check validTs now = [] ↔ ∀ e, ¬i.Faulty validTs now e := by
  rw [List.eq_nil_iff_forall_not_mem]
  exact forall_congr' fun e => not_congr (C50_exact i hw validTs now e)

/-- `tokenIface` passes; without the declaration of the assignment it has these faults; demanding two of the single global state, this one. -/
example : tokenIface.check (fun _ => true) 0 = [] ∧
    { tokenIface with assignments := [] }.check (fun _ => true) 0 =
      [.unknownAssignment .genesis 1, .unknownAssignment (.transition 1) 1, .unknownInput (.transition 1) 1] ∧
    { tokenIface with genesis := { tokenIface.genesis with globals := [(1, ⟨2, 0⟩)] } }.check (fun _ => true) 0 =
      [.multipleGlobal .genesis 1, .requiredGlobalAbsent 2] ∧
    { tokenIface with timestamp := 5, defaultOperation := some 9 }.check (fun _ => true) 0 =
      [.futureTimestamp 5, .unknownDefaultOp 9] := by decide +kernel

/-! ### C51 -/

/-- An implementation of `tokenIface` and its schema. -/
def tokenSchema : Schema where
  metaTypes := [(1010, 1)]
  globalTypes := [(2000, (7, 1)), (2001, (8, 9))]
  ownedTypes := [(4000, .fungible 8), (4001, .declarative)]
  valencyTypes := [500]
  transitions := [(10000, { inputs := some [(4000, ⟨1, 0⟩)], assignments := [(4000, ⟨1, 0⟩)] })]

def tokenImpl : IfaceImpl where
  schemaId := 1
  ifaceId := 200
  metadata := [⟨1010, 1, 0⟩]
  globalState := [⟨2000, 1, 0⟩, ⟨2001, 2, 0⟩]
  assignments := [⟨4000, 1, 0⟩]
  valencies := [⟨500, 1, 0⟩]
  transitions := [⟨10000, 1, 0⟩]
  errors := [⟨1, 5, 0⟩]

/-- **C51**, in part: exactly which errors `check` reports. Missing: names bound twice (`C51_twice_fails`) and bound names unknown to the
interface (`C51_unknown_fails`). -/
theorem C51_reported_partial (x : IfaceImpl) (i : Iface) (s : Schema) (validTs : Int → Bool) (now : Int) (k : FieldKind) (n : Nat) :
    (ImplErr.ifaceAbsent k n ∈ x.check i s validTs now ↔ n ∈ i.names k ∧ ∀ f ∈ x.fields k, f.name ≠ n) ∧
    (∀ id, ImplErr.schemaAbsent k n id ∈ x.check i s validTs now ↔ (∃ f ∈ x.fields k, f.name = n ∧ f.id = id) ∧ id ∉ s.types k) ∧
    (∀ c, ImplErr.repeated k n c ∈ x.check i s validTs now ↔ 1 < c ∧ bindings (x.fields k) n = c + 1) ∧
    (ImplErr.ifaceErrorAbsent n ∈ x.check i s validTs now ↔ (∃ f ∈ x.errors, f.name = n) ∧ n ∉ OMap.keys i.errors) ∧
    (∀ t, ImplErr.invalidTimestamp t ∈ x.check i s validTs now ↔ t = x.timestamp ∧ validTs t = false) ∧
    (∀ t, ImplErr.futureTimestamp t ∈ x.check i s validTs now ↔ t = x.timestamp ∧ validTs t = true ∧ now < t) := by
  have h := fun e => IfaceImpl.mem_check x i s validTs now e
  refine ⟨?_, fun id => ?_, fun c => ?_, ?_, fun t => ?_, fun t => ?_⟩
  · rw [h]
    simp only [reduceCtorEq, false_and, or_false, false_or, exists_false, ImplErr.ifaceAbsent.injEq, bindings, List.countP_eq_zero,
      decide_eq_true_eq]
    constructor
    · rintro ⟨k', n', ⟨rfl, rfl⟩, h⟩; exact h
    · rintro h; exact ⟨k, n, ⟨rfl, rfl⟩, h⟩
  · rw [h]
    simp only [reduceCtorEq, false_and, or_false, false_or, exists_false, ImplErr.schemaAbsent.injEq]
    constructor
    · rintro ⟨k', f, ⟨rfl, rfl, rfl⟩, hf, hn⟩; exact ⟨⟨f, hf, rfl, rfl⟩, hn⟩
    · rintro ⟨⟨f, hf, rfl, rfl⟩, hn⟩; exact ⟨k, f, ⟨rfl, rfl, rfl⟩, hf, hn⟩
  · rw [h]
    simp only [reduceCtorEq, false_and, or_false, false_or, exists_false, ImplErr.repeated.injEq]
    constructor
    · rintro ⟨k', n', c', ⟨rfl, rfl, rfl⟩, h⟩; exact h
    · rintro h; exact ⟨k, n, c, ⟨rfl, rfl, rfl⟩, h⟩
  · rw [h]
    simp only [reduceCtorEq, false_and, false_or, exists_false, ImplErr.ifaceErrorAbsent.injEq]
    constructor
    · rintro ⟨f, rfl, hf, hn⟩; exact ⟨⟨f, hf, rfl⟩, hn⟩
    · rintro ⟨⟨f, hf, rfl⟩, hn⟩; exact ⟨f, rfl, hf, hn⟩
  · rw [h]; simp; intro h; rw [h]
  · rw [h]; simp; intro h; rw [h]

/-- **C51**, in part: if `check` passes then each name of the interface is bound, at most twice, the one found by its name is a type of the
schema, and each binding refers to a type of the schema.
Missing: names bound exactly twice, see `C51_twice_fails`, and names unknown to the interface, see `C51_unknown_fails`. -/
theorem C51_passes_partial (x : IfaceImpl) (i : Iface) (s : Schema) (validTs : Int → Bool) (now : Int)
    (h : x.check i s validTs now = []) (k : FieldKind) :
    (∀ n ∈ i.names k, 1 ≤ bindings (x.fields k) n ∧ ∃ id ∈ s.types k, typeByName (x.fields k) n = some id) ∧
      (∀ n, bindings (x.fields k) n ≤ 2) ∧ (∀ f ∈ x.fields k, f.id ∈ s.types k) := by
  have hx : ∀ e, e ∉ x.check i s validTs now := by rw [h]; simp
  have hty : ∀ f ∈ x.fields k, f.id ∈ s.types k := fun f hf =>
    Decidable.byContradiction fun hn => hx _ (((C51_reported_partial x i s validTs now k f.name).2.1 f.id).mpr ⟨⟨f, hf, rfl, rfl⟩, hn⟩)
  refine ⟨fun n hn => ?_, fun n => ?_, hty⟩
  · have h0 : 1 ≤ bindings (x.fields k) n := by
      rcases Nat.eq_zero_or_pos (bindings (x.fields k) n) with h0 | h0
      · refine absurd ((C51_reported_partial x i s validTs now k n).1.mpr ⟨hn, ?_⟩) (hx _)
        simpa [bindings, List.countP_eq_zero] using h0
      · exact h0
    refine ⟨h0, ?_⟩
    simp only [bindings, Nat.succ_le_iff, List.countP_pos_iff, decide_eq_true_eq] at h0
    obtain ⟨f, hf, hfn⟩ := h0
    have : ((x.fields k).find? (fun f => f.name = n)).isSome = true := by
      rw [List.find?_isSome]; exact ⟨f, hf, by simp [hfn]⟩
    obtain ⟨g, hg⟩ := Option.isSome_iff_exists.mp this
    exact ⟨g.id, hty g (List.mem_of_find?_eq_some hg), by simp [typeByName, hg]⟩
  · by_cases hc : bindings (x.fields k) n ≤ 2
    · exact hc
    · refine absurd (((C51_reported_partial x i s validTs now k n).2.2.1 (bindings (x.fields k) n - 1)).mpr ⟨?_, ?_⟩) (hx _) <;> omega

/-- **C51** is false of the code: a name which is bound to two types isn't reported. The counters start from 0, so that they are 1 after
the second occurrence, but only those above 1 are reported (/repo/src/interface/iimpl.rs:419-434). -/
theorem C51_twice_fails : ∃ (x : IfaceImpl) (i : Iface) (s : Schema), x.check i s (fun _ => true) 0 = [] ∧
    (∃ f ∈ x.assignments, ∃ g ∈ x.assignments, f.name = g.name ∧ f.id ≠ g.id) :=
  ⟨{ tokenImpl with assignments := [⟨4000, 1, 0⟩, ⟨4001, 1, 0⟩] }, tokenIface, tokenSchema, by decide +kernel,
    ⟨4000, 1, 0⟩, by decide, ⟨4001, 1, 0⟩, by decide, by decide, by decide⟩

/-- **C51** is false of the code: a bound name which the interface doesn't have isn't reported (unless it is the name of an error). -/
theorem C51_unknown_fails : ∃ (x : IfaceImpl) (i : Iface) (s : Schema), x.check i s (fun _ => true) 0 = [] ∧
    (∃ f ∈ x.assignments, f.name ∉ OMap.keys i.assignments) :=
  ⟨{ tokenImpl with assignments := [⟨4000, 1, 0⟩, ⟨4001, 77, 0⟩] }, tokenIface, tokenSchema, by decide +kernel,
    ⟨4001, 77, 0⟩, by decide, by decide⟩

example : tokenImpl.check tokenIface tokenSchema (fun _ => true) 0 = [] ∧
    { tokenImpl with assignments := [⟨4000, 1, 0⟩, ⟨4001, 1, 0⟩, ⟨4002, 1, 0⟩], transitions := [] }.check tokenIface tokenSchema (fun _ => true) 0 =
      [.schemaAbsent .assignment 1 4002, .repeated .assignment 1 2, .ifaceAbsent .transition 1] := by decide +kernel

/-! ### C52 -/

/-- **C52.** Abstracting fails exactly when the interface doesn't list the parent as such. -/
theorem C52_refused (hid : Iface → Nat) (x : IfaceImpl) (base parent : Iface) (hb : x.ifaceId = hid base) :
    IfaceImpl.abstracted hid x base parent = some none ↔ hid parent ∉ base.inherits := by
  simp only [IfaceImpl.abstracted, hb]
  by_cases h : hid parent ∈ base.inherits <;> simp [h]

/-- **C52**, in part: what is kept, of each kind but valencies, is exactly the bindings of the names which both interfaces declare (the first
one of each name); so a name of the parent gives the same type. The result is for the parent, and for the same schema. Missing:
valencies and errors (`C52_valencies_fails`, `C52_errors_fails`). -/
theorem C52_kept_partial (hid : Iface → Nat) (x y : IfaceImpl) (base parent : Iface)
    (h : IfaceImpl.abstracted hid x base parent = some (some y)) (k : FieldKind) (hk : k ≠ .valency) :
    (∀ f, f ∈ y.fields k ↔
      f.name ∈ base.names k ∧ f.name ∈ parent.names k ∧ (x.fields k).find? (fun g => g.name = f.name) = some f) ∧
      (∀ n, n ∈ base.names k → n ∈ parent.names k → typeByName (y.fields k) n = typeByName (x.fields k) n) ∧
      y.ifaceId = hid parent ∧ y.schemaId = x.schemaId := by
  simp only [IfaceImpl.abstracted] at h
  split at h
  · cases h
  · split at h
    · cases h
    · simp only [Option.some.injEq] at h
      subst h
      refine ⟨fun f => ?_, fun n h1 h2 => ?_, rfl, rfl⟩
      · cases k <;> first | exact absurd rfl hk | skip
        all_goals simp only [IfaceImpl.fields, Iface.names, mem_pick, contains_true_iff]
      · cases k <;> first | exact absurd rfl hk | skip
        all_goals
          simp only [IfaceImpl.fields, Iface.names] at *
          rw [typeByName_pick, if_pos ⟨h1, contains_true_iff.mpr h2⟩]

/-- **C52**, in part: for an interface derived from the parent, with no name bound twice, exactly the bindings of the names of the parent are
kept: for metadata, global state and assignments. (Operations: `C52_kept_partial`; a derived interface may lack an optional operation
of the parent.).
Missing: valencies, see `C52_valencies_fails`, and errors, see `C52_errors_fails`. -/
theorem C52_derived_partial (hid : Iface → Nat) (x y : IfaceImpl) (base parent : Iface) (hd : Iface.Derived hid base parent)
    (h : IfaceImpl.abstracted hid x base parent = some (some y)) (k : FieldKind) (hk : k = .metadata ∨ k = .global ∨ k = .assignment)
    (hu : ∀ n, bindings (x.fields k) n ≤ 1) (f : NamedField) :
    f ∈ y.fields k ↔ f ∈ x.fields k ∧ f.name ∈ parent.names k := by
  have hkept := hd.keeps.1
  have hsub : ∀ n ∈ parent.names k, n ∈ base.names k := by
    intro n hn
    rcases hk with rfl | rfl | rfl
    · exact hkept.metadata n hn
    · obtain ⟨g, hg⟩ := Option.isSome_iff_exists.mp (OMap.get?_isSome_iff.mpr hn)
      obtain ⟨g', hg', _⟩ := hkept.globals n g hg
      exact OMap.get?_isSome_iff.mp (by rw [hg']; rfl)
    · obtain ⟨g, hg⟩ := Option.isSome_iff_exists.mp (OMap.get?_isSome_iff.mpr hn)
      obtain ⟨g', hg', _⟩ := hkept.assignments n g hg
      exact OMap.get?_isSome_iff.mp (by rw [hg']; rfl)
  have hv : k ≠ .valency := by rcases hk with rfl | rfl | rfl <;> simp
  rw [(C52_kept_partial hid x y base parent h k hv).1 f]
  constructor
  · rintro ⟨_, h2, h3⟩; exact ⟨List.mem_of_find?_eq_some h3, h2⟩
  · rintro ⟨h1, h2⟩; exact ⟨hsub _ h2, h2, find?_unique h1 (hu f.name)⟩

/-- **C52** is false of the code: bindings of valencies are looked up by the names of assignments of the interface
(`base.assignments.keys()`, /repo/src/interface/inheritance.rs:716), so they are lost. -/
theorem C52_valencies_fails : ∃ (hid : Iface → Nat) (x y : IfaceImpl) (base parent : Iface), Iface.Derived hid base parent ∧
    IfaceImpl.abstracted hid x base parent = some (some y) ∧ (∃ f ∈ x.valencies, f.name ∈ OMap.keys parent.valencies) ∧ y.valencies = [] := by
  have h1 : Iface.extended (fun i => i.name) { namedAsset with valencies := [(9, true)] } fungibleAsset 200 =
      .ok { tokenIface with valencies := [(9, true)] } := by decide +kernel
  refine ⟨fun i => i.name, { tokenImpl with valencies := [⟨500, 9, 0⟩] },
    { tokenImpl with ifaceId := 100, valencies := [], globalState := [⟨2000, 1, 0⟩] }, _,
    { namedAsset with valencies := [(9, true)] }, .base (Iface.wf_of (by decide +kernel)) fungibleAsset_wf h1, ?_, ?_, rfl⟩
  · decide +kernel
  · exact ⟨⟨500, 9, 0⟩, by decide, by decide⟩

/-- **C52** is false of the code: names of errors aren't filtered, so that the result may refer to errors the parent doesn't have and doesn't
pass its check. -/
theorem C52_errors_fails : ∃ (hid : Iface → Nat) (x y : IfaceImpl) (base parent : Iface) (s : Schema), Iface.Derived hid base parent ∧
    IfaceImpl.abstracted hid x base parent = some (some y) ∧ x.check base s (fun _ => true) 0 = [] ∧
    y.check parent s (fun _ => true) 0 = [.ifaceErrorAbsent 6] := by
  refine ⟨fun i => i.name, { tokenImpl with errors := [⟨1, 6, 0⟩] },
    { tokenImpl with ifaceId := 100, errors := [⟨1, 6, 0⟩], globalState := [⟨2000, 1, 0⟩] }, tokenIface,
    namedAsset, tokenSchema, .base namedAsset_wf fungibleAsset_wf tokenIface_made, ?_, ?_, ?_⟩ <;> decide +kernel

/-- **C52**, in part: abstracting panics when the implementation isn't for the given interface.
Missing: an error instead of the panic. -/
theorem C52_panic_partial (hid : Iface → Nat) (x : IfaceImpl) (base parent : Iface) :
    IfaceImpl.abstracted hid x base parent = none ↔ x.ifaceId ≠ hid base := by
  simp only [IfaceImpl.abstracted]
  by_cases h : x.ifaceId = hid base
  · by_cases h' : hid parent ∈ base.inherits <;> simp [h, h']
  · simp [h]

example : IfaceImpl.abstracted (fun i => i.name) tokenImpl tokenIface namedAsset =
    some (some { tokenImpl with ifaceId := 100, globalState := [⟨2000, 1, 0⟩] }) ∧
    IfaceImpl.abstracted (fun i => i.name) tokenImpl tokenIface burnableAsset = some none := by decide +kernel

/-! ### C53 -/

/-- **C53**, in part: `check_inheritance` succeeds exactly when the parent has each global, owned and valency type of the schema with the
same definition and each operation, and all what the operation uses is used, as many times, by that of the parent. Missing: "the
same definition" of operations and metadata, see `C53_fails`. -/
theorem C53_exact_partial (s root : Schema) (hw : s.WF) : s.checkInheritance root = [] ↔ s.Within root := Schema.checkInheritance_nil hw

/-- **C53**, in part: each schema inherits from itself, and from parents of its parents.
Missing: operations with the same definition, see `C53_fails`. -/
theorem C53_order_partial (a b c : Schema) (ha : a.WF) (hb : b.WF) :
    a.checkInheritance a = [] ∧ (a.checkInheritance b = [] → b.checkInheritance c = [] → a.checkInheritance c = []) := by
  simp only [C53_exact_partial _ _ ha, C53_exact_partial _ _ hb]
  have hr : ∀ o : OpSchema, o.Within o := fun o =>
    ⟨fun _ _ h => h, fun m hm _ _ h => by rw [hm]; exact h, fun _ _ h => h, fun s hs _ h => by rw [hs]; exact h, fun _ h => h⟩
  have ht : ∀ x y z : OpSchema, x.Within y → y.Within z → x.Within z := by
    intro x y z h1 h2
    refine ⟨fun n o h => h2.globals n o (h1.globals n o h), ?_, fun n o h => h2.assignments n o (h1.assignments n o h), ?_,
      fun n h => h2.valencies n (h1.valencies n h)⟩
    · intro m hm n o h
      have := h1.inputs m hm n o h
      cases hy : y.inputs with
      | none => rw [hy] at this; simp at this
      | some m' => rw [hy] at this; exact h2.inputs m' hy n o this
    · intro s hs n h
      have := h1.redeems s hs n h
      cases hy : y.redeems with
      | none => rw [hy] at this; simp at this
      | some m' => rw [hy] at this; exact h2.redeems m' hy n this
  refine ⟨⟨fun _ _ h => h, fun _ _ h => h, fun _ h => h, hr _, fun _ t h => ⟨t, h, hr t⟩, fun _ t h => ⟨t, h, hr t⟩⟩, fun h1 h2 => ?_⟩
  refine ⟨fun n v h => h2.globals n v (h1.globals n v h), fun n v h => h2.owned n v (h1.owned n v h),
    fun n h => h2.valencies n (h1.valencies n h), ht _ _ _ h1.genesis h2.genesis, fun n t h => ?_, fun n t h => ?_⟩
  · obtain ⟨t', ht', hw'⟩ := h1.transitions n t h
    obtain ⟨t'', ht'', hw''⟩ := h2.transitions n t' ht'
    exact ⟨t'', ht'', ht _ _ _ hw' hw''⟩
  · obtain ⟨t', ht', hw'⟩ := h1.extensions n t h
    obtain ⟨t'', ht'', hw''⟩ := h2.extensions n t' ht'
    exact ⟨t'', ht'', ht _ _ _ hw' hw''⟩

/-- **C53** is false of the code: an operation of the schema may lack the input which the parent demands, the metadata and the validator aren't
compared at all: a schema with a transition without inputs (an inflation) passes as a child of `tokenSchema`. -/
theorem C53_fails : ∃ s root : Schema, s.checkInheritance root = [] ∧ (∃ n o o' t t', OMap.get? s.transitions n = some t ∧
    OMap.get? root.transitions n = some t' ∧ OMap.get? (t.inputs.getD []) 4000 = o ∧ OMap.get? (t'.inputs.getD []) 4000 = some o' ∧
      1 ≤ o'.minValue ∧ o = none ∧ t.rest ≠ t'.rest) ∧ s.metaTypes ≠ root.metaTypes :=
  ⟨{ tokenSchema with
      metaTypes := [(1010, 2)]
      transitions := [(10000, { inputs := some [], assignments := [(4000, ⟨1, 0⟩)], rest := 5 })] },
    tokenSchema, by decide +kernel, ⟨10000, none, ⟨1, 0⟩, _, _, rfl, rfl, rfl, rfl, by decide, rfl, by decide⟩, by decide⟩

example : tokenSchema.checkInheritance { tokenSchema with ownedTypes := [(4000, .fungible 8)] } = [.assignmentMismatch 4001] ∧
    tokenSchema.checkInheritance { tokenSchema with transitions := [(10000, { inputs := some [(4000, ⟨2, 0⟩)] })] } =
      [.opInputMismatch (.transition 10000) 4000, .opAssignmentMismatch (.transition 10000) 4000] := by decide +kernel

/-! ### C63 -/

/-- **C63**, in part: an interface made by extending another one has each operation of it, and the operation keeps what that one demands and its
modifier. Missing: operations of the interfaces which extend (`C63_inherit_partial`), being required, types of metadata. -/
theorem C63_extends_partial (hid : Iface → Nat) (p c : Iface) (h : Iface.Extends hid p c) (n : Nat) (t : OpIface) :
    (OMap.get? p.transitions n = some t → ∃ t', OMap.get? c.transitions n = some t' ∧ t'.Keeps t ∧ t'.modifier = t.modifier) ∧
      (OMap.get? p.extensions n = some t → ∃ t', OMap.get? c.extensions n = some t' ∧ t'.Keeps t ∧ t'.modifier = t.modifier) := by
  induction h with
  | self => exact ⟨fun h => ⟨t, h, .refl t, rfl⟩, fun h => ⟨t, h, .refl t, rfl⟩⟩
  | step hq hx ih =>
    have hk := Iface.extended_ok hx
    constructor
    · intro h
      obtain ⟨t1, h1, k1, m1⟩ := ih.1 h
      obtain ⟨t2, h2, k2, m2⟩ := opsLoop_base _ _ hk.transitions.1 n t1 h1
      exact ⟨t2, by rw [hk.transitions.2]; exact h2, k2.trans k1, m2.trans m1⟩
    · intro h
      obtain ⟨t1, h1, k1, m1⟩ := ih.2 h
      obtain ⟨t2, h2, k2, m2⟩ := opsLoop_base _ _ hk.extensions.1 n t1 h1
      exact ⟨t2, by rw [hk.extensions.2]; exact h2, k2.trans k1, m2.trans m1⟩

/-- **C63**, in part: `inherit` keeps each operation of each of the interfaces which isn't optional.
Missing: optional operations, being required, and types of metadata, see `C63_fails`. -/
theorem C63_inherit_partial (hid : Iface → Nat) (name : Nat) (l : List Iface) (c : Iface) (hw : ∀ p ∈ l, p.WF)
    (h : Iface.inherit hid name l = some (.ok c)) (p : Iface) (hp : p ∈ l) (n : Nat) (t : OpIface) (ho : t.optional = false) :
    (OMap.get? p.transitions n = some t → ∃ t', OMap.get? c.transitions n = some t' ∧ t'.Keeps t) ∧
      (OMap.get? p.extensions n = some t → ∃ t', OMap.get? c.extensions n = some t' ∧ t'.Keeps t) := by
  cases l with
  | nil => cases hp
  | cons i rest =>
    simp only [Iface.inherit, Option.some.injEq] at h
    exact Iface.inheritLoop_ops rest i c (hw i (by simp)) (fun j hj => hw j (by simp [hj])) h p hp n t (Or.inl ho)

/-- **C63** is false of the code: an operation which is required in a parent becomes optional when the extending interface declares it so
(`self.optional.max(ext.optional)`, /repo/src/interface/inheritance.rs:608), an optional operation of the extending interface
isn't taken at all (448), and the type of metadata of a parent is overwritten by that of the extending interface (362). -/
theorem C63_fails : ∃ (hid : Iface → Nat) (p e c : Iface) (name n m : Nat), p.WF ∧ e.WF ∧ p.extended hid e name = .ok c ∧
    (∃ t t', OMap.get? p.transitions n = some t ∧ t.optional = false ∧ OMap.get? c.transitions n = some t' ∧ t'.optional = true) ∧
    (m ∈ OMap.keys e.transitions ∧ m ∉ OMap.keys c.transitions) ∧
    (OMap.get? p.metadata 1 = some 10 ∧ OMap.get? c.metadata 1 = some 11) := by
  refine ⟨fun i => i.name, namedAsset,
    { fungibleAsset with
      metadata := [(1, 11)]
      transitions := [(1, { modifier := .final, optional := true }), (2, { modifier := .final, optional := true })] },
    { tokenIface with
      metadata := [(1, 11)]
      transitions :=
        [(1, { modifier := .abstract, optional := true, inputs := [(1, ⟨1, 0⟩)], assignments := [(1, ⟨1, 0⟩)], defaultAssignment := some 1 })] },
    200, 1, 2, namedAsset_wf, Iface.wf_of (by decide +kernel), by decide +kernel,
      ⟨_, _, rfl, rfl, rfl, rfl⟩, by decide +kernel, by decide +kernel⟩

example : ∃ c, Iface.inherit (fun i => i.name) 300 [namedAsset, fungibleAsset, burnableAsset] = some (.ok c) ∧
    OMap.keys c.transitions = [1, 2] := by
  refine ⟨match Iface.inherit (fun i => i.name) 300 [namedAsset, fungibleAsset, burnableAsset] with
    | some (.ok c) => c | _ => tokenIface, ?_, ?_⟩ <;> decide +kernel

end Rgb.Props
