import Verif.Lemmas.Iface

/-! Lemmas on `Iface::check`, `IfaceImpl::check`, `abstracted` and the schema inheritance check. -/

namespace Rgb

theorem get?_none_iff {ν : Type} {m : OMap Nat ν} {n : Nat} : (OMap.get? m n).isNone = true ↔ n ∉ OMap.keys m := by
  rw [← OMap.get?_eq_none_iff]
  cases OMap.get? m n <;> simp

theorem contains_false_iff {ν : Type} {m : OMap Nat ν} {n : Nat} : OMap.contains m n = false ↔ n ∉ OMap.keys m := by
  rw [← OMap.get?_eq_none_iff, OMap.contains]
  cases OMap.get? m n <;> simp

theorem contains_true_iff {ν : Type} {m : OMap Nat ν} {n : Nat} : OMap.contains m n = true ↔ n ∈ OMap.keys m := by
  rw [OMap.contains, OMap.get?_isSome_iff]

namespace Iface

theorem mem_procGlobals {i : Iface} {op : OpName} {m : OMap Nat Occ} {e : IfaceErr} :
    e ∈ i.procGlobals op m ↔
      (∃ n, e = .unknownGlobal op n ∧ n ∈ OMap.keys m ∧ n ∉ OMap.keys i.globalState) ∨
      (∃ n o, e = .multipleGlobal op n ∧ (n, o) ∈ m ∧ 1 < o.minValue ∧ i.UniqueGlobal n) := by
  simp only [procGlobals, List.mem_flatMap]
  constructor
  · rintro ⟨⟨n, o⟩, hm, he⟩
    simp only at he
    cases hg : OMap.get? i.globalState n with
    | none =>
      simp only [hg, List.mem_singleton] at he
      exact Or.inl ⟨n, he, List.mem_map_of_mem (f := Prod.fst) hm, OMap.get?_eq_none_iff.mp hg⟩
    | some g =>
      simp only [hg] at he
      split at he
      · rename_i hc
        simp only [Bool.and_eq_true, decide_eq_true_eq, Bool.not_eq_true', List.mem_singleton] at hc he
        exact Or.inr ⟨n, o, he, hm, hc.1, g, hg, hc.2⟩
      · cases he
  · rintro (⟨n, rfl, hk, hn⟩ | ⟨n, o, rfl, hm, h1, g, hg, hgm⟩)
    · obtain ⟨⟨n', o⟩, hm, rfl⟩ := List.mem_map.mp hk
      refine ⟨(n', o), hm, ?_⟩
      simp only [OMap.get?_eq_none_iff.mpr hn, List.mem_singleton]
    · refine ⟨(n, o), hm, ?_⟩
      simp [hg, h1, hgm]

theorem mem_procAssignments {i : Iface} {op : OpName} {m : OMap Nat Occ} {e : IfaceErr} :
    e ∈ i.procAssignments op m ↔
      (∃ n, e = .unknownAssignment op n ∧ n ∈ OMap.keys m ∧ n ∉ OMap.keys i.assignments) ∨
      (∃ n o, e = .multipleAssignment op n ∧ (n, o) ∈ m ∧ 1 < o.minValue ∧ i.UniqueAssign n) := by
  simp only [procAssignments, List.mem_flatMap]
  constructor
  · rintro ⟨⟨n, o⟩, hm, he⟩
    simp only at he
    cases hg : OMap.get? i.assignments n with
    | none =>
      simp only [hg, List.mem_singleton] at he
      exact Or.inl ⟨n, he, List.mem_map_of_mem (f := Prod.fst) hm, OMap.get?_eq_none_iff.mp hg⟩
    | some g =>
      simp only [hg] at he
      split at he
      · rename_i hc
        simp only [Bool.and_eq_true, decide_eq_true_eq, Bool.not_eq_true', List.mem_singleton] at hc he
        exact Or.inr ⟨n, o, he, hm, hc.1, g, hg, hc.2⟩
      · cases he
  · rintro (⟨n, rfl, hk, hn⟩ | ⟨n, o, rfl, hm, h1, g, hg, hgm⟩)
    · obtain ⟨⟨n', o⟩, hm, rfl⟩ := List.mem_map.mp hk
      refine ⟨(n', o), hm, ?_⟩
      simp only [OMap.get?_eq_none_iff.mpr hn, List.mem_singleton]
    · refine ⟨(n, o), hm, ?_⟩
      simp [hg, h1, hgm]

theorem mem_inputs {i : Iface} {op : OpName} {m : OMap Nat Occ} {e : IfaceErr} :
    (e ∈ m.flatMap (fun e =>
      match OMap.get? i.assignments e.1 with
      | some a => if e.2.minValue > 1 && !a.multiple then [IfaceErr.multipleInputs op e.1] else []
      | none => [.unknownInput op e.1])) ↔
      (∃ n, e = .unknownInput op n ∧ n ∈ OMap.keys m ∧ n ∉ OMap.keys i.assignments) ∨
      (∃ n o, e = .multipleInputs op n ∧ (n, o) ∈ m ∧ 1 < o.minValue ∧ i.UniqueAssign n) := by
  simp only [List.mem_flatMap]
  constructor
  · rintro ⟨⟨n, o⟩, hm, he⟩
    simp only at he
    cases hg : OMap.get? i.assignments n with
    | none =>
      simp only [hg, List.mem_singleton] at he
      exact Or.inl ⟨n, he, List.mem_map_of_mem (f := Prod.fst) hm, OMap.get?_eq_none_iff.mp hg⟩
    | some g =>
      simp only [hg] at he
      split at he
      · rename_i hc
        simp only [Bool.and_eq_true, decide_eq_true_eq, Bool.not_eq_true', List.mem_singleton] at hc he
        exact Or.inr ⟨n, o, he, hm, hc.1, g, hg, hc.2⟩
      · cases he
  · rintro (⟨n, rfl, hk, hn⟩ | ⟨n, o, rfl, hm, h1, g, hg, hgm⟩)
    · obtain ⟨⟨n', o⟩, hm, rfl⟩ := List.mem_map.mp hk
      refine ⟨(n', o), hm, ?_⟩
      simp only [OMap.get?_eq_none_iff.mpr hn, List.mem_singleton]
    · refine ⟨(n, o), hm, ?_⟩
      simp [hg, h1, hgm]

theorem mem_flat_if {α β : Type} {l : List α} {p : α → Bool} {f : α → β} {e : β} :
    (e ∈ l.flatMap (fun n => if p n then [f n] else [])) ↔ ∃ n, e = f n ∧ n ∈ l ∧ p n = true := by
  simp only [List.mem_flatMap]
  constructor
  · rintro ⟨n, hn, he⟩
    split at he
    · rename_i hp; exact ⟨n, by simpa using he, hn, hp⟩
    · cases he
  · rintro ⟨n, rfl, hn, hp⟩
    exact ⟨n, hn, by simp [hp]⟩

theorem mem_procValencies {i : Iface} {op : OpName} {s : OSet Nat} {e : IfaceErr} :
    e ∈ i.procValencies op s ↔ ∃ n, e = .unknownValency op n ∧ n ∈ s ∧ n ∉ OMap.keys i.valencies := by
  rw [procValencies, mem_flat_if]; simp only [get?_none_iff]

theorem mem_procErrors {i : Iface} {op : OpName} {s : OSet Nat} {e : IfaceErr} :
    e ∈ i.procErrors op s ↔ ∃ n, e = .unknownError op n ∧ n ∈ s ∧ n ∉ OMap.keys i.errors := by
  rw [procErrors, mem_flat_if]; simp only [Bool.not_eq_true', contains_false_iff]

theorem mem_procMetadata {i : Iface} {op : OpName} {s : OSet Nat} {e : IfaceErr} :
    e ∈ i.procMetadata op s ↔ ∃ n, e = .unknownMetadata op n ∧ n ∈ s ∧ n ∉ OMap.keys i.metadata := by
  rw [procMetadata, mem_flat_if]; simp only [Bool.not_eq_true', contains_false_iff]

theorem mem_procDefault {op : OpName} {t : OpIface} {e : IfaceErr} :
    e ∈ procDefault op t ↔ ∃ n, e = .unknownDefaultAssignment op n ∧ t.defaultAssignment = some n ∧ n ∉ OMap.keys t.assignments := by
  simp only [procDefault]
  cases t.defaultAssignment with
  | none => simp
  | some d =>
    simp only
    constructor
    · intro h
      split at h
      · rename_i hn; exact ⟨d, by simpa using h, rfl, get?_none_iff.mp hn⟩
      · cases h
    · rintro ⟨n, rfl, hd, hn⟩
      cases hd
      rw [if_pos (get?_none_iff.mpr hn)]; simp

/-- Errors of one operation of any kind. -/
def OpFaulty (i : Iface) (op : OpName) (t : OpIface) (e : IfaceErr) : Prop :=
  (∃ n, e = .unknownMetadata op n ∧ n ∈ t.metadata ∧ n ∉ OMap.keys i.metadata) ∨
  (∃ n, e = .unknownGlobal op n ∧ n ∈ OMap.keys t.globals ∧ n ∉ OMap.keys i.globalState) ∨
  (∃ n o, e = .multipleGlobal op n ∧ (n, o) ∈ t.globals ∧ 1 < o.minValue ∧ i.UniqueGlobal n) ∨
  (∃ n, e = .unknownAssignment op n ∧ n ∈ OMap.keys t.assignments ∧ n ∉ OMap.keys i.assignments) ∨
  (∃ n o, e = .multipleAssignment op n ∧ (n, o) ∈ t.assignments ∧ 1 < o.minValue ∧ i.UniqueAssign n) ∨
  (∃ n, e = .unknownValency op n ∧ n ∈ t.valencies ∧ n ∉ OMap.keys i.valencies) ∨
  (∃ n, e = .unknownError op n ∧ n ∈ t.errors ∧ n ∉ OMap.keys i.errors)

theorem mem_procOp {i : Iface} {op : OpName} {t : OpIface} {e : IfaceErr} : e ∈ i.procOp op t ↔ OpFaulty i op t e := by
  simp only [procOp, List.mem_append, mem_procMetadata, mem_procGlobals, mem_procAssignments, mem_procValencies,
    mem_procErrors, OpFaulty, or_assoc]

theorem mem_procTransition {i : Iface} {nm : Nat} {t : OpIface} {e : IfaceErr} : e ∈ i.procTransition nm t ↔
    OpFaulty i (.transition nm) t e ∨
      ((∃ n, e = .unknownInput (.transition nm) n ∧ n ∈ OMap.keys t.inputs ∧ n ∉ OMap.keys i.assignments) ∨
       (∃ n o, e = .multipleInputs (.transition nm) n ∧ (n, o) ∈ t.inputs ∧ 1 < o.minValue ∧ i.UniqueAssign n)) ∨
      (∃ n, e = .unknownDefaultAssignment (.transition nm) n ∧ t.defaultAssignment = some n ∧ n ∉ OMap.keys t.assignments) := by
  rw [procTransition, List.mem_append, List.mem_append, or_assoc]
  exact or_congr mem_procOp (or_congr mem_inputs mem_procDefault)

theorem mem_procExtension {i : Iface} {nm : Nat} {t : OpIface} {e : IfaceErr} : e ∈ i.procExtension nm t ↔
    OpFaulty i (.extension nm) t e ∨
      (∃ n, e = .unknownRedeem (.extension nm) n ∧ n ∈ t.redeems ∧ n ∉ OMap.keys i.valencies) ∨
      (∃ n, e = .unknownDefaultAssignment (.extension nm) n ∧ t.defaultAssignment = some n ∧ n ∉ OMap.keys t.assignments) := by
  rw [procExtension, List.mem_append, List.mem_append, or_assoc, mem_flat_if]
  simp only [get?_none_iff]
  exact or_congr mem_procOp (or_congr Iff.rfl mem_procDefault)

theorem mem_check {i : Iface} (hw : i.WF) {validTs : Int → Bool} {now : Int} {e : IfaceErr} :
    e ∈ i.check validTs now ↔
      ((e = .invalidTimestamp i.timestamp ∧ validTs i.timestamp = false) ∨
       (e = .futureTimestamp i.timestamp ∧ validTs i.timestamp = true ∧ now < i.timestamp)) ∨
      (∃ op t, i.HasOp op t ∧ OpFaulty i op t e) ∨
      (∃ nm t, i.HasOp (.transition nm) t ∧
        ((∃ n, e = .unknownInput (.transition nm) n ∧ n ∈ OMap.keys t.inputs ∧ n ∉ OMap.keys i.assignments) ∨
         (∃ n o, e = .multipleInputs (.transition nm) n ∧ (n, o) ∈ t.inputs ∧ 1 < o.minValue ∧ i.UniqueAssign n))) ∨
      (∃ nm t, i.HasOp (.extension nm) t ∧
        (∃ n, e = .unknownRedeem (.extension nm) n ∧ n ∈ t.redeems ∧ n ∉ OMap.keys i.valencies)) ∨
      (∃ op t, op ≠ .genesis ∧ i.HasOp op t ∧
        (∃ n, e = .unknownDefaultAssignment op n ∧ t.defaultAssignment = some n ∧ n ∉ OMap.keys t.assignments)) ∨
      (∃ n, e = .repeatedOperationName n ∧ n ∈ OMap.keys i.transitions ∧ n ∈ OMap.keys i.extensions) ∨
      (∃ n, e = .unknownDefaultOp n ∧ i.defaultOperation = some n ∧ n ∉ OMap.keys i.transitions ∧ n ∉ OMap.keys i.extensions) ∨
      (∃ n g, e = .requiredGlobalAbsent n ∧ OMap.get? i.globalState n = some g ∧ g.required = true ∧ n ∉ OMap.keys i.genesis.globals) ∨
      (∃ n a, e = .requiredAssignmentAbsent n ∧ OMap.get? i.assignments n = some a ∧ a.required = true ∧
        n ∉ OMap.keys i.genesis.assignments) ∨
      (∃ n, e = .requiredValencyAbsent n ∧ OMap.get? i.valencies n = some true ∧ n ∉ i.genesis.valencies) := by
  have hts : (e ∈ (if !validTs i.timestamp then [IfaceErr.invalidTimestamp i.timestamp]
      else if i.timestamp > now then [.futureTimestamp i.timestamp] else [])) ↔
      ((e = .invalidTimestamp i.timestamp ∧ validTs i.timestamp = false) ∨
       (e = .futureTimestamp i.timestamp ∧ validTs i.timestamp = true ∧ now < i.timestamp)) := by
    cases hv : validTs i.timestamp
    · simp
    · by_cases hn : i.timestamp > now
      · simp [hn]
      · simp [hn]
  have htr : (e ∈ i.transitions.flatMap (fun e => i.procTransition e.1 e.2)) ↔
      ∃ nm t, i.HasOp (.transition nm) t ∧ (OpFaulty i (.transition nm) t e ∨
        ((∃ n, e = .unknownInput (.transition nm) n ∧ n ∈ OMap.keys t.inputs ∧ n ∉ OMap.keys i.assignments) ∨
         (∃ n o, e = .multipleInputs (.transition nm) n ∧ (n, o) ∈ t.inputs ∧ 1 < o.minValue ∧ i.UniqueAssign n)) ∨
        (∃ n, e = .unknownDefaultAssignment (.transition nm) n ∧ t.defaultAssignment = some n ∧ n ∉ OMap.keys t.assignments)) := by
    rw [List.mem_flatMap]
    constructor
    · rintro ⟨⟨nm, t⟩, hm, h⟩; exact ⟨nm, t, hw.transitions.get?_of_mem hm, mem_procTransition.mp h⟩
    · rintro ⟨nm, t, hg, h⟩; exact ⟨(nm, t), OMap.mem_of_get? hg, mem_procTransition.mpr h⟩
  have hex : (e ∈ i.extensions.flatMap (fun e => i.procExtension e.1 e.2)) ↔
      ∃ nm t, i.HasOp (.extension nm) t ∧ (OpFaulty i (.extension nm) t e ∨
        (∃ n, e = .unknownRedeem (.extension nm) n ∧ n ∈ t.redeems ∧ n ∉ OMap.keys i.valencies) ∨
        (∃ n, e = .unknownDefaultAssignment (.extension nm) n ∧ t.defaultAssignment = some n ∧ n ∉ OMap.keys t.assignments)) := by
    rw [List.mem_flatMap]
    constructor
    · rintro ⟨⟨nm, t⟩, hm, h⟩; exact ⟨nm, t, hw.extensions.get?_of_mem hm, mem_procExtension.mp h⟩
    · rintro ⟨nm, t, hg, h⟩; exact ⟨(nm, t), OMap.mem_of_get? hg, mem_procExtension.mpr h⟩
  have hrep : (e ∈ (OMap.keys i.transitions).flatMap (fun n => if OMap.contains i.extensions n then [IfaceErr.repeatedOperationName n] else [])) ↔
      ∃ n, e = .repeatedOperationName n ∧ n ∈ OMap.keys i.transitions ∧ n ∈ OMap.keys i.extensions := by
    rw [mem_flat_if]; simp only [contains_true_iff]
  have hdef : (e ∈ (match i.defaultOperation with
      | some n => if (OMap.get? i.transitions n).isNone && (OMap.get? i.extensions n).isNone then [IfaceErr.unknownDefaultOp n] else []
      | none => [])) ↔
      ∃ n, e = .unknownDefaultOp n ∧ i.defaultOperation = some n ∧ n ∉ OMap.keys i.transitions ∧ n ∉ OMap.keys i.extensions := by
    cases i.defaultOperation with
    | none => simp
    | some d =>
      simp only
      constructor
      · intro h
        split at h
        · rename_i hn
          simp only [Bool.and_eq_true, get?_none_iff] at hn
          exact ⟨d, by simpa using h, rfl, hn⟩
        · cases h
      · rintro ⟨n, rfl, hd, hn⟩
        cases hd
        rw [if_pos (by simp only [Bool.and_eq_true, get?_none_iff]; exact hn)]; simp
  have hrg : (e ∈ i.globalState.flatMap (fun e =>
      if e.2.required && (OMap.get? i.genesis.globals e.1).isNone then [IfaceErr.requiredGlobalAbsent e.1] else [])) ↔
      ∃ n g, e = .requiredGlobalAbsent n ∧ OMap.get? i.globalState n = some g ∧ g.required = true ∧ n ∉ OMap.keys i.genesis.globals := by
    rw [mem_flat_if (f := fun e : Nat × GlobalIface => IfaceErr.requiredGlobalAbsent e.1)]
    simp only [Bool.and_eq_true, get?_none_iff]
    constructor
    · rintro ⟨⟨n, g⟩, he, hm, h1, h2⟩; exact ⟨n, g, he, hw.globals.get?_of_mem hm, h1, h2⟩
    · rintro ⟨n, g, he, hm, h1, h2⟩; exact ⟨(n, g), he, OMap.mem_of_get? hm, h1, h2⟩
  have hra : (e ∈ i.assignments.flatMap (fun e =>
      if e.2.required && (OMap.get? i.genesis.assignments e.1).isNone then [IfaceErr.requiredAssignmentAbsent e.1] else [])) ↔
      ∃ n a, e = .requiredAssignmentAbsent n ∧ OMap.get? i.assignments n = some a ∧ a.required = true ∧
        n ∉ OMap.keys i.genesis.assignments := by
    rw [mem_flat_if (f := fun e : Nat × AssignIface => IfaceErr.requiredAssignmentAbsent e.1)]
    simp only [Bool.and_eq_true, get?_none_iff]
    constructor
    · rintro ⟨⟨n, g⟩, he, hm, h1, h2⟩; exact ⟨n, g, he, hw.assignments.get?_of_mem hm, h1, h2⟩
    · rintro ⟨n, g, he, hm, h1, h2⟩; exact ⟨(n, g), he, OMap.mem_of_get? hm, h1, h2⟩
  have hrv : (e ∈ i.valencies.flatMap (fun e => if e.2 && !i.genesis.valencies.contains e.1 then [IfaceErr.requiredValencyAbsent e.1] else [])) ↔
      ∃ n, e = .requiredValencyAbsent n ∧ OMap.get? i.valencies n = some true ∧ n ∉ i.genesis.valencies := by
    rw [mem_flat_if (f := fun e : Nat × Bool => IfaceErr.requiredValencyAbsent e.1)]
    simp only [Bool.and_eq_true, Bool.not_eq_true', List.contains_eq_mem, decide_eq_false_iff_not]
    constructor
    · rintro ⟨⟨n, g⟩, he, hm, h1, h2⟩
      simp only at h1; subst h1
      exact ⟨n, he, hw.valencies.get?_of_mem hm, h2⟩
    · rintro ⟨n, he, hm, h2⟩; exact ⟨(n, true), he, OMap.mem_of_get? hm, rfl, h2⟩
  rw [check]
  simp only [List.mem_append (a := e)]
  refine Iff.trans (or_congr (or_congr (or_congr (or_congr (or_congr (or_congr (or_congr (or_congr
    hts mem_procOp) htr) hex) hrep) hdef) hrg) hra) hrv) ?_
  constructor
  · rintro ((((((((h | h) | h) | h) | h) | h) | h) | h) | h)
    · exact Or.inl h
    · exact Or.inr (Or.inl ⟨.genesis, i.genesis, rfl, h⟩)
    · obtain ⟨nm, t, ho, h | h | h⟩ := h
      · exact Or.inr (Or.inl ⟨_, t, ho, h⟩)
      · exact Or.inr (Or.inr (Or.inl ⟨nm, t, ho, h⟩))
      · exact Or.inr (Or.inr (Or.inr (Or.inr (Or.inl ⟨_, t, by simp, ho, h⟩))))
    · obtain ⟨nm, t, ho, h | h | h⟩ := h
      · exact Or.inr (Or.inl ⟨_, t, ho, h⟩)
      · exact Or.inr (Or.inr (Or.inr (Or.inl ⟨nm, t, ho, h⟩)))
      · exact Or.inr (Or.inr (Or.inr (Or.inr (Or.inl ⟨_, t, by simp, ho, h⟩))))
    · exact Or.inr (Or.inr (Or.inr (Or.inr (Or.inr (Or.inl h)))))
    · exact Or.inr (Or.inr (Or.inr (Or.inr (Or.inr (Or.inr (Or.inl h))))))
    · exact Or.inr (Or.inr (Or.inr (Or.inr (Or.inr (Or.inr (Or.inr (Or.inl h)))))))
    · exact Or.inr (Or.inr (Or.inr (Or.inr (Or.inr (Or.inr (Or.inr (Or.inr (Or.inl h))))))))
    · exact Or.inr (Or.inr (Or.inr (Or.inr (Or.inr (Or.inr (Or.inr (Or.inr (Or.inr h))))))))
  · rintro (h | ⟨op, t, ho, h⟩ | ⟨nm, t, ho, h⟩ | ⟨nm, t, ho, h⟩ | ⟨op, t, hg, ho, h⟩ | h | h | h | h | h)
    · simp only [h, true_or]
    · cases op with
      | genesis => cases ho; simp only [h, true_or, or_true]
      | transition nm => exact Or.inl (Or.inl (Or.inl (Or.inl (Or.inl (Or.inl (Or.inr ⟨nm, t, ho, Or.inl h⟩))))))
      | extension nm => exact Or.inl (Or.inl (Or.inl (Or.inl (Or.inl (Or.inr ⟨nm, t, ho, Or.inl h⟩)))))
    · exact Or.inl (Or.inl (Or.inl (Or.inl (Or.inl (Or.inl (Or.inr ⟨nm, t, ho, Or.inr (Or.inl h)⟩))))))
    · exact Or.inl (Or.inl (Or.inl (Or.inl (Or.inl (Or.inr ⟨nm, t, ho, Or.inr (Or.inl h)⟩)))))
    · cases op with
      | genesis => exact absurd rfl hg
      | transition nm => exact Or.inl (Or.inl (Or.inl (Or.inl (Or.inl (Or.inl (Or.inr ⟨nm, t, ho, Or.inr (Or.inr h)⟩))))))
      | extension nm => exact Or.inl (Or.inl (Or.inl (Or.inl (Or.inl (Or.inr ⟨nm, t, ho, Or.inr (Or.inr h)⟩)))))
    · exact Or.inl (Or.inl (Or.inl (Or.inl (Or.inr h))))
    · exact Or.inl (Or.inl (Or.inl (Or.inr h)))
    · exact Or.inl (Or.inl (Or.inr h))
    · exact Or.inl (Or.inr h)
    · exact Or.inr h

end Iface

/-! ### Schema inheritance -/

theorem mapMismatch_nil {ν : Type} [DecidableEq ν] {f : Nat → InhFailure} {m root : OMap Nat ν} (hs : OMap.Sorted m) :
    mapMismatch f m root = [] ↔ ∀ (n : Nat) (v : ν), OMap.get? m n = some v → OMap.get? root n = some v := by
  rw [mapMismatch, List.flatMap_eq_nil_iff]
  constructor
  · intro h n v hv
    have := h (n, v) (OMap.mem_of_get? hv)
    simp only at this
    cases hr : OMap.get? root n with
    | none => simp [hr] at this
    | some w =>
      simp only [hr] at this
      by_cases hw : w = v
      · rw [hw]
      · rw [if_pos hw] at this; simp at this
  · rintro h ⟨n, v⟩ hm
    simp [h n v (hs.get?_of_mem hm)]

theorem setMismatch_nil {f : Nat → InhFailure} {s root : OSet Nat} : setMismatch f s root = [] ↔ ∀ n ∈ s, n ∈ root := by
  rw [setMismatch, List.flatMap_eq_nil_iff]
  refine forall_congr' fun n => imp_congr_right fun _ => ?_
  by_cases h : n ∈ root <;> simp [h]

theorem OpSchema.checkInheritance_nil {x root : OpSchema} (hw : x.WF) {op : OpFullType} :
    x.checkInheritance op root = [] ↔ x.Within root := by
  simp only [OpSchema.checkInheritance, List.append_eq_nil_iff, mapMismatch_nil hw.globals, mapMismatch_nil hw.assignments,
    setMismatch_nil]
  have hi : (match x.inputs with
      | some inputs => mapMismatch (.opInputMismatch op) inputs (root.inputs.getD [])
      | none => []) = [] ↔
      ∀ m, x.inputs = some m → ∀ (n : Nat) (o : Occ), OMap.get? m n = some o → OMap.get? (root.inputs.getD []) n = some o := by
    have := hw.inputs
    cases hx : x.inputs with
    | none => simp
    | some m =>
      simp only [Option.some.injEq]
      rw [mapMismatch_nil (this m hx)]
      exact ⟨fun h m' hm' => hm' ▸ h, fun h => h m rfl⟩
  have hr : (match x.redeems with
      | some redeems => setMismatch (.opRedeemMismatch op) redeems (root.redeems.getD [])
      | none => []) = [] ↔ ∀ s, x.redeems = some s → ∀ n ∈ s, n ∈ root.redeems.getD [] := by
    cases hx : x.redeems with
    | none => simp
    | some m =>
      simp only [Option.some.injEq]
      rw [setMismatch_nil]
      exact ⟨fun h m' hm' => hm' ▸ h, fun h => h m rfl⟩
  constructor
  · rintro ⟨⟨⟨⟨h1, h2⟩, h3⟩, h4⟩, h5⟩
    exact ⟨h1, hi.mp h2, h3, hr.mp h4, h5⟩
  · rintro ⟨h1, h2, h3, h4, h5⟩
    exact ⟨⟨⟨⟨h1, hi.mpr h2⟩, h3⟩, hr.mpr h4⟩, h5⟩

theorem opsMismatch_nil {f : Nat → InhFailure} {full : Nat → OpFullType} {m root : OMap Nat OpSchema} (hs : OMap.Sorted m)
    (hw : ∀ e ∈ m, e.2.WF) : opsMismatch f full m root = [] ↔
      ∀ (n : Nat) (t : OpSchema), OMap.get? m n = some t → ∃ t', OMap.get? root n = some t' ∧ t.Within t' := by
  rw [opsMismatch, List.flatMap_eq_nil_iff]
  constructor
  · intro h n v hv
    have hm := OMap.mem_of_get? hv
    have := h (n, v) hm
    simp only at this
    cases hr : OMap.get? root n with
    | none => simp [hr] at this
    | some w =>
      simp only [hr] at this
      exact ⟨w, rfl, (OpSchema.checkInheritance_nil (hw _ hm)).mp this⟩
  · rintro h ⟨n, v⟩ hm
    obtain ⟨t', ht', hwi⟩ := h n v (hs.get?_of_mem hm)
    simp only [ht']
    exact (OpSchema.checkInheritance_nil (hw _ hm)).mpr hwi

theorem Schema.checkInheritance_nil {x root : Schema} (hw : x.WF) : x.checkInheritance root = [] ↔ x.Within root := by
  simp only [Schema.checkInheritance, List.append_eq_nil_iff, mapMismatch_nil hw.globals, mapMismatch_nil hw.owned,
    setMismatch_nil, OpSchema.checkInheritance_nil hw.genesis, opsMismatch_nil hw.transitions hw.transitionOps,
    opsMismatch_nil hw.extensions hw.extensionOps]
  constructor
  · rintro ⟨⟨⟨⟨⟨h1, h2⟩, h3⟩, h4⟩, h5⟩, h6⟩; exact ⟨h1, h2, h3, h4, h5, h6⟩
  · rintro ⟨h1, h2, h3, h4, h5, h6⟩; exact ⟨⟨⟨⟨⟨h1, h2⟩, h3⟩, h4⟩, h5⟩, h6⟩

/-! ### Implementations -/

theorem bump_keys (m : List (Nat × Nat)) (n : Nat) : ∀ k, k ∈ m.map Prod.fst ∨ k = n ↔ k ∈ (bump m n).map Prod.fst := by
  induction m with
  | nil => simp [bump]
  | cons e m ih =>
    intro k
    obtain ⟨a, c⟩ := e
    by_cases h : a = n
    · simp only [bump, h, if_true, List.map_cons, List.mem_cons]
      constructor
      · rintro (h | h)
        · exact h
        · exact Or.inl h
      · exact fun h => Or.inl h
    · simp only [bump, if_neg h, List.map_cons, List.mem_cons, ← ih k, or_assoc]

theorem bump_nodup (m : List (Nat × Nat)) (n : Nat) (h : (m.map Prod.fst).Nodup) : ((bump m n).map Prod.fst).Nodup := by
  induction m with
  | nil => simp [bump]
  | cons e m ih =>
    obtain ⟨a, c⟩ := e
    simp only [List.map_cons, List.nodup_cons] at h
    by_cases ha : a = n
    · subst ha; simpa [bump] using h
    · simp only [bump, if_neg ha, List.map_cons, List.nodup_cons]
      refine ⟨?_, ih h.2⟩
      rw [← bump_keys]
      rintro (h' | h')
      · exact h.1 h'
      · exact ha h'

theorem bump_mem (m : List (Nat × Nat)) (n : Nat) (hnd : (m.map Prod.fst).Nodup) (k c : Nat) :
    (k, c) ∈ bump m n ↔ (k ≠ n ∧ (k, c) ∈ m) ∨ (k = n ∧ ((n ∉ m.map Prod.fst ∧ c = 0) ∨ ∃ c', c = c' + 1 ∧ (n, c') ∈ m)) := by
  induction m with
  | nil => simp [bump]
  | cons e m ih =>
    obtain ⟨a, d⟩ := e
    simp only [List.map_cons, List.nodup_cons] at hnd
    have ih := ih hnd.2
    by_cases ha : a = n
    · subst ha
      simp only [bump, if_true, List.mem_cons, Prod.mk.injEq, List.map_cons]
      have hno : ∀ c, (a, c) ∉ m := fun c hm => hnd.1 (List.mem_map_of_mem (f := Prod.fst) hm)
      constructor
      · rintro (⟨rfl, rfl⟩ | hm)
        · exact Or.inr ⟨rfl, Or.inr ⟨d, rfl, Or.inl ⟨trivial, rfl⟩⟩⟩
        · refine Or.inl ⟨?_, Or.inr hm⟩
          rintro rfl; exact hno c hm
      · rintro (⟨hk, ⟨rfl, _⟩ | hm⟩ | ⟨rfl, ⟨h, _⟩ | ⟨c', rfl, ⟨_, rfl⟩ | hm⟩⟩)
        · exact absurd rfl hk
        · exact Or.inr hm
        · exact absurd (Or.inl trivial) h
        · exact Or.inl ⟨rfl, rfl⟩
        · exact absurd hm (hno c')
    · simp only [bump, if_neg ha, List.mem_cons, Prod.mk.injEq, List.map_cons, ih]
      constructor
      · rintro (⟨rfl, rfl⟩ | ⟨hk, hm⟩ | ⟨rfl, ⟨h, rfl⟩ | ⟨c', rfl, hm⟩⟩)
        · exact Or.inl ⟨ha, Or.inl ⟨rfl, rfl⟩⟩
        · exact Or.inl ⟨hk, Or.inr hm⟩
        · exact Or.inr ⟨rfl, Or.inl ⟨fun h' => h'.elim (fun e => ha e.symm) h, rfl⟩⟩
        · exact Or.inr ⟨rfl, Or.inr ⟨c', rfl, Or.inr hm⟩⟩
      · rintro (⟨hk, ⟨rfl, rfl⟩ | hm⟩ | ⟨rfl, ⟨h, rfl⟩ | ⟨c', rfl, ⟨rfl, _⟩ | hm⟩⟩)
        · exact Or.inl ⟨rfl, rfl⟩
        · exact Or.inr (Or.inl ⟨hk, hm⟩)
        · exact Or.inr (Or.inr ⟨rfl, Or.inl ⟨fun h' => h (Or.inr h'), rfl⟩⟩)
        · exact absurd rfl ha
        · exact Or.inr (Or.inr ⟨rfl, Or.inr ⟨c', rfl, hm⟩⟩)

/-- The counters: a name met `c + 1` times has the counter `c`. -/
theorem bumps (fields : List NamedField) :
    ∀ (m : List (Nat × Nat)) (seen : Nat → Nat), (m.map Prod.fst).Nodup → (∀ k c, (k, c) ∈ m ↔ seen k = c + 1) →
      ∀ k c, (k, c) ∈ fields.foldl (fun m f => bump m f.name) m ↔ seen k + fields.countP (fun f => f.name = k) = c + 1 := by
  induction fields with
  | nil => intro m seen _ h k c; simpa using h k c
  | cons f fields ih =>
    intro m seen hnd h k c
    rw [List.foldl_cons, ih (bump m f.name) (fun k => seen k + if f.name = k then 1 else 0) (bump_nodup _ _ hnd)]
    · rw [List.countP_cons]
      by_cases hk : f.name = k <;> simp [hk] <;> omega
    · intro k c
      rw [bump_mem _ _ hnd]
      by_cases hk : f.name = k
      · subst hk
        simp only [ne_eq, not_true_eq_false, false_and, true_and, false_or, if_true]
        constructor
        · rintro (⟨h', rfl⟩ | ⟨c', rfl, hm⟩)
          · have : seen f.name = 0 := by
              rcases Nat.eq_zero_or_pos (seen f.name) with h0 | h0
              · exact h0
              · exact absurd (List.mem_map_of_mem (f := Prod.fst) ((h f.name (seen f.name - 1)).mpr (by omega))) h'
            omega
          · have := (h _ _).mp hm; omega
        · intro he
          rcases Nat.eq_zero_or_pos c with h0 | h0
          · subst h0
            refine Or.inl ⟨?_, rfl⟩
            intro hm
            obtain ⟨⟨k, c⟩, hm, hk⟩ := List.mem_map.mp hm
            have := (h _ _).mp hm
            simp only at hk
            rw [hk] at this; omega
          · exact Or.inr ⟨c - 1, by omega, (h _ _).mpr (by omega)⟩
      · have hk' : k ≠ f.name := fun e => hk e.symm
        simp [hk, hk', h]

theorem mem_checkFields {k : FieldKind} {names : List Nat} {fields : OSet NamedField} {known : Nat → Bool} {e : ImplErr} :
    e ∈ checkFields k names fields known ↔
      (∃ n, e = .ifaceAbsent k n ∧ n ∈ names ∧ bindings fields n = 0) ∨
      (∃ f, e = .schemaAbsent k f.name f.id ∧ f ∈ fields ∧ known f.id = false) ∨
      (∃ n c, e = .repeated k n c ∧ 1 < c ∧ bindings fields n = c + 1) := by
  simp only [checkFields, List.mem_append, Iface.mem_flat_if, List.mem_map, List.mem_filter, or_assoc]
  refine or_congr ?_ (or_congr ?_ ?_)
  · refine exists_congr fun n => and_congr_right fun _ => and_congr_right fun _ => ?_
    simp [bindings, List.countP_eq_zero, List.all_eq_true]
  · refine exists_congr fun f => and_congr_right fun _ => and_congr_right fun _ => ?_
    simp
  · have := bumps fields [] (fun _ => 0) (by simp) (by simp)
    simp only [Nat.zero_add] at this
    constructor
    · rintro ⟨⟨n, c⟩, ⟨hm, hc⟩, rfl⟩
      exact ⟨n, c, rfl, by simpa using hc, (this n c).mp hm⟩
    · rintro ⟨n, c, rfl, hc, hb⟩
      exact ⟨(n, c), ⟨(this n c).mpr hb, by simpa using hc⟩, rfl⟩

theorem mem_pick {keys : List Nat} {inP : Nat → Bool} {fields : OSet NamedField} {f : NamedField} :
    f ∈ IfaceImpl.pick keys inP fields ↔
      f.name ∈ keys ∧ inP f.name = true ∧ fields.find? (fun g => g.name = f.name) = some f := by
  rw [IfaceImpl.pick, OSet.mem_ofList, List.mem_filterMap]
  constructor
  · rintro ⟨n, hn, hf⟩
    have h1 := List.find?_some hf
    simp only [Bool.and_eq_true, decide_eq_true_eq] at h1
    obtain ⟨hp, rfl⟩ := h1
    refine ⟨hn, hp, ?_⟩
    simpa [hp] using hf
  · rintro ⟨hn, hp, hf⟩
    exact ⟨f.name, hn, by simpa [hp] using hf⟩

theorem typeByName_pick {keys : List Nat} {inP : Nat → Bool} {fields : OSet NamedField} {n : Nat} :
    typeByName (IfaceImpl.pick keys inP fields) n = if n ∈ keys ∧ inP n = true then typeByName fields n else none := by
  simp only [typeByName]
  cases hf : (IfaceImpl.pick keys inP fields).find? (fun f => f.name = n) with
  | some f =>
    have hm := mem_pick.mp (List.mem_of_find?_eq_some hf)
    have hn := List.find?_some hf
    simp only [decide_eq_true_eq] at hn
    subst hn
    rw [if_pos ⟨hm.1, hm.2.1⟩, hm.2.2]
  | none =>
    by_cases hc : n ∈ keys ∧ inP n = true
    · rw [if_pos hc]
      cases hg : fields.find? (fun f => f.name = n) with
      | none => rfl
      | some g =>
        have hn := List.find?_some hg
        simp only [decide_eq_true_eq] at hn
        subst hn
        have := mem_pick.mpr ⟨hc.1, hc.2, hg⟩
        have := List.find?_eq_none.mp hf g this
        simp at this
    · rw [if_neg hc]; rfl

theorem Iface.WF.op {i : Iface} (hw : i.WF) {op : OpName} {t : OpIface} (h : i.HasOp op t) : t.WF := by
  cases op with
  | genesis => cases h; exact hw.genesis
  | transition n => exact hw.transitionOps _ (OMap.mem_of_get? h)
  | extension n => exact hw.extensionOps _ (OMap.mem_of_get? h)

theorem IfaceImpl.mem_check (x : IfaceImpl) (i : Iface) (s : Schema) (validTs : Int → Bool) (now : Int) (e : ImplErr) :
    e ∈ x.check i s validTs now ↔
      (e = .invalidTimestamp x.timestamp ∧ validTs x.timestamp = false) ∨
      (e = .futureTimestamp x.timestamp ∧ validTs x.timestamp = true ∧ now < x.timestamp) ∨
      (∃ k n, e = .ifaceAbsent k n ∧ n ∈ i.names k ∧ bindings (x.fields k) n = 0) ∨
      (∃ k, ∃ f, e = .schemaAbsent k f.name f.id ∧ f ∈ x.fields k ∧ f.id ∉ s.types k) ∨
      (∃ k n c, e = .repeated k n c ∧ 1 < c ∧ bindings (x.fields k) n = c + 1) ∨
      (∃ f, e = .ifaceErrorAbsent f.name ∧ f ∈ x.errors ∧ f.name ∉ OMap.keys i.errors) := by
  have hts : (e ∈ (if !validTs x.timestamp then [ImplErr.invalidTimestamp x.timestamp]
      else if x.timestamp > now then [.futureTimestamp x.timestamp] else [])) ↔
      ((e = .invalidTimestamp x.timestamp ∧ validTs x.timestamp = false) ∨
       (e = .futureTimestamp x.timestamp ∧ validTs x.timestamp = true ∧ now < x.timestamp)) := by
    cases hv : validTs x.timestamp
    · simp
    · by_cases hn : x.timestamp > now <;> simp [hn]
  have herr : (e ∈ x.errors.flatMap (fun v => if (OMap.keys i.errors).all (fun n => n ≠ v.name) then [ImplErr.ifaceErrorAbsent v.name] else []))
      ↔ ∃ f, e = .ifaceErrorAbsent f.name ∧ f ∈ x.errors ∧ f.name ∉ OMap.keys i.errors := by
    rw [Iface.mem_flat_if (f := fun v : NamedField => ImplErr.ifaceErrorAbsent v.name)]
    refine exists_congr fun f => and_congr_right fun _ => and_congr_right fun _ => ?_
    simp only [List.all_eq_true, decide_eq_true_eq]
    exact ⟨fun h hm => h _ hm rfl, fun h n hn he => h (he ▸ hn)⟩
  have hall : (e ∈ checkFields .metadata (OMap.keys i.metadata) x.metadata (OMap.contains s.metaTypes) ∨
      e ∈ checkFields .global (OMap.keys i.globalState) x.globalState (OMap.contains s.globalTypes) ∨
      e ∈ checkFields .assignment (OMap.keys i.assignments) x.assignments (OMap.contains s.ownedTypes) ∨
      e ∈ checkFields .valency (OMap.keys i.valencies) x.valencies (fun n => s.valencyTypes.contains n) ∨
      e ∈ checkFields .transition (OMap.keys i.transitions) x.transitions (OMap.contains s.transitions) ∨
      e ∈ checkFields .extension (OMap.keys i.extensions) x.extensions (OMap.contains s.extensions)) ↔
      ∃ k, ((∃ n, e = .ifaceAbsent k n ∧ n ∈ i.names k ∧ bindings (x.fields k) n = 0) ∨
        (∃ f, e = .schemaAbsent k f.name f.id ∧ f ∈ x.fields k ∧ f.id ∉ s.types k) ∨
        (∃ n c, e = .repeated k n c ∧ 1 < c ∧ bindings (x.fields k) n = c + 1)) := by
    simp only [mem_checkFields, contains_false_iff, List.contains_eq_mem, decide_eq_false_iff_not]
    constructor
    · rintro (h | h | h | h | h | h)
      · exact ⟨.metadata, h⟩
      · exact ⟨.global, h⟩
      · exact ⟨.assignment, h⟩
      · exact ⟨.valency, h⟩
      · exact ⟨.transition, h⟩
      · exact ⟨.extension, h⟩
    · rintro ⟨k, h⟩
      cases k
      · exact Or.inl h
      · exact Or.inr (Or.inl h)
      · exact Or.inr (Or.inr (Or.inl h))
      · exact Or.inr (Or.inr (Or.inr (Or.inl h)))
      · exact Or.inr (Or.inr (Or.inr (Or.inr (Or.inl h))))
      · exact Or.inr (Or.inr (Or.inr (Or.inr (Or.inr h))))
  rw [IfaceImpl.check]
  simp only [List.mem_append (a := e)]
  rw [herr, hts]
  have hsplit : (∃ k, ((∃ n, e = .ifaceAbsent k n ∧ n ∈ i.names k ∧ bindings (x.fields k) n = 0) ∨
        (∃ f, e = .schemaAbsent k f.name f.id ∧ f ∈ x.fields k ∧ f.id ∉ s.types k) ∨
        (∃ n c, e = .repeated k n c ∧ 1 < c ∧ bindings (x.fields k) n = c + 1))) ↔
      (∃ k n, e = .ifaceAbsent k n ∧ n ∈ i.names k ∧ bindings (x.fields k) n = 0) ∨
      (∃ k, ∃ f, e = .schemaAbsent k f.name f.id ∧ f ∈ x.fields k ∧ f.id ∉ s.types k) ∨
      (∃ k n c, e = .repeated k n c ∧ 1 < c ∧ bindings (x.fields k) n = c + 1) := by
    simp only [exists_or]
  rw [hsplit] at hall
  simp only [or_assoc] at hall ⊢
  constructor
  · rintro (h | h | h | h | h | h | h | h | h)
    · exact Or.inl h
    · exact Or.inr (Or.inl h)
    all_goals first | exact Or.inr (Or.inr (Or.inr (Or.inr (Or.inr h)))) | skip
    all_goals
      have := hall.mp (by simp only [h, true_or, or_true])
      rcases this with h | h | h
      · exact Or.inr (Or.inr (Or.inl h))
      · exact Or.inr (Or.inr (Or.inr (Or.inl h)))
      · exact Or.inr (Or.inr (Or.inr (Or.inr (Or.inl h))))
  · rintro (h | h | h | h | h | h)
    · exact Or.inl h
    · exact Or.inr (Or.inl h)
    all_goals first | (have := hall.mpr (by simp only [h, true_or, or_true])) | skip
    iterate 3
      rcases this with h | h | h | h | h | h
      · exact Or.inr (Or.inr (Or.inl h))
      · exact Or.inr (Or.inr (Or.inr (Or.inl h)))
      · exact Or.inr (Or.inr (Or.inr (Or.inr (Or.inl h))))
      · exact Or.inr (Or.inr (Or.inr (Or.inr (Or.inr (Or.inl h)))))
      · exact Or.inr (Or.inr (Or.inr (Or.inr (Or.inr (Or.inr (Or.inl h))))))
      · exact Or.inr (Or.inr (Or.inr (Or.inr (Or.inr (Or.inr (Or.inr (Or.inl h)))))))
    exact Or.inr (Or.inr (Or.inr (Or.inr (Or.inr (Or.inr (Or.inr (Or.inr h)))))))

theorem find?_unique {fields : List NamedField} {f : NamedField} (hf : f ∈ fields)
    (hu : bindings fields f.name ≤ 1) : fields.find? (fun g => g.name = f.name) = some f := by
  induction fields with
  | nil => cases hf
  | cons a l ih =>
    simp only [bindings, List.countP_cons] at hu
    by_cases ha : a.name = f.name
    · simp only [ha, decide_true, if_true] at hu
      have h0 : List.countP (fun g => decide (g.name = f.name)) l = 0 := by omega
      rcases List.mem_cons.mp hf with rfl | hf
      · simp
      · have := List.countP_eq_zero.mp h0 f hf
        simp at this
    · rcases List.mem_cons.mp hf with rfl | hf
      · exact absurd rfl ha
      · rw [List.find?_cons_of_neg (by simpa using ha)]
        refine ih hf ?_
        simpa [bindings, ha] using hu

theorem Iface.inheritLoop_ops {hid : Iface → Nat} {name : Nat} (rest : List Iface) :
    ∀ (i c : Iface), i.WF → (∀ j ∈ rest, j.WF) → Iface.inheritLoop hid name i rest = .ok c →
      ∀ p ∈ i :: rest, ∀ (n : Nat) (t : OpIface), (t.optional = false ∨ p = i) →
        (OMap.get? p.transitions n = some t → ∃ t', OMap.get? c.transitions n = some t' ∧ t'.Keeps t) ∧
        (OMap.get? p.extensions n = some t → ∃ t', OMap.get? c.extensions n = some t' ∧ t'.Keeps t) := by
  induction rest with
  | nil =>
    intro i c _ _ h p hp n t ho
    simp only [Iface.inheritLoop, Except.ok.injEq] at h
    subst h
    simp only [List.mem_singleton] at hp
    subst hp
    exact ⟨fun h => ⟨t, h, .refl t⟩, fun h => ⟨t, h, .refl t⟩⟩
  | cons e rest ih =>
    intro i c hi hr h p hp n t ho
    simp only [Iface.inheritLoop] at h
    split at h
    · rename_i i' hx
      have he := hr e (by simp)
      have hk := Iface.extended_ok hx
      have hi' := hk.wf hi he
      have hrec := ih i' c hi' (fun j hj => hr j (by simp [hj])) h
      rcases List.mem_cons.mp hp with rfl | hp'
      · constructor
        · intro hg
          obtain ⟨t1, h1, k1, _⟩ := opsLoop_base _ _ hk.transitions.1 n t hg
          rw [← hk.transitions.2] at h1
          obtain ⟨t2, h2, k2⟩ := (hrec i' (by simp) n t1 (Or.inr rfl)).1 h1
          exact ⟨t2, h2, k2.trans k1⟩
        · intro hg
          obtain ⟨t1, h1, k1, _⟩ := opsLoop_base _ _ hk.extensions.1 n t hg
          rw [← hk.extensions.2] at h1
          obtain ⟨t2, h2, k2⟩ := (hrec i' (by simp) n t1 (Or.inr rfl)).2 h1
          exact ⟨t2, h2, k2.trans k1⟩
      · by_cases hpi : p = i
        · subst hpi
          constructor
          · intro hg
            obtain ⟨t1, h1, k1, _⟩ := opsLoop_base _ _ hk.transitions.1 n t hg
            rw [← hk.transitions.2] at h1
            obtain ⟨t2, h2, k2⟩ := (hrec i' (by simp) n t1 (Or.inr rfl)).1 h1
            exact ⟨t2, h2, k2.trans k1⟩
          · intro hg
            obtain ⟨t1, h1, k1, _⟩ := opsLoop_base _ _ hk.extensions.1 n t hg
            rw [← hk.extensions.2] at h1
            obtain ⟨t2, h2, k2⟩ := (hrec i' (by simp) n t1 (Or.inr rfl)).2 h1
            exact ⟨t2, h2, k2.trans k1⟩
        · have ho' : t.optional = false := ho.elim (fun h => h) (fun h => absurd h hpi)
          rcases List.mem_cons.mp hp' with rfl | hp''
          · constructor
            · intro hg
              obtain ⟨t1, h1, k1⟩ := opsLoop_ext _ _ he.transitions.nodup hk.transitions.1 n t hg
                (he.transitionOps _ (OMap.mem_of_get? hg)) (Or.inl ho')
              rw [← hk.transitions.2] at h1
              obtain ⟨t2, h2, k2⟩ := (hrec i' (by simp) n t1 (Or.inr rfl)).1 h1
              exact ⟨t2, h2, k2.trans k1⟩
            · intro hg
              obtain ⟨t1, h1, k1⟩ := opsLoop_ext _ _ he.extensions.nodup hk.extensions.1 n t hg
                (he.extensionOps _ (OMap.mem_of_get? hg)) (Or.inl ho')
              rw [← hk.extensions.2] at h1
              obtain ⟨t2, h2, k2⟩ := (hrec i' (by simp) n t1 (Or.inr rfl)).2 h1
              exact ⟨t2, h2, k2.trans k1⟩
          · exact hrec p (by simp [hp'']) n t (Or.inl ho')
    · cases h

end Rgb
