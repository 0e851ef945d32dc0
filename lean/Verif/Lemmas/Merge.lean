import Verif.Spec.Merge
import Verif.Lemmas.Base

namespace Rgb

theorem OMap.insert_last {κ ν : Type} [Key κ] [DecidableEq κ] (m : OMap κ ν) (k : κ) (v : ν)
    (h : ∀ k' ∈ OMap.keys m, Key.lt k' k = true) : OMap.insert m k v = m ++ [(k, v)] := by
  induction m with
  | nil => rfl
  | cons e m ih =>
    obtain ⟨k₁, v₁⟩ := e
    have h1 := h k₁ (by simp [OMap.keys])
    simp only [OMap.insert]
    rw [if_neg (Ne.symm (Key.lt_ne h1)), if_neg (by rw [Key.lt_asymm h1]; simp),
      ih (fun k' hk' => h k' (by simp only [OMap.keys, List.map_cons, List.mem_cons]; exact .inr hk'))]
    rfl

namespace Assign
variable {H : Commit}

theorem ext_view {a b : Assign} (hc : a.conceal H = b.conceal H) (hs : a.seal? = b.seal?)
    (ht : a.state? = b.state?) : a = b := by
  cases a <;> cases b <;> simp_all [conceal, seal?, state?]

theorem merge_conceal {a b : Assign} (h : a.conceal H = b.conceal H) :
    (a.merge b).conceal H = a.conceal H := by
  cases a <;> cases b <;> simp_all [conceal, merge]

theorem merge_seal (hH : H.Binding) {a b : Assign} (h : a.conceal H = b.conceal H) :
    (a.merge b).seal? = a.seal?.or b.seal? := by
  cases a <;> cases b <;> simp_all [conceal, merge, seal?]
  all_goals first | exact (hH.seal_inj _ _ h.1).symm | skip

theorem merge_state (hH : H.Binding) {a b : Assign} (h : a.conceal H = b.conceal H) :
    (a.merge b).state? = a.state?.or b.state? := by
  cases a <;> cases b <;> simp_all [conceal, merge, state?]
  all_goals first | exact (hH.state_inj _ _ h.2).symm | skip

theorem seal_agree (hH : H.Binding) {a b : Assign} (h : a.conceal H = b.conceal H) {s t : Seal}
    (ha : a.seal? = some s) (hb : b.seal? = some t) : s = t := by
  cases a <;> cases b <;> simp_all [conceal, seal?]
  all_goals exact hH.seal_inj _ _ h.1

theorem state_agree (hH : H.Binding) {a b : Assign} (h : a.conceal H = b.conceal H) {s t : RState}
    (ha : a.state? = some s) (hb : b.state? = some t) : s = t := by
  cases a <;> cases b <;> simp_all [conceal, state?]
  all_goals exact hH.state_inj _ _ h.2

theorem or_comm_of_agree {α : Type} {x y : Option α} (h : ∀ s t, x = some s → y = some t → s = t) :
    x.or y = y.or x := by
  cases x <;> cases y <;> simp_all

theorem merge_comm (hH : H.Binding) {a b : Assign} (h : a.conceal H = b.conceal H) :
    a.merge b = b.merge a := by
  refine ext_view (H := H) ?_ ?_ ?_
  · rw [merge_conceal h, merge_conceal h.symm, h]
  · rw [merge_seal hH h, merge_seal hH h.symm]
    exact or_comm_of_agree fun s t => seal_agree hH h
  · rw [merge_state hH h, merge_state hH h.symm]
    exact or_comm_of_agree fun s t => state_agree hH h

theorem merge_assoc (hH : H.Binding) {a b c : Assign} (h : a.conceal H = b.conceal H)
    (h' : b.conceal H = c.conceal H) : (a.merge b).merge c = a.merge (b.merge c) := by
  have e1 : (a.merge b).conceal H = c.conceal H := (merge_conceal h).trans (h.trans h')
  have e2 : a.conceal H = (b.merge c).conceal H := h.trans (merge_conceal h').symm
  refine ext_view (H := H) ?_ ?_ ?_
  · rw [merge_conceal e1, merge_conceal h, merge_conceal e2]
  · rw [merge_seal hH e1, merge_seal hH h, merge_seal hH e2, merge_seal hH h', Option.or_assoc]
  · rw [merge_state hH e1, merge_state hH h, merge_state hH e2, merge_state hH h', Option.or_assoc]

theorem merge_self (a : Assign) : a.merge a = a := by cases a <;> rfl

end Assign

/-! Pointwise versions on lists -/

def mergeItems (a b : List Assign) : List Assign := List.zipWith Assign.merge a b

section items
variable {H : Commit}

theorem mergeItems_get (a b : List Assign) (i : Nat) (h : a.map (Assign.conceal H) = b.map (Assign.conceal H)) :
    (mergeItems a b)[i]? = (a[i]?).bind (fun x => (b[i]?).map (fun y => x.merge y)) := by
  rw [mergeItems, List.getElem?_zipWith]
  cases a[i]? <;> cases b[i]? <;> rfl

theorem conceal_get {a b : List Assign} (h : a.map (Assign.conceal H) = b.map (Assign.conceal H)) {i : Nat}
    {x y : Assign} (hx : a[i]? = some x) (hy : b[i]? = some y) : x.conceal H = y.conceal H := by
  have := congrArg (fun l => l[i]?) h
  simpa [hx, hy] using this

theorem conceal_len {a b : List Assign} (h : a.map (Assign.conceal H) = b.map (Assign.conceal H)) :
    a.length = b.length := by simpa using congrArg List.length h

theorem mergeItems_conceal {a b : List Assign} (h : a.map (Assign.conceal H) = b.map (Assign.conceal H)) :
    (mergeItems a b).map (Assign.conceal H) = a.map (Assign.conceal H) := by
  induction a generalizing b with
  | nil => cases b <;> rfl
  | cons x a ih =>
    cases b with
    | nil => simp at h
    | cons y b =>
      simp only [List.map_cons, List.cons.injEq, mergeItems, List.zipWith_cons_cons] at h ⊢
      exact ⟨Assign.merge_conceal h.1, ih h.2⟩

theorem mergeItems_comm (hH : H.Binding) {a b : List Assign}
    (h : a.map (Assign.conceal H) = b.map (Assign.conceal H)) : mergeItems a b = mergeItems b a := by
  induction a generalizing b with
  | nil => cases b <;> first | rfl | simp at h
  | cons x a ih =>
    cases b with
    | nil => simp at h
    | cons y b =>
      simp only [List.map_cons, List.cons.injEq, mergeItems, List.zipWith_cons_cons] at h ⊢
      exact ⟨Assign.merge_comm hH h.1, ih h.2⟩

theorem mergeItems_assoc (hH : H.Binding) {a b c : List Assign}
    (h : a.map (Assign.conceal H) = b.map (Assign.conceal H))
    (h' : b.map (Assign.conceal H) = c.map (Assign.conceal H)) :
    mergeItems (mergeItems a b) c = mergeItems a (mergeItems b c) := by
  induction a generalizing b c with
  | nil => cases b <;> rfl
  | cons x a ih =>
    cases b with
    | nil => simp at h
    | cons y b =>
      cases c with
      | nil => simp at h'
      | cons z c =>
        simp only [List.map_cons, List.cons.injEq, mergeItems, List.zipWith_cons_cons] at h h' ⊢
        exact ⟨Assign.merge_assoc hH h.1 h'.1, ih h.2 h'.2⟩

theorem mergeItems_self (a : List Assign) : mergeItems a a = a := by
  induction a with
  | nil => rfl
  | cons x a ih =>
    simp only [mergeItems, List.zipWith_cons_cons, Assign.merge_self] at ih ⊢
    rw [ih]

end items

/-- Merge of two typed assignments of the same kind. -/
def mergeTyped (a b : TypedAssigns) : TypedAssigns := ⟨a.kind, mergeItems a.items b.items⟩

/-- Merge of two assignment maps with the same keys. -/
def mergeMaps (a b : Assignments) : Assignments := List.zipWith (fun x y => (x.1, mergeTyped x.2 y.2)) a b

section typed
variable {H : Commit}

theorem typed_conceal_iff {a b : TypedAssigns} : a.conceal H = b.conceal H ↔
    a.kind = b.kind ∧ a.items.map (Assign.conceal H) = b.items.map (Assign.conceal H) := by
  cases a; cases b; simp [TypedAssigns.conceal]

theorem mergeTyped_conceal {a b : TypedAssigns} (h : a.conceal H = b.conceal H) :
    (mergeTyped a b).conceal H = a.conceal H := by
  rw [typed_conceal_iff] at h ⊢
  exact ⟨rfl, mergeItems_conceal h.2⟩

theorem mergeTyped_comm (hH : H.Binding) {a b : TypedAssigns} (h : a.conceal H = b.conceal H) :
    mergeTyped a b = mergeTyped b a := by
  rw [typed_conceal_iff] at h
  simp [mergeTyped, h.1, mergeItems_comm hH h.2]

theorem mergeTyped_assoc (hH : H.Binding) {a b c : TypedAssigns} (h : a.conceal H = b.conceal H)
    (h' : b.conceal H = c.conceal H) :
    mergeTyped (mergeTyped a b) c = mergeTyped a (mergeTyped b c) := by
  rw [typed_conceal_iff] at h h'
  simp [mergeTyped, mergeItems_assoc hH h.2 h'.2]

theorem mergeTyped_self (a : TypedAssigns) : mergeTyped a a = a := by
  simp [mergeTyped, mergeItems_self]

theorem maps_conceal_cons {k k' : Nat} {x y : TypedAssigns} {a b : Assignments}
    (h : Assignments.conceal H ((k, x) :: a) = Assignments.conceal H ((k', y) :: b)) :
    k = k' ∧ x.conceal H = y.conceal H ∧ Assignments.conceal H a = Assignments.conceal H b := by
  simp only [Assignments.conceal, OMap.mapVals, List.map_cons, List.cons.injEq, Prod.mk.injEq] at h ⊢
  exact ⟨h.1.1, h.1.2, h.2⟩

theorem mergeMaps_conceal {a b : Assignments} (h : Assignments.conceal H a = Assignments.conceal H b) :
    Assignments.conceal H (mergeMaps a b) = Assignments.conceal H a := by
  induction a generalizing b with
  | nil => cases b <;> rfl
  | cons x a ih =>
    cases b with
    | nil => simp [Assignments.conceal, OMap.mapVals] at h
    | cons y b =>
      obtain ⟨k, x⟩ := x; obtain ⟨k', y⟩ := y
      obtain ⟨h1, h2, h3⟩ := maps_conceal_cons h
      have := ih h3
      simp only [mergeMaps, List.zipWith_cons_cons, Assignments.conceal, OMap.mapVals, List.map_cons] at this ⊢
      rw [this, mergeTyped_conceal h2]

theorem mergeMaps_keys {a b : Assignments} (h : Assignments.conceal H a = Assignments.conceal H b) :
    OMap.keys (mergeMaps a b) = OMap.keys a := by
  have := congrArg OMap.keys (mergeMaps_conceal h)
  simpa [Assignments.conceal, OMap.keys_mapVals] using this

theorem mergeMaps_comm (hH : H.Binding) {a b : Assignments}
    (h : Assignments.conceal H a = Assignments.conceal H b) : mergeMaps a b = mergeMaps b a := by
  induction a generalizing b with
  | nil => cases b <;> rfl
  | cons x a ih =>
    cases b with
    | nil => rfl
    | cons y b =>
      obtain ⟨k, x⟩ := x; obtain ⟨k', y⟩ := y
      obtain ⟨h1, h2, h3⟩ := maps_conceal_cons h
      have := ih h3
      simp only [mergeMaps, List.zipWith_cons_cons] at this ⊢
      rw [this, mergeTyped_comm hH h2, h1]

theorem mergeMaps_assoc (hH : H.Binding) {a b c : Assignments}
    (h : Assignments.conceal H a = Assignments.conceal H b)
    (h' : Assignments.conceal H b = Assignments.conceal H c) :
    mergeMaps (mergeMaps a b) c = mergeMaps a (mergeMaps b c) := by
  induction a generalizing b c with
  | nil => cases b <;> rfl
  | cons x a ih =>
    cases b with
    | nil => rfl
    | cons y b =>
      cases c with
      | nil => rfl
      | cons z c =>
        obtain ⟨k, x⟩ := x; obtain ⟨k', y⟩ := y; obtain ⟨k'', z⟩ := z
        obtain ⟨h1, h2, h3⟩ := maps_conceal_cons h
        obtain ⟨h1', h2', h3'⟩ := maps_conceal_cons h'
        have := ih h3 h3'
        simp only [mergeMaps, List.zipWith_cons_cons] at this ⊢
        rw [this, mergeTyped_assoc hH h2 h2']

theorem mergeMaps_self (a : Assignments) : mergeMaps a a = a := by
  induction a with
  | nil => rfl
  | cons x a ih =>
    simp only [mergeMaps, List.zipWith_cons_cons, mergeTyped_self] at ih ⊢
    rw [ih]

theorem mergeMaps_get {a b : Assignments} (h : Assignments.conceal H a = Assignments.conceal H b) (k : Nat) :
    OMap.get? (mergeMaps a b) k =
      (OMap.get? a k).bind (fun x => (OMap.get? b k).map (fun y => mergeTyped x y)) := by
  induction a generalizing b with
  | nil => cases b <;> rfl
  | cons x a ih =>
    cases b with
    | nil => simp [Assignments.conceal, OMap.mapVals] at h
    | cons y b =>
      obtain ⟨k₁, x⟩ := x; obtain ⟨k₂, y⟩ := y
      obtain ⟨h1, h2, h3⟩ := maps_conceal_cons h
      have := ih h3
      subst h1
      simp only [mergeMaps, List.zipWith_cons_cons, OMap.get?_cons] at this ⊢
      split
      · rfl
      · exact this

theorem mergeLoop_eq {a b : Assignments} (h : Assignments.conceal H a = Assignments.conceal H b)
    (acc : Assignments) (hs : OMap.Sorted (acc ++ a)) :
    Assignments.mergeLoop (List.zip a b) acc = .ok (acc ++ mergeMaps a b) := by
  induction a generalizing b acc with
  | nil => cases b <;> simp [Assignments.mergeLoop, mergeMaps]
  | cons x a ih =>
    cases b with
    | nil => simp [Assignments.conceal, OMap.mapVals] at h
    | cons y b =>
      obtain ⟨k₁, x⟩ := x; obtain ⟨k₂, y⟩ := y
      obtain ⟨h1, h2, h3⟩ := maps_conceal_cons h
      subst h1
      have hk : x.kind = y.kind := (typed_conceal_iff.mp h2).1
      have hlast : OMap.insert acc k₁ (mergeTyped x y) = acc ++ [(k₁, mergeTyped x y)] := by
        refine OMap.insert_last _ _ _ fun k' hk' => ?_
        have := hs
        simp only [OMap.Sorted, OMap.keys, List.map_append, List.map_cons] at this hk'
        rw [List.pairwise_append] at this
        exact this.2.2 k' hk' k₁ (by simp)
      simp only [List.zip_cons_cons, Assignments.mergeLoop, TypedAssigns.merge, hk, if_true]
      have hm : (⟨y.kind, List.zipWith Assign.merge x.items y.items⟩ : TypedAssigns) = mergeTyped x y := by
        simp [mergeTyped, mergeItems, hk]
      rw [hm, hlast, ih h3]
      · simp [mergeMaps]
      · have e : OMap.keys (acc ++ [(k₁, mergeTyped x y)] ++ a) = OMap.keys (acc ++ (k₁, x) :: a) := by
          simp [OMap.keys]
        rw [OMap.Sorted, e]; exact hs

theorem Assignments.merge_eq {a b : Assignments} (h : Assignments.conceal H a = Assignments.conceal H b)
    (hs : OMap.Sorted a) : Assignments.merge a b = .ok (mergeMaps a b) := by
  have := mergeLoop_eq h [] (by simpa using hs)
  simpa [Assignments.merge] using this

end typed

namespace Op
variable {H : Commit}

theorem conceal_of_id (hH : H.Binding) {a b : Op} (h : a.id H = b.id H) : a.conceal H = b.conceal H :=
  hH.op_inj _ _ h

theorem conceal_assigns {a b : Op} (h : a.conceal H = b.conceal H) :
    Assignments.conceal H a.assigns = Assignments.conceal H b.assigns := congrArg Op.assigns h

theorem conceal_rest {a b : Op} (h : a.conceal H = b.conceal H) (as : Assignments) :
    { a with assigns := as } = { b with assigns := as } := by
  cases a; cases b; simp only [Op.conceal, Op.mk.injEq] at h ⊢; simp [h]

theorem merge_eq (hH : H.Binding) {a b : Op} (h : a.id H = b.id H) (ha : a.WF) :
    a.merge H b = .ok { a with assigns := mergeMaps a.assigns b.assigns } := by
  have hc := conceal_assigns (conceal_of_id hH h)
  simp [Op.merge, h, Assignments.merge_eq hc ha]

theorem merge_id (hH : H.Binding) {a b : Op} (h : a.id H = b.id H) :
    Op.id H { a with assigns := mergeMaps a.assigns b.assigns } = a.id H := by
  have hc := conceal_assigns (conceal_of_id hH h)
  simp [Op.id, Op.conceal, mergeMaps_conceal hc]

theorem merge_wf (hH : H.Binding) {a b : Op} (h : a.id H = b.id H) (ha : a.WF) :
    Op.WF { a with assigns := mergeMaps a.assigns b.assigns } := by
  have hc := conceal_assigns (conceal_of_id hH h)
  rw [Op.WF, OMap.Sorted]
  show List.Pairwise _ (OMap.keys (mergeMaps a.assigns b.assigns))
  rw [mergeMaps_keys hc]; exact ha

theorem get_conceal {a b : Assignments} (h : Assignments.conceal H a = Assignments.conceal H b) (k : Nat) :
    (OMap.get? a k).map (TypedAssigns.conceal H) = (OMap.get? b k).map (TypedAssigns.conceal H) := by
  have := congrArg (fun m => OMap.get? m k) h
  simpa [Assignments.conceal, OMap.get?_mapVals] using this

/-- Position view of the merged operation. -/
theorem merge_at (hH : H.Binding) {a b : Op} (h : a.id H = b.id H) (ty i : Nat) :
    Op.at? { a with assigns := mergeMaps a.assigns b.assigns } ty i =
      (a.at? ty i).bind (fun x => (b.at? ty i).map (fun y => x.merge y)) := by
  have hc := conceal_assigns (conceal_of_id hH h)
  have hg := get_conceal hc ty
  simp only [Op.at?, mergeMaps_get hc ty]
  cases hx : OMap.get? a.assigns ty with
  | none => simp
  | some x =>
    cases hy : OMap.get? b.assigns ty with
    | none => simp [hx, hy] at hg
    | some y =>
      simp only [hx, hy, Option.map_some, Option.some.injEq] at hg
      have h2 := (typed_conceal_iff.mp hg).2
      simp only [Option.bind_some, Option.map_some, mergeTyped]
      rw [mergeItems_get (H := H) _ _ _ h2]

theorem at_conceal (hH : H.Binding) {a b : Op} (h : a.id H = b.id H) (ty i : Nat) :
    (a.at? ty i).map (Assign.conceal H) = (b.at? ty i).map (Assign.conceal H) := by
  have hc := conceal_assigns (conceal_of_id hH h)
  have hg := get_conceal hc ty
  simp only [Op.at?]
  cases hx : OMap.get? a.assigns ty with
  | none =>
    cases hy : OMap.get? b.assigns ty with
    | none => rfl
    | some y => simp [hx, hy] at hg
  | some x =>
    cases hy : OMap.get? b.assigns ty with
    | none => simp [hx, hy] at hg
    | some y =>
      simp only [hx, hy, Option.map_some, Option.some.injEq] at hg
      have := congrArg (fun l => l[i]?) (typed_conceal_iff.mp hg).2
      simpa using this

theorem merge_sealAt (hH : H.Binding) {a b : Op} (h : a.id H = b.id H) (ty i : Nat) :
    Op.sealAt? { a with assigns := mergeMaps a.assigns b.assigns } ty i =
      (a.sealAt? ty i).or (b.sealAt? ty i) := by
  have hc := at_conceal hH h ty i
  simp only [Op.sealAt?, merge_at hH h]
  cases hx : a.at? ty i with
  | none =>
    cases hy : b.at? ty i with
    | none => rfl
    | some y => simp [hx, hy] at hc
  | some x =>
    cases hy : b.at? ty i with
    | none => simp [hx, hy] at hc
    | some y =>
      simp only [hx, hy, Option.map_some, Option.some.injEq] at hc
      simp [Assign.merge_seal hH hc]

theorem merge_stateAt (hH : H.Binding) {a b : Op} (h : a.id H = b.id H) (ty i : Nat) :
    Op.stateAt? { a with assigns := mergeMaps a.assigns b.assigns } ty i =
      (a.stateAt? ty i).or (b.stateAt? ty i) := by
  have hc := at_conceal hH h ty i
  simp only [Op.stateAt?, merge_at hH h]
  cases hx : a.at? ty i with
  | none =>
    cases hy : b.at? ty i with
    | none => rfl
    | some y => simp [hx, hy] at hc
  | some x =>
    cases hy : b.at? ty i with
    | none => simp [hx, hy] at hc
    | some y =>
      simp only [hx, hy, Option.map_some, Option.some.injEq] at hc
      simp [Assign.merge_state hH hc]

theorem sealAt_agree (hH : H.Binding) {a b : Op} (h : a.id H = b.id H) {ty i : Nat} {s t : Seal}
    (ha : a.sealAt? ty i = some s) (hb : b.sealAt? ty i = some t) : s = t := by
  have hc := at_conceal hH h ty i
  simp only [Op.sealAt?, Option.bind_eq_some_iff] at ha hb
  obtain ⟨x, hx, hs⟩ := ha; obtain ⟨y, hy, ht⟩ := hb
  simp only [hx, hy, Option.map_some, Option.some.injEq] at hc
  exact Assign.seal_agree hH hc hs ht

theorem stateAt_agree (hH : H.Binding) {a b : Op} (h : a.id H = b.id H) {ty i : Nat} {s t : RState}
    (ha : a.stateAt? ty i = some s) (hb : b.stateAt? ty i = some t) : s = t := by
  have hc := at_conceal hH h ty i
  simp only [Op.stateAt?, Option.bind_eq_some_iff] at ha hb
  obtain ⟨x, hx, hs⟩ := ha; obtain ⟨y, hy, ht⟩ := hb
  simp only [hx, hy, Option.map_some, Option.some.injEq] at hc
  exact Assign.state_agree hH hc hs ht

end Op

end Rgb
