import Verif.Spec.Payment
import Verif.Lemmas.Arrive
import Verif.Lemmas.Recover
import Verif.Lemmas.ResumeStock
import Verif.Lemmas.Batch
import Verif.Lemmas.Paid

/-!
What is needed to follow a payment from composing to its arrival.
-/

namespace Rgb

open MemStash Stock Props

variable {H : Commit} {I : Ids} {M : Mpc} {G : SchemaDoc → SchemaGlobals} {r : Resolver} {k k' : Stock} {e : StockEvent}

theorem mem_terminals {x : Index} (hx : IdxInv x) {s : Nat} {o : Opout} : o ∈ x.opoutsByTerminals [s] ↔ o ∈ mset x.terminals s := by
  simp only [Index.opoutsByTerminals, OSet.mem_ofList, List.mem_flatMap, List.mem_filter, decide_eq_true_eq, List.mem_singleton]
  constructor
  · rintro ⟨⟨s', set⟩, ⟨h1, h2⟩, h3⟩
    simp only at h2 h3
    subst h2
    rw [mset, hx.sortedT.get?_of_mem h1]; exact h3
  · intro h
    cases hg : OMap.get? x.terminals s with
    | none => simp [mset, hg] at h
    | some set => exact ⟨(s, set), ⟨OMap.mem_of_get? hg, rfl⟩, by simpa [mset, hg] using h⟩

/-- The index after an event which is finished without an error. -/
theorem done_index (hd : e.Done H I M G k k') : ∃ calls, IdxCall.execAll k.index calls = (k'.index, none) ∧
    ∀ f r, e = .fascia f r → calls = f.bundles.flatMap (fun x => Index.bundleCalls H x.1 x.2 f.witness.id) := by
  cases e with
  | consignment con r =>
    obtain ⟨con', -, h2⟩ := consignment_done hd
    exact ⟨_, body_index h2, fun _ _ h => by cases h⟩
  | fascia f r =>
    obtain ⟨s, u, -, h2⟩ := fascia_done hd
    obtain ⟨-, h3, -⟩ := fasciaBundles_iff.mp h2
    exact ⟨_, h3, fun _ _ h => by cases h; rfl⟩
  | kit x => obtain ⟨s, -, rfl⟩ := hd; exact ⟨[], rfl, fun _ _ h => by cases h⟩
  | secretSeal x =>
    simp only [StockEvent.Done, StockEvent.exec] at hd
    obtain ⟨p, -, rfl⟩ := Option.map_eq_some_iff.mp hd
    exact ⟨[], rfl, fun _ _ h => by cases h⟩
  | trust i t =>
    simp only [StockEvent.Done, StockEvent.exec] at hd
    obtain ⟨p, -, rfl⟩ := Option.map_eq_some_iff.mp hd
    exact ⟨[], rfl, fun _ _ h => by cases h⟩
  | update r after =>
    simp only [StockEvent.Done, StockEvent.exec] at hd
    cases hd
    exact ⟨[], rfl, fun _ _ h => by cases h⟩

theorem done_terminals (hd : e.Done H I M G k k') {s : Nat} {o : Opout} (h : o ∈ mset k.index.terminals s) : o ∈ mset k'.index.terminals s := by
  obtain ⟨calls, h1, -⟩ := done_index hd
  have := (execAll_effect calls k.index).tm.mono
  rw [h1] at this
  exact this (by simp) s o h

theorem allDone_terminals (es : List StockEvent) {k k' : Stock} (hd : AllDone H I M G es k k') {s : Nat} {o : Opout} (h : o ∈ mset k.index.terminals s) :
    o ∈ mset k'.index.terminals s := by
  induction es generalizing k with
  | nil => cases hd; exact h
  | cons e es ih =>
    obtain ⟨k₁, h1, h2⟩ := hd
    exact ih h2 (done_terminals h1 h)

theorem fascia_terminals {f : Fascia} (hd : StockEvent.Done H I M G k k' (.fascia f r)) {c : Nat} {b : Bundle} (hb : (c, b) ∈ f.bundles) {o : Nat} {t : Op}
    (ht : OMap.get? b.known o = some t) {kind : StateKind} {ty no s : Nat} {v : RState} (hs : t.SendsTo kind ty no s v) :
    ⟨o, ty, no⟩ ∈ mset k'.index.terminals s := by
  obtain ⟨calls, h1, h2⟩ := done_index hd
  have hc := h2 _ _ rfl
  have := (execAll_effect calls k.index).tm.complete
  rw [h1] at this
  obtain ⟨ta, h3, -, h4⟩ := hs
  refine this rfl s _ ⟨.assignments c (some f.witness.id) ta.items o ty, ?_, no, _, h4, rfl, by simp⟩
  rw [hc]
  refine List.mem_flatMap.mpr ⟨(c, b), hb, List.mem_cons_of_mem _ (List.mem_flatMap.mpr ⟨(o, t), OMap.mem_of_get? ht, ?_⟩)⟩
  exact List.mem_cons_of_mem _ (List.mem_map.mpr ⟨(ty, ta), OMap.mem_of_get? h3, rfl⟩)

theorem runStock_append (es : List StockEvent) {es' : List StockEvent} {k k' k'' : Stock} (h : runStock H I M G es k = some k')
    (h' : runStock H I M G es' k' = some k'') : runStock H I M G (es ++ es') k = some k'' := by
  induction es generalizing k with
  | nil => cases h; exact h'
  | cons e es ih =>
    simp only [runStock, Option.bind_eq_some_iff, List.cons_append] at h ⊢
    obtain ⟨k₁, h1, h2⟩ := h
    exact ⟨k₁, h1, ih h2⟩

theorem sendsTo_pays {t : Op} {kind : StateKind} {ty no s : Nat} {v : RState} (h : t.SendsTo kind ty no s v) : t.Pays H kind ty no s v := by
  obtain ⟨ta, h1, h2, h3⟩ := h
  exact ⟨ta, _, h1, h2, h3, rfl, rfl⟩

theorem pays_shown (hH : H.Binding) {t t' : Op} (h : t.ShownBy H t') {kind : StateKind} {ty no s : Nat} {v : RState} (hp : t.Pays H kind ty no s v) :
    t'.Pays H kind ty no s v := by
  obtain ⟨ta, a, h1, h2, h3, h4, h5⟩ := hp
  have hx : t.at? ty no = some a := by simp [Op.at?, h1, h3]
  have hc := Op.at_conceal hH h.id ty no
  rw [hx] at hc
  obtain ⟨y, h6, h7⟩ := Option.map_eq_some_iff.mp hc
  have hst := h.states ty no v (by simp [Op.stateAt?, hx, h5])
  simp only [Op.stateAt?, h6, Option.bind_some] at hst
  simp only [Op.at?] at h6
  obtain ⟨t2, h8, h9⟩ := Option.bind_eq_some_iff.mp h6
  refine ⟨t2, y, h8, (shown_kind hH h h1 h8).trans h2, h9, ?_, hst⟩
  rw [← h4]
  cases a <;> cases y <;> simp_all [Assign.conceal, Assign.secret]

/-- The numbers and states of the assignments to a secret seal. -/
theorem items_to (items : List Assign) (layer : Layer1) (m n : Nat) : ∃ l : List (Nat × RState), (l.map Prod.fst).Nodup ∧
    (∀ e ∈ l, n ≤ e.1 ∧ items[e.1 - n]? = some (.confidentialSeal (2 * m + layer.num) e.2) ∧ 0 < e.2.amount) ∧
    (l.map (fun e => e.2.amount)).sum =
      (items.map (fun a => if a.target = some (.concealed layer m) then (a.state?.map RState.amount).getD 0 else 0)).sum := by
  induction items generalizing n with
  | nil => exact ⟨[], List.Pairwise.nil, by simp, rfl⟩
  | cons a items ih =>
    obtain ⟨l, h1, h2, h3⟩ := ih (n + 1)
    have up : ∀ e ∈ l, n ≤ e.1 ∧ (a :: items)[e.1 - n]? = some (.confidentialSeal (2 * m + layer.num) e.2) ∧ 0 < e.2.amount := by
      intro e he
      obtain ⟨g1, g2, g3⟩ := h2 e he
      refine ⟨by omega, ?_, g3⟩
      rw [show e.1 - n = (e.1 - (n + 1)) + 1 by omega, List.getElem?_cons_succ]
      exact g2
    by_cases hz : (if a.target = some (.concealed layer m) then (a.state?.map RState.amount).getD 0 else 0) = 0
    · exact ⟨l, h1, up, by rw [h3, List.map_cons, List.sum_cons, hz]; omega⟩
    · split at hz
      swap; · exact absurd rfl hz
      rename_i ht
      have hs : ∃ v, a = .confidentialSeal (2 * m + layer.num) v := by
        cases a with
        | revealed s v => simp [Assign.target] at ht
        | confidentialState s v => simp [Assign.target] at ht
        | confidential s v => simp [Assign.state?] at hz
        | confidentialSeal s v =>
          refine ⟨v, ?_⟩
          simp only [Assign.target, Option.some.injEq, BSeal.concealed.injEq] at ht
          obtain ⟨t1, t2⟩ := ht
          congr
          split at t1 <;> subst t1 <;> simp only [Layer1.num] <;> omega
      obtain ⟨v, rfl⟩ := hs
      refine ⟨(n, v) :: l, ?_, ?_, ?_⟩
      · rw [List.map_cons, List.nodup_cons]
        refine ⟨fun hm => ?_, h1⟩
        obtain ⟨e, he, hn⟩ := List.mem_map.1 hm
        have := (h2 e he).1
        omega
      · intro e he
        rcases List.mem_cons.1 he with rfl | he
        · refine ⟨Nat.le_refl _, by simp, ?_⟩
          have hz' : v.amount ≠ 0 := by simpa [Assign.state?] using hz
          exact Nat.pos_of_ne_zero hz'
        · exact up e he
      · rw [List.map_cons, List.sum_cons, h3, List.map_cons, List.sum_cons, if_pos ht]
        simp [Assign.state?]

/-- What a transition assigns to a secret seal. -/
theorem paid_list {t : BuiltTransition} (hk : ∀ aty ta, OMap.get? t.op.assigns aty = some ta → ∀ a ∈ ta.items, ∃ st, a.state? = some st ∧ st.kind = ta.kind)
    (ty : Nat) (layer : Layer1) (m : Nat) : ∃ l : List (Nat × RState), (l.map Prod.fst).Nodup ∧
      (∀ e ∈ l, t.op.SendsTo .fungible ty e.1 (2 * m + layer.num) e.2) ∧ (l.map (fun e => e.2.amount)).sum = t.paidTo ty (.concealed layer m) := by
  cases hg : OMap.get? t.op.assigns ty with
  | none => exact ⟨[], List.Pairwise.nil, by simp, by simp [BuiltTransition.paidTo, BuiltTransition.outs, hg]⟩
  | some ta =>
    obtain ⟨l, h1, h2, h3⟩ := items_to ta.items layer m 0
    refine ⟨l, h1, ?_, ?_⟩
    · intro e he
      obtain ⟨-, g2, g3⟩ := h2 e he
      rw [Nat.sub_zero] at g2
      refine ⟨ta, hg, ?_, g2⟩
      obtain ⟨st, k1, k2⟩ := hk ty ta hg _ (List.mem_of_getElem? g2)
      simp only [Assign.state?, Option.some.injEq] at k1
      subst k1
      rw [← k2]
      cases hv : e.2 <;> rw [hv] at g3 <;> simp [RState.amount, RState.kind] at g3 ⊢
    · rw [h3]
      simp [BuiltTransition.paidTo, BuiltTransition.outs, hg, List.map_map, Function.comp_def]

/-- All assignments with the seals. -/
def placed (H : Commit) (t : Op) : List (Nat × Nat × Nat) :=
  t.assigns.flatMap (fun e => e.2.items.zipIdx.map (fun x => (e.1, x.2, x.1.secret H)))

theorem timesTo_placed (t : Op) (s : Nat) : t.timesTo H s = ((placed H t).filter (fun x => decide (x.2.2 = s))).length := by
  have inner : ∀ (items : List Assign) (n ty : Nat), (items.filter (fun a => decide (a.secret H = s))).length =
      ((items.zipIdx n).map (fun x => (ty, x.2, x.1.secret H))|>.filter (fun x => decide (x.2.2 = s))).length := by
    intro items
    induction items with
    | nil => intro n ty; rfl
    | cons a items ih =>
      intro n ty
      simp only [List.zipIdx_cons, List.map_cons, List.filter_cons]
      split <;> simp [ih (n + 1) ty]
  simp only [Op.timesTo, placed]
  induction t.assigns with
  | nil => rfl
  | cons e l ih =>
    simp only [List.flatMap_cons, List.filter_append, List.length_append, ih, inner _ 0 e.1]

theorem assigns_once {t : Op} {i s : Nat} {o o' : Opout} (h : t.AssignsSecret i s o) (h' : t.AssignsSecret i s o') (hone : t.timesTo H s ≤ 1) : o = o' := by
  have key : ∀ o, t.AssignsSecret i s o → (o.ty, o.no, s) ∈ (placed H t).filter (fun x => decide (x.2.2 = s)) := by
    rintro o ⟨ty, ta, n, a, h1, h2, h3, rfl⟩
    refine List.mem_filter.mpr ⟨List.mem_flatMap.mpr ⟨(ty, ta), h1, List.mem_map.mpr ⟨(a, n), ?_, ?_⟩⟩, by simp⟩
    · rw [List.mem_zipIdx_iff_getElem?]; exact h2
    · rcases h3 with ⟨st, rfl⟩ | ⟨st, rfl⟩ <;> rfl
  have m1 := key o h
  have m2 := key o' h'
  rw [timesTo_placed] at hone
  have e : (o.ty, o.no, s) = (o'.ty, o'.no, s) := by
    generalize (placed H t).filter (fun x => decide (x.2.2 = s)) = l at hone m1 m2
    match l, hone with
    | [], _ => cases m1
    | [y], _ => rw [List.mem_singleton.mp m1, List.mem_singleton.mp m2]
    | y :: z :: l, hone => simp at hone
  have e1 : o.op = i := by obtain ⟨_, _, _, _, _, _, _, g⟩ := h; rw [g]
  have e2 : o'.op = i := by obtain ⟨_, _, _, _, _, _, _, g⟩ := h'; rw [g]
  simp only [Prod.mk.injEq] at e
  cases o; cases o'
  simp_all

theorem timesTo_conceal (t : Op) (s : Nat) : (t.conceal H).timesTo H s = t.timesTo H s := by
  have one : ∀ a : Assign, (a.conceal H).secret H = a.secret H := by intro a; cases a <;> rfl
  simp only [Op.timesTo, Op.conceal, Assignments.conceal, OMap.mapVals]
  induction t.assigns with
  | nil => rfl
  | cons e l ih =>
    simp only [List.map_cons, List.flatMap_cons, List.filter_append, List.length_append, ih]
    congr 1
    simp only [TypedAssigns.conceal, List.filter_map, List.length_map]
    congr 2
    funext a
    simp [one]

theorem timesTo_same (hH : H.Binding) {t t' : Op} (h : t.id H = t'.id H) (s : Nat) : t.timesTo H s = t'.timesTo H s := by
  rw [← timesTo_conceal t, ← timesTo_conceal t', hH.op_inj _ _ h]

theorem secret_assigns {t : Op} {i s : Nat} {o : Opout} (h : t.AssignsSecret i s o) : t.AssignsTo H s := by
  obtain ⟨ty, ta, n, a, h1, h2, h3, -⟩ := h
  refine ⟨ty, ta, a, h1, List.mem_of_getElem? h2, ?_⟩
  rcases h3 with ⟨st, rfl⟩ | ⟨st, rfl⟩ <;> rfl

theorem assignsTo_iff {t : Op} {s : Nat} : t.AssignsTo H s ↔ 0 < t.timesTo H s := by
  rw [timesTo_eq, List.count_pos_iff, mem_secretSeals]

/-- Where the assignments to a secret seal come from. -/
theorem fascia_from {f : Fascia} (hd : StockEvent.Done H I M G k k' (.fascia f r)) {s : Nat} {o : Opout} (h : o ∈ mset k'.index.terminals s) :
    o ∈ mset k.index.terminals s ∨ ∃ e ∈ f.bundles, ∃ i t, (i, t) ∈ e.2.known ∧ t.AssignsSecret i s o := by
  obtain ⟨calls, h1, h2⟩ := done_index hd
  have hc := h2 _ _ rfl
  have hs := (execAll_effect calls k.index).tm.sound s o
  rw [h1] at hs
  rcases hs h with hs | ⟨call, hm, hs⟩
  · exact .inl hs
  · rw [hc] at hm
    obtain ⟨e, he, hm⟩ := List.mem_flatMap.mp hm
    exact .inr ⟨e, he, bundleCalls_secret.mp ⟨call, hm, hs⟩⟩

end Rgb
