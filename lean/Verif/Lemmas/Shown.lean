import Verif.Lemmas.Arrive
import Verif.Spec.Shown

/-!
The index knows all outputs with state.
-/

namespace Rgb

open MemStash Props Stock Index

variable {H : Commit} {I : Ids} {M : Mpc} {G : SchemaDoc → SchemaGlobals} {k k' : Stock}

/-- Each stored assignment is in the index. -/
def ShownFound (k : Stock) : Prop :=
  ∀ c kind key y, entry k.state c kind key = some y → key.opout ∈ outSet k.index c key.sl

theorem indexOuts_res {w : Option WitnessId} {opid ty : Nat} {items : List Assign} {no : Nat} {m : OMap OutSeal (OSet Opout)}
    (h : (indexOuts w opid ty items no m).2 = none) : ∀ a ∈ items, ∀ x, a.seal? = some x → (outputSeal w x).isSome = true := by
  induction items generalizing no m with
  | nil => intro a ha; cases ha
  | cons a items ih =>
    simp only [indexOuts] at h
    intro b hb x hx
    cases hs : a.seal? with
    | none =>
      simp only [hs] at h
      rcases List.mem_cons.mp hb with rfl | hb
      · rw [hs] at hx; cases hx
      · exact ih h b hb x hx
    | some s =>
      simp only [hs] at h
      cases ho : outputSeal w s with
      | none => simp [ho] at h
      | some out =>
        simp only [ho] at h
        rcases List.mem_cons.mp hb with rfl | hb
        · rw [hs] at hx; cases hx; simp [ho]
        · exact ih h b hb x hx

theorem execAll_res {calls : List IdxCall} {x : Index} (h : (IdxCall.execAll x calls).2 = none) {c : Nat} {w : Option WitnessId} {items : List Assign}
    {opid ty : Nat} (hc : IdxCall.assignments c w items opid ty ∈ calls) : ∀ a ∈ items, ∀ s, a.seal? = some s → (outputSeal w s).isSome = true := by
  induction calls generalizing x with
  | nil => cases hc
  | cons call calls ih =>
    simp only [IdxCall.execAll] at h
    split at h
    · cases h
    rename_i x' he
    rcases List.mem_cons.mp hc with rfl | hc
    · simp only [IdxCall.exec, indexAssignments] at he
      split at he
      · cases he
      split at he
      · cases he
      · rename_i hr; exact indexOuts_res hr
    · exact ih h hc

theorem assigned_out {op : Op} {w : Option WitnessId} {kind : StateKind} {key : OutKey} {y : OutAssign}
    (h : assignedAt w (op.id H) op.assigns kind key = some y) : op.AssignsOut (op.id H) w key.sl key.opout := by
  obtain ⟨⟨h1, -, t, sl, h2, -, h3, h4⟩, rfl⟩ := (assignedAt_iff H _ _ _ _ _).mp h
  refine ⟨y.opout.ty, t, y.opout.no, _, sl, OMap.mem_of_get? h2, h3, rfl, h4, ?_⟩
  rw [← h1]

theorem execAll_from' {s s' : MemState} {calls : List StCall} {o : Option StErr} (hp : ∀ c ∈ calls, c.Proper) (h : StCall.execAll H s calls = some (s', o))
    {c : Nat} {kind : StateKind} {key : OutKey} {x : OutAssign} (hx : entry s' c kind key = some x) :
    entry s c kind key = some x ∨ ∃ call ∈ calls, call.contract H = c ∧ call.assigned H kind key = some x := by
  obtain ⟨es, h1, h2⟩ := execAll_run _ _ _ _ h
  rw [runSt_entry (fun c hc => hp c (h1 c hc)) h2] at hx
  cases e : entry s c kind key with
  | some y => rw [e] at hx; exact .inl hx
  | none =>
    rw [e, Option.none_or] at hx
    obtain ⟨call, h3, h4⟩ := List.exists_of_findSome?_eq_some hx
    split at h4
    · rename_i hc; exact .inr ⟨call, h1 _ (mem_accepted h3), hc.symm, h4⟩
    · cases h4

theorem ShownFound.bundle {c : Nat} {b : Bundle} {w : WitnessId} {r : Resolver} (hi : ShownFound k)
    (hb : b.WF H) (hp : ∀ t ∈ OMap.vals b.known, t.Proper ∧ t.kind = .transition) {x : Index} (hx : k.index.indexBundle H c b w = (x, none))
    {t : MemState} {o : Option StErr} (ht : k.state.updateFromBundle H c b w r = some (t, o)) {s : MemStash} : ShownFound ⟨s, t, x⟩ := by
  intro c' kind key y hy
  have eff := op_effect H k.index (.bundle c b w)
  simp only [IdxOp.exec, hx] at eff
  have old : ∀ {y}, entry k.state c' kind key = some y → key.opout ∈ outSet x c' key.sl := fun h => eff.outMono _ _ _ (hi _ _ _ _ h)
  simp only [MemState.updateFromBundle] at ht
  split at ht
  swap; · cases ht; exact old hy
  split at ht
  · cases ht; exact old hy
  split at ht
  · cases ht; exact old hy
  rename_i ord _
  have hp' : ∀ c' ∈ b.known.map (fun k => StCall.transition c k.2 w ord), c'.Proper := by
    intro c' hc'
    obtain ⟨z, hz, rfl⟩ := List.mem_map.mp hc'
    exact hp z.2 (List.mem_map.mpr ⟨z, hz, rfl⟩)
  rcases execAll_from' hp' ht hy with h | ⟨call, h1, rfl, h2⟩
  · exact old h
  obtain ⟨⟨i, op⟩, hz, rfl⟩ := List.mem_map.mp h1
  refine eff.outComplete rfl _ _ _ ⟨i, op, some w, .single c b w i op hz, ?_⟩
  have hid : i = op.id H := (hb.keyed _ _ (hb.sorted.get?_of_mem hz)).1.symm
  rw [hid]
  exact assigned_out h2

theorem ShownFound.fascia {r : Resolver} {w : WitnessId} (l : List (Nat × Bundle))
    (hp : ∀ e ∈ l, e.2.WF H ∧ ∀ t ∈ OMap.vals e.2.known, t.Proper ∧ t.kind = .transition) {e : Option StockErr}
    (hi : ShownFound k) (h : fasciaBundles H r w l k = some (k', e)) : ShownFound k' := by
  induction l generalizing k with
  | nil => simp only [fasciaBundles] at h; cases h; exact hi
  | cons x l ih =>
    obtain ⟨c, b⟩ := x
    simp only [fasciaBundles] at h
    split at h
    · cases h; exact hi
    have h1 := op_effect H k.index (.bundle c b w)
    simp only [IdxOp.exec] at h1
    obtain ⟨hb, hpt⟩ := hp (c, b) (by simp)
    cases e2 : k.index.indexBundle H c b w with | mk x o
    rw [e2] at h1
    simp only [e2] at h
    cases o with
    | some y => simp only at h; cases h; exact fun c kind key y hy => h1.outMono _ _ _ (hi _ _ _ _ hy)
    | none =>
    simp only at h
    cases e1 : k.state.updateFromBundle H c b w r with
    | none => simp [e1] at h
    | some p =>
    obtain ⟨t, o⟩ := p
    cases o with
    | some y => simp only [e1] at h; cases h; exact hi.bundle hb hpt e2 e1
    | none =>
    simp only [e1] at h
    cases e3 : k.stash.consumeBundle H b with
    | none => simp [e3] at h
    | some q =>
      obtain ⟨s, o⟩ := q
      cases o with
      | error y => simp only [e3] at h; cases h; exact hi.bundle hb hpt e2 e1
      | ok y =>
        simp only [e3] at h
        exact ih (fun x hx => hp x (by simp [hx])) (hi.bundle hb hpt e2 e1) h

theorem body_index {con : Consignment} {r : Resolver} (h : consumeBody H I M G r con k = some (k', none)) :
    k.index.indexConsignment H con.data = (k'.index, none) := by
  simp only [consumeBody] at h
  split at h
  · cases h
  · cases h
  split at h
  · cases h
  rename_i hx
  split at h
  · cases h
  · cases h
  · cases h; exact hx

theorem ShownFound.body (hG : ∀ d, OMap.Sorted (G d).maxItems) {con : Consignment} {r : Resolver} (hp : StockEvent.Proper H (.consignment con r))
    (hi : ShownFound k) (h : consumeBody H I M G r con k = some (k', none)) : ShownFound k' := by
  have hx := body_index h
  have eff := op_effect H k.index (.consignment con.data)
  simp only [IdxOp.exec, hx] at eff
  obtain ⟨calls, c1, c2, c3, c4⟩ : ∃ calls, (∀ c ∈ calls, StCall.Proper c) ∧ StCall.execAll H k.state calls = some (k'.state, none) ∧
      (∀ sch g, StCall.register sch g ∈ calls → g = con.data.genesis) ∧
      (∀ c t w ord, (StCall.transition c t w ord ∈ calls → c = con.data.genesis.contractId H ∧
          ∃ wb ∈ con.data.bundles, ∃ b ∈ wb.anchored.bundles, ∃ k, (k, t) ∈ b.known ∧ w = wb.id) ∧
        (StCall.extension c t w ord ∈ calls → c = con.data.genesis.contractId H ∧ t ∈ con.data.extensions)) := by
    have h := body_state h
    obtain ⟨h1, h2⟩ := C28_consignment_calls H (G con.schema) con.data r
    by_cases hr : ∀ t w, (∃ wb ∈ con.data.bundles, ∃ b ∈ wb.anchored.bundles, ∃ k, (k, t) ∈ b.known ∧ w = wb.id) → (r w).isSome = true
    · obtain ⟨calls, c1, c2, c3, c4, c5, c6⟩ := h1 hr
      rw [c1] at h
      obtain ⟨⟨p1, p2, p3, p4⟩, q1, q2, q3, q4⟩ := hp
      refine ⟨calls, fun c hc => ?_, h, fun s g hg => (c3 s g hg).2, fun c t w ord => ⟨fun hc => ?_, fun hc => ?_⟩⟩
      · cases c with
        | register sch g => obtain ⟨rfl, rfl⟩ := c3 _ _ hc; exact ⟨hG _, q2, p1⟩
        | transition d t w ord =>
          obtain ⟨-, ⟨wb, h5, b, h6, i, h7, -⟩, -⟩ := (c4 _ _ _ _).mp hc
          exact q4 wb h5 b h6 t (List.mem_map.mpr ⟨_, h7, rfl⟩)
        | extension d t w ord => exact q3 t ((c5 t).mp ⟨_, _, _, hc⟩).1
      · obtain ⟨h1, h2, -⟩ := (c4 _ _ _ _).mp hc; exact ⟨h1, h2⟩
      · exact ⟨(c6 _ _ _ _ hc).1, ((c5 t).mp ⟨_, _, _, hc⟩).1⟩
    · refine absurd h (h2 ?_ _ _)
      refine Classical.byContradiction fun hn => hr fun t w hc => ?_
      cases hw : r w with
      | some o => rfl
      | none => exact absurd ⟨t, w, hc, hw⟩ hn
  intro c' kind key y hy
  rcases execAll_from c1 c2 hy with h | ⟨call, h1, rfl, h2⟩
  · exact eff.outMono _ _ _ (hi _ _ _ _ h)
  refine eff.outComplete rfl _ _ _ ?_
  cases call with
  | register sch g =>
    cases c3 _ _ h1
    exact ⟨_, _, none, .genesis con.data, assigned_out h2⟩
  | transition c t w ord =>
    obtain ⟨rfl, wb, hw, b, hb, i, hi, rfl⟩ := (c4 _ _ _ _).1 h1
    refine ⟨i, t, _, .transition con.data wb b i t hw hb hi, ?_⟩
    have hid : i = t.id H := ((hp.1.bundles wb hw b hb).keyed _ _ ((hp.1.bundles wb hw b hb).sorted.get?_of_mem hi)).1.symm
    rw [hid]
    exact assigned_out h2
  | extension c t w ord =>
    obtain ⟨rfl, ht⟩ := (c4 _ _ _ _).2 h1
    refine ⟨_, t, none, .extension con.data t ht, ?_⟩
    obtain ⟨ty, as, i, a, sl, h3, h4, h5, h6, h7⟩ := assigned_out h2
    refine ⟨ty, as, i, a, sl, h3, h4, h5, ?_, h7⟩
    have hres : (outputSeal none sl).isSome = true := by
      refine execAll_res (calls := Index.consignmentCalls H con.data) (x := k.index) (c := con.data.genesis.contractId H) (w := none) (items := as.items)
        (opid := t.id H) (ty := ty) (by have := congrArg Prod.snd hx; exact this) ?_ a (List.mem_of_getElem? h4) sl h5
      simp only [Index.consignmentCalls, List.mem_cons, List.mem_append, List.mem_flatMap]
      exact .inr (.inr (.inl ⟨t, ht, List.mem_map.mpr ⟨(ty, as), h3, rfl⟩⟩))
    cases htx : sl.txid with
    | none => simp [outputSeal, Seal.toOutput, htx] at hres
    | some tx => simpa [StCall.witness?, StCall.witnessOrd?, Seal.toOutput, Seal.toOutputWith, htx] using h6

theorem shown_event (hH : H.Binding) (hG : ∀ d, OMap.Sorted (G d).maxItems) {e : StockEvent} (he : e.Proper H) (hi : ShownFound k)
    (h : e.exec H I M G k = some k') (hd : ∀ con r, e = .consignment con r → e.Done H I M G k k') : ShownFound k' := by
  cases e with
  | consignment con r =>
    obtain ⟨con', h1, h2⟩ := consignment_done (hd con r rfl)
    exact hi.body hG (resolve_proper hH _ _ _ r he h1).1 h2
  | fascia f r =>
    obtain ⟨⟨k1, o⟩, h1, rfl⟩ := Option.map_eq_some_iff.mp h
    simp only [consumeFascia, storeTx_mem] at h1
    obtain ⟨⟨k2, o'⟩, h2, h3⟩ := Option.map_eq_some_iff.mp h1
    cases h3
    simp only [fasciaBody] at h2
    cases e1 : k.stash.consumeWitness ⟨f.witness, f.anchor⟩ with
    | none => simp [e1] at h2
    | some q =>
      obtain ⟨s, x⟩ := q
      cases x with
      | error y => simp only [e1] at h2; cases h2; exact hi
      | ok y =>
        simp only [e1] at h2
        exact ShownFound.fascia (k := { k with stash := s }) _ he hi h2
  | kit x =>
    obtain ⟨⟨s, o⟩, h1, rfl⟩ := Option.map_eq_some_iff.mp h
    exact hi
  | secretSeal x =>
    simp only [StockEvent.exec] at h
    obtain ⟨⟨s, o⟩, h1, rfl⟩ := Option.map_eq_some_iff.mp h
    exact hi
  | trust i t =>
    simp only [StockEvent.exec] at h
    obtain ⟨⟨s, o⟩, h1, rfl⟩ := Option.map_eq_some_iff.mp h
    exact hi
  | update r n =>
    simp only [StockEvent.exec, Option.some.injEq] at h
    subst h
    intro c kind key y hy
    refine hi c kind key y ?_
    rw [← hy]
    exact (runSt_entry (H := H) (s := k.state) (es := [.update r n]) (by simp [EventsProper]) rfl c kind key).symm ▸ by simp [accepted]

theorem shown_run (hH : H.Binding) (hG : ∀ d, OMap.Sorted (G d).maxItems) (es : List StockEvent) (he : ∀ e ∈ es, e.Proper H) (hi : ShownFound k)
    (h : Accepting H I M G es k k') : ShownFound k' := by
  induction es generalizing k with
  | nil => cases h; exact hi
  | cons e es ih =>
    obtain ⟨k₁, h1, h2, h3⟩ := h
    exact ih (fun x hx => he x (by simp [hx])) (shown_event hH hG (he e (by simp)) hi h1 h2) h3

/-- An assignment of the state is a stored entry. -/
theorem entry_of_view (hk : Stock.Hist H k) {c : Nat} {v : ContractView} (hv : k.state.contractState c = .ok v) {kind : StateKind} {a : OutAssign}
    (ha : a ∈ OMap.vals (v.unfiltered.kindSet kind)) : entry k.state c kind ⟨a.opout, a.sl⟩ = some a := by
  obtain ⟨ses, h3, h4⟩ := hk.state
  have hs := runSt_inv h3 stInv_empty h4
  obtain ⟨key, h5⟩ := (mem_vals_iff ((hs.cs _ _ (contractState_get? hv)).sets kind)).mp ha
  rw [← entry_view hv] at h5
  rwa [entry_key hk h5] at h5

/-- What is stored was made by an operation. -/
theorem entry_makes (hk : Hist H k) {c : Nat} {kind : StateKind} {key : OutKey} {y : OutAssign} (hy : entry k.state c kind key = some y) :
    ∃ op : Op, op.Makes H y.witness kind y := by
  obtain ⟨es, h3, h4⟩ := hk.state
  have h5 := runSt_entry h3 h4 c kind key
  rw [hy] at h5
  simp only [entry, OMap.get?, Option.bind_none, Option.none_or] at h5
  obtain ⟨call, -, h6⟩ := List.exists_of_findSome?_eq_some h5.symm
  split at h6
  swap; · cases h6
  have h7 := ((assignedAt_iff H _ _ _ _ _).mp h6).1
  exact ⟨call.op, h7.2.1 ▸ h7⟩

/-- Assignments of the state with one output and one witness are the same. -/
theorem entry_unique (hH : H.Binding) (hk : Hist H k) {c : Nat} {kd kd' : StateKind} {key key' : OutKey} {y y' : OutAssign}
    (hy : entry k.state c kd key = some y) (hy' : entry k.state c kd' key' = some y') (ho : y.opout = y'.opout) (hw : y.witness = y'.witness) :
    kd = kd' ∧ y = y' := by
  obtain ⟨op, h1⟩ := entry_makes hk hy
  obtain ⟨op', h2⟩ := entry_makes hk hy'
  exact (makes_agree hH h1 (hw ▸ h2) ho).symm

theorem shown_empty : ShownFound .empty := by intro c kind key y h; simp [entry, Stock.empty] at h

theorem allDone_accepting (es : List StockEvent) (h : AllDone H I M G es k k') : Accepting H I M G es k k' := by
  induction es generalizing k with
  | nil => exact h
  | cons e es ih =>
    obtain ⟨k₁, h1, h2⟩ := h
    exact ⟨k₁, done_exec h1, fun _ _ _ => h1, ih h2⟩

theorem accepting_run (es : List StockEvent) (h : Accepting H I M G es k k') : runStock H I M G es k = some k' := by
  induction es generalizing k with
  | nil => cases h; rfl
  | cons e es ih =>
    obtain ⟨k₁, h1, -, h2⟩ := h
    simp only [runStock, h1, Option.bind_some]
    exact ih h2

end Rgb
