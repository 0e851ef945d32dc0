import Verif.Lemmas.Resume
import Verif.Lemmas.StockHist

/-!
Adding operations to the state again, perhaps with other positions of witnesses.
-/

namespace Rgb

open Stock

/-- The call with the position of the witness as `f` tells. -/
def StCall.reOrd (f : WitnessId → WitnessOrd) : StCall → StCall
  | .register sch g => .register sch g
  | .transition c op w _ => .transition c op w (f w)
  | .extension c op w _ => .extension c op w (f w)

/-- The position which the call stores. -/
def StCall.wo : StCall → List (WitnessId × WitnessOrd)
  | .register _ _ => []
  | .transition _ _ w o => [(w, o)]
  | .extension _ _ w o => [(w, o)]

variable {H : Commit}

theorem exec_wo {s s1 : MemState} {call : StCall} (h : call.exec H s = some (s1, none)) :
    s1.witnesses = OMap.extend s.witnesses call.wo := by
  cases call with
  | register sch g =>
    simp only [StCall.exec, MemState.registerContract] at h
    split at h
    · obtain ⟨cs, -, h2⟩ := Option.map_eq_some_iff.mp h; cases h2; rfl
    · split at h
      · cases h
      · obtain ⟨cs, -, h2⟩ := Option.map_eq_some_iff.mp h; cases h2; rfl
  | transition c op w o =>
    simp only [StCall.exec, MemState.addOp] at h
    split at h
    · cases h
    · obtain ⟨cs, -, h2⟩ := Option.map_eq_some_iff.mp h; cases h2; rfl
  | extension c op w o =>
    simp only [StCall.exec, MemState.addOp] at h
    split at h
    · cases h
    · obtain ⟨cs, -, h2⟩ := Option.map_eq_some_iff.mp h; cases h2; rfl

theorem exec_reOrd (f : WitnessId → WitnessOrd) {s s' s1 : MemState} {call : StCall} (hc : s'.contracts = s.contracts)
    (h : call.exec H s = some (s1, none)) : ∃ s2, (call.reOrd f).exec H s' = some (s2, none) ∧ s2.contracts = s1.contracts := by
  cases call with
  | register sch g =>
    simp only [StCall.exec, StCall.reOrd, MemState.registerContract, hc] at h ⊢
    split at h
    · rename_i e
      obtain ⟨cs, h1, h2⟩ := Option.map_eq_some_iff.mp h; cases h2
      simp only [e, h1]
      exact ⟨_, rfl, rfl⟩
    · rename_i e
      split at h
      · cases h
      · rename_i hl
        obtain ⟨cs, h1, h2⟩ := Option.map_eq_some_iff.mp h; cases h2
        simp only [e, hl, h1]
        exact ⟨_, rfl, rfl⟩
  | transition c op w o =>
    simp only [StCall.exec, StCall.reOrd, MemState.addOp, hc] at h ⊢
    split at h
    · cases h
    · rename_i e
      obtain ⟨cs, h1, h2⟩ := Option.map_eq_some_iff.mp h; cases h2
      simp only [e, h1]
      exact ⟨_, rfl, rfl⟩
  | extension c op w o =>
    simp only [StCall.exec, StCall.reOrd, MemState.addOp, hc] at h ⊢
    split at h
    · cases h
    · rename_i e
      obtain ⟨cs, h1, h2⟩ := Option.map_eq_some_iff.mp h; cases h2
      simp only [e, h1]
      exact ⟨_, rfl, rfl⟩

theorem execAll_cons_ok {s s' : MemState} {call : StCall} {l : List StCall} (h : StCall.execAll H s (call :: l) = some (s', none)) :
    ∃ s1, call.exec H s = some (s1, none) ∧ StCall.execAll H s1 l = some (s', none) := by
  simp only [StCall.execAll] at h
  cases e : call.exec H s with
  | none => rw [e] at h; cases h
  | some p =>
    obtain ⟨s1, o⟩ := p
    rw [e] at h
    cases o with
    | some x => cases h
    | none => exact ⟨s1, rfl, h⟩

theorem execAll_append_ok {s s' : MemState} {l l' : List StCall} :
    StCall.execAll H s (l ++ l') = some (s', none) ↔ ∃ s1, StCall.execAll H s l = some (s1, none) ∧ StCall.execAll H s1 l' = some (s', none) := by
  induction l generalizing s with
  | nil => simp [StCall.execAll]
  | cons c l ih =>
    rw [List.cons_append]
    constructor
    · intro h
      obtain ⟨s1, h1, h2⟩ := execAll_cons_ok h
      obtain ⟨s2, h3, h4⟩ := ih.mp h2
      exact ⟨s2, by simp only [StCall.execAll, h1, h3], h4⟩
    · rintro ⟨s2, h1, h2⟩
      obtain ⟨s1, h3, h4⟩ := execAll_cons_ok h1
      simp only [StCall.execAll, h3]
      exact ih.mpr ⟨s2, h4, h2⟩

theorem execAll_wo {s s1 : MemState} {l : List StCall} (h : StCall.execAll H s l = some (s1, none)) :
    s1.witnesses = OMap.extend s.witnesses (l.flatMap StCall.wo) := by
  induction l generalizing s with
  | nil => simp only [StCall.execAll] at h; cases h; rfl
  | cons c l ih =>
    obtain ⟨s2, h1, h2⟩ := execAll_cons_ok h
    rw [ih h2, exec_wo h1, List.flatMap_cons, OMap.extend_append]

theorem execAll_reOrd (f : WitnessId → WitnessOrd) {s s' s1 : MemState} {l : List StCall} (hc : s'.contracts = s.contracts)
    (h : StCall.execAll H s l = some (s1, none)) : ∃ s2, StCall.execAll H s' (l.map (StCall.reOrd f)) = some (s2, none) ∧ s2.contracts = s1.contracts := by
  induction l generalizing s s' with
  | nil => simp only [StCall.execAll] at h; cases h; exact ⟨s', rfl, hc⟩
  | cons c l ih =>
    obtain ⟨s2, h1, h2⟩ := execAll_cons_ok h
    obtain ⟨s3, h3, h4⟩ := exec_reOrd f hc h1
    obtain ⟨s4, h5, h6⟩ := ih h4 h2
    exact ⟨s4, by simp only [List.map_cons, StCall.execAll, h3, h5], h6⟩

theorem run_of_execAll {s s1 : MemState} {l : List StCall} (h : StCall.execAll H s l = some (s1, none)) :
    runSt H s (l.map .call) = some s1 ∧ accepted H s (l.map .call) = l := by
  induction l generalizing s with
  | nil => simp only [StCall.execAll] at h; cases h; exact ⟨rfl, rfl⟩
  | cons c l ih =>
    obtain ⟨s2, h1, h2⟩ := execAll_cons_ok h
    obtain ⟨h3, h4⟩ := ih h2
    exact ⟨by simp only [List.map_cons, runSt, h1, h3], by simp only [List.map_cons, accepted, h1, h4]⟩

theorem accepted_append (a b : List StEvent) (s t : MemState) (h : runSt H s a = some t) : accepted H s (a ++ b) = accepted H s a ++ accepted H t b := by
  induction a generalizing s with
  | nil => simp only [runSt] at h; cases h; rfl
  | cons e a ih =>
    cases e with
    | call c =>
      simp only [runSt, accepted, List.cons_append] at h ⊢
      cases e1 : c.exec H s with
      | none => simp [e1] at h
      | some p =>
        obtain ⟨s1, o⟩ := p
        rw [e1] at h
        cases o with
        | none => simp only [List.cons_append, List.cons.injEq, true_and]; exact ih _ h
        | some x => exact ih _ h
    | update r n => simp only [runSt, accepted, List.cons_append] at h ⊢; exact ih _ h

/-- Calls made already don't change contracts when made again. -/
theorem execAll_again (hH : H.Binding) (f : WitnessId → WitnessOrd) {es : List StEvent} (hp : EventsProper es) {t t1 : MemState}
    (hr : runSt H {} es = some t) {l : List StCall} (hl : ∀ c ∈ l, c.Proper) (h : StCall.execAll H t l = some (t1, none)) {m : List StCall} (hm : ∀ c ∈ m, c ∈ l)
    {s : MemState} (hs : s.contracts = t1.contracts) :
    ∃ s2, StCall.execAll H s (m.map (StCall.reOrd f)) = some (s2, none) ∧ s2.contracts = t1.contracts := by
  obtain ⟨h1, h2⟩ := run_of_execAll h
  have hrun : runSt H {} (es ++ l.map .call) = some t1 := by rw [runSt_append _ _ _ _ hr, h1]
  have hpr : EventsProper (es ++ l.map .call) := by
    intro c hc
    rcases List.mem_append.mp hc with hc | hc
    · exact hp c hc
    · obtain ⟨c', h3, h4⟩ := List.mem_map.mp hc; cases h4; exact hl _ h3
  induction m generalizing s with
  | nil => exact ⟨s, rfl, hs⟩
  | cons c m ih =>
    have hacc : c ∈ accepted H {} (es ++ l.map .call) := by
      rw [accepted_append _ _ _ _ hr, h2]
      exact List.mem_append_right _ (hm c List.mem_cons_self)
    obtain ⟨s1, k1, k2, -⟩ := Props.C26_readding H hH _ hpr _ hrun c hacc .archived
    obtain ⟨s2, k3, k4⟩ := exec_reOrd f hs k1
    have e : (c.withOrd .archived).reOrd f = c.reOrd f := by cases c <;> rfl
    rw [e] at k3
    obtain ⟨s3, k5, k6⟩ := ih (fun x hx => hm x (List.mem_cons_of_mem _ hx)) (k4.trans k2)
    exact ⟨s3, by simp only [List.map_cons, StCall.execAll, k3, k5], k6⟩

theorem wo_reOrd (f : WitnessId → WitnessOrd) (l : List StCall) :
    (l.map (StCall.reOrd f)).flatMap StCall.wo = (l.flatMap StCall.wo).map (fun e => (e.1, f e.1)) := by
  induction l with
  | nil => rfl
  | cons c l ih =>
    rw [List.map_cons, List.flatMap_cons, List.flatMap_cons, List.map_append, ih]
    cases c <;> rfl

theorem extend_again {κ ν : Type} [Key κ] [DecidableEq κ] {m : OMap κ ν} (hm : OMap.Sorted m) (l : List (κ × ν)) (f : κ → ν) :
    OMap.extend (OMap.extend m l) (l.map (fun e => (e.1, f e.1))) = OMap.extend m (l.map (fun e => (e.1, f e.1))) := by
  refine OMap.Sorted.ext ((hm.extend _).extend _) (hm.extend _) (fun k => ?_)
  rw [get?_extend, get?_extend, get?_extend]
  cases h : lastFor k (l.map (fun e => (e.1, f e.1))) with
  | some v => rfl
  | none =>
    have : lastFor k l = none := by
      rw [lastFor_none] at h ⊢
      intro e he
      have := h (e.1, f e.1) (List.mem_map.mpr ⟨e, he, rfl⟩)
      exact this
    rw [this]; rfl

/-- Calls made again, with other positions of witnesses, lead to the same state as calls made with these positions in the first place. -/
theorem execAll_resume (hH : H.Binding) (f : WitnessId → WitnessOrd) {es : List StEvent} (hp : EventsProper es) {t t1 : MemState}
    (hr : runSt H {} es = some t) {l : List StCall} (hl : ∀ c ∈ l, c.Proper) (h : StCall.execAll H t l = some (t1, none)) :
    ∃ t2, StCall.execAll H t (l.map (StCall.reOrd f)) = some (t2, none) ∧ StCall.execAll H t1 (l.map (StCall.reOrd f)) = some (t2, none) := by
  obtain ⟨a, ha, ha'⟩ := execAll_reOrd f rfl h
  obtain ⟨b, hb, hb'⟩ := execAll_again hH f hp hr hl h (fun _ h => h) rfl
  refine ⟨a, ha, ?_⟩
  have : b = a := by
    have w1 := execAll_wo h
    have w2 := execAll_wo ha
    have w3 := execAll_wo hb
    rw [w1, wo_reOrd, extend_again (runSt_inv hp stInv_empty hr).witnesses] at w3
    rw [wo_reOrd] at w2
    cases a; cases b
    simp only at ha' hb' w2 w3
    rw [ha', hb', w2, w3]
  rw [hb, this]

/-! ### Consignments -/

theorem used_map (f : WitnessId → WitnessOrd) (t : Op) (w : WitnessId) (ord : WitnessOrd) (exts : List Nat) (u u' : OMap Nat (WitnessId × WitnessOrd))
    (h : ∀ e, OMap.get? u' e = (OMap.get? u e).map (fun p => (p.1, f p.1))) (e : Nat) :
    OMap.get? (exts.foldl (fun u e => if OMap.contains u e then u
        else if t.inputs.any (fun i => decide (i.op = e)) then OMap.insert u e (w, f w) else u) u') e =
    (OMap.get? (exts.foldl (fun u e => if OMap.contains u e then u
        else if t.inputs.any (fun i => decide (i.op = e)) then OMap.insert u e (w, ord) else u) u) e).map (fun p => (p.1, f p.1)) := by
  rw [foldl_used, foldl_used, h]
  cases OMap.get? u e with
  | some p => rfl
  | none =>
    simp only [Option.map_none, Option.none_or]
    split <;> rfl

theorem loop_reOrd (f : WitnessId → WitnessOrd) (c : Nat) (exts : List Nat) (r r' : Resolver) (ts : List (Op × WitnessId))
    (hr : ∀ t w, (t, w) ∈ ts → r' w = some (f w)) (u u' : OMap Nat (WitnessId × WitnessOrd))
    (h : ∀ e, OMap.get? u' e = (OMap.get? u e).map (fun p => (p.1, f p.1))) (he : (transitionLoop H c exts r ts u).2.2 = none) :
    (transitionLoop H c exts r' ts u').1 = (transitionLoop H c exts r ts u).1.map (StCall.reOrd f) ∧
    (∀ e, OMap.get? (transitionLoop H c exts r' ts u').2.1 e = (OMap.get? (transitionLoop H c exts r ts u).2.1 e).map (fun p => (p.1, f p.1))) ∧
    (transitionLoop H c exts r' ts u').2.2 = none := by
  induction ts generalizing u u' with
  | nil => exact ⟨rfl, h, rfl⟩
  | cons x ts ih =>
    obtain ⟨t, w⟩ := x
    simp only [transitionLoop, hr t w List.mem_cons_self] at he ⊢
    split at he
    · cases he
    · rename_i ord _
      obtain ⟨i1, i2, i3⟩ := ih (fun t w hm => hr t w (List.mem_cons_of_mem _ hm)) _ _ (used_map f t w ord exts u u' h) he
      exact ⟨by rw [i1]; rfl, i2, i3⟩

theorem stCalls_reOrd {f : WitnessId → WitnessOrd} {sch : SchemaGlobals} {d : ConsignmentData} {r r' : Resolver}
    (hr : ∀ t w, (t, w) ∈ d.transitions → r' w = some (f w)) (he : (consignmentStCalls H sch d r).2 = none) :
    consignmentStCalls H sch d r' = ((consignmentStCalls H sch d r).1.map (StCall.reOrd f), none) := by
  simp only [consignmentStCalls] at he ⊢
  split at he
  · cases he
  · rename_i e
    obtain ⟨i1, i2, i3⟩ := loop_reOrd (H := H) f (d.genesis.contractId H) (OSet.ofList (d.extensions.map (Op.id H))) r r' d.transitions hr [] [] (fun _ => rfl) e
    simp only [i3, e]
    congr 1
    rw [i1, List.map_cons, List.map_append]
    congr 2
    simp only [extensionCalls, List.map_filterMap]
    refine List.filterMap_congr (fun x _ => ?_)
    rw [i2]
    cases OMap.get? _ (x.id H) <;> rfl

/-- Accepting the state of a consignment again. -/
theorem state_resume (hH : H.Binding) {G : SchemaGlobals} (hG : OMap.Sorted G.maxItems) {con : Consignment} {r r' : Resolver}
    (hc : StockEvent.Proper H (.consignment con r)) {es : List StEvent} (hp : EventsProper es) {t t1 : MemState} (hr : runSt H {} es = some t)
    (h : t.updateFromConsignment H G con.data r = some (t1, none)) (hk : ∀ o w, (o, w) ∈ con.data.transitions → (r' w).isSome = true) :
    ∃ t2, t.updateFromConsignment H G con.data r' = some (t2, none) ∧ t1.updateFromConsignment H G con.data r' = some (t2, none) := by
  simp only [MemState.updateFromConsignment] at h
  obtain ⟨⟨s1, e1⟩, h1, h2⟩ := Option.map_eq_some_iff.mp h
  simp only [Prod.mk.injEq, Option.or_eq_none_iff] at h2
  obtain ⟨rfl, rfl, h3⟩ := h2
  have h4 := stCalls_reOrd (H := H) (f := fun w => (r' w).getD .archived) (r' := r') (sch := G) (d := con.data) (r := r) (fun o w hm => by
    obtain ⟨x, hx⟩ := Option.isSome_iff_exists.mp (hk o w hm); rw [hx]; rfl) h3
  have hpr : ∀ c ∈ (consignmentStCalls H G con.data r).1, c.Proper := by
    intro c hcm
    obtain ⟨⟨p1, p2, p3, p4⟩, q1, q2, q3, q4⟩ := hc
    rcases consignmentStCalls_mem _ _ _ _ hcm with rfl | ⟨t', w, ord, rfl, ht⟩ | ⟨x, w, ord, rfl, hx⟩
    · exact ⟨hG, q2, p1⟩
    · simp only [ConsignmentData.transitions, WitnessBundle.knownTransitions, List.mem_flatMap, List.mem_map, Prod.mk.injEq] at ht
      obtain ⟨wb, h5, x, ⟨b, h6, h7⟩, rfl, -⟩ := ht
      exact q4 wb h5 b h6 x h7
    · exact q3 x hx
  obtain ⟨t2, k1, k2⟩ := execAll_resume hH (fun w => (r' w).getD .archived) hp hr hpr h1
  refine ⟨t2, ?_, ?_⟩
  · simp only [MemState.updateFromConsignment, h4, k1]; rfl
  · simp only [MemState.updateFromConsignment, h4, k2]; rfl

end Rgb
