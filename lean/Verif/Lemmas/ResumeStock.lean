import Verif.Lemmas.ResumeState
import Verif.Lemmas.UsableStock
import Verif.Lemmas.Arrive
import Verif.Lemmas.Shown
import Verif.Lemmas.ReceiveReveal
import Verif.Spec.Resume

/-!
Repeating operations of the stock.
-/

namespace Rgb

open Stock Index

variable {H : Commit} {I : Ids} {M : Mpc} {G : SchemaDoc → SchemaGlobals}

/-- What a call adds to the limited sets. -/
def CallIn (bundle hidden : Nat → Prop) : IdxCall → Prop
  | .registerBundle b _ _ => bundle b
  | .assignments _ _ items _ _ => ∀ a ∈ items, ∀ s, hidden? a = some s → hidden s
  | _ => True

theorem IndexRoom.call {x : Index} {bundle hidden : Nat → Prop} (h : IndexRoom x bundle hidden) {call : IdxCall} (hc : CallIn bundle hidden call) :
    CallRoom x call := by
  cases call with
  | registerBundle b w c =>
    simp only [CallRoom, mset]
    cases e : OMap.get? x.bundleWitness b with
    | none => simp
    | some l => exact h.witnesses b l hc e
  | assignments c w items opid ty =>
    intro a ha s hs
    simp only [mset]
    cases e : OMap.get? x.terminals s with
    | none => simp
    | some l => exact h.terminals s l (hc a ha s hs) e
  | _ => trivial

theorem sum_pos {α : Type} {f : α → Nat} {l : List α} {a : α} (h : a ∈ l) (hp : 0 < f a) : 0 < (l.map f).sum := by
  induction l with
  | nil => cases h
  | cons b l ih =>
    simp only [List.map_cons, List.sum_cons]
    rcases List.mem_cons.mp h with rfl | h
    · omega
    · have := ih h; omega

theorem callIn_of_sums {calls : List IdxCall} {bundle hidden : Nat → Prop} (h1 : ∀ b, 0 < (calls.map (callReg b)).sum → bundle b)
    (h2 : ∀ s, 0 < (calls.map (callHid s)).sum → hidden s) : ∀ call ∈ calls, CallIn bundle hidden call := by
  intro call hc
  cases call with
  | registerBundle b w c => exact h1 b (sum_pos hc (by simp [callReg]))
  | assignments c w items opid ty =>
    intro a ha s hs
    refine h2 s (sum_pos hc ?_)
    simp only [callHid, hid]
    exact List.countP_pos_iff.mpr ⟨a, ha, by simpa using hs⟩
  | _ => trivial

theorem consignment_calls_in (d : ConsignmentData) : ∀ call ∈ Index.consignmentCalls H d,
    CallIn (fun b => 0 < d.timesBundle H b) (fun s => 0 < d.hiddenTo H s) call := by
  intro call hc
  simp only [Index.consignmentCalls, List.mem_cons] at hc
  rcases hc with rfl | hc
  · trivial
  · exact callIn_of_sums (calls := restCalls H d) (fun b h => by rw [restCalls_reg] at h; exact h) (fun s h => by rw [restCalls_hid] at h; exact h) call hc

theorem fascia_calls_in (w : WitnessId) (l : List (Nat × Bundle)) : ∀ call ∈ l.flatMap (fun e => Index.bundleCalls H e.1 e.2 w),
    CallIn (fun b => ∃ e ∈ l, e.2.id H = b) (fun s => ∃ e ∈ l, ∃ t ∈ OMap.vals e.2.known, 0 < t.hiddenTo H s) call := by
  intro call hc
  obtain ⟨e, he, hc⟩ := List.mem_flatMap.mp hc
  refine callIn_of_sums (calls := Index.bundleCalls H e.1 e.2 w) (fun b h => ?_) (fun s h => ?_) call hc
  · rw [bundleCalls_reg] at h
    split at h
    · rename_i h2; exact ⟨e, he, h2⟩
    · omega
  · rw [bundleCalls_hid] at h
    refine ⟨e, he, ?_⟩
    have : ∀ l : List Op, 0 < (l.map (Op.hiddenTo H s)).sum → ∃ t ∈ l, 0 < t.hiddenTo H s := by
      intro l
      induction l with
      | nil => intro h; simp at h
      | cons t l ih =>
        intro h
        simp only [List.map_cons, List.sum_cons] at h
        by_cases h2 : 0 < t.hiddenTo H s
        · exact ⟨t, by simp, h2⟩
        · obtain ⟨t', h3, h4⟩ := ih (by omega); exact ⟨t', by simp [h3], h4⟩
    exact this _ h

theorem Stock.Hist.idxSorted {k : Stock} (h : Hist H k) : IdxSorted k.index := by
  obtain ⟨ops, e⟩ := h.index
  rw [e]
  exact run_sorted H ops idxSorted_empty

theorem execAll_sorted {x : Index} (hx : IdxSorted x) (calls : List IdxCall) : IdxSorted (IdxCall.execAll x calls).1 := calls_sorted calls hx

theorem index_resume {x x1 : Index} (hx : IdxSorted x) {calls : List IdxCall} (h : IdxCall.execAll x calls = (x1, none))
    {bundle hidden : Nat → Prop} (hr : IndexRoom x1 bundle hidden) (hin : ∀ call ∈ calls, CallIn bundle hidden call) :
    IdxCall.execAll x1 calls = (x1, none) := by
  have h1 := calls_done (x := x) (calls := calls) (by rw [h])
  have h2 := execAll_sorted hx calls
  rw [h] at h1 h2
  exact calls_known h2 h1 (fun call hc => hr.call (hin call hc))

theorem body_of {con : Consignment} {r : Resolver} {k : Stock} {s : MemStash} {t : MemState} {x : Index}
    (h1 : k.state.updateFromConsignment H (G con.schema) con.data r = some (t, none)) (h2 : k.index.indexConsignment H con.data = (x, none))
    (h3 : k.stash.consumeConsignment H I M con = some (s, .ok ())) : consumeBody H I M G r con k = some (⟨s, t, x⟩, none) := by
  simp only [consumeBody, h1, h2, h3]

theorem resolveSecrets_schema {s : MemStash} {con con' : Consignment} (h : s.resolveSecrets H con = .ok con') : con'.schema = con.schema := by
  simp only [MemStash.resolveSecrets] at h
  split at h
  · cases h
  · cases h; rfl

theorem consignment_resume (hH : H.Binding) (hG : ∀ d, OMap.Sorted (G d).maxItems) {k k1 : Stock} (hk : Hist H k) {con : Consignment} {r r' : Resolver}
    (hc : StockEvent.Proper H (.consignment con r)) (h : Stock.consumeConsignment H I M G r con k = some (k1, none))
    (hx : IndexRoom.consignment H k1.index con) (hr : ∀ wb ∈ con.data.bundles, (r' wb.id).isSome = true) :
    ∃ t2, ∀ m, Interrupted k k1 m → Stock.consumeConsignment H I M G r' con m = some (⟨k1.stash, t2, k1.index⟩, none) := by
  obtain ⟨con', h1, h2⟩ := consignment_done (I := I) (M := M) (G := G) h
  obtain ⟨q1, -, -, q4, -⟩ := resolve_proper hH _ _ _ r hc h1
  obtain ⟨es, hp, hs⟩ := hk.state
  have hr' : ∀ o w, (o, w) ∈ con'.data.transitions → (r' w).isSome = true := by
    intro o w hm
    simp only [ConsignmentData.transitions, List.mem_flatMap, List.mem_map, Prod.mk.injEq] at hm
    obtain ⟨wb, hb, -, -, -, rfl⟩ := hm
    obtain ⟨wb', hb', e, -⟩ := q4 wb hb
    have := hr wb' hb'
    simp only [WitnessBundle.id, e] at this ⊢
    exact this
  obtain ⟨t2, s1, s2⟩ := state_resume hH (hG con'.schema) q1 hp hs (body_state h2) hr'
  have x1 := body_index h2
  have x2 : k1.index.indexConsignment H con'.data = (k1.index, none) := by
    obtain ⟨g, hg, he⟩ := resolve_ok hH k.stash con hc.2.1
    have e : con' = withBundles con g := by rw [h1] at he; injection he
    refine index_resume hk.idxSorted x1 hx (fun call hcall => ?_)
    have := consignment_calls_in con'.data call hcall
    subst e
    cases call with
    | registerBundle b w c => simp only [CallIn] at this ⊢; rw [times_reveal hg] at this; exact this
    | assignments c w items opid ty =>
      intro a ha s hs
      exact Nat.lt_of_lt_of_le (this a ha s hs) (hidden_reveal hg s)
    | _ => trivial
  have d := body_stash h2
  refine ⟨t2, ?_⟩
  rintro m (rfl | rfl | rfl)
  · simp only [Stock.consumeConsignment, h1, storeTx_mem, body_of s1 x1 d]; rfl
  · simp only [Stock.consumeConsignment, h1, storeTx_mem]
    rw [body_of (k := ⟨k.stash, k.state, k1.index⟩) s1 x2 d]; rfl
  · simp only [Stock.consumeConsignment, h1, storeTx_mem]
    rw [body_of (k := ⟨k.stash, k1.state, k1.index⟩) s2 x2 d]; rfl

/-! ### Fascias -/

def BundleChecked (b : Bundle) : Prop := (OMap.keys b.known).all (fun o => decide (o ∈ OMap.vals b.inputMap)) = true

def StLoop (H : Commit) (r : Resolver) (w : WitnessId) : List (Nat × Bundle) → MemState → MemState → Prop
  | [], s, s' => s' = s
  | e :: l, s, s' => ∃ s1, s.updateFromBundle H e.1 e.2 w r = some (s1, none) ∧ StLoop H r w l s1 s'

def ShLoop (H : Commit) : List (Nat × Bundle) → MemStash → MemStash → Prop
  | [], s, s' => s' = s
  | e :: l, s, s' => ∃ s1 u, s.consumeBundle H e.2 = some (s1, .ok u) ∧ ShLoop H l s1 s'

theorem idxAll_append_ok {x x' : Index} {l l' : List IdxCall} :
    IdxCall.execAll x (l ++ l') = (x', none) ↔ ∃ x1, IdxCall.execAll x l = (x1, none) ∧ IdxCall.execAll x1 l' = (x', none) := by
  induction l generalizing x with
  | nil => simp [IdxCall.execAll]
  | cons c l ih =>
    rw [List.cons_append]
    simp only [IdxCall.execAll]
    cases e : c.exec x with | mk x2 o
    cases o with
    | none => simp only; exact ih
    | some y => simp

theorem fasciaBundles_iff {r : Resolver} {w : WitnessId} {l : List (Nat × Bundle)} {k k' : Stock} :
    fasciaBundles H r w l k = some (k', none) ↔
      (∀ e ∈ l, BundleChecked e.2) ∧ IdxCall.execAll k.index (l.flatMap (fun e => Index.bundleCalls H e.1 e.2 w)) = (k'.index, none) ∧
      StLoop H r w l k.state k'.state ∧ ShLoop H l k.stash k'.stash := by
  induction l generalizing k with
  | nil =>
    simp only [fasciaBundles, StLoop, ShLoop, List.flatMap_nil, IdxCall.execAll]
    constructor
    · intro h; cases h; exact ⟨by simp, rfl, rfl, rfl⟩
    · rintro ⟨-, h1, h2, h3⟩
      cases k; cases k'
      simp only [Prod.mk.injEq, and_true] at h1 h2 h3
      subst h1; subst h2; subst h3; rfl
  | cons e l ih =>
    obtain ⟨c, b⟩ := e
    simp only [fasciaBundles, StLoop, ShLoop, List.flatMap_cons, List.mem_cons, forall_eq_or_imp]
    rw [idxAll_append_ok]
    split
    · rename_i hb
      simp [BundleChecked, hb]
    · rename_i hb
      have hb : BundleChecked b := by simpa [BundleChecked] using hb
      simp only [hb, true_and, Index.indexBundle]
      cases e1 : IdxCall.execAll k.index (Index.bundleCalls H c b w) with | mk x o
      cases o with
      | some y => simp
      | none =>
        simp only [Prod.mk.injEq, and_true, exists_eq_left']
        cases e2 : k.state.updateFromBundle H c b w r with
        | none => simp
        | some p =>
          obtain ⟨t, o⟩ := p
          cases o with
          | some y => simp
          | none =>
            simp only [Option.some.injEq, Prod.mk.injEq, and_true, exists_eq_left']
            cases e3 : k.stash.consumeBundle H b with
            | none => simp
            | some q =>
              obtain ⟨s, o⟩ := q
              cases o with
              | error y => simp
              | ok u =>
                simp only [ih, Option.some.injEq, Prod.mk.injEq, Except.ok.injEq]
                constructor
                · rintro ⟨h1, h2, h3, h4⟩; exact ⟨h1, h2, h3, s, u, ⟨rfl, rfl⟩, h4⟩
                · rintro ⟨h1, h2, h3, s', u', ⟨rfl, rfl⟩, h4⟩; exact ⟨h1, h2, h3, h4⟩

def fasciaStCalls (w : WitnessId) (ord : WitnessOrd) (l : List (Nat × Bundle)) : List StCall :=
  l.flatMap (fun e => e.2.known.map (fun k => .transition e.1 k.2 w ord))

theorem exec_contains {s s1 : MemState} {c : Nat} {call : StCall} (h : call.exec H s = some (s1, none)) (hc : OMap.contains s.contracts c = true) :
    OMap.contains s1.contracts c = true := by
  have key : ∀ (a : Nat) (v : ContractState), OMap.contains (OMap.insert s.contracts a v) c = true := by
    intro a v
    obtain ⟨x, hx⟩ := OMap.contains_iff.mp hc
    rw [OMap.contains_iff]
    by_cases hac : c = a
    · subst hac; exact ⟨v, OMap.get?_insert_self ..⟩
    · exact ⟨x, by rw [OMap.get?_insert_ne _ _ hac, hx]⟩
  cases call with
  | register sch g =>
    simp only [StCall.exec, MemState.registerContract] at h
    split at h
    · obtain ⟨cs, -, h2⟩ := Option.map_eq_some_iff.mp h; cases h2; exact key _ _
    · split at h
      · cases h
      · obtain ⟨cs, -, h2⟩ := Option.map_eq_some_iff.mp h; cases h2; exact key _ _
  | transition c' op w o =>
    simp only [StCall.exec, MemState.addOp] at h
    split at h
    · cases h
    · obtain ⟨cs, -, h2⟩ := Option.map_eq_some_iff.mp h; cases h2; exact key _ _
  | extension c' op w o =>
    simp only [StCall.exec, MemState.addOp] at h
    split at h
    · cases h
    · obtain ⟨cs, -, h2⟩ := Option.map_eq_some_iff.mp h; cases h2; exact key _ _

theorem execAll_contains {s s1 : MemState} {c : Nat} {calls : List StCall} (h : StCall.execAll H s calls = some (s1, none))
    (hc : OMap.contains s.contracts c = true) : OMap.contains s1.contracts c = true := by
  induction calls generalizing s with
  | nil => simp only [StCall.execAll] at h; cases h; exact hc
  | cons call calls ih =>
    obtain ⟨s2, h1, h2⟩ := execAll_cons_ok h
    exact ih h2 (exec_contains h1 hc)

/-- Transitions don't add contracts. -/
theorem exec_contains_back {s s1 : MemState} {c c' : Nat} {op : Op} {w : WitnessId} {o : WitnessOrd}
    (h : (StCall.transition c' op w o).exec H s = some (s1, none)) (hc : OMap.contains s1.contracts c = true) : OMap.contains s.contracts c = true := by
  simp only [StCall.exec, MemState.addOp] at h
  split at h
  · cases h
  · rename_i cs e
    obtain ⟨cs', -, h2⟩ := Option.map_eq_some_iff.mp h; cases h2
    simp only at hc
    obtain ⟨x, hx⟩ := OMap.contains_iff.mp hc
    rw [OMap.contains_iff]
    by_cases hac : c = c'
    · subst hac; exact ⟨cs, e⟩
    · rw [OMap.get?_insert_ne _ _ hac] at hx; exact ⟨x, hx⟩

theorem fasciaCalls_contains_back {w : WitnessId} {ord : WitnessOrd} {c c' : Nat} {ops : List (Nat × Op)} {s s1 : MemState}
    (h : StCall.execAll H s (ops.map (fun k => .transition c' k.2 w ord)) = some (s1, none)) (hc : OMap.contains s1.contracts c = true) :
    OMap.contains s.contracts c = true := by
  induction ops generalizing s with
  | nil => simp only [List.map_nil, StCall.execAll] at h; cases h; exact hc
  | cons x ops ih =>
    obtain ⟨s2, h1, h2⟩ := execAll_cons_ok h
    exact exec_contains_back h1 (ih h2)

theorem stLoop_iff {r : Resolver} {w : WitnessId} {ord : WitnessOrd} (hr : r w = some ord) {l : List (Nat × Bundle)} {s s' : MemState} :
    StLoop H r w l s s' ↔ (∀ e ∈ l, OMap.contains s.contracts e.1 = true) ∧ StCall.execAll H s (fasciaStCalls w ord l) = some (s', none) := by
  induction l generalizing s with
  | nil =>
    simp only [StLoop, fasciaStCalls, List.flatMap_nil, StCall.execAll]
    constructor
    · rintro rfl; exact ⟨by simp, rfl⟩
    · rintro ⟨-, h⟩; cases h; rfl
  | cons e l ih =>
    simp only [StLoop, fasciaStCalls, List.flatMap_cons, List.mem_cons, forall_eq_or_imp]
    rw [execAll_append_ok]
    have key : ∀ s1, s.updateFromBundle H e.1 e.2 w r = some (s1, none) ↔ OMap.contains s.contracts e.1 = true ∧
        StCall.execAll H s (e.2.known.map (fun k => .transition e.1 k.2 w ord)) = some (s1, none) := by
      intro s1
      simp only [MemState.updateFromBundle, hr]
      split
      · rename_i h1
        split
        · rename_i h2
          rw [List.isEmpty_iff.mp h2]
          simp [StCall.execAll, h1]
        · simp [h1]
      · rename_i h1; simp [h1]
    constructor
    · rintro ⟨s1, h1, h2⟩
      obtain ⟨h3, h4⟩ := (key s1).mp h1
      obtain ⟨h5, h6⟩ := ih.mp h2
      exact ⟨⟨h3, fun x hx => fasciaCalls_contains_back h4 (h5 x hx)⟩, s1, h4, h6⟩
    · rintro ⟨⟨h3, h5⟩, s1, h4, h6⟩
      exact ⟨s1, (key s1).mpr ⟨h3, h4⟩, ih.mpr ⟨fun x hx => execAll_contains h4 (h5 x hx), h6⟩⟩

theorem stLoop_none {r : Resolver} {w : WitnessId} (hr : r w = none) {l : List (Nat × Bundle)} {s s' : MemState} (h : StLoop H r w l s s') :
    ∀ e ∈ l, e.2.known = [] := by
  induction l generalizing s with
  | nil => intro e he; cases he
  | cons e l ih =>
    obtain ⟨s1, h1, h2⟩ := h
    simp only [List.mem_cons, forall_eq_or_imp]
    refine ⟨?_, ih h2⟩
    simp only [MemState.updateFromBundle, hr] at h1
    split at h1
    · split at h1
      · rename_i h3; exact List.isEmpty_iff.mp h3
      · cases h1
    · cases h1

theorem stLoop_empty {r r' : Resolver} {w : WitnessId} {l : List (Nat × Bundle)} {s s' : MemState} (he : ∀ e ∈ l, e.2.known = []) (h : StLoop H r w l s s') :
    s' = s ∧ StLoop H r' w l s s := by
  induction l generalizing s with
  | nil => exact ⟨h, rfl⟩
  | cons e l ih =>
    obtain ⟨s1, h1, h2⟩ := h
    simp only [List.mem_cons, forall_eq_or_imp] at he
    simp only [MemState.updateFromBundle, he.1, List.isEmpty_nil, if_true] at h1
    split at h1
    · rename_i hc
      cases h1
      obtain ⟨h3, h4⟩ := ih he.2 h2
      exact ⟨h3, s, by simp [MemState.updateFromBundle, he.1, hc], h4⟩
    · cases h1

theorem reOrd_fascia (w : WitnessId) (ord ord' : WitnessOrd) (l : List (Nat × Bundle)) :
    (fasciaStCalls w ord l).map (StCall.reOrd (fun _ => ord')) = fasciaStCalls w ord' l := by
  simp only [fasciaStCalls, List.map_flatMap, List.map_map]
  rfl

theorem fascia_resume (hH : H.Binding) {k k1 : Stock} (hk : Hist H k) {f : Fascia} {r r' : Resolver}
    (hc : StockEvent.Proper H (.fascia f r)) (h : Stock.consumeFascia H r f k = some (k1, none))
    (hx : IndexRoom.fascia H k1.index f) (hr : (r' f.witness.id).isSome = true) :
    ∃ t2, ∀ m, Interrupted k k1 m → Stock.consumeFascia H r' f m = some (⟨k1.stash, t2, k1.index⟩, none) := by
  obtain ⟨s, u, h1, h2⟩ := fascia_done (I := ⟨fun _ => 0, fun _ => 0, fun x => x, fun _ => 0⟩) (M := ⟨fun _ _ _ => none⟩) (G := fun _ => ⟨0, []⟩) h
  obtain ⟨b1, b2, b3, b4⟩ := fasciaBundles_iff.mp h2
  obtain ⟨es, hp, hs⟩ := hk.state
  have x2 := index_resume hk.idxSorted b2 hx (fascia_calls_in _ _)
  obtain ⟨t2, s1, s2⟩ : ∃ t2, StLoop H r' f.witness.id f.bundles k.state t2 ∧ StLoop H r' f.witness.id f.bundles k1.state t2 := by
    cases e : r f.witness.id with
    | none =>
      obtain ⟨h3, h4⟩ := stLoop_empty (r' := r') (stLoop_none e b3) b3
      exact ⟨k.state, h4, by rw [h3]; exact h4⟩
    | some ord =>
      obtain ⟨ord', e'⟩ := Option.isSome_iff_exists.mp hr
      obtain ⟨c1, c2⟩ := (stLoop_iff e).mp b3
      have hpr : ∀ c ∈ fasciaStCalls f.witness.id ord f.bundles, c.Proper := by
        intro c hm
        simp only [fasciaStCalls, List.mem_flatMap, List.mem_map] at hm
        obtain ⟨x, hx, y, hy, rfl⟩ := hm
        exact (hc x hx).2 y.2 (List.mem_map.mpr ⟨y, hy, rfl⟩)
      obtain ⟨t2, d1, d2⟩ := execAll_resume hH (fun _ => ord') hp hs hpr c2
      rw [reOrd_fascia] at d1 d2
      exact ⟨t2, (stLoop_iff e').mpr ⟨c1, d1⟩, (stLoop_iff e').mpr ⟨fun x hx => execAll_contains c2 (c1 x hx), d2⟩⟩
  refine ⟨t2, ?_⟩
  have key : ∀ (m : Stock), m.stash = k.stash → IdxCall.execAll m.index (f.bundles.flatMap (fun e => Index.bundleCalls H e.1 e.2 f.witness.id)) = (k1.index, none) →
      StLoop H r' f.witness.id f.bundles m.state t2 → Stock.consumeFascia H r' f m = some (⟨k1.stash, t2, k1.index⟩, none) := by
    intro m e1 e2 e3
    have := (fasciaBundles_iff (H := H) (r := r') (w := f.witness.id) (l := f.bundles) (k := { m with stash := s }) (k' := ⟨k1.stash, t2, k1.index⟩)).mpr ⟨b1, e2, e3, b4⟩
    simp only [consumeFascia, storeTx_mem, fasciaBody, e1, h1, this]
    rfl
  rintro m (rfl | rfl | rfl)
  · exact key _ rfl b2 s1
  · exact key _ rfl x2 s1
  · exact key _ rfl x2 s2

end Rgb
