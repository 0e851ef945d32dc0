import Verif.Spec.Source
import Verif.Lemmas.Shown
import Verif.Lemmas.ReceiveReveal

/-!
Where the state of a stock comes from.
-/

namespace Rgb

open MemStash Props Stock Index

variable {H : Commit} {I : Ids} {M : Mpc} {G : SchemaDoc → SchemaGlobals} {k k' : Stock}

/-! ## Secret seals -/

/-- The step doesn't change secret seals. -/
def SealsKept {α : Type} (s : MemStash) (x : SR α) : Prop := ∀ t a, x = some (t, a) → t.secretSeals = s.secretSeals

theorem SealsKept.bind {α β : Type} {s : MemStash} {x : SR α} {f : MemStash → α → SR β} (hx : SealsKept s x) (hf : ∀ t a, SealsKept t (f t a)) :
    SealsKept s (SR.bind x f) := by
  intro t a h
  simp only [SR.bind] at h
  split at h
  · cases h
  · cases h; exact hx _ _ rfl
  · exact (hf _ _ _ _ h).trans (hx _ _ rfl)

theorem SealsKept.each {α β : Type} {f : MemStash → α → SR β} (hf : ∀ s a, SealsKept s (f s a)) (l : List α) (s : MemStash) : SealsKept s (SR.each f l s) := by
  induction l generalizing s with
  | nil => intro t a h; cases h; rfl
  | cons x l ih => exact (hf s x).bind (fun t _ => ih t)

theorem seals_schema (s : MemStash) (d : SchemaDoc) : SealsKept s (replaceSchema I s d) := by
  intro t a h; simp only [replaceSchema] at h
  repeat' split at h
  all_goals cases h; rfl

theorem seals_iface (s : MemStash) (d : IfaceDoc) : SealsKept s (replaceIface I s d) := by
  intro t a h; simp only [replaceIface] at h
  repeat' split at h
  all_goals cases h; rfl

theorem seals_iimpl (s : MemStash) (d : IimplDoc) : SealsKept s (replaceIimpl s d) := by
  intro t a h; simp only [replaceIimpl] at h
  repeat' split at h
  all_goals first | (cases h; rfl) | cases h

theorem seals_suppl (s : MemStash) (d : SupplDoc) : SealsKept s (addSupplement s d) := by
  intro t a h; simp only [addSupplement] at h
  repeat' split at h
  all_goals cases h; rfl

theorem seals_sigs (s : MemStash) (c : Nat) (l : List (Nat × Nat)) : SealsKept s (importSigs s c l) := by
  intro t a h; simp only [importSigs] at h
  repeat' split at h
  all_goals cases h; rfl

theorem seals_allSigs (l : List (Nat × List (Nat × Nat))) (s : MemStash) : SealsKept s (importAllSigs l s) := by
  induction l generalizing s with
  | nil => intro t a h; cases h; rfl
  | cons x l ih =>
    intro t a h
    simp only [importAllSigs] at h
    split at h
    · cases h
    · rename_i e; exact (ih _ _ _ h).trans (seals_sigs _ _ _ _ _ e)

theorem seals_kit (s : MemStash) (x : Kit) : SealsKept s (consumeKit I s x) := by
  refine SealsKept.bind (fun t a h => by cases h; rfl) fun t _ => ?_
  refine (SealsKept.each (fun s a t b h => by cases h; rfl) _ t).bind fun t _ => ?_
  refine (SealsKept.each seals_schema _ t).bind fun t _ => ?_
  refine (SealsKept.each seals_iface _ t).bind fun t _ => ?_
  refine (SealsKept.each seals_iimpl _ t).bind fun t _ => ?_
  refine (SealsKept.each seals_suppl _ t).bind fun t _ => ?_
  exact seals_allSigs _ t

theorem seals_replaceGenesis (s : MemStash) (g : Op) : SealsKept s (replaceGenesis H s g) := by
  intro t a h; simp only [replaceGenesis] at h
  split at h <;> (cases h; rfl)

theorem seals_genesis (s : MemStash) (g : Op) : SealsKept s (consumeGenesis H s g) := by
  intro t a h; simp only [consumeGenesis] at h
  split at h
  · exact seals_replaceGenesis _ _ _ _ h
  split at h
  · cases h; rfl
  · exact seals_replaceGenesis _ _ _ _ h

theorem seals_extension (s : MemStash) (g : Op) : SealsKept s (consumeExtension H s g) := by
  intro t a h; simp only [consumeExtension, replaceExtension] at h
  repeat' split at h
  all_goals cases h; rfl

theorem seals_bundle (s : MemStash) (g : Bundle) : SealsKept s (consumeBundle H s g) := by
  intro t a h; simp only [consumeBundle, replaceBundle] at h
  repeat' split at h
  all_goals cases h; rfl

theorem seals_witness (s : MemStash) (g : SealWitness) : SealsKept s (consumeWitness s g) := by
  intro t a h; simp only [consumeWitness, replaceWitness] at h
  repeat' split at h
  all_goals cases h; rfl

theorem seals_anchored (c : Nat) (l : List ClientBundle) (s : MemStash) : SealsKept s (consumeAnchored H M c l s) := by
  induction l generalizing s with
  | nil => intro t a h; cases h; rfl
  | cons x l ih =>
    refine (seals_bundle s _).bind fun t _ => ?_
    intro t' a h
    split at h
    · cases h; rfl
    · exact (ih t).bind (fun t _ u a h => by cases h; rfl) _ _ h

theorem seals_witnessBundle (c : Nat) (s : MemStash) (w : WitnessBundle) : SealsKept s (consumeWitnessBundle H M c s w) := by
  refine (seals_anchored c _ s).bind fun t as => ?_
  intro t' a h
  split at h
  · cases h
  · exact seals_witness _ _ _ _ h

theorem seals_consignment (s : MemStash) (con : Consignment) : SealsKept s (MemStash.consumeConsignment H I M s con) := by
  refine (seals_genesis s _).bind fun t _ => ?_
  refine (SealsKept.each seals_extension _ t).bind fun t _ => ?_
  refine (SealsKept.each (seals_witnessBundle _) _ t).bind fun t _ => ?_
  refine (SealsKept.each (fun s a t b h => by cases h; rfl) _ t).bind fun t _ => ?_
  exact seals_kit t _

/-! ## Calls of the state -/

theorem used_fold (exts : List Nat) (t : Op) (w : WitnessId) (ord : WitnessOrd) (used : OMap Nat (WitnessId × WitnessOrd)) {e : Nat}
    {v : WitnessId × WitnessOrd}
    (h : OMap.get? (exts.foldl (fun u e => if OMap.contains u e then u
        else if t.inputs.any (fun i => decide (i.op = e)) then OMap.insert u e (w, ord) else u) used) e = some v) :
    OMap.get? used e = some v ∨ v = (w, ord) := by
  induction exts generalizing used with
  | nil => exact .inl h
  | cons x exts ih =>
    rcases ih _ h with h | h
    · dsimp only at h
      split at h
      · exact .inl h
      split at h
      · rw [OMap.get?_insert] at h
        split at h
        · cases h; exact .inr rfl
        · exact .inl h
      · exact .inl h
    · exact .inr h

theorem used_loop (c : Nat) (exts : List Nat) (r : Resolver) (l : List (Op × WitnessId)) (used : OMap Nat (WitnessId × WitnessOrd)) {e : Nat}
    {v : WitnessId × WitnessOrd} (h : OMap.get? (transitionLoop H c exts r l used).2.1 e = some v) :
    OMap.get? used e = some v ∨ ∃ t, (t, v.1) ∈ l := by
  induction l generalizing used with
  | nil => exact .inl h
  | cons x l ih =>
    obtain ⟨t, w⟩ := x
    simp only [transitionLoop] at h
    split at h
    · exact .inl h
    · rcases ih _ h with h | ⟨t', h⟩
      · rcases used_fold _ _ _ _ _ h with h | rfl
        · exact .inl h
        · exact .inr ⟨t, by simp⟩
      · exact .inr ⟨t', by simp [h]⟩

theorem stCalls_mem (sch : SchemaGlobals) (d : ConsignmentData) (r : Resolver) (call : StCall) (h : call ∈ (consignmentStCalls H sch d r).1) :
    call = .register sch d.genesis ∨
    (∃ t w ord, call = .transition (d.genesis.contractId H) t w ord ∧ (t, w) ∈ d.transitions) ∨
    (∃ e w ord, call = .extension (d.genesis.contractId H) e w ord ∧ e ∈ d.extensions ∧ ∃ t, (t, w) ∈ d.transitions) := by
  rcases consignmentStCalls_mem _ _ _ _ h with h1 | h1 | ⟨e, w, ord, rfl, h1⟩
  · exact .inl h1
  · exact .inr (.inl h1)
  · refine .inr (.inr ⟨e, w, ord, rfl, h1, ?_⟩)
    have key : ∀ (exts : List Nat) (l : List (Op × WitnessId)) (used : OMap Nat (WitnessId × WitnessOrd)) (x : StCall),
        x ∈ (transitionLoop H (d.genesis.contractId H) exts r l used).1 → ∃ t w ord, x = .transition (d.genesis.contractId H) t w ord := by
      intro exts l
      induction l with
      | nil => intro used x hx; simp [transitionLoop] at hx
      | cons e l ih =>
        obtain ⟨t, w⟩ := e
        intro used x hx
        simp only [transitionLoop] at hx
        split at hx
        · simp at hx
        · rcases List.mem_cons.mp hx with rfl | hx
          · exact ⟨_, _, _, rfl⟩
          · exact ih _ x hx
    simp only [consignmentStCalls] at h
    split at h
    · rcases List.mem_cons.mp h with h | h
      · cases h
      · obtain ⟨_, _, _, h⟩ := key _ _ _ _ h; cases h
    · rcases List.mem_cons.mp h with h | h
      · cases h
      rcases List.mem_append.mp h with h | h
      · obtain ⟨_, _, _, h⟩ := key _ _ _ _ h; cases h
      · obtain ⟨e', h2, h3⟩ := List.mem_filterMap.mp h
        obtain ⟨p, h4, h5⟩ := Option.map_eq_some_iff.mp h3
        cases h5
        rcases used_loop _ _ _ _ _ h4 with h | h
        · cases h
        · exact h

/-! ## Sources -/

/-- What the state stores was made by operations which the history had. -/
structure StSrc (H : Commit) (es : List StockEvent) (s : MemState) : Prop where
  entries : ∀ c kind key y, entry s c kind key = some y → ∃ t w, Had H es c t w ∧ t.Allots H (ownSeals es) w kind y
  globals : ∀ c ty key d, gentry s c ty key = some d → ∃ t w, Had H es c t w ∧ t.Declares H w ty key d
  contracts : ∀ c, OMap.contains s.contracts c = true → ∃ con r, .consignment con r ∈ es ∧ con.data.genesis.contractId H = c

/-- And the secret seals are those made. -/
structure Sourced (H : Commit) (es : List StockEvent) (k : Stock) : Prop where
  seals : ∀ x ∈ k.stash.secretSeals, x ∈ ownSeals es
  state : StSrc H es k.state

/-- The operation is as one which the history had. -/
def OpSrc (H : Commit) (es : List StockEvent) (c : Nat) (t : Op) (w : Option WitnessId) : Prop :=
  ∃ t', Had H es c t' w ∧ (∀ kind y, t.Makes H w kind y → t'.Allots H (ownSeals es) w kind y) ∧
    (∀ ty key d, t.Declares H w ty key d → t'.Declares H w ty key d)

theorem StSrc.calls {es : List StockEvent} {s s' : MemState} (hs : StSrc H es s) {calls : List StCall} {o : Option StErr} (hp : ∀ c ∈ calls, c.Proper)
    (hc : ∀ c ∈ calls, OpSrc H es (c.contract H) c.op c.witness?)
    (hr : ∀ sch g, .register sch g ∈ calls → ∃ con r, .consignment con r ∈ es ∧ con.data.genesis.contractId H = g.contractId H)
    (h : StCall.execAll H s calls = some (s', o)) : StSrc H es s' where
  contracts c h' := by
    obtain ⟨evs, h1, h2⟩ := execAll_run _ _ _ _ h
    cases hb : OMap.contains s.contracts c with
    | true => exact hs.contracts c hb
    | false =>
      obtain ⟨sch, g, h3, rfl, -⟩ := (runSt_contracts (fun c hc => hp c (h1 c hc)) h2).2.2 c h' hb
      exact hr sch g (h1 _ (mem_accepted h3))
  entries c kind key y hy := by
    rcases execAll_from' hp h hy with h | ⟨call, h1, rfl, h2⟩
    · exact hs.entries _ _ _ _ h
    · obtain ⟨t', h3, h4, -⟩ := hc call h1
      exact ⟨t', _, h3, h4 _ _ ((assignedAt_iff H _ _ _ _ _).mp h2).1⟩
  globals c ty key d hd := by
    obtain ⟨evs, h1, h2⟩ := execAll_run _ _ _ _ h
    rw [runSt_gentry (fun c hc => hp c (h1 c hc)) h2] at hd
    rcases Option.or_eq_some_iff.mp hd with h | ⟨-, h⟩
    · obtain ⟨call, h3, h4⟩ := List.exists_of_findSome?_eq_some h
      split at h4
      · rename_i hcc
        subst hcc
        obtain ⟨t', h5, -, h6⟩ := hc call (h1 _ (mem_accepted (List.mem_reverse.mp h3)))
        obtain ⟨h7, h8, h9, vals, h10, h11⟩ := globalAt_some h4
        exact ⟨t', _, h5, h6 _ _ _ ⟨h7, h8, h9 ▸ call.opWitness_witness, vals, h10, h11⟩⟩
      · cases h4
    · exact hs.globals _ _ _ _ h

theorem makes_allots {own : List Seal} {t : Op} {w : Option WitnessId} {kind : StateKind} {a : OutAssign} (h : t.Makes H w kind a) : t.Allots H own w kind a := by
  obtain ⟨h1, h2, ta, sl, h3, h4, h5, h6⟩ := h
  exact ⟨h1, h2, ta, _, sl, h3, h4, h5, rfl, .inl rfl, h6⟩

theorem reveal_allots {own : List Seal} {g : Nat → Option Seal} (hg : Right H g) (ho : ∀ h x, g h = some x → x ∈ own) {t : Op} {w : Option WitnessId}
    {kind : StateKind} {a : OutAssign} (h : (t.revealWith g).Makes H w kind a) : t.Allots H own w kind a := by
  obtain ⟨h1, h2, ta, sl, h3, h4, h5, h6⟩ := h
  simp only [Op.revealWith, OMap.get?_mapVals] at h3
  obtain ⟨tb, h7, rfl⟩ := Option.map_eq_some_iff.mp h3
  simp only [TypedAssigns.revealWith, List.getElem?_map] at h5
  obtain ⟨x, h8, h9⟩ := Option.map_eq_some_iff.mp h5
  refine ⟨h1.trans (Op.revealWith_id hg t), h2, tb, x, sl, h7, h4, h8, ?_, ?_, h6⟩
  · cases x with
    | confidentialSeal sh st =>
      simp only [Assign.revealWith] at h9
      cases hs : g sh with
      | none => simp [hs] at h9
      | some s => simp only [hs] at h9; cases h9; rfl
    | confidential sh st =>
      simp only [Assign.revealWith] at h9
      cases hs : g sh with
      | none => simp [hs] at h9
      | some s => simp [hs] at h9
    | confidentialState s st => cases h9
    | revealed s st => cases h9; rfl
  · cases x with
    | confidentialSeal sh st =>
      simp only [Assign.revealWith] at h9
      cases hs : g sh with
      | none => simp [hs] at h9
      | some s =>
        simp only [hs] at h9
        cases h9
        exact .inr ⟨rfl, (hg _ _ hs).symm, ho _ _ hs⟩
    | confidential sh st =>
      simp only [Assign.revealWith] at h9
      cases hs : g sh with
      | none => simp [hs] at h9
      | some s => simp [hs] at h9
    | confidentialState s st => cases h9
    | revealed s st => cases h9; exact .inl rfl

theorem had_src {es : List StockEvent} {c : Nat} {t : Op} {w : Option WitnessId} (h : Had H es c t w) : OpSrc H es c t w :=
  ⟨t, h, fun _ _ => makes_allots, fun _ _ _ => id⟩

theorem reveal_src {es : List StockEvent} {c : Nat} {t : Op} {w : Option WitnessId} (h : Had H es c t w) {g : Nat → Option Seal} (hg : Right H g)
    (ho : ∀ h x, g h = some x → x ∈ ownSeals es) : OpSrc H es c (t.revealWith g) w :=
  ⟨t, h, fun _ _ => reveal_allots hg ho, fun _ _ _ hd => ⟨hd.1.trans (Op.revealWith_id hg t), hd.2⟩⟩

theorem source_bundle {es : List StockEvent} {c : Nat} {b : Bundle} {w : WitnessId} {r : Resolver}
    (hp : ∀ t ∈ OMap.vals b.known, t.Proper ∧ t.kind = .transition) (hh : ∀ t ∈ OMap.vals b.known, Had H es c t (some w))
    {s t : MemState} {o : Option StErr} (ht : s.updateFromBundle H c b w r = some (t, o)) (hs : StSrc H es s) : StSrc H es t := by
  simp only [MemState.updateFromBundle] at ht
  split at ht
  swap; · cases ht; exact hs
  split at ht
  · cases ht; exact hs
  split at ht
  · cases ht; exact hs
  rename_i ord _
  refine hs.calls ?_ ?_ ?_ ht
  · intro c' hc'
    obtain ⟨z, hz, rfl⟩ := List.mem_map.mp hc'
    exact hp z.2 (List.mem_map.mpr ⟨z, hz, rfl⟩)
  · intro c' hc'
    obtain ⟨z, hz, rfl⟩ := List.mem_map.mp hc'
    exact had_src (hh _ (List.mem_map.mpr ⟨z, hz, rfl⟩))
  · intro sch g hg
    obtain ⟨z, hz, h⟩ := List.mem_map.mp hg
    cases h

theorem source_fascia {es : List StockEvent} {r : Resolver} {w : WitnessId} (l : List (Nat × Bundle))
    (hp : ∀ e ∈ l, ∀ t ∈ OMap.vals e.2.known, t.Proper ∧ t.kind = .transition) (hh : ∀ e ∈ l, ∀ t ∈ OMap.vals e.2.known, Had H es e.1 t (some w))
    {e : Option StockErr} (hi : Sourced H es k) (h : fasciaBundles H r w l k = some (k', e)) : Sourced H es k' := by
  induction l generalizing k with
  | nil => simp only [fasciaBundles] at h; cases h; exact hi
  | cons x l ih =>
    obtain ⟨c, b⟩ := x
    have hpt := hp (c, b) (by simp)
    have hht := hh (c, b) (by simp)
    simp only [fasciaBundles] at h
    split at h
    · cases h; exact hi
    cases e2 : k.index.indexBundle H c b w with | mk x o
    simp only [e2] at h
    cases o with
    | some y => simp only at h; cases h; exact ⟨hi.seals, hi.state⟩
    | none =>
    simp only at h
    cases e1 : k.state.updateFromBundle H c b w r with
    | none => simp [e1] at h
    | some p =>
    obtain ⟨t, o⟩ := p
    have hent := source_bundle hpt hht e1 hi.state
    cases o with
    | some y => simp only [e1] at h; cases h; exact ⟨hi.seals, hent⟩
    | none =>
    simp only [e1] at h
    cases e3 : k.stash.consumeBundle H b with
    | none => simp [e3] at h
    | some q =>
      obtain ⟨s, o⟩ := q
      have hse := seals_bundle _ _ _ _ e3
      cases o with
      | error y => simp only [e3] at h; cases h; exact ⟨fun x hx => hi.seals x (hse ▸ hx), hent⟩
      | ok y =>
        simp only [e3] at h
        exact ih (fun x hx => hp x (by simp [hx])) (fun x hx => hh x (by simp [hx])) ⟨fun x hx => hi.seals x (hse ▸ hx), hent⟩ h

theorem source_body (hG : ∀ d, OMap.Sorted (G d).maxItems) {es : List StockEvent} {con : Consignment} {r : Resolver}
    (hp : StockEvent.Proper H (.consignment con r))
    (hg : OpSrc H es (con.data.genesis.contractId H) con.data.genesis none)
    (hr : ∃ con' r, .consignment con' r ∈ es ∧ con'.data.genesis.contractId H = con.data.genesis.contractId H)
    (hx : ∀ wb ∈ con.data.bundles, ∀ t ∈ con.data.extensions, OpSrc H es (con.data.genesis.contractId H) t (some wb.id))
    (ht : ∀ wb ∈ con.data.bundles, ∀ b ∈ wb.anchored.bundles, ∀ t ∈ OMap.vals b.known, OpSrc H es (con.data.genesis.contractId H) t (some wb.id))
    (hi : Sourced H es k) {e : Option StockErr} (h : consumeBody H I M G r con k = some (k', e)) : Sourced H es k' := by
  have mem : ∀ t w, (t, w) ∈ con.data.transitions → ∃ wb ∈ con.data.bundles, wb.id = w ∧ ∃ b ∈ wb.anchored.bundles, t ∈ OMap.vals b.known := by
    intro t w hm
    simp only [ConsignmentData.transitions, WitnessBundle.knownTransitions, List.mem_flatMap, List.mem_map, Prod.mk.injEq] at hm
    obtain ⟨wb, h5, x, ⟨b, h6, h7⟩, rfl, h8⟩ := hm
    exact ⟨wb, h5, h8, b, h6, h7⟩
  have state : ∀ {t : MemState} {o : Option StErr}, k.state.updateFromConsignment H (G con.schema) con.data r = some (t, o) → StSrc H es t := by
    intro t o hu
    simp only [MemState.updateFromConsignment] at hu
    obtain ⟨⟨s1, e1⟩, h1, h2⟩ := Option.map_eq_some_iff.mp hu
    cases h2
    refine hi.state.calls ?_ ?_ ?_ h1
    · intro c hc
      obtain ⟨⟨p1, p2, p3, p4⟩, q1, q2, q3, q4⟩ := hp
      rcases stCalls_mem _ _ _ _ hc with rfl | ⟨t', w, ord, rfl, ht⟩ | ⟨x, w, ord, rfl, hx, -⟩
      · exact ⟨hG _, q2, p1⟩
      · obtain ⟨wb, h5, -, b, h6, h7⟩ := mem _ _ ht
        exact q4 wb h5 b h6 t' h7
      · exact q3 x hx
    · intro c hc
      rcases stCalls_mem _ _ _ _ hc with rfl | ⟨t', w, ord, rfl, h5⟩ | ⟨x, w, ord, rfl, h5, t', h6⟩
      · exact hg
      · obtain ⟨wb, h6, rfl, b, h7, h8⟩ := mem _ _ h5
        exact ht wb h6 b h7 t' h8
      · obtain ⟨wb, h7, rfl, -⟩ := mem _ _ h6
        exact hx wb h7 x h5
    · intro sch g hg'
      rcases stCalls_mem _ _ _ _ hg' with h | ⟨t', w, ord, h, h5⟩ | ⟨x, w, ord, h, h5, t', h6⟩
      · cases h; exact hr
      · cases h
      · cases h
  simp only [consumeBody] at h
  cases e1 : k.state.updateFromConsignment H (G con.schema) con.data r with
  | none => simp [e1] at h
  | some p =>
  obtain ⟨t, o⟩ := p
  have hent := state e1
  cases o with
  | some x => simp only [e1] at h; cases h; exact ⟨hi.seals, hent⟩
  | none =>
  simp only [e1] at h
  cases e2 : k.index.indexConsignment H con.data with | mk x o
  simp only [e2] at h
  cases o with
  | some y => simp only at h; cases h; exact ⟨hi.seals, hent⟩
  | none =>
  simp only at h
  cases e3 : k.stash.consumeConsignment H I M con with
  | none => simp [e3] at h
  | some q =>
    obtain ⟨s, o⟩ := q
    have hse := seals_consignment _ _ _ _ e3
    cases o with
    | error y => simp only [e3] at h; cases h; exact ⟨fun x hx => hi.seals x (hse ▸ hx), hent⟩
    | ok y => simp only [e3] at h; cases h; exact ⟨fun x hx => hi.seals x (hse ▸ hx), hent⟩

theorem source_event (hH : H.Binding) (hG : ∀ d, OMap.Sorted (G d).maxItems) {es : List StockEvent} {e : StockEvent} (hm : e ∈ es) (he : e.Proper H)
    (hi : Sourced H es k) (h : e.exec H I M G k = some k') : Sourced H es k' := by
  cases e with
  | consignment con r =>
    simp only [StockEvent.exec] at h
    obtain ⟨⟨k1, o⟩, h1, rfl⟩ := Option.map_eq_some_iff.mp h
    obtain ⟨g, hg, hr⟩ := resolve_ok hH k.stash con he.2.1
    have hp' := (resolve_proper hH _ _ _ r he hr).1
    simp only [Stock.consumeConsignment, hr, storeTx_mem] at h1
    obtain ⟨⟨k2, o'⟩, h2, h3⟩ := Option.map_eq_some_iff.mp h1
    cases h3
    have hid : ∀ wb ∈ con.data.bundles, (g wb).id = wb.id := fun wb hwb => by simp only [WitnessBundle.id, (hg wb hwb).pub]
    refine source_body hG hp' ?_ ?_ ?_ ?_ hi h2
    · exact had_src (.genesis con r hm)
    · exact ⟨con, r, hm, rfl⟩
    · intro wb hwb t ht
      obtain ⟨wb', h4, rfl⟩ := List.mem_map.mp hwb
      rw [hid wb' h4]
      exact had_src (.extension con r t wb' hm ht h4)
    · intro wb hwb b hb t ht
      obtain ⟨wb', h4, rfl⟩ := List.mem_map.mp hwb
      rw [hid wb' h4]
      obtain ⟨T, hT, hl⟩ := (hg wb' h4).list
      simp only [AnchoredBundles.bundles, hl, List.map_map, List.mem_map, Function.comp] at hb
      obtain ⟨x, h5, rfl⟩ := hb
      simp only [ClientBundle.revealWith, OMap.vals, OMap.mapVals, List.map_map, List.mem_map, Function.comp] at ht
      obtain ⟨z, h6, rfl⟩ := ht
      refine reveal_src (.transition _ _ x.bundle wb'.id z.2 hm (.consignment con r wb' x.bundle h4 ?_) (List.mem_map.mpr ⟨z, h6, rfl⟩))
        (hT x).1 (fun h y hy => hi.seals y ((hT x).2 h y hy))
      simp only [AnchoredBundles.bundles, List.mem_map]
      exact ⟨x, h5, rfl⟩
  | fascia f r =>
    obtain ⟨⟨k1, o⟩, h1, rfl⟩ := Option.map_eq_some_iff.mp h
    simp only [consumeFascia, storeTx_mem] at h1
    obtain ⟨⟨k2, o'⟩, h2, h3⟩ := Option.map_eq_some_iff.mp h1
    cases h3
    simp only [fasciaBody] at h2
    cases e1 : k.stash.consumeWitness ⟨f.witness, f.anchor⟩ with
    | none => simp [e1] at h2
    | some q =>
      obtain ⟨s, x⟩ := q
      have hse := seals_witness _ _ _ _ e1
      have hi' : Sourced H es { k with stash := s } := ⟨fun x hx => hi.seals x (hse ▸ hx), hi.state⟩
      cases x with
      | error y => simp only [e1] at h2; cases h2; exact hi'
      | ok y =>
        simp only [e1] at h2
        exact source_fascia _ (fun e he' => (he e he').2) (fun e he' t ht => .transition _ _ e.2 _ t hm (.fascia f r e.1 e.2 he') ht) hi' h2
  | kit x =>
    obtain ⟨⟨s, o⟩, h1, rfl⟩ := Option.map_eq_some_iff.mp h
    exact ⟨fun y hy => hi.seals y (seals_kit _ _ _ _ h1 ▸ hy), hi.state⟩
  | secretSeal x =>
    simp only [StockEvent.exec] at h
    obtain ⟨⟨s, o⟩, h1, rfl⟩ := Option.map_eq_some_iff.mp h
    simp only [addSecretSeal] at h1
    cases h1
    refine ⟨fun y hy => ?_, hi.state⟩
    rcases OSet.mem_insert.mp hy with rfl | hy
    · exact List.mem_filterMap.mpr ⟨_, hm, rfl⟩
    · exact hi.seals y hy
  | trust i t =>
    simp only [StockEvent.exec] at h
    obtain ⟨⟨s, o⟩, h1, rfl⟩ := Option.map_eq_some_iff.mp h
    simp only [setTrust] at h1
    cases h1
    exact ⟨hi.seals, hi.state⟩
  | update r n =>
    simp only [StockEvent.exec, Option.some.injEq] at h
    subst h
    refine ⟨hi.seals, fun c kind key y hy => hi.state.entries c kind key y ?_, fun c ty key y hy => hi.state.globals c ty key y ?_,
      fun c hc => hi.state.contracts c ?_⟩
    · rw [← hy]
      exact (runSt_entry (H := H) (s := k.state) (es := [.update r n]) (by simp [EventsProper]) rfl c kind key).symm ▸ by simp [accepted]
    · rw [← hy]
      exact (runSt_gentry (H := H) (s := k.state) (es := [.update r n]) (by simp [EventsProper]) rfl c ty key).symm ▸ by simp [accepted]
    · cases hb : OMap.contains k.state.contracts c with
      | true => rfl
      | false =>
        obtain ⟨sch, g, h3, -⟩ := (runSt_contracts (H := H) (s := k.state) (es := [.update r n]) (by simp [EventsProper]) rfl).2.2 c hc hb
        simp [accepted] at h3

theorem source_run (hH : H.Binding) (hG : ∀ d, OMap.Sorted (G d).maxItems) {all : List StockEvent} (es : List StockEvent) (hs : ∀ e ∈ es, e ∈ all)
    (he : ∀ e ∈ es, e.Proper H) (hi : Sourced H all k) (h : runStock H I M G es k = some k') : Sourced H all k' := by
  induction es generalizing k with
  | nil => simp only [runStock] at h; cases h; exact hi
  | cons e es ih =>
    simp only [runStock] at h
    obtain ⟨k₁, h1, h2⟩ := Option.bind_eq_some_iff.mp h
    exact ih (fun x hx => hs x (by simp [hx])) (fun x hx => he x (by simp [hx])) (source_event hH hG (hs e (by simp)) (he e (by simp)) hi h1) h2

theorem source_empty {es : List StockEvent} : Sourced H es .empty :=
  ⟨(fun x hx => by simp [Stock.empty] at hx), (fun c kind key y h => by simp [entry, Stock.empty] at h),
    (fun c ty key y h => by simp [gentry, Stock.empty] at h),
    (fun c h => by simp [Stock.empty, OMap.contains] at h)⟩

end Rgb
