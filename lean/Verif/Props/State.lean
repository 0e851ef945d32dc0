import Verif.Lemmas.State
import Verif.Spec.CalcCommit
import Verif.Spec.ToyCommit
import Verif.Props.Index

/-! # C23–C29: the contract state -/

namespace Rgb.Props
open Rgb ContractState

/-! Data for the examples. -/

def exSchema : SchemaGlobals := ⟨9, [(20, 1)]⟩
def exW : WitnessId := ⟨.bitcoin, 60⟩
def exW2 : WitnessId := ⟨.bitcoin, 61⟩

/-- A transition assigning to an explicit outpoint. -/
def exExplicit : Op :=
  { kind := .transition, contract := 101, nonce := 3, inputs := [⟨101, 4, 0⟩], globals := [(20, [5])],
    assigns := [(4, ⟨.fungible, [.revealed ⟨.bitcoin, .opretFirst, some 70, 0, 9⟩ (.fungible 10 0 0)]⟩)] }

def exEvents : List StEvent :=
  [.call (.register exSchema exGenesis), .call (.transition 101 exTransition exW .tentative)]

def exState : MemState := (runSt calcCommit {} exEvents).getD {}

theorem exEvents_proper : EventsProper exEvents := by
  intro c hc
  simp only [exEvents, List.mem_cons, StEvent.call.injEq, List.not_mem_nil, or_false] at hc
  rcases hc with rfl | rfl <;> (simp only [StCall.Proper, Op.Proper, OMap.Sorted]; decide +kernel)

theorem exState_run : runSt calcCommit {} exEvents = some exState := by decide +kernel

/-! ### C23 -/

/-- **C23**, exactly what the code does. For any history of adding operations and of updating witnesses (calls which fail included),
the state of a kind returned for a contract consists of exactly those assignments, with visible seal and state, of operations
successfully added to the contract, whose witness is known and isn't archived, and for which no earlier successful call has already assigned to the
same output with the same seal.

The last restriction is not in the property, see `C23_reanchored_fails`. -/
theorem C23_state_queries_partial (H : Commit) (es : List StEvent) (hp : EventsProper es) (s : MemState) (hr : runSt H {} es = some s)
    (c : Nat) (v : ContractView) (hv : s.contractState c = .ok v) (k : StateKind) (a : OutAssign) :
    a ∈ v.all k ↔ s.Valid a.witness ∧ ∃ pre call post, accepted H {} es = pre ++ call :: post ∧ call.contract H = c ∧
      call.op.Makes H call.witness? k a ∧
      ∀ call' ∈ pre, call'.contract H = c → ∀ a', call'.op.Makes H call'.witness? k a' → ¬ (a'.opout = a.opout ∧ a'.sl = a.sl) := by
  have hs := runSt_inv hp stInv_empty hr
  rw [mem_all_iff hs hv, and_comm]
  refine and_congr_right fun _ => ?_
  simp only [runSt_entry hp hr]
  have h0 : ∀ k key, entry {} c k key = none := fun k key => rfl
  simp only [h0, Option.none_or, List.findSome?_eq_some_iff]
  constructor
  · rintro ⟨key, pre, call, post, hacc, hcall, hpre⟩
    split at hcall
    · rename_i hc
      obtain ⟨hm, rfl⟩ := (assignedAt_iff H _ _ _ _ _).mp hcall
      refine ⟨pre, call, post, hacc, hc.symm, hm, fun call' hm' hc' a' hma' hk => ?_⟩
      have := hpre call' hm'
      rw [if_pos hc'.symm] at this
      have h2 := (assignedAt_iff H call'.op call'.witness? k ⟨a.opout, a.sl⟩ a').mpr ⟨hma', by rw [hk.1, hk.2]⟩
      unfold StCall.assigned at this
      rw [h2] at this; cases this
    · cases hcall
  · rintro ⟨pre, call, post, hacc, rfl, hm, hpre⟩
    refine ⟨⟨a.opout, a.sl⟩, pre, call, post, hacc, ?_, fun call' hm' => ?_⟩
    · rw [if_pos rfl]; exact (assignedAt_iff H _ _ _ _ _).mpr ⟨hm, rfl⟩
    · split
      · rename_i hc
        cases hx : call'.assigned H k ⟨a.opout, a.sl⟩ with
        | none => rfl
        | some a' =>
          obtain ⟨h1, h2⟩ := (assignedAt_iff H _ _ _ _ _).mp hx
          simp only [OutKey.mk.injEq] at h2
          exact absurd ⟨h2.1.symm, h2.2.symm⟩ (hpre call' hm' hc.symm a' h1)
      · rfl

example : ∃ v, exState.contractState 101 = .ok v ∧ (v.all .fungible).length = 2 := ⟨_, rfl, by decide +kernel⟩

/-- **C23** in full, for histories in which no operation is added to the contract with two different witnesses: returned are precisely the revealed
assignments of operations added to the contract, whose witness is known and not archived.
Missing: operations added with several witnesses, see `C23_reanchored_fails`. -/
theorem C23_state_queries_single_witness_partial (H : Commit) (hH : H.Binding) (es : List StEvent) (hp : EventsProper es) (s : MemState)
    (hr : runSt H {} es = some s) (c : Nat) (v : ContractView) (hv : s.contractState c = .ok v)
    (hone : ∀ x ∈ accepted H {} es, ∀ y ∈ accepted H {} es, x.contract H = c → y.contract H = c → x.op.id H = y.op.id H →
      x.witness? = y.witness?) (k : StateKind) (a : OutAssign) :
    a ∈ v.all k ↔ s.Valid a.witness ∧ ∃ call ∈ accepted H {} es, call.contract H = c ∧ call.op.Makes H call.witness? k a := by
  have hs := runSt_inv hp stInv_empty hr
  rw [mem_all_iff hs hv, and_comm]
  refine and_congr_right fun _ => ?_
  simp only [runSt_entry hp hr]
  have h0 : ∀ k key, entry {} c k key = none := fun k key => rfl
  simp only [h0, Option.none_or]
  constructor
  · rintro ⟨key, h⟩
    obtain ⟨call, hm, hcall⟩ := List.exists_of_findSome?_eq_some h
    split at hcall
    · rename_i hc
      exact ⟨call, hm, hc.symm, ((assignedAt_iff H _ _ _ _ _).mp hcall).1⟩
    · cases hcall
  · rintro ⟨call, hm, rfl, hmk⟩
    refine ⟨⟨a.opout, a.sl⟩, ?_⟩
    have hx := (assignedAt_iff H call.op call.witness? k ⟨a.opout, a.sl⟩ a).mpr ⟨hmk, rfl⟩
    obtain ⟨call', hm', y, hy, hf⟩ := findSome?_mem
      (f := fun x : StCall => if call.contract H = x.contract H then x.assigned H k ⟨a.opout, a.sl⟩ else none) hm (x := a) (by simp only [if_true]; exact hx)
    rw [hf]
    split at hy
    · rename_i hc
      congr 1
      exact assigned_agree hH (hone call' hm' call hm hc.symm rfl) hy hx
    · cases hy

/-- **C23**: state of the genesis is always returned, whatever happens to witnesses. -/
theorem C23_genesis_state (H : Commit) (hH : H.Binding) (es : List StEvent) (hp : EventsProper es) (s : MemState)
    (hr : runSt H {} es = some s) (sch : SchemaGlobals) (g : Op) (hreg : StCall.register sch g ∈ accepted H {} es) :
    ∃ v, s.contractState (g.contractId H) = .ok v ∧ ∀ k a, g.Makes H none k a → a ∈ v.all k := by
  have hs := runSt_inv hp stInv_empty hr
  have hc := (runSt_contracts hp hr).1 _ hreg
  obtain ⟨cs, hcs⟩ := OMap.contains_iff.mp hc
  simp only [StCall.contract] at hcs
  refine ⟨⟨s.witnesses.filter (fun e => cs.mentions e.1), cs⟩, by simp only [MemState.contractState, hcs], fun k a hm => ?_⟩
  have hv : s.contractState (g.contractId H) = .ok ⟨s.witnesses.filter (fun e => cs.mentions e.1), cs⟩ := by
    simp only [MemState.contractState, hcs]
  rw [mem_all_iff hs hv]
  refine ⟨⟨⟨a.opout, a.sl⟩, ?_⟩, by rw [hm.2.1]; exact trivial⟩
  rw [runSt_entry hp hr]
  have h0 : ∀ c k key, entry {} c k key = none := fun _ k key => rfl
  simp only [h0, Option.none_or]
  have hx : (StCall.register sch g).assigned H k ⟨a.opout, a.sl⟩ = some a :=
    (assignedAt_iff H g none k ⟨a.opout, a.sl⟩ a).mpr ⟨hm, rfl⟩
  obtain ⟨call', hm', y, hy, hf⟩ := findSome?_mem
    (f := fun x : StCall => if g.contractId H = x.contract H then x.assigned H k ⟨a.opout, a.sl⟩ else none) hreg (x := a) (by
      simp only [StCall.contract, if_true]; exact hx)
  rw [hf]
  split at hy
  · congr 1
    refine assigned_agree hH (fun hid => ?_) hy hx
    have hk : (call'.op.conceal H).kind = ((StCall.register sch g).op.conceal H).kind := by rw [id_conceal hH hid]
    have hprop : ∀ x ∈ accepted H {} es, x.Proper := fun x hx => hp x (mem_accepted hx)
    have p1 := hprop _ hm'
    have p2 := hprop _ hreg
    cases call' with
    | register _ _ => rfl
    | transition c op w o =>
      exfalso
      have e1 : op.kind = g.kind := hk
      rw [p1.2, p2.2.2] at e1; cases e1
    | extension c op w o =>
      exfalso
      have e1 : op.kind = g.kind := hk
      rw [p1.2, p2.2.2] at e1; cases e1
  · cases hy

/-- **C23**: the state at an outpoint is exactly the part of the state of the contract with the outpoint and the type, without losing or
repeating items. -/
theorem C23_state_at_outpoint (v : ContractView) (k : StateKind) (o : Outpoint) (ty : Nat) :
    v.byOutpoint k o ty =
      ((v.all k).filter (fun a => decide (a.sl.outpoint = o ∧ a.opout.ty = ty))).map OutAssign.state := by
  simp only [ContractView.byOutpoint, ContractView.all, List.filter_filter, Bool.decide_and]
  congr 1
  apply List.filter_congr
  intro a _
  exact Bool.and_comm _ _

/-- **C23** fails when an operation is added again with another witness (the transaction was replaced), and its seal is on an explicit
outpoint: the first witness stays with the state, so that when it is archived the state isn't returned in spite of the valid second
witness. -/
theorem C23_reanchored_fails : ∃ (es : List StEvent) (s : MemState) (v : ContractView) (call : StCall) (a : OutAssign),
    EventsProper es ∧ runSt calcCommit {} es = some s ∧ s.contractState 101 = .ok v ∧ call ∈ accepted calcCommit {} es ∧
    call.contract calcCommit = 101 ∧ call.op.Makes calcCommit call.witness? .fungible a ∧ s.Valid a.witness ∧
    (v.all .fungible).all (fun a' => decide (a'.opout ≠ a.opout)) = true := by
  let es : List StEvent := [.call (.register exSchema exGenesis), .call (.transition 101 exExplicit exW .tentative),
    .call (.transition 101 exExplicit exW2 .tentative), .update (fun w => if w = exW then some .archived else some (.mined 5 0)) 1]
  refine ⟨es, (runSt calcCommit {} es).getD {}, _, .transition 101 exExplicit exW2 .tentative,
    ⟨⟨103, 4, 0⟩, ⟨.bitcoin, .opretFirst, 70, 0⟩, .fungible 10 0 0, some exW2⟩, ?_, by decide +kernel, rfl, by decide +kernel, rfl, ?_, ?_,
    by decide +kernel⟩
  · intro c hc
    simp only [es, List.mem_cons, StEvent.call.injEq, reduceCtorEq, List.not_mem_nil, or_false] at hc
    rcases hc with rfl | rfl | rfl <;> (simp only [StCall.Proper, Op.Proper, OMap.Sorted]; decide +kernel)
  · exact ⟨rfl, rfl, ⟨.fungible, _⟩, ⟨.bitcoin, .opretFirst, some 70, 0, 9⟩, rfl, rfl, rfl, rfl⟩
  · exact ⟨.mined 5 0, rfl, by decide⟩

/-! ### C24 -/

/-- **C24.** Whatever sequence of witness updates is made: the contract stays known, state of witnesses which are archived (or unknown) afterwards
isn't returned; state of each witness, whose validity is after the updates the same as before, is returned exactly as before. In particular, if a
witness was archived in between and is valid again, its state re-appears without a change; and the state of the others isn't affected.

This is for owned state. Missing: global state, see `C24_global_state_fails`; state of operations with several witnesses, see `C23_reanchored_fails`. -/
theorem C24_reorg_safety_partial (s : MemState) (c : Nat) (v : ContractView) (hv : s.contractState c = .ok v) (us : List (Resolver × Nat)) :
    ∃ v', (reorgs s us).contractState c = .ok v' ∧ ∀ k,
      (∀ a ∈ v'.all k, (reorgs s us).Valid a.witness) ∧
      ∀ w : Option WitnessId, (s.Valid w ↔ (reorgs s us).Valid w) →
        (v'.all k).filter (fun a => decide (a.witness = w)) = (v.all k).filter (fun a => decide (a.witness = w)) := by
  have hcs := reorgs_contracts s us
  have h1 := contractState_get? hv
  have h2 : OMap.get? (reorgs s us).contracts c = some v.unfiltered := by rw [hcs]; exact h1
  let v' : ContractView := ⟨(reorgs s us).witnesses.filter (fun e => v.unfiltered.mentions e.1), v.unfiltered⟩
  have hv' : (reorgs s us).contractState c = .ok v' := by simp only [MemState.contractState, h2, v']
  refine ⟨v', hv', fun k => ⟨fun a ha => ?_, fun w hw => ?_⟩⟩
  · simp only [ContractView.all, List.mem_filter] at ha
    exact (checkWitness_iff hv' ha.1).mp ha.2
  · simp only [ContractView.all, List.filter_filter]
    have hu : v'.unfiltered = v.unfiltered := rfl
    rw [hu]
    apply List.filter_congr
    intro a ha
    by_cases haw : a.witness = w
    · subst haw
      have e1 := checkWitness_iff hv ha
      have e2 := checkWitness_iff hv' (by rw [hu]; exact ha)
      have : v'.checkWitness a = v.checkWitness a := by
        rw [Bool.eq_iff_iff, e1, e2]; exact hw.symm
      rw [this]
    · simp [haw]

/-- The witness is archived, and then mined: its two assignments disappear and re-appear. -/
example : ∃ v v' v'', exState.contractState 101 = .ok v ∧
    (reorgs exState [(fun _ => some .archived, 1)]).contractState 101 = .ok v' ∧
    (reorgs exState [(fun _ => some .archived, 1), (fun _ => some (.mined 8 0), 1)]).contractState 101 = .ok v'' ∧
    (v.all .fungible).length = 2 ∧ (v'.all .fungible).length = 1 ∧ v''.all .fungible = v.all .fungible :=
  ⟨_, _, _, rfl, rfl, rfl, by decide +kernel, by decide +kernel, by decide +kernel⟩

/-- **C24** fails for global state: after its witness is archived, a global state item is still returned. -/
theorem C24_global_state_fails : ∃ (es : List StEvent) (s : MemState) (v : ContractView) (items : List (GlobalOrd × Nat)),
    EventsProper es ∧ runSt calcCommit {} es = some s ∧ OMap.get? s.witnesses exW = some .archived ∧
    s.contractState 101 = .ok v ∧ v.globalItems 20 = some items ∧ (GlobalOrd.transition 103 0 0 3 .archived, 5) ∈ items := by
  let es : List StEvent := [.call (.register exSchema exGenesis), .call (.transition 101 exExplicit exW .tentative),
    .update (fun _ => some .archived) 1]
  refine ⟨es, (runSt calcCommit {} es).getD {}, _, _, ?_, by decide +kernel, by decide +kernel, rfl, rfl, by decide +kernel⟩
  intro c hc
  simp only [es, List.mem_cons, StEvent.call.injEq, reduceCtorEq, List.not_mem_nil, or_false] at hc
  rcases hc with rfl | rfl <;> (simp only [StCall.Proper, Op.Proper, OMap.Sorted]; decide +kernel)

/-! ### C25 -/

/-- **C25.** `update_witnesses` stores for each witness, which isn't mined or is mined at or above the given height, the answer of the resolver; leaves all
other witnesses, and those for which the resolver failed, as they were; lists as failed exactly the latter; and asks
the resolver about exactly the former: the outcome depends on the answers about each of them and on nothing else of the resolver. Contracts aren't changed.

The reported number isn't the number of successes, but the number of witnesses asked about: see `C25_succeeded_fails`. -/
theorem C25_update_witnesses_partial (s : MemState) (hs : OMap.Sorted s.witnesses)
    (hh : ∀ w h rest, OMap.get? s.witnesses w = some (.mined h rest) → 0 < h) (r : Resolver) (after : Nat) :
    let s' := (s.updateWitnesses r after).1
    let res := (s.updateWitnesses r after).2
    s'.contracts = s.contracts ∧
    (∀ w, s.Outdated after w → ∀ ord, r w = some ord → OMap.get? s'.witnesses w = some ord) ∧
    (∀ w, (¬ s.Outdated after w ∨ r w = none) → OMap.get? s'.witnesses w = OMap.get? s.witnesses w) ∧
    (∀ w, w ∈ res.failed ↔ s.Outdated after w ∧ r w = none) ∧
    (∀ r' : Resolver, s.updateWitnesses r' after = s.updateWitnesses r after ↔ ∀ w, s.Outdated after w → r' w = r w) ∧
    (∃ asked : List WitnessId, asked.Nodup ∧ (∀ w, w ∈ asked ↔ s.Outdated after w) ∧ res.succeeded = asked.length) := by
  have hout : ∀ w, s.Outdated after w ↔ ∃ ord, OMap.get? s.witnesses w = some ord ∧
      MemState.skipped (if after = 0 then 1 else after) ord = false := by
    intro w
    refine exists_congr fun ord => and_congr_right fun hg => ?_
    cases ord with
    | mined h rest =>
      have := hh w h rest hg
      simp only [WitnessOrd.mined.injEq, and_imp, MemState.skipped, decide_eq_false_iff_not]
      constructor
      · intro hx; have := hx h rest rfl rfl; split <;> omega
      · rintro hx h' rest' rfl rfl; split at hx <;> omega
    | tentative => simp [MemState.skipped]
    | ignored => simp [MemState.skipped]
    | archived => simp [MemState.skipped]
  intro s' res
  have hget : ∀ w, OMap.get? s'.witnesses w = _ := fun w => updateLoop_get? r (if after = 0 then 1 else after) s.witnesses w
  refine ⟨rfl, ?_, ?_, ?_, ?_, ?_⟩
  · intro w hw ord ho
    obtain ⟨ord', h1, h2⟩ := (hout w).mp hw
    rw [hget, h1]; simp [h2, ho]
  · intro w hw
    rw [hget]
    cases h1 : OMap.get? s.witnesses w with
    | none => rfl
    | some ord =>
      simp only [Option.map_some]
      rcases hw with hw | hw
      · have : MemState.skipped (if after = 0 then 1 else after) ord = true := by
          cases hx : MemState.skipped (if after = 0 then 1 else after) ord with
          | true => rfl
          | false => exact absurd ((hout w).mpr ⟨ord, h1, hx⟩) hw
        simp [this]
      · simp [hw]
  · intro w
    rw [hout]
    exact updateLoop_failed r _ hs w
  · intro r'
    simp only [hout]
    exact updateLoop_eq_iff r' r hs
  · obtain ⟨l, h1, h2, h3⟩ := updateLoop_count r (if after = 0 then 1 else after) hs
    exact ⟨l, h1, fun w => by rw [h2, hout], h3⟩

example : OMap.Sorted exState.witnesses ∧ exState.Outdated 100 exW := by
  refine ⟨?_, .tentative, rfl, by simp⟩
  simp only [OMap.Sorted]; decide +kernel

/-- **C25** fails: a witness which couldn't be resolved is counted as a success, too. -/
theorem C25_succeeded_fails : (exState.updateWitnesses (fun _ => none) 1).2 = { succeeded := 1, failed := [exW] } := by
  decide +kernel

/-! ### C26 -/

/-- **C26**, repeating. At any time after an operation was successfully added, adding it again with the same witness succeeds and doesn't
change anything in any contract; positions of witnesses stay, except that the position given with the call is stored. -/
theorem C26_readding (H : Commit) (hH : H.Binding) (es : List StEvent) (hp : EventsProper es) (s : MemState)
    (hr : runSt H {} es = some s) (call : StCall) (hcall : call ∈ accepted H {} es) (ord : WitnessOrd) :
    ∃ s', (call.withOrd ord).exec H s = some (s', none) ∧ s'.contracts = s.contracts ∧
      ∀ w, OMap.get? s'.witnesses w = if call.witness? = some w then some ord else OMap.get? s.witnesses w := by
  have hs := runSt_inv hp stInv_empty hr
  obtain ⟨h1, h2⟩ := runSt_contracts hp hr
  have hk := h1 call hcall
  have ha := accepted_addable hp hr call hcall
  have hprop : call.Proper := hp _ (mem_accepted hcall)
  have e1 : (call.withOrd ord).contract H = call.contract H := by cases call <;> rfl
  have e2 : (call.withOrd ord).op = call.op := by cases call <;> rfl
  have e3 : (call.withOrd ord).witness? = call.witness? := by cases call <;> rfl
  have e4 : (call.withOrd ord).opWitness = call.opWitness := by cases call <;> rfl
  have e5 : (call.withOrd ord).Proper := by cases call <;> exact hprop
  obtain ⟨s', hs'⟩ := (exec_of_addable (H := H) (s := s) (call := call.withOrd ord) (by rw [e1]; exact hk)).mp (by
    simp only [AddableIn, e1, e2, e3] at ha ⊢; exact ha)
  refine ⟨s', hs', ?_, ?_⟩
  · rcases exec_spec e5 hs' with ⟨-, hc⟩ | ⟨hne, -⟩
    · refine contracts_ext (hc.inv hs) hs ?_ ?_ ?_ ?_ ?_
      · intro c
        rw [Bool.eq_iff_iff]
        refine ⟨fun h => ?_, hc.mono c⟩
        rcases hc.only c h with h | rfl
        · exact h
        · rw [e1]; exact hk
      · intro c k key
        rw [hc.entry]
        cases hx : entry s c k key with
        | some b => rfl
        | none =>
          simp only [Option.none_or]
          split
          · rename_i hcc
            rw [e1] at hcc
            subst hcc
            simp only [StCall.assigned, e2, e3]
            rw [runSt_entry hp hr] at hx
            have h0 : entry {} (call.contract H) k key = none := rfl
            rw [h0, Option.none_or, List.findSome?_eq_none_iff] at hx
            have := hx call hcall
            rw [if_pos rfl] at this
            exact this
          · rfl
      · intro c ty key
        rw [hc.gentry]
        split
        · rename_i hcc
          rw [e1] at hcc
          subst hcc
          have heq : (call.withOrd ord).globals H ty key = call.globals H ty key := by simp only [StCall.globals, e2, e4]
          rw [heq]
          cases hx : call.globals H ty key with
          | none => rfl
          | some x =>
            rw [runSt_gentry hp hr]
            obtain ⟨call', hm', y, hy, hf⟩ := findSome?_mem (l := (accepted H {} es).reverse)
              (f := fun x : StCall => if call.contract H = x.contract H then x.globals H ty key else none)
              (List.mem_reverse.mpr hcall) (x := x) (by simp only [if_true]; exact hx)
            rw [hf]
            split at hy
            · rw [globals_agree hH hx hy]; rfl
            · cases hy
        · rfl
      · intro c ty
        rw [hc.limit]
        split
        · rfl
        · rename_i hn
          rw [e1]
          split
          · rename_i hcc; subst hcc; exact absurd hk hn
          · have : OMap.get? s.contracts c = none := by simpa [OMap.contains] using hn
            simp [glimit, this]
      · intro c
        by_cases hn : OMap.contains s.contracts c = true
        · exact hc.schema c hn
        · have h3 : ¬ OMap.contains s'.contracts c = true := fun h => by
            rcases hc.only c h with h | rfl
            · exact hn h
            · rw [e1] at hn; exact hn hk
          have : OMap.get? s.contracts c = none := by simpa [OMap.contains] using hn
          have h3 : OMap.get? s'.contracts c = none := by simpa [OMap.contains] using h3
          simp [cschema, this, h3]
    · exact absurd rfl hne
  · intro w
    rcases exec_spec e5 hs' with ⟨-, hc⟩ | ⟨hne, -⟩
    · rw [hc.witnesses]
      cases call with
      | register sch g => simp [StCall.withOrd, StCall.witnessOrd?, StCall.witness?]
      | transition c op w' o =>
        simp only [StCall.withOrd, StCall.witnessOrd?, StCall.witness?, Option.bind_some, Option.map_some, Option.some.injEq, eq_comm]
        split <;> simp
      | extension c op w' o =>
        simp only [StCall.withOrd, StCall.witnessOrd?, StCall.witness?, Option.bind_some, Option.map_some, Option.some.injEq, eq_comm]
        split <;> simp
    · exact absurd rfl hne

example : accepted calcCommit {} exEvents = [.register exSchema exGenesis, .transition 101 exTransition exW .tentative] := by
  decide +kernel

/-- **C26**, order. Starting with any state, adding the same transitions and extensions in another order gives the very same state (or both
orders panic), provided that the same operation always comes with the same witness, and the same witness always with the
same position. Different revelations of the same operation are allowed.

Without the proviso the order matters: see `C26_order_fails`. -/
theorem C26_order_partial (H : Commit) (hH : H.Binding) (before : List StEvent) (hb : EventsProper before) (s : MemState)
    (hr : runSt H {} before = some s) (l l' : List StCall) (hperm : l.Perm l') (hp : ∀ c ∈ l, c.Proper)
    (hreg : ∀ c ∈ l, c.isRegister = false)
    (hw : ∀ a ∈ l, ∀ b ∈ l, a.contract H = b.contract H → a.op.id H = b.op.id H → a.witness? = b.witness?)
    (ho : ∀ a ∈ l, ∀ b ∈ l, ∀ w o o', a.witnessOrd? = some (w, o) → b.witnessOrd? = some (w, o') → o = o') :
    runSt H s (l.map .call) = runSt H s (l'.map .call) := by
  have hs := runSt_inv hb stInv_empty hr
  have hp' : ∀ c ∈ l', c.Proper := fun c hc => hp c (hperm.mem_iff.mpr hc)
  have hreg' : ∀ c ∈ l', c.isRegister = false := fun c hc => hreg c (hperm.mem_iff.mpr hc)
  have hsome : (runSt H s (l.map .call)).isSome ↔ (runSt H s (l'.map .call)).isSome := by
    rw [run_calls_isSome hp hreg, run_calls_isSome hp' hreg']
    exact ⟨fun h c hc => h c (hperm.mem_iff.mpr hc), fun h c hc => h c (hperm.mem_iff.mp hc)⟩
  cases h1 : runSt H s (l.map .call) with
  | none =>
    cases h2 : runSt H s (l'.map .call) with
    | none => rfl
    | some t => rw [h1, h2] at hsome; simp at hsome
  | some t =>
    cases h2 : runSt H s (l'.map .call) with
    | none => rw [h1, h2] at hsome; simp at hsome
    | some t' =>
      have evp : ∀ l : List StCall, (∀ c ∈ l, c.Proper) → EventsProper (l.map .call) := by
        intro l hl c hc
        obtain ⟨c', hc', he⟩ := List.mem_map.mp hc
        cases he; exact hl c hc'
      have P := evp l hp
      have P' := evp l' hp'
      obtain ⟨a1, a2⟩ := accepted_calls hp hreg h1
      obtain ⟨a1', a2'⟩ := accepted_calls hp' hreg' h2
      have hmem : ∀ x, x ∈ accepted H s (l.map .call) ↔ x ∈ accepted H s (l'.map .call) := by
        intro x; rw [a1, a1']; simp only [List.mem_filter, hperm.mem_iff]
      have hsub : ∀ x ∈ accepted H s (l.map .call), x ∈ l := by intro x hx; rw [a1] at hx; exact (List.mem_filter.mp hx).1
      have e1 : t.contracts = t'.contracts := by
        refine contracts_ext (runSt_inv P hs h1) (runSt_inv P' hs h2) ?_ ?_ ?_ ?_ ?_
        · intro c; rw [a2, a2']
        · intro c k key
          rw [runSt_entry P h1, runSt_entry P' h2]
          congr 1
          refine findSome?_congr hmem fun a ha b hb' x y hx hy => ?_
          split at hx
          · rename_i hca
            split at hy
            · rename_i hcb
              exact assigned_agree hH (hw a (hsub a ha) b (hsub b hb') (hca.symm.trans hcb)) hx hy
            · cases hy
          · cases hx
        · intro c ty key
          rw [runSt_gentry P h1, runSt_gentry P' h2]
          congr 1
          refine findSome?_congr (by simpa using hmem) fun a ha b hb' x y hx hy => ?_
          split at hx
          · split at hy
            · exact globals_agree hH hx hy
            · cases hy
          · cases hx
        · intro c ty
          by_cases hc : OMap.contains s.contracts c = true
          · rw [((runSt_contracts P h1).2.1 c hc).2.2, ((runSt_contracts P' h2).2.1 c hc).2.2]
          · have g1 : OMap.get? t.contracts c = none := by have := a2 c; rw [Bool.not_eq_true] at hc; rw [hc] at this; simpa [OMap.contains] using this
            have g2 : OMap.get? t'.contracts c = none := by have := a2' c; rw [Bool.not_eq_true] at hc; rw [hc] at this; simpa [OMap.contains] using this
            simp [glimit, g1, g2]
        · intro c
          by_cases hc : OMap.contains s.contracts c = true
          · rw [((runSt_contracts P h1).2.1 c hc).2.1, ((runSt_contracts P' h2).2.1 c hc).2.1]
          · have g1 : OMap.get? t.contracts c = none := by have := a2 c; rw [Bool.not_eq_true] at hc; rw [hc] at this; simpa [OMap.contains] using this
            have g2 : OMap.get? t'.contracts c = none := by have := a2' c; rw [Bool.not_eq_true] at hc; rw [hc] at this; simpa [OMap.contains] using this
            simp [cschema, g1, g2]
      have e2 : t.witnesses = t'.witnesses := by
        refine (runSt_inv P hs h1).witnesses.ext (runSt_inv P' hs h2).witnesses fun w => ?_
        rw [run_calls_witness hp h1, run_calls_witness hp' h2]
        congr 1
        refine findSome?_congr (by simpa using hmem) fun a ha b hb' x y hx hy => ?_
        obtain ⟨⟨w1, o1⟩, q1, r1⟩ := Option.bind_eq_some_iff.mp hx
        obtain ⟨⟨w2, o2⟩, q2, r2⟩ := Option.bind_eq_some_iff.mp hy
        split at r1
        · split at r2
          · rename_i u1 u2
            cases r1; cases r2
            simp only at u1 u2
            subst u1 u2
            exact ho a (hsub a (List.mem_reverse.mp ha)) b (hsub b (List.mem_reverse.mp hb')) w _ _ q1 q2
          · cases r2
        · cases r1
      cases t; cases t'
      simp only at e1 e2
      rw [e1, e2]

/-- The hypotheses are met by two transitions, in the state after registering the contract. -/
example : ∃ (s : MemState) (l : List StCall), runSt calcCommit {} [.call (.register exSchema exGenesis)] = some s ∧ l.length = 2 ∧
    (runSt calcCommit s (l.map .call)).isSome ∧ (∀ c ∈ l, c.Proper) ∧ (∀ c ∈ l, c.isRegister = false) ∧
    (∀ a ∈ l, ∀ b ∈ l, a.contract calcCommit = b.contract calcCommit → a.op.id calcCommit = b.op.id calcCommit → a.witness? = b.witness?) ∧
    (∀ a ∈ l, ∀ b ∈ l, ∀ w o o', a.witnessOrd? = some (w, o) → b.witnessOrd? = some (w, o') → o = o') := by
  refine ⟨(runSt calcCommit {} [.call (.register exSchema exGenesis)]).getD {},
    [.transition 101 exTransition exW .tentative, .transition 101 exExplicit exW2 (.mined 3 0)], by decide +kernel, rfl, by decide +kernel,
    ?_, by decide +kernel, by decide +kernel, ?_⟩
  · intro c hc
    simp only [List.mem_cons, List.not_mem_nil, or_false] at hc
    rcases hc with rfl | rfl <;> (simp only [StCall.Proper, Op.Proper, OMap.Sorted]; decide +kernel)
  · intro a ha b hb w o o'
    simp only [List.mem_cons, List.not_mem_nil, or_false] at ha hb
    rcases ha with rfl | rfl <;> rcases hb with rfl | rfl <;> simp only [StCall.witnessOrd?, Option.some.injEq, Prod.mk.injEq] <;>
      (rintro ⟨rfl, rfl⟩ ⟨h, rfl⟩; first | rfl | cases h)

/-- **C26** fails when the same operation comes with two witnesses: the visible state then depends on the order. -/
theorem C26_order_fails : ∃ (s t t' : MemState) (v v' : ContractView) (x y : StCall),
    runSt calcCommit {} [.call (.register exSchema exGenesis)] = some s ∧
    runSt calcCommit s [.call x, .call y] = some t ∧ runSt calcCommit s [.call y, .call x] = some t' ∧
    t.contractState 101 = .ok v ∧ t'.contractState 101 = .ok v' ∧ (v.all .fungible).length ≠ (v'.all .fungible).length := by
  refine ⟨(runSt calcCommit {} [.call (.register exSchema exGenesis)]).getD {}, _, _, _, _,
    .transition 101 exExplicit exW .archived, .transition 101 exExplicit exW2 .tentative, by decide +kernel, rfl, rfl, rfl, rfl, by decide +kernel⟩

/-! ### C27 -/

/-- **C27**, bound and contents. For any history: the type of global state is an error exactly when the schema the contract was registered with
doesn't declare it; at most `max_items` of the schema are returned; each returned item is an item of an operation added to the contract, with its
position, the witness of which is known; if less than `max_items` are returned then none is missing.

Missing: that the returned are the most recent ones, and that the order is by position: see `C27_most_recent_fails`. -/
theorem C27_global_state_partial (H : Commit) (hH : H.Binding) (es : List StEvent) (hp : EventsProper es) (s : MemState)
    (hr : runSt H {} es = some s) (c : Nat) (v : ContractView) (hv : s.contractState c = .ok v) (ty : Nat) :
    ∃ sch g, StCall.register sch g ∈ accepted H {} es ∧ g.contractId H = c ∧
      (v.globalItems ty = none ↔ OMap.get? sch.maxItems ty = none) ∧
      ∀ items, v.globalItems ty = some items → ∃ maxItems, OMap.get? sch.maxItems ty = some maxItems ∧ items.length ≤ maxItems ∧
        (∀ it ∈ items, ∃ call ∈ accepted H {} es, call.contract H = c ∧ ∃ i vals, OMap.get? call.op.globals ty = some vals ∧
          vals[i]? = some it.2 ∧ s.PositionOf H i call it.1) ∧
        (items.length < maxItems → ∀ call ∈ accepted H {} es, call.contract H = c → ∀ (i x : Nat) (vals : List Nat) (ord : GlobalOrd),
          OMap.get? call.op.globals ty = some vals → vals[i]? = some x → s.PositionOf H i call ord → (ord, x) ∈ items) := by
  have hs := runSt_inv hp stInv_empty hr
  have hcs := contractState_get? hv
  have hc : OMap.contains s.contracts c = true := OMap.contains_iff.mpr ⟨_, hcs⟩
  obtain ⟨sch, g, hreg, hg, hl⟩ := (runSt_contracts hp hr).2.2 c hc rfl
  have hlim : (OMap.get? v.unfiltered.global ty).map GlobalState.limit = OMap.get? sch.maxItems ty := by
    have := hl ty
    simpa [glimit, hcs] using this
  refine ⟨sch, g, hreg, hg, ?_, ?_⟩
  · simp only [ContractView.globalItems, Option.map_eq_none_iff, ← hlim]
  · intro items hit
    simp only [ContractView.globalItems] at hit
    obtain ⟨gs, hgs, rfl⟩ := Option.map_eq_some_iff.mp hit
    have hsort := (hs.cs _ _ hcs).glob.known _ _ hgs
    have hge : ∀ key, gentry s c ty key = OMap.get? gs.known key := by intro key; simp [gentry, hcs, gget, hgs]
    have hfil := globalItem_eq hv hgs
    refine ⟨gs.limit, by rw [← hlim, hgs]; rfl, ?_, ?_, ?_⟩
    · exact List.length_take_le _ _
    · intro it hm
      have hm := List.mem_of_mem_take hm
      obtain ⟨⟨key, x⟩, hm1, hm2⟩ := List.mem_filterMap.mp hm
      have hm1 := List.mem_reverse.mp hm1
      have hget := hsort.get?_of_mem hm1
      rw [← hge, runSt_gentry hp hr] at hget
      have h0 : gentry {} c ty key = none := rfl
      rw [h0, Option.or_none] at hget
      obtain ⟨call, hcall, hx⟩ := List.exists_of_findSome?_eq_some hget
      split at hx
      · rename_i hcc
        obtain ⟨k1, k2, k3, vals, k4, k5⟩ := globalAt_some hx
        rw [hfil key x hm1] at hm2
        refine ⟨call, List.mem_reverse.mp hcall, hcc.symm, key.index, vals, k4, ?_⟩
        rw [k3] at hm2
        cases call with
        | register sch' g' => simp only [StCall.opWitness, Option.some.injEq] at hm2; subst hm2; exact ⟨k5, rfl⟩
        | transition c' op w o =>
          simp only [StCall.opWitness] at hm2
          obtain ⟨ord, q1, q2⟩ := Option.map_eq_some_iff.mp hm2
          subst q2
          exact ⟨k5, ord, q1, by simp only [k1, k2]; rfl⟩
        | extension c' op w o =>
          simp only [StCall.opWitness] at hm2
          obtain ⟨ord, q1, q2⟩ := Option.map_eq_some_iff.mp hm2
          subst q2
          exact ⟨k5, ord, q1, by simp only [k1, k2]; rfl⟩
      · cases hx
    · intro hlt call hcall hcc i x vals ord h1 h2 h3
      rw [List.length_take] at hlt
      rw [List.take_of_length_le (by omega)]
      have hgl : call.globals H ty ⟨call.op.id H, call.op.nonce, i, call.opWitness⟩ = some x := by
        simp [StCall.globals, globalAt, h1, gitemAt, h2]
      have hget : OMap.get? gs.known ⟨call.op.id H, call.op.nonce, i, call.opWitness⟩ = some x := by
        rw [← hge, runSt_gentry hp hr]
        obtain ⟨call', hm', y, hy, hf⟩ := findSome?_mem (l := (accepted H {} es).reverse)
          (f := fun x : StCall => if c = x.contract H then x.globals H ty ⟨call.op.id H, call.op.nonce, i, call.opWitness⟩ else none)
          (List.mem_reverse.mpr hcall) (x := x) (by simp only [hcc, if_true]; exact hgl)
        rw [hf]
        split at hy
        · rw [globals_agree hH hgl hy]; rfl
        · cases hy
      have hm := OMap.mem_of_get? hget
      refine List.mem_filterMap.mpr ⟨_, List.mem_reverse.mpr hm, ?_⟩
      rw [hfil _ _ hm]
      cases call with
      | register sch' g' => cases h3; rfl
      | transition c' op w o => obtain ⟨o', q1, rfl⟩ := h3; simp [StCall.opWitness, StCall.op, q1]
      | extension c' op w o => obtain ⟨o', q1, rfl⟩ := h3; simp [StCall.opWitness, StCall.op, q1]

/-- The second transition, which is mined, has a greater position than the first one, but a smaller operation id. -/
def exEvents2 : List StEvent := [.call (.register exSchema exGenesis), .call (.transition 101 exExplicit exW .tentative),
  .call (.transition 101 { exTransition with globals := [(20, [6])] } exW2 (.mined 7 0))]

example : ∃ s v, runSt calcCommit {} exEvents2 = some s ∧ s.contractState 101 = .ok v ∧
    v.globalItems 20 = some [(.transition 103 0 0 3 .tentative, 5)] ∧ v.globalItems 21 = none :=
  ⟨(runSt calcCommit {} exEvents2).getD {}, _, by decide +kernel, rfl, rfl, rfl⟩

/-- **C27**, the actual order: items of transitions and extensions go by decreasing operation id.
Missing: the order by position, see `C27_most_recent_fails`; the order within an operation is in `C27_listed_partial`. -/
theorem C27_order_partial (H : Commit) (es : List StEvent) (hp : EventsProper es) (s : MemState)
    (hr : runSt H {} es = some s) (c : Nat) (v : ContractView) (hv : s.contractState c = .ok v) (ty : Nat)
    (items : List (GlobalOrd × Nat)) (hi : v.globalItems ty = some items) :
    items.Pairwise (fun x y => ∀ a b, x.1.opid? = some a → y.1.opid? = some b → b ≤ a) := by
  have hs := runSt_inv hp stInv_empty hr
  have hcs := contractState_get? hv
  simp only [ContractView.globalItems] at hi
  obtain ⟨gs, hgs, rfl⟩ := Option.map_eq_some_iff.mp hi
  have hsort := (hs.cs _ _ hcs).glob.known _ _ hgs
  refine List.Pairwise.sublist (List.take_sublist _ _) ?_
  rw [List.pairwise_filterMap, List.pairwise_reverse]
  have h1 : List.Pairwise (fun a b : GlobalOut × Nat => Key.lt a.1 b.1 = true) gs.known := by
    have := hsort
    simp only [OMap.Sorted, OMap.keys, List.pairwise_map] at this
    exact this
  refine h1.imp ?_
  intro x y hlt a ha b hb p q hp' hq
  have hle : x.1.opid ≤ y.1.opid := GlobalOut.opid_le hlt
  have := globalItem_opid ha hp'
  have := globalItem_opid hb hq
  omega

/-- **C27** fails: with `max_items` of 1 the returned item is of the transition, which isn't even mined and has the greater hash, instead of the
one of the mined transition. (Whichever of two is the more recent, with the ids the other way round the other one is returned.) -/
theorem C27_most_recent_fails : ∃ (s s' : MemState) (v v' : ContractView),
    runSt calcCommit {} exEvents2 = some s ∧ s.contractState 101 = .ok v ∧
    v.globalItems 20 = some [(.transition 103 0 0 3 .tentative, 5)] ∧
    OMap.get? s.witnesses exW2 = some (.mined 7 0) ∧
    s' = (s.updateWitnesses (fun w => if w = exW then some (.mined 9 0) else some .tentative) 1).1 ∧ s'.contractState 101 = .ok v' ∧
    v'.globalItems 20 = some [(.transition 103 0 0 3 (.mined 9 0), 5)] ∧ OMap.get? s'.witnesses exW2 = some .tentative :=
  ⟨(runSt calcCommit {} exEvents2).getD {}, _, _, _, by decide +kernel, rfl, rfl, by decide +kernel, rfl, rfl, rfl, by decide +kernel⟩

/-! ### C28 -/

/-- **C28.** If the resolver knows all the witnesses of the consignment, then accepting the consignment amounts to registering the genesis, adding each
transition known in its bundles together with the witness of the bundle and the resolved position, and adding an extension of the consignment
precisely when some of the transitions has an input from it – with a witness of such a transition; nothing else is added. If the call
succeeds then all the calls have succeeded. If the resolver fails on some witness with a known transition, then so does the call. -/
theorem C28_consignment_calls (H : Commit) (sch : SchemaGlobals) (d : ConsignmentData) (r : Resolver) :
    let contains := fun (t : Op) (w : WitnessId) => ∃ wb ∈ d.bundles, ∃ b ∈ wb.anchored.bundles, ∃ k, (k, t) ∈ b.known ∧ w = wb.id
    ((∀ t w, contains t w → (r w).isSome) → ∃ calls,
      (∀ s : MemState, s.updateFromConsignment H sch d r = StCall.execAll H s calls) ∧
      calls.head? = some (.register sch d.genesis) ∧
      (∀ sch' g, StCall.register sch' g ∈ calls → sch' = sch ∧ g = d.genesis) ∧
      (∀ c t w ord, StCall.transition c t w ord ∈ calls ↔ c = d.genesis.contractId H ∧ contains t w ∧ r w = some ord) ∧
      (∀ e, (∃ c w ord, StCall.extension c e w ord ∈ calls) ↔ e ∈ d.extensions ∧ ∃ t w, contains t w ∧ ∃ i ∈ t.inputs, i.op = e.id H) ∧
      (∀ c e w ord, StCall.extension c e w ord ∈ calls → c = d.genesis.contractId H ∧ r w = some ord ∧
        ∃ t, contains t w ∧ ∃ i ∈ t.inputs, i.op = e.id H)) ∧
    ((∃ t w, contains t w ∧ r w = none) → ∀ (s s' : MemState), s.updateFromConsignment H sch d r ≠ some (s', none)) := by
  intro contains
  have hcon : ∀ t w, contains t w ↔ (t, w) ∈ d.transitions := by
    intro t w
    simp only [contains, ConsignmentData.transitions, WitnessBundle.knownTransitions, List.mem_flatMap, List.mem_map, OMap.vals,
      Prod.mk.injEq, Prod.exists, exists_eq_right]
    constructor
    · rintro ⟨wb, h1, b, h2, k, h3, rfl⟩; exact ⟨wb, h1, t, ⟨b, h2, k, h3⟩, rfl, rfl⟩
    · rintro ⟨wb, h1, t', ⟨b, h2, k, h3⟩, rfl, rfl⟩; exact ⟨wb, h1, b, h2, k, h3, rfl⟩
  have hspec := transitionLoop_spec H (d.genesis.contractId H) (OSet.ofList (d.extensions.map (Op.id H))) r d.transitions []
  obtain ⟨calls, used, err, hl, herr, hok⟩ := hspec
  refine ⟨fun hres => ?_, ?_⟩
  · have he : err = none := by
      cases err with
      | none => rfl
      | some e =>
        obtain ⟨t, w, hm, hn⟩ := herr.mp (by simp)
        have := hres t w ((hcon t w).mpr hm)
        rw [hn] at this; cases this
    subst he
    obtain ⟨o1, o2, o3⟩ := hok rfl
    refine ⟨.register sch d.genesis :: (calls ++ extensionCalls H (d.genesis.contractId H) used d.extensions), ?_, ?_, ?_, ?_, ?_, ?_⟩
    · intro s
      simp only [MemState.updateFromConsignment, consignmentStCalls, hl]
      cases StCall.execAll H s (.register sch d.genesis :: (calls ++ extensionCalls H (d.genesis.contractId H) used d.extensions)) with
      | none => rfl
      | some p => simp
    · rfl
    · intro sch' g h
      rcases List.mem_cons.mp h with h | h
      · cases h; exact ⟨rfl, rfl⟩
      · rcases List.mem_append.mp h with h | h
        · obtain ⟨_, _, _, _, _, h⟩ := (o1 _).mp h; cases h
        · obtain ⟨e, -, h2⟩ := List.mem_filterMap.mp h
          obtain ⟨p, -, h3⟩ := Option.map_eq_some_iff.mp h2
          cases h3
    · intro c t w ord
      constructor
      · intro h
        rcases List.mem_cons.mp h with h | h
        · cases h
        · rcases List.mem_append.mp h with h | h
          · obtain ⟨_, _, _, h1, h2, h⟩ := (o1 _).mp h; cases h; exact ⟨rfl, (hcon _ _).mpr h1, h2⟩
          · obtain ⟨e, -, h2⟩ := List.mem_filterMap.mp h
            obtain ⟨p, -, h3⟩ := Option.map_eq_some_iff.mp h2
            cases h3
      · rintro ⟨rfl, h1, h2⟩
        exact List.mem_cons_of_mem _ (List.mem_append.mpr (.inl ((o1 _).mpr ⟨t, w, ord, (hcon t w).mp h1, h2, rfl⟩)))
    · intro e
      have hx : (∃ c w ord, StCall.extension c e w ord ∈ StCall.register sch d.genesis ::
          (calls ++ extensionCalls H (d.genesis.contractId H) used d.extensions)) ↔
          e ∈ d.extensions ∧ (OMap.get? used (e.id H)).isSome := by
        constructor
        · rintro ⟨c, w, ord, h⟩
          rcases List.mem_cons.mp h with h | h
          · cases h
          · rcases List.mem_append.mp h with h | h
            · obtain ⟨_, _, _, _, _, h⟩ := (o1 _).mp h; cases h
            · obtain ⟨e', h1, h2⟩ := List.mem_filterMap.mp h
              obtain ⟨p, h3, h4⟩ := Option.map_eq_some_iff.mp h2
              cases h4
              exact ⟨h1, by simp [h3]⟩
        · rintro ⟨h1, h2⟩
          obtain ⟨p, hp⟩ := Option.isSome_iff_exists.mp h2
          refine ⟨d.genesis.contractId H, p.1, p.2, List.mem_cons_of_mem _ (List.mem_append.mpr (.inr (List.mem_filterMap.mpr ⟨e, h1, ?_⟩)))⟩
          rw [hp]; rfl
      rw [hx]
      refine and_congr_right fun he => ?_
      rw [o2 (e.id H)]
      simp only [OMap.get?_nil, Option.isSome_none, Bool.false_eq_true, false_or]
      constructor
      · rintro ⟨-, t, w, h1, h2⟩; exact ⟨t, w, (hcon t w).mpr h1, h2⟩
      · rintro ⟨t, w, h1, h2⟩
        exact ⟨OSet.mem_ofList.mpr (List.mem_map.mpr ⟨e, he, rfl⟩), t, w, (hcon t w).mp h1, h2⟩
    · intro c e w ord h
      rcases List.mem_cons.mp h with h | h
      · cases h
      · rcases List.mem_append.mp h with h | h
        · obtain ⟨_, _, _, _, _, h⟩ := (o1 _).mp h; cases h
        · obtain ⟨e', h1, h2⟩ := List.mem_filterMap.mp h
          obtain ⟨p, h3, h4⟩ := Option.map_eq_some_iff.mp h2
          cases h4
          rcases o3 _ _ h3 with h5 | ⟨h5, t, h6, h7⟩
          · simp at h5
          · exact ⟨rfl, h5, t, (hcon _ _).mpr h6, h7⟩
  · rintro ⟨t, w, h1, h2⟩ s s' h
    have he : err ≠ none := herr.mpr ⟨t, w, (hcon t w).mp h1, h2⟩
    obtain ⟨e, rfl⟩ := Option.ne_none_iff_exists'.mp he
    simp only [MemState.updateFromConsignment, consignmentStCalls, hl] at h
    obtain ⟨⟨s₁, e₁⟩, -, h4⟩ := Option.map_eq_some_iff.mp h
    cases e₁ <;> simp at h4

/-- A call for a consignment succeeds only if all its parts did: then they are among the accepted calls of a history (C23). -/
theorem C28_all_accepted (H : Commit) (s s' : MemState) (calls : List StCall) (h : StCall.execAll H s calls = some (s', none)) :
    runSt H s (calls.map .call) = some s' ∧ accepted H s (calls.map .call) = calls := by
  induction calls generalizing s with
  | nil => simp only [StCall.execAll, Option.some.injEq, Prod.mk.injEq] at h; simp [runSt, accepted, h.1]
  | cons call calls ih =>
    simp only [StCall.execAll] at h
    split at h
    · cases h
    · simp at h
    · rename_i s₁ he
      obtain ⟨i1, i2⟩ := ih s₁ h
      simp [runSt, accepted, he, i1, i2]

/-! ### C29 -/

/-- **C29.** Selecting a witness returns a known and not archived one, if all the witnesses before it are known; it fails
with "no valid witness" exactly when all of them are known and archived, and with an unknown witness if that comes before any valid one. -/
theorem C29_select_valid_witness (s : MemState) (ws : List WitnessId) :
    (∀ w, s.selectValidWitness ws = .ok w ↔ ∃ pre post, ws = pre ++ w :: post ∧ s.Valid (some w) ∧
      ∀ w' ∈ pre, OMap.get? s.witnesses w' = some .archived) ∧
    (s.selectValidWitness ws = .error .absentValidWitness ↔ ∀ w ∈ ws, OMap.get? s.witnesses w = some .archived) ∧
    (∀ w, s.selectValidWitness ws = .error (.absentWitness w) ↔ ∃ pre post, ws = pre ++ w :: post ∧
      OMap.get? s.witnesses w = none ∧ ∀ w' ∈ pre, OMap.get? s.witnesses w' = some .archived) := by
  induction ws with
  | nil => simp [MemState.selectValidWitness]
  | cons x ws ih =>
    obtain ⟨i1, i2, i3⟩ := ih
    have hcons : ∀ (P : WitnessId → Prop) (w : WitnessId), (∃ pre post, x :: ws = pre ++ w :: post ∧ P w ∧
        ∀ w' ∈ pre, OMap.get? s.witnesses w' = some WitnessOrd.archived) ↔ (x = w ∧ P w) ∨
        (OMap.get? s.witnesses x = some .archived ∧ ∃ pre post, ws = pre ++ w :: post ∧ P w ∧
          ∀ w' ∈ pre, OMap.get? s.witnesses w' = some .archived) := by
      intro P w
      constructor
      · rintro ⟨pre, post, h1, h2, h3⟩
        cases pre with
        | nil => simp only [List.nil_append, List.cons.injEq] at h1; exact .inl ⟨h1.1, h2⟩
        | cons y pre =>
          simp only [List.cons_append, List.cons.injEq] at h1
          exact .inr ⟨h1.1 ▸ h3 y List.mem_cons_self, pre, post, h1.2, h2, fun w' hw' => h3 w' (List.mem_cons_of_mem _ hw')⟩
      · rintro (⟨rfl, h2⟩ | ⟨h1, pre, post, rfl, h2, h3⟩)
        · exact ⟨[], ws, rfl, h2, by simp⟩
        · refine ⟨x :: pre, post, rfl, h2, fun w' hw' => ?_⟩
          rcases List.mem_cons.mp hw' with rfl | hw'
          · exact h1
          · exact h3 w' hw'
    have c1 := fun w => hcons (fun w => s.Valid (some w)) w
    have c3 := fun w => hcons (fun w => OMap.get? s.witnesses w = none) w
    simp only [c1, c3, MemState.selectValidWitness, MemState.isValidWitness]
    cases hx : OMap.get? s.witnesses x with
    | none =>
      have hv : ¬ s.Valid (some x) := by simp [MemState.Valid, hx]
      refine ⟨fun w => ?_, ?_, fun w => ?_⟩
      · simp only [reduceCtorEq, false_iff]
        rintro (⟨rfl, h⟩ | ⟨h, -⟩)
        · exact hv h
        · cases h
      · simp [hx]
      · simp only [Except.error.injEq, StErr.absentWitness.injEq, reduceCtorEq, false_and, or_false]
        exact ⟨fun h => ⟨h, h ▸ hx⟩, fun h => h.1⟩
    | some ord =>
      cases hval : ord.isValid with
      | true =>
        have hne : ord ≠ .archived := by rintro rfl; simp [WitnessOrd.isValid] at hval
        simp only [Except.ok.injEq, hval]
        refine ⟨fun w => ?_, ?_, fun w => ?_⟩
        · constructor
          · rintro rfl; exact .inl ⟨rfl, ord, hx, hne⟩
          · rintro (⟨h, -⟩ | ⟨h, -⟩)
            · exact h
            · simp at h; exact absurd h hne
        · simp only [reduceCtorEq, List.mem_cons, forall_eq_or_imp, hx, Option.some.injEq, false_iff, not_and]
          exact fun h => absurd h hne
        · simp only [reduceCtorEq, false_iff]
          rintro (⟨rfl, h⟩ | ⟨h, -⟩)
          · rw [hx] at h; cases h
          · simp at h; exact absurd h hne
      | false =>
        have he : ord = .archived := by cases ord <;> simp [WitnessOrd.isValid] at hval ⊢
        subst he
        simp only [hval, i1, i2, i3]
        refine ⟨fun w => ?_, ?_, fun w => ?_⟩
        · simp only [true_and]
          constructor
          · exact .inr
          · rintro (⟨rfl, o, h1, h2⟩ | h)
            · rw [hx] at h1; cases h1; exact absurd rfl h2
            · exact h
        · simp [hx]
        · simp only [true_and]
          constructor
          · exact .inr
          · rintro (⟨rfl, h⟩ | h)
            · rw [hx] at h; cases h
            · exact h

example : exState.selectValidWitness [exW] = .ok exW := rfl

/-! ### C61: the iterator over global state -/

/-- Calling `prev` repeatedly. -/
def prevs (g : GIter) : Nat → GIter × List (Option (GlobalOrd × Nat))
  | 0 => (g, [])
  | n + 1 =>
    let (g', r) := prevs g n
    let (g'', x) := g'.prev
    (g'', r ++ [x])

/-- **C61.** With a new iterator: asking the size (any number of times) gives the number of items and doesn't change the iterator; a number of calls of
`prev` returns the items in order, and then nothing.

Missing: asking for the size or resetting after the iteration has started, see the next theorems. -/
theorem C61_iterator_partial (items : List (GlobalOrd × Nat)) (n : Nat) :
    (GIter.start items).size = (GIter.start items, items.length) ∧
    (prevs (GIter.start items) n).2 = (List.range n).map (fun i => items[i]?) := by
  have key : ∀ n, (prevs (GIter.start items) n).1.rest = items.drop n ∧
      (prevs (GIter.start items) n).2 = (List.range n).map (fun i => items[i]?) := by
    intro n
    induction n with
    | zero => exact ⟨rfl, rfl⟩
    | succ n ih =>
      simp only [prevs, GIter.prev, ih.1, ih.2, List.range_succ, List.map_append, List.map_cons, List.map_nil, List.head?_drop,
        List.tail_drop, and_self]
  exact ⟨rfl, (key n).2⟩

/-- **C61** fails: after one of three items was read, the size is said to be two, and the iteration starts again from the first item. -/
theorem C61_size_fails : ∃ items : List (GlobalOrd × Nat), items.length = 3 ∧
    let g := (GIter.start items).prev.1
    g.size.2 = 2 ∧ g.prev.2 = items[1]? ∧ g.size.1.prev.2 = items[0]? :=
  ⟨[(.genesis 2, 12), (.genesis 1, 11), (.genesis 0, 10)], rfl, rfl, rfl, rfl⟩

/-- **C61** fails: resetting a new iterator to depth 2 doesn't skip anything; resetting to 0 after having read two items doesn't go back. -/
theorem C61_reset_fails : ∃ items : List (GlobalOrd × Nat), items.length = 3 ∧
    ((GIter.start items).reset 2).prev.2 = items[0]? ∧ items[0]? ≠ items[2]? ∧
    ((prevs (GIter.start items) 2).1.reset 0).prev.2 = items[2]? :=
  ⟨[(.genesis 2, 12), (.genesis 1, 11), (.genesis 0, 10)], rfl, rfl, by decide, rfl⟩

/-- Calls of an iterator over global state. -/
inductive GCall
  | size
  | prev
  | last
  | reset (d : Nat)

/-- What a call returns. -/
inductive GReply
  | size (n : Nat)
  | item (x : Option (GlobalOrd × Nat))
  | done
deriving DecidableEq

/-- Calling an iterator. -/
def gcall (g : GIter) : GCall → GIter × GReply
  | .size => (g.size.1, .size g.size.2)
  | .prev => (g.prev.1, .item g.prev.2)
  | .last => (g, .item g.last)
  | .reset d => (g.reset d, .done)

/-- Calling an iterator many times. -/
def gcalls (g : GIter) : List GCall → GIter × List GReply
  | [] => (g, [])
  | c :: cs => ((gcalls (gcall g c).1 cs).1, (gcall g c).2 :: (gcalls (gcall g c).1 cs).2)

/-- What an iterator really does, in words: it is at a place, and has counted the calls of `prev` (`count`). `prev` gives the item at the place and
moves by one. `size` gives the number of items from the place on, and goes back to the beginning. `reset` to a depth less than the count moves
forwards by the depth; otherwise it does nothing. -/
def replies (items : List (GlobalOrd × Nat)) (place count : Nat) (last : Option (GlobalOrd × Nat)) : List GCall → List GReply
  | [] => []
  | .size :: cs => .size (items.length - place) :: replies items 0 count last cs
  | .prev :: cs => .item items[place]? :: replies items (place + 1) (count + 1) items[place]? cs
  | .last :: cs => .item last :: replies items place count last cs
  | .reset d :: cs => .done :: replies items (if d < count then place + d else place) count last cs

/-- **C61**, in part: what the iterator replies to any calls in any order. As long as `size` is only asked, and `reset` only called, before the first `prev`, this is
what the property asks for; `C61_size_fails` and `C61_reset_fails` are about other calls. -/
theorem C61_calls_partial (items : List (GlobalOrd × Nat)) (cs : List GCall) :
    (gcalls (GIter.start items) cs).2 = replies items 0 0 none cs := by
  have key : ∀ (cs : List GCall) (g : GIter) (p : Nat), g.fresh = items → g.rest = items.drop p →
      (gcalls g cs).2 = replies items p g.depth g.last cs := by
    intro cs
    induction cs with
    | nil => intro g p _ _; rfl
    | cons c cs ih =>
      intro g p hf hr
      cases c with
      | size =>
        simp only [gcalls, gcall, GIter.size, replies, hr, hf, List.length_drop]
        exact congrArg _ (ih _ 0 rfl (by simp))
      | prev =>
        simp only [gcalls, gcall, GIter.prev, replies, hr, List.head?_drop, List.tail_drop]
        exact congrArg _ (ih _ (p + 1) hf rfl)
      | last =>
        simp only [gcalls, gcall, replies]
        exact congrArg _ (ih _ p hf hr)
      | reset d =>
        simp only [gcalls, gcall, replies]
        refine congrArg _ ?_
        unfold GIter.reset
        by_cases h1 : g.depth < d
        · rw [if_pos h1, if_neg (by omega)]
          exact ih _ p hf (by simp [hr])
        · rw [if_neg h1]
          by_cases h2 : g.depth = d
          · rw [if_pos h2, if_neg (by omega)]; exact ih _ p hf hr
          · rw [if_neg h2, if_pos (by omega)]
            exact ih _ (p + d) hf (by simp [hr])
  exact key cs (GIter.start items) 0 rfl rfl

example : replies [(.genesis 2, 12), (.genesis 1, 11), (.genesis 0, 10)] 0 0 none [.size, .prev, .prev, .reset 1, .size, .prev, .last] =
    [.size 3, .item (some (.genesis 2, 12)), .item (some (.genesis 1, 11)), .done, .size 0, .item (some (.genesis 2, 12)), .item (some (.genesis 2, 12))] := by
  decide

/-- **C61**, in part: whatever is called, what is returned as an item is one of the items.
Missing: each item exactly once whatever is called, see `C61_reset_fails`. -/
theorem C61_only_items_partial (items : List (GlobalOrd × Nat)) (cs : List GCall) (x : GlobalOrd × Nat)
    (h : GReply.item (some x) ∈ (gcalls (GIter.start items) cs).2) : x ∈ items := by
  rw [C61_calls_partial] at h
  have key : ∀ (cs : List GCall) (p n : Nat) (l : Option (GlobalOrd × Nat)), (∀ y, l = some y → y ∈ items) →
      GReply.item (some x) ∈ replies items p n l cs → x ∈ items := by
    intro cs
    induction cs with
    | nil => intro p n l _ h; cases h
    | cons c cs ih =>
      intro p n l hl h
      cases c with
      | size =>
        rcases List.mem_cons.1 h with h | h
        · cases h
        · exact ih _ _ _ hl h
      | prev =>
        rcases List.mem_cons.1 h with h | h
        · exact List.mem_of_getElem? (GReply.item.inj h).symm
        · exact ih _ _ _ (fun y hy => List.mem_of_getElem? hy) h
      | last =>
        rcases List.mem_cons.1 h with h | h
        · exact hl _ (GReply.item.inj h).symm
        · exact ih _ _ _ hl h
      | reset d =>
        rcases List.mem_cons.1 h with h | h
        · cases h
        · exact ih _ _ _ hl h
  exact key cs 0 0 none (fun _ h => by cases h) h

end Rgb.Props
