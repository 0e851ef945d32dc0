import Verif.Lemmas.Restart
import Verif.Spec.StockWorld
import Verif.Spec.StoreCodecs
import Verif.Props.Shown

/-!
# C99: a wallet which is restarted
-/

namespace Rgb.Props

open Rgb

section
variable {H : Commit} {I : Ids} {M : Mpc} {G : SchemaDoc → SchemaGlobals} {C : Codecs3 MemStash MemState Index}

/-- **C99**, restarts. Take any history of calls which succeed, with any number of restarts and savings in between: the wallet comes to the same stock as without
them, and this is also what the files have.
Missing: setting of trust levels, see `C99_trust_fails`. -/
theorem C99_restarts_partial (hC : C.Lawful) {l : Live} {k k' : Stock} (hl : l.Saved C k) {xs : List LiveStep}
    (hn : ∀ e ∈ LiveStep.events xs, e.NotTrust) (h : AllDone H I M G (LiveStep.events xs) k k') :
    ∃ l', Live.run H I M G C xs l = some l' ∧ l'.Saved C k' := by
  induction xs generalizing l k with
  | nil => exact ⟨l, rfl, by cases h; exact hl⟩
  | cons x xs ih =>
    cases x with
    | call e =>
      obtain ⟨k₁, h1, h2⟩ := h
      obtain ⟨l₁, h3, h4⟩ := Live.call_done (hn e (by simp [LiveStep.events])) hl h1
      obtain ⟨l', h5, h6⟩ := ih h4 (fun e he => hn e (by simp only [LiveStep.events] at he; simp [LiveStep.events, he])) h2
      exact ⟨l', by simp [Live.run, Live.step, h3, h5], h6⟩
    | store =>
      obtain ⟨l', h5, h6⟩ := ih hl hn h
      exact ⟨l', by simp [Live.run, Live.step, Live.operate_store l k hl, h5], h6⟩
    | restart =>
      obtain ⟨l', h5, h6⟩ := ih hl hn h
      refine ⟨l', ?_, h6⟩
      simp only [Live.run, Live.step, hl.files, Live.load_files hC, Option.bind_some]
      rw [← hl.eq]; exact h5

/-- **C99**, refusals. Whatever call fails, with an error or by a panic, and whatever it has left in the memory: after a restart the wallet is exactly as before the call. -/
theorem C99_undone (hC : C.Lawful) {l : Live} {k : Stock} (hl : l.Saved C k) {e : StockEvent}
    (h : ∀ k', ¬ e.Done H I M G k k') : Live.run H I M G C [.call e, .restart] l = some l := by
  obtain ⟨l', h1, h2⟩ := Live.call_refused hC hl h
  simp only [Live.run, Live.step, h1, Option.map_some, Option.bind_some, h2, Live.load_files hC]
  rw [← hl.eq]

/-- **C99**, all histories. A wallet which is restarted after every error, given any calls whatsoever: it comes to the stock which has what was accepted and nothing of what was
refused, and it is the same in the files.
Missing: setting of trust levels, see `C99_trust_fails`. -/
theorem C99_careful_partial (hC : C.Lawful) {l : Live} {k : Stock} (hl : l.Saved C k) {es : List StockEvent} (hn : ∀ e ∈ es, e.NotTrust) :
    ∃ l' k' ds, Live.careful H I M G C es l = some l' ∧ l'.Saved C k' ∧ Sifted H I M G es k ds k' := by
  induction es generalizing l k with
  | nil => exact ⟨l, k, [], rfl, hl, .nil k⟩
  | cons e es ih =>
    have hn' : ∀ e ∈ es, e.NotTrust := fun x hx => hn x (List.mem_cons_of_mem _ hx)
    by_cases hd : ∃ k₁, e.Done H I M G k k₁
    · obtain ⟨k₁, hd⟩ := hd
      obtain ⟨l₁, h1, h2⟩ := Live.call_done (hn e List.mem_cons_self) hl hd
      obtain ⟨l', k', ds, h3, h4, h5⟩ := ih h2 hn'
      exact ⟨l', k', e :: ds, by simp [Live.careful, h1, h3], h4, .done hd h5⟩
    · have hd' : ∀ k₁, ¬ e.Done H I M G k k₁ := fun k₁ h => hd ⟨k₁, h⟩
      obtain ⟨l₁, h1, h2⟩ := Live.call_refused hC hl hd'
      obtain ⟨l', k', ds, h3, h4, h5⟩ := ih hl hn'
      refine ⟨l', k', ds, ?_, h4, .refused hd' h5⟩
      simp only [Live.careful, h1, Option.bind_some, Bool.false_eq_true, if_false, h2, Live.load_files hC]
      rw [← hl.eq]; exact h3

/-- **C99**: so its history is one without errors, made of some of the calls in their order, and what is proved of such histories holds for it. -/
theorem C99_history {es ds : List StockEvent} {k k' : Stock} (h : Sifted H I M G es k ds k') : ds.Sublist es ∧ AllDone H I M G ds k k' := by
  induction h with
  | nil k => exact ⟨.refl _, rfl⟩
  | done h _ ih => exact ⟨ih.1.cons_cons _, _, h, ih.2⟩
  | refused _ _ ih => exact ⟨ih.1.cons _, ih.2⟩

/-- **C99**, in particular: whatever consignments it was given, in such a wallet the contract of any state at an output is found by the output, what is false without restarts
(`C78_listed_fails`).
Missing: histories with setting of trust levels. -/
theorem C99_listed_partial (hH : H.Binding) (hG : ∀ d, OMap.Sorted (G d).maxItems) (hC : C.Lawful) {l : Live} (hl : l.Saved C .empty) {es : List StockEvent}
    (hn : ∀ e ∈ es, e.NotTrust) (hp : ∀ e ∈ es, e.Proper H) :
    ∃ l', Live.careful H I M G C es l = some l' ∧ ∀ (c : Nat) (p : Outpoint) (outputs : List Outpoint), Stock.HasStateAt l'.mem.cur c p → p ∈ outputs →
      c ∈ l'.mem.cur.index.contractsAssigning outputs := by
  obtain ⟨l', k', ds, h1, h2, h3⟩ := C99_careful_partial (H := H) (I := I) (M := M) (G := G) hC hl hn
  obtain ⟨hs, hd⟩ := C99_history h3
  refine ⟨l', h1, fun c p outputs hc ho => ?_⟩
  obtain rfl := h2.cur
  have ha : ∀ (ds : List StockEvent) (k : Stock), AllDone H I M G ds k l'.mem.cur → Accepting H I M G ds k l'.mem.cur := by
    intro ds
    induction ds with
    | nil => intro k h; exact h
    | cons e ds ih =>
      rintro k ⟨k₁, h1, h2⟩
      exact ⟨k₁, done_exec h1, fun _ _ _ => h1, ih _ h2⟩
  exact C78_listed_partial hH hG (fun e he => hp e (hs.subset he)) (ha ds _ hd) hc ho

/-- **C99 is false of trust levels**: setting one doesn't mark the stash as changed, so it isn't written, also not by `store`, and it's gone after a restart. -/
theorem C99_trust_fails (hC : C.Lawful) {l : Live} {k : Stock} (hl : l.Saved C k) (i : Nat) (t : TrustLevel) :
    Live.run H I M G C [.call (.trust i t), .store, .restart] l = some l ∧
    ∃ l', Live.run H I M G C [.call (.trust i t)] l = some l' ∧ l'.mem.cur.stash.identities = OMap.insert k.stash.identities i t := by
  rw [hl.eq]
  refine ⟨?_, _, rfl, rfl⟩
  simp only [Live.run, Live.step, Live.call, MemStash.setTrust, Option.map_some, Option.bind_some, Live.operate, PStock.exec, PStock.saveAll, PStock.save,
    Bool.false_eq_true, if_false, List.append_nil, Disk.run, List.foldl_nil, Live.load_files hC]

end

/-! ### Examples -/

/-- The consignment refused in `C34_consume_consignment_fails`: the known transaction is given by its id only. -/
def exTornCon : Consignment := World.conOf [] ([(.txid 61, World.b1), (.tx ⟨62, 0⟩, World.b2)].map (fun b => World.wb b.1 b.2))

theorem exTornCon_proper : StockEvent.Proper World.H (.consignment exTornCon World.r) := by
  refine World.conOf_proper _ (by simp) _ ?_ _
  intro b hb
  simp only [List.mem_cons, List.not_mem_nil, or_false] at hb
  rcases hb with rfl | rfl
  · exact ⟨World.b1_check, rfl⟩
  · exact ⟨World.b2_check, rfl⟩

/-- After a refused consignment and an update of witnesses the files have the state of the refused one. -/
theorem exWritten {H : Commit} {I : Ids} {M : Mpc} {G : SchemaDoc → SchemaGlobals} {C : Codecs3 MemStash MemState Index} (hC : C.Lawful) {l : Live} {k k' : Stock}
    (hl : l.Saved C k) {con : Consignment} {r : Resolver} {e : TxErr StockErr} (h : Stock.consumeConsignment H I M G r con k = some (k', some e)) :
    ∃ l', Live.run H I M G C [.call (.consignment con r), .call (.update r 0), .restart] l = some l' ∧
      l'.mem.cur = ⟨k.stash, (k'.state.updateWitnesses r 0).1, k.index⟩ := by
  rw [hl.eq]
  have hd : ((C.files k).run (fileEvents .state (C.state.enc (k'.state.updateWitnesses r 0).1))) =
      C.files ⟨k.stash, (k'.state.updateWitnesses r 0).1, k.index⟩ := by rw [run_fileEvents]; rfl
  refine ⟨⟨⟨⟨k.stash, (k'.state.updateWitnesses r 0).1, k.index⟩, ⟨false, false, false⟩⟩, C.files ⟨k.stash, (k'.state.updateWitnesses r 0).1, k.index⟩⟩, ?_, rfl⟩
  have h0 : (C.files k).run [] = C.files k := rfl
  simp only [Live.run, Live.step, Live.call, h, Option.map_some, Option.bind_some, Live.operate, PStock.exec, PStock.saveAll, PStock.save, Option.isNone_some,
    Bool.false_eq_true, if_false, if_true, List.append_nil, h0, hd, Live.load_files hC]

/-- **C99 is false without a restart**: after a refused consignment the next successful call, here an update of witnesses, writes the state with what the refused one has left
in it. A later restart doesn't help: the allocation is shown, and its transition is neither in the index nor in the stash. -/
theorem C99_written_fails : ∃ (k : Stock) (con : Consignment), k.Reachable World.H ∧ StockEvent.Proper World.H (.consignment con World.r) ∧
    (∀ k', ¬ StockEvent.Done World.H World.I World.M World.G k k' (.consignment con World.r)) ∧
    (k.state.contractState 0).map (fun v => v.byOutpoint .fungible ⟨.bitcoin, 62, 1⟩ 1) = .ok [] ∧
    ∀ C : Codecs3 MemStash MemState Index, C.Lawful → ∀ l : Live, l.Saved C k →
      ∃ l', Live.run World.H World.I World.M World.G C [.call (.consignment con World.r), .call (.update World.r 0), .restart] l = some l' ∧
        (l'.mem.cur.state.contractState 0).map (fun v => v.byOutpoint .fungible ⟨.bitcoin, 62, 1⟩ 1) = .ok [.fungible 6 0 0] ∧
        (Stock.transition l'.mem.cur 6).toOption = none := by
  obtain ⟨k, hr, h1, h2⟩ := World.obtain [.consignment World.con World.r] (by
      intro e he
      simp only [List.mem_singleton] at he
      subst he
      exact World.con_proper)
    (fun k => (k.state.contractState 0).map (fun v => v.byOutpoint .fungible ⟨.bitcoin, 62, 1⟩ 1) = .ok [] ∧
      (Stock.consumeConsignment World.H World.I World.M World.G World.r exTornCon k).any (fun p => decide (p.2.isSome = true ∧
        (((p.1.state.updateWitnesses World.r 0).1).contractState 0).map (fun v => v.byOutpoint .fungible ⟨.bitcoin, 62, 1⟩ 1) = .ok [.fungible 6 0 0] ∧
        (Stock.transition ⟨k.stash, (p.1.state.updateWitnesses World.r 0).1, k.index⟩ 6).toOption = none)) = true) (by decide +kernel)
  cases e1 : Stock.consumeConsignment World.H World.I World.M World.G World.r exTornCon k with
  | none => rw [e1] at h2; cases h2
  | some p =>
    obtain ⟨k', e⟩ := p
    rw [e1] at h2
    obtain ⟨h3, h4, h5⟩ := of_decide_eq_true h2
    obtain ⟨e, rfl⟩ := Option.isSome_iff_exists.mp h3
    refine ⟨k, exTornCon, hr, exTornCon_proper, fun k₁ h => ?_, h1, fun C hC l hl => ?_⟩
    · rw [StockEvent.Done, e1] at h; cases h
    · obtain ⟨l', h6, h7⟩ := exWritten hC hl e1
      exact ⟨l', h6, by rw [h7]; exact h4, by rw [h7]; exact h5⟩

/-- Codecs and a saved wallet exist. -/
example (k : Stock) : storeCodecs.Lawful ∧ Live.Saved storeCodecs ⟨⟨k, ⟨false, false, false⟩⟩, storeCodecs.files k⟩ k :=
  ⟨storeCodecs_lawful, rfl, rfl, rfl⟩

/-- A consignment is accepted, then one is refused: the wallet restarted after each error has the first, and the second is sifted out. -/
example : ∃ k' ds, Sifted World.H World.I World.M World.G [.consignment World.con World.r, .consignment exTornCon World.r] .empty ds k' ∧
    ds = [.consignment World.con World.r] := by
  have h : (Stock.consumeConsignment World.H World.I World.M World.G World.r World.con .empty).any (fun p => decide (p.2.isNone = true ∧
      (Stock.consumeConsignment World.H World.I World.M World.G World.r exTornCon p.1).all (fun q => q.2.isSome) = true)) = true := by decide +kernel
  cases e1 : Stock.consumeConsignment World.H World.I World.M World.G World.r World.con .empty with
  | none => rw [e1] at h; cases h
  | some p =>
    obtain ⟨k, e⟩ := p
    rw [e1] at h
    obtain ⟨h3, h4⟩ := of_decide_eq_true h
    cases e with
    | some x => cases h3
    | none =>
      refine ⟨k, _, .done e1 (.refused (fun k₁ hd => ?_) (.nil _)), rfl⟩
      rw [StockEvent.Done] at hd
      simp only at h4
      rw [hd] at h4
      cases h4

end Rgb.Props
