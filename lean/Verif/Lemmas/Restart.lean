import Verif.Spec.Restart
import Verif.Lemmas.StoreTx


namespace Rgb

variable {H : Commit} {I : Ids} {M : Mpc} {G : SchemaDoc → SchemaGlobals} {C : Codecs3 MemStash MemState Index}

namespace Live

theorem load_files (hC : C.Lawful) (k : Stock) : load C (C.files k) = some ⟨⟨k, ⟨false, false, false⟩⟩, C.files k⟩ := by
  simp [load, loadStock, Codecs3.files, hC.stash.dec_enc, hC.state.dec_enc, hC.index.dec_enc]

theorem Saved.eq {l : Live} {k : Stock} (h : l.Saved C k) : l = ⟨⟨k, ⟨false, false, false⟩⟩, C.files k⟩ := by
  obtain ⟨⟨c, d⟩, f⟩ := l
  obtain ⟨h1, h2, h3⟩ := h
  simp only at h1 h2 h3
  rw [h1, h2, h3]

theorem saved_of (C : Codecs3 MemStash MemState Index) (k : Stock) : Live.Saved C ⟨⟨k, ⟨false, false, false⟩⟩, C.files k⟩ k := ⟨rfl, rfl, rfl⟩

theorem operate_transact (l : Live) (k : Stock) (h : l.Saved C l.mem.cur) :
    (l.operate C (.transact (fun _ => (k, true)))).Saved C k := by
  refine ⟨rfl, rfl, ?_⟩
  simp only [operate, PStock.exec, PStock.saveAll, PStock.save, if_true, List.append_nil, Disk.run_append, run_fileEvents, h.files]
  rfl

theorem operate_failed (l : Live) (k : Stock) : (l.operate C (.transact (fun _ => (k, false)))).disk = l.disk := by
  simp [operate, PStock.exec, Disk.run]

theorem operate_stash (l : Live) (s : MemStash) (h : l.Saved C l.mem.cur) :
    (l.operate C (.stashTx (fun _ => (s, true)))).Saved C { l.mem.cur with stash := s } := by
  refine ⟨rfl, ?_, ?_⟩
  · simp [operate, PStock.exec, PStock.saveAll, PStock.save, h.clean]
  · simp only [operate, PStock.exec, PStock.saveAll, PStock.save, if_true, List.append_nil, Disk.run_append, run_fileEvents, h.files]
    rfl

theorem operate_stash_failed (l : Live) (s : MemStash) : (l.operate C (.stashTx (fun _ => (s, false)))).disk = l.disk := by
  simp [operate, PStock.exec, Disk.run]

theorem operate_state (l : Live) (f : MemState → MemState) (h : l.Saved C l.mem.cur) :
    (l.operate C (.stateTx f)).Saved C { l.mem.cur with state := f l.mem.cur.state } := by
  refine ⟨rfl, ?_, ?_⟩
  · simp [operate, PStock.exec, PStock.saveAll, PStock.save, h.clean]
  · simp only [operate, PStock.exec, PStock.saveAll, PStock.save, if_true, List.append_nil, Disk.run_append, run_fileEvents, h.files]
    rfl

theorem operate_store (l : Live) (k : Stock) (h : l.Saved C k) : l.operate C .store = l := by
  rw [h.eq]
  simp [operate, PStock.exec, PStock.saveAll, PStock.save, Disk.run]

/-- A call which succeeds does what the event does, and everything is in the files. -/
theorem call_done {l : Live} {k k' : Stock} {e : StockEvent} (hn : e.NotTrust) (hl : l.Saved C k) (h : e.Done H I M G k k') :
    ∃ l', l.call H I M G C e = some (l', true) ∧ l'.Saved C k' := by
  obtain rfl := hl.cur
  cases e with
  | consignment con r =>
    simp only [StockEvent.Done] at h
    simp only [call, h]
    exact ⟨_, rfl, operate_transact l k' hl⟩
  | fascia f r =>
    simp only [StockEvent.Done] at h
    simp only [call, h]
    exact ⟨_, rfl, operate_transact l k' hl⟩
  | kit x =>
    obtain ⟨s, hs, rfl⟩ := h
    simp only [call, hs]
    exact ⟨_, rfl, operate_stash l s hl⟩
  | secretSeal x =>
    simp only [StockEvent.Done, StockEvent.exec, MemStash.addSecretSeal, Option.map_some, Option.some.injEq] at h
    subst h
    simp only [call, MemStash.addSecretSeal]
    exact ⟨_, rfl, operate_stash l _ hl⟩
  | trust i t => exact hn.elim
  | update r after =>
    simp only [StockEvent.Done, StockEvent.exec, Option.some.injEq] at h
    subst h
    simp only [call]
    exact ⟨_, rfl, operate_state l (fun s => (s.updateWitnesses r after).1) hl⟩

/-- A call which fails leaves the files as they are. -/
theorem call_refused (hC : C.Lawful) {l : Live} {k : Stock} {e : StockEvent} (hl : l.Saved C k) (h : ∀ k', ¬ e.Done H I M G k k') :
    ∃ l', l.call H I M G C e = some (l', false) ∧ l'.disk = C.files k := by
  have hld := load_files hC k
  obtain rfl := hl.cur
  have hf := hl.files
  cases e with
  | consignment con r =>
    simp only [StockEvent.Done] at h
    simp only [call]
    cases hx : Stock.consumeConsignment H I M G r con l.mem.cur with
    | none => simp only [hf, hld]; exact ⟨_, rfl, rfl⟩
    | some p =>
      obtain ⟨k', _ | x⟩ := p
      · exact (h k' hx).elim
      · exact ⟨_, rfl, by simp only [Option.isNone_some, operate_failed, hf]⟩
  | fascia f r =>
    simp only [StockEvent.Done] at h
    simp only [call]
    cases hx : Stock.consumeFascia H r f l.mem.cur with
    | none => simp only [hf, hld]; exact ⟨_, rfl, rfl⟩
    | some p =>
      obtain ⟨k', _ | x⟩ := p
      · exact (h k' hx).elim
      · exact ⟨_, rfl, by simp only [Option.isNone_some, operate_failed, hf]⟩
  | kit x =>
    simp only [call]
    cases hx : l.mem.cur.stash.consumeKit I x with
    | none => simp only [hf, hld]; exact ⟨_, rfl, rfl⟩
    | some p =>
      obtain ⟨s, y | _⟩ := p
      · exact ⟨_, rfl, by simp only [operate_stash_failed, hf]⟩
      · exact (h _ ⟨s, hx, rfl⟩).elim
  | secretSeal x => exact (h _ rfl).elim
  | trust i t => exact (h _ rfl).elim
  | update r after => exact (h _ rfl).elim

end Live

end Rgb
