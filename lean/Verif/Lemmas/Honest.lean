import Verif.Lemmas.Conform
import Verif.Lemmas.Settle
import Verif.Props.Blank
import Verif.Props.Onward

/-!
Lemmas about the wallets of a network.
-/

namespace Rgb

open Stock Index Props

variable {E : CEnv} {M : Mpc} {G : SchemaDoc → SchemaGlobals} {L : Ledger} {es : List StockEvent} {k k' : Stock}

/-- What holds for each wallet of a network. -/
structure Sane (E : CEnv) (M : Mpc) (G : SchemaDoc → SchemaGlobals) (L : Ledger) (es : List StockEvent) (k : Stock) : Prop where
  done : AllDone E.H E.I M G es .empty k
  furnished : Furnished E.H E.I E.S es
  onLedger : ∀ e ∈ es, e.OnLedger E.H L
  conforming : Conforming E es
  traced : ∀ e ∈ es, ∀ c b w o, e.Brings E.H c b w → OMap.contains b.known o = true → Traced E.H es (fun _ => True) c o

theorem Sane.committed (h : Sane E M G L es k) (c : Nat) : OneCommitted E.H es c := by
  intro e he e' he' b b' w hb hb' hm
  rw [← (h.onLedger e he c b w hb).1, ← (h.onLedger e' he' c b' w hb').1, hm]

theorem brought_wf {H : Commit} {e : StockEvent} (he : e.Sound H) {c : Nat} {b : Bundle} {w : WitnessId} (hb : e.Brings H c b w) : b.WF H := by
  cases hb with
  | consignment con r wb _ hw hb => exact he.proper.1.bundles wb hw b hb
  | fascia f r _ _ hb => exact (he.proper _ hb).1

/-- A bundle of one transition. -/
theorem single_known {H : Commit} {b b' : Bundle} (hw : b.WF H) (hw' : b'.WF H) (hn : b.known ≠ []) (hn' : b'.known ≠ []) (hm : b.inputMap = b'.inputMap)
    (hs : ∀ i ∈ OMap.vals b.inputMap, ∀ j ∈ OMap.vals b.inputMap, i = j) (o : Nat) : OMap.contains b.known o = OMap.contains b'.known o := by
  obtain ⟨⟨i, t⟩, l, hb⟩ := List.exists_cons_of_ne_nil hn
  obtain ⟨⟨i', t'⟩, l', hb'⟩ := List.exists_cons_of_ne_nil hn'
  have g : OMap.get? b.known i = some t := OMap.Sorted.get?_of_mem hw.sorted (by rw [hb]; exact .head _)
  have g' : OMap.get? b'.known i' = some t' := OMap.Sorted.get?_of_mem hw'.sorted (by rw [hb']; exact .head _)
  have m := hw.spent _ _ g
  have m' := hw'.spent _ _ g'
  rw [← hm] at m'
  have hii : i = i' := hs i m i' m'
  subst hii
  rw [Bool.eq_iff_iff]
  constructor
  · intro h
    obtain ⟨u, hu⟩ := OMap.contains_iff.mp h
    rw [hs o (hw.spent _ _ hu) i m]
    exact OMap.contains_iff.mpr ⟨_, g'⟩
  · intro h
    obtain ⟨u, hu⟩ := OMap.contains_iff.mp h
    have mu := hw'.spent _ _ hu
    rw [← hm] at mu
    rw [hs o mu i m]
    exact OMap.contains_iff.mpr ⟨_, g⟩

/-- Where state of a wallet comes from. -/
theorem Sane.spendable (h : Sane E M G L es k) (hH : E.H.Binding) (hG : ∀ d, OMap.Sorted (G d).maxItems) {c : Nat} {prevs : List OutSeal} {a : OutAssign}
    (ha : a ∈ k.stateAt c prevs) : a.opout.op = c ∨ Traced E.H es (fun _ => True) c a.opout.op := by
  have hp : ∀ e ∈ es, e.Proper E.H := fun e he => (h.furnished.sound e he).proper
  simp only [Stock.stateAt] at ha
  cases hv : k.state.contractState c with
  | error x => rw [hv] at ha; cases ha
  | ok v =>
    rw [hv] at ha
    obtain ⟨h1, -⟩ := List.mem_filter.mp ha
    obtain ⟨kind, hk⟩ : ∃ kind, a ∈ v.all kind := by
      simp only [List.mem_append] at h1
      rcases h1 with ((h1 | h1) | h1) | h1 <;> exact ⟨_, h1⟩
    obtain ⟨t, w, h2, h3, -⟩ := C96_assignments hH hG hp (allDone_run _ h.done) hv (List.mem_filter.mp hk).1
    rw [h3]
    cases h2 with
    | genesis con r he =>
      refine .inl ?_
      have := (hp _ he).1.genesisKind
      simp [Op.contractId, this]
    | extension con r _ wb he ht hw => rw [h.furnished.noExtensions con r he] at ht; cases ht
    | transition e _ b w _ he hb ht =>
      obtain ⟨⟨o, t'⟩, hm, rfl⟩ := List.mem_map.mp ht
      have hwf := brought_wf (h.furnished.sound e he) hb
      have hg := OMap.Sorted.get?_of_mem hwf.sorted hm
      rw [(hwf.keyed _ _ hg).1]
      exact .inr (h.traced e he c b w o hb (OMap.contains_iff.mpr ⟨_, hg⟩))

/-- Transitions of a batch spend state of their contract at the outputs. -/
theorem compose_inputs {n : Nat} (hE : E.Lawful n) {W : Wallet} {inv : Inv.Invoice} {prevs : List OutSeal} {b : Batch} (h : compose E W k inv prevs = .ok b) {c : Nat}
    {t : BuiltTransition} (ht : t ∈ b.transitionsOf c) : ∀ i ∈ t.op.inputs, ∃ a ∈ k.stateAt c prevs, a.opout = i := by
  obtain ⟨C⟩ := compose_ok hE h
  have hc := C.prepared.contract
  obtain ⟨h1, h2⟩ := List.mem_filter.1 ht
  have h2 : t.op.contract = c := of_decide_eq_true h2
  subst h2
  intro i hi
  rcases List.mem_append.1 h1 with h1 | h1
  · rw [((C38_inputs hE h hc).1 t h1).1]
    exact ((C38_inputs hE h hc).2 i).mp ⟨t, h1, hi⟩
  · exact ((C40_inputs hE h hc t.op.contract i).mp ⟨t, h1, rfl, hi⟩).2

theorem Sane.kept (h : Sane E M G L es k) (hH : E.H.Binding) (hG : ∀ d, OMap.Sorted (G d).maxItems) : Kept E.H E.I k :=
  runStock_kept hH hG es (fun e he => (h.furnished.sound e he).proper) kept_empty (allDone_run _ h.done)

theorem Sane.reachable (h : Sane E M G L es k) (hG : ∀ d, OMap.Sorted (G d).maxItems) : k.Reachable E.H := allDone_reachable hG h.furnished.sound h.done

/-- Where outputs which the index finds come from. -/
theorem Sane.requested (h : Sane E M G L es k) (hH : E.H.Binding) (hM : M.Lawful) (hG : ∀ d, OMap.Sorted (G d).maxItems) {c : Nat} {outputs : List Outpoint} {o : Opout}
    (ho : Requested k c outputs none o) : o.op = c ∨ Traced E.H es (fun _ => True) c o.op := by
  have hf := complete_facts hH hM hG h.furnished h.done
  rcases ho with ⟨l, h1, h2⟩ | ⟨s, h1, -⟩
  · refine (hf.outs h1 o h2).imp_right ?_
    rintro ⟨e, he, b, w, hb, hc⟩
    exact h.traced e he c b w o.op hb hc
  · cases h1

/-- The witnesses of a contract are valid. -/
theorem Traced.valid {H : Commit} {V V' : WitnessId → Prop} {c o : Nat} (h : Traced H es V c o) (hv : ∀ e ∈ es, ∀ b w, e.Brings H c b w → V' w) : Traced H es V' c o := by
  induction h with
  | intro came _ ih =>
    obtain ⟨e, he, b, w, hb, ho, -⟩ := came
    exact .intro ⟨e, he, b, w, hb, ho, hv e he b w hb⟩ ih

theorem pairwise_apart {α : Type} {R : α → α → Prop} (hR : ∀ x y, R x y → R y x) {l : List α} (h : l.Pairwise R) {x y : α} (hx : x ∈ l) (hy : y ∈ l) (hne : x ≠ y) : R x y := by
  induction l with
  | nil => cases hx
  | cons a l ih =>
    obtain ⟨h1, h2⟩ := List.pairwise_cons.mp h
    rcases List.mem_cons.mp hx with hx' | hx' <;> rcases List.mem_cons.mp hy with hy' | hy'
    · exact absurd (hx'.trans hy'.symm) hne
    · exact hx' ▸ h1 _ hy'
    · exact hR _ _ (hy' ▸ h1 _ hx')
    · exact ih h2 hx' hy'

/-- The bundles in a transfer are those to which the transactions commit. -/
theorem transfer_onLedger (hH : E.H.Binding) (hM : M.Lawful) (hG : ∀ d, OMap.Sorted (G d).maxItems) (h : Sane E M G L es k) {fuel c : Nat} {outputs : List Outpoint}
    {secret : Option Nat} {con : Consignment} (ht : k.transfer E.H E.I E.S fuel c outputs secret = some (.ok con)) (hoc : k.OfContract c outputs secret) (r : Resolver) :
    StockEvent.OnLedger E.H L (.consignment con r) := by
  have hf := complete_facts hH hM hG h.furnished h.done
  have hk := h.kept hH hG
  have hr := h.reachable hG
  obtain ⟨h1, -, -, -, -, hcl, hpw, -⟩ := consign_shape hH hk ht
  obtain ⟨-, -, hall⟩ := C36_full_history_partial hH hr ht
  intro c' b w hb
  cases hb with
  | consignment _ _ wb _ hw hb =>
    obtain ⟨x, hx, rfl⟩ := List.mem_map.mp hb
    obtain ⟨h2, o, t, h3, h4⟩ := hcl wb hw x hx
    obtain ⟨i, t', wb', cb, h5, -, h7, -, h9⟩ := hall o h3
    have hi : i = x.bundle.id E.H := Option.some.inj (h5.1.symm.trans h4.1)
    subst hi
    have hcx : x.bundle = cb.bundle := Option.some.inj ((clientBundle_ok h2).1.symm.trans h9.bundle)
    have hwb : wb = wb' := by
      by_contra hne
      have hpw' := (List.pairwise_flatMap.mp hpw).2
      exact pairwise_apart (fun _ _ h a ha b hb => (h b hb a ha).symm) hpw' hw h7 hne x.bundle hb cb.bundle (List.mem_map.mpr ⟨cb, h9.listed, rfl⟩) (by rw [hcx])
    subst hwb
    obtain ⟨ws, hws, hmem⟩ := h9.witness
    obtain ⟨c₁, m, e, he, b', hb', hid, -⟩ := hf.only.idx.bwS (x.bundle.id E.H) wb.id (by simp only [mset, hws, Option.getD_some]; exact hmem)
    have hc := (hf.index he hb').1
    rw [hid, hoc o _ t h3 h4] at hc
    cases hc
    obtain ⟨l1, l2⟩ := h.onLedger e he c b' wb.id hb'
    obtain ⟨m1, m2⟩ := hH.bundle_inj _ _ _ _ (show E.H.bundleHash b'.closeMethod b'.inputMap = E.H.bundleHash x.bundle.closeMethod x.bundle.inputMap from hid)
    rw [h1, ← hid, ← m1, ← m2]
    exact ⟨l1, l2⟩

theorem transfer_same (hH : E.H.Binding) (hG : ∀ d, OMap.Sorted (G d).maxItems) {es₀ : List StockEvent} {k₀ : Stock} (h₀ : Sane E M G L es₀ k₀)
    (h : Sane E M G L es k) {fuel c : Nat} {outputs : List Outpoint}
    {secret : Option Nat} {con : Consignment} (ht : k₀.transfer E.H E.I E.S fuel c outputs secret = some (.ok con)) : SameBundles E.H es con := by
  have hs := transfer_sound hH (h₀.kept hH hG) ht (fun _ => none)
  intro e he c' b w hb wb hw b' hb' hid o
  have hbr : StockEvent.Brings E.H (.consignment con (fun _ => none)) (con.data.genesis.contractId E.H) b' wb.id := .consignment _ _ wb b' hw hb'
  obtain ⟨-, m2⟩ := hH.bundle_inj _ _ _ _ (show E.H.bundleHash b'.closeMethod b'.inputMap = E.H.bundleHash b.closeMethod b.inputMap from hid)
  exact single_known (brought_wf (h.furnished.sound e he) hb) (brought_wf hs hbr) ((h.furnished.sound e he).nonempty _ _ _ hb) (hs.nonempty _ _ _ hbr) m2.symm
    (h.onLedger e he c' b w hb).2 o

theorem Sane.append (h : Sane E M G L es k) (hH : E.H.Binding) {e : StockEvent} (hd : e.Done E.H E.I M G k k') (hfur : Furnished E.H E.I E.S (es ++ [e]))
    (hl : e.OnLedger E.H L) (hcf : Conforming E (es ++ [e]))
    (ht : ∀ c b w o, e.Brings E.H c b w → OMap.contains b.known o = true → Traced E.H (es ++ [e]) (fun _ => True) c o) : Sane E M G L (es ++ [e]) k' := by
  have mem : ∀ {x}, x ∈ es ++ [e] → x ∈ es ∨ x = e := by intro x hx; simpa using hx
  refine ⟨allDone_append h.done ⟨k', hd, rfl⟩, hfur, ?_, hcf, ?_⟩
  · intro x hx
    rcases mem hx with hx | rfl
    · exact h.onLedger x hx
    · exact hl
  · intro x hx c b w o hb ho
    rcases mem hx with hx | rfl
    · exact (h.traced x hx c b w o hb ho).mono hH hfur.sound (fun _ h => List.mem_append_left _ h) (fun _ h => h)
    · exact ht c b w o hb ho

theorem sane_own (hH : E.H.Binding) (h : Sane E M G L es k) {e : StockEvent} (he : e.NoOps E.S) (hd : e.Done E.H E.I M G k k') : Sane E M G L (es ++ [e]) k' := by
  have mem : ∀ {x}, x ∈ es ++ [e] → x ∈ es ∨ x = e := by intro x hx; simpa using hx
  have none : ∀ c b w, ¬ e.Brings E.H c b w := by
    intro c b w hb
    cases hb <;> exact he
  have nocon : ∀ con r, .consignment con r ∈ es ++ [e] → .consignment con r ∈ es := by
    intro con r hx
    rcases mem hx with hx | rfl
    · exact hx
    · exact he.elim
  have hsound : e.Sound E.H := by
    refine ⟨?_, fun c b w hb => absurd hb (none c b w), ?_, ?_⟩
    · cases e <;> first | exact he.elim | trivial
    · rintro con r rfl; exact he.elim
    · rintro f r rfl; exact he.elim
  refine h.append hH hd ⟨?_, ?_, ?_, ?_, ?_, ?_, ?_⟩ (fun c b w hb => absurd hb (none c b w)) ?_ (fun c b w _ hb => absurd hb (none c b w))
  · intro x hx
    rcases mem hx with hx | rfl
    · exact h.furnished.sound x hx
    · exact hsound
  · intro x hx x' hx' c b w c' b' w' hb hb'
    rcases mem hx with hx | rfl
    · rcases mem hx' with hx' | rfl
      · exact h.furnished.same x hx x' hx' c b w c' b' w' hb hb'
      · exact absurd hb' (none _ _ _)
    · exact absurd hb (none _ _ _)
  · exact fun con r hx => h.furnished.noExtensions con r (nocon con r hx)
  · exact fun con r hx => h.furnished.schema con r (nocon con r hx)
  · exact fun con r hx => h.furnished.types con r (nocon con r hx)
  · exact fun con r hx => h.furnished.libs con r (nocon con r hx)
  · intro x hx
    rcases mem hx with hx | rfl
    · exact h.furnished.kitTypes x hx
    · exact he
  · intro c t w ht con r hx hcon
    refine h.conforming c t w ?_ con r (nocon con r hx) hcon
    cases ht with
    | genesis con' r' hm => exact .genesis con' r' (nocon _ _ hm)
    | extension con' r' _ wb hm h3 h4 => exact .extension con' r' t wb (nocon _ _ hm) h3 h4
    | transition x _ b w' _ hm hbr ht =>
      rcases mem hm with hm | rfl
      · exact .transition x c b w' t hm hbr ht
      · exact absurd hbr (none _ _ _)

theorem sane_issued (hTC : E.TagsCommitted) (hH : E.H.Binding) (hG : ∀ d, OMap.Sorted (G d).maxItems) (hI : Ids.Lawful E.H E.I) (h : Sane E M G L es k)
    {con : Consignment} {r : Resolver} (hb : con.data.bundles = []) (hc : Furnished E.H E.I E.S [.consignment con r]) (hf : con.Fits E)
    (hd : StockEvent.Done E.H E.I M G k k' (.consignment con r)) : Sane E M G L (es ++ [.consignment con r]) k' := by
  have mem : ∀ {x}, x ∈ es ++ [StockEvent.consignment con r] → x ∈ es ∨ x ∈ [StockEvent.consignment con r] := fun hx => List.mem_append.mp hx
  have none : ∀ x ∈ [StockEvent.consignment con r], ∀ c b w, ¬ x.Brings E.H c b w := by
    intro x hx c b w hbr
    rw [List.mem_singleton] at hx
    subst hx
    cases hbr with
    | consignment _ _ wb _ hw _ => rw [hb] at hw; cases hw
  have hfur : Furnished E.H E.I E.S (es ++ [.consignment con r]) := by
    refine ⟨?_, ?_, ?_, ?_, ?_, ?_, ?_⟩
    · exact fun x hx => (mem hx).elim (h.furnished.sound x) (hc.sound x)
    · intro x hx x' hx' c b w c' b' w' hb hb'
      rcases mem hx with hx | hx
      · rcases mem hx' with hx' | hx'
        · exact h.furnished.same x hx x' hx' c b w c' b' w' hb hb'
        · exact absurd hb' (none _ hx' _ _ _)
      · exact absurd hb (none _ hx _ _ _)
    · exact fun con' r' hx => (mem hx).elim (h.furnished.noExtensions con' r') (hc.noExtensions con' r')
    · exact fun con' r' hx => (mem hx).elim (h.furnished.schema con' r') (hc.schema con' r')
    · exact fun con' r' hx => (mem hx).elim (h.furnished.types con' r') (hc.types con' r')
    · exact fun con' r' hx => (mem hx).elim (h.furnished.libs con' r') (hc.libs con' r')
    · exact fun x hx => (mem hx).elim (h.furnished.kitTypes x) (hc.kitTypes x)
  exact h.append hH hd hfur (fun c b w hbr => absurd hbr (none _ (.head _) c b w)) (conforming_consignment hTC hH hG hI h.done h.conforming hfur hf)
    (fun c b w _ hbr => absurd hbr (none _ (.head _) c b w))

theorem sane_spent {n : Nat} (hE : E.Lawful n) (hT : E.TagMaps) (hTC : E.TagsCommitted) (hH : E.H.Binding) (hM : M.Lawful) (hG : ∀ d, OMap.Sorted (G d).maxItems)
    (hI : Ids.Lawful E.H E.I) (h : Sane E M G L es k) {W : Wallet} {inv : Inv.Invoice} {prevs : List OutSeal} {b : Batch} {f : Fascia} {r : Resolver}
    (hb : compose E W k inv prevs = .ok b) (hf : f.MadeOf E.H b) (hu : k.Unknown E.H f) (hs : StockEvent.Sound E.H (.fascia f r)) (hl : StockEvent.OnLedger E.H L (.fascia f r))
    (hd : StockEvent.Done E.H E.I M G k k' (.fascia f r)) : Sane E M G L (es ++ [.fascia f r]) k' := by
  have hfur := furnished_fascia hH hM hG h.furnished h.done hu hs hf.ids
  refine h.append hH hd hfur hl (conforming_fascia hE hT hTC hH hM hG hI h.furnished h.done h.conforming hb (fun e he => (hf.batch e he).2) r) ?_
  intro c bd w o hbr ho
  obtain ⟨t, ht⟩ := OMap.contains_iff.mp ho
  refine .of hH hfur.sound (List.mem_append_right _ (.head _)) hbr ht trivial (fun i hi hic => ?_)
  have key : ∀ i ∈ t.inputs, ∃ a ∈ k.stateAt c prevs, a.opout = i := by
    cases hbr with
    | fascia _ _ _ _ hm =>
      obtain ⟨bt, hbt, rfl⟩ := (hf.batch _ hm).2 t (List.mem_map.mpr ⟨_, OMap.mem_of_get? ht, rfl⟩)
      exact compose_inputs hE hb hbt
  obtain ⟨a, ha, rfl⟩ := key i hi
  exact ((h.spendable hH hG ha).resolve_left hic).mono hH hfur.sound (fun _ h => List.mem_append_left _ h) (fun _ h => h)

theorem sane_received (hTC : E.TagsCommitted) (hH : E.H.Binding) (hM : M.Lawful) (hG : ∀ d, OMap.Sorted (G d).maxItems) (hI : Ids.Lawful E.H E.I)
    {es₀ : List StockEvent} {k₀ : Stock} (h₀ : Sane E M G L es₀ k₀) {fuel c : Nat} {outputs : List Outpoint} {secret : Option Nat} {con : Consignment} {r : Resolver}
    (ht : k₀.transfer E.H E.I E.S fuel c outputs secret = some (.ok con)) (hoc : k₀.OfContract c outputs secret) (h : Sane E M G L es k)
    (hd : StockEvent.Done E.H E.I M G k k' (.consignment con r)) : Sane E M G L (es ++ [.consignment con r]) k' := by
  have hfur := furnished_transfer hH (h₀.reachable hG) (h₀.kept hH hG) ht r h.furnished (transfer_same hH hG h₀ h ht)
  have hl := transfer_onLedger hH hM hG h₀ ht hoc r
  refine h.append hH hd hfur hl
    (conforming_consignment hTC hH hG hI h.done h.conforming hfur (transfer_fits hTC hH hM hG hI h₀.furnished h₀.done h₀.conforming ht hoc)) ?_
  intro c' b w o hb ho
  have hs := transfer_sound hH (h₀.kept hH hG) ht r
  obtain ⟨h1, -, -, -, -, hcl, -, -⟩ := consign_shape hH (h₀.kept hH hG) ht
  have hwf := brought_wf hs hb
  have hsg := (hl _ _ _ hb).2
  cases hb with
  | consignment _ _ wb _ hw hb =>
    obtain ⟨x, hx, rfl⟩ := List.mem_map.mp hb
    obtain ⟨h2, o', t, h3, h4⟩ := hcl wb hw x hx
    obtain ⟨y, h5, h6⟩ := h4.2
    rw [(clientBundle_ok h2).1] at h5
    cases h5
    obtain ⟨t', ho⟩ := OMap.contains_iff.mp ho
    rw [hsg o (hwf.spent _ _ ho) o' (hwf.spent _ _ h6), h1]
    exact needed_traced hH (h₀.reachable hG) (h₀.kept hH hG) ht hfur.sound (List.mem_append_right _ (.head _)) (fun _ _ => trivial) h3

theorem Honest.sane {n : Nat} (hE : E.Lawful n) (hT : E.TagMaps) (hTC : E.TagsCommitted) (hH : E.H.Binding) (hM : M.Lawful) (hG : ∀ d, OMap.Sorted (G d).maxItems)
    (hI : Ids.Lawful E.H E.I) (h : Honest E M G L es k) : Sane E M G L es k := by
  induction h with
  | new =>
    refine ⟨rfl, ⟨?_, ?_, ?_, ?_, ?_, ?_, ?_⟩, ?_, ?_, ?_⟩
    · intro _ h; cases h
    · intro _ h; cases h
    · intro _ _ h; cases h
    · intro _ _ h; cases h
    · intro _ _ h; cases h
    · intro _ _ h; cases h
    · intro _ h; cases h
    · intro _ h; cases h
    · intro _ _ _ _ _ _ h; cases h
    · intro _ h; cases h
  | own _ he hd ih => exact sane_own hH ih he hd
  | issued _ hb hc hf hd ih => exact sane_issued hTC hH hG hI ih hb hc hf hd
  | spent _ hb hf hu hs hl _ hd ih => exact sane_spent hE hT hTC hH hM hG hI ih hb hf hu hs hl hd
  | received _ ht hoc _ hd ih₀ ih => exact sane_received hTC hH hM hG hI ih₀ ht hoc ih hd

end Rgb
