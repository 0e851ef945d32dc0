import Verif.Lemmas.RecoverStash
import Verif.Lemmas.Shown

/-!
What is in the state and in the index is told by the stash.
-/

namespace Rgb

open MemStash Props Stock Index

variable {H : Commit} {I : Ids} {M : Mpc} {G : SchemaDoc → SchemaGlobals} {C : WitnessId → CloseMethod → Nat → Nat → Prop}

/-- The stash has everything of the bundle, and the witness with an anchor for the contract. -/
structure BundleTold (H : Commit) (C : WitnessId → CloseMethod → Nat → Nat → Prop) (s : MemStash) (c : Nat) (b : Bundle) (w : WitnessId) : Prop where
  wf : b.WF H
  stored : ∃ g, s.bundle (b.id H) = some g ∧ b.ShownBy H g
  witness : ∃ sw, s.witness w = some sw ∧ sw.anchors.knows b.closeMethod c
  committed : C w b.closeMethod c (b.id H)

theorem BundleTold.mono {s t : MemStash} {c : Nat} {b : Bundle} {w : WitnessId} (h : BundleTold H C s c b w) (g : Grows H s t) : BundleTold H C t c b w := by
  obtain ⟨h1, ⟨x, h2, h3⟩, ⟨sw, h4, h5⟩, h6⟩ := h
  obtain ⟨y, h7, h8⟩ := g.bundle _ _ h2
  obtain ⟨sw', h9, h10⟩ := g.witness _ _ h4
  exact ⟨h1, ⟨y, h7, h3.trans h8⟩, ⟨sw', h9, h10.anchors _ _ h5⟩, h6⟩

/-- The transition is of such a bundle. -/
def TrTold (H : Commit) (C : WitnessId → CloseMethod → Nat → Nat → Prop) (s : MemStash) (c : Nat) (w : WitnessId) (t : Op) : Prop :=
  ∃ b, BundleTold H C s c b w ∧ OMap.get? b.known (t.id H) = some t

def GenTold (H : Commit) (s : MemStash) (c : Nat) (g : Op) : Prop := g.WF ∧ ∃ g', s.genesis c = some g' ∧ g.ShownBy H g'

def ExtTold (H : Commit) (s : MemStash) (c : Nat) (e : Op) : Prop := (e.WF ∧ e.contract = c) ∧ ∃ e', s.extension (e.id H) = some e' ∧ e.ShownBy H e'

theorem GenTold.mono {s t : MemStash} {c : Nat} {g : Op} (h : GenTold H s c g) (hg : Grows H s t) : GenTold H t c g := by
  obtain ⟨h1, x, h2, h3⟩ := h
  obtain ⟨y, h4, h5⟩ := hg.genesis _ _ h2
  exact ⟨h1, y, h4, h3.trans h5⟩

theorem ExtTold.mono {s t : MemStash} {c : Nat} {g : Op} (h : ExtTold H s c g) (hg : Grows H s t) : ExtTold H t c g := by
  obtain ⟨h1, x, h2, h3⟩ := h
  obtain ⟨y, h4, h5⟩ := hg.extension _ _ h2
  exact ⟨h1, y, h4, h3.trans h5⟩

theorem TrTold.mono {s t : MemStash} {c : Nat} {w : WitnessId} {g : Op} (h : TrTold H C s c w g) (hg : Grows H s t) : TrTold H C t c w g := by
  obtain ⟨b, h1, h2⟩ := h
  exact ⟨b, h1.mono hg, h2⟩

/-- The operation of the call is told. -/
def CallTold (H : Commit) (C : WitnessId → CloseMethod → Nat → Nat → Prop) (s : MemStash) : StCall → Prop
  | .register _ g => GenTold H s (g.contractId H) g
  | .transition c t w _ => TrTold H C s c w t
  | .extension c e w _ => ExtTold H s c e ∧ ∃ t, TrTold H C s c w t ∧ ∃ i ∈ t.inputs, i.op = e.id H

theorem CallTold.mono {s t : MemStash} {call : StCall} (h : CallTold H C s call) (hg : Grows H s t) : CallTold H C t call := by
  cases call with
  | register sch g => exact GenTold.mono h hg
  | transition c t w ord => exact TrTold.mono h hg
  | extension c e w ord => obtain ⟨h1, t, h2, h3⟩ := h; exact ⟨h1.mono hg, t, h2.mono hg, h3⟩

/-- Everything in the indexing operation is told. -/
structure OpTold (H : Commit) (C : WitnessId → CloseMethod → Nat → Nat → Prop) (s : MemStash) (op : IdxOp) : Prop where
  bundles : ∀ c b w, op.HasBundle H c b w → BundleTold H C s c b w
  genesis : ∀ d, op = .consignment d → GenTold H s (d.genesis.contractId H) d.genesis
  extensions : ∀ d, op = .consignment d → ∀ e ∈ d.extensions, ExtTold H s (d.genesis.contractId H) e

theorem OpTold.mono {s t : MemStash} {op : IdxOp} (h : OpTold H C s op) (hg : Grows H s t) : OpTold H C t op :=
  ⟨fun c b w hb => (h.bundles c b w hb).mono hg, fun d hd => (h.genesis d hd).mono hg, fun d hd e he => (h.extensions d hd e he).mono hg⟩

/-- All the operations succeed. -/
def OkIdx (H : Commit) (x : Index) : List IdxOp → Prop
  | [] => True
  | op :: ops => (op.exec H x).2 = none ∧ OkIdx H (op.exec H x).1 ops

theorem okIdx_append {x : Index} (a : List IdxOp) {b : List IdxOp} (ha : OkIdx H x a) (hb : OkIdx H (runIdx H x a) b) : OkIdx H x (a ++ b) := by
  induction a generalizing x with
  | nil => exact hb
  | cons op a ih => exact ⟨ha.1, ih ha.2 hb⟩

theorem okIdx_split {x : Index} (a : List IdxOp) {op : IdxOp} {b : List IdxOp} (h : OkIdx H x (a ++ op :: b)) : (op.exec H (runIdx H x a)).2 = none := by
  induction a generalizing x with
  | nil => exact h.1
  | cons o a ih => exact ih h.2

/-- The stock is made of what its stash tells. -/
structure Told (H : Commit) (C : WitnessId → CloseMethod → Nat → Nat → Prop) (k : Stock) : Prop where
  state : ∃ es, EventsProper es ∧ runSt H {} es = some k.state ∧ ∀ call, StEvent.call call ∈ es → CallTold H C k.stash call
  index : ∃ ops, k.index = runIdx H {} ops ∧ OkIdx H {} ops ∧ ∀ op ∈ ops, OpTold H C k.stash op

theorem Told.empty : Told H C .empty :=
  ⟨⟨[], by simp [EventsProper], rfl, by simp⟩, [], rfl, trivial, by simp⟩

/-- A step which adds told operations. -/
theorem Told.step {k k' : Stock} (h : Told H C k) (hg : Grows H k.stash k'.stash)
    (hs : ∃ es, EventsProper es ∧ runSt H k.state es = some k'.state ∧ ∀ call, StEvent.call call ∈ es → CallTold H C k'.stash call)
    (hi : ∃ ops, k'.index = runIdx H k.index ops ∧ OkIdx H k.index ops ∧ ∀ op ∈ ops, OpTold H C k'.stash op) : Told H C k' := by
  obtain ⟨⟨es, e1, e2, e3⟩, ops, o1, oo, o2⟩ := h
  obtain ⟨es', e4, e5, e6⟩ := hs
  obtain ⟨ops', o3, oo', o4⟩ := hi
  refine ⟨⟨es ++ es', ?_, ?_, ?_⟩, ops ++ ops', ?_, okIdx_append ops oo (o1 ▸ oo'), ?_⟩
  · intro c hc
    rcases List.mem_append.mp hc with hc | hc
    · exact e1 c hc
    · exact e4 c hc
  · rw [runSt_append _ _ _ _ e2]; exact e5
  · intro c hc
    rcases List.mem_append.mp hc with hc | hc
    · exact (e3 c hc).mono hg
    · exact e6 c hc
  · rw [run_append, ← o1, o3]
  · intro op hop
    rcases List.mem_append.mp hop with hop | hop
    · exact (o2 op hop).mono hg
    · exact o4 op hop

/-- What consuming the bundles of a fascia does to the state and to the index. -/
theorem fascia_story {r : Resolver} {w : WitnessId} (l : List (Nat × Bundle)) {k k' : Stock}
    (hp : ∀ e ∈ l, ∀ t ∈ OMap.vals e.2.known, t.Proper ∧ t.kind = .transition)
    (h : fasciaBundles H r w l k = some (k', none)) :
    (∃ es, EventsProper es ∧ runSt H k.state es = some k'.state ∧
      ∀ call, StEvent.call call ∈ es → ∃ e ∈ l, ∃ i t ord, (i, t) ∈ e.2.known ∧ call = .transition e.1 t w ord) ∧
    k'.index = runIdx H k.index (l.map (fun e => .bundle e.1 e.2 w)) ∧ OkIdx H k.index (l.map (fun e => .bundle e.1 e.2 w)) := by
  induction l generalizing k with
  | nil => simp only [fasciaBundles] at h; cases h; exact ⟨⟨[], by simp [EventsProper], rfl, by simp⟩, rfl, trivial⟩
  | cons x l ih =>
    obtain ⟨c, b⟩ := x
    simp only [fasciaBundles] at h
    split at h
    · cases h
    cases e2 : k.index.indexBundle H c b w with | mk x o
    simp only [e2] at h
    cases o with
    | some y => simp only at h; cases h
    | none =>
    simp only at h
    cases e1 : k.state.updateFromBundle H c b w r with
    | none => simp [e1] at h
    | some p =>
    obtain ⟨t, o⟩ := p
    cases o with
    | some y => simp only [e1] at h; cases h
    | none =>
    simp only [e1] at h
    cases e3 : k.stash.consumeBundle H b with
    | none => simp [e3] at h
    | some q =>
      obtain ⟨s, o⟩ := q
      cases o with
      | error y => simp only [e3] at h; cases h
      | ok y =>
        simp only [e3] at h
        obtain ⟨⟨es, i1, i2, i3⟩, i4, i5⟩ := ih (fun x hx => hp x (by simp [hx])) h
        have hx : x = (IdxOp.exec H k.index (.bundle c b w)).1 := by simp only [IdxOp.exec, e2]
        refine ⟨?_, by rw [i4, List.map_cons, runIdx, ← hx], by simp only [IdxOp.exec, e2], by rw [← hx]; exact i5⟩
        have : ∃ es, EventsProper es ∧ runSt H k.state es = some t ∧
            ∀ call, StEvent.call call ∈ es → ∃ i t ord, (i, t) ∈ b.known ∧ call = .transition c t w ord := by
          simp only [MemState.updateFromBundle] at e1
          split at e1
          swap; · cases e1
          split at e1
          · cases e1; exact ⟨[], by simp [EventsProper], rfl, by simp⟩
          split at e1
          · cases e1
          rename_i ord _
          obtain ⟨es, j1, j2⟩ := execAll_run _ _ _ _ e1
          have j3 : ∀ call, StEvent.call call ∈ es → ∃ i t ord, (i, t) ∈ b.known ∧ call = .transition c t w ord := by
            intro call hcall
            obtain ⟨⟨i, t⟩, hz, rfl⟩ := List.mem_map.mp (j1 call hcall)
            exact ⟨i, t, ord, hz, rfl⟩
          refine ⟨es, ?_, j2, j3⟩
          intro call hcall
          obtain ⟨i, t, ord, h1, rfl⟩ := j3 call hcall
          exact hp (c, b) (by simp) t (List.mem_map.mpr ⟨_, h1, rfl⟩)
        obtain ⟨es', j1, j2, j3⟩ := this
        refine ⟨es' ++ es, ?_, ?_, ?_⟩
        · intro call hcall
          rcases List.mem_append.mp hcall with hcall | hcall
          · exact j1 call hcall
          · exact i1 call hcall
        · rw [runSt_append _ _ _ _ j2]; exact i2
        · intro call hcall
          rcases List.mem_append.mp hcall with hcall | hcall
          · obtain ⟨i, t, ord, h1, h2⟩ := j3 call hcall
            exact ⟨(c, b), by simp, i, t, ord, h1, h2⟩
          · obtain ⟨e, h1, h2⟩ := i3 call hcall
            exact ⟨e, by simp [h1], h2⟩

/-- What consuming a consignment does to the state. -/
theorem consignment_story {G : SchemaGlobals} (hG : OMap.Sorted G.maxItems) {con : Consignment} {r : Resolver}
    (hp : StockEvent.Proper H (.consignment con r)) {s t : MemState} (h : s.updateFromConsignment H G con.data r = some (t, none)) :
    ∃ es, EventsProper es ∧ runSt H s es = some t ∧ ∀ call, StEvent.call call ∈ es →
      (call = .register G con.data.genesis) ∨
      (∃ c b w i t ord, StockEvent.Brings H (.consignment con r) c b w ∧ (i, t) ∈ b.known ∧ call = .transition c t w ord) ∨
      (∃ e ∈ con.data.extensions, ∃ c b w i t ord, StockEvent.Brings H (.consignment con r) c b w ∧ (i, t) ∈ b.known ∧
        c = con.data.genesis.contractId H ∧ (∃ j ∈ t.inputs, j.op = e.id H) ∧ call = .extension c e w ord) := by
  obtain ⟨h1, h2⟩ := C28_consignment_calls H G con.data r
  by_cases hr : ∀ t w, (∃ wb ∈ con.data.bundles, ∃ b ∈ wb.anchored.bundles, ∃ k, (k, t) ∈ b.known ∧ w = wb.id) → (r w).isSome = true
  · obtain ⟨calls, c1, c2, c3, c4, c5, c6⟩ := h1 hr
    rw [c1] at h
    obtain ⟨⟨p1, p2, p3, p4⟩, q1, q2, q3, q4⟩ := hp
    obtain ⟨es, j1, j2⟩ := execAll_run _ _ _ _ h
    refine ⟨es, fun c hc => ?_, j2, fun c hc => ?_⟩
    · replace hc := j1 _ hc
      cases c with
      | register sch g => obtain ⟨rfl, rfl⟩ := c3 _ _ hc; exact ⟨hG, q2, p1⟩
      | transition d t w ord =>
        obtain ⟨-, ⟨wb, h5, b, h6, i, h7, -⟩, -⟩ := (c4 _ _ _ _).mp hc
        exact q4 wb h5 b h6 t (List.mem_map.mpr ⟨_, h7, rfl⟩)
      | extension d t w ord => exact q3 t ((c5 t).mp ⟨_, _, _, hc⟩).1
    · replace hc := j1 _ hc
      cases c with
      | register sch g => obtain ⟨rfl, rfl⟩ := c3 _ _ hc; exact .inl rfl
      | transition d t w ord =>
        obtain ⟨rfl, ⟨wb, h5, b, h6, i, h7, rfl⟩, -⟩ := (c4 _ _ _ _).mp hc
        exact .inr (.inl ⟨_, b, _, i, t, ord, .consignment con r wb b h5 h6, h7, rfl⟩)
      | extension d e w ord =>
        obtain ⟨rfl, -, t, ⟨wb, h5, b, h6, i, h7, rfl⟩, h8⟩ := c6 _ _ _ _ hc
        exact .inr (.inr ⟨e, ((c5 e).mp ⟨_, _, _, hc⟩).1, _, b, _, i, t, ord, .consignment con r wb b h5 h6, h7, rfl, h8, rfl⟩)
  · refine absurd h (h2 ?_ _ _)
    refine Classical.byContradiction fun hn => hr fun t w hc => ?_
    cases hw : r w with
    | some o => rfl
    | none => exact absurd ⟨t, w, hc, hw⟩ hn

theorem keys_event (hH : H.Binding) {K : Nat → (Nat → Bool) → Prop} {e : StockEvent} (hp : e.Sound H) {k k' : Stock} (hk : Hist H k)
    (hs : KeysAre K k.stash) (hK : ∀ c b w, e.Brings H c b w → K (b.id H) (OMap.contains b.known)) (h : e.Done H I M G k k') : KeysAre K k'.stash := by
  cases e with
  | consignment con r =>
    obtain ⟨con', hc, hbd⟩ := consignment_done h
    obtain ⟨h0, -⟩ := resolve_proper hH _ con con' r hp.proper hc
    obtain ⟨-, b2⟩ := resolve_brings hH hp.proper hc
    refine keysAre_consignment hH h0.1 (fun wb hw b' hb' => ?_) hs hk.good (body_stash hbd)
    obtain ⟨b, hb2, hr⟩ := b2 _ b' _ (.consignment con' r wb b' hw hb')
    rw [hr.id, show OMap.contains b'.known = OMap.contains b.known from funext hr.contains]
    exact hK _ _ _ hb2
  | fascia f r =>
    obtain ⟨s, u, h1, h2⟩ := fascia_done h
    obtain ⟨s1, -, s3⟩ := step_consumeWitness k.stash hk.good ⟨f.witness, f.anchor⟩
    have key : ∀ (l : List (Nat × Bundle)) (k : Stock), (∀ e ∈ l, e ∈ f.bundles) → Good H k.stash → KeysAre K k.stash →
        fasciaBundles H r f.witness.id l k = some (k', none) → KeysAre K k'.stash := by
      intro l
      induction l with
      | nil => intro k _ _ hs h; simp only [fasciaBundles] at h; cases h; exact hs
      | cons x l ih =>
        intro k hl hg hs h
        obtain ⟨c, b⟩ := x
        simp only [fasciaBundles] at h
        split at h
        · cases h
        split at h
        · cases h
        split at h
        · cases h
        · cases h
        split at h
        · cases h
        · cases h
        rename_i s' _ e3
        have hb := hl (c, b) (by simp)
        have hs' := (step_consumeBundle hH k.stash hg b (hp.proper _ hb).1).1 _ _ e3
        exact ih _ (fun e he => hl e (by simp [he])) hs'.1 (keysAre_bundle hH hs hg (hp.proper _ hb).1 (hK _ _ _ (.fascia f r c b hb)) e3) h
    exact key f.bundles _ (fun e he => he) (s1 s _ h1).1 (keysAre_congr hs (s3 s _ h1)) h2
  | kit x =>
    obtain ⟨s, h1, rfl⟩ := h
    exact keysAre_congr hs (bundles_consumeKit h1)
  | secretSeal x =>
    simp only [StockEvent.Done, StockEvent.exec] at h
    obtain ⟨⟨s, o⟩, h1, rfl⟩ := Option.map_eq_some_iff.mp h
    simp only [addSecretSeal] at h1
    cases h1
    exact keysAre_congr hs rfl
  | trust i t =>
    simp only [StockEvent.Done, StockEvent.exec] at h
    obtain ⟨⟨s, o⟩, h1, rfl⟩ := Option.map_eq_some_iff.mp h
    simp only [setTrust] at h1
    cases h1
    exact keysAre_congr hs rfl
  | update r n =>
    simp only [StockEvent.Done, StockEvent.exec, Option.some.injEq] at h
    subst h
    exact hs

theorem anchors_event (hH : H.Binding) {e : StockEvent} (hp : e.Sound H) {k k' : Stock} (hk : Hist H k) (hs : AnchorsAre C k.stash)
    (h1 : ∀ con r, e = .consignment con r → ∀ wb ∈ con.data.bundles, ∀ x ∈ wb.anchored.list, ∀ p,
      M.block x.mpc (con.data.genesis.contractId H) (x.bundle.id H) = some p → ∀ c i, (c, i) ∈ p.2 → C wb.id x.dbc.method c i)
    (h2 : ∀ f r, e = .fascia f r → ∀ m c i, f.anchor.Commits m c i → C f.witness.id m c i)
    (h : e.Done H I M G k k') : AnchorsAre C k'.stash := by
  cases e with
  | consignment con r =>
    obtain ⟨con', hc, hbd⟩ := consignment_done h
    obtain ⟨p0, p1, p2, p3, p4⟩ := resolve_proper hH _ con con' r hp.proper hc
    refine anchorsAre_consignment hH p0.1 hk.good (fun wb' hw x' hx p hpr c i hi => ?_) hs (body_stash hbd)
    obtain ⟨wb, q1, q2, f, q3, q4⟩ := p3 wb' hw
    rw [q4] at hx
    obtain ⟨x, hx', rfl⟩ := List.mem_map.mp hx
    rw [p1] at hpr
    have := h1 con r rfl wb q1 x hx' p hpr c i hi
    rwa [show wb'.id = wb.id by simp only [WitnessBundle.id, q2]]
  | fascia f r =>
    obtain ⟨s, u, e1, e2⟩ := fascia_done h
    have hs' := anchorsAre_witness hs (h2 f r rfl) e1
    have key : ∀ (l : List (Nat × Bundle)) (k : Stock), AnchorsAre C k.stash →
        fasciaBundles H r f.witness.id l k = some (k', none) → AnchorsAre C k'.stash := by
      intro l
      induction l with
      | nil => intro k hs h; simp only [fasciaBundles] at h; cases h; exact hs
      | cons x l ih =>
        intro k hs h
        obtain ⟨c, b⟩ := x
        simp only [fasciaBundles] at h
        split at h
        · cases h
        split at h
        · cases h
        split at h
        · cases h
        · cases h
        split at h
        · cases h
        · cases h
        rename_i s' _ e3
        exact ih _ (anchorsAre_congr hs (witnesses_consumeBundle e3)) h
    exact key f.bundles _ hs' e2
  | kit x =>
    obtain ⟨s, h1, rfl⟩ := h
    exact anchorsAre_congr hs (witnesses_consumeKit h1)
  | secretSeal x =>
    simp only [StockEvent.Done, StockEvent.exec] at h
    obtain ⟨⟨s, o⟩, h1, rfl⟩ := Option.map_eq_some_iff.mp h
    simp only [addSecretSeal] at h1
    cases h1
    exact anchorsAre_congr hs rfl
  | trust i t =>
    simp only [StockEvent.Done, StockEvent.exec] at h
    obtain ⟨⟨s, o⟩, h1, rfl⟩ := Option.map_eq_some_iff.mp h
    simp only [setTrust] at h1
    cases h1
    exact anchorsAre_congr hs rfl
  | update r n =>
    simp only [StockEvent.Done, StockEvent.exec, Option.some.injEq] at h
    subst h
    exact hs

theorem told_event (hH : H.Binding) (hM : M.Lawful) (hG : ∀ d, OMap.Sorted (G d).maxItems) {e : StockEvent} (hp : e.Sound H) {k k' : Stock}
    (hk : Hist H k) (ht : Told H C k)
    (hsame : ∀ c b w c' b' w', e.Brings H c b w → e.Brings H c' b' w' → b.id H = b'.id H → ∀ o, OMap.contains b.known o = true → OMap.contains b'.known o = true)
    (hkn : ∀ c b w, e.Brings H c b w → MemStash.Knows k.stash (b.id H) (fun o => OMap.contains b.known o = true))
    (hC : ∀ c b w, e.Brings H c b w → C w b.closeMethod c (b.id H))
    (hx : ∀ con r, e = .consignment con r → ∀ x ∈ con.data.extensions, x.contract = con.data.genesis.contractId H)
    (h : e.Done H I M G k k') : Told H C k' := by
  have hext := event_ext hH hG e hp.proper hk (done_exec h)
  have told : ∀ {s : MemStash} {c : Nat} {b : Bundle} {w : WitnessId} {i : Nat} {t : Op}, BundleTold H C s c b w → (i, t) ∈ b.known → TrTold H C s c w t := by
    intro s c b w i t hb hi
    have hi := hb.wf.sorted.get?_of_mem hi
    exact ⟨b, hb, by rw [(hb.wf.keyed _ _ hi).1]; exact hi⟩
  cases e with
  | consignment con r =>
    obtain ⟨con', hc, hb⟩ := consignment_done h
    have hs := resolve_sound hH hp hc
    obtain ⟨h0, h1, h2, -, -⟩ := resolve_proper hH _ con con' r hp.proper hc
    obtain ⟨b1, b2⟩ := resolve_brings hH hp.proper hc
    have hh := has_body hH (I := I) hM hG hs.proper hk (hs.methods con' r rfl) hs.nonempty hb
    obtain ⟨o1, o2, -⟩ := consumeConsignment_ok hH I M _ _ _ hk.good con' h0.1 (body_stash hb)
    have hbt : ∀ c b' w, StockEvent.Brings H (.consignment con' r) c b' w → BundleTold H C k'.stash c b' w := by
      intro c b' w hb'
      obtain ⟨b, hbr, hr⟩ := b2 _ _ _ hb'
      refine ⟨?_, ?_, ?_, ?_⟩
      · cases hb' with | consignment _ _ wb _ hw hb => exact h0.1.bundles wb hw b' hb
      · refine hh.stash.shown b' ⟨c, w, hb', fun c₂ b₂' w₂ hb₂ hid₂ o ho => ?_, ?_⟩
        · obtain ⟨b₂, hb₂, hr₂⟩ := b2 _ _ _ hb₂
          rw [hr₂.contains]
          exact hsame _ _ _ _ _ _ hbr hb₂ (by rw [← hr₂.id, hid₂, hr.id]) o (by rw [← hr.contains]; exact ho)
        · simpa only [hr.id, hr.contains] using hkn _ _ _ hbr
      · exact hh.stash.wit _ _ _ _ ⟨b', hb', rfl, rfl⟩
      · rw [hr.method, hr.id]; exact hC _ _ _ hbr
    have hgt : GenTold H k'.stash (con'.data.genesis.contractId H) con'.data.genesis :=
      ⟨h0.1.genesis, o1⟩
    have het : ∀ x ∈ con'.data.extensions, ExtTold H k'.stash (con'.data.genesis.contractId H) x := by
      intro x hx'
      refine ⟨⟨h0.1.extensions x hx', ?_⟩, o2 x hx'⟩
      rw [h1]; exact hx con r rfl x (h2 ▸ hx')
    refine ht.step hext.stash ?_ ⟨[.consignment con'.data], ?_, ⟨?_, trivial⟩, ?_⟩
    · obtain ⟨es, e1, e2, e3⟩ := consignment_story (hG con'.schema) h0 (body_state hb)
      refine ⟨es, e1, e2, fun call hcall => ?_⟩
      rcases e3 call hcall with rfl | ⟨c, b, w, i, t, ord, j1, j2, rfl⟩ | ⟨x, hx', c, b, w, i, t, ord, j1, j2, rfl, j4, rfl⟩
      · exact hgt
      · exact told (hbt _ _ _ j1) j2
      · exact ⟨het x hx', t, told (hbt _ _ _ j1) j2, j4⟩
    · simp only [runIdx, IdxOp.exec, body_index hb]
    · simp only [IdxOp.exec, body_index hb]
    · intro op hop
      rw [List.mem_singleton] at hop
      subst hop
      refine ⟨fun c b w hb' => hbt _ _ _ (brings_consignment.mpr hb'), ?_, ?_⟩
      · intro d hd; cases hd; exact hgt
      · intro d hd; cases hd; exact het
  | fascia f r =>
    have hh := has_event hH (I := I) hM hG hp hk h
    obtain ⟨s, u, h1, h2⟩ := fascia_done h
    have hbt : ∀ c b w, StockEvent.Brings H (.fascia f r) c b w → BundleTold H C k'.stash c b w := by
      intro c b w hb
      refine ⟨?_, ?_, ?_, hC _ _ _ hb⟩
      · cases hb with | fascia _ _ _ _ hb => exact (hp.proper _ hb).1
      · exact hh.stash.shown b ⟨c, w, hb, fun c' b' w' hb' hid => hsame _ _ _ _ _ _ hb hb' hid.symm, hkn _ _ _ hb⟩
      · exact hh.stash.wit _ _ _ _ ⟨b, hb, rfl, rfl⟩
    obtain ⟨⟨es, e1, e2, e3⟩, e4, e5⟩ := fascia_story f.bundles (fun e he => (hp.proper e he).2) h2
    refine ht.step hext.stash ⟨es, e1, e2, fun call hcall => ?_⟩ ⟨_, e4, e5, fun op hop => ?_⟩
    · obtain ⟨⟨c, b⟩, j1, i, t, ord, j2, rfl⟩ := e3 call hcall
      exact told (hbt _ _ _ (.fascia f r c b j1)) j2
    · obtain ⟨⟨c, b⟩, j1, rfl⟩ := List.mem_map.mp hop
      refine ⟨fun c' b' w' hb' => ?_, fun d hd => (by cases hd), fun d hd => (by cases hd)⟩
      cases hb'
      exact hbt _ _ _ (.fascia f r c b j1)
  | kit x =>
    obtain ⟨s, h1, rfl⟩ := h
    exact ht.step hext.stash ⟨[], by simp [EventsProper], rfl, by simp⟩ ⟨[], rfl, trivial, by simp⟩
  | secretSeal x =>
    simp only [StockEvent.Done, StockEvent.exec] at h
    obtain ⟨⟨s, o⟩, h1, rfl⟩ := Option.map_eq_some_iff.mp h
    exact ht.step hext.stash ⟨[], by simp [EventsProper], rfl, by simp⟩ ⟨[], rfl, trivial, by simp⟩
  | trust i t =>
    simp only [StockEvent.Done, StockEvent.exec] at h
    obtain ⟨⟨s, o⟩, h1, rfl⟩ := Option.map_eq_some_iff.mp h
    exact ht.step hext.stash ⟨[], by simp [EventsProper], rfl, by simp⟩ ⟨[], rfl, trivial, by simp⟩
  | update r n =>
    simp only [StockEvent.Done, StockEvent.exec, Option.some.injEq] at h
    subst h
    exact ht.step hext.stash ⟨[.update r n], by simp [EventsProper], rfl, by simp⟩ ⟨[], rfl, trivial, by simp⟩

theorem told_history (hH : H.Binding) (hM : M.Lawful) (hG : ∀ d, OMap.Sorted (G d).maxItems) {es : List StockEvent} (hw : Whole H es)
    (hC : Commitments H M C es) {k : Stock} (h : AllDone H I M G es .empty k) : Told H C k ∧ AnchorsAre C k.stash ∧ Hist H k := by
  let K : Nat → (Nat → Bool) → Prop := fun i f => ∀ e ∈ es, ∀ c b w, StockEvent.Brings H e c b w → b.id H = i → ∀ o, OMap.contains b.known o = true → f o = true
  have key : ∀ (l : List StockEvent) (k₀ : Stock), (∀ e ∈ l, e ∈ es) → Hist H k₀ → Told H C k₀ → AnchorsAre C k₀.stash → KeysAre K k₀.stash →
      AllDone H I M G l k₀ k → Told H C k ∧ AnchorsAre C k.stash ∧ Hist H k := by
    intro l
    induction l with
    | nil => intro k₀ _ h1 h2 h3 _ h; cases h; exact ⟨h2, h3, h1⟩
    | cons e l ih =>
      intro k₀ hl h1 h2 h3 h4 h
      obtain ⟨k₁, h5, h6⟩ := h
      have he := hl e (by simp)
      have p := hw.sound e he
      refine ih k₁ (fun e he => hl e (by simp [he])) (event_hist hH hG e p.proper h1 (done_exec h5)) ?_ ?_ ?_ h6
      · refine told_event hH hM hG p h1 h2 (fun c b w c' b' w' => hw.same e he e he c b w c' b' w') ?_ (hC.bundles e he) ?_ h5
        · intro c b w hb g hg o ho
          exact h4 _ _ hg e he c b w hb rfl o ho
        · intro con r hcon; subst hcon; exact hC.extensions con r he
      · refine anchors_event hH p h1 h3 ?_ ?_ h5
        · intro con r hcon; subst hcon; exact hC.proofs con r he
        · intro f r hf; subst hf; exact hC.anchors f r he
      · refine keys_event hH p h1 h4 (fun c b w hb e' he' c' b' w' hb' hid o ho => ?_) h5
        exact hw.same e' he' e he _ _ _ _ _ _ hb' hb hid o ho
  refine key es .empty (fun e he => he) (Stock.Reachable.hist hH ⟨I, M, G, [], hG, by simp, rfl⟩) .empty ?_ ?_ h
  · intro w sw hsw; cases hsw
  · intro i g hg; cases hg

/-! ## What the stash tells -/

theorem knows_commits {a : AnchorSet} {m : CloseMethod} {c : Nat} (h : a.knows m c) : ∃ i, a.Commits m c i := by
  have key : ∀ {x : OMap Nat Nat}, c ∈ OMap.keys x → ∃ i, (c, i) ∈ x := by
    intro x hx
    obtain ⟨⟨c', i⟩, h1, rfl⟩ := List.mem_map.mp hx
    exact ⟨i, h1⟩
  cases m <;> cases a <;> first | exact key h | exact h.elim

theorem TrTold.tells (hH : H.Binding) (hone : ∀ w m c i j, C w m c i → C w m c j → i = j) {s : MemStash} (hs : AnchorsAre C s) {c : Nat} {w : WitnessId} {t : Op}
    (h : TrTold H C s c w t) : ∃ t', s.Tells H c (some w) t' ∧ t.ShownBy H t' := by
  obtain ⟨b, ⟨wf, ⟨g, h1, h2⟩, ⟨sw, h3, h4⟩, h5⟩, h6⟩ := h
  obtain ⟨t', h7, h8⟩ := h2.known _ _ h6
  have hm : g.closeMethod = b.closeMethod := (hH.bundle_inj _ _ _ _ h2.id).1
  obtain ⟨i, hi⟩ := knows_commits h4
  have := hone _ _ _ _ _ (hs w sw h3 _ _ _ hi) h5
  subst this
  exact ⟨t', .transition _ g t' w sw h1 (by rw [h8.id]; exact h7) h3 (by rw [hm]; exact hi), h8⟩

theorem GenTold.tells {s : MemStash} {c : Nat} {g : Op} (h : GenTold H s c g) : ∃ g', s.Tells H c none g' ∧ g.ShownBy H g' := by
  obtain ⟨-, g', h1, h2⟩ := h
  exact ⟨g', .genesis g' h1, h2⟩

theorem shown_fields (hH : H.Binding) {a b : Op} (h : a.ShownBy H b) : b.contract = a.contract ∧ b.inputs = a.inputs ∧ b.globals = a.globals := by
  have h := id_conceal hH h.id
  have h1 := congrArg Op.contract h
  have h2 := congrArg Op.inputs h
  have h3 := congrArg Op.globals h
  exact ⟨h1, h2, h3⟩

theorem ExtTold.tells (hH : H.Binding) {s : MemStash} {c : Nat} {e : Op} (h : ExtTold H s c e) : ∃ e', s.Tells H c none e' ∧ e.ShownBy H e' := by
  obtain ⟨⟨-, rfl⟩, e', h1, h2⟩ := h
  exact ⟨e', .extension e' (by rw [h2.id]; exact h1) (shown_fields hH h2).1, h2⟩

theorem CallTold.tells (hH : H.Binding) (hone : ∀ w m c i j, C w m c i → C w m c j → i = j) {s : MemStash} (hs : AnchorsAre C s) {call : StCall}
    (h : CallTold H C s call) : ∃ op, s.Tells H (call.contract H) call.witness? op ∧ call.op.ShownBy H op := by
  cases call with
  | register sch g => exact GenTold.tells h
  | transition c t w ord => exact TrTold.tells hH hone hs h
  | extension c e w ord =>
    obtain ⟨⟨⟨-, rfl⟩, e', h1, h2⟩, t, h3, i, h4, h5⟩ := h
    obtain ⟨t', h6, h7⟩ := TrTold.tells hH hone hs h3
    exact ⟨e', .redeemed e' t' w (by rw [h2.id]; exact h1) (shown_fields hH h2).1 h6 ⟨i, by rw [(shown_fields hH h7).2.1]; exact h4, h5.trans h2.id.symm⟩, h2⟩

theorem shown_at {a b : Op} (h : a.ShownBy H b) {ty i : Nat} {sl : Seal} {x : RState} (ha : a.at? ty i = some (.revealed sl x)) :
    b.at? ty i = some (.revealed sl x) := by
  have h1 := h.seals ty i sl (by simp [Op.sealAt?, ha, Assign.seal?])
  have h2 := h.states ty i x (by simp [Op.stateAt?, ha, Assign.state?])
  simp only [Op.sealAt?, Op.stateAt?] at h1 h2
  cases hb : b.at? ty i with
  | none => simp [hb] at h1
  | some y =>
    simp only [hb, Option.bind_some] at h1 h2
    cases y <;> simp [Assign.seal?, Assign.state?] at h1 h2
    rw [h1, h2]

theorem shown_kind (hH : H.Binding) {a b : Op} (h : a.ShownBy H b) {ty : Nat} {ta tb : TypedAssigns} (h1 : OMap.get? a.assigns ty = some ta)
    (h2 : OMap.get? b.assigns ty = some tb) : tb.kind = ta.kind := by
  have hc : Assignments.conceal H b.assigns = Assignments.conceal H a.assigns := congrArg Op.assigns (id_conceal hH h.id)
  have := congrArg (fun m => OMap.get? m ty) hc
  simp only [Assignments.conceal, OMap.get?_mapVals, h1, h2, Option.map_some, Option.some.injEq] at this
  have h3 := congrArg TypedAssigns.kind this
  exact h3

theorem Makes.shown (hH : H.Binding) {a b : Op} (h : a.ShownBy H b) {w : Option WitnessId} {kd : StateKind} {x : OutAssign} (hm : a.Makes H w kd x) :
    b.Makes H w kd x := by
  obtain ⟨h1, h2, t, sl, h3, h4, h5, h6⟩ := hm
  have := shown_at h (ty := x.opout.ty) (i := x.opout.no) (sl := sl) (x := x.state) (by simp [Op.at?, h3, h5])
  simp only [Op.at?] at this
  obtain ⟨t', h7, h8⟩ := Option.bind_eq_some_iff.mp this
  exact ⟨h1.trans h.id.symm, h2, t', sl, h7, (shown_kind hH h h3 h7).trans h4, h8, h6⟩

theorem assignsOut_shown {a b : Op} (ha : a.WF) (h : a.ShownBy H b) {w : Option WitnessId} {s : OutSeal} {o : Opout} (hm : a.AssignsOut (a.id H) w s o) :
    b.AssignsOut (b.id H) w s o := by
  obtain ⟨ty, t, i, x, sl, h1, h2, h3, h4, h5⟩ := hm
  have := h.seals ty i sl (by simp [Op.sealAt?, Op.at?, OMap.Sorted.get?_of_mem ha h1, h2, h3])
  simp only [Op.sealAt?, Op.at?] at this
  obtain ⟨y, h6, h7⟩ := Option.bind_eq_some_iff.mp this
  obtain ⟨t', h8, h9⟩ := Option.bind_eq_some_iff.mp h6
  exact ⟨ty, t', i, y, sl, OMap.mem_of_get? h8, h9, h7, h4, by rw [h5, h.id]⟩

theorem secret_shown (hH : H.Binding) {a b : Op} (ha : a.WF) (h : a.ShownBy H b) {secret : Nat} {o : Opout} (hm : a.AssignsSecret (a.id H) secret o) :
    b.HasSecret H secret o := by
  obtain ⟨ty, t, i, x, h1, h2, h3, rfl⟩ := hm
  have hx : (a.at? ty i) = some x := by simp [Op.at?, OMap.Sorted.get?_of_mem ha h1, h2]
  have hc := Op.at_conceal hH h.id ty i
  rw [hx] at hc
  obtain ⟨y, h4, h5⟩ := Option.map_eq_some_iff.mp hc
  simp only [Op.at?] at h4
  obtain ⟨t', h6, h7⟩ := Option.bind_eq_some_iff.mp h4
  refine ⟨h.id.symm, t', y, h6, h7, ?_⟩
  rcases h3 with ⟨st, rfl⟩ | ⟨st, rfl⟩ <;> cases y <;> simp_all [Assign.conceal, Assign.secret]

/-- Every stored bundle came with some event, with all the transitions which are stored. -/
theorem brought (hH : H.Binding) (hG : ∀ d, OMap.Sorted (G d).maxItems) {es : List StockEvent} (hw : ∀ e ∈ es, e.Sound H) {k : Stock}
    (h : AllDone H I M G es .empty k) (i : Nat) (b : Bundle) (hb : k.stash.bundle i = some b) : ∃ e ∈ es, ∃ c b' w, StockEvent.Brings H e c b' w ∧ b'.id H = i ∧
      ∀ o, OMap.contains b.known o = true → OMap.contains b'.known o = true := by
  let K : Nat → (Nat → Bool) → Prop := fun i f => ∃ e ∈ es, ∃ c b' w, StockEvent.Brings H e c b' w ∧ b'.id H = i ∧
    ∀ o, f o = true → OMap.contains b'.known o = true
  have key : ∀ (l : List StockEvent) (k₀ : Stock), (∀ e ∈ l, e ∈ es) → Hist H k₀ → KeysAre K k₀.stash →
      AllDone H I M G l k₀ k → KeysAre K k.stash := by
    intro l
    induction l with
    | nil => intro k₀ _ h1 h2 h; cases h; exact h2
    | cons e l ih =>
      intro k₀ hl h1 h4 h
      obtain ⟨k₁, h5, h6⟩ := h
      have he := hl e (by simp)
      have p := hw e he
      exact ih k₁ (fun e he => hl e (by simp [he])) (event_hist hH hG e p.proper h1 (done_exec h5))
        (keys_event hH p h1 h4 (fun c b w hb => ⟨e, he, c, b, w, hb, rfl, fun o ho => ho⟩) h5) h6
  exact key es .empty (fun e he => he) (Stock.Reachable.hist hH ⟨I, M, G, [], hG, by simp, rfl⟩) (by intro i g hg; cases hg) h i b hb

theorem runIdx_op (ops : List IdxOp) {x : Index} {o i : Nat} (h : OMap.get? (runIdx H x ops).opBundle o = some i) (hx : OMap.get? x.opBundle o = none := by rfl) :
    ∃ op ∈ ops, ∃ c b w, op.HasBundle H c b w ∧ b.id H = i ∧ OMap.contains b.known o = true := by
  have key : ∀ (ops : List IdxOp) (x : Index), OMap.get? (runIdx H x ops).opBundle o = some i → OMap.get? x.opBundle o = some i ∨
      ∃ op ∈ ops, ∃ c b w, op.HasBundle H c b w ∧ b.id H = i ∧ OMap.contains b.known o = true := by
    intro ops
    induction ops with
    | nil => intro x h; exact .inl h
    | cons op ops ih =>
      intro x h
      rcases ih _ h with h | ⟨op', h1, h2⟩
      · rcases (op_effect H x op).opSound _ _ h with h | h
        · exact .inl h
        · obtain ⟨c, b, w, h1, rfl, h2⟩ := anyOp_iff.mp h
          exact .inr ⟨op, by simp, c, b, w, h1, rfl, OMap.mem_keys_iff.mp h2⟩
      · exact .inr ⟨op', by simp [h1], h2⟩
  rcases key ops x h with h | h
  · rw [hx] at h; cases h
  · exact h

theorem runIdx_contract (ops : List IdxOp) {x : Index} {i c : Nat} (h : OMap.get? (runIdx H x ops).bundleContract i = some c)
    (hx : OMap.get? x.bundleContract i = none := by rfl) : ∃ op ∈ ops, ∃ b w, op.HasBundle H c b w ∧ b.id H = i := by
  have key : ∀ (ops : List IdxOp) (x : Index), OMap.get? (runIdx H x ops).bundleContract i = some c → OMap.get? x.bundleContract i = some c ∨
      ∃ op ∈ ops, ∃ b w, op.HasBundle H c b w ∧ b.id H = i := by
    intro ops
    induction ops with
    | nil => intro x h; exact .inl h
    | cons op ops ih =>
      intro x h
      rcases ih _ h with h | ⟨op', h1, h2⟩
      · rcases (op_effect H x op).bcSound _ _ h with h | ⟨w, h⟩
        · exact .inl h
        · obtain ⟨b, h1, rfl⟩ := anyBundle_iff.mp h
          exact .inr ⟨op, by simp, b, w, h1, rfl⟩
      · exact .inr ⟨op', by simp [h1], h2⟩
  rcases key ops x h with h | h
  · rw [hx] at h; cases h
  · exact h

theorem bundleInfo_contract {x : Index} {i c : Nat} {ws : OSet WitnessId} (h : x.bundleInfo i = .ok (ws, c)) : OMap.get? x.bundleContract i = some c := by
  simp only [bundleInfo] at h
  split at h
  · cases h
  split at h
  · cases h
  · rename_i h1; cases h; exact h1

end Rgb
