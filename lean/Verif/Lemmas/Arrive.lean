import Verif.Lemmas.Pass
import Verif.Lemmas.ReceiveReveal
import Verif.Lemmas.UsableStock

/-!
State assigned to a secret seal gets to the stock which has the seal.
-/

namespace Rgb

open MemStash Stock Props

variable {H : Commit} {I : Ids} {M : Mpc} {G : SchemaDoc → SchemaGlobals} {E : Env} {r : Resolver} {con con' : Consignment} {k k' : Stock}

/-- A terminal of the stock is revealed. -/
theorem resolve_terminal (hH : H.Binding) {s : MemStash} (hp : StockEvent.Proper H (.consignment con r)) (h : s.resolveSecrets H con = .ok con')
    {x : Seal} (hx : x ∈ s.secretSeals) {wb : WitnessBundle} (hwb : wb ∈ con.data.bundles) {b : Bundle} (hb : b ∈ wb.anchored.bundles)
    (ht : (b.id H, H.sealHash x) ∈ con.terminals) {o : Nat} {t : Op} (ho : OMap.get? b.known o = some t) {kind : StateKind} {ty no : Nat} {v : RState}
    (hpay : t.Pays H kind ty no (H.sealHash x) v) {sl : OutSeal} (hsl : x.toOutputWith wb.id = some sl) :
    ∃ b' t', StockEvent.Brings H (.consignment con' r) (con.data.genesis.contractId H) b' wb.id ∧ OMap.get? b'.known o = some t' ∧
      t'.Makes H (some wb.id) kind ⟨⟨o, ty, no⟩, sl, v, some wb.id⟩ := by
  have hf : ∀ sec y, Except.ok (ε := StashErr) (s.sealSecret H sec) = .ok (some y) → H.sealHash y = sec := by
    intro sec y hy
    simp only [Except.ok.injEq] at hy
    simpa using List.find?_some hy
  have hfx : s.sealSecret H (H.sealHash x) = some x := by
    cases hq : s.sealSecret H (H.sealHash x) with
    | none =>
      simp only [sealSecret, List.find?_eq_none] at hq
      exact absurd (hq x hx) (by simp)
    | some y => exact congrArg some (hH.seal_inj _ _ (hf _ _ (congrArg Except.ok hq)))
  have key : ∀ (l ws : List WitnessBundle), (∀ w ∈ l, w.WF) →
      revealTerminalSeals H (fun sec => Except.ok (ε := StashErr) (s.sealSecret H sec)) con.terminals l = .ok ws →
      ∀ w ∈ l, ∃ w' ∈ ws, w'.pub = w.pub ∧ w'.anchored.list = w.anchored.list.map (fun c => c.revealWith
          (termSeal (fun sec => Except.ok (ε := StashErr) (s.sealSecret H sec)) con.terminals (c.bundle.id H))) := by
    intro l
    induction l with
    | nil => intro ws _ h; simp
    | cons w l ih =>
      intro ws hw h
      simp only [revealTerminalSeals] at h
      split at h
      · cases h
      · rename_i w1 e1
        split at h
        · cases h
        · rename_i ws1 e2
          cases h
          have r2 := ih ws1 (fun x hx => hw x (by simp [hx])) e2
          obtain ⟨s1, -, s3⟩ := WitnessBundle.revealTerminals_spec hH _ hf con.terminals w w1 (hw w (by simp)) e1
          intro x hx
          rcases List.mem_cons.mp hx with rfl | hx
          · exact ⟨w1, by simp, s1, s3⟩
          · obtain ⟨y, y1, y2⟩ := r2 x hx
            exact ⟨y, by simp [y1], y2⟩
  simp only [resolveSecrets] at h
  split at h
  · cases h
  rename_i ws hws
  cases h
  obtain ⟨wb', hwb', hpub, hlist⟩ := key _ _ hp.2.1 hws wb hwb
  obtain ⟨cb, hcb, rfl⟩ := List.mem_map.mp hb
  have hg := right_termSeal (H := H) (fun sec => Except.ok (ε := StashErr) (s.sealSecret H sec)) hf con.terminals (cb.bundle.id H)
  have hgx : termSeal (fun sec => Except.ok (ε := StashErr) (s.sealSecret H sec)) con.terminals (cb.bundle.id H) (H.sealHash x) = some x := by
    simp [termSeal, ht, resolved, hfx]
  generalize hgd : termSeal (fun sec => Except.ok (ε := StashErr) (s.sealSecret H sec)) con.terminals (cb.bundle.id H) = g at hg hgx
  have hid : wb'.id = wb.id := by simp only [WitnessBundle.id, hpub]
  obtain ⟨ta, a, h1, rfl, h3, h4, h5⟩ := hpay
  have hto : t.id H = o := ((hp.1.4 wb hwb _ (List.mem_map.mpr ⟨cb, hcb, rfl⟩)).keyed _ _ ho).1
  refine ⟨(cb.revealWith g).bundle, t.revealWith g, ?_, ?_, ?_, rfl, ta.revealWith g, x, ?_, rfl, ?_, hsl⟩
  · rw [← hid]
    refine .consignment _ r wb' _ hwb' ?_
    simp only [AnchoredBundles.bundles, hlist, List.map_map, List.mem_map]
    exact ⟨cb, hcb, by simp [hgd]⟩
  · simp [ClientBundle.revealWith, OMap.get?_mapVals, ho]
  · exact hto.symm.trans (Op.revealWith_id hg t).symm
  · simp [Op.revealWith, OMap.get?_mapVals, h1]
  · simp only [TypedAssigns.revealWith, List.getElem?_map, h3, Option.map_some, Option.some.injEq]
    cases a with
    | confidential n m => simp [Assign.state?] at h5
    | confidentialState n m => simp [Assign.state?] at h5
    | confidentialSeal n m =>
      simp only [Assign.state?, Option.some.injEq] at h5
      simp only [Assign.secret] at h4
      subst h4 h5
      simp [Assign.revealWith, hgx]
    | revealed y m =>
      simp only [Assign.state?, Option.some.injEq] at h5
      simp only [Assign.secret] at h4
      subst h5
      simp [Assign.revealWith, hH.seal_inj _ _ h4]

theorem body_state (h : consumeBody H I M G r con k = some (k', none)) : k.state.updateFromConsignment H (G con.schema) con.data r = some (k'.state, none) := by
  simp only [consumeBody] at h
  split at h
  · cases h
  · cases h
  rename_i t ht
  split at h
  · cases h
  split at h
  · cases h
  · cases h
  · cases h; exact ht

/-- Where an entry comes from. -/
theorem execAll_from {s s' : MemState} {calls : List StCall} (hp : ∀ c ∈ calls, c.Proper) (h : StCall.execAll H s calls = some (s', none))
    {c : Nat} {kind : StateKind} {key : OutKey} {x : OutAssign} (hx : entry s' c kind key = some x) :
    entry s c kind key = some x ∨ ∃ call ∈ calls, call.contract H = c ∧ call.assigned H kind key = some x := by
  induction calls generalizing s with
  | nil =>
    simp only [StCall.execAll, Option.some.injEq, Prod.mk.injEq] at h
    obtain ⟨rfl, -⟩ := h
    exact .inl hx
  | cons call calls ih =>
    simp only [StCall.execAll] at h
    split at h
    · cases h
    · simp at h
    · rename_i s₁ he
      rcases ih (fun c hc => hp c (by simp [hc])) h with h1 | ⟨c', h1, h2⟩
      swap; · exact .inr ⟨c', by simp [h1], h2⟩
      rcases exec_spec (hp call (by simp)) he with ⟨-, sp⟩ | ⟨hne, -⟩
      swap; · exact absurd rfl hne
      rw [sp.entry] at h1
      cases e : entry s c kind key with
      | some y => rw [e] at h1; exact .inl h1
      | none =>
        rw [e] at h1
        simp only [Option.none_or] at h1
        split at h1
        · rename_i hc
          exact .inr ⟨call, by simp, hc.symm, h1⟩
        · cases h1

/-- What a transition of the consignment, as it's with secrets resolved, makes is in the state, as it is or as it was before. -/
theorem made_entry (hH : H.Binding) (hG : ∀ d, OMap.Sorted (G d).maxItems) (hk : Hist H k) (hp : StockEvent.Proper H (.consignment con r))
    (h : consumeBody H I M G r con k = some (k', none)) (hk' : Hist H k') {c : Nat} {b : Bundle} {w : WitnessId} {o : Nat} {t : Op} {kind : StateKind} {a : OutAssign}
    (hb : StockEvent.Brings H (.consignment con r) c b w) (ho : OMap.get? b.known o = some t) (hm : t.Makes H (some w) kind a) :
    ∃ y, entry k'.state c kind ⟨a.opout, a.sl⟩ = some y ∧ y.opout = a.opout ∧ y.sl = a.sl ∧ y.state = a.state := by
  obtain ⟨calls, c1, c2, -, c4, -⟩ := updateFromConsignment_done (hG _) hp (body_state h)
  obtain ⟨ord, -, hcall⟩ := c4 _ _ _ _ _ hb ho
  obtain ⟨-, -, -, -, a5, -⟩ := execAll_witnesses c1 c2
  obtain ⟨y, hy⟩ := a5 _ hcall kind ⟨a.opout, a.sl⟩ a ((assignedAt_iff H _ _ _ _ _).mpr ⟨hm, rfl⟩)
  refine ⟨y, hy, ?_⟩
  obtain ⟨es, h3, h4⟩ := hk'.state
  have h5 := runSt_entry h3 h4 c kind ⟨a.opout, a.sl⟩
  have hy' : entry k'.state c kind ⟨a.opout, a.sl⟩ = some y := hy
  rw [hy'] at h5
  simp only [entry, OMap.get?, Option.bind_none, Option.none_or] at h5
  obtain ⟨call, -, h6⟩ := List.exists_of_findSome?_eq_some h5.symm
  split at h6
  swap; · cases h6
  obtain ⟨m, hm'⟩ := (assignedAt_iff H _ _ _ _ _).mp h6
  have e1 : y.opout = a.opout := (congrArg OutKey.opout hm').symm
  exact ⟨e1, (congrArg OutKey.sl hm').symm, makes_agree_state hH m hm e1⟩

/-- Assignments are stored under their own keys. -/
theorem entry_key (hk : Hist H k) {c : Nat} {kind : StateKind} {key : OutKey} {y : OutAssign} (hy : entry k.state c kind key = some y) :
    key = ⟨y.opout, y.sl⟩ := by
  obtain ⟨es, h3, h4⟩ := hk.state
  have h5 := runSt_entry h3 h4 c kind key
  rw [hy] at h5
  simp only [entry, OMap.get?, Option.bind_none, Option.none_or] at h5
  obtain ⟨call, -, h6⟩ := List.exists_of_findSome?_eq_some h5.symm
  split at h6
  swap; · cases h6
  exact ((assignedAt_iff H _ _ _ _ _).mp h6).2

/-- What isn't seen isn't stored. -/
theorem unseen_entry (hk : Hist H k) {c : Nat} {kind : StateKind} {o : Opout} (h : k.Unseen c kind o) (sl : OutSeal) : entry k.state c kind ⟨o, sl⟩ = none := by
  cases hy : entry k.state c kind ⟨o, sl⟩ with
  | none => rfl
  | some y =>
    have h1 := entry_key hk hy
    obtain ⟨cs, h7, h8⟩ := Option.bind_eq_some_iff.mp hy
    exact absurd (congrArg OutKey.opout h1).symm (h _ (by simp only [MemState.contractState, h7]; rfl) y (List.mem_map.mpr ⟨_, OMap.mem_of_get? h8, rfl⟩))

/-- The calls which a consumed consignment makes on the state. -/
theorem consignment_transitions {G : SchemaGlobals} (hG : OMap.Sorted G.maxItems) (hp : StockEvent.Proper H (.consignment con r)) {s t : MemState}
    (h : s.updateFromConsignment H G con.data r = some (t, none)) :
    ∃ calls, (∀ c ∈ calls, StCall.Proper c) ∧ StCall.execAll H s calls = some (t, none) ∧
      (∀ c x w ord, StCall.transition c x w ord ∈ calls → r w = some ord ∧ ∃ wb ∈ con.data.bundles, ∃ b ∈ wb.anchored.bundles, x ∈ OMap.vals b.known ∧ w = wb.id) := by
  obtain ⟨h1, h2⟩ := C28_consignment_calls H G con.data r
  by_cases hr : ∀ t w, (∃ wb ∈ con.data.bundles, ∃ b ∈ wb.anchored.bundles, ∃ k, (k, t) ∈ b.known ∧ w = wb.id) → (r w).isSome = true
  · obtain ⟨calls, c1, c2, c3, c4, c5, c6⟩ := h1 hr
    rw [c1] at h
    obtain ⟨⟨p1, p2, p3, p4⟩, q1, q2, q3, q4⟩ := hp
    refine ⟨calls, fun c hc => ?_, h, fun c x w ord hc => ?_⟩
    · cases c with
      | register sch g => obtain ⟨rfl, rfl⟩ := c3 _ _ hc; exact ⟨hG, q2, p1⟩
      | transition d t w ord =>
        obtain ⟨-, ⟨wb, h5, b, h6, i, h7, -⟩, -⟩ := (c4 _ _ _ _).mp hc
        exact q4 wb h5 b h6 t (List.mem_map.mpr ⟨_, h7, rfl⟩)
      | extension d t w ord => exact q3 t ((c5 t).mp ⟨_, _, _, hc⟩).1
    · obtain ⟨-, ⟨wb, h5, b, h6, i, h7, h8⟩, h9⟩ := (c4 _ _ _ _).mp hc
      exact ⟨h9, wb, h5, b, h6, List.mem_map.mpr ⟨_, h7, rfl⟩, h8⟩
  · exact absurd h (h2 (by
      simp only [Classical.not_forall] at hr
      obtain ⟨t, w, hc, hn⟩ := hr
      exact ⟨t, w, hc, by simpa using hn⟩) s t)

/-- If nothing was known of the assignment and the transition comes only with one witness, the assignment is with this witness. -/
theorem made_new (hH : H.Binding) (hG : ∀ d, OMap.Sorted (G d).maxItems) (hk : Hist H k) (hp : StockEvent.Proper H (.consignment con r))
    (h : consumeBody H I M G r con k = some (k', none)) (hk' : Hist H k') {c : Nat} {b : Bundle} {w : WitnessId} {o : Nat} {t : Op} {kind : StateKind} {a : OutAssign}
    (hb : StockEvent.Brings H (.consignment con r) c b w) (ho : OMap.get? b.known o = some t) (hm : t.Makes H (some w) kind a)
    (hnew : entry k.state c kind ⟨a.opout, a.sl⟩ = none)
    (hone : ∀ wb ∈ con.data.bundles, ∀ b ∈ wb.anchored.bundles, OMap.contains b.known o = true → wb.id = w) :
    entry k'.state c kind ⟨a.opout, a.sl⟩ = some a := by
  obtain ⟨y, hy, e1, e2, e3⟩ := made_entry hH hG hk hp h hk' hb ho hm
  rw [hy]
  obtain ⟨calls, c1, c2, c3⟩ := consignment_transitions (hG _) hp (body_state h)
  rcases execAll_from c1 c2 hy with h1 | ⟨call, h1, h2, h3⟩
  · rw [hnew] at h1
    cases h1
  obtain ⟨m, -⟩ := (assignedAt_iff H _ _ _ _ _).mp h3
  obtain ⟨wf, kt⟩ : b.WF H ∧ t.kind = .transition := by
    cases hb with
    | consignment _ _ wb _ hw hb =>
      exact ⟨hp.1.4 wb hw b hb, (hp.2.2.2.2 wb hw b hb t (List.mem_map.mpr ⟨_, OMap.mem_of_get? ho, rfl⟩)).2⟩
  have hto := (wf.keyed _ _ ho).1
  have hid : call.op.id H = t.id H := by rw [← m.1, e1, hm.1]
  have hkind : call.op.kind = .transition := by
    have := congrArg Op.kind (id_conceal hH hid)
    simpa only [Op.conceal, kt] using this
  have hw : call.witness? = some w := by
    cases call with
    | register sch g => have := (c1 _ h1).2.2; simp only [StCall.op] at hkind; rw [hkind] at this; cases this
    | extension d t w ord => have := (c1 _ h1).2; simp only [StCall.op] at hkind; rw [hkind] at this; cases this
    | transition d x w' ord =>
      obtain ⟨-, wb, g1, b', g2, g3, rfl⟩ := c3 _ _ _ _ h1
      obtain ⟨⟨j, _⟩, g4, rfl⟩ := List.mem_map.mp g3
      have g5 := (hp.1.4 wb g1 b' g2).sorted.get?_of_mem g4
      have g6 := ((hp.1.4 wb g1 b' g2).keyed _ _ g5).1
      simp only [StCall.op] at hid
      have : j = o := by rw [← g6, hid, hto]
      subst this
      exact congrArg some (hone wb g1 b' g2 (OMap.contains_iff.mpr ⟨_, g5⟩))
  have e4 : y.witness = a.witness := by rw [m.2.1, hw, hm.2.1]
  cases y; cases a
  simp_all

/-- Where an element is found among lists whose elements are all different. -/
theorem same_of_flatMap {α β γ : Type} {g : α → List β} {f : β → γ} {l : List α} (h : (l.flatMap g).Pairwise (fun b b' => f b ≠ f b')) {a a' : α} (ha : a ∈ l) (ha' : a' ∈ l)
    {b b' : β} (hb : b ∈ g a) (hb' : b' ∈ g a') (e : f b = f b') : a = a' := by
  induction l with
  | nil => cases ha
  | cons x l ih =>
    rw [List.flatMap_cons, List.pairwise_append] at h
    obtain ⟨-, h1, h2⟩ := h
    rcases List.mem_cons.mp ha with q | q <;> rcases List.mem_cons.mp ha' with q' | q'
    · rw [q, q']
    · subst q
      exact absurd e (h2 _ hb _ (List.mem_flatMap.mpr ⟨_, q', hb'⟩))
    · subst q'
      exact absurd e.symm (h2 _ hb' _ (List.mem_flatMap.mpr ⟨_, q, hb⟩))
    · exact ih h1 q q'

/-- What the genesis makes is in the state, without a witness. -/
theorem made_genesis (hH : H.Binding) (hG : ∀ d, OMap.Sorted (G d).maxItems) (hp : StockEvent.Proper H (.consignment con r))
    (h : consumeBody H I M G r con k = some (k', none)) (hk' : Hist H k') {kind : StateKind} {a : OutAssign} (hm : con.data.genesis.Makes H none kind a) :
    entry k'.state (con.data.genesis.contractId H) kind ⟨a.opout, a.sl⟩ = some a := by
  obtain ⟨calls, c1, c2, c3, -⟩ := updateFromConsignment_done (hG _) hp (body_state h)
  obtain ⟨-, -, -, -, a5, -⟩ := execAll_witnesses c1 c2
  obtain ⟨y, hy⟩ := a5 _ c3 kind ⟨a.opout, a.sl⟩ a ((assignedAt_iff H _ _ _ _ _).mpr ⟨hm, rfl⟩)
  have hy' : entry k'.state (con.data.genesis.contractId H) kind ⟨a.opout, a.sl⟩ = some y := hy
  rw [hy']
  obtain ⟨es, h3, h4⟩ := hk'.state
  have h5 := runSt_entry h3 h4 (con.data.genesis.contractId H) kind ⟨a.opout, a.sl⟩
  rw [hy'] at h5
  simp only [entry, OMap.get?, Option.bind_none, Option.none_or] at h5
  obtain ⟨call, hc, h6⟩ := List.exists_of_findSome?_eq_some h5.symm
  split at h6
  swap; · cases h6
  obtain ⟨m, hm'⟩ := (assignedAt_iff H _ _ _ _ _).mp h6
  have e1 : y.opout = a.opout := (congrArg OutKey.opout hm').symm
  have e2 : y.sl = a.sl := (congrArg OutKey.sl hm').symm
  have e3 := makes_agree_state hH m hm e1
  have hid : call.op.id H = con.data.genesis.id H := by rw [← m.1, e1, hm.1]
  have hkind : call.op.kind = .genesis := by
    have := congrArg Op.kind (id_conceal hH hid)
    simpa only [Op.conceal, hp.1.1] using this
  have c1 := h3 call (mem_accepted hc)
  have hw : call.witness? = none := by
    cases call with
    | register sch g => rfl
    | extension d t w ord => have := c1.2; simp only [StCall.op] at hkind; rw [hkind] at this; cases this
    | transition d t w ord => have := c1.2; simp only [StCall.op] at hkind; rw [hkind] at this; cases this
  have e4 : y.witness = a.witness := by rw [m.2.1, hw, hm.2.1]
  cases y; cases a
  simp_all

end Rgb
