import Verif.Lemmas.ReceiveStash

/-!
Taking a consignment after revealing the seals of the stock.
-/

namespace Rgb
open MemStash
variable {H : Commit}

/-- `g` shows only secret seals of the stash. -/
def OfStash (s : MemStash) (g : Nat → Option Seal) : Prop := ∀ h x, g h = some x → x ∈ s.secretSeals

/-- What is revealed in a witness bundle. -/
structure RevealedIn (H : Commit) (s : MemStash) (w w' : WitnessBundle) : Prop where
  pub : w'.pub = w.pub
  wf : w'.WF
  list : ∃ T : ClientBundle → Nat → Option Seal, (∀ c, Right H (T c) ∧ OfStash s (T c)) ∧
    w'.anchored.list = w.anchored.list.map (fun c => c.revealWith (T c))

/-- The consignment with seals revealed. -/
def withBundles (con : Consignment) (g : WitnessBundle → WitnessBundle) : Consignment :=
  { con with data := { con.data with bundles := con.data.bundles.map g } }

/-- Resolving the secrets always succeeds. -/
theorem resolve_ok (hH : H.Binding) (s : MemStash) (con : Consignment) (hw : ∀ w ∈ con.data.bundles, w.WF) :
    ∃ g : WitnessBundle → WitnessBundle, (∀ w ∈ con.data.bundles, RevealedIn H s w (g w)) ∧
      s.resolveSecrets H con = .ok (withBundles con g) := by
  have hf : ∀ sec x, Except.ok (ε := StashErr) (s.sealSecret H sec) = .ok (some x) → H.sealHash x = sec := by
    intro sec x hx
    simp only [Except.ok.injEq] at hx
    simpa using List.find?_some hx
  have h1 : ∀ (ts : List (Nat × Nat)) (w : WitnessBundle), ∃ w', w.revealTerminals H (fun sec => Except.ok (ε := StashErr) (s.sealSecret H sec)) ts = .ok w' := by
    intro ts
    induction ts with
    | nil => exact fun w => ⟨w, rfl⟩
    | cons e ts ih =>
      intro w
      simp only [WitnessBundle.revealTerminals]
      cases s.sealSecret H e.2 with
      | none => exact ih w
      | some x => exact ih _
  obtain ⟨g, h2⟩ : ∃ g : WitnessBundle → WitnessBundle, ∀ w,
      w.revealTerminals H (fun sec => Except.ok (ε := StashErr) (s.sealSecret H sec)) con.terminals = .ok (g w) :=
    ⟨_, fun w => (h1 con.terminals w).choose_spec⟩
  refine ⟨g, fun w hm => ?_, ?_⟩
  · obtain ⟨a, b, c⟩ := WitnessBundle.revealTerminals_spec hH _ hf con.terminals w _ (hw w hm) (h2 w)
    refine ⟨a, b, _, fun c => ⟨right_termSeal _ hf con.terminals (c.bundle.id H), fun h x hx => ?_⟩, c⟩
    simp only [termSeal] at hx
    split at hx
    · exact List.mem_of_find?_eq_some hx
    · cases hx
  · have h3 : ∀ l : List WitnessBundle, revealTerminalSeals H (fun sec => Except.ok (ε := StashErr) (s.sealSecret H sec)) con.terminals l =
        .ok (l.map g) := by
      intro l
      induction l with
      | nil => rfl
      | cons w l ih => simp only [revealTerminalSeals, h2 w, ih, List.map_cons]
    simp only [resolveSecrets, h3, withBundles]

theorem assign_revealWith_seal? {g : Nat → Option Seal} (a : Assign) {x : Seal} (h : (a.revealWith g).seal? = some x) :
    a.seal? = some x ∨ ∃ n, g n = some x := by
  cases a with
  | confidential n t =>
    simp only [Assign.revealWith] at h
    cases hg : g n with
    | none => simp [hg, Assign.seal?] at h
    | some y => simp [hg, Assign.seal?] at h; exact .inr ⟨n, by rw [hg, h]⟩
  | confidentialSeal n t =>
    simp only [Assign.revealWith] at h
    cases hg : g n with
    | none => simp [hg, Assign.seal?] at h
    | some y => simp [hg, Assign.seal?] at h; exact .inr ⟨n, by rw [hg, h]⟩
  | _ => exact .inl h

theorem assign_revealWith_hidden {g : Nat → Option Seal} (a : Assign) (n : Nat)
    (h : ((a.revealWith g).seal?.isNone && decide ((a.revealWith g).secret H = n)) = true) : (a.seal?.isNone && decide (a.secret H = n)) = true := by
  cases a with
  | confidential m t =>
    simp only [Assign.revealWith] at h
    cases hg : g m with
    | none => simpa [hg] using h
    | some y => simp [hg, Assign.seal?] at h
  | confidentialSeal m t =>
    simp only [Assign.revealWith] at h
    cases hg : g m with
    | none => simpa [hg] using h
    | some y => simp [hg, Assign.seal?] at h
  | _ => exact h

theorem op_revealWith_assigned (g : Nat → Option Seal) (t : Op) : (t.revealWith g).assigned = t.assigned.map (Assign.revealWith g) := by
  simp only [Op.assigned, Op.revealWith, OMap.mapVals, List.flatMap_map, List.map_flatMap, TypedAssigns.revealWith]

theorem op_revealWith_hiddenTo (g : Nat → Option Seal) (n : Nat) (t : Op) : (t.revealWith g).hiddenTo H n ≤ t.hiddenTo H n := by
  simp only [Op.hiddenTo, op_revealWith_assigned, List.countP_map]
  exact List.countP_mono_left (fun a _ h => assign_revealWith_hidden a n h)

section
variable {s : MemStash} {w w' : WitnessBundle}

theorem RevealedIn.id (h : RevealedIn H s w w') : w'.id = w.id := by simp only [WitnessBundle.id, h.pub]

/-- Client bundles come from client bundles. -/
theorem RevealedIn.client (h : RevealedIn H s w w') {x : ClientBundle} (hx : x ∈ w'.anchored.list) :
    ∃ y ∈ w.anchored.list, x.mpc = y.mpc ∧ x.dbc = y.dbc ∧ x.bundle.closeMethod = y.bundle.closeMethod ∧ x.bundle.id H = y.bundle.id H ∧
      (∀ o, OMap.contains x.bundle.known o = OMap.contains y.bundle.known o) ∧
      ∀ e ∈ x.bundle.known, ∃ e' ∈ y.bundle.known, ∃ g, Right H g ∧ OfStash s g ∧ e.2 = e'.2.revealWith g := by
  obtain ⟨T, hT, hl⟩ := h.list
  rw [hl] at hx
  obtain ⟨y, hy, rfl⟩ := List.mem_map.mp hx
  refine ⟨y, hy, rfl, rfl, rfl, rfl, fun o => ?_, fun e he => ?_⟩
  · simp only [ClientBundle.revealWith, OMap.contains, OMap.get?_mapVals, Option.isSome_map]
  · simp only [ClientBundle.revealWith, OMap.mapVals, List.mem_map] at he
    obtain ⟨e', he', rfl⟩ := he
    exact ⟨e', he', T y, (hT y).1, (hT y).2, rfl⟩

theorem RevealedIn.bundle (h : RevealedIn H s w w') {b : Bundle} (hb : b ∈ w'.anchored.bundles) :
    ∃ b' ∈ w.anchored.bundles, b.id H = b'.id H ∧ (∀ o, OMap.contains b.known o = OMap.contains b'.known o) ∧
      ∀ e ∈ b.known, ∃ e' ∈ b'.known, ∃ g, Right H g ∧ OfStash s g ∧ e.2 = e'.2.revealWith g := by
  simp only [AnchoredBundles.bundles, List.mem_map] at hb
  obtain ⟨x, hx, rfl⟩ := hb
  obtain ⟨y, h1, -, -, -, h2⟩ := h.client hx
  exact ⟨y.bundle, by simp only [AnchoredBundles.bundles, List.mem_map]; exact ⟨y, h1, rfl⟩, h2⟩

theorem RevealedIn.hidden (h : RevealedIn H s w w') (n : Nat) :
    (w'.knownTransitions.map (Op.hiddenTo H n)).sum ≤ (w.knownTransitions.map (Op.hiddenTo H n)).sum := by
  obtain ⟨T, -, hl⟩ := h.list
  have key : ∀ l : List ClientBundle,
      ((((l.map (fun c => c.revealWith (T c))).map ClientBundle.bundle).flatMap (fun b => OMap.vals b.known)).map (Op.hiddenTo H n)).sum ≤
        (((l.map ClientBundle.bundle).flatMap (fun b => OMap.vals b.known)).map (Op.hiddenTo H n)).sum := by
    intro l
    induction l with
    | nil => simp
    | cons c l ih =>
      simp only [List.map_cons, List.flatMap_cons, List.map_append, List.sum_append]
      refine Nat.add_le_add ?_ ih
      simp only [ClientBundle.revealWith, OMap.vals, OMap.mapVals, List.map_map, Function.comp_def]
      generalize c.bundle.known = m
      induction m with
      | nil => simp
      | cons e m ih =>
        simp only [List.map_cons, List.sum_cons]
        exact Nat.add_le_add (op_revealWith_hiddenTo _ _ _) ih
  have := key w.anchored.list
  simpa only [WitnessBundle.knownTransitions, AnchoredBundles.bundles, hl] using this

theorem RevealedIn.ids (h : RevealedIn H s w w') : w'.anchored.bundles.map (Bundle.id H) = w.anchored.bundles.map (Bundle.id H) := by
  obtain ⟨T, -, hl⟩ := h.list
  simp only [AnchoredBundles.bundles, hl, List.map_map]
  rfl

end

theorem transitions_reveal {con : Consignment} {s : MemStash} {g : WitnessBundle → WitnessBundle}
    (hg : ∀ w ∈ con.data.bundles, RevealedIn H s w (g w)) {p : Op × WitnessId} (h : p ∈ (withBundles con g).data.transitions) :
    ∃ q ∈ con.data.transitions, q.2 = p.2 ∧ (∃ wb ∈ con.data.bundles, wb.id = p.2) ∧ ∃ f, Right H f ∧ OfStash s f ∧ p.1 = q.1.revealWith f := by
  simp only [withBundles, ConsignmentData.transitions, WitnessBundle.knownTransitions, OMap.vals, List.mem_flatMap, List.mem_map] at h
  obtain ⟨w', ⟨w, hw, rfl⟩, t, ⟨b, hb, e, he, rfl⟩, rfl⟩ := h
  obtain ⟨b', h1, -, -, h3⟩ := (hg w hw).bundle hb
  obtain ⟨e', h4, f, h5, h6, h7⟩ := h3 e he
  exact ⟨_, op_of_known hw h1 h4, (hg w hw).id.symm, ⟨w, hw, (hg w hw).id.symm⟩, f, h5, h6, h7⟩

theorem ops_reveal {con : Consignment} {s : MemStash} {g : WitnessBundle → WitnessBundle}
    (hg : ∀ w ∈ con.data.bundles, RevealedIn H s w (g w)) {op : Op} (h : op ∈ (withBundles con g).data.ops) :
    ∃ op' ∈ con.data.ops, op.globals = op'.globals := by
  simp only [ConsignmentData.ops, List.mem_append, List.mem_map] at h
  rcases h with h | ⟨p, hp, rfl⟩
  · exact ⟨op, by simp only [ConsignmentData.ops, List.mem_append]; exact .inl h, rfl⟩
  · obtain ⟨q, h1, -, -, f, -, -, h2⟩ := transitions_reveal hg hp
    exact ⟨q.1, by simp only [ConsignmentData.ops, List.mem_append, List.mem_map]; exact .inr ⟨q, h1, rfl⟩, by rw [h2]; rfl⟩

theorem coherent_reveal {I : Ids} {M : Mpc} {G : SchemaDoc → SchemaGlobals} {r : Resolver} {con : Consignment} {k : Stock}
    {g : WitnessBundle → WitnessBundle} (hg : ∀ w ∈ con.data.bundles, RevealedIn H k.stash w (g w))
    (hc : con.Coherent H I M G r) (ha : k.Agrees H M con) : (withBundles con g).Coherent H I M G r where
  resolved := by
    intro w' h
    obtain ⟨w, hw, rfl⟩ := List.mem_map.mp h
    rw [(hg w hw).id]; exact hc.resolved w hw
  plainSeals := hc.plainSeals
  seals := by
    intro p hp a ham x hx
    obtain ⟨q, h1, h2, ⟨wb, h3, h4⟩, f, h5, h6, h7⟩ := transitions_reveal hg hp
    rw [h7, op_revealWith_assigned] at ham
    obtain ⟨a', ha', rfl⟩ := List.mem_map.mp ham
    rcases assign_revealWith_seal? a' hx with h | ⟨n, hn⟩
    · rw [← h2]; exact hc.seals q h1 a' ha' x h
    · rw [← h4]; exact ha.seals x (h6 n x hn) wb h3
  globals := by
    intro op hop e he
    obtain ⟨op', h1, h2⟩ := ops_reveal hg hop
    exact hc.globals op' h1 e (h2 ▸ he)
  witnesses := by
    show (con.data.bundles.map g).Pairwise _
    rw [List.pairwise_map]
    refine hc.witnesses.imp_of_mem (fun {a b} ha' hb h => ?_)
    rw [(hg a ha').id, (hg b hb).id]; exact h
  ops := by
    intro w₁ h₁ w₂ h₂ b₁ hb₁ b₂ hb₂ o ho₁ ho₂
    obtain ⟨v₁, hv₁, rfl⟩ := List.mem_map.mp h₁
    obtain ⟨v₂, hv₂, rfl⟩ := List.mem_map.mp h₂
    obtain ⟨c₁, e₁, i₁, k₁, -⟩ := (hg v₁ hv₁).bundle hb₁
    obtain ⟨c₂, e₂, i₂, k₂, -⟩ := (hg v₂ hv₂).bundle hb₂
    rw [i₁, i₂]
    exact hc.ops v₁ hv₁ v₂ hv₂ c₁ e₁ c₂ e₂ o (k₁ o ▸ ho₁) (k₂ o ▸ ho₂)
  proved := by
    intro w' h x hx
    obtain ⟨w, hw, rfl⟩ := List.mem_map.mp h
    obtain ⟨y, h1, h2, h3, h4, h5, -⟩ := (hg w hw).client hx
    rw [h2, h3, h4, h5]
    exact hc.proved w hw y h1
  iimpls := hc.iimpls

theorem agrees_reveal {M : Mpc} {con : Consignment} {k : Stock}
    {g : WitnessBundle → WitnessBundle} (hg : ∀ w ∈ con.data.bundles, RevealedIn H k.stash w (g w)) (ha : k.Agrees H M con) :
    k.Agrees H M (withBundles con g) where
  seals := by
    intro x hx w' h
    obtain ⟨w, hw, rfl⟩ := List.mem_map.mp h
    rw [(hg w hw).id]; exact ha.seals x hx w hw
  globals := by
    intro cs hcs op hop e he
    obtain ⟨op', h1, h2⟩ := ops_reveal hg hop
    exact ha.globals cs hcs op' h1 e (h2 ▸ he)
  bundles := by
    intro w' h b hb
    obtain ⟨w, hw, rfl⟩ := List.mem_map.mp h
    obtain ⟨b', h1, h2, h3, -⟩ := (hg w hw).bundle hb
    obtain ⟨i1, i2⟩ := ha.bundles w hw b' h1
    rw [h2]
    exact ⟨i1, fun o i ho => i2 o i (h3 o ▸ ho)⟩
  witnesses := by
    intro w' h sw hsw
    obtain ⟨w, hw, rfl⟩ := List.mem_map.mp h
    rw [(hg w hw).id] at hsw
    obtain ⟨i1, i2⟩ := ha.witnesses w hw sw hsw
    rw [(hg w hw).pub]
    refine ⟨i1, fun x hx p hp a ha' => ?_⟩
    obtain ⟨y, h1, h2, h3, h4, h5, -⟩ := (hg w hw).client hx
    rw [h3] at ha' ⊢
    exact i2 y h1 p (by rw [← h2, ← h5]; exact hp) a ha'

theorem times_reveal {con : Consignment} {s : MemStash} {g : WitnessBundle → WitnessBundle}
    (hg : ∀ w ∈ con.data.bundles, RevealedIn H s w (g w)) (b : Nat) : (withBundles con g).data.timesBundle H b = con.data.timesBundle H b := by
  have h0 : ∀ l : List Bundle, (l.filter (fun x => decide (x.id H = b))).length = ((l.map (Bundle.id H)).filter (fun i => decide (i = b))).length := by
    intro l; rw [List.filter_map, List.length_map]; rfl
  have key : ∀ l : List WitnessBundle, (∀ w ∈ l, RevealedIn H s w (g w)) →
      ((l.map g).flatMap (fun wb => wb.anchored.bundles)).map (Bundle.id H) = (l.flatMap (fun wb => wb.anchored.bundles)).map (Bundle.id H) := by
    intro l hl
    induction l with
    | nil => rfl
    | cons w l ih =>
      simp only [List.map_cons, List.flatMap_cons, List.map_append, ih (fun x hx => hl x (by simp [hx])), (hl w (by simp)).ids]
  simp only [ConsignmentData.timesBundle, h0]
  rw [show (withBundles con g).data.bundles = con.data.bundles.map g from rfl, key _ hg]

theorem hidden_reveal {con : Consignment} {s : MemStash} {g : WitnessBundle → WitnessBundle}
    (hg : ∀ w ∈ con.data.bundles, RevealedIn H s w (g w)) (n : Nat) : (withBundles con g).data.hiddenTo H n ≤ con.data.hiddenTo H n := by
  have e : ∀ d : ConsignmentData, d.transitions.map Prod.fst = d.bundles.flatMap WitnessBundle.knownTransitions := by
    intro d
    simp only [ConsignmentData.transitions, List.map_flatMap, List.map_map, Function.comp_def, List.map_id']
  have key : ∀ l : List WitnessBundle, (∀ w ∈ l, RevealedIn H s w (g w)) →
      (((l.map g).flatMap WitnessBundle.knownTransitions).map (Op.hiddenTo H n)).sum ≤
        ((l.flatMap WitnessBundle.knownTransitions).map (Op.hiddenTo H n)).sum := by
    intro l hl
    induction l with
    | nil => simp
    | cons w l ih =>
      simp only [List.map_cons, List.flatMap_cons, List.map_append, List.sum_append]
      exact Nat.add_le_add ((hl w (by simp)).hidden n) (ih (fun x hx => hl x (by simp [hx])))
  simp only [ConsignmentData.hiddenTo, ConsignmentData.ops, List.map_append, List.sum_append, e]
  exact Nat.add_le_add_left (key _ hg) _

theorem room_reveal {I : Ids} {con : Consignment} {k : Stock}
    {g : WitnessBundle → WitnessBundle} (hg : ∀ w ∈ con.data.bundles, RevealedIn H k.stash w (g w)) (hr : k.Room H I con) :
    k.Room H I (withBundles con g) where
  state := hr.state
  index := hr.index
  geneses := hr.geneses
  witnesses := by intro b; rw [times_reveal hg]; exact hr.witnesses b
  terminals := fun s => Nat.le_trans (Nat.add_le_add_left (hidden_reveal hg s) _) (hr.terminals s)
  schemata := hr.schemata
  ifaces := hr.ifaces
  iimpls := hr.iimpls
  kinds := hr.kinds
  supplements := hr.supplements

/-- A stock takes a consignment. -/
theorem stock_accepts (hH : H.Binding) {I : Ids} {M : Mpc} {G : SchemaDoc → SchemaGlobals} (hG : ∀ d, OMap.Sorted (G d).maxItems)
    {r : Resolver} {con : Consignment} {k : Stock} (hk : k.stash.Good H) (hp : StockEvent.Proper H (.consignment con r))
    (hc : con.Coherent H I M G r) (ha : k.Agrees H M con) (hr : k.Room H I con) :
    ∃ k', k.consumeConsignment H I M G r con = some (k', none) := by
  obtain ⟨g, hg, he⟩ := resolve_ok hH k.stash con hp.2.1
  have hp' := (Stock.resolve_proper hH k.stash con _ r hp he).1
  have hc' := coherent_reveal hg hc ha
  have ha' := agrees_reveal hg ha
  have hr' := room_reveal hg hr
  obtain ⟨s, hs⟩ := state_accepts hG hp' hc' ha' hr'
  have hx := index_accepts hc' ha' hr'
  obtain ⟨t, ht⟩ := stash_accepts hH hk hp' hc' ha' hr'
  have hbody : k.consumeBody H I M G r (withBundles con g) = some (⟨t, s, (k.index.indexConsignment H (withBundles con g).data).1⟩, none) := by
    have hs' : k.state.updateFromConsignment H (G (withBundles con g).schema) (withBundles con g).data r = some (s, none) := hs
    simp only [Stock.consumeBody, hs']
    cases hi : k.index.indexConsignment H (withBundles con g).data with
    | mk x e =>
      rw [hi] at hx
      simp only at hx
      subst hx
      have ht' : k.stash.consumeConsignment H I M (withBundles con g) = some (t, .ok ()) := ht
      simp only [ht']
  refine ⟨⟨t, s, (k.index.indexConsignment H (withBundles con g).data).1⟩, ?_⟩
  simp only [Stock.consumeConsignment, he, Stock.storeTx_mem, hbody]
  rfl

end Rgb
