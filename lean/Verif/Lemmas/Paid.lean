import Verif.Lemmas.Compose
import Verif.Props.Builder

/-! Lemmas about what the transitions made by composing contain. -/

namespace Rgb

theorem Assign.On.target {a : Assign} {sl : BSeal} (h : a.On sl) : a.target = some sl := by
  cases sl with
  | revealed s =>
    simp only [Assign.On] at h
    cases a <;> simp [Assign.seal?] at h <;> simp [Assign.target, h]
  | concealed c x =>
    obtain ⟨st, rfl⟩ := h
    cases c <;> simp [Assign.target, Layer1.num] <;> omega

/-- What the calls add for a type: seals and states. -/
def addsOf (iimpl : IfaceImpl) (dflt : Option Nat) (aty : Nat) (cs : List TCall) : List (BSeal × RState) :=
  (cs.filterMap (TCall.assigned iimpl dflt)).filterMap (fun e => if e.1 = aty then some e.2 else none)

theorem addsOf_append (iimpl : IfaceImpl) (dflt : Option Nat) (aty : Nat) (xs ys : List TCall) :
    addsOf iimpl dflt aty (xs ++ ys) = addsOf iimpl dflt aty xs ++ addsOf iimpl dflt aty ys := by
  simp [addsOf]

theorem lastFor_adds (iimpl : IfaceImpl) (dflt : Option Nat) (aty : Nat) (sl : BSeal) (cs : List TCall) :
    lastFor (aty, sl) (cs.filterMap (TCall.slot iimpl dflt)) = lastFor sl (addsOf iimpl dflt aty cs) := by
  unfold addsOf
  induction cs with
  | nil => rfl
  | cons c cs ih =>
    rw [← List.singleton_append]
    simp only [List.filterMap_append, lastFor_cat, ih]
    congr 1
    cases h : c.assigned iimpl dflt with
    | none => simp [TCall.slot, h, lastFor]
    | some e =>
      obtain ⟨t, s, st⟩ := e
      by_cases ht : t = aty
      · subst ht; simp [TCall.slot, h, lastFor]
      · simp [TCall.slot, h, lastFor, ht]

theorem lastFor_nodup_mem {κ ν : Type} [DecidableEq κ] {l : List (κ × ν)} (hn : (l.map Prod.fst).Nodup) {e : κ × ν} (he : e ∈ l) :
    lastFor e.1 l = some e.2 := by
  induction l with
  | nil => simp at he
  | cons x l ih =>
    rw [List.map_cons, List.nodup_cons] at hn
    obtain ⟨h1, h2⟩ := hn
    rw [← List.singleton_append, lastFor_cat]
    rcases List.mem_cons.1 he with he | he
    · subst he
      have : lastFor e.1 l = none := by
        rw [lastFor_none]
        intro y hy hxy
        exact h1 (List.mem_map.2 ⟨y, hy, hxy⟩)
      rw [this]
      simp [lastFor]
    · rw [ih h2 he]
      rfl

/-- The states assigned by a completed transition are the ones added to it, if their seals are distinct. -/
theorem built_outs {E : BEnv} {n : Nat} (hE : E.Lawful n) {det : Bool} {contract ty : Nat} {iface : Iface} {schema : Schema}
    {iimpl : IfaceImpl} {cs : List TCall} {b : TransitionBuilder}
    (h : TransitionBuilder.calls E cs (.new det contract iface schema iimpl ty) = .ok b) {t : BuiltTransition} (ht : b.complete E = .ok t)
    (aty : Nat) (hn : ((addsOf iimpl (defaultName iface iimpl ty) aty cs).map Prod.fst).Nodup) :
    ((t.outs aty).map (fun e => (e.1, e.2.map RState.content))).Perm
      ((addsOf iimpl (defaultName iface iimpl ty) aty cs).map (fun e => (some e.1, some e.2.content))) := by
  obtain ⟨h1, h2⟩ := Props.C46_assigned_partial hE h ht aty
  generalize hl : addsOf iimpl (defaultName iface iimpl ty) aty cs = l at hn
  unfold BuiltTransition.outs
  cases ha : OMap.get? t.op.assigns aty with
  | none =>
    have : l = [] := by
      cases l with
      | nil => rfl
      | cons x l =>
        exfalso
        have hx : x ∈ addsOf iimpl (defaultName iface iimpl ty) aty cs := by rw [hl]; simp
        unfold addsOf at hx
        obtain ⟨e, he, hx⟩ := List.mem_filterMap.1 hx
        obtain ⟨c, hc, hce⟩ := List.mem_filterMap.1 he
        split at hx
        · rename_i hty
          cases hx
          obtain ⟨t', s', st'⟩ := e
          simp only at hty
          subst hty
          obtain ⟨ta, hta⟩ := h2.2 ⟨c, hc, _, _, hce⟩
          rw [ha] at hta
          cases hta
        · cases hx
    subst this
    simp
  | some ta =>
    obtain ⟨sls, f, hnd, hitems, hmem, hf⟩ := h1 ta ha
    simp only [lastFor_adds, hl] at hmem hf
    simp only [Option.map_some, Option.getD_some, hitems, List.map_map]
    have hperm : sls.Perm (l.map Prod.fst) := by
      rw [List.perm_ext_iff_of_nodup hnd hn]
      intro sl
      rw [hmem, Ne, lastFor_none]
      simp
    have e1 : (sls.map ((fun e : Option BSeal × Option RState => (e.1, e.2.map RState.content)) ∘ (fun a : Assign => (a.target, a.state?)) ∘ f)) =
        sls.map (fun sl => (some sl, (lastFor sl l).map RState.content)) := by
      apply List.map_congr_left
      intro sl hsl
      obtain ⟨g1, g2⟩ := hf sl hsl
      simp [g1.target, g2]
    rw [e1]
    refine (hperm.map _).trans ?_
    rw [List.map_map]
    apply List.Perm.of_eq
    apply List.map_congr_left
    intro e he
    simp [lastFor_nodup_mem hn he]

/-- Distinct members of a list don't sum up to more than the list. -/
theorem sum_subset {α : Type} (μ : α → Nat) {l m : List α} (hn : l.Nodup) (hs : ∀ x ∈ l, x ∈ m) : (l.map μ).sum ≤ (m.map μ).sum := by
  induction l generalizing m with
  | nil => simp
  | cons x l ih =>
    rw [List.nodup_cons] at hn
    obtain ⟨m1, m2, rfl⟩ := List.append_of_mem (hs x (.head _))
    have := ih (m := m1 ++ m2) hn.2 (fun y hy => by
      have := hs y (.tail _ hy)
      simp only [List.mem_append, List.mem_cons] at this ⊢
      rcases this with h | rfl | h
      · exact .inl h
      · exact absurd hy hn.1
      · exact .inr h)
    simp only [List.map_append, List.map_cons, List.sum_append, List.sum_cons] at this ⊢
    omega

/-- Whatever is counted: a completed transition doesn't assign more than was added to it. -/
theorem built_sub {E : BEnv} {n : Nat} (hE : E.Lawful n) {det : Bool} {contract ty : Nat} {iface : Iface} {schema : Schema}
    {iimpl : IfaceImpl} {cs : List TCall} {b : TransitionBuilder}
    (h : TransitionBuilder.calls E cs (.new det contract iface schema iimpl ty) = .ok b) {t : BuiltTransition} (ht : b.complete E = .ok t)
    (aty : Nat) (μ : RState → Nat) :
    ((t.outs aty).map (fun e => (e.2.map (fun st => μ st.content)).getD 0)).sum ≤
      ((addsOf iimpl (defaultName iface iimpl ty) aty cs).map (fun e => μ e.2.content)).sum := by
  obtain ⟨h1, -⟩ := Props.C46_assigned_partial hE h ht aty
  generalize hl : addsOf iimpl (defaultName iface iimpl ty) aty cs = l
  unfold BuiltTransition.outs
  cases ha : OMap.get? t.op.assigns aty with
  | none => simp
  | some ta =>
    obtain ⟨sls, f, hnd, hitems, hmem, hf⟩ := h1 ta ha
    simp only [lastFor_adds, hl] at hmem hf
    simp only [Option.map_some, Option.getD_some, hitems, List.map_map]
    let g : BSeal → BSeal × RState := fun sl => (sl, (lastFor sl l).getD .void)
    have e1 : (sls.map ((fun e : Option BSeal × Option RState => (e.2.map (fun st => μ st.content)).getD 0) ∘ (fun a : Assign => (a.target, a.state?)) ∘ f)) =
        (sls.map g).map (fun e => μ e.2.content) := by
      rw [List.map_map]
      apply List.map_congr_left
      intro sl hsl
      have g2 := (hf sl hsl).2
      have g3 := (hmem sl).1 hsl
      obtain ⟨st, hst⟩ := Option.ne_none_iff_exists'.mp g3
      rw [hst] at g2
      cases hs : (f sl).state? with
      | none => rw [hs] at g2; cases g2
      | some st' =>
        rw [hs] at g2
        simp only [Option.map_some, Option.some.injEq] at g2
        simp [g, hs, hst, g2]
    rw [e1]
    refine sum_subset _ (nodup_of_map Prod.fst (by rw [List.map_map]; exact (by simpa [g, Function.comp_def] using hnd))) (fun x hx => ?_)
    obtain ⟨sl, hsl, rfl⟩ := List.mem_map.1 hx
    obtain ⟨st, hst⟩ := Option.ne_none_iff_exists'.mp ((hmem sl).1 hsl)
    simp only [g, hst, Option.getD_some]
    exact lastFor_mem hst

/-- Nothing is assigned to seals other than the added ones. -/
theorem built_targets {E : BEnv} {n : Nat} (hE : E.Lawful n) {det : Bool} {contract ty : Nat} {iface : Iface} {schema : Schema}
    {iimpl : IfaceImpl} {cs : List TCall} {b : TransitionBuilder}
    (h : TransitionBuilder.calls E cs (.new det contract iface schema iimpl ty) = .ok b) {t : BuiltTransition} (ht : b.complete E = .ok t)
    (aty : Nat) : ∀ e ∈ t.outs aty, ∃ sl, e.1 = some sl ∧ sl ∈ (addsOf iimpl (defaultName iface iimpl ty) aty cs).map Prod.fst := by
  obtain ⟨h1, h2⟩ := Props.C46_assigned_partial hE h ht aty
  intro e he
  unfold BuiltTransition.outs at he
  cases ha : OMap.get? t.op.assigns aty with
  | none => rw [ha] at he; simp at he
  | some ta =>
    obtain ⟨sls, f, hnd, hitems, hmem, hf⟩ := h1 ta ha
    simp only [lastFor_adds] at hmem hf
    rw [ha] at he
    simp only [Option.map_some, Option.getD_some, hitems, List.map_map] at he
    obtain ⟨sl, hsl, rfl⟩ := List.mem_map.1 he
    refine ⟨sl, (hf sl hsl).1.target, ?_⟩
    have := (hmem sl).1 hsl
    rw [Ne, lastFor_none] at this
    simpa using this

/-- No two assignments of a type are to the same seal. -/
theorem built_apart {E : BEnv} {n : Nat} (hE : E.Lawful n) {det : Bool} {contract ty : Nat} {iface : Iface} {schema : Schema}
    {iimpl : IfaceImpl} {cs : List TCall} {b : TransitionBuilder}
    (h : TransitionBuilder.calls E cs (.new det contract iface schema iimpl ty) = .ok b) {t : BuiltTransition} (ht : b.complete E = .ok t)
    (aty : Nat) : ((t.outs aty).map Prod.fst).Nodup := by
  obtain ⟨h1, -⟩ := Props.C46_assigned_partial hE h ht aty
  unfold BuiltTransition.outs
  cases ha : OMap.get? t.op.assigns aty with
  | none => simp
  | some ta =>
    obtain ⟨sls, f, hnd, hitems, -, hf⟩ := h1 ta ha
    simp only [Option.map_some, Option.getD_some, hitems, List.map_map]
    have : sls.map (Prod.fst ∘ (fun a : Assign => (a.target, a.state?)) ∘ f) = sls.map some :=
      List.map_congr_left (fun sl hsl => by simp [(hf sl hsl).1.target])
    rw [this]
    exact List.pairwise_map.mpr (hnd.imp (fun h e => h (Option.some.inj e)))

theorem RState.amount_content (st : RState) : st.content.amount = st.amount := by cases st <;> rfl

theorem outs_total {t : BuiltTransition} {aty : Nat} {l : List (BSeal × RState)}
    (h : ((t.outs aty).map (fun e => (e.1, e.2.map RState.content))).Perm (l.map (fun e => (some e.1, some e.2.content)))) :
    t.total aty = (l.map (fun e => e.2.amount)).sum := by
  have h2 := (h.map (fun e : Option BSeal × Option RState => (e.2.map RState.amount).getD 0)).sum_nat
  simp only [List.map_map] at h2
  unfold BuiltTransition.total
  refine Eq.trans ?_ (h2.trans ?_)
  · congr 1
    apply List.map_congr_left
    intro e _
    obtain ⟨s, st⟩ := e
    cases st <;> simp [RState.amount_content]
  · congr 1
    apply List.map_congr_left
    intro e _
    simp [RState.amount_content]

theorem outs_paidTo {t : BuiltTransition} {aty : Nat} {l : List (BSeal × RState)} (sl : BSeal)
    (h : ((t.outs aty).map (fun e => (e.1, e.2.map RState.content))).Perm (l.map (fun e => (some e.1, some e.2.content)))) :
    t.paidTo aty sl = (l.map (fun e => if e.1 = sl then e.2.amount else 0)).sum := by
  have h2 := (h.map (fun e : Option BSeal × Option RState => if e.1 = some sl then (e.2.map RState.amount).getD 0 else 0)).sum_nat
  simp only [List.map_map] at h2
  unfold BuiltTransition.paidTo
  refine Eq.trans ?_ (h2.trans ?_)
  · congr 1
    apply List.map_congr_left
    intro e _
    obtain ⟨s, st⟩ := e
    cases st <;> simp [RState.amount_content]
  · congr 1
    apply List.map_congr_left
    intro e _
    simp [RState.amount_content]

theorem outs_contents {t : BuiltTransition} {aty : Nat} {l : List (BSeal × RState)}
    (h : ((t.outs aty).map (fun e => (e.1, e.2.map RState.content))).Perm (l.map (fun e => (some e.1, some e.2.content)))) :
    (t.contents aty).Perm (l.map (fun e => e.2.content)) := by
  have h2 := h.filterMap (fun e : Option BSeal × Option RState => e.2)
  unfold BuiltTransition.contents
  refine List.Perm.trans (.of_eq ?_) (h2.trans (.of_eq ?_))
  · rw [List.filterMap_map]; rfl
  · rw [List.filterMap_map]
    clear h h2
    induction l with
    | nil => rfl
    | cons x l ih => simpa using ih

/-! ### Completed transitions -/

theorem addsOf_tags (I : IfaceImpl) (dflt : Option Nat) (aty : Nat) (tags : List (Nat × Nat)) : addsOf I dflt aty (tagCalls tags) = [] := by
  unfold addsOf tagCalls
  rw [List.filterMap_map]
  have : (TCall.assigned I dflt ∘ fun e : Nat × Nat => TCall.addAssetTagRaw e.1 e.2) = fun _ => none := rfl
  rw [this]
  simp

theorem tagCalls_input (tags : List (Nat × Nat)) : (tagCalls tags).filterMap TCall.input = [] := by
  unfold tagCalls
  rw [List.filterMap_map]
  have : (TCall.input ∘ fun e : Nat × Nat => TCall.addAssetTagRaw e.1 e.2) = fun _ => none := rfl
  rw [this]
  simp

theorem tagCalls_global (I : IfaceImpl) (tags : List (Nat × Nat)) : (tagCalls tags).filterMap (TCall.global I) = [] := by
  unfold tagCalls
  rw [List.filterMap_map]
  have : (TCall.global I ∘ fun e : Nat × Nat => TCall.addAssetTagRaw e.1 e.2) = fun _ => none := rfl
  rw [this]
  simp

theorem tagCalls_nonce (tags : List (Nat × Nat)) : ∀ c ∈ tagCalls tags, c.nonce = none := by
  intro c hc
  obtain ⟨e, _, rfl⟩ := List.mem_map.1 hc
  rfl

/-- The states put into a builder are accepted by the schema. -/
theorem PRun.accepted {a b : OpBuilder} {ps : List Prim} (r : PRun a ps b)
    (h : ∀ ty sl st, a.found ty sl = some st → ∃ sch, OMap.get? a.schema.ownedTypes ty = some sch ∧ sch.accepts st = true) :
    ∀ ty sl st, b.found ty sl = some st → ∃ sch, OMap.get? a.schema.ownedTypes ty = some sch ∧ sch.accepts st = true := by
  induction r with
  | nil => exact h
  | snoc r s ih =>
    intro ty sl st hf
    rw [s.found] at hf
    have hd : _ = _ := r.sameDocs.1
    cases s with
    | put ty' sl' st' sch m hs ha ht hp =>
      by_cases e : (ty', sl') = (ty, sl)
      · cases e
        have hl : lastFor (ty, sl) (puts [Prim.put ty sl st']) = some st' := by simp [puts, lastFor]
        rw [hl] at hf
        cases hf
        exact ⟨sch, by rw [hd]; exact hs, ha⟩
      · have hl : lastFor (ty, sl) (puts [Prim.put ty' sl' st']) = none := by simp only [puts, lastFor, List.filterMap_cons, List.filterMap_nil, List.foldl_cons, List.foldl_nil, if_neg e]
        rw [hl] at hf
        exact ih _ _ _ hf
    | _ => exact ih _ _ _ hf

theorem OwnedSchema.accepts_owns {S : Schema} {ty : Nat} {st : RState} {sch : OwnedSchema} (h : OMap.get? S.ownedTypes ty = some sch) (ha : sch.accepts st = true) :
    S.Owns ty st := by
  cases sch <;> cases st <;> simp only [OwnedSchema.accepts, Bool.false_eq_true] at ha <;> simp only [Schema.Owns]
  · exact h
  · simp only [decide_eq_true_eq] at ha
    rw [h, ha]
    rfl
  · exact ⟨_, h⟩
  · exact ⟨_, h⟩

theorem Schema.Owns.blinded {S : Schema} {ty : Nat} {st : RState} (x : Nat) (h : S.Owns ty st) : S.Owns ty (OpBuilder.setBlinding x st) := by
  cases st <;> exact h

theorem tagCalls_tagged (I : IfaceImpl) (tags : List (Nat × Nat)) : (tagCalls tags).filterMap (TCall.tagged I) = tags := by
  unfold tagCalls
  rw [List.filterMap_map]
  have : (TCall.tagged I ∘ fun e : Nat × Nat => TCall.addAssetTagRaw e.1 e.2) = fun e => some e := rfl
  rw [this]
  simp

/-- What the schema and the tags allow. -/
def TagFits (S : Schema) (tags : List (Nat × Nat)) (ty : Nat) (st : RState) : Prop :=
  S.Owns ty st ∧ ∀ v bl t, st = .fungible v bl t → lastFor ty tags = some t

/-- A completed transition. -/
structure Built (F : Nat → RState → Prop) (I : IfaceImpl) (dflt : Option Nat) (c tty : Nat) (cs : List TCall) (t : BuiltTransition) : Prop where
  contract : t.op.contract = c
  kind : t.op.kind = .transition
  ty : t.op.ty = tty
  inputs : ∀ o, o ∈ t.op.inputs ↔ o ∈ (cs.filterMap TCall.input).map Prod.fst
  nodup : t.op.inputs.Nodup
  outs : ∀ aty, ((addsOf I dflt aty cs).map Prod.fst).Nodup →
    ((t.outs aty).map (fun e => (e.1, e.2.map RState.content))).Perm ((addsOf I dflt aty cs).map (fun e => (some e.1, some e.2.content)))
  kinds : ∀ aty ta, OMap.get? t.op.assigns aty = some ta → ∀ a ∈ ta.items, ∃ st, a.state? = some st ∧ st.kind = ta.kind
  sorted : OMap.Sorted t.op.assigns
  globals : cs.filterMap (TCall.global I) = [] → t.op.globals = []
  targets : ∀ aty, ∀ e ∈ t.outs aty, ∃ sl, e.1 = some sl ∧ sl ∈ (addsOf I dflt aty cs).map Prod.fst
  apart : ∀ aty, ((t.outs aty).map Prod.fst).Nodup
  sub : ∀ aty (μ : RState → Nat), ((t.outs aty).map (fun e => (e.2.map (fun st => μ st.content)).getD 0)).sum ≤ ((addsOf I dflt aty cs).map (fun e => μ e.2.content)).sum
  fits : cs.filterMap (TCall.tagged I) = [] → ∀ aty ta, OMap.get? t.op.assigns aty = some ta → ∀ a ∈ ta.items, ∀ st, a.state? = some st → F aty st

theorem Built.mono {F F' : Nat → RState → Prop} {I : IfaceImpl} {dflt : Option Nat} {c tty : Nat} {cs : List TCall} {t : BuiltTransition} (h : Built F I dflt c tty cs t)
    (hF : ∀ ty st, F ty st → F' ty st) : Built F' I dflt c tty cs t :=
  ⟨h.contract, h.kind, h.ty, h.inputs, h.nodup, h.outs, h.kinds, h.sorted, h.globals, h.targets, h.apart, h.sub,
    fun h0 aty ta h1 a h2 st h3 => hF _ _ (h.fits h0 aty ta h1 a h2 st h3)⟩

theorem hasInputs_calls {E : BEnv} {det : Bool} {contract ty : Nat} {iface : Iface} {schema : Schema}
    {iimpl : IfaceImpl} {tags : List (Nat × Nat)} {cs : List TCall} {b0 b : TransitionBuilder}
    (h0 : TransitionBuilder.calls E (tagCalls tags) (.new det contract iface schema iimpl ty) = .ok b0)
    (h : TransitionBuilder.calls E cs b0 = .ok b) : b.hasInputs = !(cs.filterMap TCall.input).isEmpty := by
  obtain ⟨ps, d⟩ := TransitionBuilder.calls_did (calls_append_ok h0 h)
  have hi := d.inputs
  rw [List.filterMap_append, tagCalls_input, List.nil_append] at hi
  unfold TransitionBuilder.hasInputs
  rw [hi]
  have : (TransitionBuilder.new det contract iface schema iimpl ty).inputs = [] := rfl
  rw [this]
  cases hl : cs.filterMap TCall.input with
  | nil => rfl
  | cons x l =>
    have hk : x.1 ∈ OMap.keys (OMap.extend [] (x :: l)) := by
      rw [OMap.mem_keys_extend]; right; simp
    cases hm : OMap.extend [] (x :: l) with
    | nil => rw [hm] at hk; simp [OMap.keys] at hk
    | cons y m => simp

theorem built_of {E : BEnv} {n : Nat} (hE : E.Lawful n) {det : Bool} {contract ty : Nat} {iface : Iface} {schema : Schema}
    {iimpl : IfaceImpl} {tags : List (Nat × Nat)} {cs : List TCall} {b0 b : TransitionBuilder}
    (h0 : TransitionBuilder.calls E (tagCalls tags) (.new det contract iface schema iimpl ty) = .ok b0)
    (h : TransitionBuilder.calls E cs b0 = .ok b) {t : BuiltTransition} (ht : b.complete E = .ok t) :
    Built (TagFits schema tags) iimpl (defaultName iface iimpl ty) contract ty cs t := by
  have hall := calls_append_ok h0 h
  obtain ⟨ps, d⟩ := TransitionBuilder.calls_did hall
  obtain ⟨as, hc, hte⟩ := TransitionBuilder.complete_ok ht
  refine ⟨?_, ?_, ?_, ?_, ?_, ?_, ?_, ?_, ?_, ?_, built_apart hE hall ht, ?_, ?_⟩
  · rw [hte]; exact d.same.1
  · rw [hte]
  · rw [hte]; exact d.same.2
  · intro o
    have hi := d.inputs
    rw [List.filterMap_append, tagCalls_input, List.nil_append] at hi
    rw [hte]
    show o ∈ OMap.keys b.inputs ↔ _
    rw [hi, OMap.mem_keys_extend]
    have : (TransitionBuilder.new det contract iface schema iimpl ty).inputs = [] := rfl
    rw [this]
    simp [OMap.keys]
  · rw [hte]
    show (OMap.keys b.inputs).Nodup
    have hi := d.inputs
    rw [hi]
    exact (OMap.Sorted.extend OMap.Sorted.nil _).nodup
  · intro aty hn
    have := built_outs hE hall ht aty
    rw [addsOf_append, addsOf_tags, List.nil_append] at this
    exact this hn
  · intro aty ta hta a ha
    rw [hte] at hta
    have hinv := d.run.inv (TransitionBuilder.new_inv _ _ _ _ _ _)
    obtain ⟨sls, f, h1, h2, h3, h4⟩ := Completed.items hE hinv ((OpBuilder.complete_get hinv hc aty ta).1 hta)
    rw [h2] at ha
    obtain ⟨sl, hsl, rfl⟩ := List.mem_map.1 ha
    obtain ⟨st, h5, h6, h7⟩ := h4 sl hsl
    have hk : (f sl).kind = ta.kind := by
      rcases h7 with h7 | ⟨x, h7⟩
      · rw [h7, h6]
      · rw [h7, ← h6]; cases st <;> rfl
    refine ⟨f sl, ?_, hk⟩
    cases sl <;> rfl
  · rw [hte]
    have hinv := d.run.inv (TransitionBuilder.new_inv _ _ _ _ _ _)
    have hc' := hc
    simp only [OpBuilder.complete, except_bind_ok] at hc'
    obtain ⟨a1, h1, a2, h2, a3, h3, h4⟩ := hc'
    have hs1 : OMap.Sorted a1 := by
      unfold OMap.Sorted
      rw [(OpBuilder.completeAllFungible_ok h1).1]
      exact (hinv.wf .fungible).sorted
    show OMap.Sorted as
    rw [OpBuilder.extendMax_ok h4, OpBuilder.extendMax_ok h3, OpBuilder.extendMax_ok h2]
    exact ((hs1.extend _).extend _).extend _
  · intro hg
    have hno : ∀ g, OMap.get? t.op.globals g = none := by
      intro g
      obtain ⟨h1, h2⟩ := Props.C46_globals hall ht g
      rw [List.filterMap_append, hg, tagCalls_global, List.append_nil] at h1
      cases hx : OMap.get? t.op.globals g with
      | none => rfl
      | some l =>
        rw [hx] at h1 h2
        exact absurd (congrArg some (h1.trans rfl)) h2
    cases hx : t.op.globals with
    | nil => rfl
    | cons e l =>
      have := hno e.1
      rw [hx] at this
      rw [OMap.get?_cons, if_pos rfl] at this
      cases this
  · intro aty
    have := built_targets hE hall ht aty
    rw [addsOf_append, addsOf_tags, List.nil_append] at this
    exact this
  · intro aty μ
    have := built_sub hE hall ht aty μ
    rw [addsOf_append, addsOf_tags, List.nil_append] at this
    exact this
  · intro htg aty ta hta a ha st hst
    rw [hte] at hta
    have hinv := d.run.inv (TransitionBuilder.new_inv _ _ _ _ _ _)
    obtain ⟨sls, f, h1, h2, h3, h4⟩ := Completed.items hE hinv ((OpBuilder.complete_get hinv hc aty ta).1 hta)
    rw [h2] at ha
    obtain ⟨sl, hsl, rfl⟩ := List.mem_map.1 ha
    obtain ⟨st', h5, h6, h7⟩ := h4 sl hsl
    have hst' : st = f sl := by cases sl <;> exact (Option.some.inj hst).symm
    obtain ⟨sch, h8, h9⟩ := d.run.accepted (fun ty sl st h => by
      unfold OpBuilder.found at h
      split at h
      · rename_i sch _; cases hk : sch.kind <;> rw [hk] at h <;> cases h
      · cases h) aty sl st' h5
    have ho : schema.Owns aty st' := OwnedSchema.accepts_owns h8 h9
    refine ⟨?_, fun v bl t' e => ?_⟩
    · rw [hst']
      rcases h7 with h7 | ⟨x, h7⟩ <;> rw [h7]
      · exact ho
      · exact ho.blinded x
    · have hT := d.run.tags aty
      rw [d.tags, List.filterMap_append, show (TransitionBuilder.new det contract iface schema iimpl ty).builder.iimpl = iimpl from rfl, htg, tagCalls_tagged, List.append_nil] at hT
      have hN : OMap.get? (TransitionBuilder.new det contract iface schema iimpl ty).builder.tags aty = none := rfl
      rw [hN, Option.or_none] at hT
      rw [← hT]
      obtain ⟨bl', hf⟩ : ∃ bl', st' = .fungible v bl' t' := by
        rw [hst'] at e
        rcases h7 with h7 | ⟨x, h7⟩ <;> rw [h7] at e
        · exact ⟨bl, e⟩
        · cases st' <;> simp only [OpBuilder.setBlinding] at e <;> cases e
          exact ⟨_, rfl⟩
      subst hf
      refine hinv.tag aty sl v bl' t' ?_
      have hk : sch.kind = .fungible := (OwnedSchema.accepts_kind h9).symm
      have hd : b.builder.schema = schema := d.run.sameDocs.1.symm
      unfold OpBuilder.found at h5
      rw [hd, show OMap.get? schema.ownedTypes aty = some sch from h8] at h5
      simp only [hk] at h5
      exact h5

/-- What the stock knows about the states of the contract. -/
def Stock.KnownFits (E : CEnv) (k : Stock) (c ty : Nat) (st : RState) : Prop :=
  ∃ g si, k.stash.genesis c = some g ∧ k.stash.schema (E.I.genesisSchema g) = some si ∧ TagFits (E.schemaOf si.doc) (E.tagsOf g) ty st

namespace Stock

/-! ### Before the state is looked at -/

/-- What is known when an invoice has been accepted. -/
structure Prepared (E : CEnv) (W : Wallet) (k : Stock) (inv : Inv.Invoice) (p : Prep) : Prop where
  contract : inv.contract = some p.contract
  iface : ∃ n, inv.iface = some n ∧ p.iface = E.name n
  ty : k.invoiced E inv = some p.ty
  layer : p.layer = inv.layer
  beneficiary : p.beneficiary = W.benSeal inv
  alt : p.alt = p.main
  started : Nonempty (Started E k p.contract p.iface (inv.operation.map E.name) p.main)
  fresh : ∀ e, inv.expiry = some e → E.now ≤ e

theorem assignmentName_ok {E : CEnv} {inv : Inv.Invoice} {b : TransitionBuilder} {n : Nat} (h : assignmentName E inv b = .ok n) :
    (inv.assignment.map E.name).or (defaultName b.builder.iface b.builder.iimpl b.ty) = some n := by
  unfold assignmentName at h
  cases ha : inv.assignment with
  | some x => rw [ha] at h; cases h; rfl
  | none =>
    rw [ha] at h
    simp only at h
    cases hd : b.defaultAssignment with
    | ok m =>
      rw [hd] at h
      cases h
      rw [TransitionBuilder.defaultAssignment_ok] at hd
      simpa using hd
    | error e => rw [hd] at h; cases e <;> cases h

theorem beneficiarySeal_ok {W : Wallet} {inv : Inv.Invoice} {sl : BSeal}
    (h : beneficiarySeal W inv.layer inv.beneficiary.intoInner = .ok sl) : sl = W.benSeal inv := by
  unfold Wallet.benSeal
  cases hb : inv.beneficiary.intoInner with
  | blindedSeal x =>
    rw [hb] at h
    simp only [beneficiarySeal] at h
    cases hv : W.vout <;> rw [hv] at h <;> cases h
    rfl
  | witnessVout x =>
    rw [hb] at h
    simp only [beneficiarySeal] at h
    cases hv : W.vout <;> rw [hv] at h <;> cases h
    rfl

theorem _root_.Rgb.Started.docs {E : CEnv} {k : Stock} {c name : Nat} {op : Option Nat} {b : TransitionBuilder} (s : Started E k c name op b) :
    b.builder.iface = E.ifaceOf s.d ∧ b.builder.iimpl = E.implOf s.impl ∧ b.ty = s.tty := by
  obtain ⟨ps, d⟩ := TransitionBuilder.calls_did s.calls
  exact ⟨d.run.sameDocs.2.1.symm, d.run.sameDocs.2.2.1.symm, d.same.2⟩

theorem prepare_ok {E : CEnv} {W : Wallet} {k : Stock} {inv : Inv.Invoice} {p : Prep} (h : prepare E W k inv = .ok p) :
    Prepared E W k inv p := by
  unfold prepare at h
  obtain ⟨_, h0, h⟩ := except_bind_ok.1 h
  obtain ⟨c, h1, h⟩ := except_bind_ok.1 h
  obtain ⟨ifn, h2, h⟩ := except_bind_ok.1 h
  obtain ⟨m, h3, h⟩ := except_bind_ok.1 h
  obtain ⟨nm, h4, h⟩ := except_bind_ok.1 h
  obtain ⟨ty, h5, h⟩ := except_bind_ok.1 h
  obtain ⟨a, h6, h⟩ := except_bind_ok.1 h
  obtain ⟨bn, h7, h⟩ := except_bind_ok.1 h
  cases h
  rw [orErr_ok] at h1 h2 h5
  have hs := transitionBuilder_ok h3
  refine ⟨h1, ⟨ifn, h2, rfl⟩, ?_, rfl, beneficiarySeal_ok h7, ?_, hs, ?_⟩
  · obtain ⟨s⟩ := hs
    obtain ⟨d1, d2, d3⟩ := s.docs
    have h4 := assignmentName_ok h4
    rw [d1, d2, d3] at h4
    unfold OpBuilder.assignmentsType at h5
    rw [d2] at h5
    unfold invoiced
    have hop : ((inv.operation.map E.name).or (E.ifaceOf s.d).defaultOperation).bind (typeByName (E.implOf s.impl).transitions) = some s.tty := by
      rw [s.named]; exact s.typed
    simp [h1, s.genesis, s.schema, h2, s.iface, s.iimpl, hop, h4, h5]
  · rw [h3] at h6; cases h6; rfl
  · intro e he
    rw [failIf_ok, he] at h0
    simp at h0
    exact h0

/-! ### Payments -/

/-- A payment, if there is anything to pay. -/
def payCalls (ty : Nat) (sl : BSeal) (v bl : Nat) : List TCall := if v > 0 then [.addFungibleRaw ty sl v bl] else []

theorem pay_ok {B : BEnv} {b b' : TransitionBuilder} {ty : Nat} {sl : BSeal} {v bl : Nat} (h : pay b ty sl v bl = .ok b') :
    TransitionBuilder.calls B (payCalls ty sl v bl) b = .ok b' := by
  unfold pay at h
  unfold payCalls
  split at h
  · rename_i hv
    rw [if_pos hv, calls_one]
    exact liftB_ok.1 h
  · rename_i hv
    rw [if_neg hv]
    simpa [TransitionBuilder.calls] using h

theorem subU_ok {E : CEnv} {a b c : Nat} (h : subU E a b = .ok c) (hb : b ≤ a) : c = a - b := by
  unfold subU at h
  rw [if_pos hb] at h
  cases h
  rfl

/-- The payment of an amount: what is taken out of the two sums. -/
theorem payAmount_ok {E : CEnv} {W : Wallet} {k : Stock} {p : Prep} {amt : Nat} {a a' : Acc} (h : payAmount E W k p amt a = .ok a') :
    amt ≤ a.sum ∧ ∃ sumMain, subU E a.sum a.sumAlt = .ok sumMain ∧
      TransitionBuilder.calls E.B (payCalls p.ty p.beneficiary (split sumMain amt).1 (W.factors .beneficiary) ++
        payCalls p.ty (W.outSeal E k p.layer .change p.contract p.ty) (sumMain - (split sumMain amt).1) (W.factors .change)) a.main = .ok a'.main ∧
      TransitionBuilder.calls E.B (payCalls p.ty p.beneficiary (split sumMain amt).2 (W.factors .beneficiary) ++
        payCalls p.ty (W.outSeal E k p.layer .change p.contract p.ty) (a.sumAlt - (split sumMain amt).2) (W.factors .change)) a.alt = .ok a'.alt ∧
      a'.mainIn = a.mainIn ∧ a'.altIn = a.altIn := by
  unfold payAmount at h
  obtain ⟨_, h0, h⟩ := except_bind_ok.1 h
  obtain ⟨sm, h1, h⟩ := except_bind_ok.1 h
  obtain ⟨m1, h2, h⟩ := except_bind_ok.1 h
  obtain ⟨a1, h3, h⟩ := except_bind_ok.1 h
  obtain ⟨ch, h4, h⟩ := except_bind_ok.1 h
  obtain ⟨m2, h5, h⟩ := except_bind_ok.1 h
  obtain ⟨a2, h6, h⟩ := except_bind_ok.1 h
  cases h
  rw [failIf_ok] at h0
  have h4 := outputFor_ok h4
  subst h4
  refine ⟨by simpa using h0, sm, h1, calls_append_ok (pay_ok h2) (pay_ok h5), calls_append_ok (pay_ok h3) (pay_ok h6), rfl, rfl⟩

theorem payToken_ok {E : CEnv} {W : Wallet} {p : Prep} {token : Nat} {a a' : Acc} (h : payToken W p token a = .ok a') :
    token ∈ a.data ∧ a'.mainIn = a.mainIn ∧ a'.altIn = a.altIn ∧
      TransitionBuilder.calls E.B (if a.dataMain then [.addDataRaw p.ty p.beneficiary token (W.seals .token)] else []) a.main = .ok a'.main ∧
      TransitionBuilder.calls E.B (if a.dataMain then [] else [.addDataRaw p.ty p.beneficiary token (W.seals .token)]) a.alt = .ok a'.alt := by
  unfold payToken at h
  obtain ⟨_, h0, h⟩ := except_bind_ok.1 h
  rw [failIf_ok] at h0
  refine ⟨by simpa using h0, ?_⟩
  rcases on_ok h with ⟨hm, b, hb, rfl⟩ | ⟨hm, b, hb, rfl⟩
  · rw [hm]
    refine ⟨rfl, rfl, ?_, rfl⟩
    simp only [if_true]
    rw [calls_one]; exact hb
  · rw [hm]
    refine ⟨rfl, rfl, rfl, ?_⟩
    simp only [Bool.false_eq_true, if_false]
    rw [calls_one]; exact hb

/-! ### The transitions of the invoice -/

theorem newInfo_ok {E : CEnv} {t : BuiltTransition} {outs : List OutSeal} {i : TransitionInfo} (h : newInfo E t outs = .ok i) :
    i.transition = t ∧ i.id = t.op.id E.H ∧ TransitionInfo.new E.H t outs = .ok i := by
  unfold newInfo at h
  cases hn : TransitionInfo.new E.H t outs with
  | error e =>
    rw [hn] at h
    cases e with
    | tooMany => cases h
    | panic => cases h
    | divergence => simp only at h; split at h <;> cases h
  | ok j =>
    rw [hn] at h
    cases h
    cases outs with
    | nil => cases hn
    | cons s rest =>
      have hn2 := hn
      simp only [TransitionInfo.new] at hn2
      obtain ⟨x, hx, hn2⟩ := except_bind_ok.1 hn2
      split at hn2
      · cases hn2
      · cases hn2
        exact ⟨rfl, rfl, rfl⟩

theorem mainInfo_ok {E : CEnv} {b : TransitionBuilder} {outs : List OutSeal} {i : TransitionInfo} (h : mainInfo E b outs = .ok i) :
    b.complete E.B = .ok i.transition ∧ i.id = i.transition.op.id E.H ∧ TransitionInfo.new E.H i.transition outs = .ok i := by
  unfold mainInfo at h
  obtain ⟨t, h1, h2⟩ := except_bind_ok.1 h
  obtain ⟨rfl, h3, h4⟩ := newInfo_ok h2
  exact ⟨liftB_ok.1 h1, h3, h4⟩

/-- The transitions which are made: one for each builder which has inputs. -/
theorem mainDichotomy_ok {E : CEnv} {a : Acc} {d : Dichotomy TransitionInfo} (h : mainDichotomy E a = .ok d) :
    ∃ lm la, d.toList = lm ++ la ∧
      ((a.main.hasInputs = true ∧ ∃ i, lm = [i] ∧ mainInfo E a.main a.mainIn = .ok i) ∨ (a.main.hasInputs = false ∧ lm = [])) ∧
      ((a.alt.hasInputs = true ∧ ∃ i, la = [i] ∧ mainInfo E a.alt a.altIn = .ok i) ∨ (a.alt.hasInputs = false ∧ la = [])) := by
  unfold mainDichotomy at h
  cases hm : a.main.hasInputs <;> cases ha : a.alt.hasInputs <;> rw [hm, ha] at h <;> simp only at h
  · cases h
  · obtain ⟨x, h1, h⟩ := except_bind_ok.1 h
    cases h
    exact ⟨[], [x], rfl, .inr ⟨rfl, rfl⟩, .inl ⟨rfl, x, rfl, h1⟩⟩
  · obtain ⟨x, h1, h⟩ := except_bind_ok.1 h
    cases h
    exact ⟨[x], [], rfl, .inl ⟨rfl, x, rfl, h1⟩, .inr ⟨rfl, rfl⟩⟩
  · obtain ⟨x, h1, h⟩ := except_bind_ok.1 h
    obtain ⟨y, h2, h⟩ := except_bind_ok.1 h
    cases h
    exact ⟨[x], [y], rfl, .inl ⟨rfl, x, rfl, h1⟩, .inl ⟨rfl, y, rfl, h2⟩⟩

theorem _root_.Rgb.Built.nonce {F : Nat → RState → Prop} {I : IfaceImpl} {dflt : Option Nat} {c tty : Nat} {cs : List TCall} {t : BuiltTransition}
    (h : Built F I dflt c tty cs t) (n : Nat) : Built F I dflt c tty cs { t with op := { t.op with nonce := n } } :=
  ⟨h.contract, h.kind, h.ty, h.inputs, h.nodup, h.outs, h.kinds, h.sorted, h.globals, h.targets, h.apart, h.sub, h.fits⟩

theorem items_input (E : CEnv) (W : Wallet) (k : Stock) (p : Prep) (l : List Item) :
    (l.flatMap (itemCalls E W k p)).filterMap TCall.input = l.map (fun x => x.2) := by
  induction l with
  | nil => rfl
  | cons x l ih =>
    rw [List.flatMap_cons, List.filterMap_append, ih]
    unfold itemCalls
    by_cases h : x.2.1.ty ≠ p.ty
    · rw [if_pos h]; simp [TCall.input]
    · rw [if_neg h]; simp [TCall.input]

/-- The state of a type which is moved. -/
def movedItems (E : CEnv) (W : Wallet) (k : Stock) (layer : Layer1) (c : Nat) (aty : Nat) (l : List Item) : List (BSeal × RState) :=
  (l.filter (fun x => decide (x.2.1.ty = aty))).map (fun x => (W.outSeal E k layer (.moved c x.1 x.2.1) c aty,
    OpBuilder.setBlinding (W.factors (.moved c x.1 x.2.1)) x.2.2))

theorem items_adds (I : IfaceImpl) (dflt : Option Nat) (E : CEnv) (W : Wallet) (k : Stock) (p : Prep) (aty : Nat) (l : List Item) :
    addsOf I dflt aty (l.flatMap (itemCalls E W k p)) = if aty = p.ty then [] else movedItems E W k p.layer p.contract aty l := by
  induction l with
  | nil => simp [addsOf, movedItems]
  | cons x l ih =>
    rw [List.flatMap_cons, addsOf_append, ih]
    unfold itemCalls movedItems
    by_cases h : x.2.1.ty ≠ p.ty
    · rw [if_pos h]
      by_cases ha : aty = p.ty
      · subst ha
        simp [addsOf, TCall.assigned, h]
      · by_cases hx : x.2.1.ty = aty
        · subst hx; simp [addsOf, List.filterMap_cons, TCall.assigned, h]
        · simp [addsOf, TCall.assigned, hx, ha]
    · rw [if_neg h]
      have h : x.2.1.ty = p.ty := Decidable.byContradiction h
      by_cases ha : aty = p.ty
      · subst ha; simp [addsOf, TCall.assigned]
      · have : ¬ x.2.1.ty = aty := by rw [h]; exact fun e => ha e.symm
        simp [addsOf, TCall.assigned, ha, this]

/-- A payment transition for the states closed with one of the methods. -/
def Side (E : CEnv) (W : Wallet) (k : Stock) (p : Prep) (op : Option Nat) (s : Started E k p.contract p.iface op p.main) (l : List Item)
    (pays : List TCall) (ts : List BuiltTransition) : Prop :=
  (l = [] ∧ ts = []) ∨ (l ≠ [] ∧ ∃ t, ts = [t] ∧ Built (k.KnownFits E p.contract) (E.implOf s.impl) (defaultName (E.ifaceOf s.d) (E.implOf s.impl) s.tty) p.contract s.tty
    (l.flatMap (itemCalls E W k p) ++ pays) t)

theorem side_of {E : CEnv} {n : Nat} (hE : E.B.Lawful n) {W : Wallet} {k : Stock} {p : Prep} {op : Option Nat}
    (s : Started E k p.contract p.iface op p.main) {l : List Item} {pays : List TCall} (hp : pays.filterMap TCall.input = [])
    {b b' : TransitionBuilder} (h1 : TransitionBuilder.calls E.B (l.flatMap (itemCalls E W k p)) p.main = .ok b)
    (h2 : TransitionBuilder.calls E.B pays b = .ok b') {outs : List OutSeal} {is : List TransitionInfo}
    (h : (b'.hasInputs = true ∧ ∃ i, is = [i] ∧ mainInfo E b' outs = .ok i) ∨ (b'.hasInputs = false ∧ is = [])) (nn : Nat) :
    Side E W k p op s l pays ((is.map (TransitionInfo.setNonce nn)).map (fun i => i.transition)) := by
  have hin := hasInputs_calls s.calls (calls_append_ok h1 h2)
  rw [List.filterMap_append, hp, List.append_nil, items_input] at hin
  rcases h with ⟨hh, i, rfl, hi⟩ | ⟨hh, rfl⟩
  · right
    refine ⟨?_, _, rfl, ?_⟩
    · rintro rfl
      rw [hh] at hin
      simp at hin
    · exact ((built_of hE s.calls (calls_append_ok h1 h2) (mainInfo_ok hi).1).mono (fun _ _ h => ⟨s.g, s.si, s.genesis, s.schema, h⟩)).nonce nn
  · left
    rw [hh] at hin
    exact ⟨by simpa using hin, rfl⟩

/-- The calls which pay, for the two builders. -/
def Pays (E : CEnv) (W : Wallet) (k : Stock) (p : Prep) (st : Inv.InvoiceState) (a : Acc) (pm pa : List TCall) : Prop :=
  match st with
  | .amount amt => amt ≤ a.sum ∧ ∃ sumMain, subU E a.sum a.sumAlt = .ok sumMain ∧
      pm = payCalls p.ty p.beneficiary (split sumMain amt).1 (W.factors .beneficiary) ++
        payCalls p.ty (W.outSeal E k p.layer .change p.contract p.ty) (sumMain - (split sumMain amt).1) (W.factors .change) ∧
      pa = payCalls p.ty p.beneficiary (split sumMain amt).2 (W.factors .beneficiary) ++
        payCalls p.ty (W.outSeal E k p.layer .change p.contract p.ty) (a.sumAlt - (split sumMain amt).2) (W.factors .change)
  | .data t => E.dataOf t ∈ a.data ∧
      pm = (if a.dataMain then [.addDataRaw p.ty p.beneficiary (E.dataOf t) (W.seals .token)] else []) ∧
      pa = (if a.dataMain then [] else [.addDataRaw p.ty p.beneficiary (E.dataOf t) (W.seals .token)])
  | _ => False

theorem payCalls_input (ty : Nat) (sl : BSeal) (v bl : Nat) : (payCalls ty sl v bl).filterMap TCall.input = [] := by
  unfold payCalls; split <;> rfl

theorem payInvoice_ok {E : CEnv} {W : Wallet} {k : Stock} {p : Prep} {a a' : Acc} {st : Inv.InvoiceState} (h : payInvoice E W k p a st = .ok a') :
    ∃ pm pa, Pays E W k p st a pm pa ∧ TransitionBuilder.calls E.B pm a.main = .ok a'.main ∧ TransitionBuilder.calls E.B pa a.alt = .ok a'.alt ∧
      a'.mainIn = a.mainIn ∧ a'.altIn = a.altIn ∧ pm.filterMap TCall.input = [] ∧ pa.filterMap TCall.input = [] := by
  cases st with
  | void => cases h
  | attach x => cases h
  | amount amt =>
    obtain ⟨h1, sm, h2, h3, h4, h5, h6⟩ := payAmount_ok h
    refine ⟨_, _, ⟨h1, sm, h2, rfl, rfl⟩, h3, h4, h5, h6, ?_, ?_⟩ <;> rw [List.filterMap_append, payCalls_input, payCalls_input] <;> rfl
  | data t =>
    obtain ⟨h1, h2, h3, h4, h5⟩ := payToken_ok (E := E) h
    refine ⟨_, _, ⟨h1, rfl, rfl⟩, h4, h5, h2, h3, ?_, ?_⟩ <;> cases a.dataMain <;> rfl

/-- What a composed batch consists of. -/
structure Composed (E : CEnv) (W : Wallet) (k : Stock) (inv : Inv.Invoice) (prevs : List OutSeal) (b : Batch) where
  p : Prep
  spent : Spent
  a : Acc
  pm : List TCall
  pa : List TCall
  others : OMap Nat Spent
  blanks : List (Dichotomy TransitionInfo)
  tm : List BuiltTransition
  ta : List BuiltTransition
  prepared : Prepared E W k inv p
  s : Started E k p.contract p.iface (inv.operation.map E.name) p.main
  own : contractAssignmentsFor k p.contract (prevs.map OutSeal.outpoint) = .ok spent
  spending : Spending E W k p (wanted E inv.ownedState) (visited E p.contract (E.ordOuts p.contract spent)) { main := p.main, alt := p.alt } a
  pays : Pays E W k p inv.ownedState a pm pa
  otherState : spentState k p.contract (prevs.map OutSeal.outpoint) (k.index.contractsAssigning (prevs.map OutSeal.outpoint)) [] = .ok others
  looped : blankLoop E W k p.layer p.iface (E.ordContracts others) [] = .ok blanks
  batch : b.blanks = blanks.map (Dichotomy.map (TransitionInfo.setNonce W.priority))
  payments : b.payments = tm ++ ta
  main : Side E W k p (inv.operation.map E.name) s ((visited E p.contract (E.ordOuts p.contract spent)).filter (onMain W)) pm tm
  alt : Side E W k p (inv.operation.map E.name) s ((visited E p.contract (E.ordOuts p.contract spent)).filter (fun x => !onMain W x)) pa ta

theorem toList_map {α β : Type} (f : α → β) (d : Dichotomy α) : (d.map f).toList = d.toList.map f := by
  obtain ⟨x, y⟩ := d
  cases y <;> rfl

theorem compose_ok {E : CEnv} {n : Nat} (hE : E.Lawful n) {W : Wallet} {k : Stock} {inv : Inv.Invoice} {prevs : List OutSeal} {b : Batch}
    (h : compose E W k inv prevs = .ok b) : Nonempty (Composed E W k inv prevs b) := by
  unfold compose at h
  obtain ⟨p, h1, h⟩ := except_bind_ok.1 h
  obtain ⟨spent, h2, h⟩ := except_bind_ok.1 h
  obtain ⟨a, h3, h⟩ := except_bind_ok.1 h
  obtain ⟨a', h4, h⟩ := except_bind_ok.1 h
  obtain ⟨others, h5, h⟩ := except_bind_ok.1 h
  obtain ⟨blanks, h6, h⟩ := except_bind_ok.1 h
  obtain ⟨d, h7, h⟩ := except_bind_ok.1 h
  cases h
  have hp := prepare_ok h1
  obtain ⟨s⟩ := hp.started
  obtain ⟨hs, -, -⟩ := spendAll_ok h3
  obtain ⟨pm, pa, hpay, hm, ha, -, -, hpm, hpa⟩ := payInvoice_ok h4
  obtain ⟨lm, la, hd, hlm, hla⟩ := mainDichotomy_ok h7
  refine ⟨⟨p, spent, a, pm, pa, others, blanks, _, _, hp, s, h2, hs, hpay, h5, h6, rfl, ?_, side_of hE.B s hpm hs.main hm hlm W.priority,
    side_of hE.B s hpa (by have := hs.alt; simp only [hp.alt] at this; exact this) ha hla W.priority⟩⟩
  show ((d.map (TransitionInfo.setNonce W.priority)).toList.map (fun i => i.transition)) = _
  rw [toList_map, hd, List.map_append, List.map_append]

/-! ### The states which are spent -/

def _root_.Rgb.OutAssign.item (a : OutAssign) : Item := (a.sl, a.opout, a.state)

theorem flatMap_perm {α β : Type} {f g : α → List β} (l : List α) (h : ∀ a, (f a).Perm (g a)) : (l.flatMap f).Perm (l.flatMap g) := by
  induction l with
  | nil => exact .refl _
  | cons a l ih => rw [List.flatMap_cons, List.flatMap_cons]; exact (h a).append ih

theorem visited_perm {E : CEnv} {n : Nat} (hE : E.Lawful n) (c : Nat) (m : Spent) : (visited E c (E.ordOuts c m)).Perm m.flat := by
  unfold visited Spent.flat
  exact ((hE.outs c m).flatMap_right _).trans (flatMap_perm m (fun e => (hE.opouts c e.1 e.2).map _))

theorem own_perm {E : CEnv} {n : Nat} (hE : E.Lawful n) {k : Stock} {c : Nat} {prevs : List OutSeal} {m : Spent}
    (h : contractAssignmentsFor k c (prevs.map OutSeal.outpoint) = .ok m) (hn : ((k.stateAt c prevs).map (fun a => a.opout)).Nodup) :
    (visited E c (E.ordOuts c m)).Perm ((k.stateAt c prevs).map OutAssign.item) := by
  obtain ⟨v, hv, hwf, hl⟩ := contractAssignmentsFor_ok h
  unfold stateAt at hn ⊢
  rw [hv] at hn ⊢
  exact (visited_perm hE c m).trans (flat_perm hn hwf hl)

/-- Without distinctness: the same places. -/
theorem own_mem {E : CEnv} {n : Nat} (hE : E.Lawful n) {k : Stock} {c : Nat} {prevs : List OutSeal} {m : Spent}
    (h : contractAssignmentsFor k c (prevs.map OutSeal.outpoint) = .ok m) (s : OutSeal) (o : Opout) :
    (∃ st, (s, o, st) ∈ visited E c (E.ordOuts c m)) ↔ ∃ a ∈ k.stateAt c prevs, a.sl = s ∧ a.opout = o := by
  obtain ⟨v, hv, hwf, hl⟩ := contractAssignmentsFor_ok h
  unfold stateAt
  rw [hv]
  simp only [(visited_perm hE c m).mem_iff, hwf.mem_flat, hl]
  constructor
  · rintro ⟨st, hst⟩
    obtain ⟨a, ha, he⟩ := List.mem_map.1 (lastFor_mem hst)
    simp only [OutAssign.entry, Prod.mk.injEq] at he
    exact ⟨a, ha, he.1.1, he.1.2⟩
  · rintro ⟨a, ha, rfl, rfl⟩
    cases hx : lastFor (a.sl, a.opout) ((v.at_ (prevs.map OutSeal.outpoint)).map OutAssign.entry) with
    | some st => exact ⟨st, rfl⟩
    | none =>
      rw [lastFor_none] at hx
      exact absurd rfl (hx (OutAssign.entry a) (List.mem_map_of_mem ha))

theorem sumItems_perm {ty : Nat} {l m : List Item} (h : l.Perm m) : sumItems ty l = sumItems ty m :=
  ((h.filter _).map _).sum_nat

theorem sumItems_items (ty : Nat) (l : List OutAssign) : sumItems ty (l.map OutAssign.item) = sumOf ty l := by
  unfold sumItems sumOf
  rw [List.filter_map, List.map_map]
  rfl

/-- With distinct operation outputs, membership among the inputs selects exactly the states of one side. -/
theorem side_state {k : Stock} {c : Nat} {prevs : List OutSeal} {items : List Item} (q : Item → Bool)
    (hp : items.Perm ((k.stateAt c prevs).map OutAssign.item)) (hn : ((k.stateAt c prevs).map (fun a => a.opout)).Nodup) {ins : List Opout}
    (hi : ∀ o, o ∈ ins ↔ o ∈ (items.filter q).map (fun x => x.2.1)) :
    (items.filter q).Perm (((k.stateAt c prevs).filter (fun a => decide (a.opout ∈ ins))).map OutAssign.item) := by
  refine (hp.filter q).trans (.of_eq ?_)
  rw [List.filter_map]
  congr 1
  apply List.filter_congr
  intro a ha
  rw [Bool.eq_iff_iff]
  simp only [Function.comp, decide_eq_true_eq, hi]
  constructor
  · intro hq
    exact List.mem_map.2 ⟨a.item, List.mem_filter.2 ⟨hp.mem_iff.2 (List.mem_map_of_mem ha), hq⟩, rfl⟩
  · intro hm
    obtain ⟨x, hx, hxo⟩ := List.mem_map.1 hm
    obtain ⟨hx1, hx2⟩ := List.mem_filter.1 hx
    obtain ⟨a', ha', rfl⟩ := List.mem_map.1 (hp.mem_iff.1 hx1)
    have : a' = a := by
      rw [List.Nodup, List.pairwise_map] at hn
      refine Decidable.byContradiction fun hne => ?_
      have key : ∀ {l : List OutAssign}, l.Pairwise (fun a b => a.opout ≠ b.opout) → a' ∈ l → a ∈ l → False := by
        intro l hl h1 h2
        induction l with
        | nil => cases h1
        | cons y l ih =>
          rw [List.pairwise_cons] at hl
          rcases List.mem_cons.1 h1 with e1 | g1
          · rcases List.mem_cons.1 h2 with e2 | g2
            · exact hne (e1.trans e2.symm)
            · subst e1; exact hl.1 _ g2 hxo
          · rcases List.mem_cons.1 h2 with e2 | g2
            · subst e2; exact hl.1 _ g1 hxo.symm
            · exact ih hl.2 g1 g2
      exact key hn ha' ha
    rw [← this]; exact hx2

/-! ### Amounts -/

theorem payCalls_adds (I : IfaceImpl) (dflt : Option Nat) (aty ty : Nat) (sl : BSeal) (v bl : Nat) :
    addsOf I dflt aty (payCalls ty sl v bl) = if aty = ty ∧ v > 0 then [(sl, .fungible v bl 0)] else [] := by
  unfold payCalls
  by_cases hv : v > 0
  · by_cases ht : ty = aty
    · subst ht; simp [addsOf, hv, TCall.assigned]
    · have : ¬ (aty = ty ∧ v > 0) := fun h => ht h.1.symm
      rw [if_neg this, if_pos hv]
      simp [addsOf, TCall.assigned, ht]
  · rw [if_neg hv, if_neg (fun h => hv h.2)]
    rfl

/-- The inputs of a payment transition. -/
theorem Side.inputs {E : CEnv} {W : Wallet} {k : Stock} {p : Prep} {op : Option Nat} {s : Started E k p.contract p.iface op p.main}
    {l : List Item} {pays : List TCall} {ts : List BuiltTransition} (h : Side E W k p op s l pays ts) (hp : pays.filterMap TCall.input = [])
    {t : BuiltTransition} (ht : t ∈ ts) :
    t.op.contract = p.contract ∧ t.op.kind = .transition ∧ t.op.ty = s.tty ∧ t.op.inputs.Nodup ∧
      ∀ o, o ∈ t.op.inputs ↔ o ∈ l.map (fun x => x.2.1) := by
  rcases h with ⟨rfl, rfl⟩ | ⟨-, t', rfl, hb⟩
  · cases ht
  · simp only [List.mem_singleton] at ht
    subst ht
    refine ⟨hb.contract, hb.kind, hb.ty, hb.nodup, fun o => ?_⟩
    rw [hb.inputs, List.filterMap_append, hp, items_input]
    simp

/-- What a payment transition assigns of the invoiced type. -/
theorem Side.amounts {E : CEnv} {W : Wallet} {k : Stock} {p : Prep} {op : Option Nat} {s : Started E k p.contract p.iface op p.main}
    {l : List Item} {ben ch : BSeal} {x y f g : Nat} {ts : List BuiltTransition}
    (h : Side E W k p op s l (payCalls p.ty ben x f ++ payCalls p.ty ch y g) ts) (hne : ben ≠ ch) (hxy : x + y = sumItems p.ty l) :
    (ts.map (fun t => t.paidTo p.ty ben)).sum = x ∧ (ts.map (fun t => t.paidTo p.ty ch)).sum = y ∧
      ∀ t ∈ ts, t.total p.ty = sumItems p.ty l ∧ ∀ e ∈ t.outs p.ty, e.1 = some ben ∨ e.1 = some ch := by
  rcases h with ⟨rfl, rfl⟩ | ⟨-, t, rfl, hb⟩
  · have : sumItems p.ty [] = 0 := rfl
    rw [this] at hxy
    simp
    omega
  · have ha : ∀ (I : IfaceImpl) (dflt : Option Nat), addsOf I dflt p.ty (l.flatMap (itemCalls E W k p) ++ (payCalls p.ty ben x f ++ payCalls p.ty ch y g)) =
        (if x > 0 then [(ben, .fungible x f 0)] else []) ++ (if y > 0 then [(ch, .fungible y g 0)] else []) := by
      intro I dflt
      rw [addsOf_append, addsOf_append, items_adds, payCalls_adds, payCalls_adds]
      simp
    have ho := hb.outs p.ty
    rw [ha] at ho
    have ho := ho (by
      by_cases hx : x > 0 <;> by_cases hy : y > 0 <;> simp [hx, hy, hne])
    have h1 := outs_total ho
    have h2 := outs_paidTo ben ho
    have h3 := outs_paidTo ch ho
    have hmem : ∀ e ∈ t.outs p.ty, e.1 = some ben ∨ e.1 = some ch := by
      intro e he
      have := ho.mem_iff.1 (List.mem_map_of_mem he)
      obtain ⟨z, hz, hze⟩ := List.mem_map.1 this
      simp only [Prod.mk.injEq] at hze
      rw [← hze.1]
      rcases List.mem_append.1 hz with hz | hz <;> split at hz <;> simp at hz <;> subst hz <;> simp
    simp only [List.map_cons, List.map_nil, List.sum_cons, List.sum_nil, Nat.add_zero, List.mem_singleton, forall_eq]
    rw [h1, h2, h3, ← hxy]
    refine ⟨?_, ?_, ?_, hmem⟩
    · by_cases hx : x > 0 <;> by_cases hy : y > 0 <;> simp [hx, hy, Ne.symm hne, RState.amount] <;> omega
    · by_cases hx : x > 0 <;> by_cases hy : y > 0 <;> simp [hx, hy, hne, RState.amount] <;> omega
    · by_cases hx : x > 0 <;> by_cases hy : y > 0 <;> simp [hx, hy, RState.amount] <;> omega

theorem sumItems_split (W : Wallet) (ty : Nat) (l : List Item) :
    sumItems ty l = sumItems ty (l.filter (onMain W)) + sumItems ty (l.filter (fun x => !onMain W x)) := by
  induction l with
  | nil => rfl
  | cons x l ih =>
    have e1 : ∀ m : List Item, sumItems ty (x :: m) = sumItems ty [x] + sumItems ty m := fun m => sumItems_append ty [x] m
    rw [e1, ih, List.filter_cons, List.filter_cons]
    cases onMain W x with
    | true => simp only [Bool.not_true, Bool.false_eq_true, if_false, if_true]; rw [e1 (l.filter (onMain W))]; omega
    | false => simp only [Bool.not_false, Bool.false_eq_true, if_false, if_true]; rw [e1 (l.filter (fun x => !onMain W x))]; omega

/-- The sums, if there was no overflow. -/
theorem Spending.exact {E : CEnv} {W : Wallet} {k : Stock} {p : Prep} {want : Option Nat} {l : List Item} {a : Acc}
    (h : Spending E W k p want l { main := p.main, alt := p.alt } a) (hfit : E.B.debug = true ∨ sumItems p.ty l < w64) :
    a.sum = sumItems p.ty l ∧ a.sumAlt = sumItems p.ty (l.filter (fun x => !onMain W x)) := by
  rcases hfit with hd | hlt
  · obtain ⟨h1, h2⟩ := h.debug hd
    simp only [Nat.zero_add] at h1 h2
    exact ⟨h1, h2⟩
  · have hw : (0 : Nat) < w64 := by decide
    have h1 := h.sum
    have h2 := h.sumAlt
    have h3 := h.sumLt hw
    have h4 := h.altLt hw
    have h5 := sumItems_split W p.ty l
    simp only [Nat.zero_add] at h1 h2
    rw [Nat.mod_eq_of_lt h3, Nat.mod_eq_of_lt hlt] at h1
    rw [Nat.mod_eq_of_lt h4, Nat.mod_eq_of_lt (by omega)] at h2
    exact ⟨h1, h2⟩

theorem setBlinding_content (b : Nat) (st : RState) : (OpBuilder.setBlinding b st).content = st.content := by
  cases st <;> rfl

theorem Pays.adds {E : CEnv} {W : Wallet} {k : Stock} {p : Prep} {st : Inv.InvoiceState} {a : Acc} {pm pa : List TCall}
    (h : Pays E W k p st a pm pa) (I : IfaceImpl) (dflt : Option Nat) {aty : Nat} (hne : aty ≠ p.ty) :
    addsOf I dflt aty pm = [] ∧ addsOf I dflt aty pa = [] := by
  cases st with
  | void => exact h.elim
  | attach x => exact h.elim
  | amount amt =>
    obtain ⟨-, sm, -, rfl, rfl⟩ := h
    constructor <;> rw [addsOf_append, payCalls_adds, payCalls_adds] <;> simp [hne]
  | data t =>
    obtain ⟨-, rfl, rfl⟩ := h
    cases a.dataMain <;> simp [addsOf, TCall.assigned, Ne.symm hne]

theorem Pays.input {E : CEnv} {W : Wallet} {k : Stock} {p : Prep} {st : Inv.InvoiceState} {a : Acc} {pm pa : List TCall}
    (h : Pays E W k p st a pm pa) : pm.filterMap TCall.input = [] ∧ pa.filterMap TCall.input = [] := by
  cases st with
  | void => exact h.elim
  | attach x => exact h.elim
  | amount amt =>
    obtain ⟨-, sm, -, rfl, rfl⟩ := h
    constructor <;> rw [List.filterMap_append, payCalls_input, payCalls_input] <;> rfl
  | data t =>
    obtain ⟨-, rfl, rfl⟩ := h
    cases a.dataMain <;> simp [TCall.input]

/-- State of other types is moved. -/
theorem Side.moved {E : CEnv} {W : Wallet} {k : Stock} {p : Prep} {op : Option Nat} {s : Started E k p.contract p.iface op p.main}
    {l : List Item} {pays : List TCall} {ts : List BuiltTransition} (h : Side E W k p op s l pays ts) {aty : Nat} (hne : aty ≠ p.ty)
    (hp : ∀ I dflt, addsOf I dflt aty pays = []) (hn : ((movedItems E W k p.layer p.contract aty l).map Prod.fst).Nodup) :
    ∀ t ∈ ts, ((t.outs aty).map (fun e => (e.1, e.2.map RState.content))).Perm
      ((movedItems E W k p.layer p.contract aty l).map (fun e => (some e.1, some e.2.content))) := by
  rcases h with ⟨rfl, rfl⟩ | ⟨-, t, rfl, hb⟩
  · intro t ht; cases ht
  · intro t' ht
    simp only [List.mem_singleton] at ht
    subst ht
    have ho := hb.outs aty
    rw [addsOf_append, hp, List.append_nil, items_adds, if_neg hne] at ho
    exact ho hn

theorem filter_sublist_nodup {α β : Type} {f : α → β} {l : List α} (q : α → Bool) (h : (l.map f).Nodup) : ((l.filter q).map f).Nodup :=
  List.Sublist.nodup (List.filter_sublist.map f) h

/-- Both payments, with what they spend. -/
theorem Composed.sides {E : CEnv} {n : Nat} (hE : E.Lawful n) {W : Wallet} {k : Stock} {inv : Inv.Invoice} {prevs : List OutSeal} {b : Batch}
    (C : Composed E W k inv prevs b) (hn : ((k.stateAt C.p.contract prevs).map (fun a => a.opout)).Nodup) {t : BuiltTransition}
    (ht : t ∈ b.payments) : ∃ q : Item → Bool, (q = onMain W ∧ t ∈ C.tm ∨ q = (fun x => !onMain W x) ∧ t ∈ C.ta) ∧
      ((visited E C.p.contract (E.ordOuts C.p.contract C.spent)).filter q).Perm ((t.spends (k.stateAt C.p.contract prevs)).map OutAssign.item) := by
  rw [C.payments] at ht
  have hp := own_perm hE C.own hn
  rcases List.mem_append.1 ht with ht | ht
  · exact ⟨_, .inl ⟨rfl, ht⟩, side_state _ hp hn (C.main.inputs C.pays.input.1 ht).2.2.2.2⟩
  · exact ⟨_, .inr ⟨rfl, ht⟩, side_state _ hp hn (C.alt.inputs C.pays.input.2 ht).2.2.2.2⟩

theorem movedItems_perm {E : CEnv} {W : Wallet} {k : Stock} {layer : Layer1} {c aty : Nat} {l : List Item} {m : List OutAssign}
    (h : l.Perm (m.map OutAssign.item)) :
    (movedItems E W k layer c aty l).Perm ((ofType aty m).map (fun a => (W.outSeal E k layer (.moved c a.sl a.opout) c aty,
      OpBuilder.setBlinding (W.factors (.moved c a.sl a.opout)) a.state))) := by
  unfold movedItems
  refine ((h.filter _).map _).trans (.of_eq ?_)
  rw [List.filter_map, List.map_map]
  rfl

end Stock

end Rgb
