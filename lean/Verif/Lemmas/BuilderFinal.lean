import Verif.Lemmas.BuilderDone

/-! Lemmas from calls to results. -/

namespace Rgb

theorem lastFor_mapVal {κ ν μ : Type} [DecidableEq κ] (f : ν → μ) (k : κ) (l : List (κ × ν)) :
    lastFor k (l.map (fun e => (e.1, f e.2))) = (lastFor k l).map f := by
  induction l with
  | nil => rfl
  | cons e l ih =>
    rw [List.map_cons, show ((e.1, f e.2) :: l.map (fun e => (e.1, f e.2))) = [(e.1, f e.2)] ++ l.map (fun e => (e.1, f e.2)) from rfl,
      lastFor_cat, ih, show e :: l = [e] ++ l from rfl, lastFor_cat]
    cases lastFor k l with
    | some v => simp
    | none => by_cases h : e.1 = k <;> simp [lastFor, h]

theorem allFor_eq {κ ν : Type} [DecidableEq κ] (k : κ) (l : List (κ × ν)) :
    allFor k l = (l.filter (fun e => e.1 = k)).map Prod.snd := by
  induction l with
  | nil => rfl
  | cons e l ih =>
    unfold allFor at *
    by_cases h : e.1 = k
    · simp [h, ih]
    · simp [h, ih]

theorem RState.content_of_untag {a b : RState} (h : a.untag = b.untag) : a.content = b.content := by
  rw [← RState.content_untag a, ← RState.content_untag b, h]

/-- From steps to what was found. -/
theorem found_content {a b : OpBuilder} {ps : List Prim} (r : PRun a ps b) (hempty : ∀ ty sl, a.found ty sl = none)
    {slots : List ((Nat × BSeal) × RState)} (hs : (puts ps).map slotUntag = slots.map slotUntag) (ty : Nat) (sl : BSeal) :
    (b.found ty sl).map RState.untag = (lastFor (ty, sl) slots).map RState.untag := by
  rw [r.found, hempty, Option.or_none]
  rw [← lastFor_mapVal, ← lastFor_mapVal]
  exact congrArg (lastFor (ty, sl)) hs

theorem map_content_of_untag {x y : Option RState} (h : x.map RState.untag = y.map RState.untag) :
    x.map RState.content = y.map RState.content := by
  cases x <;> cases y <;> simp at h ⊢
  exact RState.content_of_untag h

theorem setBlinding_content' {x : Nat} {st : RState} : (OpBuilder.setBlinding x st).content = st.content := setBlinding_content x st

theorem Completed.hold {E : BEnv} {n : Nat} (hE : E.Lawful n) {b : OpBuilder} {ins : List (Opout × RState)} {ty : Nat}
    {t : TypedAssigns} (hi : b.Inv) (h : OpBuilder.Completed E b ins ty t) {last : BSeal → Option RState}
    (hl : ∀ sl, (b.found ty sl).map RState.untag = (last sl).map RState.untag) : t.Hold last := by
  obtain ⟨sls, f, h1, h2, h3, h4⟩ := Completed.items hE hi h
  refine ⟨sls, fun sl => OpBuilder.toAssign (sl, f sl), h1, h2, ?_, ?_⟩
  · intro sl
    rw [h3]
    have := hl sl
    cases hx : b.found ty sl <;> cases hy : last sl <;> rw [hx, hy] at this <;> simp at this <;> simp
  · intro sl hsl
    refine ⟨toAssign_on sl _, ?_⟩
    rw [toAssign_state]
    obtain ⟨st, hf, -, hst⟩ := h4 sl hsl
    rw [← map_content_of_untag (hl sl), hf]
    simp only [Option.map_some, Option.some.injEq]
    rcases hst with hst | ⟨x, hst⟩
    · rw [hst]
    · rw [hst, setBlinding_content]

/-- The tag of each amount of a completed operation. -/
theorem Completed.tag {E : BEnv} {n : Nat} (hE : E.Lawful n) {b : OpBuilder} {ins : List (Opout × RState)} {ty : Nat}
    {t : TypedAssigns} (hi : b.Inv) (h : OpBuilder.Completed E b ins ty t) {a : Assign} (ha : a ∈ t.items) {v bl tag : Nat}
    (hst : a.state? = some (.fungible v bl tag)) : OMap.get? b.tags ty = some tag := by
  obtain ⟨sls, f, h1, h2, h3, h4⟩ := Completed.items hE hi h
  rw [h2, List.mem_map] at ha
  obtain ⟨sl, hsl, rfl⟩ := ha
  obtain ⟨st, hf, hk, hfs⟩ := h4 sl hsl
  rw [toAssign_state] at hst
  have hst' : f sl = .fungible v bl tag := Option.some.inj hst
  have : ∃ bl', st = .fungible v bl' tag := by
    rcases hfs with hfs | ⟨x, hfs⟩
    · exact ⟨bl, by rw [← hfs, hst']⟩
    · rw [hst'] at hfs
      cases st <;> simp [OpBuilder.setBlinding] at hfs
      obtain ⟨rfl, rfl, rfl⟩ := hfs
      exact ⟨_, rfl⟩
  obtain ⟨bl', rfl⟩ := this
  have hf' : Slots.find b.fungible ty sl = some (.fungible v bl' tag) := by
    unfold OpBuilder.found at hf
    cases hs : OMap.get? b.schema.ownedTypes ty with
    | none => rw [hs] at hf; cases hf
    | some sch =>
      rw [hs] at hf
      simp only at hf
      have hk' := hi.kinds _ _ _ _ hf
      rw [← hk'] at hf; exact hf
  exact hi.tag _ _ _ _ _ hf'

/-- The layer of each assignment of a completed operation. -/
theorem Completed.sealed {E : BEnv} {n : Nat} (hE : E.Lawful n) {b : OpBuilder} {ins : List (Opout × RState)} {ty : Nat}
    {t : TypedAssigns} (hi : b.Inv) (h : OpBuilder.Completed E b ins ty t) {a : Assign} (ha : a ∈ t.items) :
    ∃ sl, (b.found ty sl).isSome = true ∧ a.layer1 = sl.layer1 := by
  obtain ⟨sls, f, h1, h2, h3, h4⟩ := Completed.items hE hi h
  rw [h2, List.mem_map] at ha
  obtain ⟨sl, hsl, rfl⟩ := ha
  exact ⟨sl, (h3 sl).1 hsl, toAssign_layer1 _ _⟩

theorem ContractBuilder.new_found (det : Bool) (issuer : Nat) (iface : Iface) (schema : Schema) (iimpl : IfaceImpl) (ty : Nat) (sl : BSeal) :
    (ContractBuilder.new det issuer iface schema iimpl).builder.found ty sl = none := by
  unfold OpBuilder.found ContractBuilder.new
  cases OMap.get? schema.ownedTypes ty with
  | none => rfl
  | some s => cases s <;> rfl

theorem TransitionBuilder.new_found (det : Bool) (contract : Nat) (iface : Iface) (schema : Schema) (iimpl : IfaceImpl) (x : Nat) (ty : Nat)
    (sl : BSeal) : (TransitionBuilder.new det contract iface schema iimpl x).builder.found ty sl = none := by
  unfold OpBuilder.found TransitionBuilder.new
  cases OMap.get? schema.ownedTypes ty with
  | none => rfl
  | some s => cases s <;> rfl

theorem ContractBuilder.issue_ok {E : BEnv} {valid : BuiltGenesis → Bool} {det : Bool} {ts : Int} {b : ContractBuilder} {g : BuiltGenesis}
    (h : b.issue E valid det ts = .ok g) : ∃ a, b.builder.complete E [] = .ok a ∧ valid g = true ∧
      g = { timestamp := ts, testnet := b.testnet, liquid := b.liquid, tags := b.builder.tags, metadata := [],
            globals := b.builder.globals, assigns := a, issuer := b.issuer } := by
  simp only [ContractBuilder.issue, except_bind_ok, failIf_ok] at h
  obtain ⟨_, _, a, ha, _, hv, h⟩ := h
  cases h
  exact ⟨a, ha, by simpa using hv, rfl⟩

theorem TransitionBuilder.complete_ok {E : BEnv} {b : TransitionBuilder} {t : BuiltTransition} (h : b.complete E = .ok t) :
    ∃ a, b.builder.complete E b.inputs = .ok a ∧
      t = { op :=
              { kind := .transition, contract := b.contract, ty := b.ty, nonce := b.nonce, globals := b.builder.globals,
                inputs := OMap.keys b.inputs, assigns := a },
            metadata := [] } := by
  simp only [TransitionBuilder.complete, except_bind_ok] at h
  obtain ⟨a, ha, h⟩ := h
  cases h
  exact ⟨a, ha, rfl⟩

theorem globals_empty {m : OMap Nat (List Nat)} {a b : OpBuilder} {ps : List Prim} (r : PRun a ps b) (ha : a.globals = [])
    (hm : b.globals = m) (ty : Nat) :
    OMap.get? m ty = if allFor ty (globs ps) = [] then none else some (allFor ty (globs ps)) := by
  have h1 := r.globals ty
  have h2 := r.globals_known ty
  rw [ha, hm] at h1 h2
  rw [← allFor_eq] at h1
  unfold globalsOf OMap.contains at *
  simp only [OMap.get?_nil, Option.getD_none, List.nil_append, Option.isSome_none, Bool.false_or] at h1 h2
  have h3 : (∃ e ∈ globs ps, e.1 = ty) ↔ allFor ty (globs ps) ≠ [] := by
    rw [allFor_eq]
    simp only [ne_eq, List.map_eq_nil_iff, List.filter_eq_nil_iff, decide_eq_true_eq]
    constructor
    · rintro ⟨e, he, hh⟩ h; exact h e he hh
    · intro h; exact Decidable.byContradiction (fun hn => h (fun e he hh => hn ⟨e, he, hh⟩))
  cases hg : OMap.get? m ty with
  | none =>
    rw [hg] at h2
    simp only [Option.isSome_none] at h2
    have : ¬ ∃ e ∈ globs ps, e.1 = ty := by simpa using h2.symm
    rw [h3] at this
    simp only [ne_eq, Decidable.not_not] at this
    simp [this]
  | some l =>
    rw [hg] at h1 h2
    simp only [Option.getD_some, Option.isSome_some] at h1 h2
    have : ∃ e ∈ globs ps, e.1 = ty := by simpa using h2.symm
    rw [h3] at this
    rw [if_neg this, h1]

theorem ContractBuilder.has_of_found {E : BEnv} {cs : List CCall} {b b' : ContractBuilder} {ps : List Prim} (d : DidAll b cs b' ps)
    (hempty : ∀ ty sl, b.builder.found ty sl = none) {ty : Nat} {sl : BSeal} (h : (b'.builder.found ty sl).isSome = true) :
    b'.hasLayer1 sl.layer1 = true := by
  have hf := found_content d.run hempty d.puts ty sl
  obtain ⟨st, hst⟩ := Option.isSome_iff_exists.1 h
  rw [hst] at hf
  cases hl : lastFor (ty, sl) (cs.filterMap (CCall.slot b.builder.iimpl)) with
  | none => rw [hl] at hf; simp at hf
  | some st' => exact d.layer _ (lastFor_mem hl)

theorem OMap.extend_nil_sorted {κ ν : Type} [Key κ] [DecidableEq κ] (es : List (κ × ν)) : OMap.Sorted (OMap.extend [] es) :=
  OMap.Sorted.nil.extend es

theorem filter_map_keys {κ ν : Type} [Key κ] [DecidableEq κ] {m : OMap κ ν} (h : OMap.Sorted m) (p : κ → Bool) (f : ν → Nat) :
    (m.filter (fun e => p e.1)).map (fun e => f e.2) =
      ((OMap.keys m).filter p).map (fun k => ((OMap.get? m k).map f).getD 0) := by
  have : ∀ l : List (κ × ν), (∀ e ∈ l, OMap.get? m e.1 = some e.2) →
      (l.filter (fun e => p e.1)).map (fun e => f e.2) =
      ((l.map Prod.fst).filter p).map (fun k => ((OMap.get? m k).map f).getD 0) := by
    intro l hl
    induction l with
    | nil => rfl
    | cons e l ih =>
      have ih' := ih (fun x hx => hl x (List.mem_cons_of_mem _ hx))
      have he := hl e List.mem_cons_self
      by_cases hp : p e.1 = true
      · simp [hp, he, ih']
      · simp [hp, ih']
  exact this m (fun e he => h.get?_of_mem (k := e.1) (v := e.2) he)

end Rgb
