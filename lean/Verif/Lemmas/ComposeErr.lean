import Verif.Lemmas.Blank

/-! Lemmas about errors of composing: where they come from. -/

namespace Rgb

/-- Errors other than the four whose cause is stated exactly. -/
def CErr.plain : CErr → Bool
  | .invoiceExpired => false
  | .noContract => false
  | .noIface => false
  | .insufficientState => false
  | _ => true

theorem CErr.isBuilder.plain {e : CErr} (h : e.isBuilder) : e.plain = true := by cases e <;> first | rfl | exact h.elim

namespace Stock

/-- All errors of a computation are plain. -/
structure Tame {α : Type} (x : Except CErr α) : Prop where
  plain : ∀ e, x = .error e → e.plain = true

theorem Tame.ok {α : Type} (a : α) : Tame (.ok a) := ⟨fun e h => by cases h⟩

theorem Tame.err {α : Type} {e : CErr} (h : e.plain = true) : Tame (.error e : Except CErr α) := ⟨fun e' h' => by cases h'; exact h⟩

theorem Tame.bind {α β : Type} {x : Except CErr α} {f : α → Except CErr β} (hx : Tame x) (hf : ∀ a, x = .ok a → Tame (f a)) : Tame (x >>= f) := by
  constructor
  intro e h
  rcases except_bind_error.1 h with h | ⟨a, ha, h⟩
  · exact hx.plain e h
  · exact (hf a ha).plain e h

theorem Tame.lift {α : Type} (x : Except BErr α) : Tame (liftB x) := ⟨fun _ h => (liftB_err h).plain⟩

theorem Tame.expect {α : Type} (x : Except BErr α) : Tame (expectB x) := ⟨fun _ h => by rw [expectB_err h]; rfl⟩

theorem Tame.or {α : Type} {e : CErr} (h : e.plain = true) (x : Option α) : Tame (orErr e x) := by
  cases x with
  | none => exact .err h
  | some a => exact .ok a

theorem Tame.fail {e : CErr} (h : e.plain = true) (c : Bool) : Tame (failIf e c) := by
  cases c with
  | true => exact .err h
  | false => exact .ok ()

theorem tame_addTags (tags : List (Nat × Nat)) (b : TransitionBuilder) : Tame (addTags tags b) := by
  constructor; intro e h; rw [addTags_err h]; rfl

theorem tame_extracts (E : CEnv) (s : MemStash) (si : SchemaIfaces) (d : IfaceDoc) : Tame (extracts E s si d) := by
  unfold extracts
  cases extract E.S s si.doc [d] with
  | error e => exact .err rfl
  | ok _ => exact .ok _

theorem tame_contractSchema (E : CEnv) (s : MemStash) (c : Nat) : Tame (contractSchema E s c) :=
  .bind (.or rfl _) (fun _ _ => .bind (.or rfl _) (fun _ _ => .ok _))

theorem tame_ifaceRef (s : MemStash) (r : IfaceRef) : Tame (ifaceRef s r) := by
  cases r <;> exact .or rfl _

theorem tame_transitionBuilder (E : CEnv) (s : MemStash) (c : Nat) (iface : IfaceRef) (op : Option Nat) : Tame (transitionBuilder E s c iface op) := by
  unfold transitionBuilder
  refine .bind (tame_contractSchema E s c) (fun x _ => ?_)
  obtain ⟨g, si⟩ := x
  exact .bind (tame_ifaceRef ..) (fun _ _ => .bind (.or rfl _) (fun _ _ => .bind (tame_extracts ..) (fun _ _ =>
    .bind (.expect _) (fun _ _ => tame_addTags ..))))

theorem tame_blankImpl (E : CEnv) (s : MemStash) (si : SchemaIfaces) (d : IfaceDoc) : Tame (blankImpl E s si d) := by
  unfold blankImpl
  split
  · exact .ok _
  · split
    · exact .err rfl
    · exact .bind (.or rfl _) (fun _ _ => .ok _)

theorem tame_blankBuilder (E : CEnv) (s : MemStash) (c : Nat) (iface : IfaceRef) : Tame (blankBuilder E s c iface) := by
  unfold blankBuilder
  refine .bind (tame_contractSchema E s c) (fun x _ => ?_)
  obtain ⟨g, si⟩ := x
  refine .bind (tame_ifaceRef ..) (fun _ _ => .bind (.fail rfl _) (fun _ _ => .bind (tame_extracts ..) (fun _ _ =>
    .bind (tame_blankImpl ..) (fun y _ => ?_))))
  obtain ⟨d, impl⟩ := y
  exact tame_addTags ..

theorem tame_outputFor (E : CEnv) (W : Wallet) (k : Stock) (layer : Layer1) (site : Site) (c ty : Nat) : Tame (outputFor E W k layer site c ty) := by
  constructor; intro e h; rw [outputFor_err h]; rfl

theorem tame_on (a : Acc) (m : Bool) (f : TransitionBuilder → Except BErr TransitionBuilder) : Tame (a.on m f) :=
  ⟨fun _ h => (on_err h).plain⟩

theorem tame_addU (E : CEnv) (a b : Nat) : Tame (addU E a b) := by
  constructor; intro e h; rw [(addU_err h).1]; rfl

theorem tame_count (E : CEnv) (want : Option Nat) (m : Bool) (a : Acc) (st : RState) : Tame (a.count E want m st) := by
  cases st with
  | void => exact .ok _
  | data v s => exact .ok _
  | attach a s => exact .ok _
  | fungible v b t =>
    simp only [Acc.count]
    refine .bind (tame_addU ..) (fun _ _ => ?_)
    cases m with
    | true => exact .bind (.ok _) (fun _ _ => .ok _)
    | false => exact .bind (tame_addU ..) (fun _ _ => .ok _)

theorem tame_spendOne (E : CEnv) (W : Wallet) (k : Stock) (p : Prep) (want : Option Nat) (s : OutSeal) (a : Acc) (o : Opout) (st : RState) :
    Tame (spendOne E W k p want s a o st) := by
  unfold spendOne
  refine .bind (tame_on ..) (fun _ _ => ?_)
  split
  · exact .bind (tame_outputFor ..) (fun _ _ => tame_on ..)
  · exact tame_count ..

theorem tame_spendList (E : CEnv) (W : Wallet) (k : Stock) (p : Prep) (want : Option Nat) (s : OutSeal) (l : List (Opout × RState)) (a : Acc) :
    Tame (spendList E W k p want s l a) := by
  induction l generalizing a with
  | nil => exact .ok _
  | cons x l ih => exact .bind (tame_spendOne ..) (fun _ _ => ih _)

theorem tame_spendAll (E : CEnv) (W : Wallet) (k : Stock) (p : Prep) (want : Option Nat) (l : List (OutSeal × OMap Opout RState)) (a : Acc) :
    Tame (spendAll E W k p want l a) := by
  induction l generalizing a with
  | nil => exact .ok _
  | cons x l ih => exact .bind (tame_spendList ..) (fun _ _ => ih _)

theorem tame_pay (b : TransitionBuilder) (ty : Nat) (sl : BSeal) (v bl : Nat) : Tame (pay b ty sl v bl) := by
  unfold pay
  split
  · exact .lift _
  · exact .ok _

theorem tame_subU (E : CEnv) (a b : Nat) : Tame (subU E a b) := by
  unfold subU
  split
  · exact .ok _
  · cases E.B.debug with
    | true => exact .err rfl
    | false => exact .ok _

theorem tame_own (k : Stock) (c : Nat) (outs : List Outpoint) : Tame (contractAssignmentsFor k c outs) := by
  constructor; intro e h; obtain ⟨x, rfl⟩ := contractAssignmentsFor_err h; rfl

theorem tame_spentState (k : Stock) (own : Nat) (outs : List Outpoint) (ids : List Nat) (m : OMap Nat Spent) : Tame (spentState k own outs ids m) := by
  constructor; intro e h; obtain ⟨x, rfl⟩ := spentState_err h; rfl

theorem tame_moveState (b : TransitionBuilder) (o : Opout) (sl : BSeal) (st : RState) : Tame (moveState b o sl st) :=
  .bind (.lift _) (fun _ _ => .lift _)

theorem tame_blankList (E : CEnv) (W : Wallet) (k : Stock) (layer : Layer1) (id : Nat) (s : OutSeal) (l : List (Opout × RState)) (a : BlankAcc) :
    Tame (blankList E W k layer id s l a) := by
  induction l generalizing a with
  | nil => exact .ok _
  | cons x l ih =>
    obtain ⟨o, st⟩ := x
    simp only [blankList]
    refine .bind (tame_outputFor ..) (fun _ _ => ?_)
    cases s.method with
    | tapretFirst => exact .bind (tame_moveState ..) (fun _ _ => ih _)
    | opretFirst => exact .bind (tame_moveState ..) (fun _ _ => ih _)

theorem tame_blankAll (E : CEnv) (W : Wallet) (k : Stock) (layer : Layer1) (id : Nat) (l : List (OutSeal × OMap Opout RState)) (a : BlankAcc) :
    Tame (blankAll E W k layer id l a) := by
  induction l generalizing a with
  | nil => exact .ok _
  | cons x l ih => exact .bind (tame_blankList ..) (fun _ _ => ih _)

theorem tame_newInfo (E : CEnv) (t : BuiltTransition) (outs : List OutSeal) : Tame (newInfo E t outs) := by
  unfold newInfo
  split
  · exact .ok _
  · exact .err rfl
  · exact .err rfl
  · cases E.B.debug <;> exact .err rfl

theorem tame_blankInfo (E : CEnv) (b : TransitionBuilder) (outs : List OutSeal) : Tame (blankInfo E b outs) := by
  unfold blankInfo
  split
  · exact .bind (.lift _) (fun _ _ => .bind (tame_newInfo ..) (fun _ _ => .ok _))
  · exact .ok _

theorem tame_blankFor (E : CEnv) (W : Wallet) (k : Stock) (layer : Layer1) (iface id : Nat) (l : Spent) : Tame (blankFor E W k layer iface id l) :=
  .bind (tame_blankBuilder ..) (fun _ _ => .bind (tame_blankBuilder ..) (fun _ _ => .bind (tame_blankAll ..) (fun _ _ =>
    .bind (tame_blankInfo ..) (fun _ _ => .bind (tame_blankInfo ..) (fun _ _ => .or rfl _)))))

theorem tame_blankLoop (E : CEnv) (W : Wallet) (k : Stock) (layer : Layer1) (iface : Nat) (l : List (Nat × Spent)) (bs : List (Dichotomy TransitionInfo)) :
    Tame (blankLoop E W k layer iface l bs) := by
  induction l generalizing bs with
  | nil => exact .ok _
  | cons x l ih => exact .bind (tame_blankFor ..) (fun _ _ => .bind (.fail rfl _) (fun _ _ => ih _))

theorem tame_mainInfo (E : CEnv) (b : TransitionBuilder) (outs : List OutSeal) : Tame (mainInfo E b outs) :=
  .bind (.lift _) (fun _ _ => tame_newInfo ..)

theorem tame_assignmentName (E : CEnv) (inv : Inv.Invoice) (b : TransitionBuilder) : Tame (assignmentName E inv b) := by
  unfold assignmentName
  split
  · exact .ok _
  · split
    · exact .ok _
    · exact .err rfl
    · exact .err rfl

theorem tame_beneficiarySeal (W : Wallet) (layer : Layer1) (b : Inv.Beneficiary) : Tame (beneficiarySeal W layer b) := by
  unfold beneficiarySeal
  split <;> split
  · exact .ok _
  · exact .err rfl
  · exact .err rfl
  · exact .ok _

/-- What comes after the first three checks. -/
def prepareRest (E : CEnv) (W : Wallet) (k : Stock) (inv : Inv.Invoice) (c : Nat) (iface : Text) : Except CErr Prep := do
  let main ← transitionBuilder E k.stash c (.name (E.name iface)) (inv.operation.map E.name)
  let name ← assignmentName E inv main
  let ty ← orErr (.builder (.invalidStateField name)) (main.builder.assignmentsType name)
  let alt ← transitionBuilder E k.stash c (.name (E.name iface)) (inv.operation.map E.name)
  let layer := Layer1.ofInv inv.beneficiary.layer1
  let ben ← beneficiarySeal W layer inv.beneficiary.intoInner
  .ok ⟨c, E.name iface, ty, layer, main, alt, ben⟩

theorem tame_prepareRest (E : CEnv) (W : Wallet) (k : Stock) (inv : Inv.Invoice) (c : Nat) (iface : Text) : Tame (prepareRest E W k inv c iface) :=
  .bind (tame_transitionBuilder ..) (fun _ _ => .bind (tame_assignmentName ..) (fun _ _ => .bind (.or rfl _) (fun _ _ =>
    .bind (tame_transitionBuilder ..) (fun _ _ => .bind (tame_beneficiarySeal ..) (fun _ _ => .ok _)))))

/-- Whether the invoice has expired. -/
def expired (E : CEnv) (inv : Inv.Invoice) : Bool := (inv.expiry.map (fun e => decide (e < E.now))).getD false

theorem expired_iff {E : CEnv} {inv : Inv.Invoice} : expired E inv = true ↔ ∃ e, inv.expiry = some e ∧ e < E.now := by
  unfold expired
  cases inv.expiry <;> simp

theorem prepare_eq (E : CEnv) (W : Wallet) (k : Stock) (inv : Inv.Invoice) : prepare E W k inv =
    (failIf .invoiceExpired (expired E inv) >>= fun _ => orErr .noContract inv.contract >>= fun c =>
      orErr .noIface inv.iface >>= fun i => prepareRest E W k inv c i) := rfl

/-- What comes after the preparation and isn't plain: not enough state. -/
theorem rest_err {E : CEnv} {W : Wallet} {k : Stock} {inv : Inv.Invoice} {prevs : List OutSeal} {p : Prep} {a : Acc} {e : CErr}
    (h : (payInvoice E W k p a inv.ownedState >>= fun a =>
      spentState k p.contract (prevs.map OutSeal.outpoint) (k.index.contractsAssigning (prevs.map OutSeal.outpoint)) [] >>= fun others =>
      blankLoop E W k p.layer p.iface (E.ordContracts others) [] >>= fun blanks => mainDichotomy E a >>= fun main =>
      (.ok (Batch.setPriority W.priority ⟨main, blanks⟩) : Except CErr Batch)) = .error e) (he : e.plain = false) :
    e = .insufficientState ∧ ((∃ amt, inv.ownedState = .amount amt ∧ a.sum < amt) ∨ (∃ t, inv.ownedState = .data t ∧ E.dataOf t ∉ a.data) ∨
      ∃ a', payInvoice E W k p a inv.ownedState = .ok a' ∧ a'.main.hasInputs = false ∧ a'.alt.hasInputs = false) := by
  have hno : ∀ {α : Type} {x : Except CErr α}, Tame x → x = .error e → False := by
    intro α x ht hx
    have := ht.plain e hx
    rw [he] at this
    cases this
  rcases except_bind_error.1 h with h | ⟨a', ha', h⟩
  · cases hs : inv.ownedState with
    | void => rw [hs] at h; cases h; cases he
    | attach x => rw [hs] at h; cases h; cases he
    | amount amt =>
      rw [hs] at h
      simp only [payInvoice, payAmount] at h
      rcases except_bind_error.1 h with h | ⟨_, _, h⟩
      · cases hd : decide (a.sum < amt) with
        | true => rw [hd] at h; cases h; exact ⟨rfl, .inl ⟨amt, rfl, by simpa using hd⟩⟩
        | false => rw [hd] at h; cases h
      · exact (hno (.bind (tame_subU ..) (fun _ _ => .bind (tame_pay ..) (fun _ _ => .bind (tame_pay ..) (fun _ _ =>
          .bind (tame_outputFor ..) (fun _ _ => .bind (tame_pay ..) (fun _ _ => .bind (tame_pay ..) (fun _ _ => .ok _))))))) h).elim
    | data t =>
      rw [hs] at h
      simp only [payInvoice, payToken] at h
      rcases except_bind_error.1 h with h | ⟨_, _, h⟩
      · cases hd : decide (E.dataOf t ∉ a.data) with
        | true => rw [hd] at h; cases h; exact ⟨rfl, .inr (.inl ⟨t, rfl, by simpa using hd⟩)⟩
        | false => rw [hd] at h; cases h
      · exact (hno (tame_on ..) h).elim
  · rcases except_bind_error.1 h with h | ⟨_, _, h⟩
    · exact (hno (tame_spentState ..) h).elim
    · rcases except_bind_error.1 h with h | ⟨_, _, h⟩
      · exact (hno (tame_blankLoop ..) h).elim
      · rcases except_bind_error.1 h with h | ⟨_, _, h⟩
        · unfold mainDichotomy at h
          cases h1 : a'.main.hasInputs <;> cases h2 : a'.alt.hasInputs <;> rw [h1, h2] at h
          · cases h; exact ⟨rfl, .inr (.inr ⟨a', ha', h1, h2⟩)⟩
          · exact (hno (.bind (tame_mainInfo ..) (fun _ _ => .ok _)) h).elim
          · exact (hno (.bind (tame_mainInfo ..) (fun _ _ => .ok _)) h).elim
          · exact (hno (.bind (tame_mainInfo ..) (fun _ _ => .bind (tame_mainInfo ..) (fun _ _ => .ok _))) h).elim
        · cases h

theorem orErr_error {ε α : Type} {e e' : ε} {x : Option α} : orErr e x = .error e' ↔ x = none ∧ e' = e := by
  cases x <;> simp [orErr, eq_comm]

theorem failIf_error {ε : Type} {e e' : ε} {c : Bool} : failIf e c = .error e' ↔ c = true ∧ e' = e := by
  cases c <;> simp [failIf, eq_comm]

/-- Where an error of preparation which isn't plain comes from. -/
theorem prepare_err {E : CEnv} {W : Wallet} {k : Stock} {inv : Inv.Invoice} {e : CErr} (h : prepare E W k inv = .error e) (he : e.plain = false) :
    (e = .invoiceExpired ∧ expired E inv = true) ∨ (e = .noContract ∧ expired E inv = false ∧ inv.contract = none) ∨
      (e = .noIface ∧ expired E inv = false ∧ inv.contract ≠ none ∧ inv.iface = none) := by
  rw [prepare_eq] at h
  rcases except_bind_error.1 h with h | ⟨_, h1, h⟩
  · rw [failIf_error] at h; exact .inl ⟨h.2, h.1⟩
  · rw [failIf_ok] at h1
    rcases except_bind_error.1 h with h | ⟨c, h2, h⟩
    · rw [orErr_error] at h; exact .inr (.inl ⟨h.2, h1, h.1⟩)
    · rw [orErr_ok] at h2
      rcases except_bind_error.1 h with h | ⟨_, _, h⟩
      · rw [orErr_error] at h; exact .inr (.inr ⟨h.2, h1, by rw [h2]; simp, h.1⟩)
      · have := (tame_prepareRest E W k inv c _).plain e h
        rw [he] at this; cases this

/-- The state of a composition which stopped because there isn't enough state. -/
theorem compose_err {E : CEnv} {W : Wallet} {k : Stock} {inv : Inv.Invoice} {prevs : List OutSeal} {e : CErr}
    (h : compose E W k inv prevs = .error e) (he : e.plain = false) :
    prepare E W k inv = .error e ∨ (e = .insufficientState ∧ ∃ p spent a, prepare E W k inv = .ok p ∧
      contractAssignmentsFor k p.contract (prevs.map OutSeal.outpoint) = .ok spent ∧
      spendAll E W k p (wanted E inv.ownedState) (E.ordOuts p.contract spent) { main := p.main, alt := p.alt } = .ok a ∧
      ((∃ amt, inv.ownedState = .amount amt ∧ a.sum < amt) ∨ (∃ t, inv.ownedState = .data t ∧ E.dataOf t ∉ a.data) ∨
        ∃ a', payInvoice E W k p a inv.ownedState = .ok a' ∧ a'.main.hasInputs = false ∧ a'.alt.hasInputs = false)) := by
  unfold compose at h
  rcases except_bind_error.1 h with h | ⟨p, h1, h⟩
  · exact .inl h
  · rcases except_bind_error.1 h with h | ⟨spent, h2, h⟩
    · have := (tame_own _ _ _).plain e h
      rw [he] at this; cases this
    · rcases except_bind_error.1 h with h | ⟨a, h3, h⟩
      · have := (tame_spendAll ..).plain e h
        rw [he] at this; cases this
      · obtain ⟨r1, r2⟩ := rest_err h he
        exact .inr ⟨r1, p, spent, a, h1, h2, h3, r2⟩

/-- No inputs: nothing is at the outputs. -/
theorem no_inputs {E : CEnv} {W : Wallet} {k : Stock} {inv : Inv.Invoice} {p : Prep} {l : List (OutSeal × OMap Opout RState)} {a a' : Acc}
    (hp : prepare E W k inv = .ok p) {want : Option Nat} (hs : spendAll E W k p want l { main := p.main, alt := p.alt } = .ok a)
    {st : Inv.InvoiceState} (hpay : payInvoice E W k p a st = .ok a') (h1 : a'.main.hasInputs = false) (h2 : a'.alt.hasInputs = false) :
    visited E p.contract l = [] := by
  have hp := prepare_ok hp
  obtain ⟨s⟩ := hp.started
  obtain ⟨sp, -, -⟩ := spendAll_ok hs
  obtain ⟨pm, pa, -, hm, ha, -, -, hpm, hpa⟩ := payInvoice_ok hpay
  have i1 := hasInputs_calls s.calls (calls_append_ok sp.main hm)
  have hal := sp.alt
  simp only [hp.alt] at hal
  have i2 := hasInputs_calls s.calls (calls_append_ok hal ha)
  rw [List.filterMap_append, hpm, List.append_nil, items_input, h1] at i1
  rw [List.filterMap_append, hpa, List.append_nil, items_input, h2] at i2
  have j1 : (visited E p.contract l).filter (onMain W) = [] := by simpa using i1
  have j2 : (visited E p.contract l).filter (fun x => !onMain W x) = [] := by simpa using i2
  rw [List.filter_eq_nil_iff] at j1 j2
  cases hv : visited E p.contract l with
  | nil => rfl
  | cons x m =>
    rw [hv] at j1 j2
    have x1 := j1 x (List.mem_cons_self ..)
    have x2 := j2 x (List.mem_cons_self ..)
    cases hx : onMain W x <;> simp [hx] at x1 x2

theorem dataItems_mem {ty : Nat} {l : List Item} {d : Nat} : d ∈ dataItems ty l ↔ ∃ x ∈ l, x.2.1.ty = ty ∧ x.2.2.data? = some d := by
  unfold dataItems
  simp only [List.mem_filterMap, List.mem_filter, decide_eq_true_eq, and_assoc]

end Stock

end Rgb
