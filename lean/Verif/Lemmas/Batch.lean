import Verif.Lemmas.Blank

/-! Lemmas about batches: what is listed with the composed transitions. -/

namespace Rgb

theorem calls_nonce {E : BEnv} {cs : List TCall} {b b' : TransitionBuilder} (h : TransitionBuilder.calls E cs b = .ok b')
    (hn : ∀ c ∈ cs, c.nonce = none) : b'.nonce = b.nonce := by
  induction cs generalizing b with
  | nil => cases h; rfl
  | cons c cs ih =>
    simp only [TransitionBuilder.calls, except_bind_ok] at h
    obtain ⟨b1, h1, h2⟩ := h
    rw [ih h2 (fun x hx => hn x (List.mem_cons_of_mem _ hx)), TransitionBuilder.call_nonce h1, hn c (List.mem_cons_self ..)]
    rfl

theorem built_nonce {E : BEnv} {det : Bool} {contract ty : Nat} {iface : Iface} {schema : Schema}
    {iimpl : IfaceImpl} {tags : List (Nat × Nat)} {cs : List TCall} {b0 b : TransitionBuilder}
    (h0 : TransitionBuilder.calls E (tagCalls tags) (.new det contract iface schema iimpl ty) = .ok b0)
    (h : TransitionBuilder.calls E cs b0 = .ok b) (hn : ∀ c ∈ cs, c.nonce = none) {t : BuiltTransition} (ht : b.complete E = .ok t) :
    t.op.nonce = 18446744073709551615 := by
  obtain ⟨as, hc, rfl⟩ := TransitionBuilder.complete_ok ht
  show b.nonce = _
  rw [calls_nonce h hn, calls_nonce h0 (tagCalls_nonce tags)]
  rfl

/-! ### The outputs listed with a transition -/

theorem OSet.length_insert_le {α : Type} [Key α] [DecidableEq α] (s : OSet α) (a : α) :
    s.length ≤ (OSet.insert s a).length ∧ (OSet.insert s a).length ≤ s.length + 1 := by
  induction s with
  | nil => simp [OSet.insert]
  | cons b s ih =>
    simp only [OSet.insert]
    split
    · simp
    · split
      · simp
      · simp only [List.length_cons]; omega

theorem OSet.length_extend_le {α : Type} [Key α] [DecidableEq α] (l : List α) (s : OSet α) :
    s.length ≤ (OSet.extend s l).length ∧ (OSet.extend s l).length ≤ s.length + l.length := by
  induction l generalizing s with
  | nil => simp [OSet.extend]
  | cons a l ih =>
    have h1 := OSet.length_insert_le s a
    have h2 := ih (OSet.insert s a)
    show s.length ≤ (OSet.extend (OSet.insert s a) l).length ∧ (OSet.extend (OSet.insert s a) l).length ≤ s.length + (l.length + 1)
    omega

/-- All outputs are put in; it is refused if there is no room before the last one. -/
theorem outpointSet_eq (max : Nat) (l : List Outpoint) (s : OSet Outpoint) :
    outpointSet max l s = if l = [] ∨ (OSet.extend s l.dropLast).length < max then .ok (OSet.extend s l) else .error .tooMany := by
  induction l generalizing s with
  | nil => simp [outpointSet, OSet.extend]
  | cons o l ih =>
    simp only [outpointSet]
    have h2 := (OSet.length_extend_le (o :: l).dropLast s).1
    by_cases h : s.length ≥ max
    · rw [if_pos h, if_neg]
      rintro (h3 | h3)
      · cases h3
      · omega
    · rw [if_neg h, ih]
      cases l with
      | nil => simp [OSet.extend]; omega
      | cons o2 l =>
        have : OSet.extend s (o :: o2 :: l).dropLast = OSet.extend (OSet.insert s o) (o2 :: l).dropLast := by
          simp [OSet.extend]
        rw [this]
        have : OSet.extend s (o :: o2 :: l) = OSet.extend (OSet.insert s o) (o2 :: l) := rfl
        rw [this]
        simp

theorem dropLast_extend (l : List Outpoint) (o : Outpoint) : OSet.ofList (l ++ [o]) = OSet.insert (OSet.ofList l) o := by
  simp [OSet.ofList, OSet.extend]

/-- What `TransitionInfo::new` makes. -/
theorem TransitionInfo.new_ok {H : Commit} {t : BuiltTransition} {outs : List OutSeal} {i : TransitionInfo} :
    TransitionInfo.new H t outs = .ok i ↔
      outs ≠ [] ∧ (OSet.ofList (outs.map OutSeal.outpoint).dropLast).length < u24Max ∧ (∀ s ∈ outs, s.method = i.method) ∧
      i = ⟨t.op.id H, OSet.ofList (outs.map OutSeal.outpoint), t, i.method⟩ := by
  cases outs with
  | nil => simp [TransitionInfo.new]
  | cons s rest =>
    simp only [TransitionInfo.new, except_bind_ok, outpointSet_eq]
    constructor
    · rintro ⟨x, hx, h⟩
      split at hx
      · rename_i hlt
        cases hx
        split at h
        · cases h
        · rename_i hm
          cases h
          refine ⟨by simp, ?_, ?_, rfl⟩
          · rcases hlt with h | h
            · cases h
            · exact h
          · intro y hy
            refine Decidable.byContradiction fun hne => hm ?_
            exact List.any_eq_true.2 ⟨y, hy, decide_eq_true hne⟩
      · cases hx
    · rintro ⟨-, hlt, hm, hi⟩
      refine ⟨_, if_pos (.inr hlt), ?_⟩
      rw [if_neg]
      · rw [hi, hm s (List.mem_cons_self ..)]
        rfl
      · intro ha
        obtain ⟨y, hy, hd⟩ := List.any_eq_true.1 ha
        exact of_decide_eq_true hd (by rw [hm y hy, hm s (List.mem_cons_self ..)])

namespace Stock

/-- A transition with what is listed about it. -/
structure InfoOf (E : CEnv) (c : Nat) (items : List Item) (outs : List OutSeal) (i : TransitionInfo) : Prop where
  nonce : i.transition.op.nonce = 18446744073709551615
  info : TransitionInfo.new E.H i.transition outs = .ok i
  contract : i.transition.op.contract = c
  inputs : ∀ o, o ∈ i.transition.op.inputs ↔ o ∈ items.map (fun x => x.2.1)

theorem itemCalls_nonce (E : CEnv) (W : Wallet) (k : Stock) (p : Prep) (l : List Item) :
    ∀ c ∈ l.flatMap (itemCalls E W k p), c.nonce = none := by
  intro c hc
  obtain ⟨x, -, hx⟩ := List.mem_flatMap.1 hc
  unfold itemCalls at hx
  split at hx
  · simp only [List.mem_cons, List.not_mem_nil, or_false] at hx
    rcases hx with rfl | rfl <;> rfl
  · simp only [List.mem_cons, List.not_mem_nil, or_false] at hx
    subst hx; rfl

theorem blankCalls_nonce (E : CEnv) (W : Wallet) (k : Stock) (layer : Layer1) (id : Nat) (l : List Item) :
    ∀ c ∈ l.flatMap (blankCalls E W k layer id), c.nonce = none := by
  intro c hc
  obtain ⟨x, -, hx⟩ := List.mem_flatMap.1 hc
  unfold blankCalls at hx
  simp only [List.mem_cons, List.not_mem_nil, or_false] at hx
  rcases hx with rfl | rfl <;> rfl

theorem payCalls_nonce (ty : Nat) (sl : BSeal) (v bl : Nat) : ∀ c ∈ payCalls ty sl v bl, c.nonce = none := by
  intro c hc
  unfold payCalls at hc
  split at hc
  · simp only [List.mem_singleton] at hc; subst hc; rfl
  · cases hc

theorem Pays.nonce {E : CEnv} {W : Wallet} {k : Stock} {p : Prep} {st : Inv.InvoiceState} {a : Acc} {pm pa : List TCall}
    (h : Pays E W k p st a pm pa) : (∀ c ∈ pm, c.nonce = none) ∧ ∀ c ∈ pa, c.nonce = none := by
  cases st with
  | void => exact h.elim
  | attach x => exact h.elim
  | amount amt =>
    obtain ⟨-, sm, -, rfl, rfl⟩ := h
    constructor <;> intro c hc <;> rcases List.mem_append.1 hc with hc | hc <;> exact payCalls_nonce _ _ _ _ c hc
  | data t =>
    obtain ⟨-, rfl, rfl⟩ := h
    constructor <;> intro c hc <;> simp at hc <;> rw [hc.2] <;> rfl

theorem mainInfo_of {E : CEnv} {n : Nat} (hE : E.B.Lawful n) {W : Wallet} {k : Stock} {p : Prep} {op : Option Nat}
    (s : Started E k p.contract p.iface op p.main) {l : List Item} {pays : List TCall} (hp : pays.filterMap TCall.input = [])
    (hn : ∀ c ∈ pays, c.nonce = none)
    {b b' : TransitionBuilder} (h1 : TransitionBuilder.calls E.B (l.flatMap (itemCalls E W k p)) p.main = .ok b)
    (h2 : TransitionBuilder.calls E.B pays b = .ok b') {outs : List OutSeal} {i : TransitionInfo} (h : mainInfo E b' outs = .ok i) :
    InfoOf E p.contract l outs i := by
  obtain ⟨g1, g2, g3⟩ := mainInfo_ok h
  have hb := built_of hE s.calls (calls_append_ok h1 h2) g1
  refine ⟨built_nonce s.calls (calls_append_ok h1 h2) ?_ g1, g3, hb.contract, fun o => ?_⟩
  · intro c hc
    rcases List.mem_append.1 hc with hc | hc
    · exact itemCalls_nonce _ _ _ _ _ c hc
    · exact hn c hc
  · rw [hb.inputs, List.filterMap_append, hp, List.append_nil, items_input]
    simp

theorem blankInfo_of {E : CEnv} {n : Nat} (hE : E.B.Lawful n) {W : Wallet} {k : Stock} {layer : Layer1} {id : Nat} {b0 b : TransitionBuilder}
    (s : Blanked E k id b0) {l : List Item} (h1 : TransitionBuilder.calls E.B (l.flatMap (blankCalls E W k layer id)) b0 = .ok b)
    {outs : List OutSeal} {is : List TransitionInfo} (h : blankInfo E b outs = .ok is) : ∀ i ∈ is, InfoOf E id l outs i := by
  unfold blankInfo at h
  split at h
  · obtain ⟨t, ht, h⟩ := except_bind_ok.1 h
    obtain ⟨i, hi, h⟩ := except_bind_ok.1 h
    cases h
    obtain ⟨rfl, -, g3⟩ := newInfo_ok hi
    have hb := built_of hE s.calls h1 (liftB_ok.1 ht)
    intro i hi
    simp only [List.mem_singleton] at hi
    subst hi
    refine ⟨built_nonce s.calls h1 (blankCalls_nonce _ _ _ _ _ _) (liftB_ok.1 ht), g3, hb.contract, fun o => ?_⟩
    rw [hb.inputs, blank_input]
    simp
  · cases h
    intro i hi; cases hi

/-- A transition for the state of a contract at the outputs which pass a test. -/
def InfoFor (E : CEnv) (k : Stock) (prevs : List OutSeal) (i : TransitionInfo) : Prop :=
  ∃ (c : Nat) (m : Spent) (q : OutSeal → Bool), contractAssignmentsFor k c (prevs.map OutSeal.outpoint) = .ok m ∧
    InfoOf E c ((visited E c (E.ordOuts c m)).filter (fun x => q x.1)) (((E.ordOuts c m).map Prod.fst).filter q) i

theorem compose_infos {E : CEnv} {n : Nat} (hE : E.Lawful n) {W : Wallet} {k : Stock} {inv : Inv.Invoice} {prevs : List OutSeal} {b : Batch}
    (h : compose E W k inv prevs = .ok b) :
    ∃ l : List TransitionInfo, b.toList = l.map (TransitionInfo.setNonce W.priority) ∧ ∀ i ∈ l, InfoFor E k prevs i := by
  unfold compose at h
  obtain ⟨p, h1, h⟩ := except_bind_ok.1 h
  obtain ⟨spent, h2, h⟩ := except_bind_ok.1 h
  obtain ⟨a, h3, h⟩ := except_bind_ok.1 h
  obtain ⟨a', h4, h⟩ := except_bind_ok.1 h
  obtain ⟨others, h5, h⟩ := except_bind_ok.1 h
  obtain ⟨blanks, h6, h⟩ := except_bind_ok.1 h
  obtain ⟨d, h7, h⟩ := except_bind_ok.1 h
  cases h
  have hp := prepare_ok h1
  obtain ⟨s⟩ := hp.started
  obtain ⟨hs, ho1, ho2⟩ := spendAll_ok h3
  obtain ⟨pm, pa, hpay, hm, ha, ho3, ho4, hpm, hpa⟩ := payInvoice_ok h4
  obtain ⟨lm, la, hd, hlm, hla⟩ := mainDichotomy_ok h7
  obtain ⟨hsort, g1, g2⟩ := spentState_ok h5 OMap.Sorted.nil (fun id sp h => by cases h)
  obtain ⟨ds, hl, hb, hdd⟩ := blankLoop_ok h6
  have hperm : (ds.map Prod.fst).Perm others := by rw [hl]; exact hE.contracts _
  refine ⟨(blanks ++ [d]).flatMap Dichotomy.toList, ?_, ?_⟩
  · unfold Batch.toList Batch.setPriority
    simp only [List.flatMap_append, List.map_append, List.flatMap_map, List.map_flatMap, List.flatMap_cons, List.flatMap_nil, List.append_nil,
      toList_map]
  · intro i hi0
    obtain ⟨x, hx, hi⟩ := List.mem_flatMap.1 hi0
    clear hi0
    rcases List.mem_append.1 hx with hx | hx
    · rw [hb, List.nil_append] at hx
      obtain ⟨e, he, rfl⟩ := List.mem_map.1 hx
      have hm : e.1 ∈ others := hperm.mem_iff.1 (List.mem_map_of_mem he)
      have hst := (g1 _ _ (hsort.get?_of_mem hm)).2
      have hbf := hdd e he
      unfold blankFor at hbf
      obtain ⟨bt, b1, hbf⟩ := except_bind_ok.1 hbf
      obtain ⟨bo, b2, hbf⟩ := except_bind_ok.1 hbf
      obtain ⟨ba, b3, hbf⟩ := except_bind_ok.1 hbf
      obtain ⟨xs, b4, hbf⟩ := except_bind_ok.1 hbf
      obtain ⟨ys, b5, hbf⟩ := except_bind_ok.1 hbf
      rw [orErr_ok] at hbf
      obtain ⟨hlist, -⟩ := ofList_toList hbf
      rw [hlist] at hi
      obtain ⟨s1⟩ := blankBuilder_ok b1
      obtain ⟨s2⟩ := blankBuilder_ok b2
      obtain ⟨c1, c2, c3⟩ := blankAll_ok b3
      simp only [List.nil_append] at c2 c3
      rcases List.mem_append.1 hi with hi | hi
      · rw [c2] at b4
        exact ⟨_, _, fun s => decide (s.method = .tapretFirst), hst, blankInfo_of hE.B s1 c1.tapret b4 i hi⟩
      · rw [c3] at b5
        exact ⟨_, _, fun s => !decide (s.method = .tapretFirst), hst, blankInfo_of hE.B s2 c1.opret b5 i hi⟩
    · simp only [List.mem_singleton] at hx
      subst hx
      rw [hd] at hi
      simp only [List.nil_append] at ho1 ho2
      rw [ho3, ho1] at hlm
      rw [ho4, ho2] at hla
      rcases List.mem_append.1 hi with hi | hi
      · rcases hlm with ⟨-, j, rfl, hj⟩ | ⟨-, rfl⟩
        · simp only [List.mem_singleton] at hi
          subst hi
          exact ⟨_, _, fun s => decide (s.method = W.method), h2, mainInfo_of hE.B s hpm hpay.nonce.1 hs.main hm hj⟩
        · cases hi
      · rcases hla with ⟨-, j, rfl, hj⟩ | ⟨-, rfl⟩
        · simp only [List.mem_singleton] at hi
          subst hi
          have halt := hs.alt
          simp only [hp.alt] at halt
          exact ⟨_, _, fun s => !decide (s.method = W.method), h2, mainInfo_of hE.B s hpa hpay.nonce.2 halt ha hj⟩
        · cases hi

end Stock
end Rgb
