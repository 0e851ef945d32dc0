import Verif.Lemmas.Paid

/-! Lemmas about blank transitions. -/

namespace Rgb.Stock

/-- The calls for a state moved by a blank transition. -/
def blankCalls (E : CEnv) (W : Wallet) (k : Stock) (layer : Layer1) (id : Nat) (x : Item) : List TCall :=
  [.addInput x.2.1 x.2.2, .addOwnedRaw x.2.1.ty (W.outSeal E k layer (.moved id x.1 x.2.1) id x.2.1.ty) x.2.2]

def byTapret (x : Item) : Bool := decide (x.1.method = .tapretFirst)

structure Blanking (E : CEnv) (W : Wallet) (k : Stock) (layer : Layer1) (id : Nat) (l : List Item) (a a' : BlankAcc) : Prop where
  tapret : TransitionBuilder.calls E.B ((l.filter byTapret).flatMap (blankCalls E W k layer id)) a.tapret = .ok a'.tapret
  opret : TransitionBuilder.calls E.B ((l.filter (fun x => !byTapret x)).flatMap (blankCalls E W k layer id)) a.opret = .ok a'.opret

theorem Blanking.refl (E : CEnv) (W : Wallet) (k : Stock) (layer : Layer1) (id : Nat) (a : BlankAcc) : Blanking E W k layer id [] a a := ⟨rfl, rfl⟩

theorem Blanking.trans {E : CEnv} {W : Wallet} {k : Stock} {layer : Layer1} {id : Nat} {l m : List Item} {a b c : BlankAcc}
    (h1 : Blanking E W k layer id l a b) (h2 : Blanking E W k layer id m b c) : Blanking E W k layer id (l ++ m) a c where
  tapret := by rw [List.filter_append, List.flatMap_append]; exact calls_append_ok h1.tapret h2.tapret
  opret := by rw [List.filter_append, List.flatMap_append]; exact calls_append_ok h1.opret h2.opret

theorem moveState_ok {E : CEnv} {W : Wallet} {k : Stock} {layer : Layer1} {id : Nat} {b b' : TransitionBuilder} {s : OutSeal} {o : Opout}
    {st : RState} (h : moveState b o (W.outSeal E k layer (.moved id s o) id o.ty) st = .ok b') :
    TransitionBuilder.calls E.B (blankCalls E W k layer id (s, o, st)) b = .ok b' := by
  unfold moveState at h
  obtain ⟨b1, h1, h2⟩ := except_bind_ok.1 h
  exact calls_append_ok (xs := [TCall.addInput o st]) (by rw [calls_one]; exact liftB_ok.1 h1) (by rw [calls_one]; exact liftB_ok.1 h2)

theorem blankList_ok {E : CEnv} {W : Wallet} {k : Stock} {layer : Layer1} {id : Nat} {s : OutSeal} {l : List (Opout × RState)} {a a' : BlankAcc}
    (h : blankList E W k layer id s l a = .ok a') :
    Blanking E W k layer id (l.map (fun x => (s, x.1, x.2))) a a' ∧ a'.outTapret = a.outTapret ∧ a'.outOpret = a.outOpret := by
  induction l generalizing a with
  | nil => cases h; exact ⟨.refl .., rfl, rfl⟩
  | cons x l ih =>
    obtain ⟨o, st⟩ := x
    simp only [blankList] at h
    obtain ⟨sl, hsl, h⟩ := except_bind_ok.1 h
    have hsl := outputFor_ok hsl
    subst hsl
    cases hm : s.method with
    | tapretFirst =>
      rw [hm] at h
      obtain ⟨b, hb, h⟩ := except_bind_ok.1 h
      obtain ⟨i1, i2, i3⟩ := ih h
      refine ⟨Blanking.trans (l := [(s, o, st)]) (b := { a with tapret := b }) ⟨?_, ?_⟩ i1, i2, i3⟩
      · have : [(s, o, st)].filter byTapret = [(s, o, st)] := by simp [byTapret, hm]
        rw [this, List.flatMap_singleton]; exact moveState_ok hb
      · have : [(s, o, st)].filter (fun x => !byTapret x) = [] := by simp [byTapret, hm]
        rw [this]; rfl
    | opretFirst =>
      rw [hm] at h
      obtain ⟨b, hb, h⟩ := except_bind_ok.1 h
      obtain ⟨i1, i2, i3⟩ := ih h
      refine ⟨Blanking.trans (l := [(s, o, st)]) (b := { a with opret := b }) ⟨?_, ?_⟩ i1, i2, i3⟩
      · have : [(s, o, st)].filter byTapret = [] := by simp [byTapret, hm]
        rw [this]; rfl
      · have : [(s, o, st)].filter (fun x => !byTapret x) = [(s, o, st)] := by simp [byTapret, hm]
        rw [this, List.flatMap_singleton]; exact moveState_ok hb

theorem BlankAcc.push_blanking (E : CEnv) (W : Wallet) (k : Stock) (layer : Layer1) (id : Nat) (s : OutSeal) (a : BlankAcc) :
    Blanking E W k layer id [] a (a.pushOutput s) := by
  unfold BlankAcc.pushOutput
  cases s.method <;> exact ⟨rfl, rfl⟩

theorem blankAll_ok {E : CEnv} {W : Wallet} {k : Stock} {layer : Layer1} {id : Nat} {l : List (OutSeal × OMap Opout RState)} {a a' : BlankAcc}
    (h : blankAll E W k layer id l a = .ok a') :
    Blanking E W k layer id (visited E id l) a a' ∧
      a'.outTapret = a.outTapret ++ (l.map Prod.fst).filter (fun s => decide (s.method = .tapretFirst)) ∧
      a'.outOpret = a.outOpret ++ (l.map Prod.fst).filter (fun s => !decide (s.method = .tapretFirst)) := by
  induction l generalizing a with
  | nil => cases h; exact ⟨.refl .., by simp, by simp⟩
  | cons x l ih =>
    obtain ⟨s, m⟩ := x
    simp only [blankAll] at h
    obtain ⟨b, h1, h2⟩ := except_bind_ok.1 h
    obtain ⟨i1, i2, i3⟩ := blankList_ok h1
    obtain ⟨j1, j2, j3⟩ := ih h2
    refine ⟨?_, ?_, ?_⟩
    · have := ((BlankAcc.push_blanking E W k layer id s a).trans i1).trans j1
      simpa [visited] using this
    · rw [j2, i2]
      unfold BlankAcc.pushOutput
      cases hm : s.method <;> simp [hm]
    · rw [j3, i3]
      unfold BlankAcc.pushOutput
      cases hm : s.method <;> simp [hm]

theorem blank_input (E : CEnv) (W : Wallet) (k : Stock) (layer : Layer1) (id : Nat) (l : List Item) :
    (l.flatMap (blankCalls E W k layer id)).filterMap TCall.input = l.map (fun x => x.2) := by
  induction l with
  | nil => rfl
  | cons x l ih =>
    rw [List.flatMap_cons, List.filterMap_append, ih]
    simp [blankCalls, TCall.input]

/-- The states of a type with their new seals. -/
def blankItems (E : CEnv) (W : Wallet) (k : Stock) (layer : Layer1) (id : Nat) (aty : Nat) (l : List Item) : List (BSeal × RState) :=
  (l.filter (fun x => decide (x.2.1.ty = aty))).map (fun x => (W.outSeal E k layer (.moved id x.1 x.2.1) id aty, x.2.2))

theorem blank_adds (I : IfaceImpl) (dflt : Option Nat) (E : CEnv) (W : Wallet) (k : Stock) (layer : Layer1) (id aty : Nat) (l : List Item) :
    addsOf I dflt aty (l.flatMap (blankCalls E W k layer id)) = blankItems E W k layer id aty l := by
  induction l with
  | nil => rfl
  | cons x l ih =>
    rw [List.flatMap_cons, addsOf_append, ih]
    unfold blankCalls blankItems
    by_cases hx : x.2.1.ty = aty
    · subst hx; simp [addsOf, List.filterMap_cons, TCall.assigned]
    · simp [addsOf, TCall.assigned, hx]

theorem blankItems_perm {E : CEnv} {W : Wallet} {k : Stock} {layer : Layer1} {id aty : Nat} {l : List Item} {m : List OutAssign}
    (h : l.Perm (m.map OutAssign.item)) :
    (blankItems E W k layer id aty l).Perm ((ofType aty m).map (fun a => (W.outSeal E k layer (.moved id a.sl a.opout) id aty, a.state))) := by
  unfold blankItems
  refine ((h.filter _).map _).trans (.of_eq ?_)
  rw [List.filter_map, List.map_map]
  rfl

/-- A blank transition for the states closed with one of the methods. -/
def BSide (E : CEnv) (W : Wallet) (k : Stock) (layer : Layer1) (id : Nat) (l : List Item) (ts : List BuiltTransition) : Prop :=
  (l = [] ∧ ts = []) ∨ (l ≠ [] ∧ ∃ t I dflt, ts = [t] ∧ Built (k.KnownFits E id) I dflt id blankType (l.flatMap (blankCalls E W k layer id)) t)

theorem bside_of {E : CEnv} {n : Nat} (hE : E.B.Lawful n) {W : Wallet} {k : Stock} {layer : Layer1} {id : Nat} {b0 b : TransitionBuilder}
    (s : Blanked E k id b0) {l : List Item} (h1 : TransitionBuilder.calls E.B (l.flatMap (blankCalls E W k layer id)) b0 = .ok b)
    {outs : List OutSeal} {is : List TransitionInfo} (h : blankInfo E b outs = .ok is) (nn : Nat) :
    BSide E W k layer id l ((is.map (TransitionInfo.setNonce nn)).map (fun i => i.transition)) := by
  have hin := hasInputs_calls s.calls h1
  rw [blank_input] at hin
  unfold blankInfo at h
  cases hh : b.hasInputs with
  | true =>
    rw [hh] at h hin
    simp only [if_true] at h
    obtain ⟨t, ht, h⟩ := except_bind_ok.1 h
    obtain ⟨i, hi, h⟩ := except_bind_ok.1 h
    cases h
    obtain ⟨rfl, -, -⟩ := newInfo_ok hi
    right
    refine ⟨?_, _, _, _, rfl, ((built_of hE s.calls h1 (liftB_ok.1 ht)).mono (fun _ _ h => ⟨s.g, s.si, s.genesis, s.schema, h⟩)).nonce nn⟩
    rintro rfl
    simp at hin
  | false =>
    rw [hh] at h hin
    simp only [Bool.false_eq_true, if_false, Except.ok.injEq] at h
    subst h
    left
    exact ⟨by simpa using hin, rfl⟩

theorem BSide.inputs {E : CEnv} {W : Wallet} {k : Stock} {layer : Layer1} {id : Nat} {l : List Item} {ts : List BuiltTransition}
    (h : BSide E W k layer id l ts) {t : BuiltTransition} (ht : t ∈ ts) :
    t.op.contract = id ∧ t.op.kind = .transition ∧ t.op.ty = blankType ∧ t.op.inputs.Nodup ∧
      ∀ o, o ∈ t.op.inputs ↔ o ∈ l.map (fun x => x.2.1) := by
  rcases h with ⟨rfl, rfl⟩ | ⟨-, t', I, dflt, rfl, hb⟩
  · cases ht
  · simp only [List.mem_singleton] at ht
    subst ht
    refine ⟨hb.contract, hb.kind, hb.ty, hb.nodup, fun o => ?_⟩
    rw [hb.inputs, blank_input]
    simp

theorem BSide.moved {E : CEnv} {W : Wallet} {k : Stock} {layer : Layer1} {id : Nat} {l : List Item} {ts : List BuiltTransition}
    (h : BSide E W k layer id l ts) {aty : Nat} (hn : ((blankItems E W k layer id aty l).map Prod.fst).Nodup) :
    ∀ t ∈ ts, ((t.outs aty).map (fun e => (e.1, e.2.map RState.content))).Perm
      ((blankItems E W k layer id aty l).map (fun e => (some e.1, some e.2.content))) := by
  rcases h with ⟨rfl, rfl⟩ | ⟨-, t, I, dflt, rfl, hb⟩
  · intro t ht; cases ht
  · intro t' ht
    simp only [List.mem_singleton] at ht
    subst ht
    have ho := hb.outs aty
    rw [blank_adds] at ho
    exact ho hn

/-- The blank transitions of a contract. -/
structure BlankDone (E : CEnv) (W : Wallet) (k : Stock) (layer : Layer1) (id : Nat) (m : Spent) (d : Dichotomy TransitionInfo) where
  tt : List BuiltTransition
  to : List BuiltTransition
  list : d.toList.map (fun i => (i.setNonce W.priority).transition) = tt ++ to
  nonempty : tt ++ to ≠ []
  tapret : BSide E W k layer id ((visited E id (E.ordOuts id m)).filter byTapret) tt
  opret : BSide E W k layer id ((visited E id (E.ordOuts id m)).filter (fun x => !byTapret x)) to

theorem ofList_toList {α : Type} {l : List α} {d : Dichotomy α} (h : Dichotomy.ofList l = some d) : d.toList = l ∧ l ≠ [] := by
  match l with
  | [] => cases h
  | [a] => cases h; exact ⟨rfl, by simp⟩
  | [a, b] => cases h; exact ⟨rfl, by simp⟩
  | _ :: _ :: _ :: _ => cases h

theorem blankFor_ok {E : CEnv} {n : Nat} (hE : E.B.Lawful n) {W : Wallet} {k : Stock} {layer : Layer1} {iface id : Nat} {m : Spent}
    {d : Dichotomy TransitionInfo} (h : blankFor E W k layer iface id m = .ok d) : Nonempty (BlankDone E W k layer id m d) := by
  unfold blankFor at h
  obtain ⟨bt, h1, h⟩ := except_bind_ok.1 h
  obtain ⟨bo, h2, h⟩ := except_bind_ok.1 h
  obtain ⟨a, h3, h⟩ := except_bind_ok.1 h
  obtain ⟨x, h4, h⟩ := except_bind_ok.1 h
  obtain ⟨y, h5, h⟩ := except_bind_ok.1 h
  rw [orErr_ok] at h
  obtain ⟨hl, hne⟩ := ofList_toList h
  obtain ⟨s1⟩ := blankBuilder_ok h1
  obtain ⟨s2⟩ := blankBuilder_ok h2
  obtain ⟨b1, -, -⟩ := blankAll_ok h3
  refine ⟨⟨_, _, ?_, ?_, bside_of hE s1 b1.tapret h4 W.priority, bside_of hE s2 b1.opret h5 W.priority⟩⟩
  · rw [hl, List.map_append, List.map_map, List.map_map]; rfl
  · rw [← List.map_append, ← List.map_append]
    simpa using hne

theorem blankLoop_ok {E : CEnv} {W : Wallet} {k : Stock} {layer : Layer1} {iface : Nat} {l : List (Nat × Spent)}
    {bs bs' : List (Dichotomy TransitionInfo)} (h : blankLoop E W k layer iface l bs = .ok bs') :
    ∃ ds : List ((Nat × Spent) × Dichotomy TransitionInfo), ds.map Prod.fst = l ∧ bs' = bs ++ ds.map Prod.snd ∧
      ∀ e ∈ ds, blankFor E W k layer iface e.1.1 e.1.2 = .ok e.2 := by
  induction l generalizing bs with
  | nil => cases h; exact ⟨[], rfl, by simp, fun e he => by cases he⟩
  | cons e l ih =>
    obtain ⟨id, m⟩ := e
    simp only [blankLoop] at h
    obtain ⟨d, h1, h⟩ := except_bind_ok.1 h
    obtain ⟨_, -, h⟩ := except_bind_ok.1 h
    obtain ⟨ds, hds, hf, hg⟩ := ih h
    refine ⟨((id, m), d) :: ds, by rw [List.map_cons, hds], by rw [hf]; simp, fun e he => ?_⟩
    rcases List.mem_cons.1 he with rfl | he
    · exact h1
    · exact hg e he

/-- Blank transitions of a composed batch, by contract. -/
structure Blanks (E : CEnv) (W : Wallet) (k : Stock) (inv : Inv.Invoice) (prevs : List OutSeal) (c : Nat) (b : Batch) where
  ds : List ((Nat × Spent) × Dichotomy TransitionInfo)
  blanks : b.blanks = ds.map (fun e => e.2.map (TransitionInfo.setNonce W.priority))
  nodup : (ds.map (fun e => e.1.1)).Nodup
  ids : ∀ id, id ∈ ds.map (fun e => e.1.1) ↔ id ∈ k.index.contractsAssigning (prevs.map OutSeal.outpoint) ∧ id ≠ c
  state : ∀ e ∈ ds, contractAssignmentsFor k e.1.1 (prevs.map OutSeal.outpoint) = .ok e.1.2
  done : ∀ e ∈ ds, Nonempty (BlankDone E W k inv.layer e.1.1 e.1.2 e.2)

theorem Composed.toBlanks {E : CEnv} {n : Nat} (hE : E.Lawful n) {W : Wallet} {k : Stock} {inv : Inv.Invoice} {prevs : List OutSeal}
    {b : Batch} (C : Composed E W k inv prevs b) : Nonempty (Blanks E W k inv prevs C.p.contract b) := by
  obtain ⟨hs, h1, h2⟩ := spentState_ok C.otherState OMap.Sorted.nil (fun id sp h => by cases h)
  obtain ⟨ds, hl, hb, hd⟩ := blankLoop_ok C.looped
  have hperm : (ds.map Prod.fst).Perm C.others := by rw [hl]; exact hE.contracts _
  have hkeys : (ds.map (fun e => e.1.1)).Perm (OMap.keys C.others) := by
    have := hperm.map Prod.fst
    rw [List.map_map] at this
    exact this
  refine ⟨⟨ds, ?_, hkeys.nodup_iff.2 hs.nodup, ?_, ?_, ?_⟩⟩
  · rw [C.batch, hb, List.nil_append, List.map_map]; rfl
  · intro id
    rw [hkeys.mem_iff, h2]
    simp [OMap.keys]
  · intro e he
    have hm : e.1 ∈ C.others := hperm.mem_iff.1 (List.mem_map_of_mem he)
    exact (h1 _ _ (hs.get?_of_mem hm)).2
  · intro e he
    have := blankFor_ok hE.B (hd e he)
    rw [C.prepared.layer] at this
    exact this

end Rgb.Stock
