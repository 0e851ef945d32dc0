import Verif.Lemmas.Blank

/-!
To which seals a composed batch assigns.
-/

namespace Rgb.Stock

theorem mem_adds_one {I : IfaceImpl} {dflt : Option Nat} {aty : Nat} {c : TCall} {sl : BSeal} (h : sl ∈ (addsOf I dflt aty [c]).map Prod.fst) :
    ∃ st, c.assigned I dflt = some (aty, sl, st) := by
  unfold addsOf at h
  obtain ⟨e, he, rfl⟩ := List.mem_map.1 h
  obtain ⟨x, hx, hxe⟩ := List.mem_filterMap.1 he
  cases hc : c.assigned I dflt with
  | none => rw [List.filterMap_cons_none hc] at hx; cases hx
  | some y =>
    rw [List.filterMap_cons_some hc] at hx
    simp only [List.filterMap_nil, List.mem_singleton] at hx
    subst hx
    split at hxe
    · rename_i hty
      cases hxe
      obtain ⟨t, s, st⟩ := x
      simp only at hty
      subst hty
      exact ⟨st, rfl⟩
    · cases hxe

theorem Pays.targets {E : CEnv} {W : Wallet} {k : Stock} {p : Prep} {st : Inv.InvoiceState} {a : Acc} {pm pa : List TCall}
    (h : Pays E W k p st a pm pa) (I : IfaceImpl) (dflt : Option Nat) (aty : Nat) (sl : BSeal)
    (hs : sl ∈ (addsOf I dflt aty pm).map Prod.fst ∨ sl ∈ (addsOf I dflt aty pa).map Prod.fst) :
    aty = p.ty ∧ (sl = p.beneficiary ∨ sl = W.outSeal E k p.layer .change p.contract p.ty) := by
  cases st with
  | void => exact h.elim
  | attach x => exact h.elim
  | amount amt =>
    obtain ⟨-, sm, -, rfl, rfl⟩ := h
    simp only [addsOf_append, payCalls_adds, List.map_append, List.mem_append] at hs
    have key : ∀ (b : BSeal) (v bl : Nat), sl ∈ ((if aty = p.ty ∧ v > 0 then [(b, RState.fungible v bl 0)] else [] : List (BSeal × RState))).map Prod.fst →
        aty = p.ty ∧ sl = b := by
      intro b v bl hm
      split at hm
      · rename_i hc
        simp only [List.map_cons, List.map_nil, List.mem_singleton] at hm
        exact ⟨hc.1, hm⟩
      · cases hm
    rcases hs with (hs | hs) | (hs | hs)
    all_goals obtain ⟨h1, h2⟩ := key _ _ _ hs; exact ⟨h1, by simp [h2]⟩
  | data t =>
    obtain ⟨-, rfl, rfl⟩ := h
    have key : ∀ c : Bool, sl ∈ (addsOf I dflt aty (if c then [TCall.addDataRaw p.ty p.beneficiary (E.dataOf t) (W.seals .token)] else [])).map Prod.fst →
        aty = p.ty ∧ sl = p.beneficiary := by
      intro c hm
      cases c with
      | false => cases hm
      | true =>
        obtain ⟨st, hst⟩ := mem_adds_one hm
        simp only [TCall.assigned, Option.some.injEq, Prod.mk.injEq] at hst
        exact ⟨hst.1.symm, hst.2.1.symm⟩
    rcases hs with hs | hs
    · obtain ⟨h1, h2⟩ := key _ hs; exact ⟨h1, .inl h2⟩
    · obtain ⟨h1, h2⟩ := key (!a.dataMain) (by revert hs; cases a.dataMain <;> exact id); exact ⟨h1, .inl h2⟩

theorem payCalls_global (I : IfaceImpl) (ty : Nat) (sl : BSeal) (v bl : Nat) : (payCalls ty sl v bl).filterMap (TCall.global I) = [] := by
  unfold payCalls; split <;> rfl

theorem Pays.global {E : CEnv} {W : Wallet} {k : Stock} {p : Prep} {st : Inv.InvoiceState} {a : Acc} {pm pa : List TCall}
    (h : Pays E W k p st a pm pa) (I : IfaceImpl) : pm.filterMap (TCall.global I) = [] ∧ pa.filterMap (TCall.global I) = [] := by
  cases st with
  | void => exact h.elim
  | attach x => exact h.elim
  | amount amt =>
    obtain ⟨-, sm, -, rfl, rfl⟩ := h
    constructor <;> rw [List.filterMap_append, payCalls_global, payCalls_global] <;> rfl
  | data t =>
    obtain ⟨-, rfl, rfl⟩ := h
    constructor <;> cases a.dataMain <;> rfl

theorem items_global (I : IfaceImpl) (E : CEnv) (W : Wallet) (k : Stock) (p : Prep) (l : List Item) :
    (l.flatMap (itemCalls E W k p)).filterMap (TCall.global I) = [] := by
  induction l with
  | nil => rfl
  | cons x l ih =>
    rw [List.flatMap_cons, List.filterMap_append, ih]
    unfold itemCalls
    split <;> rfl

theorem blank_global (I : IfaceImpl) (E : CEnv) (W : Wallet) (k : Stock) (layer : Layer1) (id : Nat) (l : List Item) :
    (l.flatMap (blankCalls E W k layer id)).filterMap (TCall.global I) = [] := by
  induction l with
  | nil => rfl
  | cons x l ih =>
    rw [List.flatMap_cons, List.filterMap_append, ih]
    rfl

/-- What a payment transition assigns to, and that it has no global state. -/
theorem Side.targets {E : CEnv} {W : Wallet} {k : Stock} {p : Prep} {op : Option Nat} {s : Started E k p.contract p.iface op p.main}
    {l : List Item} {pays : List TCall} {ts : List BuiltTransition} (h : Side E W k p op s l pays ts) (hg : ∀ I, pays.filterMap (TCall.global I) = [])
    (hi : pays.filterMap TCall.input = [])
    (ht : ∀ I dflt aty sl, sl ∈ (addsOf I dflt aty pays).map Prod.fst →
      aty = p.ty ∧ (sl = p.beneficiary ∨ sl = W.outSeal E k p.layer .change p.contract p.ty)) {t : BuiltTransition} (hm : t ∈ ts) :
    t.op.globals = [] ∧ ∀ aty, ∀ e ∈ t.outs aty, ∃ sl, e.1 = some sl ∧
      ((aty = p.ty ∧ (sl = p.beneficiary ∨ sl = W.outSeal E k p.layer .change p.contract p.ty)) ∨
        (aty ≠ p.ty ∧ ∃ x ∈ l, x.2.1 ∈ t.op.inputs ∧ x.2.1.ty = aty ∧ sl = W.outSeal E k p.layer (.moved p.contract x.1 x.2.1) p.contract aty)) := by
  rcases h with ⟨rfl, rfl⟩ | ⟨-, t', rfl, hb⟩
  · cases hm
  · simp only [List.mem_singleton] at hm
    subst hm
    refine ⟨hb.globals ?_, fun aty e he => ?_⟩
    · rw [List.filterMap_append, items_global, hg]; rfl
    · obtain ⟨sl, h1, h2⟩ := hb.targets aty e he
      refine ⟨sl, h1, ?_⟩
      rw [addsOf_append, List.map_append, List.mem_append, items_adds] at h2
      rcases h2 with h2 | h2
      · right
        split at h2
        · cases h2
        · rename_i hne
          refine ⟨hne, ?_⟩
          unfold movedItems at h2
          rw [List.map_map] at h2
          obtain ⟨x, hx, rfl⟩ := List.mem_map.1 h2
          obtain ⟨hx1, hx2⟩ := List.mem_filter.1 hx
          refine ⟨x, hx1, ?_, by simpa using hx2, rfl⟩
          rw [hb.inputs, List.filterMap_append, hi, List.append_nil, items_input, List.map_map]
          exact List.mem_map.2 ⟨x, hx1, rfl⟩
      · exact .inl (ht _ _ aty sl h2)

theorem BSide.targets {E : CEnv} {W : Wallet} {k : Stock} {layer : Layer1} {id : Nat} {l : List Item} {ts : List BuiltTransition}
    (h : BSide E W k layer id l ts) {t : BuiltTransition} (hm : t ∈ ts) :
    t.op.globals = [] ∧ ∀ aty, ∀ e ∈ t.outs aty, ∃ sl, e.1 = some sl ∧
      ∃ x ∈ l, x.2.1 ∈ t.op.inputs ∧ x.2.1.ty = aty ∧ sl = W.outSeal E k layer (.moved id x.1 x.2.1) id aty := by
  rcases h with ⟨rfl, rfl⟩ | ⟨-, t', I, dflt, rfl, hb⟩
  · cases hm
  · simp only [List.mem_singleton] at hm
    subst hm
    refine ⟨hb.globals (blank_global ..), fun aty e he => ?_⟩
    obtain ⟨sl, h1, h2⟩ := hb.targets aty e he
    refine ⟨sl, h1, ?_⟩
    rw [blank_adds] at h2
    unfold blankItems at h2
    rw [List.map_map] at h2
    obtain ⟨x, hx, rfl⟩ := List.mem_map.1 h2
    obtain ⟨hx1, hx2⟩ := List.mem_filter.1 hx
    refine ⟨x, hx1, ?_, by simpa using hx2, rfl⟩
    rw [hb.inputs, blank_input, List.map_map]
    exact List.mem_map.2 ⟨x, hx1, rfl⟩

theorem visited_state {E : CEnv} {n : Nat} (hE : E.Lawful n) {k : Stock} {c : Nat} {prevs : List OutSeal} {m : Spent}
    (h : contractAssignmentsFor k c (prevs.map OutSeal.outpoint) = .ok m) {x : Item} (hx : x ∈ visited E c (E.ordOuts c m)) :
    ∃ a ∈ k.stateAt c prevs, a.sl = x.1 ∧ a.opout = x.2.1 := by
  obtain ⟨s, o, st⟩ := x
  exact (own_mem hE h s o).1 ⟨st, hx⟩

theorem payment_targets {E : CEnv} {n : Nat} (hE : E.Lawful n) {W : Wallet} {k : Stock} {inv : Inv.Invoice} {prevs : List OutSeal} {b : Batch}
    (C : Composed E W k inv prevs b) {t : BuiltTransition} (ht : t ∈ b.payments) :
    t.op.contract = C.p.contract ∧ t.op.globals = [] ∧ ∀ aty, ∀ e ∈ t.outs aty, ∃ sl, e.1 = some sl ∧
      ((aty = C.p.ty ∧ (sl = W.benSeal inv ∨ sl = W.changeSeal E k inv C.p.contract C.p.ty)) ∨
        (aty ≠ C.p.ty ∧ ∃ a ∈ k.stateAt C.p.contract prevs, a.opout ∈ t.op.inputs ∧ a.opout.ty = aty ∧ sl = W.movedSeal E k inv C.p.contract a)) := by
  have fin : ∀ (l : List Item), (∀ x ∈ l, x ∈ visited E C.p.contract (E.ordOuts C.p.contract C.spent)) →
      (t.op.globals = [] ∧ ∀ aty, ∀ e ∈ t.outs aty, ∃ sl, e.1 = some sl ∧
        ((aty = C.p.ty ∧ (sl = C.p.beneficiary ∨ sl = W.outSeal E k C.p.layer .change C.p.contract C.p.ty)) ∨
          (aty ≠ C.p.ty ∧ ∃ x ∈ l, x.2.1 ∈ t.op.inputs ∧ x.2.1.ty = aty ∧
            sl = W.outSeal E k C.p.layer (.moved C.p.contract x.1 x.2.1) C.p.contract aty))) →
      t.op.globals = [] ∧ ∀ aty, ∀ e ∈ t.outs aty, ∃ sl, e.1 = some sl ∧
      ((aty = C.p.ty ∧ (sl = W.benSeal inv ∨ sl = W.changeSeal E k inv C.p.contract C.p.ty)) ∨
        (aty ≠ C.p.ty ∧ ∃ a ∈ k.stateAt C.p.contract prevs, a.opout ∈ t.op.inputs ∧ a.opout.ty = aty ∧ sl = W.movedSeal E k inv C.p.contract a)) := by
    rintro l hl ⟨h1, h2⟩
    refine ⟨h1, fun aty e he => ?_⟩
    obtain ⟨sl, g1, g2⟩ := h2 aty e he
    refine ⟨sl, g1, ?_⟩
    rcases g2 with ⟨g2, g3⟩ | ⟨g2, x, hx, g3, g4, g5⟩
    · left
      refine ⟨g2, ?_⟩
      rw [C.prepared.beneficiary, C.prepared.layer] at g3
      exact g3
    · right
      obtain ⟨a, ha, e1, e2⟩ := visited_state hE C.own (hl x hx)
      refine ⟨g2, a, ha, by rw [e2]; exact g3, by rw [e2]; exact g4, ?_⟩
      rw [g5, C.prepared.layer]
      unfold Wallet.movedSeal
      rw [e1, e2, g4]
  rw [C.payments] at ht
  rcases List.mem_append.1 ht with ht | ht
  · exact ⟨(C.main.inputs C.pays.input.1 ht).1, fin _ (fun x hx => (List.mem_filter.1 hx).1)
      (C.main.targets (fun I => (C.pays.global I).1) C.pays.input.1 (fun I dflt aty sl h => C.pays.targets I dflt aty sl (.inl h)) ht)⟩
  · exact ⟨(C.alt.inputs C.pays.input.2 ht).1, fin _ (fun x hx => (List.mem_filter.1 hx).1)
      (C.alt.targets (fun I => (C.pays.global I).2) C.pays.input.2 (fun I dflt aty sl h => C.pays.targets I dflt aty sl (.inr h)) ht)⟩

theorem blank_targets {E : CEnv} {n : Nat} (hE : E.Lawful n) {W : Wallet} {k : Stock} {inv : Inv.Invoice} {prevs : List OutSeal} {b : Batch}
    (C : Composed E W k inv prevs b) {t : BuiltTransition} (ht : t ∈ b.blankTransitions) :
    (t.op.contract ∈ k.index.contractsAssigning (prevs.map OutSeal.outpoint) ∧ t.op.contract ≠ C.p.contract) ∧
      t.op.globals = [] ∧ ∀ aty, ∀ e ∈ t.outs aty, ∃ sl, e.1 = some sl ∧
        ∃ a ∈ k.stateAt t.op.contract prevs, a.opout ∈ t.op.inputs ∧ a.opout.ty = aty ∧ sl = W.movedSeal E k inv t.op.contract a := by
  obtain ⟨B⟩ := C.toBlanks hE
  unfold Batch.blankTransitions at ht
  rw [B.blanks] at ht
  obtain ⟨d, hd, ht⟩ := List.mem_flatMap.1 ht
  obtain ⟨x, hx, rfl⟩ := List.mem_map.1 hd
  obtain ⟨D⟩ := B.done x hx
  rw [toList_map, List.map_map] at ht
  have ht' : t ∈ D.tt ++ D.to := by rw [← D.list]; exact ht
  have hst := B.state x hx
  have hid := (B.ids x.1.1).1 (List.mem_map.2 ⟨x, hx, rfl⟩)
  have fin : ∀ (l : List Item), (∀ y ∈ l, y ∈ visited E x.1.1 (E.ordOuts x.1.1 x.1.2)) → BSide E W k inv.layer x.1.1 l D.tt ∧ t ∈ D.tt ∨
      BSide E W k inv.layer x.1.1 l D.to ∧ t ∈ D.to → t.op.contract = x.1.1 ∧ t.op.globals = [] ∧ ∀ aty, ∀ e ∈ t.outs aty, ∃ sl, e.1 = some sl ∧
        ∃ a ∈ k.stateAt x.1.1 prevs, a.opout ∈ t.op.inputs ∧ a.opout.ty = aty ∧ sl = W.movedSeal E k inv x.1.1 a := by
    intro l hl hh
    have : t.op.contract = x.1.1 ∧ (t.op.globals = [] ∧ ∀ aty, ∀ e ∈ t.outs aty, ∃ sl, e.1 = some sl ∧
        ∃ y ∈ l, y.2.1 ∈ t.op.inputs ∧ y.2.1.ty = aty ∧ sl = W.outSeal E k inv.layer (.moved x.1.1 y.1 y.2.1) x.1.1 aty) := by
      rcases hh with ⟨hb, hm⟩ | ⟨hb, hm⟩ <;> exact ⟨(hb.inputs hm).1, hb.targets hm⟩
    obtain ⟨h0, h1, h2⟩ := this
    refine ⟨h0, h1, fun aty e he => ?_⟩
    obtain ⟨sl, g1, y, hy, g3, g4, g5⟩ := h2 aty e he
    obtain ⟨a, ha, e1, e2⟩ := visited_state hE hst (hl y hy)
    refine ⟨sl, g1, a, ha, by rw [e2]; exact g3, by rw [e2]; exact g4, ?_⟩
    rw [g5]
    unfold Wallet.movedSeal
    rw [e1, e2, g4]
  rcases List.mem_append.1 ht' with hm | hm
  · obtain ⟨h0, h1, h2⟩ := fin _ (fun y hy => (List.mem_filter.1 hy).1) (.inl ⟨D.tapret, hm⟩)
    rw [h0]
    exact ⟨hid, h1, h2⟩
  · obtain ⟨h0, h1, h2⟩ := fin _ (fun y hy => (List.mem_filter.1 hy).1) (.inr ⟨D.opret, hm⟩)
    rw [h0]
    exact ⟨hid, h1, h2⟩

end Rgb.Stock
