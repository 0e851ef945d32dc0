import Verif.Spec.Kept
import Verif.Lemmas.Change
import Verif.Lemmas.Spent

/-!
What is needed for C92: state which is moved by a payment.
-/

namespace Rgb

variable {H : Commit}

/-- The assignments in a list of visible ones, to outputs of the transaction `w`. -/
theorem items_made (w : WitnessId) (op aty : Nat) (items : List Assign) (n : Nat)
    (h : ∀ x ∈ items, ∃ s v, x = .revealed s v ∧ s.txid = none ∧ s.chain = w.chain) :
    ∃ l : List OutAssign, (l.map (fun a => a.opout)).Nodup ∧
      (∀ a ∈ l, n ≤ a.opout.no ∧ a.opout = ⟨op, aty, a.opout.no⟩ ∧ a.witness = some w ∧
        ∃ s, items[a.opout.no - n]? = some (.revealed s a.state) ∧ s.toOutputWith w = some a.sl ∧ s.txid = none) ∧
      l.map (fun a => (some a.sl, some a.state.content)) = items.map (fun x => (x.target.bind (BSeal.output w), x.state?.map RState.content)) := by
  induction items generalizing n with
  | nil => exact ⟨[], List.Pairwise.nil, by simp, rfl⟩
  | cons x items ih =>
    obtain ⟨l, h1, h2, h3⟩ := ih (n + 1) (fun y hy => h y (by simp [hy]))
    obtain ⟨s, v, rfl, g1, g2⟩ := h x (by simp)
    have hsl : s.toOutputWith w = some ⟨s.chain, s.method, w.txid, s.vout⟩ := by simp [Seal.toOutputWith, g1, g2]
    refine ⟨⟨⟨op, aty, n⟩, ⟨s.chain, s.method, w.txid, s.vout⟩, v, some w⟩ :: l, ?_, ?_, ?_⟩
    · rw [List.map_cons, List.nodup_cons]
      refine ⟨fun hm => ?_, h1⟩
      obtain ⟨a, ha, he⟩ := List.mem_map.mp hm
      have := (h2 a ha).1
      rw [he] at this
      simp only at this
      omega
    · intro a ha
      rcases List.mem_cons.mp ha with rfl | ha
      · exact ⟨Nat.le_refl _, rfl, rfl, s, by simp, hsl, g1⟩
      · obtain ⟨k1, k2, k3, s', k4, k5, k6⟩ := h2 a ha
        refine ⟨by omega, k2, k3, s', ?_, k5, k6⟩
        rw [show a.opout.no - n = (a.opout.no - (n + 1)) + 1 by omega, List.getElem?_cons_succ]
        exact k4
    · rw [List.map_cons, h3, List.map_cons]
      simp [Assign.target, Assign.state?, BSeal.output, hsl]

/-- What one transition makes of a type, if all of it is on outputs of the transaction `w`. -/
theorem outs_made (w : WitnessId) (t : BuiltTransition) (aty : Nat)
    (hk : ∀ aty ta, OMap.get? t.op.assigns aty = some ta → ∀ a ∈ ta.items, ∃ st, a.state? = some st ∧ st.kind = ta.kind)
    (h : ∀ e ∈ t.outs aty, ∃ s, e.1 = some (.revealed s) ∧ s.txid = none ∧ s.chain = w.chain) :
    ∃ l : List OutAssign, (l.map (fun a => a.opout)).Nodup ∧
      (∀ a ∈ l, (a.opout.op = t.op.id H ∧ a.opout.ty = aty) ∧ t.op.MakesHere H w a.state.kind a) ∧
      l.map (fun a => (some a.sl, some a.state.content)) = (t.outs aty).map (fun e => (e.1.bind (BSeal.output w), e.2.map RState.content)) := by
  cases hg : OMap.get? t.op.assigns aty with
  | none => exact ⟨[], List.Pairwise.nil, by simp, by simp [BuiltTransition.outs, hg]⟩
  | some ta =>
    have houts : t.outs aty = ta.items.map (fun a => (a.target, a.state?)) := by simp [BuiltTransition.outs, hg]
    obtain ⟨l, h1, h2, h3⟩ := items_made w (t.op.id H) aty ta.items 0 (by
      intro x hx
      obtain ⟨s, g1, g2, g3⟩ := h _ (by rw [houts]; exact List.mem_map_of_mem hx)
      obtain ⟨st, g4, -⟩ := hk aty ta hg x hx
      cases x with
      | revealed s' v =>
        simp only [Assign.target, Option.some.injEq, BSeal.revealed.injEq] at g1
        subst g1
        exact ⟨_, _, rfl, g2, g3⟩
      | confidentialState s' v => simp [Assign.state?] at g4
      | confidential s' v => simp [Assign.state?] at g4
      | confidentialSeal s' v => simp [Assign.target] at g1)
    refine ⟨l, h1, ?_, ?_⟩
    · intro a ha
      obtain ⟨-, k2, k3, s, k4, k5, k6⟩ := h2 a ha
      rw [Nat.sub_zero] at k4
      obtain ⟨st, m1, m2⟩ := hk aty ta hg _ (List.mem_of_getElem? k4)
      simp only [Assign.state?, Option.some.injEq] at m1
      subst m1
      have e1 : a.opout.op = t.op.id H := by rw [k2]
      have e2 : a.opout.ty = aty := by rw [k2]
      refine ⟨⟨e1, e2⟩, ⟨e1, k3, ta, s, by rw [e2]; exact hg, m2.symm, k4, k5⟩, s, ?_, k6⟩
      simp [Op.sealAt?, Op.at?, e2, hg, k4, Assign.seal?]
    · rw [h3, houts, List.map_map]; rfl

/-- What several transitions make together. -/
theorem all_made (w : WitnessId) (aty : Nat) (ts : List BuiltTransition) (hnd : (ts.map (fun t => t.op.id H)).Nodup)
    (hk : ∀ t ∈ ts, ∀ aty ta, OMap.get? t.op.assigns aty = some ta → ∀ a ∈ ta.items, ∃ st, a.state? = some st ∧ st.kind = ta.kind)
    (h : ∀ t ∈ ts, ∀ e ∈ t.outs aty, ∃ s, e.1 = some (.revealed s) ∧ s.txid = none ∧ s.chain = w.chain) :
    ∃ l : List OutAssign, (l.map (fun a => a.opout)).Nodup ∧
      (∀ a ∈ l, a.opout.ty = aty ∧ ∃ t ∈ ts, t.op.MakesHere H w a.state.kind a) ∧
      l.map (fun a => (some a.sl, some a.state.content)) = ts.flatMap (fun t => (t.outs aty).map (fun e => (e.1.bind (BSeal.output w), e.2.map RState.content))) := by
  induction ts with
  | nil => exact ⟨[], List.Pairwise.nil, by simp, rfl⟩
  | cons t ts ih =>
    rw [List.map_cons, List.nodup_cons] at hnd
    obtain ⟨l, l1, l2, l3⟩ := ih hnd.2 (fun t ht => hk t (by simp [ht])) (fun t ht => h t (by simp [ht]))
    obtain ⟨q, q1, q2, q3⟩ := outs_made (H := H) w t aty (hk t (by simp)) (h t (by simp))
    refine ⟨q ++ l, ?_, ?_, ?_⟩
    · rw [List.map_append, List.nodup_append]
      refine ⟨q1, l1, ?_⟩
      intro o ho o' ho' hoo
      obtain ⟨a, ha, rfl⟩ := List.mem_map.mp ho
      obtain ⟨a', ha', rfl⟩ := List.mem_map.mp ho'
      obtain ⟨t', ht', hm⟩ := (l2 a' ha').2
      refine hnd.1 (List.mem_map.mpr ⟨t', ht', ?_⟩)
      rw [← hm.1.1, ← hoo]
      exact (q2 a ha).1.1
    · intro a ha
      rcases List.mem_append.mp ha with ha | ha
      · exact ⟨(q2 a ha).1.2, t, by simp, (q2 a ha).2⟩
      · obtain ⟨m1, t', m2, m3⟩ := l2 a ha
        exact ⟨m1, t', by simp [m2], m3⟩
    · rw [List.map_append, q3, l3, List.flatMap_cons]

/-- Each of the states is spent by one of the transitions. -/
theorem spends_all {ts : List BuiltTransition} {st : List OutAssign} (hn : (st.map (fun a => a.opout)).Nodup)
    (hp : (ts.flatMap (fun t => t.op.inputs)).Perm (st.map (fun a => a.opout))) (aty : Nat) :
    (ts.flatMap (fun t => ofType aty (t.spends st))).Perm (ofType aty st) := by
  have hst : st.Nodup := hn.of_map
  have hin := hp.nodup_iff.mpr hn
  rw [List.nodup_flatMap] at hin
  rw [List.perm_ext_iff_of_nodup ?_ (show (ofType aty st).Nodup from hst.filter _)]
  · intro a
    simp only [List.mem_flatMap, ofType, BuiltTransition.spends, List.mem_filter, decide_eq_true_eq]
    constructor
    · rintro ⟨t, -, ⟨h1, -⟩, h2⟩; exact ⟨h1, h2⟩
    · rintro ⟨h1, h2⟩
      obtain ⟨t, ht, ho⟩ := List.mem_flatMap.mp (hp.mem_iff.mpr (List.mem_map_of_mem (f := fun a => a.opout) h1))
      exact ⟨t, ht, ⟨h1, ho⟩, h2⟩
  · refine Rgb.nodup_flatMap (fun t _ => (hst.filter _).filter _) (hin.2.imp ?_)
    intro t t' hdis a ha ha'
    simp only [ofType, BuiltTransition.spends, List.mem_filter, decide_eq_true_eq] at ha ha'
    exact hdis ha.1.2 ha'.1.2

end Rgb
