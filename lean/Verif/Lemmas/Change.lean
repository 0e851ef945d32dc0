import Verif.Spec.Change
import Verif.Lemmas.Payment
import Verif.Lemmas.Shown

/-!
What is needed for C91: assignments to outputs of the witness transaction.
-/

namespace Rgb

open MemStash Stock Props Index

variable {H : Commit} {I : Ids} {M : Mpc} {G : SchemaDoc → SchemaGlobals} {r : Resolver} {k k' : Stock} {e : StockEvent}

/-- An assignment to an output of the witness transaction itself is made with this witness only. -/
theorem makes_witness (hH : H.Binding) {op op' : Op} {w : WitnessId} {w' : Option WitnessId} {kd kd' : StateKind} {a a' : OutAssign}
    (h : op.MakesHere H w kd a) (h' : op'.Makes H w' kd' a') (ho : a.opout = a'.opout) (hl : a.sl = a'.sl) : a = a' := by
  obtain ⟨h, s0, hs0, hn⟩ := h
  have e2 := makes_agree_state hH h h' ho
  obtain ⟨h1, h2, t, sl, ht, hk, hx, hsl⟩ := h
  obtain ⟨h1', h2', t', sl', ht', hk', hx', hsl'⟩ := h'
  have hid : op.id H = op'.id H := by rw [← h1, ← h1', ho]
  have hca : Assignments.conceal H op.assigns = Assignments.conceal H op'.assigns := congrArg Op.assigns (id_conceal hH hid)
  have hg : OMap.get? (Assignments.conceal H op.assigns) a.opout.ty = OMap.get? (Assignments.conceal H op'.assigns) a.opout.ty := by
    rw [hca]
  rw [← ho] at ht' hx'
  simp only [Assignments.conceal, OMap.get?_mapVals, ht, ht', Option.map_some, Option.some.injEq] at hg
  rw [typed_conceal_iff] at hg
  have hxx := conceal_get hg.2 hx hx'
  simp only [Assign.conceal, Assign.confidential.injEq] at hxx
  have e1 := hH.seal_inj _ _ hxx.1
  subst e1
  have e3 : s0 = sl := by
    simp only [Op.sealAt?, Op.at?, ht, Option.bind_some, hx, Assign.seal?, Option.some.injEq] at hs0
    exact hs0.symm
  subst e3
  simp only [Seal.toOutputWith, hn] at hsl
  split at hsl
  swap; · cases hsl
  rename_i hch
  have e4 : w' = some w := by
    cases w' with
    | none => simp only [Seal.toOutput, hn, Option.map_none] at hsl'; cases hsl'
    | some w' =>
      simp only [Seal.toOutputWith, hn] at hsl'
      split at hsl'
      swap; · cases hsl'
      rename_i hch'
      rw [← hl] at hsl'
      have := hsl.trans hsl'.symm
      simp only [Option.some.injEq, OutSeal.mk.injEq, true_and, and_true] at this
      congr 1
      cases w; cases w'
      simp only [WitnessId.mk.injEq]
      exact ⟨hch'.symm.trans hch, this.symm⟩
  obtain ⟨o, s, st, wa⟩ := a
  obtain ⟨o', s', st', wa'⟩ := a'
  simp only at h2 h2' ho e2 hl
  subst h2 h2' ho e2 hl e4
  rfl

theorem done_outs (hd : e.Done H I M G k k') {c : Nat} {s : OutSeal} {o : Opout} (h : o ∈ outSet k.index c s) : o ∈ outSet k'.index c s := by
  obtain ⟨calls, h1, -⟩ := done_index hd
  have := (execAll_effect calls k.index).outMono
  rw [h1] at this
  exact this c s o h

theorem allDone_outs (es : List StockEvent) {k k' : Stock} (hd : AllDone H I M G es k k') {c : Nat} {s : OutSeal} {o : Opout} (h : o ∈ outSet k.index c s) :
    o ∈ outSet k'.index c s := by
  induction es generalizing k with
  | nil => cases hd; exact h
  | cons e es ih =>
    obtain ⟨k₁, h1, h2⟩ := hd
    exact ih h2 (done_outs h1 h)

theorem fascia_outs {f : Fascia} (hd : StockEvent.Done H I M G k k' (.fascia f r)) {c : Nat} {b : Bundle} (hb : (c, b) ∈ f.bundles) {o : Nat} {t : Op}
    (ht : OMap.get? b.known o = some t) (ho : t.id H = o) {kind : StateKind} {a : OutAssign} (hm : t.Makes H (some f.witness.id) kind a) :
    a.opout ∈ outSet k'.index c a.sl := by
  obtain ⟨calls, h1, h2⟩ := done_index hd
  have hc := h2 _ _ rfl
  have := (execAll_effect calls k.index).outComplete
  rw [h1] at this
  obtain ⟨g1, -, ta, sl, g2, -, g3, g4⟩ := hm
  refine this rfl c a.sl a.opout ⟨.assignments c (some f.witness.id) ta.items o a.opout.ty, ?_, rfl, a.opout.no, _, sl, g3, rfl, g4, ?_⟩
  · rw [hc]
    refine List.mem_flatMap.mpr ⟨(c, b), hb, List.mem_cons_of_mem _ (List.mem_flatMap.mpr ⟨(o, t), OMap.mem_of_get? ht, ?_⟩)⟩
    exact List.mem_cons_of_mem _ (List.mem_map.mpr ⟨(a.opout.ty, ta), OMap.mem_of_get? g2, rfl⟩)
  · cases ha : a.opout
    rw [ha] at g1
    simp_all

/-- What is indexed at an outpoint is found by it, if it's of one closing method. -/
theorem outs_found (hx : IdxInv k.index) {c : Nat} {outputs : List Outpoint} {l : OSet Opout} (hl : k.index.opoutsByOutputs c outputs = .ok l) {s : OutSeal} {o : Opout}
    (ho : o ∈ outSet k.index c s) (hp : s.outpoint ∈ outputs) (h1 : k.OneMethodAt c s.outpoint) : o ∈ l := by
  simp only [outSet] at ho
  cases hc : OMap.get? k.index.contracts c with
  | none => simp [hc] at ho
  | some ci =>
    simp only [opoutsByOutputs, hc] at hl
    simp only [hc, Option.map_some, Option.getD_some, mset] at ho
    cases hs : OMap.get? ci.outs s with
    | none => simp [hs] at ho
    | some set =>
      simp only [hs, Option.getD_some] at ho
      obtain ⟨s', set', g1, g2, g3⟩ := (byOutputs_complete hl).2 _ hp
      have e := h1 ci s s' hc (List.mem_map.mpr ⟨_, OMap.mem_of_get? hs, rfl⟩) (List.mem_map.mpr ⟨_, g1, rfl⟩) rfl g2
      subst e
      have e' := (hx.sorted _ _ hc).get?_of_mem g1
      rw [hs] at e'
      cases e'
      exact g3 _ ho

/-- The numbers and states of the assignments to a visible seal. -/
theorem items_here (items : List Assign) (s : Seal) (n : Nat) : ∃ l : List (Nat × RState), (l.map Prod.fst).Nodup ∧
    (∀ e ∈ l, n ≤ e.1 ∧ items[e.1 - n]? = some (.revealed s e.2) ∧ 0 < e.2.amount) ∧
    (l.map (fun e => e.2.amount)).sum =
      (items.map (fun a => if a.target = some (.revealed s) then (a.state?.map RState.amount).getD 0 else 0)).sum := by
  induction items generalizing n with
  | nil => exact ⟨[], List.Pairwise.nil, by simp, rfl⟩
  | cons a items ih =>
    obtain ⟨l, h1, h2, h3⟩ := ih (n + 1)
    have up : ∀ e ∈ l, n ≤ e.1 ∧ (a :: items)[e.1 - n]? = some (.revealed s e.2) ∧ 0 < e.2.amount := by
      intro e he
      obtain ⟨g1, g2, g3⟩ := h2 e he
      refine ⟨by omega, ?_, g3⟩
      rw [show e.1 - n = (e.1 - (n + 1)) + 1 by omega, List.getElem?_cons_succ]
      exact g2
    by_cases hz : (if a.target = some (.revealed s) then (a.state?.map RState.amount).getD 0 else 0) = 0
    · exact ⟨l, h1, up, by rw [h3, List.map_cons, List.sum_cons, hz]; omega⟩
    · split at hz
      swap; · exact absurd rfl hz
      rename_i ht
      have hs : ∃ v, a = .revealed s v := by
        cases a with
        | revealed s' v =>
          simp only [Assign.target, Option.some.injEq, BSeal.revealed.injEq] at ht
          subst ht
          exact ⟨v, rfl⟩
        | confidentialState s v => simp [Assign.state?] at hz
        | confidential s v => simp [Assign.state?] at hz
        | confidentialSeal s v => simp [Assign.target] at ht
      obtain ⟨v, rfl⟩ := hs
      refine ⟨(n, v) :: l, ?_, ?_, ?_⟩
      · rw [List.map_cons, List.nodup_cons]
        refine ⟨fun hm => ?_, h1⟩
        obtain ⟨e, he, hn⟩ := List.mem_map.1 hm
        have := (h2 e he).1
        omega
      · intro e he
        rcases List.mem_cons.1 he with rfl | he
        · refine ⟨Nat.le_refl _, by simp, ?_⟩
          have hz' : v.amount ≠ 0 := by simpa [Assign.state?] using hz
          exact Nat.pos_of_ne_zero hz'
        · exact up e he
      · rw [List.map_cons, List.sum_cons, h3, List.map_cons, List.sum_cons, if_pos ht]
        simp [Assign.state?]

/-- What a transition assigns to a visible seal. -/
theorem paid_here {t : BuiltTransition} (hk : ∀ aty ta, OMap.get? t.op.assigns aty = some ta → ∀ a ∈ ta.items, ∃ st, a.state? = some st ∧ st.kind = ta.kind)
    (ty : Nat) (s : Seal) : ∃ l : List (Nat × RState), (l.map Prod.fst).Nodup ∧
      (∀ e ∈ l, ∃ ta, OMap.get? t.op.assigns ty = some ta ∧ ta.kind = .fungible ∧ ta.items[e.1]? = some (.revealed s e.2)) ∧
      (l.map (fun e => e.2.amount)).sum = t.paidTo ty (.revealed s) := by
  cases hg : OMap.get? t.op.assigns ty with
  | none => exact ⟨[], List.Pairwise.nil, by simp, by simp [BuiltTransition.paidTo, BuiltTransition.outs, hg]⟩
  | some ta =>
    obtain ⟨l, h1, h2, h3⟩ := items_here ta.items s 0
    refine ⟨l, h1, ?_, ?_⟩
    · intro e he
      obtain ⟨-, g2, g3⟩ := h2 e he
      rw [Nat.sub_zero] at g2
      refine ⟨ta, rfl, ?_, g2⟩
      obtain ⟨st, k1, k2⟩ := hk ty ta hg _ (List.mem_of_getElem? g2)
      simp only [Assign.state?, Option.some.injEq] at k1
      subst k1
      rw [← k2]
      cases hv : e.2 <;> rw [hv] at g3 <;> simp [RState.amount, RState.kind] at g3 ⊢
    · rw [h3]
      simp [BuiltTransition.paidTo, BuiltTransition.outs, hg, List.map_map, Function.comp_def]

/-- Putting together what several transitions pay. -/
theorem gather {P : OutAssign → Prop} {g : BuiltTransition → Nat} {ty : Nat} (ts : List BuiltTransition) (hnd : (ts.map (fun t => t.op.id H)).Nodup)
    (each : ∀ t ∈ ts, ∃ q : List (Nat × RState), (q.map Prod.fst).Nodup ∧
      (∀ e ∈ q, ∃ a : OutAssign, a.opout = ⟨t.op.id H, ty, e.1⟩ ∧ a.state = e.2 ∧ P a) ∧ (q.map (fun e => e.2.amount)).sum = g t) :
    ∃ l : List OutAssign, (l.map (fun a => a.opout)).Nodup ∧ (∀ a ∈ l, P a ∧ a.opout.ty = ty ∧ ∃ t ∈ ts, t.op.id H = a.opout.op) ∧
      (l.map (fun a => a.state.amount)).sum = (ts.map g).sum := by
  induction ts with
  | nil => exact ⟨[], List.Pairwise.nil, by simp, rfl⟩
  | cons t ts ih =>
    rw [List.map_cons, List.nodup_cons] at hnd
    obtain ⟨l, l1, l2, l3⟩ := ih hnd.2 (fun t ht => each t (by simp [ht]))
    obtain ⟨q, q1, q2, q3⟩ := each t (by simp)
    have many : ∀ q : List (Nat × RState), (∀ e ∈ q, ∃ a : OutAssign, a.opout = ⟨t.op.id H, ty, e.1⟩ ∧ a.state = e.2 ∧ P a) →
        ∃ l : List OutAssign, l.map (fun a => a.opout) = q.map (fun e => ⟨t.op.id H, ty, e.1⟩) ∧ l.map (fun a => a.state) = q.map Prod.snd ∧ ∀ a ∈ l, P a := by
      intro q
      induction q with
      | nil => intro _; exact ⟨[], rfl, rfl, by simp⟩
      | cons e q ih =>
        intro ho
        obtain ⟨l, m1, m2, m3⟩ := ih (fun e he => ho e (by simp [he]))
        obtain ⟨a, a1, a2, a3⟩ := ho e (by simp)
        refine ⟨a :: l, by simp [a1, m1], by simp [a2, m2], ?_⟩
        intro y hy
        rcases List.mem_cons.mp hy with rfl | hy
        · exact a3
        · exact m3 y hy
    obtain ⟨l', m1, m2, m3⟩ := many q q2
    have hmem : ∀ a ∈ l', a.opout.op = t.op.id H ∧ a.opout.ty = ty := by
      intro a ha
      have : a.opout ∈ l'.map (fun a => a.opout) := List.mem_map_of_mem ha
      rw [m1] at this
      obtain ⟨e, -, he⟩ := List.mem_map.mp this
      rw [← he]; exact ⟨rfl, rfl⟩
    refine ⟨l' ++ l, ?_, ?_, ?_⟩
    · rw [List.map_append, List.nodup_append]
      refine ⟨?_, l1, ?_⟩
      · rw [m1]
        refine List.pairwise_map.mpr ((List.pairwise_map.mp q1).imp ?_)
        intro a b hab he
        exact hab (congrArg Opout.no he)
      · intro o ho o' ho' hoo
        obtain ⟨a, ha, rfl⟩ := List.mem_map.mp ho
        obtain ⟨a', ha', rfl⟩ := List.mem_map.mp ho'
        obtain ⟨t', ht', hid⟩ := (l2 a' ha').2.2
        refine hnd.1 (List.mem_map.mpr ⟨t', ht', ?_⟩)
        rw [hid, ← hoo]; exact (hmem a ha).1
    · intro a ha
      rcases List.mem_append.mp ha with ha | ha
      · exact ⟨m3 a ha, (hmem a ha).2, t, by simp, (hmem a ha).1.symm⟩
      · obtain ⟨n1, n2, t', n3, n4⟩ := l2 a ha
        exact ⟨n1, n2, t', by simp [n3], n4⟩
    · rw [List.map_append, List.sum_append, l3, List.map_cons, List.sum_cons, ← q3]
      congr 1
      have : l'.map (fun a => a.state.amount) = (l'.map (fun a => a.state)).map RState.amount := by simp [List.map_map, Function.comp_def]
      rw [this, m2, List.map_map]
      rfl

end Rgb
