import Verif.Spec.Conserve
import Verif.Lemmas.Supply
import Verif.Props.Compose
import Verif.Props.Blank

/-!
Lemmas for C101: composed transitions assign all that they spend, and nothing is lost in a network.
-/

namespace Rgb

open Stock Index Props

variable {E : CEnv} {n : Nat} {M : Mpc} {G : SchemaDoc → SchemaGlobals} {L : Ledger} {k : Stock}

theorem moved_issues {t : BuiltTransition} {aty : Nat} {l : List OutAssign} {f : OutAssign → BSeal}
    (h : ((t.outs aty).map (fun e => (e.1, e.2.map RState.content))).Perm (l.map (fun a => (some (f a), some a.state.content)))) (q : Quantity) :
    t.op.issues q aty = (l.map (fun a => q.of a.state)).sum := by
  rw [outs_issues]
  have := (h.map (fun e : Option BSeal × Option RState => (e.2.map q.of).getD 0)).sum_nat
  rw [List.map_map, List.map_map] at this
  refine (congrArg List.sum ?_).trans (this.trans (congrArg List.sum ?_))
  · apply List.map_congr_left
    rintro ⟨x, y⟩ _
    cases y <;> rfl
  · apply List.map_congr_left
    intro a _
    simp only [Function.comp, Option.map_some, Option.getD_some, Quantity.of_content]

theorem Quantity.amount_of (st : RState) : Quantity.amount.of st = st.amount := by cases st <;> rfl

/-- What is spent is assigned. -/
theorem compose_keeps (hE : E.Lawful n) {W : Wallet} {inv : Inv.Invoice} {prevs : List OutSeal} {b : Batch}
    (h : compose E W k inv prevs = .ok b) {c : Nat} (hn : ((k.stateAt c prevs).map (fun a => a.opout)).Nodup) {t : BuiltTransition} (ht : t ∈ b.transitionsOf c)
    {q : Quantity} {ty : Nat} (hk : KeepsAll E W k inv prevs c ty q) : ((ofType ty (t.spends (k.stateAt c prevs))).map (fun a => q.of a.state)).sum ≤ t.op.issues q ty := by
  obtain ⟨C⟩ := compose_ok hE h
  have hc := C.prepared.contract
  have hty := C.prepared.ty
  obtain ⟨h1, h2⟩ := List.mem_filter.1 ht
  have h2 : t.op.contract = c := of_decide_eq_true h2
  rcases List.mem_append.1 h1 with h1 | h1
  · have h3 := ((C38_inputs hE h hc).1 t h1).1
    rw [h2] at h3
    subst h3
    by_cases hp : ty = C.p.ty
    · subst hp
      cases hs : inv.ownedState with
      | amount amt =>
        obtain ⟨rfl, hfit, hne⟩ := hk.amount amt hc hty hs
        have := ((C38_conserved_partial hE h hc hty hs hn hfit hne).2.2.2 t h1).1
        rw [outs_issues]
        unfold BuiltTransition.total sumOf at this
        apply Nat.le_of_eq
        refine (congrArg List.sum ?_).trans (this.symm.trans (congrArg List.sum ?_))
        · apply List.map_congr_left
          intro a _
          exact Quantity.amount_of _
        · apply List.map_congr_left
          intro e _
          cases e.2 with
          | none => rfl
          | some st => simp only [Option.map_some, Option.getD_some, Quantity.of_content, Quantity.amount_of]
      | data al =>
        have hl := hk.token al hc hty hs
        obtain ⟨t', ht', ⟨a, ha, had⟩, ho, -⟩ := C41_token_partial hE h hc hty hs hn
        obtain ⟨ha, haty⟩ := List.mem_filter.1 ha
        obtain ⟨ha, hain⟩ := List.mem_filter.1 ha
        have hm : a ∈ ofType C.p.ty (k.stateAt C.p.contract prevs) := List.mem_filter.2 ⟨ha, haty⟩
        obtain ⟨x, hx⟩ : ∃ x, ofType C.p.ty (k.stateAt C.p.contract prevs) = [x] := by
          cases hz : ofType C.p.ty (k.stateAt C.p.contract prevs) with
          | nil => rw [hz] at hm; cases hm
          | cons x r =>
            rw [hz] at hl
            cases r with
            | nil => exact ⟨x, rfl⟩
            | cons y r => simp at hl
        rw [hx, List.mem_singleton] at hm
        subst hm
        have hsw : ofType C.p.ty (t.spends (k.stateAt C.p.contract prevs)) = (ofType C.p.ty (k.stateAt C.p.contract prevs)).filter (fun a => decide (a.opout ∈ t.op.inputs)) := by
          unfold ofType BuiltTransition.spends
          rw [List.filter_filter, List.filter_filter]
          congr 1
          funext a
          exact Bool.and_comm _ _
        rw [hsw, hx]
        by_cases hin : a.opout ∈ t.op.inputs
        · have hte : t = t' := by
            have hp := (C38_once hE h hc hn).nodup_iff.2 hn
            by_contra hne
            obtain ⟨l1, l2, hl12⟩ := List.append_of_mem h1
            rw [hl12, List.flatMap_append, List.flatMap_cons, List.nodup_append, List.nodup_append] at hp
            rw [hl12] at ht'
            have hain : a.opout ∈ t'.op.inputs := of_decide_eq_true hain
            rcases List.mem_append.1 ht' with h5 | h5
            · exact hp.2.2 _ (List.mem_flatMap.2 ⟨t', h5, hain⟩) _ (List.mem_append_left _ hin) rfl
            · rcases List.mem_cons.1 h5 with h5 | h5
              · exact hne h5.symm
              · exact hp.2.1.2.2 _ hin _ (List.mem_flatMap.2 ⟨t', h5, hain⟩) rfl
          subst hte
          rw [List.filter_cons_of_pos (by simp [hin]), List.filter_nil, outs_issues]
          obtain ⟨e, he⟩ : ∃ e, t.outs C.p.ty = [e] := by
            cases hz : t.outs C.p.ty with
            | nil => rw [hz] at ho; cases ho
            | cons e r =>
              cases r with
              | nil => exact ⟨e, rfl⟩
              | cons y r => rw [hz] at ho; simp at ho
          rw [he] at ho ⊢
          simp only [List.map_cons, List.map_nil, List.cons.injEq, Prod.mk.injEq, and_true] at ho
          simp only [List.map_cons, List.map_nil, List.sum_cons, List.sum_nil, Nat.add_zero]
          obtain ⟨-, ho⟩ := ho
          cases he2 : e.2 with
          | none => rw [he2] at ho; cases ho
          | some st =>
            rw [he2, Option.map_some, Option.some.injEq] at ho
            simp only [Option.map_some, Option.getD_some, ho]
            cases hst : a.state with
            | data v s =>
              rw [hst] at had
              simp only [RState.data?, Option.some.injEq] at had
              subst had
              cases q <;> simp [Quantity.of]
            | _ => rw [hst] at had; cases had
        · rw [List.filter_cons_of_neg (by simp [hin]), List.filter_nil]
          exact Nat.zero_le _
      | void => have := C.pays; rw [hs] at this; cases this
      | attach i => have := C.pays; rw [hs] at this; cases this
    · exact Nat.le_of_eq (moved_issues (C38_moved_partial hE h hc hty hp hn (hk.moved (fun hh => hp (Option.some.inj (hh.2.symm.trans hty)))) t h1) q).symm
  · have hne : c ≠ C.p.contract := (((C40_contracts hE h hc).2 c).1 ⟨t, h1, h2⟩).2
    exact Nat.le_of_eq (moved_issues (C40_moved_partial hE h hn (hk.moved (fun hh => hne (Option.some.inj (hh.1.symm.trans hc)))) t h1 h2) q).symm

/-- Where the values of the outputs are what the operation shows, they are in sum what it issues. -/
theorem outs_ge (t : Op) (q : Quantity) (ty i : Nat) (v : Opout → Nat) (h : ∀ no, ((t.stateAt? ty no).map q.of).getD 0 ≤ v ⟨i, ty, no⟩) :
    t.issues q ty ≤ ((outsOf i ty (t.itemsAt ty).length).map v).sum := by
  have key : ∀ (l : List Assign) (v : Nat → Nat), (∀ no, ((l[no]?.bind Assign.state?).map q.of).getD 0 ≤ v no) →
      (l.map (fun a => (a.state?.map q.of).getD 0)).sum ≤ ((List.range l.length).map v).sum := by
    intro l
    induction l with
    | nil => intro v _; simp
    | cons a l ih =>
      intro v hv
      rw [List.length_cons, List.range_succ_eq_map, List.map_cons, List.map_cons, List.map_map, List.sum_cons, List.sum_cons]
      refine Nat.add_le_add ?_ (ih _ ?_)
      · simpa using hv 0
      · intro no
        simpa using hv (no + 1)
  have := key (t.itemsAt ty) (fun no => v ⟨i, ty, no⟩) (fun no => by
    have := h no
    rw [Op.stateAt?, Op.at_itemsAt] at this
    exact this)
  unfold outsOf
  rw [List.map_map]
  exact this

open Classical in
/-- Nothing is lost: what the genesis issued is at the unspent outputs, at least. -/
theorem conserved (hE : E.Lawful n) (hT : E.TagMaps) (hTC : E.TagsCommitted) (hH : E.H.Binding) (hM : M.Lawful) (hG : ∀ d, OMap.Sorted (G d).maxItems)
    (hI : Ids.Lawful E.H E.I) (hO : OneWitness E M G L) {ess : List (List StockEvent)} (hess : ∀ es ∈ ess, ∃ k, Honest E M G L es k) {c ty : Nat} {q : Quantity}
    (hp : ∀ es ∈ ess, ∀ t w, Had E.H es c t (some w) → CarefullyPaid E M G L c ty q t) {g : Op} (hg : ∃ es ∈ ess, Had E.H es c g none)
    (hgs : ∀ a ∈ g.itemsAt ty, ∃ st, a.state? = some st) {l : List (Opout × RState)} (hl : AllUnspent E.H ess c ty l) :
    g.issues q ty ≤ (l.map (fun e => q.of e.2)).sum := by
  have sane : ∀ es ∈ ess, ∃ k, Sane E M G L es k := fun es he => by
    obtain ⟨k, hk⟩ := hess es he
    exact ⟨k, hk.sane hE hT hTC hH hM hG hI⟩
  obtain ⟨esg, hesg, hgh⟩ := hg
  have hgid : g.id E.H = c ∧ g.kind = .genesis := by
    obtain ⟨k, hk⟩ := sane esg hesg
    generalize hw : (none : Option WitnessId) = w at hgh
    cases hgh with
    | genesis con r he =>
      have := (hk.furnished.sound _ he).proper.1.genesisKind
      exact ⟨by rw [Op.contractId, this], this⟩
    | extension _ _ _ _ _ _ _ => cases hw
    | transition _ _ _ _ _ _ _ _ => cases hw
  -- the transitions which the wallets had, and how they were made
  obtain ⟨l₀, hl₀⟩ := had_all_ids E.H c ess
  obtain ⟨K, hK, hKm⟩ := exists_nodup (fun i => ∃ es ∈ ess, ∃ t w, Had E.H es c t (some w) ∧ t.id E.H = i) l₀
  have inK : ∀ es ∈ ess, ∀ t w, Had E.H es c t (some w) → t.id E.H ∈ K := by
    intro es he t w ht
    obtain ⟨k, hk⟩ := sane es he
    exact (hKm _).2 ⟨hl₀ es he t w ht hk.furnished.noExtensions, es, he, t, w, ht, rfl⟩
  have org : ∀ i, i ∈ K → ∃ o : Origin E M G L c i, KeepsAll E o.W o.k o.inv o.prevs c ty q := by
    intro i hi
    obtain ⟨-, es, he, t, w, ht, rfl⟩ := (hKm i).1 hi
    obtain ⟨es', k, W, inv, prevs, b, u, h1, h2, h3, h4, h5⟩ := hp es he t w ht
    exact ⟨⟨es', k, W, inv, prevs, b, u, h1, h2, h3, h4⟩, h5⟩
  let T : Nat → Op := fun i => if h : i ∈ K then (org i h).choose.t.op else g
  have Tid : ∀ i, i ∈ K → (T i).id E.H = i := by
    intro i hi
    simp only [T, dif_pos hi]
    exact (org i hi).choose.id
  have Tvis : ∀ i, ∀ a ∈ (T i).itemsAt ty, ∃ st, a.state? = some st := by
    intro i
    by_cases hi : i ∈ K
    · intro a ha
      simp only [T, dif_pos hi] at ha
      unfold Op.itemsAt at ha
      generalize (org i hi).choose = o at ha
      cases hta : OMap.get? o.t.op.assigns ty with
      | none => rw [hta] at ha; cases ha
      | some ta =>
        rw [hta] at ha
        exact Stock.compose_visible hE o.composed o.mem hta a ha
    · simp only [T, dif_neg hi]
      exact hgs
  have hcK : c ∉ K := by
    intro hc
    obtain ⟨-, es, he, t, w, ht, hti⟩ := (hKm c).1 hc
    have hk : t.kind = g.kind := by
      have := congrArg (fun o : Op => o.kind) (Op.conceal_of_id hH (hti.trans hgid.1.symm))
      exact this
    obtain ⟨k, hs⟩ := sane es he
    have : t.kind = .transition := by
      cases ht with
      | extension con r t wb he ht hw => rw [hs.furnished.noExtensions con r he] at ht; cases ht
      | transition e _ b w _ he hb ht =>
        have := (hs.furnished.sound e he).proper
        cases hb with
        | consignment con r wb _ hw hb => exact (this.2.2.2.2 wb hw b hb t ht).2
        | fascia f r _ _ hb => exact ((this _ hb).2 t ht).2
    rw [hk, hgid.2] at this
    cases this
  have Tc : T c = g := by simp only [T, dif_neg hcK]
  have Tid' : ∀ i ∈ c :: K, (T i).id E.H = i := by
    intro i hi
    rcases List.mem_cons.1 hi with rfl | hi
    · rw [Tc]; exact hgid.1
    · exact Tid i hi
  -- all outputs, and how much is there
  let A : List Opout := (c :: K).flatMap (fun i => outsOf i ty ((T i).itemsAt ty).length)
  let v : Opout → Nat := fun o => if o ∈ A then (((T o.op).stateAt? o.ty o.no).map q.of).getD 0 else 0
  have hA : A.Nodup := by
    refine nodup_flatMap_of (List.nodup_cons.2 ⟨hcK, hK⟩) ?_ ?_
    · intro i _
      unfold outsOf
      exact List.Nodup.map (fun a b h => by cases h; rfl) List.nodup_range
    · intro i _ j _ o h1 h2
      rw [← (mem_outsOf.1 h1).1, ← (mem_outsOf.1 h2).1]
  have Amem : ∀ o ∈ A, o.op ∈ c :: K ∧ o.ty = ty ∧ ((T o.op).at? o.ty o.no).isSome := by
    intro o ho
    obtain ⟨i, hi, h1⟩ := List.mem_flatMap.1 ho
    obtain ⟨rfl, h2, h3⟩ := mem_outsOf.1 h1
    refine ⟨hi, h2, ?_⟩
    rw [h2, Op.at_itemsAt, List.getElem?_eq_getElem h3]
    rfl
  have vA : ∀ o ∈ A, ∀ (t : Op) st, t.id E.H = o.op → t.stateAt? o.ty o.no = some st → v o = q.of st := by
    intro o ho t st ht hst
    obtain ⟨h1, h2, h3⟩ := Amem o ho
    obtain ⟨y, hy⟩ := Option.isSome_iff_exists.1 h3
    obtain ⟨st', hst'⟩ := Tvis o.op y (by rw [h2, Op.at_itemsAt] at hy; exact List.mem_of_getElem? hy)
    have h5 : (T o.op).stateAt? o.ty o.no = some st' := by simp only [Op.stateAt?, hy, Option.bind_some, hst']
    simp only [v, if_pos ho]
    rw [h5, Op.stateAt_agree hH ((Tid' _ h1).trans ht.symm) h5 hst]
    rfl
  have vi : ∀ i ∈ c :: K, (T i).issues q ty ≤ ((outsOf i ty ((T i).itemsAt ty).length).map v).sum := by
    intro i hi
    refine outs_ge _ _ _ _ _ (fun no => ?_)
    by_cases hA : (⟨i, ty, no⟩ : Opout) ∈ A
    · simp only [v, if_pos hA]
      exact Nat.le_refl _
    · have : (T i).stateAt? ty no = none := by
        rw [Op.stateAt?, Op.at_itemsAt]
        cases hx : ((T i).itemsAt ty)[no]? with
        | none => rfl
        | some x =>
          refine absurd (?_ : (⟨i, ty, no⟩ : Opout) ∈ A) hA
          exact List.mem_flatMap.2 ⟨i, hi, mem_outsOf.2 ⟨rfl, rfl, (List.getElem?_eq_some_iff.1 hx).1⟩⟩
      rw [this]
      exact Nat.zero_le _
  -- what a transition spends it assigns
  have step : ∀ i ∈ K, (((T i).inputs.filter (fun o => decide (o ∈ A))).dedup.map v).sum ≤ (T i).issues q ty := by
    intro i hi
    obtain ⟨o, ho, hoT⟩ : ∃ o : Origin E M G L c i, KeepsAll E o.W o.k o.inv o.prevs c ty q ∧ T i = o.t.op :=
      ⟨(org i hi).choose, (org i hi).choose_spec, by simp only [T, dif_pos hi]⟩
    rw [hoT]
    have hs := o.honest.sane hE hT hTC hH hM hG hI
    have hn := C38_apart hH (hs.reachable hG) (hO _ _ _ _ _ _ o.honest o.composed c)
    refine Nat.le_trans ?_ (compose_keeps hE o.composed hn o.mem ho)
    have h1 := sum_subset v (l := (o.t.op.inputs.filter (fun o => decide (o ∈ A))).dedup) (m := (ofType ty (o.t.spends (o.k.stateAt c o.prevs))).map (fun a => a.opout))
      (List.nodup_dedup _) (by
        intro x hx
        obtain ⟨hx, hxA⟩ := List.mem_filter.1 (List.mem_dedup.1 hx)
        obtain ⟨a, ha, rfl⟩ := compose_inputs hE o.composed o.mem _ hx
        exact List.mem_map_of_mem (List.mem_filter.2 ⟨List.mem_filter.2 ⟨ha, decide_eq_true hx⟩, decide_eq_true (Amem _ (of_decide_eq_true hxA)).2.1⟩))
    refine Nat.le_trans h1 ?_
    rw [List.map_map]
    refine sum_le_of_le ?_
    intro a ha
    by_cases haA : a.opout ∈ A
    · obtain ⟨ha, -⟩ := List.mem_filter.1 ha
      obtain ⟨ha, -⟩ := List.mem_filter.1 ha
      obtain ⟨t, h1, h2, h3⟩ := shown_of_state hH hG (fun e he => (hs.furnished.sound e he).proper) (allDone_run _ hs.done) ha
      exact Nat.le_of_eq (vA a.opout haA t _ h2 h3)
    · simp only [Function.comp, v, if_neg haA]
      exact Nat.zero_le _
  -- every output is unspent, or an input
  have cover : ∀ o ∈ A, o ∈ l.map Prod.fst ++ K.flatMap (fun i => ((T i).inputs.filter (fun o => decide (o ∈ A))).dedup) := by
    intro o ho
    by_cases hs : ∃ es ∈ ess, ∃ t, SpentBy E.H es c o t
    · obtain ⟨es, he, t, ⟨w, ht⟩, hi⟩ := hs
      have hk := inK es he t w ht
      refine List.mem_append_right _ (List.mem_flatMap.2 ⟨_, hk, List.mem_dedup.2 (List.mem_filter.2 ⟨?_, decide_eq_true ho⟩)⟩)
      rw [inputs_of_id hH (Tid _ hk)]
      exact hi
    · refine List.mem_append_left _ ?_
      obtain ⟨h1, h2, h3⟩ := Amem o ho
      obtain ⟨es, he, t, w, ht, hti⟩ : ∃ es ∈ ess, ∃ t w, Had E.H es c t w ∧ t.id E.H = o.op := by
        rcases List.mem_cons.1 h1 with h1 | h1
        · exact ⟨esg, hesg, g, _, hgh, hgid.1.trans h1.symm⟩
        · obtain ⟨-, es, he, t, w, ht, hti⟩ := (hKm _).1 h1
          exact ⟨es, he, t, _, ht, hti⟩
      obtain ⟨op, ty', no⟩ := o
      obtain rfl : ty' = ty := h2
      obtain rfl : t.id E.H = op := hti
      refine hl.complete es he t w no ht ?_ (fun es' he' t' ht' => hs ⟨es', he', t', ht'⟩)
      have hc := Op.at_conceal hH (Tid' _ h1) ty' no
      cases hx : t.at? ty' no with
      | some _ => rfl
      | none =>
        obtain ⟨y, hy⟩ := Option.isSome_iff_exists.1 h3
        have hy : (T (t.id E.H)).at? ty' no = some y := hy
        rw [hx, hy] at hc
        cases hc
  have total := sum_subset v hA cover
  have hAsum : (A.map v).sum = (((c :: K).map (fun i => ((outsOf i ty ((T i).itemsAt ty).length).map v).sum))).sum := sum_flatMap _ _ _
  rw [hAsum, List.map_append, List.sum_append, sum_flatMap, List.map_cons, List.sum_cons] at total
  have h1 := vi c List.mem_cons_self
  rw [Tc] at h1
  rw [Tc] at total
  have h2 : ((K.map (fun i => ((((T i).inputs.filter (fun o => decide (o ∈ A))).dedup).map v).sum))).sum ≤ (K.map (fun i => ((outsOf i ty ((T i).itemsAt ty).length).map v).sum)).sum :=
    sum_le_of_le (fun i hi => Nat.le_trans (step i hi) (vi i (List.mem_cons_of_mem _ hi)))
  have h3 : ((l.map Prod.fst).map v).sum ≤ (l.map (fun e => q.of e.2)).sum := by
    rw [List.map_map]
    refine sum_le_of_le ?_
    intro e he
    by_cases heA : e.1 ∈ A
    · obtain ⟨es, hes, t, w, ht, h4, h5⟩ := hl.shown e he
      exact Nat.le_of_eq (vA e.1 heA t _ h4 h5)
    · simp only [Function.comp, v, if_neg heA]
      exact Nat.zero_le _
  omega

end Rgb
