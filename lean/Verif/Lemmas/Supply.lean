import Verif.Spec.Supply
import Verif.Lemmas.Blank
import Verif.Lemmas.Honest
import Verif.Lemmas.Network
import Verif.Props.Blank

/-!
Lemmas for C100: composed transitions don't assign more than they spend.
-/

namespace Rgb

open Stock Index Props

theorem Quantity.of_content (q : Quantity) (st : RState) : q.of st.content = q.of st := by
  cases q <;> cases st <;> rfl

theorem Quantity.of_blinded (q : Quantity) (b : Nat) (st : RState) : q.of (OpBuilder.setBlinding b st) = q.of st := by
  cases q <;> cases st <;> rfl

/-- How much a list of states has of it, under a type. -/
def Quantity.items (q : Quantity) (ty : Nat) (l : List Item) : Nat := ((l.filter (fun x => decide (x.2.1.ty = ty))).map (fun x => q.of x.2.2)).sum

theorem amount_items (ty : Nat) (l : List Item) : Quantity.amount.items ty l = sumItems ty l := by
  unfold Quantity.items sumItems
  congr 1
  apply List.map_congr_left
  intro x _
  cases x.2.2 <;> rfl

theorem items_assigns {q : Quantity} {ty : Nat} {l : List Item} {m : List OutAssign} (h : l.Perm (m.map OutAssign.item)) :
    q.items ty l = ((ofType ty m).map (fun a => q.of a.state)).sum := by
  unfold Quantity.items
  refine ((h.filter _).map _).sum_nat.trans ?_
  rw [List.filter_map, List.map_map]
  rfl

theorem outs_issues (t : BuiltTransition) (q : Quantity) (ty : Nat) :
    t.op.issues q ty = ((t.outs ty).map (fun e => (e.2.map (fun st => q.of st.content)).getD 0)).sum := by
  unfold Op.issues BuiltTransition.outs
  cases OMap.get? t.op.assigns ty with
  | none => rfl
  | some ta =>
    simp only [Option.map_some, Option.getD_some, List.map_map]
    congr 1
    apply List.map_congr_left
    intro a _
    simp only [Function.comp, Quantity.of_content]

namespace Stock

/-- What is paid out of a side isn't more than there is. -/
theorem pays_sub {E : CEnv} {W : Wallet} {k : Stock} {p : Prep} {st : Inv.InvoiceState} {l : List Item} {a : Acc} {pm pa : List TCall}
    (hs : Spending E W k p (wanted E st) l { main := p.main, alt := p.alt } a) (h : Pays E W k p st a pm pa) (q : Quantity) (I : IfaceImpl) (dflt : Option Nat) :
    ((addsOf I dflt p.ty pm).map (fun e => q.of e.2.content)).sum ≤ q.items p.ty (l.filter (onMain W)) ∧
      ((addsOf I dflt p.ty pa).map (fun e => q.of e.2.content)).sum ≤ q.items p.ty (l.filter (fun x => !onMain W x)) := by
  cases st with
  | void => exact h.elim
  | attach x => exact h.elim
  | amount amt =>
    obtain ⟨hle, sm, hsm, rfl, rfl⟩ := h
    rw [addsOf_append, addsOf_append, payCalls_adds, payCalls_adds, payCalls_adds, payCalls_adds]
    cases q with
    | amount =>
      rw [amount_items, amount_items]
      have hw : (0 : Nat) < w64 := by decide
      have h1 := hs.sum
      have h2 := hs.sumAlt
      have h3 := hs.sumLt hw
      have h4 := hs.altLt hw
      have h5 := sumItems_split W p.ty l
      simp only [Nat.zero_add] at h1 h2
      generalize hm : sumItems p.ty (l.filter (onMain W)) = x at *
      generalize ha : sumItems p.ty (l.filter (fun x => !onMain W x)) = y at *
      rw [h5] at h1
      have hval : ∀ (sl sl' : BSeal) (u v f g : Nat), (((if p.ty = p.ty ∧ u > 0 then [(sl, RState.fungible u f 0)] else []) ++
          (if p.ty = p.ty ∧ v > 0 then [(sl', RState.fungible v g 0)] else [])).map (fun e => Quantity.amount.of e.2.content)).sum = u + v := by
        intro sl sl' u v f g
        by_cases hu : u > 0 <;> by_cases hv : v > 0 <;> simp [hu, hv, RState.content, Quantity.of] <;> omega
      rw [hval, hval]
      unfold w64 at *
      unfold subU at hsm
      have hy : a.sumAlt ≤ y := by omega
      have key : sm ≤ x ∧ (split sm amt).1 ≤ sm ∧ (split sm amt).2 ≤ a.sumAlt := by
        unfold split
        split at hsm
        · cases hsm
          split <;> refine ⟨?_, ?_, ?_⟩ <;> omega
        · split at hsm
          · cases hsm
          · cases hsm
            split <;> refine ⟨?_, ?_, ?_⟩ <;> omega
      omega
    | _ => constructor <;> split <;> split <;> simp [RState.content, Quantity.of]
  | data t =>
    obtain ⟨hd, rfl, rfl⟩ := h
    have hdm := hs.dataMain
    rw [hs.data] at hd
    simp only [Bool.true_and] at hdm
    have one : ∀ (m : List Item), (∃ x ∈ m, x.2.1.ty = p.ty ∧ x.2.2.data? = some (E.dataOf t)) → (Quantity.token (E.dataOf t)).items p.ty m ≥ 1 := by
      rintro m ⟨x, hx, hty, hxd⟩
      unfold Quantity.items
      obtain ⟨m1, m2, rfl⟩ := List.append_of_mem hx
      simp only [List.filter_append, List.filter_cons, hty, decide_true, if_true, List.map_append, List.map_cons, List.sum_append, List.sum_cons]
      have : (Quantity.token (E.dataOf t)).of x.2.2 = 1 := by
        cases hst : x.2.2 with
        | data v s =>
          rw [hst] at hxd
          simp only [RState.data?, Option.some.injEq] at hxd
          simp [Quantity.of, hxd]
        | _ => rw [hst] at hxd; cases hxd
      omega
    have adds : ∀ (cond : Bool) (tl fl : List TCall), addsOf I dflt p.ty (if cond then tl else fl) = if cond then addsOf I dflt p.ty tl else addsOf I dflt p.ty fl := by
      intro cond; cases cond <;> intros <;> rfl
    have a1 : addsOf I dflt p.ty [TCall.addDataRaw p.ty p.beneficiary (E.dataOf t) (W.seals .token)] = [(p.beneficiary, .data (E.dataOf t) (W.seals .token))] := by
      simp [addsOf, TCall.assigned]
    have a0 : addsOf I dflt p.ty [] = [] := rfl
    rw [adds, adds, a1, a0]
    have small : ∀ m : List Item, ((∃ x ∈ m, x.2.1.ty = p.ty ∧ x.2.2.data? = some (E.dataOf t)) →
        (([(p.beneficiary, RState.data (E.dataOf t) (W.seals .token))]).map (fun e => q.of e.2.content)).sum ≤ q.items p.ty m) := by
      intro m hm
      by_cases hq : q = .token (E.dataOf t)
      · subst hq
        have := one m hm
        simp [RState.content, Quantity.of]
        omega
      · cases q <;> simp [RState.content, Quantity.of]
        rename_i d
        split
        · rename_i he; exact absurd (by rw [he]) hq
        · exact Nat.zero_le _
    cases hb : l.any (isAltData W (wanted E (.data t)) p.ty) with
    | true =>
      rw [hb] at hdm
      rw [hdm]
      refine ⟨Nat.zero_le _, small _ ?_⟩
      obtain ⟨x, hx, hx'⟩ := List.any_eq_true.mp hb
      simp only [isAltData, Bool.and_eq_true, decide_eq_true_eq, Bool.not_eq_true'] at hx'
      exact ⟨x, List.mem_filter.mpr ⟨hx, by simp [hx'.1.2]⟩, hx'.1.1, hx'.2.2.symm⟩
    | false =>
      rw [hb] at hdm
      rw [hdm]
      refine ⟨small _ ?_, Nat.zero_le _⟩
      simp only [List.nil_append] at hd
      obtain ⟨x, hx, hxd⟩ := List.mem_filterMap.mp hd
      obtain ⟨hx, hty⟩ := List.mem_filter.mp hx
      have hty := of_decide_eq_true hty
      refine ⟨x, List.mem_filter.mpr ⟨hx, ?_⟩, hty, hxd⟩
      have := List.any_eq_false.mp hb x hx
      simp only [isAltData, hty, decide_true, Bool.true_and, hxd, wanted, Option.isSome_some, Bool.and_true, Bool.not_eq_true', Bool.not_eq_false] at this
      exact this

theorem moved_sum (q : Quantity) (E : CEnv) (W : Wallet) (k : Stock) (layer : Layer1) (c aty : Nat) (l : List Item) :
    ((movedItems E W k layer c aty l).map (fun e => q.of e.2.content)).sum = q.items aty l := by
  unfold movedItems Quantity.items
  rw [List.map_map]
  congr 1
  apply List.map_congr_left
  intro x _
  simp only [Function.comp, Quantity.of_content, Quantity.of_blinded]

/-- A payment assigns no more than it spends. -/
theorem Side.sub {E : CEnv} {W : Wallet} {k : Stock} {p : Prep} {op : Option Nat} {s : Started E k p.contract p.iface op p.main}
    {l : List Item} {pays : List TCall} {ts : List BuiltTransition} (h : Side E W k p op s l pays ts) {q : Quantity}
    (hp : ∀ I dflt, ((addsOf I dflt p.ty pays).map (fun e => q.of e.2.content)).sum ≤ q.items p.ty l) (hne : ∀ I dflt aty, aty ≠ p.ty → addsOf I dflt aty pays = [])
    {t : BuiltTransition} (ht : t ∈ ts) (aty : Nat) : t.op.issues q aty ≤ q.items aty l := by
  rcases h with ⟨rfl, rfl⟩ | ⟨-, t', rfl, hb⟩
  · cases ht
  · simp only [List.mem_singleton] at ht
    subst ht
    rw [outs_issues]
    refine Nat.le_trans (hb.sub aty q.of) ?_
    rw [addsOf_append, items_adds]
    by_cases ha : aty = p.ty
    · subst ha
      rw [if_pos rfl, List.nil_append]
      exact hp _ _
    · rw [if_neg ha, hne _ _ _ ha, List.append_nil, moved_sum]

theorem BSide.sub {E : CEnv} {W : Wallet} {k : Stock} {layer : Layer1} {id : Nat} {l : List Item} {ts : List BuiltTransition}
    (h : BSide E W k layer id l ts) (q : Quantity) {t : BuiltTransition} (ht : t ∈ ts) (aty : Nat) : t.op.issues q aty ≤ q.items aty l := by
  rcases h with ⟨rfl, rfl⟩ | ⟨-, t', I, dflt, rfl, hb⟩
  · cases ht
  · simp only [List.mem_singleton] at ht
    subst ht
    rw [outs_issues]
    refine Nat.le_trans (hb.sub aty q.of) ?_
    rw [blank_adds]
    unfold blankItems Quantity.items
    rw [List.map_map]
    apply Nat.le_of_eq
    congr 1
    apply List.map_congr_left
    intro x _
    simp only [Function.comp, Quantity.of_content]

/-- A transition of a batch assigns no more than it spends. -/
theorem compose_sub {E : CEnv} {n : Nat} (hE : E.Lawful n) {W : Wallet} {k : Stock} {inv : Inv.Invoice} {prevs : List OutSeal} {b : Batch}
    (h : compose E W k inv prevs = .ok b) {c : Nat} (hn : ((k.stateAt c prevs).map (fun a => a.opout)).Nodup) {t : BuiltTransition} (ht : t ∈ b.transitionsOf c)
    (q : Quantity) (ty : Nat) : t.op.issues q ty ≤ ((ofType ty (t.spends (k.stateAt c prevs))).map (fun a => q.of a.state)).sum := by
  obtain ⟨C⟩ := compose_ok hE h
  have hc := C.prepared.contract
  obtain ⟨h1, h2⟩ := List.mem_filter.1 ht
  have h2 : t.op.contract = c := of_decide_eq_true h2
  rcases List.mem_append.1 h1 with h1 | h1
  · have h3 := ((C38_inputs hE h hc).1 t h1).1
    rw [h2] at h3
    subst h3
    obtain ⟨p, hp, hperm⟩ := C.sides hE hn h1
    rw [← items_assigns hperm]
    rcases hp with ⟨rfl, hm⟩ | ⟨rfl, hm⟩
    · exact C.main.sub (fun I dflt => (pays_sub C.spending C.pays q I dflt).1) (fun I dflt aty ha => (C.pays.adds I dflt ha).1) hm ty
    · exact C.alt.sub (fun I dflt => (pays_sub C.spending C.pays q I dflt).2) (fun I dflt aty ha => (C.pays.adds I dflt ha).2) hm ty
  · obtain ⟨B⟩ := C.toBlanks hE
    subst h2
    obtain ⟨e, he, D, ht⟩ := blank_mem B h1
    obtain ⟨p, -, ts, hs, ht⟩ := blank_side D ht
    obtain ⟨h3, -, -, -, h5⟩ := hs.inputs ht
    rw [h3] at hn ⊢
    have hp := side_state p (own_perm hE (B.state e he) hn) hn h5
    have := hs.sub q ht ty
    rw [items_assigns hp] at this
    exact this

/-- A transition of a batch hides no state. -/
theorem compose_visible {E : CEnv} {n : Nat} (hE : E.Lawful n) {W : Wallet} {k : Stock} {inv : Inv.Invoice} {prevs : List OutSeal} {b : Batch}
    (h : compose E W k inv prevs = .ok b) {c : Nat} {t : BuiltTransition} (ht : t ∈ b.transitionsOf c) {ty : Nat} {ta : TypedAssigns}
    (hta : OMap.get? t.op.assigns ty = some ta) : ∀ a ∈ ta.items, ∃ st, a.state? = some st := by
  obtain ⟨C⟩ := compose_ok hE h
  have key : ∀ F I dflt c tty cs, Built F I dflt c tty cs t → ∀ a ∈ ta.items, ∃ st, a.state? = some st := by
    intro F I dflt c tty cs hb a ha
    obtain ⟨st, h1, -⟩ := hb.kinds ty ta hta a ha
    exact ⟨st, h1⟩
  obtain ⟨h1, -⟩ := List.mem_filter.1 ht
  rcases List.mem_append.1 h1 with h1 | h1
  · rw [C.payments] at h1
    have side : ∀ l pays ts, Side E W k C.p _ C.s l pays ts → t ∈ ts → ∀ a ∈ ta.items, ∃ st, a.state? = some st := by
      intro l pays ts hs ht
      rcases hs with ⟨rfl, rfl⟩ | ⟨-, t', rfl, hb⟩
      · cases ht
      · rw [List.mem_singleton] at ht
        subst ht
        exact key _ _ _ _ _ _ hb
    rcases List.mem_append.1 h1 with h1 | h1
    · exact side _ _ _ C.main h1
    · exact side _ _ _ C.alt h1
  · obtain ⟨B⟩ := C.toBlanks hE
    obtain ⟨e, he, D, ht⟩ := blank_mem B h1
    obtain ⟨p, -, ts, hs, ht⟩ := blank_side D ht
    rcases hs with ⟨-, rfl⟩ | ⟨-, t', I, dflt, rfl, hb⟩
    · cases ht
    · rw [List.mem_singleton] at ht
      subst ht
      exact key _ _ _ _ _ _ hb

end Stock

/-! ### Where operations come from -/

variable {E : CEnv} {n : Nat} {M : Mpc} {G : SchemaDoc → SchemaGlobals} {L : Ledger} {es : List StockEvent} {k k' : Stock}

theorem had_append {H : Commit} {es es' : List StockEvent} {c : Nat} {t : Op} {w : Option WitnessId} (h : Had H (es ++ es') c t w) :
    Had H es c t w ∨ Had H es' c t w := by
  cases h with
  | genesis con r he => exact (List.mem_append.mp he).imp (.genesis con r) (.genesis con r)
  | extension con r t wb he h1 h2 => exact (List.mem_append.mp he).imp (fun he => .extension con r t wb he h1 h2) (fun he => .extension con r t wb he h1 h2)
  | transition e c b w t he h1 h2 => exact (List.mem_append.mp he).imp (fun he => .transition e c b w t he h1 h2) (fun he => .transition e c b w t he h1 h2)

/-- The transition was composed by a wallet of the network. -/
structure Origin (E : CEnv) (M : Mpc) (G : SchemaDoc → SchemaGlobals) (L : Ledger) (c i : Nat) where
  es : List StockEvent
  k : Stock
  W : Wallet
  inv : Inv.Invoice
  prevs : List OutSeal
  b : Batch
  t : BuiltTransition
  honest : Honest E M G L es k
  composed : compose E W k inv prevs = .ok b
  mem : t ∈ b.transitionsOf c
  id : t.op.id E.H = i

theorem Honest.origin (hE : E.Lawful n) (hT : E.TagMaps) (hTC : E.TagsCommitted) (hH : E.H.Binding) (hM : M.Lawful) (hG : ∀ d, OMap.Sorted (G d).maxItems)
    (hI : Ids.Lawful E.H E.I) (h : Honest E M G L es k) : ∀ {c : Nat} {t : Op} {w : WitnessId}, Had E.H es c t (some w) → Nonempty (Origin E M G L c (t.id E.H)) := by
  induction h with
  | new =>
    intro c t w ht
    cases ht with
    | extension _ _ _ _ he => cases he
    | transition _ _ _ _ _ he => cases he
  | own h he hd ih =>
    intro c t w ht
    rcases had_append ht with ht | ht
    · exact ih ht
    · exfalso
      cases ht with
      | extension con r _ _ hm =>
        rw [List.mem_singleton] at hm
        subst hm
        exact he
      | transition x _ b _ _ hm hb =>
        rw [List.mem_singleton] at hm
        subst hm
        cases hb <;> exact he
  | issued h hb hc hf hd ih =>
    intro c t w ht
    rcases had_append ht with ht | ht
    · exact ih ht
    · exfalso
      cases ht with
      | extension con r _ _ hm _ hw =>
        rw [List.mem_singleton] at hm
        cases hm
        rw [hb] at hw
        cases hw
      | transition x _ b _ _ hm hbr =>
        rw [List.mem_singleton] at hm
        subst hm
        cases hbr with
        | consignment _ _ wb _ hw _ => rw [hb] at hw; cases hw
  | spent h hb hf hu hs hl ha hd ih =>
    intro c t w ht
    rcases had_append ht with ht | ht
    · exact ih ht
    · cases ht with
      | extension con r _ _ hm => rw [List.mem_singleton] at hm; cases hm
      | transition x _ bd _ _ hm hbr htk =>
        rw [List.mem_singleton] at hm
        subst hm
        cases hbr with
        | fascia _ _ _ _ hm =>
          obtain ⟨u, hu, rfl⟩ := (hf.batch _ hm).2 t htk
          exact ⟨⟨_, _, _, _, _, _, u, h, hb, hu, rfl⟩⟩
  | @received es es₀ k k' k₀ fuel c₀ outputs secret con r h₀ ht hoc h hd ih₀ ih =>
    intro c t w hh
    rcases had_append hh with hh | hh
    · exact ih hh
    · have hs₀ := h₀.sane hE hT hTC hH hM hG hI
      obtain ⟨h1, -, -, h4, -⟩ := consign_shape hH (hs₀.kept hH hG) ht
      cases hh with
      | extension con' r' _ _ hm ht =>
        rw [List.mem_singleton] at hm
        cases hm
        rw [h4] at ht
        cases ht
      | transition x _ bd _ _ hm hbr htk =>
        rw [List.mem_singleton] at hm
        subst hm
        have hs := transfer_sound hH (hs₀.kept hH hG) ht r
        have hwf := brought_wf hs hbr
        cases hbr with
        | consignment _ _ wb _ hw hb =>
          obtain ⟨x, hx, rfl⟩ := List.mem_map.mp hb
          obtain ⟨e, he, b', hb', e1, -, e3⟩ := transfer_brought hH hM hG hs₀ ht hoc hw hx
          obtain ⟨⟨i, y⟩, hi, hy⟩ := List.mem_map.mp htk
          obtain rfl : y = t := hy
          have hg := hwf.sorted.get?_of_mem hi
          have hc : OMap.contains b'.known i = true := (e3 i).trans (OMap.contains_iff.mpr ⟨_, hg⟩)
          obtain ⟨t', ht'⟩ := OMap.contains_iff.mp hc
          have hwf' := brought_wf (hs₀.furnished.sound e he) hb'
          obtain ⟨o⟩ := ih₀ (.transition e _ b' _ t' he hb' (List.mem_map.mpr ⟨_, OMap.mem_of_get? ht', rfl⟩))
          rw [h1]
          rw [(hwf.keyed _ _ hg).1, ← (hwf'.keyed _ _ ht').1]
          exact ⟨o⟩


/-! ### Counting -/

theorem sum_le_of_le {α : Type} {f g : α → Nat} : ∀ {l : List α}, (∀ x ∈ l, f x ≤ g x) → (l.map f).sum ≤ (l.map g).sum
  | [], _ => Nat.le_refl _
  | x :: l, h => by
    simp only [List.map_cons, List.sum_cons]
    exact Nat.add_le_add (h x List.mem_cons_self) (sum_le_of_le (fun y hy => h y (List.mem_cons_of_mem _ hy)))

theorem nodup_flatMap_of {α β : Type} {f : α → List β} : ∀ {l : List α}, l.Nodup → (∀ x ∈ l, (f x).Nodup) → (∀ x ∈ l, ∀ y ∈ l, ∀ z, z ∈ f x → z ∈ f y → x = y) → (l.flatMap f).Nodup
  | [], _, _, _ => List.nodup_nil
  | x :: l, hn, h1, h2 => by
    rw [List.nodup_cons] at hn
    rw [List.flatMap_cons, List.nodup_append]
    refine ⟨h1 x List.mem_cons_self, nodup_flatMap_of hn.2 (fun y hy => h1 y (List.mem_cons_of_mem _ hy))
      (fun y hy z hz => h2 y (List.mem_cons_of_mem _ hy) z (List.mem_cons_of_mem _ hz)), ?_⟩
    rintro z hz _ hz' rfl
    obtain ⟨y, hy, hzy⟩ := List.mem_flatMap.1 hz'
    exact hn.1 (h2 x List.mem_cons_self y (List.mem_cons_of_mem _ hy) z hz hzy ▸ hy)

/-- Each property picks a list of distinct members out of a list. -/
theorem exists_nodup {α : Type} (P : α → Prop) (l : List α) : ∃ K : List α, K.Nodup ∧ ∀ x, x ∈ K ↔ x ∈ l ∧ P x := by
  classical
  induction l with
  | nil => exact ⟨[], List.nodup_nil, by simp⟩
  | cons y l ih =>
    obtain ⟨K, h1, h2⟩ := ih
    by_cases h : y ∈ K ∨ ¬ P y
    · refine ⟨K, h1, fun x => ⟨fun hx => ⟨List.mem_cons_of_mem _ ((h2 x).1 hx).1, ((h2 x).1 hx).2⟩, ?_⟩⟩
      rintro ⟨hx, hp⟩
      rcases List.mem_cons.1 hx with rfl | hx
      · exact h.elim id (fun h => absurd hp h)
      · exact (h2 x).2 ⟨hx, hp⟩
    · rw [not_or, Classical.not_not] at h
      refine ⟨y :: K, List.nodup_cons.2 ⟨h.1, h1⟩, fun x => ?_⟩
      simp only [List.mem_cons, h2]
      constructor
      · rintro (rfl | h')
        · exact ⟨.inl rfl, h.2⟩
        · exact ⟨.inr h'.1, h'.2⟩
      · rintro ⟨rfl | h', hp⟩
        · exact .inl rfl
        · exact .inr ⟨h', hp⟩

/-- The outputs of an operation with the id, of a type. -/
def outsOf (i ty n : Nat) : List Opout := (List.range n).map (fun no => ⟨i, ty, no⟩)

theorem mem_outsOf {i ty n : Nat} {o : Opout} : o ∈ outsOf i ty n ↔ o.op = i ∧ o.ty = ty ∧ o.no < n := by
  simp only [outsOf, List.mem_map, List.mem_range]
  constructor
  · rintro ⟨no, h, rfl⟩; exact ⟨rfl, rfl, h⟩
  · rintro ⟨rfl, rfl, h⟩; exact ⟨o.no, h, rfl⟩

def Op.itemsAt (t : Op) (ty : Nat) : List Assign := ((OMap.get? t.assigns ty).map (fun ta => ta.items)).getD []

theorem Op.at_itemsAt (t : Op) (ty i : Nat) : t.at? ty i = (t.itemsAt ty)[i]? := by
  unfold Op.at? Op.itemsAt
  cases OMap.get? t.assigns ty <;> simp

/-- Where the values of the outputs are not more than what the operation shows, they are in sum not more than what it issues. -/
theorem outs_le (t : Op) (q : Quantity) (ty i : Nat) (v : Opout → Nat) (h : ∀ no, v ⟨i, ty, no⟩ ≤ ((t.stateAt? ty no).map q.of).getD 0) :
    ((outsOf i ty (t.itemsAt ty).length).map v).sum ≤ t.issues q ty := by
  have key : ∀ (l : List Assign) (s : Nat) (v : Nat → Nat), (∀ no, v no ≤ ((l[no]?.bind Assign.state?).map q.of).getD 0) →
      ((List.range l.length).map v).sum ≤ (l.map (fun a => (a.state?.map q.of).getD 0)).sum := by
    intro l s
    induction l with
    | nil => intro v _; simp
    | cons a l ih =>
      intro v hv
      rw [List.length_cons, List.range_succ_eq_map, List.map_cons, List.map_map, List.sum_cons, List.map_cons, List.sum_cons]
      refine Nat.add_le_add ?_ (ih _ ?_)
      · simpa using hv 0
      · intro no
        simpa using hv (no + 1)
  have := key (t.itemsAt ty) 0 (fun no => v ⟨i, ty, no⟩) (fun no => by
    have := h no
    rw [Op.stateAt?, Op.at_itemsAt] at this
    exact this)
  unfold outsOf
  rw [List.map_map]
  exact this

/-! ### The supply -/

theorem had_ids (H : Commit) (es : List StockEvent) (c : Nat) : ∃ l : List Nat, ∀ t w, Had H es c t (some w) → (∀ con r, .consignment con r ∈ es → con.data.extensions = []) →
    t.id H ∈ l := by
  refine ⟨es.flatMap (fun e => match e with
    | .consignment con _ => con.data.bundles.flatMap (fun wb => wb.anchored.bundles.flatMap (fun b => (OMap.vals b.known).map (fun t => t.id H)))
    | .fascia f _ => f.bundles.flatMap (fun e => (OMap.vals e.2.known).map (fun t => t.id H))
    | _ => []), ?_⟩
  intro t w h hx
  cases h with
  | extension con r _ _ he ht => rw [hx con r he] at ht; cases ht
  | transition e _ b _ _ he hb ht =>
    refine List.mem_flatMap.2 ⟨e, he, ?_⟩
    cases hb with
    | consignment con r wb _ hw hb => exact List.mem_flatMap.2 ⟨wb, hw, List.mem_flatMap.2 ⟨b, hb, List.mem_map_of_mem ht⟩⟩
    | fascia f r _ _ hb => exact List.mem_flatMap.2 ⟨_, hb, List.mem_map_of_mem ht⟩

theorem had_all_ids (H : Commit) (c : Nat) : ∀ ess : List (List StockEvent), ∃ l : List Nat, ∀ es ∈ ess, ∀ t w, Had H es c t (some w) →
    (∀ con r, .consignment con r ∈ es → con.data.extensions = []) → t.id H ∈ l
  | [] => ⟨[], by simp⟩
  | es :: ess => by
    obtain ⟨l, hl⟩ := had_all_ids H c ess
    obtain ⟨l', hl'⟩ := had_ids H es c
    refine ⟨l' ++ l, ?_⟩
    intro es' he t w h hx
    rcases List.mem_cons.1 he with rfl | he
    · exact List.mem_append_left _ (hl' t w h hx)
    · exact List.mem_append_right _ (hl es' he t w h hx)

/-- An allocation shown at outputs was shown by an operation of the history. -/
theorem shown_of_state (hH : E.H.Binding) (hG : ∀ d, OMap.Sorted (G d).maxItems) (hp : ∀ e ∈ es, e.Proper E.H)
    (h : runStock E.H E.I M G es .empty = some k) {c : Nat} {prevs : List OutSeal} {a : OutAssign} (ha : a ∈ k.stateAt c prevs) :
    ∃ t, Had E.H es c t a.witness ∧ t.id E.H = a.opout.op ∧ t.stateAt? a.opout.ty a.opout.no = some a.state := by
  simp only [Stock.stateAt] at ha
  cases hv : k.state.contractState c with
  | error x => rw [hv] at ha; cases ha
  | ok v =>
    rw [hv] at ha
    obtain ⟨h1, -⟩ := List.mem_filter.mp ha
    obtain ⟨kind, h2⟩ : ∃ kind, a ∈ v.all kind := by
      simp only [List.mem_append] at h1
      rcases h1 with ((h1 | h1) | h1) | h1
      exacts [⟨_, h1⟩, ⟨_, h1⟩, ⟨_, h1⟩, ⟨_, h1⟩]
    obtain ⟨t, w, ht, h3, h4, ta, x, sl, h5, -, h7, h8, -⟩ := C96_assignments hH hG hp h hv (List.mem_filter.1 h2).1
    refine ⟨t, h4 ▸ ht, h3.symm, ?_⟩
    simp only [Op.stateAt?, Op.at?, h5, Option.bind_some, h7, h8]

/-- In the network: what is shown of an output of the contract by operations of wallets. -/
def NetShown (E : CEnv) (M : Mpc) (G : SchemaDoc → SchemaGlobals) (L : Ledger) (c : Nat) (o : Opout) (st : RState) : Prop :=
  ∃ es k, Honest E M G L es k ∧ ShownAt E.H es c o st

open Classical in
/-- How much there is at an output. -/
noncomputable def valueAt (E : CEnv) (M : Mpc) (G : SchemaDoc → SchemaGlobals) (L : Ledger) (c : Nat) (q : Quantity) (o : Opout) : Nat :=
  if h : ∃ st, NetShown E M G L c o st then q.of h.choose else 0

theorem netShown_unique (hH : E.H.Binding) {c : Nat} {o : Opout} {st st' : RState} (h : NetShown E M G L c o st) {t : Op} (ht : t.id E.H = o.op)
    (hs : t.stateAt? o.ty o.no = some st') : st = st' := by
  obtain ⟨es, k, -, t', w, -, h1, h2⟩ := h
  exact Op.stateAt_agree hH (h1.trans ht.symm) h2 hs

theorem valueAt_eq (hH : E.H.Binding) {c : Nat} (q : Quantity) {o : Opout} {st : RState} (h : NetShown E M G L c o st) : valueAt E M G L c q o = q.of st := by
  have hx : ∃ st, NetShown E M G L c o st := ⟨st, h⟩
  rw [valueAt, dif_pos hx]
  obtain ⟨es, k, -, t, w, -, h1, h2⟩ := h
  rw [netShown_unique hH hx.choose_spec h1 h2]

/-- Nothing is at an output but what an operation which hides no state of the type has there. -/
theorem valueAt_le (hH : E.H.Binding) {c : Nat} (q : Quantity) {t : Op} {ty : Nat} (hv : ∀ a ∈ t.itemsAt ty, ∃ st, a.state? = some st) (no : Nat) :
    valueAt E M G L c q ⟨t.id E.H, ty, no⟩ ≤ ((t.stateAt? ty no).map q.of).getD 0 := by
  by_cases hx : ∃ st, NetShown E M G L c ⟨t.id E.H, ty, no⟩ st
  · obtain ⟨st, h⟩ := hx
    rw [valueAt_eq hH q h]
    obtain ⟨es, k, -, t', w, -, h1, h2⟩ := h
    have hc := Op.at_conceal hH h1 ty no
    simp only [Op.stateAt?, Option.bind_eq_some_iff] at h2
    obtain ⟨x, hx, h2⟩ := h2
    rw [hx, Option.map_some] at hc
    cases hy : t.at? ty no with
    | none => rw [hy] at hc; cases hc
    | some y =>
      obtain ⟨st', hst⟩ := hv y (by rw [Op.at_itemsAt] at hy; exact List.mem_of_getElem? hy)
      have h3 : t.stateAt? ty no = some st' := by simp only [Op.stateAt?, hy, Option.bind_some, hst]
      have h4 : t'.stateAt? ty no = some st := by simp only [Op.stateAt?, hx, Option.bind_some, h2]
      rw [h3, Op.stateAt_agree hH h1 h4 h3]
      exact Nat.le_refl _
  · rw [valueAt, dif_neg hx]
    exact Nat.zero_le _

theorem outs_mem (hH : E.H.Binding) {t t' : Op} (h : t'.id E.H = t.id E.H) {ty no : Nat} {st : RState} (hs : t'.stateAt? ty no = some st) :
    (⟨t.id E.H, ty, no⟩ : Opout) ∈ outsOf (t.id E.H) ty (t.itemsAt ty).length := by
  refine mem_outsOf.2 ⟨rfl, rfl, ?_⟩
  have hc := Op.at_conceal hH h ty no
  simp only [Op.stateAt?, Option.bind_eq_some_iff] at hs
  obtain ⟨x, hx, -⟩ := hs
  rw [hx, Option.map_some, Op.at_itemsAt] at hc
  cases hy : (t.itemsAt ty)[no]? with
  | none => rw [hy] at hc; cases hc
  | some y => exact (List.getElem?_eq_some_iff.1 hy).1

theorem inputs_of_id (hH : E.H.Binding) {t t' : Op} (h : t'.id E.H = t.id E.H) : t'.inputs = t.inputs := by
  have := congrArg (fun o : Op => o.inputs) (Op.conceal_of_id hH h)
  exact this

/-- The operation which an allocation is of is the genesis, or a transition of the history. -/
theorem Sane.had (h : Sane E M G L es k) {c : Nat} {t : Op} {w : Option WitnessId} (ht : Had E.H es c t w) : t.id E.H = c ∨ ∃ w, Had E.H es c t (some w) := by
  cases ht with
  | genesis con r he => exact .inl (by rw [Op.contractId, (h.furnished.sound _ he).proper.1.genesisKind])
  | extension con r t wb he ht hw => rw [h.furnished.noExtensions con r he] at ht; cases ht
  | transition e _ b w _ he hb ht => exact .inr ⟨w, .transition e _ b w _ he hb ht⟩

/-- The inputs of a transition of a history are outputs of the genesis or of transitions of the history. -/
theorem Sane.source (h : Sane E M G L es k) {c : Nat} {t : Op} {w : WitnessId} (ht : Had E.H es c t (some w)) {o : Opout} (ho : o ∈ t.inputs) :
    o.op = c ∨ ∃ t' w', Had E.H es c t' (some w') ∧ t'.id E.H = o.op := by
  cases ht with
  | extension con r t wb he ht hw => rw [h.furnished.noExtensions con r he] at ht; cases ht
  | transition e _ b w _ he hb ht =>
    obtain ⟨⟨i, y⟩, hi, hy⟩ := List.mem_map.1 ht
    obtain rfl : y = t := hy
    have hg := (brought_wf (h.furnished.sound e he) hb).sorted.get?_of_mem hi
    by_cases hc : o.op = c
    · exact .inl hc
    · cases h.traced e he c b w i hb (OMap.contains_iff.2 ⟨_, hg⟩) with
      | intro _ inputs =>
        cases inputs e he b w y hb hg o ho hc with
        | intro came _ =>
          obtain ⟨e', he', b', w', hb', hc', -⟩ := came
          obtain ⟨t', ht'⟩ := OMap.contains_iff.1 hc'
          exact .inr ⟨t', w', .transition e' _ b' w' t' he' hb' (List.mem_map.2 ⟨_, OMap.mem_of_get? ht', rfl⟩),
            ((brought_wf (h.furnished.sound e' he') hb').keyed _ _ ht').1⟩

/-- Where no bundle is in two transactions, no operation has two witnesses. -/
theorem oneWitness_of (hE : E.Lawful n) (hT : E.TagMaps) (hTC : E.TagsCommitted) (hH : E.H.Binding) (hM : M.Lawful) (hG : ∀ d, OMap.Sorted (G d).maxItems)
    (hI : Ids.Lawful E.H E.I) (hSR : E.S.Restores M) (hO : L.Once) : OneWitness E M G L := by
  intro es k W inv prevs b h _ c a ha a' ha' hop
  have hs := h.sane hE hT hTC hH hM hG hI
  have hatt := h.attd hE hT hTC hH hM hG hI hSR
  have hp : ∀ e ∈ es, e.Proper E.H := fun e he => (hs.furnished.sound e he).proper
  have hrun := allDone_run _ hs.done
  obtain ⟨t, h1, h2, -⟩ := shown_of_state hH hG hp hrun ha
  obtain ⟨t', h1', h2', -⟩ := shown_of_state hH hG hp hrun ha'
  have hid : t.id E.H = t'.id E.H := by rw [h2, h2', hop]
  have hk : t.kind = t'.kind := by
    have := congrArg (fun o : Op => o.kind) (Op.conceal_of_id hH hid)
    exact this
  have kinds : ∀ {t : Op} {w : Option WitnessId}, Had E.H es c t w → (w = none ∧ t.kind = .genesis) ∨ ∃ e ∈ es, ∃ b v, w = some v ∧ t.kind = .transition ∧
      e.Brings E.H c b v ∧ OMap.contains b.known (t.id E.H) = true := by
    intro t w ht
    cases ht with
    | genesis con r he => exact .inl ⟨rfl, (hp _ he).1.genesisKind⟩
    | extension con r t wb he ht hw => rw [hs.furnished.noExtensions con r he] at ht; cases ht
    | transition e _ b w _ he hb ht =>
      have hwf := brought_wf (hs.furnished.sound e he) hb
      refine .inr ⟨e, he, b, w, rfl, ?_, hb, ?_⟩
      · have := hp e he
        cases hb with
        | consignment con r wb _ hw hb => exact (this.2.2.2.2 wb hw b hb t ht).2
        | fascia f r _ _ hb => exact ((this _ hb).2 t ht).2
      · obtain ⟨⟨i, y⟩, hi, hy⟩ := List.mem_map.1 ht
        obtain rfl : y = t := hy
        have hg := hwf.sorted.get?_of_mem hi
        rw [(hwf.keyed _ _ hg).1]
        exact OMap.contains_iff.2 ⟨_, hg⟩
  rcases kinds h1 with ⟨e1, e2⟩ | ⟨e, he, b, w, e1, e2, hb, hc⟩ <;> rcases kinds h1' with ⟨e1', e2'⟩ | ⟨e', he', b', w', e1', e2', hb', hc'⟩
  · rw [e1, e1']
  · rw [e2, e2'] at hk; cases hk
  · rw [e2, e2'] at hk; cases hk
  · rw [e1, e1']
    have g1 := hatt.homes e he c b w hb _ hc
    have g2 := hatt.homes e' he' c b' w' hb' _ hc'
    rw [hid, g2] at g1
    have g3 := (hs.onLedger e he c b w hb).1
    have g4 := (hs.onLedger e' he' c b' w' hb').1
    rw [← (Prod.mk.inj g1).2, ← g4] at g3
    rw [hO _ _ _ _ _ g3]

/-- There is never more of it than the genesis issued. -/
theorem supply (hE : E.Lawful n) (hT : E.TagMaps) (hTC : E.TagsCommitted) (hH : E.H.Binding) (hM : M.Lawful) (hG : ∀ d, OMap.Sorted (G d).maxItems)
    (hI : Ids.Lawful E.H E.I) (hO : OneWitness E M G L) {ess : List (List StockEvent)} (hess : ∀ es ∈ ess, ∃ k, Honest E M G L es k) {c : Nat}
    (hd : NoDoubleSpend E.H ess c) {ty : Nat} {g : Op} (hg : g.id E.H = c) (hgs : ∀ a ∈ g.itemsAt ty, ∃ st, a.state? = some st) {l : List (Opout × RState)}
    (hl : Unspent E.H ess c ty l) (q : Quantity) : (l.map (fun e => q.of e.2)).sum ≤ g.issues q ty := by
  classical
  -- the transitions which the wallets had
  obtain ⟨l₀, hl₀⟩ := had_all_ids E.H c ess
  obtain ⟨K, hK, hKm⟩ := exists_nodup (fun i => ∃ es ∈ ess, ∃ t w, Had E.H es c t (some w) ∧ t.id E.H = i) l₀
  have sane : ∀ es ∈ ess, ∃ k, Sane E M G L es k := fun es he => by
    obtain ⟨k, hk⟩ := hess es he
    exact ⟨k, hk.sane hE hT hTC hH hM hG hI⟩
  have inK : ∀ es ∈ ess, ∀ t w, Had E.H es c t (some w) → t.id E.H ∈ K := by
    intro es he t w ht
    obtain ⟨k, hk⟩ := sane es he
    exact (hKm _).2 ⟨hl₀ es he t w ht hk.furnished.noExtensions, es, he, t, w, ht, rfl⟩
  -- how they were made
  have org : ∀ i, i ∈ K → Nonempty (Origin E M G L c i) := by
    intro i hi
    obtain ⟨-, es, he, t, w, ht, rfl⟩ := (hKm i).1 hi
    obtain ⟨k, hk⟩ := hess es he
    exact hk.origin hE hT hTC hH hM hG hI ht
  let spent : ∀ {i}, Origin E M G L c i → List OutAssign := fun o => ofType ty (o.t.spends (o.k.stateAt c o.prevs))
  let ins : Nat → List Opout := fun i => if h : i ∈ K then (spent (org i h).some).map (fun a => a.opout) else []
  let outs : Nat → List Opout := fun i => if h : i ∈ K then outsOf i ty ((org i h).some.t.op.itemsAt ty).length else []
  let v := valueAt E M G L c q
  have spent_mem : ∀ {i} (o : Origin E M G L c i) (a : OutAssign), a ∈ spent o → a ∈ o.k.stateAt c o.prevs ∧ a.opout ∈ o.t.op.inputs ∧ a.opout.ty = ty := by
    intro i o a ha
    obtain ⟨h1, h2⟩ := List.mem_filter.1 ha
    obtain ⟨h3, h4⟩ := List.mem_filter.1 h1
    exact ⟨h3, of_decide_eq_true h4, of_decide_eq_true h2⟩
  have nd : ∀ {i} (o : Origin E M G L c i), ((o.k.stateAt c o.prevs).map (fun a => a.opout)).Nodup := by
    intro i o
    have hs := o.honest.sane hE hT hTC hH hM hG hI
    exact C38_apart hH (hs.reachable hG) (hO _ _ _ _ _ _ o.honest o.composed c)
  have spent_nd : ∀ {i} (o : Origin E M G L c i), ((spent o).map (fun a => a.opout)).Nodup := by
    intro i o
    exact (nd o).sublist (List.Sublist.map _ (List.filter_sublist.trans List.filter_sublist))
  have spent_v : ∀ {i} (o : Origin E M G L c i) (a : OutAssign), a ∈ spent o → v a.opout = q.of a.state := by
    intro i o a ha
    have hs := o.honest.sane hE hT hTC hH hM hG hI
    obtain ⟨t, h1, h2, h3⟩ := shown_of_state hH hG (fun e he => (hs.furnished.sound e he).proper) (allDone_run _ hs.done) (spent_mem o a ha).1
    exact valueAt_eq hH q ⟨o.es, o.k, o.honest, t, _, h1, h2, h3⟩
  -- a transition assigns no more than it spends
  have step : ∀ i ∈ K, ((outs i).map v).sum ≤ ((ins i).map v).sum := by
    intro i hi
    simp only [outs, ins, dif_pos hi]
    generalize (org i hi).some = o
    have h1 : ((outsOf i ty (o.t.op.itemsAt ty).length).map v).sum ≤ o.t.op.issues q ty := by
      refine outs_le _ _ _ _ _ (fun no => ?_)
      have := valueAt_le (M := M) (G := G) (L := L) hH (c := c) q (t := o.t.op) (ty := ty) (by
        intro a ha
        unfold Op.itemsAt at ha
        cases hta : OMap.get? o.t.op.assigns ty with
        | none => rw [hta] at ha; cases ha
        | some ta =>
          rw [hta] at ha
          exact Stock.compose_visible hE o.composed o.mem hta a ha) no
      rw [o.id] at this
      exact this
    refine Nat.le_trans h1 (Nat.le_trans (Stock.compose_sub hE o.composed (nd o) o.mem q ty) ?_)
    rw [List.map_map]
    apply Nat.le_of_eq
    congr 1
    apply List.map_congr_left
    intro a ha
    exact (spent_v o a ha).symm
  have spends : ∀ i (hi : i ∈ K) (o : Opout), o ∈ ins i → o.ty = ty ∧ ∃ es ∈ ess, ∃ t w, Had E.H es c t (some w) ∧ t.id E.H = i ∧ o ∈ t.inputs := by
    intro i hi o ho
    obtain ⟨-, es, he, t, w, ht, hti⟩ := (hKm i).1 hi
    simp only [ins, dif_pos hi] at ho
    revert ho
    generalize (org i hi).some = og
    intro ho
    obtain ⟨a, ha, rfl⟩ := List.mem_map.1 ho
    obtain ⟨-, h1, h2⟩ := spent_mem og a ha
    exact ⟨h2, es, he, t, w, ht, hti, by rw [inputs_of_id hH (hti.trans og.id.symm)]; exact h1⟩
  -- what is at an output which is shown
  have shown : ∀ es ∈ ess, ∀ o : Opout, o.ty = ty → (o.op = c ∨ o.op ∈ K) → (∃ t : Op, t.id E.H = o.op ∧ ∃ st, t.stateAt? o.ty o.no = some st) →
      o ∈ outsOf c ty (g.itemsAt ty).length ++ K.flatMap outs := by
    intro es he o hty ho ht
    obtain ⟨t, ht, st, hst⟩ := ht
    obtain ⟨op, ty', no⟩ := o
    obtain rfl : ty' = ty := hty
    rcases ho with ho | ho
    · obtain rfl : op = c := ho
      refine List.mem_append_left _ ?_
      rw [← hg]
      exact outs_mem hH (ht.trans hg.symm) hst
    · refine List.mem_append_right _ (List.mem_flatMap.2 ⟨op, ho, ?_⟩)
      simp only [outs]
      have ho' : op ∈ K := ho
      rw [dif_pos ho']
      generalize (org op ho').some = og
      have := outs_mem hH (t := og.t.op) (ht.trans og.id.symm) hst
      rw [og.id] at this
      exact this
  have hnd : (l.map Prod.fst ++ K.flatMap ins).Nodup := by
    rw [List.nodup_append]
    refine ⟨hl.distinct, nodup_flatMap_of hK ?_ ?_, ?_⟩
    · intro i hi
      simp only [ins, dif_pos hi]
      exact spent_nd _
    · intro i hi j hj o h1 h2
      obtain ⟨-, es, he, t, w, ht, h3, h4⟩ := spends i hi o h1
      obtain ⟨-, es', he', t', w', ht', h3', h4'⟩ := spends j hj o h2
      rw [← h3, ← h3']
      exact hd es he es' he' o t t' ⟨⟨w, ht⟩, h4⟩ ⟨⟨w', ht'⟩, h4'⟩
    · rintro o ho _ ho' rfl
      obtain ⟨e, he, rfl⟩ := List.mem_map.1 ho
      obtain ⟨i, hi, h1⟩ := List.mem_flatMap.1 ho'
      obtain ⟨-, es, hes, t, w, ht, -, h4⟩ := spends i hi e.1 h1
      exact hl.unspent e he es hes t ⟨⟨w, ht⟩, h4⟩
  have hsub : ∀ o ∈ l.map Prod.fst ++ K.flatMap ins, o ∈ outsOf c ty (g.itemsAt ty).length ++ K.flatMap outs := by
    intro o ho
    rcases List.mem_append.1 ho with ho | ho
    · obtain ⟨e, he, rfl⟩ := List.mem_map.1 ho
      obtain ⟨es, hes, t, w, ht, h1, h2⟩ := hl.shown e he
      obtain ⟨k, hk⟩ := sane es hes
      refine shown es hes e.1 (hl.typed e he) ?_ ⟨t, h1, _, h2⟩
      rcases hk.had ht with h3 | ⟨w', h3⟩
      · exact .inl (h1 ▸ h3)
      · exact .inr (h1 ▸ inK es hes t w' h3)
    · obtain ⟨i, hi, h1⟩ := List.mem_flatMap.1 ho
      obtain ⟨h2, es, hes, t, w, ht, h3, h4⟩ := spends i hi o h1
      obtain ⟨k, hk⟩ := sane es hes
      refine shown es hes o h2 ?_ ?_
      · rcases hk.source ht h4 with h5 | ⟨t', w', h5, h6⟩
        · exact .inl h5
        · exact .inr (h6 ▸ inK es hes t' w' h5)
      · simp only [ins, dif_pos hi] at h1
        revert h1
        generalize (org i hi).some = og
        intro h1
        obtain ⟨a, ha, rfl⟩ := List.mem_map.1 h1
        have hs := og.honest.sane hE hT hTC hH hM hG hI
        obtain ⟨t', -, g2, g3⟩ := shown_of_state hH hG (fun e he => (hs.furnished.sound e he).proper) (allDone_run _ hs.done) (spent_mem og a ha).1
        exact ⟨t', g2, _, g3⟩
  have hsum := sum_subset v hnd hsub
  rw [List.map_append, List.map_append, List.sum_append, List.sum_append, sum_flatMap, sum_flatMap] at hsum
  have hk := sum_le_of_le step
  have hgen : ((outsOf c ty (g.itemsAt ty).length).map v).sum ≤ g.issues q ty := by
    refine outs_le _ _ _ _ _ (fun no => ?_)
    have := valueAt_le (M := M) (G := G) (L := L) hH (c := c) q hgs no
    rw [hg] at this
    exact this
  have hlv : ((l.map Prod.fst).map v).sum = (l.map (fun e => q.of e.2)).sum := by
    rw [List.map_map]
    congr 1
    apply List.map_congr_left
    intro e he
    obtain ⟨es, hes, hsh⟩ := hl.shown e he
    obtain ⟨k, hk⟩ := hess es hes
    exact valueAt_eq hH q ⟨es, k, hk, hsh⟩
  omega

end Rgb
