import Verif.Lemmas.Blank
import Verif.Lemmas.Batch
import Verif.Lemmas.Issue
import Verif.Lemmas.BuilderAccept
import Verif.Spec.Payable

/-! Composing doesn't fail if the means suffice. -/

namespace Rgb

/-- What the schema and the tags allow. -/
def BFits (S : Schema) (T : OMap Nat Nat) (ty : Nat) (st : RState) : Prop :=
  S.Owns ty st ∧ ∀ v bl t, st = .fungible v bl t → OMap.get? T ty = some t

/-- A builder which can go on: with `n` inputs at most and `m` states of each type. -/
structure BReady (S : Schema) (T : OMap Nat Nat) (n m : Nat) (b : TransitionBuilder) : Prop where
  inv : b.builder.Inv
  schema : b.builder.schema = S
  tags : b.builder.tags = T
  sorted : OMap.Sorted b.inputs
  few : b.inputs.length ≤ n
  inner : ∀ (k : StateKind) (ty : Nat) (i : OMap BSeal RState), OMap.get? (b.builder.slots k) ty = some i → i.length ≤ m
  typed : ∀ (k : StateKind) (ty : Nat), OMap.contains (b.builder.slots k) ty = true → ∃ o ∈ OMap.keys b.inputs, o.ty = ty
  fits : ∀ o st, (o, st) ∈ b.inputs → BFits S T o.ty st

theorem Schema.Owns.accepts {S : Schema} {ty : Nat} {st : RState} (h : S.Owns ty st) :
    ∃ sch, OMap.get? S.ownedTypes ty = some sch ∧ sch.accepts st = true := by
  cases st with
  | void => exact ⟨_, h, rfl⟩
  | fungible => exact ⟨_, h, rfl⟩
  | data => obtain ⟨sem, h⟩ := h; exact ⟨_, h, rfl⟩
  | attach => obtain ⟨sem, h⟩ := h; exact ⟨_, h, rfl⟩

theorem Schema.Owns.kind {S : Schema} {ty : Nat} {st st' : RState} (h : S.Owns ty st) (h' : S.Owns ty st') : st.kind = st'.kind := by
  obtain ⟨s, h1, h2⟩ := h.accepts
  obtain ⟨s', h3, h4⟩ := h'.accepts
  rw [h1] at h3; cases h3
  rw [OwnedSchema.accepts_kind h2, OwnedSchema.accepts_kind h4]

theorem Schema.Owns.same {S : Schema} {ty : Nat} {st st' : RState} (h : S.Owns ty st) (hk : st.kind = st'.kind) : S.Owns ty st' := by
  cases st <;> cases st' <;> first | exact h | (simp [RState.kind] at hk)

theorem BReady.mono {S : Schema} {T : OMap Nat Nat} {n m n' m' : Nat} {b : TransitionBuilder} (h : BReady S T n m b) (hn : n ≤ n') (hm : m ≤ m') :
    BReady S T n' m' b :=
  { h with few := Nat.le_trans h.few hn, inner := fun k ty i hi => Nat.le_trans (h.inner k ty i hi) hm }

theorem okay_addInput {S : Schema} {T : OMap Nat Nat} {n m : Nat} {b : TransitionBuilder} (h : BReady S T n m b) (hn : n < 255) {o : Opout} {st : RState}
    (hf : BFits S T o.ty st) : ∃ b', b.addInput o st = .ok b' ∧ BReady S T (n + 1) m b' ∧ o ∈ OMap.keys b'.inputs := by
  have hl : b.inputs.length < tinyMax := Nat.lt_of_le_of_lt h.few hn
  refine ⟨{ b with inputs := OMap.insert b.inputs o st }, ?_, ⟨h.inv, h.schema, h.tags, h.sorted.insert _ _, ?_, h.inner, ?_, ?_⟩, ?_⟩
  · unfold TransitionBuilder.addInput
    exact except_bind_ok.2 ⟨_, insertMax_ok.2 ⟨hl, rfl⟩, rfl⟩
  · exact Nat.le_trans (OMap.length_insert_le _ _ _) (Nat.succ_le_succ h.few)
  · intro k ty hc
    obtain ⟨o', ho', e⟩ := h.typed k ty hc
    exact ⟨o', OMap.mem_keys_insert.2 (.inr ho'), e⟩
  · intro o' st' hm
    rcases OMap.mem_of_insert hm with e | hm
    · cases e; exact hf
    · exact h.fits _ _ hm
  · exact OMap.mem_keys_insert.2 (.inl rfl)

/-- Types are less than inputs. -/
theorem BReady.types {S : Schema} {T : OMap Nat Nat} {n m : Nat} {b : TransitionBuilder} (h : BReady S T n m b) {l : List Nat} (hl : l.Nodup)
    (hm : ∀ ty ∈ l, ∃ o ∈ OMap.keys b.inputs, o.ty = ty) : l.length ≤ b.inputs.length := by
  have h1 : l ⊆ (OMap.keys b.inputs).map (fun o => o.ty) := by
    intro ty hty
    obtain ⟨o, ho, e⟩ := hm ty hty
    exact List.mem_map.2 ⟨o, ho, e⟩
  have h2 := (List.Nodup.subperm hl h1).length_le
  simpa [OMap.keys] using h2

theorem BReady.outer {S : Schema} {T : OMap Nat Nat} {n m : Nat} {b : TransitionBuilder} (h : BReady S T n m b) (hn : n ≤ 255) {ty : Nat}
    (hi : ∃ o ∈ OMap.keys b.inputs, o.ty = ty) (k : StateKind) (hg : OMap.get? (b.builder.slots k) ty = none) :
    (b.builder.slots k).length < tinyMax := by
  have h1 := h.types (l := ty :: OMap.keys (b.builder.slots k)) (by
    rw [List.nodup_cons]
    exact ⟨OMap.get?_eq_none_iff.1 hg, (h.inv.wf k).sorted.nodup⟩) (by
    intro ty' hty'
    rcases List.mem_cons.1 hty' with rfl | hty'
    · exact hi
    · exact h.typed k ty' (OMap.contains_iff.2 (by
        cases hx : OMap.get? (b.builder.slots k) ty' with
        | some x => exact ⟨x, rfl⟩
        | none => exact absurd hty' (OMap.get?_eq_none_iff.1 hx))))
  have h2 := h.few
  have h3 : (OMap.keys (b.builder.slots k)).length = (b.builder.slots k).length := by simp [OMap.keys]
  rw [List.length_cons, h3] at h1
  show _ < 255
  omega

/-- A builder with one more state of a type which an input has. -/
theorem BReady.after {S : Schema} {T : OMap Nat Nat} {n m : Nat} {b : TransitionBuilder} (h : BReady S T n m b) {ty : Nat}
    (hi : ∃ o ∈ OMap.keys b.inputs, o.ty = ty) {sl : BSeal} {st : RState} (hf : BFits S T ty st) {x : Slots}
    (hx : Slots.put (b.builder.slots st.kind) ty sl st = .ok x) : BReady S T n (m + 1) { b with builder := b.builder.setSlots st.kind x } := by
  obtain ⟨sch, hs, ha⟩ := hf.1.accepts
  have step : PStep b.builder (.put ty sl st) (b.builder.setSlots st.kind x) :=
    .put b.builder ty sl st sch x (by rw [h.schema]; exact hs) ha (fun v bl t e => by rw [h.tags]; exact hf.2 v bl t e) hx
  obtain ⟨p1, p2, p3⟩ := Slots.put_ok hx
  refine ⟨step.inv h.inv, ?_, ?_, h.sorted, h.few, ?_, ?_, h.fits⟩
  · rw [← h.schema]; exact (OpBuilder.sameDocs_setSlots _ _ _).1.symm
  · rw [← h.tags]; exact (OpBuilder.setSlots_rest _ _ _).1
  · intro k ty' i hi'
    replace hi' : OMap.get? ((b.builder.setSlots st.kind x).slots k) ty' = some i := hi'
    rw [OpBuilder.slots_setSlots] at hi'
    split at hi'
    · unfold Slots.put at hx
      cases hg : OMap.get? (b.builder.slots st.kind) ty with
      | some i0 =>
        rw [hg] at hx
        simp only [except_bind_ok, insertMax_ok] at hx
        obtain ⟨_, ⟨-, rfl⟩, hx⟩ := hx
        cases hx
        by_cases e : ty' = ty
        · subst e
          rw [OMap.get?_insert_self] at hi'; cases hi'
          exact Nat.le_trans (OMap.length_insert_le _ _ _) (Nat.succ_le_succ (h.inner _ _ _ hg))
        · rw [OMap.get?_insert_ne _ _ e] at hi'
          exact Nat.le_succ_of_le (h.inner _ _ _ hi')
      | none =>
        rw [hg] at hx
        obtain ⟨-, rfl⟩ := insertMax_ok.1 hx
        by_cases e : ty' = ty
        · subst e
          rw [OMap.get?_insert_self] at hi'; cases hi'
          simp
        · rw [OMap.get?_insert_ne _ _ e] at hi'
          exact Nat.le_succ_of_le (h.inner _ _ _ hi')
    · exact Nat.le_succ_of_le (h.inner _ _ _ hi')
  · intro k ty' hc
    replace hc : OMap.contains ((b.builder.setSlots st.kind x).slots k) ty' = true := hc
    rw [OpBuilder.slots_setSlots] at hc
    split at hc
    · rw [p2] at hc
      simp only [Bool.or_eq_true, decide_eq_true_eq] at hc
      rcases hc with rfl | hc
      · exact hi
      · exact h.typed _ _ hc
    · exact h.typed _ _ hc

/-- Room for a state of a type which an input has. -/
theorem BReady.put {S : Schema} {T : OMap Nat Nat} {n m : Nat} {b : TransitionBuilder} (h : BReady S T n m b) (hn : n ≤ 255) (hm : m < 65535) {ty : Nat}
    (hi : ∃ o ∈ OMap.keys b.inputs, o.ty = ty) (sl : BSeal) (st : RState) (hf : BFits S T ty st) :
    ∃ x, Slots.put (b.builder.slots st.kind) ty sl st = .ok x ∧
      BReady S T n (m + 1) { b with builder := b.builder.setSlots st.kind x } := by
  have hput : ∃ x, Slots.put (b.builder.slots st.kind) ty sl st = .ok x := by
    unfold Slots.put
    cases hg : OMap.get? (b.builder.slots st.kind) ty with
    | some i =>
      have hl : i.length < smallMax := Nat.lt_of_le_of_lt (h.inner _ _ _ hg) hm
      exact ⟨_, except_bind_ok.2 ⟨_, insertMax_ok.2 ⟨hl, rfl⟩, rfl⟩⟩
    | none => exact ⟨_, insertMax_ok.2 ⟨h.outer hn hi _ hg, rfl⟩⟩
  obtain ⟨x, hx⟩ := hput
  exact ⟨x, hx, h.after hi hf hx⟩

theorem okay_addOwned {S : Schema} {T : OMap Nat Nat} {n m : Nat} {b : TransitionBuilder} (h : BReady S T n m b) (hn : n ≤ 255) (hm : m < 65535)
    {ty : Nat} (hi : ∃ o ∈ OMap.keys b.inputs, o.ty = ty) (sl : BSeal) {st : RState} (hf : BFits S T ty st) :
    ∃ b', b.addOwnedRaw ty sl st = .ok b' ∧ BReady S T n (m + 1) b' ∧ b'.inputs = b.inputs := by
  obtain ⟨x, hx, hr⟩ := h.put hn hm hi sl st hf
  refine ⟨_, ?_, hr, rfl⟩
  have ho := hf.1
  rw [← h.schema] at ho
  unfold TransitionBuilder.addOwnedRaw
  cases st with
  | void =>
    refine except_bind_ok.2 ⟨(), rfl, TransitionBuilder.set_ok.2 ⟨_, ?_, rfl⟩⟩
    simp only [OpBuilder.addOwnedRaw, OpBuilder.addRightsRaw, OpBuilder.stateSchema, except_bind_ok, orErr_ok, failIf_ok, decide_eq_false_iff_not,
      ne_eq, Decidable.not_not]
    exact ⟨_, ho, (), rfl, x, hx, rfl⟩
  | fungible v bl t =>
    have ht := hf.2 v bl t rfl
    rw [← h.tags] at ht
    have hc : b.checkTag ty (.fungible v bl t) = .ok () := by
      simp only [TransitionBuilder.checkTag, OpBuilder.assetTagRaw, except_bind_ok, orErr_ok, failIf_ok, decide_eq_false_iff_not, ne_eq,
        Decidable.not_not]
      exact ⟨t, ht, rfl⟩
    refine except_bind_ok.2 ⟨(), hc, TransitionBuilder.set_ok.2 ⟨_, ?_, rfl⟩⟩
    simp only [OpBuilder.addOwnedRaw, OpBuilder.addFungibleRaw, OpBuilder.assetTagRaw, OpBuilder.stateSchema, except_bind_ok, orErr_ok, failIf_ok,
      decide_eq_false_iff_not, ne_eq, Decidable.not_not]
    exact ⟨t, ht, (), rfl, _, ho, (), rfl, x, hx, rfl⟩
  | data v salt =>
    obtain ⟨sem, ho⟩ := ho
    refine except_bind_ok.2 ⟨(), rfl, TransitionBuilder.set_ok.2 ⟨_, ?_, rfl⟩⟩
    simp only [OpBuilder.addOwnedRaw, OpBuilder.addDataRaw, OpBuilder.stateSchema, except_bind_ok, orErr_ok]
    exact ⟨_, ho, except_bind_ok.2 ⟨x, hx, rfl⟩⟩
  | attach f md salt =>
    obtain ⟨sem, ho⟩ := ho
    refine except_bind_ok.2 ⟨(), rfl, TransitionBuilder.set_ok.2 ⟨_, ?_, rfl⟩⟩
    simp only [OpBuilder.addOwnedRaw, OpBuilder.addAttachmentRaw, OpBuilder.stateSchema, except_bind_ok, orErr_ok]
    exact ⟨_, ho, except_bind_ok.2 ⟨x, hx, rfl⟩⟩

theorem okay_pay {S : Schema} {T : OMap Nat Nat} {n m : Nat} {b : TransitionBuilder} (h : BReady S T n m b) (hn : n ≤ 255) (hm : m < 65535)
    {ty : Nat} (sl : BSeal) {v bl : Nat} (hi : 0 < v → ∃ o st, (o, st) ∈ b.inputs ∧ o.ty = ty ∧ st.kind = .fungible) :
    ∃ b', Stock.pay b ty sl v bl = .ok b' ∧ BReady S T n (m + 1) b' ∧ b'.inputs = b.inputs := by
  unfold Stock.pay
  by_cases hv : v > 0
  · rw [if_pos hv]
    obtain ⟨o, st, hin, rfl, hk⟩ := hi hv
    obtain ⟨ho, ht⟩ := h.fits o st hin
    cases st with
    | void => cases hk
    | data => cases hk
    | attach => cases hk
    | fungible v0 bl0 t =>
      have ht := ht v0 bl0 t rfl
      obtain ⟨x, hx, hr⟩ := h.put hn hm ⟨o, List.mem_map.2 ⟨_, hin, rfl⟩, rfl⟩ sl (.fungible v bl t)
        ⟨ho.same rfl, fun _ _ _ e => by cases e; exact ht⟩
      refine ⟨_, liftB_ok.2 ?_, hr, rfl⟩
      rw [← h.schema] at ho
      rw [← h.tags] at ht
      simp only [TransitionBuilder.addFungibleRaw, OpBuilder.assetTagRaw, except_bind_ok, orErr_ok]
      refine ⟨t, ht, TransitionBuilder.set_ok.2 ⟨_, ?_, rfl⟩⟩
      simp only [OpBuilder.addFungibleRaw, OpBuilder.stateSchema, except_bind_ok, orErr_ok, failIf_ok, decide_eq_false_iff_not, ne_eq,
        Decidable.not_not]
      exact ⟨_, ho, (), rfl, x, hx, rfl⟩
  · rw [if_neg hv]
    exact ⟨b, rfl, h.mono (Nat.le_refl _) (Nat.le_succ _), rfl⟩

theorem okay_payData {S : Schema} {T : OMap Nat Nat} {n m : Nat} {b : TransitionBuilder} (h : BReady S T n m b) (hn : n ≤ 255) (hm : m < 65535)
    {ty : Nat} (sl : BSeal) {v salt : Nat} (hi : ∃ o st, (o, st) ∈ b.inputs ∧ o.ty = ty ∧ st.kind = .structured) :
    ∃ b', b.set (b.builder.addDataRaw ty sl v salt) = .ok b' ∧ BReady S T n (m + 1) b' ∧ b'.inputs = b.inputs := by
  obtain ⟨o, st, hin, rfl, hk⟩ := hi
  obtain ⟨ho, -⟩ := h.fits o st hin
  have ho : S.Owns o.ty (.data v salt) := ho.same hk
  obtain ⟨x, hx, hr⟩ := h.put hn hm ⟨o, List.mem_map.2 ⟨_, hin, rfl⟩, rfl⟩ sl (.data v salt) ⟨ho, fun _ _ _ e => by cases e⟩
  refine ⟨_, TransitionBuilder.set_ok.2 ⟨_, ?_, rfl⟩, hr, rfl⟩
  rw [← h.schema] at ho
  obtain ⟨sem, ho⟩ := ho
  simp only [OpBuilder.addDataRaw, OpBuilder.stateSchema, except_bind_ok, orErr_ok]
  exact ⟨_, ho, except_bind_ok.2 ⟨x, hx, rfl⟩⟩

theorem okay_completes {E : BEnv} (hb : ∀ ins outs, E.balance ins outs ≠ none) {S : Schema} {T : OMap Nat Nat} {n m : Nat} {b : TransitionBuilder}
    (h : BReady S T n m b) (hn : n ≤ 255) : ∃ t, b.complete E = .ok t := by
  have hc : ∀ k, ∀ ty ∈ OMap.keys (b.builder.slots k), OMap.contains (b.builder.slots k) ty = true := by
    intro k ty hty
    cases hx : OMap.get? (b.builder.slots k) ty with
    | some x => exact OMap.contains_iff.2 ⟨x, hx⟩
    | none => exact absurd hty (OMap.get?_eq_none_iff.1 hx)
  have hdis : ∀ k k', k ≠ k' → ∀ ty ∈ OMap.keys (b.builder.slots k), ty ∉ OMap.keys (b.builder.slots k') := by
    intro k k' hne ty h1 h2
    obtain ⟨i, hi⟩ := OMap.contains_iff.1 (hc k ty h1)
    obtain ⟨i', hi'⟩ := OMap.contains_iff.1 (hc k' ty h2)
    exact hne (h.inv.disjoint hi hi')
  have ht : b.builder.total ≤ 255 := by
    have hl := h.types (l := [StateKind.fungible, .structured, .declarative, .attachment].flatMap (fun k => OMap.keys (b.builder.slots k)))
      (nodup_flatMap (fun k _ => (h.inv.wf k).sorted.nodup) (by
        have : [StateKind.fungible, .structured, .declarative, .attachment].Pairwise (· ≠ ·) := by decide
        exact this.imp (fun hne => hdis _ _ hne)))
      (by
        intro ty hty
        obtain ⟨k, -, hk⟩ := List.mem_flatMap.1 hty
        exact h.typed k ty (hc k ty hk))
    have := h.few
    simp only [List.flatMap_cons, List.flatMap_nil, List.length_append, OMap.keys, List.length_map, List.length_nil, OpBuilder.slots] at hl
    unfold OpBuilder.total
    omega
  obtain ⟨a, ha⟩ := (OpBuilder.okay_complete hb h.inv ht (ins := b.inputs)).2 (by
    rintro ty hcn ⟨o, st⟩ he rfl
    obtain ⟨sch, hs, hk⟩ := h.inv.typed .fungible o.ty hcn
    obtain ⟨sch', hs', ha⟩ := (h.fits o st he).1.accepts
    rw [h.schema, hs'] at hs
    cases hs
    rw [RState.isAmount_iff, OwnedSchema.accepts_kind ha, hk])
  exact ⟨_, by unfold TransitionBuilder.complete; exact except_bind_ok.2 ⟨a, ha, rfl⟩⟩

theorem ready_new (b : TransitionBuilder) {S : Schema} {T : OMap Nat Nat} (hi : b.builder.Inv) (hs : b.builder.schema = S) (ht : b.builder.tags = T)
    (h0 : b.inputs = []) (h1 : ∀ k, b.builder.slots k = []) : BReady S T 0 0 b where
  inv := hi
  schema := hs
  tags := ht
  sorted := by rw [h0]; exact OMap.Sorted.nil
  few := by rw [h0]; exact Nat.le_refl _
  inner := fun k ty i h => by rw [h1] at h; cases h
  typed := fun k ty h => by rw [h1] at h; cases h
  fits := fun o st h => by rw [h0] at h; cases h

theorem BFits.blinded {S : Schema} {T : OMap Nat Nat} {ty : Nat} {st : RState} (h : BFits S T ty st) (f : Nat) :
    BFits S T ty (OpBuilder.setBlinding f st) := by
  refine ⟨h.1.same (by cases st <;> rfl), fun v bl t e => ?_⟩
  cases st with
  | fungible v0 bl0 t0 =>
    simp only [OpBuilder.setBlinding, RState.fungible.injEq] at e
    exact h.2 v0 bl0 t (by rw [e.2.2])
  | _ => cases e

namespace Stock

/-- Both builders can go on. -/
structure Going (S : Schema) (T : OMap Nat Nat) (n m : Nat) (a : Acc) : Prop where
  main : BReady S T n m a.main
  alt : BReady S T n m a.alt

theorem okay_outputFor (E : CEnv) {W : Wallet} (hal : ∀ site c ty v, (W.alloc site c ty v).isSome = true) (k : Stock) (layer : Layer1) (site : Site) (c ty : Nat) :
    outputFor E W k layer site c ty = .ok (W.outSeal E k layer site c ty) := by
  have h := hal site c ty (E.velocity (k.stash.supplements (E.genesisRef c)).head? ty)
  obtain ⟨v, hv⟩ := Option.isSome_iff_exists.1 h
  unfold outputFor Wallet.outSeal
  rw [hv]
  rfl

theorem okay_on {S : Schema} {T : OMap Nat Nat} {n m n' m' : Nat} {a : Acc} (h : Going S T n m a) (hn : n ≤ n') (hm : m ≤ m') (side : Bool)
    {f : TransitionBuilder → Except BErr TransitionBuilder} {P : TransitionBuilder → Prop}
    (hf : ∃ b, f (if side then a.main else a.alt) = .ok b ∧ BReady S T n' m' b ∧ P b) :
    ∃ a', a.on side f = .ok a' ∧ Going S T n' m' a' ∧ a'.sum = a.sum ∧ a'.sumAlt = a.sumAlt ∧ P (if side then a'.main else a'.alt) := by
  obtain ⟨b, hb, hr, hp⟩ := hf
  unfold Acc.on
  cases side with
  | true =>
    simp only [if_true] at hb ⊢
    exact ⟨_, except_bind_ok.2 ⟨b, liftB_ok.2 hb, rfl⟩, ⟨hr, h.alt.mono hn hm⟩, rfl, rfl, hp⟩
  | false =>
    simp only [Bool.false_eq_true, if_false] at hb ⊢
    exact ⟨_, except_bind_ok.2 ⟨b, liftB_ok.2 hb, rfl⟩, ⟨h.main.mono hn hm, hr⟩, rfl, rfl, hp⟩

theorem Going.side {S : Schema} {T : OMap Nat Nat} {n m : Nat} {a : Acc} (h : Going S T n m a) (side : Bool) :
    BReady S T n m (if side then a.main else a.alt) := by
  cases side
  · exact h.alt
  · exact h.main

theorem okay_addU (E : CEnv) {a b : Nat} (h : a + b < w64) : addU E a b = .ok (a + b) := by
  unfold addU
  exact if_pos h

theorem okay_count (E : CEnv) (want : Option Nat) (side : Bool) {a : Acc} {st : RState} (hs : a.sum + st.amount < w64) (hle : a.sumAlt ≤ a.sum) :
    ∃ a', a.count E want side st = .ok a' ∧ a'.main = a.main ∧ a'.alt = a.alt ∧ a'.sum = a.sum + st.amount ∧ a'.sumAlt ≤ a'.sum := by
  cases st with
  | void => exact ⟨a, rfl, rfl, rfl, rfl, hle⟩
  | attach => exact ⟨a, rfl, rfl, rfl, rfl, hle⟩
  | data v salt => exact ⟨_, rfl, rfl, rfl, rfl, hle⟩
  | fungible v bl t =>
    simp only [RState.amount] at hs
    cases side with
    | true =>
      refine ⟨{ a with sum := a.sum + v }, ?_, rfl, rfl, rfl, Nat.le_trans hle (Nat.le_add_right _ _)⟩
      simp only [Acc.count, okay_addU E hs, if_true]; rfl
    | false =>
      refine ⟨{ a with sum := a.sum + v, sumAlt := a.sumAlt + v }, ?_, rfl, rfl, rfl, Nat.add_le_add_right hle _⟩
      simp only [Acc.count, okay_addU E hs, okay_addU E (show a.sumAlt + v < w64 by omega), Bool.false_eq_true, if_false]; rfl

theorem okay_spendOne {E : CEnv} {W : Wallet} (hal : ∀ site c ty v, (W.alloc site c ty v).isSome = true) {k : Stock} {p : Prep} (want : Option Nat)
    (s : OutSeal) {S : Schema} {T : OMap Nat Nat} {n m : Nat} {a : Acc} (h : Going S T n m a) (hle : a.sumAlt ≤ a.sum) (hn : n < 255) (hm : m < 65535) {o : Opout}
    {st : RState} (hf : BFits S T o.ty st) (hs : a.sum + sumItems p.ty [(s, o, st)] < w64) :
    ∃ a', spendOne E W k p want s a o st = .ok a' ∧ Going S T (n + 1) (m + 1) a' ∧ a'.sumAlt ≤ a'.sum ∧ a'.sum = a.sum + sumItems p.ty [(s, o, st)] := by
  obtain ⟨b1, hb1, hr1, ho1⟩ := okay_addInput (h.side (decide (s.method = W.method))) hn hf
  obtain ⟨a1, ha1, hg1, e1, e2, hp1⟩ := okay_on (n' := n + 1) (m' := m) h (Nat.le_succ _) (Nat.le_refl _) (decide (s.method = W.method))
    (f := fun b => b.addInput o st) (P := fun b => o ∈ OMap.keys b.inputs) ⟨b1, hb1, hr1, ho1⟩
  unfold spendOne
  rw [sumItems_one] at hs ⊢
  by_cases hty : o.ty = p.ty
  · have hne : ¬ o.ty ≠ p.ty := fun h => h hty
    simp only [hty] at hs
    simp only [if_true] at hs
    obtain ⟨a2, ha2, m1, m2, m3, m4⟩ := okay_count E want (decide (s.method = W.method)) (a := a1) (st := st) (by rw [e1]; exact hs) (by rw [e1, e2]; exact hle)
    refine ⟨a2, ?_, ⟨?_, ?_⟩, m4, ?_⟩
    · refine except_bind_ok.2 ⟨a1, ha1, ?_⟩
      rw [if_neg hne]; exact ha2
    · rw [m1]; exact hg1.main.mono (Nat.le_refl _) (Nat.le_succ _)
    · rw [m2]; exact hg1.alt.mono (Nat.le_refl _) (Nat.le_succ _)
    · rw [m3, e1]; simp only [hty, if_true]
  · obtain ⟨b2, hb2, hr2, -⟩ := okay_addOwned (hg1.side (decide (s.method = W.method))) hn hm ⟨o, hp1, rfl⟩
      (W.outSeal E k p.layer (.moved p.contract s o) p.contract o.ty) (hf.blinded (W.factors (.moved p.contract s o)))
    obtain ⟨a2, ha2, hg2, e3, e4, -⟩ := okay_on (n' := n + 1) (m' := m + 1) hg1 (Nat.le_refl _) (Nat.le_succ _) (decide (s.method = W.method))
      (f := fun b => b.addOwnedRaw o.ty (W.outSeal E k p.layer (.moved p.contract s o) p.contract o.ty)
        (OpBuilder.setBlinding (W.factors (.moved p.contract s o)) st)) (P := fun _ => True) ⟨b2, hb2, hr2, trivial⟩
    refine ⟨a2, ?_, hg2, by rw [e3, e4, e1, e2]; exact hle, ?_⟩
    · refine except_bind_ok.2 ⟨a1, ha1, ?_⟩
      rw [if_pos hty]
      exact except_bind_ok.2 ⟨_, okay_outputFor E hal _ _ _ _ _, ha2⟩
    · rw [e3, e1]; simp [hty]

theorem okay_spendList {E : CEnv} {W : Wallet} (hal : ∀ site c ty v, (W.alloc site c ty v).isSome = true) {k : Stock} {p : Prep} (want : Option Nat)
    (s : OutSeal) {S : Schema} {T : OMap Nat Nat} (l : List (Opout × RState)) : ∀ {n m : Nat} {a : Acc}, Going S T n m a → a.sumAlt ≤ a.sum →
    n + l.length ≤ 255 → m + l.length ≤ 65535 → (∀ x ∈ l, BFits S T x.1.ty x.2) → a.sum + sumItems p.ty (l.map (fun x => (s, x.1, x.2))) < w64 →
    ∃ a', spendList E W k p want s l a = .ok a' ∧ Going S T (n + l.length) (m + l.length) a' ∧ a'.sumAlt ≤ a'.sum ∧
      a'.sum = a.sum + sumItems p.ty (l.map (fun x => (s, x.1, x.2))) := by
  induction l with
  | nil => intro n m a h hle hn hm hf hs; exact ⟨a, rfl, h, hle, rfl⟩
  | cons x l ih =>
    intro n m a h hle hn hm hf hs
    obtain ⟨o, st⟩ := x
    have hv : sumItems p.ty (((o, st) :: l).map (fun x => (s, x.1, x.2))) = sumItems p.ty [(s, o, st)] + sumItems p.ty (l.map (fun x => (s, x.1, x.2))) := by
      rw [List.map_cons, ← List.singleton_append, sumItems_append]
    rw [hv] at hs ⊢
    simp only [List.length_cons] at hn hm ⊢
    obtain ⟨a1, h1, g1, l1, s1⟩ := okay_spendOne (E := E) (p := p) (k := k) hal want s h hle (by omega) (by omega) (o := o) (st := st) (hf (o, st) (by simp)) (by omega)
    obtain ⟨a2, h2, g2, l2, s2⟩ := ih g1 l1 (by omega) (by omega) (fun x hx => hf x (by simp [hx])) (by rw [s1]; omega)
    refine ⟨a2, by simp only [spendList]; exact except_bind_ok.2 ⟨a1, h1, h2⟩, g2.1.mono (by omega) (by omega) |> fun r => ⟨r, g2.2.mono (by omega) (by omega)⟩, l2, ?_⟩
    rw [s2, s1]; omega

theorem okay_spendAll {E : CEnv} {W : Wallet} (hal : ∀ site c ty v, (W.alloc site c ty v).isSome = true) {k : Stock} {p : Prep} (want : Option Nat)
    {S : Schema} {T : OMap Nat Nat} (l : List (OutSeal × OMap Opout RState)) : ∀ {n m : Nat} {a : Acc}, Going S T n m a → a.sumAlt ≤ a.sum →
    n + (visited E p.contract l).length ≤ 255 → m + (visited E p.contract l).length ≤ 65535 → (∀ x ∈ visited E p.contract l, BFits S T x.2.1.ty x.2.2) →
    a.sum + sumItems p.ty (visited E p.contract l) < w64 →
    ∃ a', spendAll E W k p want l a = .ok a' ∧ Going S T (n + (visited E p.contract l).length) (m + (visited E p.contract l).length) a' := by
  induction l with
  | nil => intro n m a h hle hn hm hf hs; exact ⟨a, rfl, h⟩
  | cons x l ih =>
    intro n m a h hle hn hm hf hs
    obtain ⟨s, o⟩ := x
    have hv : visited E p.contract ((s, o) :: l) = (E.ordOpouts p.contract s o).map (fun x => (s, x.1, x.2)) ++ visited E p.contract l := by
      simp [visited]
    rw [hv] at hf
    rw [hv, List.length_append, List.length_map] at hn hm ⊢
    rw [hv, sumItems_append] at hs
    have hp : Going S T n m (a.pushOutput W s) := by
      unfold Acc.pushOutput; split <;> exact ⟨h.main, h.alt⟩
    have hle' : (a.pushOutput W s).sumAlt ≤ (a.pushOutput W s).sum := by
      unfold Acc.pushOutput; split <;> exact hle
    have hse : (a.pushOutput W s).sum = a.sum := by
      unfold Acc.pushOutput; split <;> rfl
    obtain ⟨a1, h1, g1, l1, s1⟩ := okay_spendList (E := E) (k := k) (p := p) hal want s (E.ordOpouts p.contract s o) hp hle' (by omega) (by omega)
      (fun x hx => hf (s, x.1, x.2) (List.mem_append_left _ (List.mem_map.2 ⟨x, hx, rfl⟩))) (by rw [hse]; omega)
    obtain ⟨a2, h2, g2⟩ := ih g1 l1 (by omega) (by omega) (fun x hx => hf x (List.mem_append_right _ hx)) (by rw [s1, hse]; omega)
    refine ⟨a2, by simp only [spendAll]; exact except_bind_ok.2 ⟨a1, h1, h2⟩, g2.1.mono (by omega) (by omega), g2.2.mono (by omega) (by omega)⟩

/-! ### Payments -/

theorem inputs_of {E : BEnv} {det : Bool} {contract ty : Nat} {iface : Iface} {schema : Schema}
    {iimpl : IfaceImpl} {tags : List (Nat × Nat)} {cs : List TCall} {b0 b : TransitionBuilder}
    (h0 : TransitionBuilder.calls E (tagCalls tags) (.new det contract iface schema iimpl ty) = .ok b0)
    (h : TransitionBuilder.calls E cs b0 = .ok b) : b.inputs = OMap.extend [] (cs.filterMap TCall.input) := by
  obtain ⟨ps, d⟩ := TransitionBuilder.calls_did (calls_append_ok h0 h)
  have hi := d.inputs
  rw [List.filterMap_append, tagCalls_input, List.nil_append] at hi
  exact hi

/-- An input of each type of state which was spent. Its state is of the same kind if all fit. -/
theorem input_of_item {E : BEnv} {det : Bool} {contract ty : Nat} {iface : Iface} {schema : Schema}
    {iimpl : IfaceImpl} {tags : List (Nat × Nat)} {cs : List TCall} {b0 b : TransitionBuilder}
    (h0 : TransitionBuilder.calls E (tagCalls tags) (.new det contract iface schema iimpl ty) = .ok b0)
    (h : TransitionBuilder.calls E cs b0 = .ok b) {S : Schema} {T : OMap Nat Nat} {n m : Nat} (hr : BReady S T n m b) {o : Opout} {st : RState}
    (hm : (o, st) ∈ cs.filterMap TCall.input) (ho : S.Owns o.ty st) : ∃ st', (o, st') ∈ b.inputs ∧ st'.kind = st.kind := by
  have hi := inputs_of h0 h
  have hk : o ∈ OMap.keys b.inputs := by
    rw [hi, OMap.mem_keys_extend]; right; exact List.mem_map.2 ⟨_, hm, rfl⟩
  obtain ⟨⟨o', st'⟩, h1, h2⟩ := List.mem_map.1 hk
  simp only at h2
  subst h2
  exact ⟨st', h1, (hr.fits _ _ h1).1.kind ho⟩

theorem sumItems_pos {ty : Nat} {l : List Item} (h : 0 < sumItems ty l) : ∃ x ∈ l, x.2.1.ty = ty ∧ x.2.2.kind = .fungible := by
  induction l with
  | nil => exact absurd h (Nat.lt_irrefl 0)
  | cons x l ih =>
    rw [← List.singleton_append, sumItems_append, sumItems_one] at h
    by_cases hx : 0 < sumItems ty l
    · obtain ⟨y, hy, e⟩ := ih hx
      exact ⟨y, List.mem_cons_of_mem _ hy, e⟩
    · refine ⟨x, List.mem_cons_self, ?_⟩
      split at h
      · rename_i hty
        refine ⟨hty, ?_⟩
        cases hs : x.2.2 with
        | fungible => rfl
        | _ => rw [hs] at h; simp only [RState.amount] at h; omega
      · omega

theorem okay_payAmount {E : CEnv} {W : Wallet} (hal : ∀ site c ty v, (W.alloc site c ty v).isSome = true) {k : Stock} {p : Prep} {amt : Nat}
    {S : Schema} {T : OMap Nat Nat} {n m : Nat} {a : Acc} (h : Going S T n m a) (hn : n ≤ 255) (hm : m + 2 ≤ 65535) (hamt : amt ≤ a.sum)
    (hle : a.sumAlt ≤ a.sum) (hmain : 0 < a.sum - a.sumAlt → ∃ o st, (o, st) ∈ a.main.inputs ∧ o.ty = p.ty ∧ st.kind = .fungible)
    (halt : 0 < a.sumAlt → ∃ o st, (o, st) ∈ a.alt.inputs ∧ o.ty = p.ty ∧ st.kind = .fungible) :
    ∃ a', payAmount E W k p amt a = .ok a' ∧ Going S T n (m + 2) a' ∧ a'.mainIn = a.mainIn ∧ a'.altIn = a.altIn ∧
      a'.main.inputs = a.main.inputs ∧ a'.alt.inputs = a.alt.inputs := by
  have hs1 : (split (a.sum - a.sumAlt) amt).1 ≤ a.sum - a.sumAlt := by unfold split; split <;> simp only <;> omega
  have hs2 : (split (a.sum - a.sumAlt) amt).2 ≤ a.sumAlt := by unfold split; split <;> simp only <;> omega
  obtain ⟨m1, hm1, r1, i1⟩ := okay_pay h.main hn (by omega) p.beneficiary (v := (split (a.sum - a.sumAlt) amt).1) (bl := W.factors .beneficiary)
    (ty := p.ty) (fun hv => hmain (by omega))
  obtain ⟨a1, ha1, r2, i2⟩ := okay_pay h.alt hn (by omega) p.beneficiary (v := (split (a.sum - a.sumAlt) amt).2) (bl := W.factors .beneficiary)
    (ty := p.ty) (fun hv => halt (by omega))
  obtain ⟨m2, hm2, r3, i3⟩ := okay_pay r1 hn (by omega) (W.outSeal E k p.layer .change p.contract p.ty)
    (v := a.sum - a.sumAlt - (split (a.sum - a.sumAlt) amt).1) (bl := W.factors .change) (ty := p.ty) (fun hv => by rw [i1]; exact hmain (by omega))
  obtain ⟨a2, ha2, r4, i4⟩ := okay_pay r2 hn (by omega) (W.outSeal E k p.layer .change p.contract p.ty)
    (v := a.sumAlt - (split (a.sum - a.sumAlt) amt).2) (bl := W.factors .change) (ty := p.ty) (fun hv => by rw [i2]; exact halt (by omega))
  refine ⟨{ a with main := m2, alt := a2 }, ?_, ⟨r3, r4⟩, rfl, rfl, i3.trans i1, i4.trans i2⟩
  unfold payAmount
  refine except_bind_ok.2 ⟨(), failIf_ok.2 (by simpa using hamt), except_bind_ok.2 ⟨a.sum - a.sumAlt, by unfold subU; rw [if_pos hle], ?_⟩⟩
  exact except_bind_ok.2 ⟨m1, hm1, except_bind_ok.2 ⟨a1, ha1, except_bind_ok.2 ⟨_, okay_outputFor E hal _ _ _ _ _, except_bind_ok.2 ⟨m2, hm2,
    except_bind_ok.2 ⟨a2, ha2, rfl⟩⟩⟩⟩⟩

theorem okay_payToken {W : Wallet} {p : Prep} {token : Nat} {S : Schema} {T : OMap Nat Nat} {n m : Nat} {a : Acc} (h : Going S T n m a) (hn : n ≤ 255)
    (hm : m < 65535) (ht : token ∈ a.data) (hmain : a.dataMain = true → ∃ o st, (o, st) ∈ a.main.inputs ∧ o.ty = p.ty ∧ st.kind = .structured)
    (halt : a.dataMain = false → ∃ o st, (o, st) ∈ a.alt.inputs ∧ o.ty = p.ty ∧ st.kind = .structured) :
    ∃ a', payToken W p token a = .ok a' ∧ Going S T n (m + 1) a' ∧ a'.mainIn = a.mainIn ∧ a'.altIn = a.altIn ∧
      a'.main.inputs = a.main.inputs ∧ a'.alt.inputs = a.alt.inputs := by
  unfold payToken
  have hf : failIf CErr.insufficientState (decide (token ∉ a.data)) = .ok () := failIf_ok.2 (by simpa using ht)
  cases hd : a.dataMain with
  | true =>
    obtain ⟨b, hb, hr, hi⟩ := okay_payData h.main hn hm p.beneficiary (v := token) (salt := W.seals .token) (hmain hd)
    refine ⟨{ a with main := b }, except_bind_ok.2 ⟨(), hf, ?_⟩, ⟨hr, h.alt.mono (Nat.le_refl _) (Nat.le_succ _)⟩, rfl, rfl, hi, rfl⟩
    unfold Acc.on
    rw [if_pos rfl]
    exact except_bind_ok.2 ⟨b, liftB_ok.2 hb, rfl⟩
  | false =>
    obtain ⟨b, hb, hr, hi⟩ := okay_payData h.alt hn hm p.beneficiary (v := token) (salt := W.seals .token) (halt hd)
    refine ⟨{ a with alt := b }, except_bind_ok.2 ⟨(), hf, ?_⟩, ⟨h.main.mono (Nat.le_refl _) (Nat.le_succ _), hr⟩, rfl, rfl, rfl, hi⟩
    unfold Acc.on
    rw [if_neg (by simp)]
    exact except_bind_ok.2 ⟨b, liftB_ok.2 hb, rfl⟩

/-! ### Completion -/

theorem okay_outpointSet (l : List Outpoint) : ∀ (s : OSet Outpoint), s.length + l.length ≤ u24Max → ∃ s', outpointSet u24Max l s = .ok s' := by
  induction l with
  | nil => intro s _; exact ⟨s, rfl⟩
  | cons o l ih =>
    intro s hs
    rw [List.length_cons] at hs
    unfold outpointSet
    rw [if_neg (by omega)]
    refine ih _ ?_
    have : (OSet.insert s o).length ≤ s.length + 1 := (OSet.length_insert_le s o).2
    omega

theorem okay_newInfo {E : CEnv} (t : BuiltTransition) {outs : List OutSeal} (hne : outs ≠ []) (hl : outs.length ≤ u24Max) {m : CloseMethod}
    (hm : ∀ s ∈ outs, s.method = m) : ∃ i, newInfo E t outs = .ok i := by
  obtain ⟨s, rest, rfl⟩ := List.exists_cons_of_ne_nil hne
  obtain ⟨x, hx⟩ := okay_outpointSet ((s :: rest).map OutSeal.outpoint) [] (by simpa using hl)
  have hn : TransitionInfo.new E.H t (s :: rest) = .ok ⟨t.op.id E.H, x, t, s.method⟩ := by
    unfold TransitionInfo.new
    refine except_bind_ok.2 ⟨x, hx, ?_⟩
    rw [if_neg]
    simp only [List.any_eq_true, decide_eq_true_eq, not_exists, not_and, ne_eq, Decidable.not_not]
    intro y hy
    rw [hm y hy, hm s (by simp)]
  unfold newInfo
  rw [hn]
  exact ⟨_, rfl⟩

/-! ### Builders from the stock -/

theorem ready_calls {E : CEnv} (hT : E.TagMaps) {g : Op} {c ty : Nat} {iface : Iface} {S : Schema} {impl : IfaceImpl} {b : TransitionBuilder}
    (h : TransitionBuilder.calls E.B (tagCalls (E.tagsOf g)) (.new false c iface S impl ty) = .ok b) : BReady S (E.tagsOf g) 0 0 b := by
  obtain ⟨ps, d⟩ := TransitionBuilder.calls_did h
  have hx := addTags_exact (tags := E.tagsOf g) (b := .new false c iface S impl ty) rfl (by
    show 0 + _ ≤ 255
    rw [Nat.zero_add]; exact (hT g).2)
  have hy := addTags_ok (B := E.B) hx
  rw [h] at hy
  have hb := Except.ok.inj hy
  refine ready_new b (d.run.inv (TransitionBuilder.new_inv _ _ _ _ _ _)) ?_ ?_ ?_ ?_
  · rw [hb]; rfl
  · rw [hb]
    show OMap.extend [] (E.tagsOf g) = E.tagsOf g
    exact OMap.extend_sorted (hT g).1
  · rw [hb]; rfl
  · rw [hb]; intro k; cases k <;> rfl

theorem Defines.fits {E : CEnv} {k : Stock} {c : Nat} {a : OutAssign} (h : k.Defines E c a) {g : Op} {si : SchemaIfaces}
    (hg : k.stash.genesis c = some g) (hs : k.stash.schema (E.I.genesisSchema g) = some si) :
    BFits (E.schemaOf si.doc) (E.tagsOf g) a.opout.ty a.state := by
  obtain ⟨g', si', h1, h2, h3, h4⟩ := h
  rw [hg] at h1
  cases h1
  rw [hs] at h2
  cases h2
  exact ⟨h3, h4⟩

theorem okay_prepare {E : CEnv} {W : Wallet} {k : Stock} {inv : Inv.Invoice} {c iface ty : Nat} (hc : inv.contract = some c)
    (hn : ∃ n, inv.iface = some n ∧ iface = E.name n) (hf : ∀ e, inv.expiry = some e → E.now ≤ e)
    (hb : ∃ b, Stock.transitionBuilder E k.stash c (.name iface) (inv.operation.map E.name) = .ok b) (ht : k.invoiced E inv = some ty)
    (hv : W.vout.isSome = true ↔ ∃ p, inv.beneficiary.intoInner = .witnessVout p) : ∃ p, prepare E W k inv = .ok p := by
  obtain ⟨n, hn, rfl⟩ := hn
  obtain ⟨b, hb⟩ := hb
  obtain ⟨s⟩ := transitionBuilder_ok hb
  obtain ⟨d1, d2, d3⟩ := s.docs
  have hop : ((inv.operation.map E.name).or (E.ifaceOf s.d).defaultOperation).bind (typeByName (E.implOf s.impl).transitions) = some s.tty := by
    rw [s.named]; exact s.typed
  unfold invoiced at ht
  simp only [hc, s.genesis, s.schema, hn, s.iface, s.iimpl, hop, Option.bind_some, Option.bind_eq_bind, Option.bind_eq_some_iff] at ht
  obtain ⟨name, h1, h2⟩ := ht
  have hname : assignmentName E inv b = .ok name := by
    unfold assignmentName
    cases ha : inv.assignment with
    | some x => rw [ha] at h1; simp at h1; simp only [h1]
    | none =>
      rw [ha] at h1
      have : b.defaultAssignment = .ok name := by
        rw [TransitionBuilder.defaultAssignment_ok, d1, d2, d3]; simpa using h1
      simp only [this]
  have hty : b.builder.assignmentsType name = some ty := by
    unfold OpBuilder.assignmentsType; rw [d2]; exact h2
  have hben : ∃ sl, beneficiarySeal W (Layer1.ofInv inv.beneficiary.layer1) inv.beneficiary.intoInner = .ok sl := by
    cases hi : inv.beneficiary.intoInner with
    | blindedSeal x =>
      cases hw : W.vout with
      | none => exact ⟨.concealed (Layer1.ofInv inv.beneficiary.layer1) x, by simp only [beneficiarySeal, hw]⟩
      | some v =>
        rw [hw, hi] at hv
        obtain ⟨p, hp⟩ := hv.1 rfl
        cases hp
    | witnessVout p =>
      cases hw : W.vout with
      | some v => exact ⟨.revealed ⟨Layer1.ofInv inv.beneficiary.layer1, .ofInv p.method, none, v, W.seals .beneficiary⟩, by simp only [beneficiarySeal, hw]⟩
      | none =>
        rw [hw, hi] at hv
        cases hv.2 ⟨p, rfl⟩
  obtain ⟨sl, hsl⟩ := hben
  refine ⟨⟨c, E.name n, ty, Layer1.ofInv inv.beneficiary.layer1, b, b, sl⟩, ?_⟩
  · unfold prepare
    refine except_bind_ok.2 ⟨(), failIf_ok.2 ?_, except_bind_ok.2 ⟨c, orErr_ok.2 hc, except_bind_ok.2 ⟨n, orErr_ok.2 hn, except_bind_ok.2 ⟨b, hb,
      except_bind_ok.2 ⟨name, hname, except_bind_ok.2 ⟨ty, orErr_ok.2 hty, except_bind_ok.2 ⟨b, hb, except_bind_ok.2 ⟨sl, hsl, rfl⟩⟩⟩⟩⟩⟩⟩⟩
    cases he : inv.expiry with
    | none => rfl
    | some e => have := hf e he; simp; omega

/-! ### State at outputs -/

theorem okay_contractAssignmentsFor {k : Stock} {c : Nat} {prevs : List OutSeal} (h : k.stateAt c prevs ≠ []) :
    ∃ m, contractAssignmentsFor k c (prevs.map OutSeal.outpoint) = .ok m := by
  unfold stateAt at h
  unfold contractAssignmentsFor
  cases hv : k.state.contractState c with
  | error e => rw [hv] at h; exact absurd rfl h
  | ok v => exact ⟨_, rfl⟩

theorem outs_le_visited {E : CEnv} {n : Nat} (hE : E.Lawful n) {c : Nat} (l : List (OutSeal × OMap Opout RState)) (h : ∀ e ∈ l, e.2 ≠ []) :
    l.length ≤ (visited E c l).length := by
  induction l with
  | nil => exact Nat.le_refl _
  | cons e l ih =>
    have hv : visited E c (e :: l) = (E.ordOpouts c e.1 e.2).map (fun x => (e.1, x.1, x.2)) ++ visited E c l := by simp [visited]
    rw [hv, List.length_append, List.length_map, (hE.opouts c e.1 e.2).length_eq, List.length_cons]
    have := ih (fun x hx => h x (List.mem_cons_of_mem _ hx))
    have : 0 < e.2.length := List.length_pos_iff.2 (h e List.mem_cons_self)
    omega

theorem visited_seal {E : CEnv} {c : Nat} {l : List (OutSeal × OMap Opout RState)} {x : Item} (h : x ∈ visited E c l) : x.1 ∈ l.map Prod.fst := by
  unfold visited at h
  obtain ⟨e, he, h⟩ := List.mem_flatMap.1 h
  obtain ⟨y, -, rfl⟩ := List.mem_map.1 h
  exact List.mem_map.2 ⟨e, he, rfl⟩

/-- What is known about the state of a contract which can be spent. -/
structure Laid (E : CEnv) (k : Stock) (c : Nat) (prevs : List OutSeal) (m : Spent) : Prop where
  perm : (visited E c (E.ordOuts c m)).Perm ((k.stateAt c prevs).map OutAssign.item)
  outs : (E.ordOuts c m).length ≤ 255

theorem laid_of {E : CEnv} {n : Nat} (hE : E.Lawful n) {k : Stock} {c : Nat} {prevs : List OutSeal} (h : k.Spendable E c prevs) {m : Spent}
    (hm : contractAssignmentsFor k c (prevs.map OutSeal.outpoint) = .ok m) : Laid E k c prevs m := by
  have hp := own_perm hE hm h.once
  refine ⟨hp, ?_⟩
  obtain ⟨v, -, hwf, -⟩ := contractAssignmentsFor_ok hm
  have := outs_le_visited (c := c) hE (E.ordOuts c m) (fun e he => (hwf.inner _ _ (hwf.sorted.get?_of_mem ((hE.outs c m).mem_iff.1 he))).2)
  have h2 := hp.length_eq
  rw [List.length_map] at h2
  have := h.few
  omega

theorem Laid.fits {E : CEnv} {k : Stock} {c : Nat} {prevs : List OutSeal} {m : Spent} (h : Laid E k c prevs m) (hs : k.Spendable E c prevs) {g : Op} {si : SchemaIfaces}
    (hg : k.stash.genesis c = some g) (hsi : k.stash.schema (E.I.genesisSchema g) = some si) :
    ∀ x ∈ visited E c (E.ordOuts c m), BFits (E.schemaOf si.doc) (E.tagsOf g) x.2.1.ty x.2.2 := by
  intro x hx
  obtain ⟨a, ha, rfl⟩ := List.mem_map.1 (h.perm.mem_iff.1 hx)
  exact (hs.defined a ha).fits hg hsi

theorem Laid.length {E : CEnv} {k : Stock} {c : Nat} {prevs : List OutSeal} {m : Spent} (h : Laid E k c prevs m) (hs : k.Spendable E c prevs) :
    (visited E c (E.ordOuts c m)).length ≤ 255 := by
  rw [h.perm.length_eq, List.length_map]; exact hs.few

theorem Laid.nonempty {E : CEnv} {k : Stock} {c : Nat} {prevs : List OutSeal} {m : Spent} (h : Laid E k c prevs m) (hs : k.Spendable E c prevs) :
    visited E c (E.ordOuts c m) ≠ [] := by
  intro he
  have := h.perm
  rw [he] at this
  have h2 := List.map_eq_nil_iff.1 (List.nil_perm.1 this)
  exact hs.nonempty h2

/-- The outputs of a side which has state. -/
theorem side_outs {E : CEnv} {c : Nat} {l : List (OutSeal × OMap Opout RState)} {f : OutSeal → Bool} (h : ((visited E c l).filter (fun x => f x.1)) ≠ []) :
    (l.map Prod.fst).filter f ≠ [] := by
  obtain ⟨x, hx⟩ := List.exists_mem_of_ne_nil _ h
  rw [List.mem_filter] at hx
  exact List.ne_nil_of_mem (List.mem_filter.2 ⟨visited_seal hx.1, hx.2⟩)

theorem okay_info {E : CEnv} (hb : ∀ ins outs, E.B.balance ins outs ≠ none) {S : Schema} {T : OMap Nat Nat} {n m : Nat} {b : TransitionBuilder}
    (h : BReady S T n m b) (hn : n ≤ 255) {c : Nat} {l : List (OutSeal × OMap Opout RState)} {f : OutSeal → Bool} {mt : CloseMethod}
    (hf : ∀ s, f s = true → s.method = mt) (hne : ((visited E c l).filter (fun x => f x.1)) ≠ []) (hl : l.length ≤ 255) :
    ∃ i, mainInfo E b ((l.map Prod.fst).filter f) = .ok i := by
  obtain ⟨t, ht⟩ := okay_completes hb h hn
  obtain ⟨i, hi⟩ := okay_newInfo (E := E) t (side_outs hne) (by
    have h1 := List.length_filter_le f (l.map Prod.fst)
    rw [List.length_map] at h1
    have : u24Max = 16777215 := rfl
    omega) (m := mt) (fun s hs => hf s (List.mem_filter.1 hs).2)
  exact ⟨i, except_bind_ok.2 ⟨t, liftB_ok.2 ht, hi⟩⟩

/-! ### Blank transitions -/

structure BGoing (S : Schema) (T : OMap Nat Nat) (n m : Nat) (a : BlankAcc) : Prop where
  tapret : BReady S T n m a.tapret
  opret : BReady S T n m a.opret

theorem okay_move {S : Schema} {T : OMap Nat Nat} {n m : Nat} {b : TransitionBuilder} (h : BReady S T n m b) (hn : n < 255) (hm : m < 65535) {o : Opout}
    (sl : BSeal) {st : RState} (hf : BFits S T o.ty st) : ∃ b', moveState b o sl st = .ok b' ∧ BReady S T (n + 1) (m + 1) b' := by
  obtain ⟨b1, h1, r1, o1⟩ := okay_addInput h hn hf
  obtain ⟨b2, h2, r2, -⟩ := okay_addOwned r1 hn hm ⟨o, o1, rfl⟩ sl hf
  exact ⟨b2, except_bind_ok.2 ⟨b1, liftB_ok.2 h1, liftB_ok.2 h2⟩, r2⟩

theorem okay_blankList {E : CEnv} {W : Wallet} (hal : ∀ site c ty v, (W.alloc site c ty v).isSome = true) {k : Stock} {layer : Layer1} {id : Nat}
    (s : OutSeal) {S : Schema} {T : OMap Nat Nat} (l : List (Opout × RState)) : ∀ {n m : Nat} {a : BlankAcc}, BGoing S T n m a →
    n + l.length ≤ 255 → m + l.length ≤ 65535 → (∀ x ∈ l, BFits S T x.1.ty x.2) →
    ∃ a', blankList E W k layer id s l a = .ok a' ∧ BGoing S T (n + l.length) (m + l.length) a' := by
  induction l with
  | nil => intro n m a h hn hm hf; exact ⟨a, rfl, h⟩
  | cons x l ih =>
    intro n m a h hn hm hf
    obtain ⟨o, st⟩ := x
    simp only [List.length_cons] at hn hm ⊢
    have hfo := hf (o, st) (by simp)
    simp only [blankList, okay_outputFor E hal]
    cases hs : s.method with
    | tapretFirst =>
      obtain ⟨b, hb, hr⟩ := okay_move h.tapret (by omega) (by omega) (W.outSeal E k layer (.moved id s o) id o.ty) hfo
      obtain ⟨a', ha', g⟩ := ih (a := { a with tapret := b }) ⟨hr, h.opret.mono (Nat.le_succ _) (Nat.le_succ _)⟩ (by omega) (by omega) (fun x hx => hf x (by simp [hx]))
      exact ⟨a', except_bind_ok.2 ⟨_, rfl, except_bind_ok.2 ⟨b, hb, ha'⟩⟩, g.1.mono (by omega) (by omega), g.2.mono (by omega) (by omega)⟩
    | opretFirst =>
      obtain ⟨b, hb, hr⟩ := okay_move h.opret (by omega) (by omega) (W.outSeal E k layer (.moved id s o) id o.ty) hfo
      obtain ⟨a', ha', g⟩ := ih (a := { a with opret := b }) ⟨h.tapret.mono (Nat.le_succ _) (Nat.le_succ _), hr⟩ (by omega) (by omega) (fun x hx => hf x (by simp [hx]))
      exact ⟨a', except_bind_ok.2 ⟨_, rfl, except_bind_ok.2 ⟨b, hb, ha'⟩⟩, g.1.mono (by omega) (by omega), g.2.mono (by omega) (by omega)⟩

theorem okay_blankAll {E : CEnv} {W : Wallet} (hal : ∀ site c ty v, (W.alloc site c ty v).isSome = true) {k : Stock} {layer : Layer1} {id : Nat}
    {S : Schema} {T : OMap Nat Nat} (l : List (OutSeal × OMap Opout RState)) : ∀ {n m : Nat} {a : BlankAcc}, BGoing S T n m a →
    n + (visited E id l).length ≤ 255 → m + (visited E id l).length ≤ 65535 → (∀ x ∈ visited E id l, BFits S T x.2.1.ty x.2.2) →
    ∃ a', blankAll E W k layer id l a = .ok a' ∧ BGoing S T (n + (visited E id l).length) (m + (visited E id l).length) a' := by
  induction l with
  | nil => intro n m a h hn hm hf; exact ⟨a, rfl, h⟩
  | cons x l ih =>
    intro n m a h hn hm hf
    obtain ⟨s, o⟩ := x
    have hv : visited E id ((s, o) :: l) = (E.ordOpouts id s o).map (fun x => (s, x.1, x.2)) ++ visited E id l := by
      simp [visited]
    rw [hv] at hf
    rw [hv, List.length_append, List.length_map] at hn hm ⊢
    have hp : BGoing S T n m (a.pushOutput s) := by
      unfold BlankAcc.pushOutput; split <;> exact ⟨h.tapret, h.opret⟩
    obtain ⟨a1, h1, g1⟩ := okay_blankList (E := E) (k := k) (layer := layer) (id := id) hal s (E.ordOpouts id s o) hp (by omega) (by omega)
      (fun x hx => hf (s, x.1, x.2) (List.mem_append_left _ (List.mem_map.2 ⟨x, hx, rfl⟩)))
    obtain ⟨a2, h2, g2⟩ := ih g1 (by omega) (by omega) (fun x hx => hf x (List.mem_append_right _ hx))
    exact ⟨a2, by simp only [blankAll]; exact except_bind_ok.2 ⟨a1, h1, h2⟩, g2.1.mono (by omega) (by omega), g2.2.mono (by omega) (by omega)⟩

theorem okay_blankInfo {E : CEnv} {b : TransitionBuilder} {outs : List OutSeal} (h : b.hasInputs = true → ∃ i, mainInfo E b outs = .ok i) :
    ∃ is, blankInfo E b outs = .ok is ∧ is.length = if b.hasInputs then 1 else 0 := by
  unfold blankInfo
  cases hb : b.hasInputs with
  | false => exact ⟨[], rfl, rfl⟩
  | true =>
    obtain ⟨i, hi⟩ := h hb
    obtain ⟨t, h1, h2⟩ := except_bind_ok.1 hi
    exact ⟨[i], except_bind_ok.2 ⟨t, h1, except_bind_ok.2 ⟨i, h2, rfl⟩⟩, rfl⟩

theorem okay_blankFor {E : CEnv} {n : Nat} (hE : E.Lawful n) (hT : E.TagMaps) (hb : ∀ ins outs, E.B.balance ins outs ≠ none) {W : Wallet}
    (hal : ∀ site c ty v, (W.alloc site c ty v).isSome = true) {k : Stock} {layer : Layer1} {iface id : Nat} {prevs : List OutSeal}
    (hs : k.Spendable E id prevs) (hbl : ∃ b, Stock.blankBuilder E k.stash id (.name iface) = .ok b) {m : Spent}
    (hm : contractAssignmentsFor k id (prevs.map OutSeal.outpoint) = .ok m) : ∃ d, blankFor E W k layer iface id m = .ok d := by
  obtain ⟨b, hbb⟩ := hbl
  obtain ⟨bl⟩ := blankBuilder_ok hbb
  have hr := ready_calls hT bl.calls
  have hl := laid_of hE hs hm
  have hlen := hl.length hs
  obtain ⟨a, ha, g⟩ := okay_blankAll (E := E) (W := W) hal (k := k) (layer := layer) (id := id) (E.ordOuts id m) (a := ⟨b, b, [], []⟩) ⟨hr, hr⟩
    (by omega) (by omega) (hl.fits hs bl.genesis bl.schema)
  obtain ⟨hbk, ot, oo⟩ := blankAll_ok ha
  have hit := hasInputs_calls bl.calls hbk.tapret
  have hio := hasInputs_calls bl.calls hbk.opret
  rw [blank_input] at hit hio
  simp only [List.nil_append] at ot oo
  obtain ⟨x, hx, lx⟩ := okay_blankInfo (E := E) (b := a.tapret) (outs := a.outTapret) (fun hi => by
    rw [hi] at hit
    rw [ot]
    refine okay_info (c := id) hb g.tapret (by omega) (f := fun s => decide (s.method = .tapretFirst)) (mt := .tapretFirst) (fun s h => by simpa using h) ?_ hl.outs
    intro he
    rw [show (visited E id (E.ordOuts id m)).filter byTapret = [] from he] at hit
    simp at hit)
  obtain ⟨y, hy, ly⟩ := okay_blankInfo (E := E) (b := a.opret) (outs := a.outOpret) (fun hi => by
    rw [hi] at hio
    rw [oo]
    refine okay_info (c := id) hb g.opret (by omega) (f := fun s => !decide (s.method = .tapretFirst)) (mt := .opretFirst) (fun s h => by cases hsm : s.method <;> simp [hsm] at h ⊢) ?_ hl.outs
    intro he
    rw [show (visited E id (E.ordOuts id m)).filter (fun x => !byTapret x) = [] from he] at hio
    simp at hio)
  have hd : ∃ d, Dichotomy.ofList (x ++ y) = some d := by
    obtain ⟨z, hz⟩ := List.exists_mem_of_ne_nil _ (hl.nonempty hs)
    have hor : a.tapret.hasInputs = true ∨ a.opret.hasInputs = true := by
      rw [hit, hio]
      cases hzt : byTapret z with
      | true =>
        left
        have : z ∈ (visited E id (E.ordOuts id m)).filter byTapret := List.mem_filter.2 ⟨hz, hzt⟩
        have h2 := List.ne_nil_of_mem this
        simpa using h2
      | false =>
        right
        have : z ∈ (visited E id (E.ordOuts id m)).filter (fun x => !byTapret x) := List.mem_filter.2 ⟨hz, by simp [hzt]⟩
        have h2 := List.ne_nil_of_mem this
        simpa using h2
    match x, y, lx, ly with
    | [], [], lx, ly =>
      exfalso
      rcases hor with h | h
      · rw [h] at lx; cases lx
      · rw [h] at ly; cases ly
    | [p], [], _, _ => exact ⟨_, rfl⟩
    | [], [q], _, _ => exact ⟨_, rfl⟩
    | [p], [q], _, _ => exact ⟨_, rfl⟩
    | _ :: _ :: _, _, lx, _ => exfalso; split at lx <;> simp at lx
    | _, _ :: _ :: _, _, ly => exfalso; split at ly <;> simp at ly
  obtain ⟨d, hd⟩ := hd
  exact ⟨d, except_bind_ok.2 ⟨b, hbb, except_bind_ok.2 ⟨b, hbb, except_bind_ok.2 ⟨a, ha, except_bind_ok.2 ⟨x, hx, except_bind_ok.2 ⟨y, hy, orErr_ok.2 hd⟩⟩⟩⟩⟩⟩

theorem okay_blankLoop {E : CEnv} {W : Wallet} {k : Stock} {layer : Layer1} {iface : Nat} (l : List (Nat × Spent)) : ∀ (bs : List (Dichotomy TransitionInfo)),
    (∀ e ∈ l, ∃ d, blankFor E W k layer iface e.1 e.2 = .ok d) → bs.length + l.length < u24Max →
    ∃ bs', blankLoop E W k layer iface l bs = .ok bs' := by
  induction l with
  | nil => intro bs _ _; exact ⟨bs, rfl⟩
  | cons x l ih =>
    intro bs h hl
    obtain ⟨id, sp⟩ := x
    rw [List.length_cons] at hl
    obtain ⟨d, hd⟩ := h (id, sp) List.mem_cons_self
    obtain ⟨bs', hbs⟩ := ih (bs ++ [d]) (fun e he => h e (List.mem_cons_of_mem _ he)) (by rw [List.length_append, List.length_singleton]; omega)
    refine ⟨bs', ?_⟩
    simp only [blankLoop]
    refine except_bind_ok.2 ⟨d, hd, except_bind_ok.2 ⟨(), failIf_ok.2 ?_, hbs⟩⟩
    simp; omega

theorem okay_spentState {k : Stock} {own : Nat} {prevs : List OutSeal} (ids : List Nat) : ∀ (m0 : OMap Nat Spent),
    (∀ id ∈ ids, id ≠ own → k.stateAt id prevs ≠ []) →
    ∃ m, spentState k own (prevs.map OutSeal.outpoint) ids m0 = .ok m ∧ m.length ≤ m0.length + ids.length := by
  induction ids with
  | nil => intro m0 _; exact ⟨m0, rfl, Nat.le_refl _⟩
  | cons id ids ih =>
    intro m0 h
    simp only [spentState]
    split
    · obtain ⟨m, hm, hl⟩ := ih m0 (fun i hi => h i (List.mem_cons_of_mem _ hi))
      exact ⟨m, hm, by rw [List.length_cons]; omega⟩
    · rename_i hne
      obtain ⟨st, hst⟩ := okay_contractAssignmentsFor (h id List.mem_cons_self hne)
      obtain ⟨m, hm, hl⟩ := ih (OMap.insert m0 id (mergeSpent ((OMap.get? m0 id).getD []) st)) (fun i hi => h i (List.mem_cons_of_mem _ hi))
      refine ⟨m, except_bind_ok.2 ⟨st, hst, hm⟩, ?_⟩
      have := OMap.length_insert_le m0 id (mergeSpent ((OMap.get? m0 id).getD []) st)
      rw [List.length_cons]; omega

/-! ### All of it -/

theorem mainInputs {E : CEnv} {W : Wallet} {k : Stock} {p : Prep} {op : Option Nat} (s : Started E k p.contract p.iface op p.main) {l : List Item}
    {b : TransitionBuilder} (h : TransitionBuilder.calls E.B (l.flatMap (itemCalls E W k p)) p.main = .ok b) : b.hasInputs = !l.isEmpty := by
  have h2 := hasInputs_calls s.calls h
  rw [items_input] at h2
  rw [h2]
  cases l <;> rfl

theorem okay_mainDichotomy {E : CEnv} {a : Acc} (hm : a.main.hasInputs = true → ∃ i, mainInfo E a.main a.mainIn = .ok i)
    (ha : a.alt.hasInputs = true → ∃ i, mainInfo E a.alt a.altIn = .ok i) (h : a.main.hasInputs = true ∨ a.alt.hasInputs = true) :
    ∃ d, mainDichotomy E a = .ok d := by
  unfold mainDichotomy
  cases h1 : a.main.hasInputs with
  | true =>
    obtain ⟨i, hi⟩ := hm h1
    cases h2 : a.alt.hasInputs with
    | true =>
      obtain ⟨j, hj⟩ := ha h2
      exact ⟨⟨i, some j⟩, except_bind_ok.2 ⟨i, hi, except_bind_ok.2 ⟨j, hj, rfl⟩⟩⟩
    | false => exact ⟨⟨i, none⟩, except_bind_ok.2 ⟨i, hi, rfl⟩⟩
  | false =>
    cases h2 : a.alt.hasInputs with
    | true =>
      obtain ⟨j, hj⟩ := ha h2
      exact ⟨⟨j, none⟩, except_bind_ok.2 ⟨j, hj, rfl⟩⟩
    | false => rw [h1, h2] at h; simp at h

theorem okay_compose {E : CEnv} {n : Nat} (hE : E.Lawful n) (hT : E.TagMaps) {W : Wallet} {k : Stock} {inv : Inv.Invoice} {prevs : List OutSeal}
    {c iface ty : Nat} (h : k.Payable E W inv prevs c iface ty) : ∃ b, Stock.compose E W k inv prevs = .ok b := by
  obtain ⟨p, hp⟩ := okay_prepare (W := W) h.contract h.named h.fresh h.builder h.typed h.vout
  have hP := prepare_ok hp
  obtain ⟨st⟩ := hP.started
  have hc : p.contract = c := by have := hP.contract; rw [h.contract] at this; exact (Option.some.inj this).symm
  have hty : p.ty = ty := by have := hP.ty; rw [h.typed] at this; exact (Option.some.inj this).symm
  have hif : p.iface = iface := by
    obtain ⟨x, h1, h2⟩ := hP.iface
    obtain ⟨y, h3, h4⟩ := h.named
    rw [h1] at h3; cases h3
    rw [h2, h4]
  subst hc
  obtain ⟨m, hm⟩ := okay_contractAssignmentsFor h.own.nonempty
  have hl := laid_of hE h.own hm
  have hlen := hl.length h.own
  have hfits := hl.fits h.own st.genesis st.schema
  have hsum : sumItems p.ty (visited E p.contract (E.ordOuts p.contract m)) = sumOf ty (k.stateAt p.contract prevs) := by
    rw [sumItems_perm hl.perm, sumItems_items, hty]
  have hsumLt : sumItems p.ty (visited E p.contract (E.ordOuts p.contract m)) < w64 := by
    rw [hsum]
    have := h.enough
    cases hi : inv.ownedState <;> rw [hi] at this
    · cases this
    · exact this.2
    · exact this.2
    · cases this
  have hr := ready_calls hT st.calls
  obtain ⟨a, ha, hg⟩ := okay_spendAll (E := E) (W := W) h.alloc (k := k) (p := p) (wanted E inv.ownedState) (E.ordOuts p.contract m)
    (a := { main := p.main, alt := p.alt }) ⟨hr, by rw [hP.alt]; exact hr⟩ (Nat.le_refl _) (by omega) (by omega) hfits (by rw [Nat.zero_add]; exact hsumLt)
  obtain ⟨hsp, hmi, hai⟩ := spendAll_ok ha
  simp only [List.nil_append] at hmi hai
  obtain ⟨hs1, hs2⟩ := hsp.exact (.inr hsumLt)
  have hsplit := sumItems_split W p.ty (visited E p.contract (E.ordOuts p.contract m))
  have hle : a.sumAlt ≤ a.sum := by rw [hs1, hs2]; omega
  have halt := hsp.alt
  simp only [hP.alt] at halt
  -- a state of a side is an input of its builder
  have inMain : ∀ x ∈ (visited E p.contract (E.ordOuts p.contract m)).filter (onMain W),
      ∃ st', (x.2.1, st') ∈ a.main.inputs ∧ st'.kind = x.2.2.kind := by
    intro x hx
    refine input_of_item st.calls hsp.main hg.main ?_ (hfits x (List.mem_filter.1 hx).1).1
    rw [items_input]; exact List.mem_map.2 ⟨x, hx, rfl⟩
  have inAlt : ∀ x ∈ (visited E p.contract (E.ordOuts p.contract m)).filter (fun x => !onMain W x),
      ∃ st', (x.2.1, st') ∈ a.alt.inputs ∧ st'.kind = x.2.2.kind := by
    intro x hx
    refine input_of_item st.calls halt hg.alt ?_ (hfits x (List.mem_filter.1 hx).1).1
    rw [items_input]; exact List.mem_map.2 ⟨x, hx, rfl⟩
  have hpay : ∃ a' n', payInvoice E W k p a inv.ownedState = .ok a' ∧
      Going (E.schemaOf st.si.doc) (E.tagsOf st.g) (0 + (visited E p.contract (E.ordOuts p.contract m)).length) n' a' ∧ a'.mainIn = a.mainIn ∧ a'.altIn = a.altIn ∧
      a'.main.inputs = a.main.inputs ∧ a'.alt.inputs = a.alt.inputs := by
    have hen := h.enough
    cases hi : inv.ownedState with
    | void => rw [hi] at hen; cases hen
    | attach _ => rw [hi] at hen; cases hen
    | amount amt =>
      rw [hi] at hen
      obtain ⟨a', h1, h2⟩ := okay_payAmount (E := E) (W := W) h.alloc (k := k) (p := p) (amt := amt) hg (by omega) (by omega) (by rw [hs1, hsum]; exact hen.1) hle
        (fun hpos => by
          obtain ⟨x, hx, e1, e2⟩ := sumItems_pos (ty := p.ty) (l := (visited E p.contract (E.ordOuts p.contract m)).filter (onMain W)) (by rw [hs1, hs2] at hpos; omega)
          obtain ⟨s', h1, h2⟩ := inMain x hx
          exact ⟨_, s', h1, e1, h2.trans e2⟩)
        (fun hpos => by
          obtain ⟨x, hx, e1, e2⟩ := sumItems_pos (ty := p.ty) (l := (visited E p.contract (E.ordOuts p.contract m)).filter (fun x => !onMain W x)) (by rw [← hs2]; exact hpos)
          obtain ⟨s', h1, h2⟩ := inAlt x hx
          exact ⟨_, s', h1, e1, h2.trans e2⟩)
      exact ⟨a', _, h1, h2⟩
    | data t =>
      rw [hi] at hen
      obtain ⟨⟨z, hz, hz1, hz2⟩, -⟩ := hen
      have hzv : z.item ∈ visited E p.contract (E.ordOuts p.contract m) := hl.perm.mem_iff.2 (List.mem_map.2 ⟨z, hz, rfl⟩)
      have kind : ∀ s : RState, s.data?.isSome = true → s.kind = .structured := by
        intro s hs; cases s <;> first | rfl | cases hs
      have hw : wanted E inv.ownedState = some (E.dataOf t) := by rw [hi]; rfl
      have hdm := hsp.dataMain
      obtain ⟨a', h1, h2⟩ := okay_payToken (W := W) (p := p) (token := E.dataOf t) hg (by omega) (by omega)
        (by
          rw [hsp.data]
          simp only [List.nil_append]
          unfold dataItems
          refine List.mem_filterMap.2 ⟨z.item, List.mem_filter.2 ⟨hzv, ?_⟩, hz2⟩
          rw [hty]; exact decide_eq_true hz1)
        (fun hd => by
          rw [hd] at hdm
          have hno : isAltData W (wanted E inv.ownedState) p.ty z.item = false := by
            simp only [Bool.true_and] at hdm
            have h3 : (visited E p.contract (E.ordOuts p.contract m)).any (isAltData W (wanted E inv.ownedState) p.ty) = false := by
              simpa using hdm.symm
            have h4 := List.any_eq_false.1 h3 z.item hzv
            simpa using h4
          have hom : onMain W z.item = true := by
            cases hx : onMain W z.item with
            | true => rfl
            | false =>
              unfold isAltData at hno
              rw [hx, hw] at hno
              have hz2' : (OutAssign.item z).2.2.data? = some (E.dataOf t) := hz2
              have hz1' : (OutAssign.item z).2.1.ty = p.ty := hz1.trans hty.symm
              rw [hz2'] at hno
              simp [hz1'] at hno
          obtain ⟨s', h1, h2⟩ := inMain z.item (List.mem_filter.2 ⟨hzv, hom⟩)
          refine ⟨_, s', h1, hz1.trans hty.symm, h2.trans (kind _ ?_)⟩
          show z.state.data?.isSome = true
          rw [hz2]; rfl)
        (fun hd => by
          rw [hd] at hdm
          have h3 : (visited E p.contract (E.ordOuts p.contract m)).any (isAltData W (wanted E inv.ownedState) p.ty) = true := by
            simp only [Bool.true_and] at hdm
            simpa using hdm.symm
          obtain ⟨x, hx, hxa⟩ := List.any_eq_true.1 h3
          unfold isAltData at hxa
          simp only [Bool.and_eq_true, decide_eq_true_eq] at hxa
          obtain ⟨⟨q1, q2⟩, q3, -⟩ := hxa
          obtain ⟨s', h1, h2⟩ := inAlt x (List.mem_filter.2 ⟨hx, q2⟩)
          exact ⟨_, s', h1, q1, h2.trans (kind _ q3)⟩)
      exact ⟨a', _, h1, h2⟩
  obtain ⟨a', n', hpi, hg', hmi', hai', him, hia⟩ := hpay
  -- blank transitions
  obtain ⟨others, hot, hol⟩ := okay_spentState (k := k) (own := p.contract) (prevs := prevs) (k.index.contractsAssigning (prevs.map OutSeal.outpoint)) []
    (fun id hid hne => (h.others id hid hne).nonempty)
  obtain ⟨hos, hog, hok⟩ := spentState_ok hot OMap.Sorted.nil (fun id sp hx => by cases hx)
  obtain ⟨bs, hbs⟩ := okay_blankLoop (E := E) (W := W) (k := k) (layer := p.layer) (iface := p.iface) (E.ordContracts others) [] (by
      intro e he
      have he' := (hE.contracts others).mem_iff.1 he
      obtain ⟨hne, hca⟩ := hog e.1 e.2 (hos.get?_of_mem he')
      have hin : e.1 ∈ k.index.contractsAssigning (prevs.map OutSeal.outpoint) := by
        rcases (hok e.1).1 (List.mem_map.2 ⟨e, he', rfl⟩) with hx | hx
        · cases hx
        · exact hx.1
      exact okay_blankFor hE hT h.balance h.alloc (h.others _ hin hne) (by rw [hif]; exact h.blank _ hin hne) hca)
    (by
      rw [(hE.contracts others).length_eq]
      have := h.count
      have h2 : u24Max = 16777215 := rfl
      simp only [List.length_nil, Nat.zero_add] at hol ⊢
      omega)
  -- the transitions of the invoice
  have eM : a'.main.hasInputs = !((visited E p.contract (E.ordOuts p.contract m)).filter (onMain W)).isEmpty := by
    rw [← mainInputs st hsp.main]; unfold TransitionBuilder.hasInputs; rw [him]
  have eA : a'.alt.hasInputs = !((visited E p.contract (E.ordOuts p.contract m)).filter (fun x => !onMain W x)).isEmpty := by
    rw [← mainInputs st halt]; unfold TransitionBuilder.hasInputs; rw [hia]
  obtain ⟨d, hd⟩ := okay_mainDichotomy (E := E) (a := a')
    (fun hi => by
      rw [hmi', hmi]
      refine okay_info (c := p.contract) h.balance hg'.main (by omega) (f := fun s => decide (s.method = W.method)) (mt := W.method) (fun s hs => by simpa using hs) ?_ hl.outs
      intro he
      rw [hi, show (visited E p.contract (E.ordOuts p.contract m)).filter (onMain W) = [] from he] at eM
      simp at eM)
    (fun hi => by
      rw [hai', hai]
      refine okay_info (c := p.contract) h.balance hg'.alt (by omega) (f := fun s => !decide (s.method = W.method))
        (mt := match W.method with | .opretFirst => .tapretFirst | .tapretFirst => .opretFirst)
        (fun s hs => by cases hw : W.method <;> cases hsm : s.method <;> simp [hw, hsm] at hs ⊢) ?_ hl.outs
      intro he
      rw [hi, show (visited E p.contract (E.ordOuts p.contract m)).filter (fun x => !onMain W x) = [] from he] at eA
      simp at eA)
    (by
      obtain ⟨z, hz⟩ := List.exists_mem_of_ne_nil _ (hl.nonempty h.own)
      cases hzt : onMain W z with
      | true =>
        left
        have h2 := List.ne_nil_of_mem (List.mem_filter.2 ⟨hz, hzt⟩)
        rw [eM]; simpa using h2
      | false =>
        right
        have h2 := List.ne_nil_of_mem (List.mem_filter (p := fun x => !onMain W x).2 ⟨hz, by simp [hzt]⟩)
        rw [eA]; simpa using h2)
  exact ⟨_, except_bind_ok.2 ⟨p, hp, except_bind_ok.2 ⟨m, hm, except_bind_ok.2 ⟨a, ha, except_bind_ok.2 ⟨a', hpi, except_bind_ok.2 ⟨others, hot,
    except_bind_ok.2 ⟨bs, hbs, except_bind_ok.2 ⟨d, hd, rfl⟩⟩⟩⟩⟩⟩⟩⟩

end Stock

end Rgb
