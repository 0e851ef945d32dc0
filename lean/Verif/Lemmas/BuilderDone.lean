import Verif.Lemmas.BuilderCalls

/-! What a completed operation contains. -/

namespace Rgb

theorem Sorted.lastFor {κ ν : Type} [Key κ] [DecidableEq κ] {m : OMap κ ν} (h : OMap.Sorted m) (k : κ) :
    lastFor k m = OMap.get? m k := by
  cases hl : Rgb.lastFor k m with
  | some v => exact (h.get?_of_mem (lastFor_mem hl)).symm
  | none =>
    symm
    rw [OMap.get?_eq_none_iff]
    intro hk
    simp only [OMap.keys, List.mem_map] at hk
    obtain ⟨e, he, hek⟩ := hk
    exact lastFor_none.1 hl e he hek

namespace OpBuilder

theorem extendMax_ok {max : Nat} : ∀ {es : List (Nat × TypedAssigns)} {m m' : Assignments},
    extendMax max m es = .ok m' → m' = OMap.extend m es := by
  intro es
  induction es with
  | nil => intro m m' h; cases h; rfl
  | cons e es ih =>
    intro m m' h
    unfold extendMax at h
    split at h
    · cases h
    · rw [OMap.extend_cons]; exact ih h

theorem completeAllFungible_ok {E : BEnv} {ins : List (Opout × RState)} : ∀ {m : Slots} {a : Assignments},
    completeAllFungible E ins m = .ok a → OMap.keys a = OMap.keys m ∧
      ∀ ty t, OMap.get? a ty = some t ↔ ∃ items, OMap.get? m ty = some items ∧ completeFungible E ins ty items = .ok t := by
  intro m
  induction m with
  | nil => intro a h; cases h; exact ⟨rfl, fun ty t => by simp⟩
  | cons e m ih =>
    intro a h
    obtain ⟨ty0, items0⟩ := e
    simp only [completeAllFungible, except_bind_ok] at h
    obtain ⟨t0, h0, more, h1, h⟩ := h
    cases h
    obtain ⟨hk, hg⟩ := ih h1
    refine ⟨by simp [OMap.keys] at hk ⊢; exact hk, ?_⟩
    intro ty t
    rw [OMap.get?_cons, OMap.get?_cons]
    by_cases e : ty = ty0
    · subst e
      simp only [if_true, Option.some.injEq]
      constructor
      · rintro rfl; exact ⟨_, rfl, h0⟩
      · rintro ⟨_, rfl, h'⟩; rw [h0] at h'; cases h'; rfl
    · simp only [e, if_false]; exact hg ty t

/-- How the assignments of a type of a completed operation came to be. -/
def Completed (E : BEnv) (b : OpBuilder) (ins : List (Opout × RState)) (ty : Nat) (t : TypedAssigns) : Prop :=
  (∃ items, OMap.get? b.fungible ty = some items ∧ completeFungible E ins ty items = .ok t) ∨
  (∃ items, OMap.get? b.data ty = some items ∧ t = ⟨.structured, items.map toAssign⟩) ∨
  (∃ items, OMap.get? b.rights ty = some items ∧
    t = ⟨.declarative, ((E.order (OMap.keys items)).map (fun s => (s, RState.void))).map toAssign⟩) ∨
  (∃ items, OMap.get? b.attachments ty = some items ∧ t = ⟨.attachment, items.map toAssign⟩)

theorem Inv.disjoint {b : OpBuilder} (h : b.Inv) {k k' : StateKind} {ty : Nat} {i i' : OMap BSeal RState}
    (h1 : OMap.get? (b.slots k) ty = some i) (h2 : OMap.get? (b.slots k') ty = some i') : k = k' := by
  obtain ⟨s, hs, hk⟩ := h.typed k ty (by simp [OMap.contains, h1])
  obtain ⟨s', hs', hk'⟩ := h.typed k' ty (by simp [OMap.contains, h2])
  rw [hs] at hs'; cases hs'; exact hk.symm.trans hk'

theorem complete_get {E : BEnv} {b : OpBuilder} {ins : List (Opout × RState)} {a : Assignments} (hi : b.Inv)
    (h : b.complete E ins = .ok a) (ty : Nat) (t : TypedAssigns) : OMap.get? a ty = some t ↔ Completed E b ins ty t := by
  simp only [complete, except_bind_ok] at h
  obtain ⟨a1, h1, a2, h2, a3, h3, h4⟩ := h
  obtain ⟨-, g1⟩ := completeAllFungible_ok h1
  have e2 := extendMax_ok h2
  have e3 := extendMax_ok h3
  have e4 := extendMax_ok h4
  have sd : OMap.Sorted (completeOther .structured b.data) := (hi.wf .structured).sorted.mapVals _
  have sr : OMap.Sorted (completeRights E b.rights) := (hi.wf .declarative).sorted.mapVals _
  have sa : OMap.Sorted (completeOther .attachment b.attachments) := (hi.wf .attachment).sorted.mapVals _
  have hg : OMap.get? a ty = (OMap.get? (completeOther .attachment b.attachments) ty).or
      ((OMap.get? (completeRights E b.rights) ty).or ((OMap.get? (completeOther .structured b.data) ty).or (OMap.get? a1 ty))) := by
    rw [e4, get?_extend, Sorted.lastFor sa, e3, get?_extend, Sorted.lastFor sr, e2, get?_extend, Sorted.lastFor sd]
  rw [hg]
  unfold completeOther completeRights Completed
  rw [OMap.get?_mapVals, OMap.get?_mapVals, OMap.get?_mapVals]
  have d : ∀ (k k' : StateKind) (i i' : OMap BSeal RState), k ≠ k' → OMap.get? (b.slots k) ty = some i →
      OMap.get? (b.slots k') ty = some i' → False := fun k k' i i' hne x y => hne (hi.disjoint x y)
  cases hatt : OMap.get? b.attachments ty with
  | some ia =>
    have n1 : OMap.get? b.fungible ty = none := by
      cases hx : OMap.get? b.fungible ty with
      | none => rfl
      | some i => exact (d .attachment .fungible ia i (by decide) hatt hx).elim
    have n2 : OMap.get? b.data ty = none := by
      cases hx : OMap.get? b.data ty with
      | none => rfl
      | some i => exact (d .attachment .structured ia i (by decide) hatt hx).elim
    have n3 : OMap.get? b.rights ty = none := by
      cases hx : OMap.get? b.rights ty with
      | none => rfl
      | some i => exact (d .attachment .declarative ia i (by decide) hatt hx).elim
    simp [n1, n2, n3, eq_comm]
  | none =>
    cases hr : OMap.get? b.rights ty with
    | some ir =>
      have n1 : OMap.get? b.fungible ty = none := by
        cases hx : OMap.get? b.fungible ty with
        | none => rfl
        | some i => exact (d .declarative .fungible ir i (by decide) hr hx).elim
      have n2 : OMap.get? b.data ty = none := by
        cases hx : OMap.get? b.data ty with
        | none => rfl
        | some i => exact (d .declarative .structured ir i (by decide) hr hx).elim
      simp [n1, n2, eq_comm]
    | none =>
      cases hd : OMap.get? b.data ty with
      | some id =>
        have n1 : OMap.get? b.fungible ty = none := by
          cases hx : OMap.get? b.fungible ty with
          | none => rfl
          | some i => exact (d .structured .fungible id i (by decide) hd hx).elim
        simp [n1, eq_comm]
      | none => simp [g1]

end OpBuilder

/-! ### The items -/

theorem map_toAssign_keys {l : OMap BSeal RState} (h : OMap.Sorted l) :
    l.map OpBuilder.toAssign = (OMap.keys l).map (fun sl => OpBuilder.toAssign (sl, (OMap.get? l sl).getD .void)) := by
  unfold OMap.keys
  rw [List.map_map]
  apply List.map_congr_left
  intro e he
  simp only [Function.comp]
  rw [h.get?_of_mem (k := e.1) (v := e.2) he]; rfl

theorem toAssign_on (sl : BSeal) (st : RState) : (OpBuilder.toAssign (sl, st)).On sl := by
  cases sl with
  | revealed s => simp [OpBuilder.toAssign, Assign.On, Assign.seal?]
  | concealed c h => exact ⟨st, rfl⟩

theorem toAssign_state (sl : BSeal) (st : RState) : (OpBuilder.toAssign (sl, st)).state? = some st := by
  cases sl <;> rfl

theorem toAssign_layer1 (sl : BSeal) (st : RState) : (OpBuilder.toAssign (sl, st)).layer1 = sl.layer1 := by
  cases sl with
  | revealed s => rfl
  | concealed c h =>
    simp only [OpBuilder.toAssign, Assign.layer1, BSeal.layer1, xsecret]
    cases c <;> simp [Layer1.num] <;> omega

theorem setBlinding_content (b : Nat) (st : RState) : (OpBuilder.setBlinding b st).content = st.content := by cases st <;> rfl

theorem inputBlindings_ok {ty : Nat} : ∀ {ins : List (Opout × RState)} {l : List Nat}, OpBuilder.inputBlindings ty ins = .ok l ↔
    (∀ e ∈ ins, e.1.ty = ty → e.2.kind = .fungible) ∧
      l = (ins.filter (fun e => e.1.ty = ty)).map (fun e => e.2.blindingFactor) := by
  intro ins
  induction ins with
  | nil => intro l; simp [OpBuilder.inputBlindings, eq_comm]
  | cons e ins ih =>
    intro l
    obtain ⟨o, st⟩ := e
    simp only [OpBuilder.inputBlindings, except_bind_ok]
    by_cases ho : o.ty = ty
    · simp only [ho, if_true]
      constructor
      · rintro ⟨more, h1, h2⟩
        obtain ⟨h3, rfl⟩ := ih.1 h1
        cases st with
        | fungible v b t =>
          cases h2
          refine ⟨?_, by simp [ho, RState.blindingFactor]⟩
          intro e he h
          rcases List.mem_cons.1 he with rfl | he
          · rfl
          · exact h3 e he h
        | void => cases h2
        | data => cases h2
        | attach => cases h2
      · rintro ⟨h1, rfl⟩
        refine ⟨_, ih.2 ⟨fun e he => h1 e (List.mem_cons_of_mem _ he), rfl⟩, ?_⟩
        have := h1 (o, st) (List.mem_cons_self) ho
        cases st with
        | fungible v b t => simp [ho, RState.blindingFactor]
        | void => cases this
        | data => cases this
        | attach => cases this
    · simp only [ho, if_false]
      constructor
      · rintro ⟨more, h1, h2⟩
        cases h2
        obtain ⟨h3, rfl⟩ := ih.1 h1
        refine ⟨?_, by simp [ho]⟩
        intro e he h
        rcases List.mem_cons.1 he with rfl | he
        · exact absurd h ho
        · exact h3 e he h
      · rintro ⟨h1, rfl⟩
        exact ⟨_, ih.2 ⟨fun e he => h1 e (List.mem_cons_of_mem _ he), rfl⟩, by simp [ho]⟩

theorem completeFungible_ok {E : BEnv} {ins : List (Opout × RState)} {ty : Nat} {items : List (BSeal × RState)} {t : TypedAssigns} :
    OpBuilder.completeFungible E ins ty items = .ok t ↔ ∃ last b, items.getLast? = some last ∧
      (∀ e ∈ ins, e.1.ty = ty → e.2.kind = .fungible) ∧
      E.balance (OpBuilder.orEmpty E ((ins.filter (fun e => e.1.ty = ty)).map (fun e => e.2.blindingFactor)))
        (items.dropLast.map (fun e => e.2.blindingFactor)) = some b ∧
      t = ⟨.fungible, (items.dropLast ++ [(last.1, OpBuilder.setBlinding b last.2)]).map OpBuilder.toAssign⟩ := by
  have hb : ∀ st, OpBuilder.blindingOf st = RState.blindingFactor st := by intro st; cases st <;> rfl
  unfold OpBuilder.completeFungible
  cases hl : items.getLast? with
  | none => simp
  | some last =>
    simp only [except_bind_ok, orErr_ok, inputBlindings_ok, hb, Option.some.injEq]
    constructor
    · rintro ⟨l, ⟨h1, rfl⟩, b, h2, h3⟩; cases h3; exact ⟨last, b, rfl, h1, h2, rfl⟩
    · rintro ⟨_, b, rfl, h1, h2, rfl⟩; exact ⟨_, ⟨h1, rfl⟩, b, h2, rfl⟩

/-- A list of sealed states after the blinding factor of the last one is set. -/
theorem setLast_keys {items : OMap BSeal RState} {last : BSeal × RState} (b : Nat) (hl : items.getLast? = some last) :
    OMap.keys (items.dropLast ++ [(last.1, OpBuilder.setBlinding b last.2)]) = OMap.keys items ∧
      (∀ sl st, (sl, st) ∈ items.dropLast ++ [(last.1, OpBuilder.setBlinding b last.2)] →
        ∃ st0, (sl, st0) ∈ items ∧ (st = st0 ∨ st = OpBuilder.setBlinding b st0)) := by
  have he : items.dropLast ++ [last] = items := by
    have := List.getLast?_eq_some_iff.1 hl
    obtain ⟨ys, rfl⟩ := this
    simp
  refine ⟨?_, ?_⟩
  · conv => rhs; rw [← he]
    simp [OMap.keys]
  · intro sl st hm
    rcases List.mem_append.1 hm with hm | hm
    · exact ⟨st, by rw [← he]; exact List.mem_append_left _ hm, Or.inl rfl⟩
    · simp only [List.mem_singleton, Prod.mk.injEq] at hm
      obtain ⟨rfl, rfl⟩ := hm
      exact ⟨last.2, by rw [← he]; simp, Or.inr rfl⟩

theorem Completed.items {E : BEnv} {n : Nat} (hE : E.Lawful n) {b : OpBuilder} {ins : List (Opout × RState)} {ty : Nat}
    {t : TypedAssigns} (hi : b.Inv) (h : OpBuilder.Completed E b ins ty t) :
    ∃ (sls : List BSeal) (f : BSeal → RState), sls.Nodup ∧ t.items = sls.map (fun sl => OpBuilder.toAssign (sl, f sl)) ∧
      (∀ sl, sl ∈ sls ↔ (b.found ty sl).isSome = true) ∧
      ∀ sl ∈ sls, ∃ st, b.found ty sl = some st ∧ st.kind = t.kind ∧ (f sl = st ∨ ∃ x, f sl = OpBuilder.setBlinding x st) := by
  have key : ∀ (k : StateKind) (items : OMap BSeal RState), OMap.get? (b.slots k) ty = some items →
      OMap.Sorted items ∧ (∀ sl, b.found ty sl = OMap.get? items sl) ∧ (∀ sl st, OMap.get? items sl = some st → st.kind = k) := by
    intro k items hg
    have hw := (hi.wf k).inner ty items hg
    have hf : ∀ sl, Slots.find (b.slots k) ty sl = OMap.get? items sl := by intro sl; simp [Slots.find, hg]
    refine ⟨hw.1, ?_, ?_⟩
    · intro sl
      obtain ⟨sch, h1, h2⟩ := hi.typed k ty (by simp [OMap.contains, hg])
      unfold OpBuilder.found; rw [h1]; simp only; rw [h2]; exact hf sl
    · intro sl st h; exact hi.kinds k ty sl st (by rw [hf]; exact h)
  have other : ∀ (k : StateKind) (items : OMap BSeal RState), OMap.get? (b.slots k) ty = some items →
      t = ⟨k, items.map OpBuilder.toAssign⟩ →
      ∃ (sls : List BSeal) (f : BSeal → RState), sls.Nodup ∧ t.items = sls.map (fun sl => OpBuilder.toAssign (sl, f sl)) ∧
      (∀ sl, sl ∈ sls ↔ (b.found ty sl).isSome = true) ∧
      ∀ sl ∈ sls, ∃ st, b.found ty sl = some st ∧ st.kind = t.kind ∧ (f sl = st ∨ ∃ x, f sl = OpBuilder.setBlinding x st) := by
    rintro k items hg rfl
    obtain ⟨h1, h2, h3⟩ := key k items hg
    refine ⟨OMap.keys items, fun sl => (OMap.get? items sl).getD .void, h1.nodup, map_toAssign_keys h1, ?_, ?_⟩
    · intro sl; rw [h2, OMap.get?_isSome_iff]
    · intro sl hsl
      have := OMap.get?_isSome_iff.2 hsl
      obtain ⟨st, hst⟩ := Option.isSome_iff_exists.1 this
      exact ⟨st, by rw [h2]; exact hst, h3 _ _ hst, Or.inl (by simp [hst])⟩
  rcases h with ⟨items, hg, hc⟩ | ⟨items, hg, hc⟩ | ⟨items, hg, hc⟩ | ⟨items, hg, hc⟩
  · obtain ⟨h1, h2, h3⟩ := key .fungible items hg
    obtain ⟨last, x, hl, -, -, rfl⟩ := completeFungible_ok.1 hc
    obtain ⟨k1, k2⟩ := setLast_keys x hl
    have hs : OMap.Sorted (items.dropLast ++ [(last.1, OpBuilder.setBlinding x last.2)]) := by
      unfold OMap.Sorted; rw [k1]; exact h1
    refine ⟨OMap.keys items, _, h1.nodup, by rw [← k1]; exact map_toAssign_keys hs, ?_, ?_⟩
    · intro sl; rw [h2, OMap.get?_isSome_iff]
    · intro sl hsl
      have hsl' := hsl
      rw [← k1] at hsl'
      obtain ⟨st', hst'⟩ := Option.isSome_iff_exists.1 (OMap.get?_isSome_iff.2 hsl')
      obtain ⟨st0, m0, e0⟩ := k2 sl st' (OMap.mem_of_get? hst')
      have hg0 := h1.get?_of_mem m0
      refine ⟨st0, by rw [h2]; exact hg0, h3 _ _ hg0, ?_⟩
      rw [hst', Option.getD_some]
      rcases e0 with e0 | e0
      · exact Or.inl e0
      · exact Or.inr ⟨x, e0⟩
  · exact other .structured items hg hc
  · obtain ⟨h1, h2, h3⟩ := key .declarative items hg
    subst hc
    have hp := hE.order (OMap.keys items)
    refine ⟨E.order (OMap.keys items), fun _ => .void, hp.nodup_iff.2 h1.nodup, ?_, ?_, ?_⟩
    · rw [List.map_map]; rfl
    · intro sl; rw [h2, OMap.get?_isSome_iff]; exact hp.mem_iff
    · intro sl hsl
      obtain ⟨st, hst⟩ := Option.isSome_iff_exists.1 (OMap.get?_isSome_iff.2 (hp.mem_iff.1 hsl))
      have hk := h3 _ _ hst
      refine ⟨st, by rw [h2]; exact hst, hk, Or.inl ?_⟩
      cases st <;> simp [RState.kind] at hk; rfl
  · exact other .attachment items hg hc

theorem Completed.kind {E : BEnv} {b : OpBuilder} {ins : List (Opout × RState)} {ty : Nat} {t : TypedAssigns}
    (h : OpBuilder.Completed E b ins ty t) : ∃ items, OMap.get? (b.slots t.kind) ty = some items ∧
      (t.kind = .fungible → OpBuilder.completeFungible E ins ty items = .ok t) := by
  rcases h with ⟨items, hg, hc⟩ | ⟨items, hg, hc⟩ | ⟨items, hg, hc⟩ | ⟨items, hg, hc⟩
  · obtain ⟨last, x, hl, -, -, rfl⟩ := completeFungible_ok.1 hc
    exact ⟨items, hg, fun _ => hc⟩
  · subst hc; exact ⟨items, hg, fun h => by cases h⟩
  · subst hc; exact ⟨items, hg, fun h => by cases h⟩
  · subst hc; exact ⟨items, hg, fun h => by cases h⟩

/-- Every slot which was filled is in the completed operation. -/
theorem complete_exists {E : BEnv} {b : OpBuilder} {ins : List (Opout × RState)} {a : Assignments} (hi : b.Inv)
    (h : b.complete E ins = .ok a) {ty : Nat} {sl : BSeal} {st : RState} (hf : b.found ty sl = some st) :
    ∃ t, OMap.get? a ty = some t ∧ t.kind = st.kind := by
  have hx : ∃ k items, OMap.get? (b.slots k) ty = some items ∧ k = st.kind := by
    unfold OpBuilder.found at hf
    cases hs : OMap.get? b.schema.ownedTypes ty with
    | none => rw [hs] at hf; cases hf
    | some sch =>
      rw [hs] at hf
      simp only at hf
      have hf' := hf
      unfold Slots.find at hf'
      cases hg : OMap.get? (b.slots sch.kind) ty with
      | none => rw [hg] at hf'; cases hf'
      | some items => exact ⟨sch.kind, items, hg, (hi.kinds _ _ _ _ hf).symm⟩
  obtain ⟨k, items, hg, hk⟩ := hx
  subst hk
  have hC := fun t => OpBuilder.complete_get hi h ty t
  cases hkind : st.kind with
  | structured =>
    rw [hkind] at hg
    exact ⟨_, (hC _).2 (Or.inr (Or.inl ⟨items, hg, rfl⟩)), rfl⟩
  | declarative =>
    rw [hkind] at hg
    exact ⟨_, (hC _).2 (Or.inr (Or.inr (Or.inl ⟨items, hg, rfl⟩))), rfl⟩
  | attachment =>
    rw [hkind] at hg
    exact ⟨_, (hC _).2 (Or.inr (Or.inr (Or.inr ⟨items, hg, rfl⟩))), rfl⟩
  | fungible =>
    rw [hkind] at hg
    simp only [OpBuilder.complete, except_bind_ok] at h
    obtain ⟨a1, h1, -⟩ := h
    obtain ⟨hkeys, hgg⟩ := OpBuilder.completeAllFungible_ok h1
    have hin : ty ∈ OMap.keys a1 := by
      rw [hkeys]; apply OMap.get?_isSome_iff.1; exact Option.isSome_iff_exists.2 ⟨items, hg⟩
    obtain ⟨t, ht⟩ := Option.isSome_iff_exists.1 (OMap.get?_isSome_iff.2 hin)
    have ht' := (hgg ty t).1 ht
    refine ⟨t, (hC t).2 (Or.inl ht'), ?_⟩
    obtain ⟨items', _, hc⟩ := ht'
    obtain ⟨last, x, hl, -, -, rfl⟩ := completeFungible_ok.1 hc
    rfl

theorem completeFungible_sum {E : BEnv} {n : Nat} (hE : E.Lawful n) {ins : List (Opout × RState)} {ty : Nat}
    {items : List (BSeal × RState)} {t : TypedAssigns} (h : OpBuilder.completeFungible E ins ty items = .ok t)
    (hk : ∀ e ∈ items, e.2.kind = .fungible) :
    t.blindingSum % n =
      (OpBuilder.orEmpty E ((ins.filter (fun e => e.1.ty = ty)).map (fun e => e.2.blindingFactor))).sum % n := by
  obtain ⟨last, b, hl, -, hb, rfl⟩ := completeFungible_ok.1 h
  rw [← hE.balance _ _ _ hb]
  have hb : ∀ e : BSeal × RState, (OpBuilder.toAssign e).blindingFactor = e.2.blindingFactor := by
    rintro ⟨sl, st⟩
    simp only [Assign.blindingFactor]
    rw [toAssign_state]; rfl
  have hlast : last.2.kind = .fungible := hk last (List.mem_of_getLast? hl)
  have hset : (OpBuilder.setBlinding b last.2).blindingFactor = b := by
    cases hx : last.2 <;> rw [hx] at hlast <;> simp [RState.kind] at hlast <;> rfl
  congr 1
  unfold TypedAssigns.blindingSum
  rw [List.map_map, List.map_append, List.sum_append]
  simp [hb, hset, Function.comp_def]

end Rgb
