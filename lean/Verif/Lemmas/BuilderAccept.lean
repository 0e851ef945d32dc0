import Verif.Lemmas.BuilderFinal
import Verif.Lemmas.Iface

/-! What the builders accept. -/

namespace Rgb

/-- Whether a result is a success. -/
def okay {ε α : Type} (x : Except ε α) : Prop := ∃ a, x = .ok a

theorem okay_bind {ε α β : Type} {x : Except ε α} {f : α → Except ε β} : okay (x >>= f) ↔ ∃ a, x = .ok a ∧ okay (f a) := by
  constructor
  · rintro ⟨b, h⟩; obtain ⟨a, h1, h2⟩ := except_bind_ok.1 h; exact ⟨a, h1, b, h2⟩
  · rintro ⟨a, h1, b, h2⟩; exact ⟨b, except_bind_ok.2 ⟨a, h1, h2⟩⟩

theorem okay_ok {ε α : Type} (a : α) : okay (.ok a : Except ε α) := ⟨a, rfl⟩

theorem okay_error {ε α : Type} (e : ε) : ¬ okay (.error e : Except ε α) := by rintro ⟨a, h⟩; cases h

/-! ### Room -/

/-- Whether a state can be put for a type: the seals of the type, or the types, aren't too many already. -/
def Slots.RoomAt (m : Slots) (ty : Nat) : Prop :=
  match OMap.get? m ty with
  | some i => i.length < smallMax
  | none => m.length < tinyMax

/-- Whether global state of a type can be added. -/
def globalRoomAt (m : OMap Nat (List Nat)) (ty : Nat) : Prop :=
  match OMap.get? m ty with
  | some l => l.length < smallMax
  | none => m.length < tinyMax

theorem OMap.length_insert_of_mem {κ ν : Type} [Key κ] [DecidableEq κ] {m : OMap κ ν} (h : OMap.Sorted m) {k : κ} {v v' : ν}
    (hg : OMap.get? m k = some v') : (OMap.insert m k v).length = m.length := by
  induction m with
  | nil => cases hg
  | cons e m ih =>
    obtain ⟨k0, v0⟩ := e
    rw [OMap.get?_cons] at hg
    unfold OMap.insert
    by_cases h0 : k = k0
    · subst h0; simp [Key.lt_irrefl]
    · rw [if_neg h0] at hg
      have hk : k ∈ OMap.keys m := OMap.get?_isSome_iff.1 (by rw [hg]; rfl)
      have hlt := h.head hk
      have : Key.lt k k0 = false := Key.lt_asymm hlt
      simp [this, h0, ih h.tail hg]

theorem OMap.length_insert_le {κ ν : Type} [Key κ] [DecidableEq κ] (m : OMap κ ν) (n : κ) (v : ν) :
    (OMap.insert m n v).length ≤ m.length + 1 := by
  induction m with
  | nil => simp [OMap.insert]
  | cons e m ih =>
    obtain ⟨k, w⟩ := e
    unfold OMap.insert
    split
    · simp
    · split
      · simp
      · simp only [List.length_cons]; omega

/-! ### Acceptance -/

theorem okay_put {m : Slots} {ty : Nat} {sl : BSeal} {st : RState} : okay (Slots.put m ty sl st) ↔ m.RoomAt ty := by
  unfold Slots.put Slots.RoomAt
  cases hg : OMap.get? m ty with
  | some i =>
    simp only [okay_bind, insertMax_ok]
    exact ⟨fun ⟨_, ⟨h, _⟩, _⟩ => h, fun h => ⟨_, ⟨h, rfl⟩, okay_ok _⟩⟩
  | none => exact ⟨fun ⟨_, h⟩ => (insertMax_ok.1 h).1, fun h => ⟨_, insertMax_ok.2 ⟨h, rfl⟩⟩⟩

theorem okay_pushGlobal {m : OMap Nat (List Nat)} {ty v : Nat} : okay (OpBuilder.pushGlobal m ty v) ↔ globalRoomAt m ty := by
  unfold OpBuilder.pushGlobal globalRoomAt
  cases hg : OMap.get? m ty with
  | some l =>
    simp only
    by_cases hl : l.length ≥ smallMax
    · rw [if_pos hl]; exact ⟨fun h => (okay_error _ h).elim, fun h => by omega⟩
    · rw [if_neg hl]; exact ⟨fun _ => by omega, fun _ => okay_ok _⟩
  | none => exact ⟨fun ⟨_, h⟩ => (insertMax_ok.1 h).1, fun h => ⟨_, insertMax_ok.2 ⟨h, rfl⟩⟩⟩

namespace OpBuilder

theorem okay_addRightsRaw {b : OpBuilder} {ty : Nat} {sl : BSeal} :
    okay (b.addRightsRaw ty sl) ↔ b.schema.Owns ty .void ∧ (b.slots .declarative).RoomAt ty := by
  simp only [addRightsRaw, stateSchema, okay_bind, orErr_ok, failIf_ok, decide_eq_false_iff_not, ne_eq, Decidable.not_not, Schema.Owns]
  constructor
  · rintro ⟨s, hs, _, rfl, m, hm, _⟩; exact ⟨hs, okay_put.1 ⟨m, hm⟩⟩
  · rintro ⟨hs, h⟩; obtain ⟨m, hm⟩ := (okay_put (sl := sl) (st := .void)).2 h
    exact ⟨_, hs, (), rfl, m, hm, okay_ok _⟩

theorem okay_addFungibleRaw {b : OpBuilder} {ty : Nat} {sl : BSeal} {v bl t : Nat} :
    okay (b.addFungibleRaw ty sl v bl t) ↔ b.schema.Owns ty (.fungible v bl t) ∧ (b.slots .fungible).RoomAt ty := by
  simp only [addFungibleRaw, stateSchema, okay_bind, orErr_ok, failIf_ok, decide_eq_false_iff_not, ne_eq, Decidable.not_not, Schema.Owns]
  constructor
  · rintro ⟨s, hs, _, rfl, m, hm, _⟩; exact ⟨hs, okay_put.1 ⟨m, hm⟩⟩
  · rintro ⟨hs, h⟩; obtain ⟨m, hm⟩ := (okay_put (sl := sl) (st := .fungible v bl t)).2 h
    exact ⟨_, hs, (), rfl, m, hm, okay_ok _⟩

theorem okay_addDataRaw {b : OpBuilder} {ty : Nat} {sl : BSeal} {v salt : Nat} :
    okay (b.addDataRaw ty sl v salt) ↔ b.schema.Owns ty (.data v salt) ∧ (b.slots .structured).RoomAt ty := by
  simp only [addDataRaw, stateSchema, okay_bind, orErr_ok, Schema.Owns]
  constructor
  · rintro ⟨s, hs, ho⟩
    cases s with
    | structured sem =>
      obtain ⟨m, hm, _⟩ := okay_bind.1 ho
      exact ⟨⟨sem, hs⟩, okay_put.1 ⟨m, hm⟩⟩
    | declarative => exact (okay_error _ ho).elim
    | fungible => exact (okay_error _ ho).elim
    | attachment => exact (okay_error _ ho).elim
  · rintro ⟨⟨sem, hs⟩, h⟩; obtain ⟨m, hm⟩ := (okay_put (sl := sl) (st := .data v salt)).2 h
    exact ⟨_, hs, okay_bind.2 ⟨m, hm, okay_ok _⟩⟩

theorem okay_addAttachmentRaw {b : OpBuilder} {ty : Nat} {sl : BSeal} {f m salt : Nat} :
    okay (b.addAttachmentRaw ty sl f m salt) ↔ b.schema.Owns ty (.attach f m salt) ∧ (b.slots .attachment).RoomAt ty := by
  simp only [addAttachmentRaw, stateSchema, okay_bind, orErr_ok, Schema.Owns]
  constructor
  · rintro ⟨s, hs, ho⟩
    cases s with
    | attachment sem =>
      obtain ⟨m, hm, _⟩ := okay_bind.1 ho
      exact ⟨⟨sem, hs⟩, okay_put.1 ⟨m, hm⟩⟩
    | declarative => exact (okay_error _ ho).elim
    | fungible => exact (okay_error _ ho).elim
    | structured => exact (okay_error _ ho).elim
  · rintro ⟨⟨sem, hs⟩, h⟩; obtain ⟨m', hm⟩ := (okay_put (sl := sl) (st := .attach f m salt)).2 h
    exact ⟨_, hs, okay_bind.2 ⟨m', hm, okay_ok _⟩⟩

theorem okay_addOwnedRaw {b : OpBuilder} {ty : Nat} {sl : BSeal} {st : RState} :
    okay (b.addOwnedRaw ty sl st) ↔ b.schema.Owns ty st ∧ (∀ v bl t, st = .fungible v bl t → OMap.get? b.tags ty = some t) ∧
      (b.slots st.kind).RoomAt ty := by
  cases st with
  | void => simp only [addOwnedRaw, okay_addRightsRaw, RState.kind]; simp
  | data => simp only [addOwnedRaw, okay_addDataRaw, RState.kind]; simp
  | attach => simp only [addOwnedRaw, okay_addAttachmentRaw, RState.kind]; simp
  | fungible v bl t =>
    simp only [addOwnedRaw, assetTagRaw, okay_bind, orErr_ok, failIf_ok, decide_eq_false_iff_not, ne_eq, Decidable.not_not,
      okay_addFungibleRaw, RState.kind]
    constructor
    · rintro ⟨t', ht, _, rfl, ho, hr⟩
      exact ⟨ho, fun _ _ _ e => by cases e; exact ht, hr⟩
    · rintro ⟨ho, ht, hr⟩
      exact ⟨t, ht _ _ _ rfl, (), rfl, ho, hr⟩

theorem okay_assertDet {E : BEnv} {b : OpBuilder} {w : Bool} : b.assertDet E w = .ok () ↔ (E.debug = true → b.det = w) := assertDet_ok

theorem okay_addOwnedDet {E : BEnv} {b : OpBuilder} {name : Nat} {sl : BSeal} {st : RState} :
    okay (b.addOwnedDet E name sl st) ↔ (E.debug = true → b.det = true) ∧ ∃ ty, typeByName b.iimpl.assignments name = some ty ∧
      b.schema.Owns ty st ∧ (∀ v bl t, st = .fungible v bl t → OMap.get? b.tags ty = some t) ∧ (b.slots st.kind).RoomAt ty := by
  simp only [addOwnedDet, okay_bind, assertDet_ok, typeOf_ok, okay_addOwnedRaw]
  exact ⟨fun ⟨_, h1, ty, h2⟩ => ⟨h1, ty, h2⟩, fun ⟨h1, ty, h2⟩ => ⟨(), h1, ty, h2⟩⟩

theorem okay_addRights {b : OpBuilder} {name : Nat} {sl : BSeal} :
    okay (b.addRights name sl) ↔ ∃ ty, typeByName b.iimpl.assignments name = some ty ∧ b.schema.Owns ty .void ∧
      (b.slots .declarative).RoomAt ty := by
  simp only [addRights, okay_bind, typeOf_ok, okay_addRightsRaw]

theorem okay_addFungible {E : BEnv} {b : OpBuilder} {name : Nat} {sl : BSeal} {v bl : Nat} :
    okay (b.addFungible E name sl v bl) ↔ (E.debug = true → b.det = false) ∧ ∃ ty, typeByName b.iimpl.assignments name = some ty ∧
      b.schema.Owns ty (.fungible v bl 0) ∧ OMap.get? b.tags ty ≠ none ∧ (b.slots .fungible).RoomAt ty := by
  simp only [addFungible, okay_bind, assertDet_ok, typeOf_ok, assetTagRaw, orErr_ok, okay_addFungibleRaw]
  constructor
  · rintro ⟨_, h1, ty, h2, t, h3, h4, h5⟩; exact ⟨h1, ty, h2, h4, by rw [h3]; simp, h5⟩
  · rintro ⟨h1, ty, h2, h3, h4, h5⟩
    obtain ⟨t, ht⟩ := Option.ne_none_iff_exists'.1 h4
    exact ⟨(), h1, ty, h2, t, ht, h3, h5⟩

theorem okay_addFungibleDet {E : BEnv} {b : OpBuilder} {name : Nat} {sl : BSeal} {v bl t : Nat} :
    okay (b.addFungibleDet E name sl v bl t) ↔ (E.debug = true → b.det = true) ∧ ∃ ty, typeByName b.iimpl.assignments name = some ty ∧
      b.schema.Owns ty (.fungible v bl 0) ∧ (b.slots .fungible).RoomAt ty := by
  simp only [addFungibleDet, okay_bind, assertDet_ok, typeOf_ok, okay_addFungibleRaw]
  exact ⟨fun ⟨_, h1, ty, h2⟩ => ⟨h1, ty, h2⟩, fun ⟨h1, ty, h2⟩ => ⟨(), h1, ty, h2⟩⟩

theorem okay_addData {E : BEnv} {b : OpBuilder} {name : Nat} {sl : BSeal} {v : Option Nat} {salt : Nat} :
    okay (b.addData E name sl v salt) ↔ (E.debug = true → b.det = false) ∧ ∃ x ty, v = some x ∧
      typeByName b.iimpl.assignments name = some ty ∧ b.schema.Owns ty (.data x salt) ∧ (b.slots .structured).RoomAt ty := by
  simp only [addData, okay_bind, assertDet_ok, typeOf_ok, orErr_ok, okay_addDataRaw]
  constructor
  · rintro ⟨_, h1, x, h2, ty, h3⟩; exact ⟨h1, x, ty, h2, h3⟩
  · rintro ⟨h1, x, ty, h2, h3⟩; exact ⟨(), h1, x, h2, ty, h3⟩

theorem okay_addDataDet {E : BEnv} {b : OpBuilder} {name : Nat} {sl : BSeal} {v salt : Nat} :
    okay (b.addDataDet E name sl v salt) ↔ (E.debug = true → b.det = true) ∧ ∃ ty,
      typeByName b.iimpl.assignments name = some ty ∧ b.schema.Owns ty (.data v salt) ∧ (b.slots .structured).RoomAt ty := by
  simp only [addDataDet, okay_bind, assertDet_ok, typeOf_ok, okay_addDataRaw]
  exact ⟨fun ⟨_, h1, ty, h2⟩ => ⟨h1, ty, h2⟩, fun ⟨h1, ty, h2⟩ => ⟨(), h1, ty, h2⟩⟩

theorem okay_addAttachment {E : BEnv} {b : OpBuilder} {det : Bool} {name : Nat} {sl : BSeal} {f m salt : Nat} :
    okay (b.addAttachment E det name sl f m salt) ↔ (E.debug = true → b.det = det) ∧ ∃ ty,
      typeByName b.iimpl.assignments name = some ty ∧ b.schema.Owns ty (.attach f m salt) ∧ (b.slots .attachment).RoomAt ty := by
  simp only [addAttachment, okay_bind, assertDet_ok, typeOf_ok, okay_addAttachmentRaw]
  exact ⟨fun ⟨_, h1, ty, h2⟩ => ⟨h1, ty, h2⟩, fun ⟨h1, ty, h2⟩ => ⟨(), h1, ty, h2⟩⟩

theorem okay_addAssetTagRaw {b : OpBuilder} {ty t : Nat} :
    okay (b.addAssetTagRaw ty t) ↔ OMap.contains b.fungible ty = false ∧ b.tags.length < tinyMax := by
  simp only [addAssetTagRaw, okay_bind, failIf_ok, insertMax_ok]
  constructor
  · rintro ⟨_, h1, _, ⟨h2, _⟩, _⟩; exact ⟨h1, h2⟩
  · rintro ⟨h1, h2⟩; exact ⟨(), h1, _, ⟨h2, rfl⟩, okay_ok _⟩

theorem okay_addAssetTag {b : OpBuilder} {name t : Nat} :
    okay (b.addAssetTag name t) ↔ ∃ ty, typeByName b.iimpl.assignments name = some ty ∧ OMap.contains b.fungible ty = false ∧
      b.tags.length < tinyMax := by
  simp only [addAssetTag, okay_bind, typeOf_ok, okay_addAssetTagRaw]

theorem okay_addMetadata {E : BEnv} {b : OpBuilder} {name : Nat} {v : Option Nat} :
    okay (b.addMetadata E name v) ↔ (∃ x ty sem, v = some x ∧ typeByName b.iimpl.metadata name = some ty ∧
      OMap.get? b.schema.metaTypes ty = some sem ∧ E.types sem x = true ∧ OMap.contains b.metadata ty = false) ∧
      b.metadata.length < tinyMax := by
  simp only [addMetadata, okay_bind, orErr_ok, failIf_ok, Bool.not_eq_false', decide_eq_false_iff_not, ge_iff_le, Nat.not_le]
  constructor
  · rintro ⟨x, h1, ty, h2, sem, h3, _, h4, _, h5, _, h6, _⟩; exact ⟨⟨x, ty, sem, h1, h2, h3, h4, h5⟩, h6⟩
  · rintro ⟨⟨x, ty, sem, h1, h2, h3, h4, h5⟩, h6⟩; exact ⟨x, h1, ty, h2, sem, h3, (), h4, (), h5, (), h6, okay_ok _⟩

theorem okay_addGlobal {E : BEnv} {b : OpBuilder} {name : Nat} {v : Option Nat} :
    okay (b.addGlobal E name v) ↔ ∃ x ty sem max, v = some x ∧ typeByName b.iimpl.globalState name = some ty ∧
      OMap.get? b.schema.globalTypes ty = some (sem, max) ∧ E.types sem x = true ∧ globalRoomAt b.globals ty := by
  simp only [addGlobal, okay_bind, orErr_ok, failIf_ok, Bool.not_eq_false']
  constructor
  · rintro ⟨x, h1, ty, h2, sch, h3, _, h4, m, h5, _⟩; exact ⟨x, ty, sch.1, sch.2, h1, h2, h3, h4, okay_pushGlobal.1 ⟨m, h5⟩⟩
  · rintro ⟨x, ty, sem, max, h1, h2, h3, h4, h5⟩
    obtain ⟨m, hm⟩ := (okay_pushGlobal (v := x)).2 h5
    exact ⟨x, h1, ty, h2, (sem, max), h3, (), h4, m, hm, okay_ok _⟩

theorem okay_initAssetTag {b : OpBuilder} {name r : Nat} :
    okay (b.initAssetTag name r) ↔ ∃ ty, typeByName b.iimpl.assignments name = some ty ∧
      (OMap.contains b.tags ty = true ∨ b.tags.length < tinyMax) := by
  simp only [initAssetTag, okay_bind, typeOf_ok]
  refine exists_congr fun ty => and_congr_right fun _ => ?_
  unfold OMap.contains
  cases OMap.get? b.tags ty with
  | some t => exact ⟨fun _ => Or.inl rfl, fun _ => okay_ok _⟩
  | none =>
    simp only [okay_bind, insertMax_ok]
    constructor
    · rintro ⟨_, ⟨h, _⟩, _⟩; exact Or.inr h
    · rintro (h | h)
      · cases h
      · exact ⟨_, ⟨h, rfl⟩, okay_ok _⟩

theorem initAssetTag_same {b o : OpBuilder} {name r t : Nat} (h : b.initAssetTag name r = .ok (o, t)) :
    o.schema = b.schema ∧ o.iimpl = b.iimpl ∧ o.det = b.det ∧ (∀ k, o.slots k = b.slots k) ∧
      o.globals = b.globals ∧ o.metadata = b.metadata := by
  simp only [initAssetTag, except_bind_ok, typeOf_ok] at h
  obtain ⟨ty, _, h⟩ := h
  cases hg : OMap.get? b.tags ty with
  | some t' => rw [hg] at h; cases h; exact ⟨rfl, rfl, rfl, fun _ => rfl, rfl, rfl⟩
  | none =>
    rw [hg] at h
    simp only [except_bind_ok] at h
    obtain ⟨m, _, h⟩ := h
    cases h
    exact ⟨rfl, rfl, rfl, fun k => by cases k <;> rfl, rfl, rfl⟩

end OpBuilder

theorem PRun.md_contains {a b : OpBuilder} {ps : List Prim} (r : PRun a ps b) (ty : Nat) :
    OMap.contains b.metadata ty = true ↔ OMap.contains a.metadata ty = true ∨ ∃ e ∈ mds ps, e.1 = ty := by
  induction r with
  | nil => simp [mds]
  | snoc _ s ih =>
    rw [mds_append]
    cases s with
    | tag => rw [show mds [_] = [] from rfl, List.append_nil]; exact ih
    | glob => rw [show mds [_] = [] from rfl, List.append_nil]; exact ih
    | put => rw [(OpBuilder.setSlots_rest _ _ _).2.2, show mds [_] = [] from rfl, List.append_nil]; exact ih
    | md ty' v =>
      rw [show mds [Prim.md ty' v] = [(ty', v)] from rfl]
      show OMap.contains (OMap.insert _ ty' v) ty = true ↔ _
      unfold OMap.contains at *
      by_cases e : ty = ty'
      · subst e; simp
      · rw [OMap.get?_insert_ne _ _ e, ih]
        simp only [List.mem_append, List.mem_singleton]
        constructor
        · rintro (h | ⟨x, hx, hxe⟩)
          · exact Or.inl h
          · exact Or.inr ⟨x, Or.inl hx, hxe⟩
        · rintro (h | ⟨x, hx | hx, hxe⟩)
          · exact Or.inl h
          · exact Or.inr ⟨x, hx, hxe⟩
          · subst hx; exact absurd hxe (Ne.symm e)

theorem RState.isAmount_iff (st : RState) : st.isAmount = true ↔ st.kind = .fungible := by
  cases st <;> simp [RState.isAmount, RState.kind]

theorem fungible_contains {a b : OpBuilder} {ps : List Prim} (r : PRun a ps b) (hi : a.Inv) (hempty : ∀ ty sl, a.found ty sl = none)
    {slots : List ((Nat × BSeal) × RState)} (hs : (puts ps).map slotUntag = slots.map slotUntag) (ty : Nat) :
    OMap.contains b.fungible ty = true ↔ ∃ e ∈ slots, e.1.1 = ty ∧ e.2.isAmount = true := by
  have hmem : ∀ {l l' : List ((Nat × BSeal) × RState)}, l.map slotUntag = l'.map slotUntag → ∀ e ∈ l, ∃ e' ∈ l', e'.1 = e.1 ∧
      e'.2.kind = e.2.kind := by
    intro l l' h e he
    have h1 : slotUntag e ∈ l'.map slotUntag := by rw [← h]; exact List.mem_map_of_mem he
    rw [List.mem_map] at h1
    obtain ⟨e', he', hee⟩ := h1
    have h2 : e'.1 = e.1 := congrArg (fun x => x.1) hee
    have h3 : e'.2.untag = e.2.untag := congrArg (fun x => x.2) hee
    exact ⟨e', he', h2, by rw [← RState.kind_untag, h3, RState.kind_untag]⟩
  constructor
  · intro hc
    have hib := r.inv hi
    obtain ⟨items, hg⟩ := OMap.contains_iff.1 hc
    obtain ⟨hsorted, hne⟩ := (hib.wf .fungible).inner ty items hg
    obtain ⟨e, he⟩ := List.exists_mem_of_ne_nil _ hne
    have hfind : Slots.find (b.slots .fungible) ty e.1 = some e.2 := by
      simp only [Slots.find]
      rw [show OMap.get? (b.slots .fungible) ty = some items from hg]
      exact hsorted.get?_of_mem he
    have hk := hib.kinds _ _ _ _ hfind
    have hf := OpBuilder.found_of_find hib hfind
    rw [r.found, hempty, Option.or_none] at hf
    obtain ⟨e', he', h1, h2⟩ := hmem hs _ (lastFor_mem hf)
    refine ⟨e', he', by rw [h1], ?_⟩
    rw [RState.isAmount_iff, h2]; exact hk
  · rintro ⟨e, he, rfl, hk⟩
    obtain ⟨e', he', h1, h2⟩ := hmem hs.symm e he
    rw [RState.isAmount_iff, ← h2] at hk
    have := r.put_contains hi (ty := e'.1.1) (sl := e'.1.2) (st := e'.2) he' hk
    rw [h1] at this; exact this

theorem false_of_not_iff {x : Bool} {p : Prop} (h : x = true ↔ p) : x = false ↔ ¬ p := by
  rw [← h]; cases x <;> simp

theorem length_of_map_eq {α β γ : Type} {f : α → γ} {g : β → γ} {l : List α} {l' : List β} (h : l.map f = l'.map g) : l.length = l'.length := by
  have := congrArg List.length h
  simpa using this

theorem ContractBuilder.okay_set {b : ContractBuilder} {x : Except BErr OpBuilder} : okay (b.set x) ↔ okay x := by
  simp only [ContractBuilder.set, okay_bind]
  exact ⟨fun ⟨a, h, _⟩ => ⟨a, h⟩, fun ⟨a, h⟩ => ⟨a, h, okay_ok _⟩⟩

theorem ContractBuilder.okay_sealed {b : ContractBuilder} {sl : BSeal} {x : Except BErr OpBuilder} :
    okay (b.sealed sl x) ↔ b.hasLayer1 sl.layer1 = true ∧ okay x := by
  simp only [ContractBuilder.sealed, okay_bind, checkLayer1_ok, okay_set]
  exact ⟨fun ⟨_, h1, h2⟩ => ⟨h1, h2⟩, fun ⟨h1, h2⟩ => ⟨(), h1, h2⟩⟩

theorem TransitionBuilder.okay_set {b : TransitionBuilder} {x : Except BErr OpBuilder} : okay (b.set x) ↔ okay x := by
  simp only [TransitionBuilder.set, okay_bind]
  exact ⟨fun ⟨a, h, _⟩ => ⟨a, h⟩, fun ⟨a, h⟩ => ⟨a, h, okay_ok _⟩⟩

theorem ContractBuilder.okay_addFungible {E : BEnv} {b : ContractBuilder} {name : Nat} {sl : BSeal} {v bl r : Nat} :
    okay (b.addFungible E name sl v bl r) ↔ b.hasLayer1 sl.layer1 = true ∧ (E.debug = true → b.builder.det = false) ∧
      ∃ ty, typeByName b.builder.iimpl.assignments name = some ty ∧ b.builder.schema.Owns ty (.fungible v bl 0) ∧
        (b.builder.slots .fungible).RoomAt ty ∧ (OMap.contains b.builder.tags ty = true ∨ b.builder.tags.length < tinyMax) := by
  simp only [ContractBuilder.addFungible, okay_bind, checkLayer1_ok, okay_set]
  constructor
  · rintro ⟨_, h1, ⟨o, t⟩, h2, h3⟩
    obtain ⟨e1, e2, e3, e4, -, -⟩ := OpBuilder.initAssetTag_same h2
    obtain ⟨h4, ty, h5, h6, -, h7⟩ := OpBuilder.okay_addFungible.1 h3
    rw [e1] at h6; rw [e2] at h5; rw [e3] at h4; rw [e4] at h7
    obtain ⟨ty', h8, h9⟩ := OpBuilder.okay_initAssetTag.1 ⟨_, h2⟩
    rw [h5] at h8; cases h8
    exact ⟨h1, h4, ty, h5, h6, h7, h9⟩
  · rintro ⟨h1, h4, ty, h5, h6, h7, h8⟩
    obtain ⟨⟨o, t⟩, h2⟩ := (OpBuilder.okay_initAssetTag (r := r)).2 ⟨ty, h5, h8⟩
    obtain ⟨e1, e2, e3, e4, -, -⟩ := OpBuilder.initAssetTag_same h2
    obtain ⟨ty', ps, hn, -, ht, -⟩ := OpBuilder.initAssetTag_run h2
    rw [h5] at hn; cases hn
    exact ⟨(), h1, (o, t), h2, OpBuilder.okay_addFungible.2
      ⟨by rw [e3]; exact h4, ty, by rw [e2]; exact h5, by rw [e1]; exact h6, by rw [ht]; simp, by rw [e4]; exact h7⟩⟩

theorem ContractBuilder.okay_addFungibleDet {E : BEnv} {b : ContractBuilder} {name : Nat} {sl : BSeal} {v bl r : Nat} :
    okay (b.addFungibleDet E name sl v bl r) ↔ b.hasLayer1 sl.layer1 = true ∧ (E.debug = true → b.builder.det = true) ∧
      ∃ ty, typeByName b.builder.iimpl.assignments name = some ty ∧ b.builder.schema.Owns ty (.fungible v bl 0) ∧
        (b.builder.slots .fungible).RoomAt ty ∧ (OMap.contains b.builder.tags ty = true ∨ b.builder.tags.length < tinyMax) := by
  simp only [ContractBuilder.addFungibleDet, okay_bind, checkLayer1_ok, okay_set]
  constructor
  · rintro ⟨_, h1, ⟨o, t⟩, h2, h3⟩
    obtain ⟨e1, e2, e3, e4, -, -⟩ := OpBuilder.initAssetTag_same h2
    obtain ⟨h4, ty, h5, h6, h7⟩ := OpBuilder.okay_addFungibleDet.1 h3
    rw [e1] at h6; rw [e2] at h5; rw [e3] at h4; rw [e4] at h7
    obtain ⟨ty', h8, h9⟩ := OpBuilder.okay_initAssetTag.1 ⟨_, h2⟩
    rw [h5] at h8; cases h8
    exact ⟨h1, h4, ty, h5, h6, h7, h9⟩
  · rintro ⟨h1, h4, ty, h5, h6, h7, h8⟩
    obtain ⟨⟨o, t⟩, h2⟩ := (OpBuilder.okay_initAssetTag (r := r)).2 ⟨ty, h5, h8⟩
    obtain ⟨e1, e2, e3, e4, -, -⟩ := OpBuilder.initAssetTag_same h2
    exact ⟨(), h1, (o, t), h2, OpBuilder.okay_addFungibleDet.2
      ⟨by rw [e3]; exact h4, ty, by rw [e2]; exact h5, by rw [e1]; exact h6, by rw [e4]; exact h7⟩⟩

theorem TransitionBuilder.okay_addOwnedRaw {b : TransitionBuilder} {ty : Nat} {sl : BSeal} {st : RState} :
    okay (b.addOwnedRaw ty sl st) ↔
      b.builder.schema.Owns ty st ∧ (∀ v bl t, st = .fungible v bl t → OMap.get? b.builder.tags ty = some t) ∧
        (b.builder.slots st.kind).RoomAt ty := by
  simp only [TransitionBuilder.addOwnedRaw, okay_bind, TransitionBuilder.okay_set, OpBuilder.okay_addOwnedRaw]
  constructor
  · rintro ⟨_, _, h⟩; exact h
  · intro h
    refine ⟨(), ?_, h⟩
    cases st with
    | fungible v bl t =>
      simp only [TransitionBuilder.checkTag, OpBuilder.assetTagRaw, except_bind_ok, orErr_ok, failIf_ok]
      exact ⟨t, h.2.1 _ _ _ rfl, by simp⟩
    | _ => rfl

theorem TransitionBuilder.okay_addFungibleDet {E : BEnv} {b : TransitionBuilder} {name : Nat} {sl : BSeal} {v bl : Nat} :
    okay (b.addFungibleDet E name sl v bl) ↔ (E.debug = true → b.builder.det = true) ∧ ∃ ty,
      typeByName b.builder.iimpl.assignments name = some ty ∧ b.builder.schema.Owns ty (.fungible v bl 0) ∧
        OMap.get? b.builder.tags ty ≠ none ∧ (b.builder.slots .fungible).RoomAt ty := by
  simp only [TransitionBuilder.addFungibleDet, okay_bind, TransitionBuilder.okay_set, OpBuilder.typeOf_ok, OpBuilder.assetTagRaw, orErr_ok,
    OpBuilder.okay_addFungibleDet]
  constructor
  · rintro ⟨ty, h1, t, h2, h3, ty', h4, h5, h7⟩
    rw [h1] at h4; cases h4
    exact ⟨h3, ty, h1, h5, by rw [h2]; simp, h7⟩
  · rintro ⟨h3, ty, h1, h5, h6, h7⟩
    obtain ⟨t, ht⟩ := Option.ne_none_iff_exists'.1 h6
    exact ⟨ty, h1, t, ht, h3, ty, h1, h5, h7⟩

theorem OMap.length_extend_le {κ ν : Type} [Key κ] [DecidableEq κ] (m : OMap κ ν) (l : List (κ × ν)) :
    (OMap.extend m l).length ≤ m.length + l.length := by
  induction l generalizing m with
  | nil => exact Nat.le_refl _
  | cons e l ih =>
    rw [OMap.extend_cons]
    refine Nat.le_trans (ih _) ?_
    have := OMap.length_insert_le m e.1 e.2
    simp only [List.length_cons]
    omega

/-! ### Completion -/

def OpBuilder.total (b : OpBuilder) : Nat := b.fungible.length + b.data.length + b.rights.length + b.attachments.length

theorem Slots.put_length {m m' : Slots} {ty : Nat} {sl : BSeal} {st : RState} (wf : Slots.WF m) (h : Slots.put m ty sl st = .ok m') :
    m'.length ≤ m.length + 1 := by
  unfold Slots.put at h
  cases hg : OMap.get? m ty with
  | some inner =>
    rw [hg] at h
    simp only [except_bind_ok, insertMax_ok] at h
    obtain ⟨i', ⟨-, rfl⟩, h⟩ := h
    cases h
    exact OMap.length_insert_le _ _ _
  | none =>
    rw [hg] at h
    simp only [insertMax_ok] at h
    obtain ⟨-, rfl⟩ := h
    exact OMap.length_insert_le _ _ _

theorem PRun.total {a b : OpBuilder} {ps : List Prim} (r : PRun a ps b) (hi : a.Inv) : b.total ≤ a.total + (puts ps).length := by
  induction r with
  | nil => exact Nat.le_add_right _ _
  | snoc r s ih =>
    rw [puts_append, List.length_append]
    have hinv := r.inv hi
    cases s with
    | tag => exact ih
    | md => exact ih
    | glob => exact ih
    | put ty sl st sch m hs ha ht hp =>
      have hz := Slots.put_length (hinv.wf st.kind) hp
      rename_i b1 _
      have h2 : ∀ st : RState, m.length ≤ (b1.slots st.kind).length + 1 → (b1.setSlots st.kind m).total ≤ b1.total + 1 := by
        intro st hz
        cases st <;> simp only [RState.kind, OpBuilder.setSlots, OpBuilder.slots, OpBuilder.total] at * <;> omega
      have h3 := h2 st hz
      have : (puts [Prim.put ty sl st]).length = 1 := rfl
      omega

theorem OpBuilder.okay_extendMax {max : Nat} : ∀ {m : Assignments} {l : List (Nat × TypedAssigns)}, m.length + l.length ≤ max →
    ∃ m', OpBuilder.extendMax max m l = .ok m' ∧ m'.length ≤ m.length + l.length := by
  intro m l
  induction l generalizing m with
  | nil => intro h; exact ⟨m, rfl, Nat.le_refl _⟩
  | cons e l ih =>
    intro h
    simp only [List.length_cons] at h ⊢
    have h1 := OMap.length_insert_le m e.1 e.2
    obtain ⟨m', h2, h3⟩ := ih (m := OMap.insert m e.1 e.2) (by omega)
    refine ⟨m', ?_, by omega⟩
    unfold extendMax
    rw [if_neg (by omega)]
    exact h2

theorem OpBuilder.okay_inputBlindings {ty : Nat} {ins : List (Opout × RState)} :
    okay (inputBlindings ty ins) ↔ ∀ e ∈ ins, e.1.ty = ty → e.2.isAmount = true := by
  induction ins with
  | nil => simp [inputBlindings, okay_ok]
  | cons e ins ih =>
    obtain ⟨o, st⟩ := e
    simp only [inputBlindings, okay_bind]
    constructor
    · rintro ⟨more, h1, h2⟩ e he hty
      cases he with
      | head =>
        simp only at hty
        rw [if_pos hty] at h2
        cases st <;> first | rfl | exact absurd h2 (okay_error _)
      | tail _ he => exact ih.1 ⟨more, h1⟩ e he hty
    · intro h
      obtain ⟨more, h1⟩ := ih.2 (fun e he => h e (List.mem_cons_of_mem _ he))
      refine ⟨more, h1, ?_⟩
      by_cases hty : o.ty = ty
      · rw [if_pos hty]
        have := h (o, st) (List.mem_cons_self) hty
        cases st <;> first | exact okay_ok _ | cases this
      · rw [if_neg hty]; exact okay_ok _

theorem OpBuilder.okay_completeFungible {E : BEnv} (hb : ∀ ins outs, E.balance ins outs ≠ none) {ins : List (Opout × RState)} {ty : Nat}
    {items : List (BSeal × RState)} (hne : items ≠ []) :
    okay (completeFungible E ins ty items) ↔ okay (inputBlindings ty ins) := by
  unfold completeFungible
  rw [List.getLast?_eq_some_getLast hne]
  simp only [okay_bind, orErr_ok]
  constructor
  · rintro ⟨i, h, _⟩; exact ⟨i, h⟩
  · rintro ⟨i, h⟩
    obtain ⟨x, hx⟩ := Option.ne_none_iff_exists'.1 (hb (orEmpty E i) (items.dropLast.map (fun e => blindingOf e.2)))
    exact ⟨i, h, x, hx, okay_ok _⟩

theorem OpBuilder.okay_completeAllFungible {E : BEnv} {ins : List (Opout × RState)} {m : Slots} :
    okay (completeAllFungible E ins m) ↔ ∀ e ∈ m, okay (completeFungible E ins e.1 e.2) := by
  induction m with
  | nil => simp [completeAllFungible, okay_ok]
  | cons e m ih =>
    obtain ⟨ty, items⟩ := e
    simp only [completeAllFungible, okay_bind, List.mem_cons, forall_eq_or_imp]
    constructor
    · rintro ⟨t, h1, more, h2, _⟩; exact ⟨⟨t, h1⟩, ih.1 ⟨more, h2⟩⟩
    · rintro ⟨⟨t, h1⟩, h2⟩
      obtain ⟨more, h3⟩ := ih.2 h2
      exact ⟨t, h1, more, h3, okay_ok _⟩

theorem OpBuilder.okay_complete {E : BEnv} (hb : ∀ ins outs, E.balance ins outs ≠ none) {b : OpBuilder} (hi : b.Inv) (ht : b.total ≤ 255)
    {ins : List (Opout × RState)} :
    okay (b.complete E ins) ↔ ∀ ty, OMap.contains b.fungible ty = true → ∀ e ∈ ins, e.1.ty = ty → e.2.isAmount = true := by
  have hw := hi.wf .fungible
  have hfun : okay (completeAllFungible E ins b.fungible) ↔
      ∀ ty, OMap.contains b.fungible ty = true → ∀ e ∈ ins, e.1.ty = ty → e.2.isAmount = true := by
    rw [okay_completeAllFungible]
    constructor
    · intro h ty hc
      obtain ⟨items, hg⟩ := OMap.contains_iff.1 hc
      have hm := h _ (OMap.mem_of_get? hg)
      rwa [okay_completeFungible hb (hw.inner ty items hg).2, okay_inputBlindings] at hm
    · rintro h ⟨ty, items⟩ he
      have hg : OMap.get? b.fungible ty = some items := hw.sorted.get?_of_mem he
      rw [okay_completeFungible hb (hw.inner ty items hg).2, okay_inputBlindings]
      exact h ty (OMap.contains_iff.2 ⟨items, hg⟩)
  rw [← hfun]
  simp only [complete, okay_bind]
  constructor
  · rintro ⟨a, h, _⟩; exact ⟨a, h⟩
  · rintro ⟨a, h⟩
    have hk : a.length = b.fungible.length := by
      have := congrArg List.length (completeAllFungible_ok h).1
      simpa [OMap.keys] using this
    have l1 : (completeOther .structured b.data).length = b.data.length := by simp [completeOther, OMap.mapVals]
    have l2 : (completeRights E b.rights).length = b.rights.length := by simp [completeRights, OMap.mapVals]
    have l3 : (completeOther .attachment b.attachments).length = b.attachments.length := by simp [completeOther, OMap.mapVals]
    unfold total at ht
    have e1 : tinyMax = 255 := rfl
    obtain ⟨a1, h1, n1⟩ := okay_extendMax (max := tinyMax) (m := a) (l := completeOther .structured b.data) (by omega)
    obtain ⟨a2, h2, n2⟩ := okay_extendMax (max := tinyMax) (m := a1) (l := completeRights E b.rights) (by omega)
    obtain ⟨a3, h3, n3⟩ := okay_extendMax (max := tinyMax) (m := a2) (l := completeOther .attachment b.attachments) (by omega)
    exact ⟨a, h, a1, h1, a2, h2, a3, h3⟩

theorem TransitionBuilder.set_nonce {b b' : TransitionBuilder} {x : Except BErr OpBuilder} (h : b.set x = .ok b') : b'.nonce = b.nonce := by
  obtain ⟨o, -, rfl⟩ := TransitionBuilder.set_ok.1 h; rfl

theorem TransitionBuilder.call_nonce {E : BEnv} {b b' : TransitionBuilder} {c : TCall} (h : b.call E c = .ok b') :
    b'.nonce = (c.nonce.map Prod.snd).getD b.nonce := by
  cases c with
  | setNonce n => cases h; rfl
  | addInput o st =>
    simp only [call, addInput, except_bind_ok] at h
    obtain ⟨m, -, h⟩ := h; cases h; rfl
  | addOwnedRaw ty sl st =>
    simp only [call, addOwnedRaw, except_bind_ok] at h
    obtain ⟨_, -, h⟩ := h; exact set_nonce h
  | addFungibleDefault det sl v bl =>
    simp only [call, addFungibleDefault, except_bind_ok] at h
    obtain ⟨n, -, h⟩ := h
    cases det with
    | true =>
      simp only [if_true, addFungibleDet, except_bind_ok] at h
      obtain ⟨_, -, _, -, h⟩ := h; exact set_nonce h
    | false => exact set_nonce h
  | addFungible => exact set_nonce h
  | addFungibleDet =>
    simp only [call, addFungibleDet, except_bind_ok] at h
    obtain ⟨_, -, _, -, h⟩ := h; exact set_nonce h
  | addFungibleRaw =>
    simp only [call, addFungibleRaw, except_bind_ok] at h
    obtain ⟨_, -, h⟩ := h; exact set_nonce h
  | addDataDefault =>
    simp only [call, addDataDefault, except_bind_ok] at h
    obtain ⟨_, -, h⟩ := h; exact set_nonce h
  | _ => exact set_nonce h

theorem ContractBuilder.set_header {b b' : ContractBuilder} {x : Except BErr OpBuilder} (h : b.set x = .ok b') :
    b'.issuer = b.issuer ∧ b'.testnet = b.testnet := by
  obtain ⟨o, -, rfl⟩ := ContractBuilder.set_ok.1 h; exact ⟨rfl, rfl⟩

theorem ContractBuilder.call_header {E : BEnv} {b b' : ContractBuilder} {c : CCall} (h : b.call E c = .ok b') :
    b'.issuer = b.issuer ∧ b'.testnet = (b.testnet && !decide (CCall.setMainnet = c)) := by
  have hset : ∀ {x : Except BErr OpBuilder}, b.set x = .ok b' → CCall.setMainnet ≠ c →
      b'.issuer = b.issuer ∧ b'.testnet = (b.testnet && !decide (CCall.setMainnet = c)) := by
    intro x hx hne
    obtain ⟨h1, h2⟩ := set_header hx
    exact ⟨h1, by rw [h2]; simp [hne]⟩
  cases c with
  | setMainnet => cases h; simp
  | addLiquid => cases h; simp
  | addFungible =>
    simp only [call, addFungible, except_bind_ok] at h
    obtain ⟨_, -, ⟨o, t⟩, -, h⟩ := h; exact hset h (by simp)
  | addFungibleDet =>
    simp only [call, addFungibleDet, except_bind_ok] at h
    obtain ⟨_, -, ⟨o, t⟩, -, h⟩ := h; exact hset h (by simp)
  | addAssetTag => exact hset h (by simp)
  | addMetadata => exact hset h (by simp)
  | addGlobal => exact hset h (by simp)
  | _ =>
    simp only [call, ContractBuilder.sealed, except_bind_ok] at h
    obtain ⟨_, -, h⟩ := h; exact hset h (by simp)

end Rgb
