import Verif.Lemmas.BuilderAccept
import Verif.Lemmas.Issue
import Verif.Lemmas.Spent

/-! How much room there is in a builder after calls. -/

namespace Rgb

theorem different_eq {α : Type} [DecidableEq α] : ∀ {l l' : List α}, l'.Nodup → (∀ x, x ∈ l' ↔ x ∈ l) → different l = l'.length := by
  intro l
  induction l with
  | nil =>
    intro l' _ h
    cases l' with
    | nil => rfl
    | cons a l' => exact absurd ((h a).1 List.mem_cons_self) (by simp)
  | cons a l ih =>
    intro l' hn h
    unfold different
    split
    · next ha =>
      refine ih hn (fun x => (h x).trans ?_)
      simp only [List.mem_cons]
      exact ⟨fun hx => hx.elim (fun e => e ▸ ha) id, Or.inr⟩
    · next ha =>
      have hal : a ∈ l' := (h a).2 List.mem_cons_self
      rw [ih (l' := l'.erase a) (hn.erase a) (fun x => by
        rw [hn.mem_erase_iff, h x, List.mem_cons]
        constructor
        · rintro ⟨h1, h2 | h2⟩
          · exact absurd h2 h1
          · exact h2
        · intro hx; exact ⟨fun e => ha (e ▸ hx), Or.inr hx⟩)]
      rw [List.length_erase_of_mem hal]
      have : 0 < l'.length := List.length_pos_of_mem hal
      omega

theorem length_eq_different {κ ν : Type} [Key κ] [DecidableEq κ] {m : OMap κ ν} (h : OMap.Sorted m) {l : List κ}
    (hk : ∀ k, OMap.contains m k = true ↔ k ∈ l) : m.length = different l := by
  rw [different_eq h.nodup (fun k => by rw [← hk]; unfold OMap.contains; exact OMap.get?_isSome_iff.symm)]
  simp [OMap.keys]

theorem mem_allFor {κ ν : Type} [DecidableEq κ] {k : κ} {v : ν} {l : List (κ × ν)} : v ∈ allFor k l ↔ (k, v) ∈ l := by
  unfold allFor
  simp only [List.mem_filterMap]
  constructor
  · rintro ⟨e, he, h⟩
    split at h
    · next hk => cases h; subst hk; exact he
    · cases h
  · intro h; exact ⟨_, h, by simp⟩

theorem ofKind_append (k : StateKind) (l l' : List ((Nat × BSeal) × RState)) : ofKind k (l ++ l') = ofKind k l ++ ofKind k l' := by
  simp [ofKind]

theorem ofKind_untag (k : StateKind) (l : List ((Nat × BSeal) × RState)) : ofKind k (l.map slotUntag) = ofKind k l := by
  unfold ofKind
  rw [List.filterMap_map]
  congr 1
  funext e
  simp [slotUntag, RState.kind_untag]

theorem ofKind_congr {l l' : List ((Nat × BSeal) × RState)} (h : l.map slotUntag = l'.map slotUntag) (k : StateKind) :
    ofKind k l = ofKind k l' := by
  rw [← ofKind_untag k l, h, ofKind_untag]

theorem PRun.find {a b : OpBuilder} {ps : List Prim} (r : PRun a ps b) (he : ∀ k, a.slots k = []) (k : StateKind) (ty : Nat) (sl : BSeal) :
    (Slots.find (b.slots k) ty sl).isSome = true ↔ (ty, sl) ∈ ofKind k (puts ps) := by
  induction r with
  | nil => rw [he]; simp [puts, ofKind, Slots.find]
  | snoc r s ih =>
    rw [puts_append, ofKind_append, List.mem_append, ← ih]
    cases s with
    | tag => cases k <;> simp [puts, ofKind, OpBuilder.slots]
    | md => cases k <;> simp [puts, ofKind, OpBuilder.slots]
    | glob => cases k <;> simp [puts, ofKind, OpBuilder.slots]
    | put ty' sl' st sch m hs ha ht hp =>
      rw [OpBuilder.slots_setSlots, show puts [Prim.put ty' sl' st] = [((ty', sl'), st)] from rfl]
      by_cases e : k = st.kind
      · subst e
        rw [if_pos rfl, (Slots.put_ok hp).1]
        simp only [ofKind, List.filterMap_cons, List.filterMap_nil, if_true, List.mem_singleton]
        split <;> simp_all
      · rw [if_neg e]
        simp [ofKind, Ne.symm e]

theorem Slots.contains_iff {m : Slots} (w : Slots.WF m) (ty : Nat) :
    OMap.contains m ty = true ↔ ∃ sl, (Slots.find m ty sl).isSome = true := by
  unfold OMap.contains Slots.find
  constructor
  · intro h
    obtain ⟨i, hi⟩ := Option.isSome_iff_exists.1 h
    obtain ⟨hs, hne⟩ := w.inner ty i hi
    obtain ⟨e, he⟩ := List.exists_mem_of_ne_nil _ hne
    exact ⟨e.1, by rw [hi]; simp [hs.get?_of_mem (k := e.1) (v := e.2) he]⟩
  · rintro ⟨sl, h⟩
    cases hg : OMap.get? m ty with
    | none => rw [hg] at h; cases h
    | some i => rfl

theorem PRun.slot_contains {a b : OpBuilder} {ps : List Prim} (r : PRun a ps b) (hi : a.Inv) (he : ∀ k, a.slots k = []) (k : StateKind)
    (ty : Nat) : OMap.contains (b.slots k) ty = true ↔ ty ∈ (ofKind k (puts ps)).map Prod.fst := by
  rw [Slots.contains_iff ((r.inv hi).wf k)]
  simp only [r.find he, List.mem_map, Prod.exists, exists_and_right, exists_eq_right]

theorem PRun.roomAt {a b : OpBuilder} {ps : List Prim} (r : PRun a ps b) (hi : a.Inv) (he : ∀ k, a.slots k = []) (k : StateKind) (ty : Nat) :
    (b.slots k).RoomAt ty ↔ RoomForState (ofKind k (puts ps)) ty := by
  have hc := r.slot_contains hi he k
  have hw := (r.inv hi).wf k
  unfold Slots.RoomAt RoomForState
  cases hg : OMap.get? (b.slots k) ty with
  | some i =>
    rw [if_pos ((hc ty).1 (by unfold OMap.contains; rw [hg]; rfl))]
    show i.length < smallMax ↔ _
    rw [length_eq_different (hw.inner ty i hg).1 (l := allFor ty (ofKind k (puts ps))) (fun sl => by
      rw [mem_allFor, ← r.find he]
      unfold OMap.contains Slots.find
      rw [hg]; rfl)]
    rfl
  | none =>
    rw [if_neg (fun h => by have := (hc ty).2 h; unfold OMap.contains at this; rw [hg] at this; cases this)]
    show (b.slots k).length < tinyMax ↔ _
    rw [length_eq_different hw.sorted hc]
    rfl

theorem PRun.globalRoomAt {a b : OpBuilder} {ps : List Prim} (r : PRun a ps b) (he : a.globals = []) (ty : Nat) :
    Rgb.globalRoomAt b.globals ty ↔ RoomForGlobal (globs ps) ty := by
  have hc : ∀ ty, OMap.contains b.globals ty = true ↔ ty ∈ (globs ps).map Prod.fst := by
    intro ty
    rw [r.globals_known ty, he]
    simp [OMap.contains]
  have hg := globals_empty r he rfl ty
  unfold Rgb.globalRoomAt RoomForGlobal
  cases h : OMap.get? b.globals ty with
  | some l =>
    rw [if_pos ((hc ty).1 (by unfold OMap.contains; rw [h]; rfl))]
    rw [h] at hg
    split at hg
    · cases hg
    · cases hg; rfl
  | none =>
    rw [if_neg (fun hh => by have := (hc ty).2 hh; unfold OMap.contains at this; rw [h] at this; cases this)]
    show b.globals.length < tinyMax ↔ _
    rw [length_eq_different (r.globalsSorted (by rw [he]; exact OMap.Sorted.nil)) hc]
    rfl

theorem PRun.mdSorted {a b : OpBuilder} {ps : List Prim} (r : PRun a ps b) (h : OMap.Sorted a.metadata) : OMap.Sorted b.metadata := by
  induction r with
  | nil => exact h
  | snoc _ s ih =>
    cases s with
    | tag => exact ih
    | glob => exact ih
    | put => rw [(OpBuilder.setSlots_rest _ _ _).2.2]; exact ih
    | md ty v => exact ih.insert _ _

theorem PRun.md_length {a b : OpBuilder} {ps : List Prim} (r : PRun a ps b) (he : a.metadata = []) :
    b.metadata.length = different ((mds ps).map Prod.fst) := by
  refine length_eq_different (r.mdSorted (by rw [he]; exact OMap.Sorted.nil)) (fun ty => ?_)
  rw [r.md_contains ty, he]
  simp [OMap.contains]

theorem PRun.tags_length {a b : OpBuilder} {ps : List Prim} (r : PRun a ps b) (he : a.tags = []) {l : List Nat}
    (hl : ∀ ty, OMap.contains b.tags ty = true ↔ ty ∈ l) : b.tags.length = different l :=
  length_eq_different (r.tagsSorted (by rw [he]; exact OMap.Sorted.nil) (by rw [he]; exact Nat.zero_le _)).1 hl

theorem inputs_length {κ ν : Type} [Key κ] [DecidableEq κ] (es : List (κ × ν)) :
    (OMap.extend [] es : OMap κ ν).length = different (es.map Prod.fst) := by
  refine length_eq_different (OMap.extend_nil_sorted es) (fun k => ?_)
  unfold OMap.contains
  rw [get?_extend, OMap.get?_nil, Option.or_none]
  rw [← Option.ne_none_iff_isSome, ne_eq, lastFor_none]
  simp only [List.mem_map, not_forall, Classical.not_not, exists_prop]

theorem contains_insert' {κ ν : Type} [Key κ] [DecidableEq κ] (m : OMap κ ν) (k k' : κ) (v : ν) :
    OMap.contains (OMap.insert m k v) k' = true ↔ OMap.contains m k' = true ∨ k = k' := by
  unfold OMap.contains
  by_cases e : k' = k
  · subst e; simp
  · rw [OMap.get?_insert_ne _ _ e]; simp [Ne.symm e]

theorem PStep.put_tags {a b : OpBuilder} {ty : Nat} {sl : BSeal} {st : RState} (s : PStep a (.put ty sl st) b) : b.tags = a.tags := by
  cases s with
  | put _ _ _ _ m => exact (OpBuilder.setSlots_rest _ _ _).1

theorem OpBuilder.initAssetTag_tags {b b' : OpBuilder} {name rand t : Nat} (h : b.initAssetTag name rand = .ok (b', t)) :
    ∃ ty, typeByName b.iimpl.assignments name = some ty ∧ ∀ x, OMap.contains b'.tags x = true ↔ OMap.contains b.tags x = true ∨ ty = x := by
  simp only [initAssetTag, except_bind_ok, typeOf_ok] at h
  obtain ⟨ty, h1, h⟩ := h
  refine ⟨ty, h1, fun x => ?_⟩
  cases hg : OMap.get? b.tags ty with
  | some t' =>
    rw [hg] at h; cases h
    refine ⟨Or.inl, ?_⟩
    rintro (h | rfl)
    · exact h
    · unfold OMap.contains; rw [hg]; rfl
  | none =>
    rw [hg] at h
    simp only [except_bind_ok, insertMax_ok] at h
    obtain ⟨m, ⟨-, rfl⟩, h⟩ := h
    cases h
    exact contains_insert' _ _ _ _

theorem ContractBuilder.call_tags {E : BEnv} {b b' : ContractBuilder} {c : CCall} (h : b.call E c = .ok b') (x : Nat) :
    OMap.contains b'.builder.tags x = true ↔
      OMap.contains b.builder.tags x = true ∨ x ∈ (c.tagFor b.builder.iimpl).toList.map Prod.fst := by
  have same : ∀ {o : OpBuilder}, o.tags = b.builder.tags → c.tagFor b.builder.iimpl = none →
      (OMap.contains o.tags x = true ↔ OMap.contains b.builder.tags x = true ∨ x ∈ (c.tagFor b.builder.iimpl).toList.map Prod.fst) := by
    intro o h1 h2; rw [h1, h2]; simp
  cases c with
  | setMainnet => cases h; simp [CCall.tagFor]
  | addLiquid => cases h; simp [CCall.tagFor]
  | addAssetTag name t =>
    simp only [call, set_ok] at h
    obtain ⟨o, h, rfl⟩ := h
    obtain ⟨ty, hn, s⟩ := OpBuilder.addAssetTag_step h
    cases s with
    | tag _ _ _ =>
      simp only [CCall.tagFor, hn, Option.map_some, Option.toList_some, List.map_cons, List.map_nil, List.mem_singleton]
      rw [contains_insert', @eq_comm _ ty x]
  | addMetadata name v =>
    simp only [call, set_ok] at h
    obtain ⟨o, h, rfl⟩ := h
    obtain ⟨ty, v, rfl, hn, s⟩ := OpBuilder.addMetadata_step h
    cases s; exact same rfl rfl
  | addGlobal name v =>
    simp only [call, set_ok] at h
    obtain ⟨o, h, rfl⟩ := h
    obtain ⟨ty, v, rfl, hn, s⟩ := OpBuilder.addGlobal_step h
    cases s; exact same rfl rfl
  | addOwnedDet name sl st =>
    simp only [call, sealed_ok] at h
    obtain ⟨hl, o, h, rfl⟩ := h
    obtain ⟨ty, hn, s⟩ := OpBuilder.addOwnedDet_step h
    exact same s.put_tags rfl
  | addRights name sl =>
    simp only [call, sealed_ok] at h
    obtain ⟨hl, o, h, rfl⟩ := h
    obtain ⟨ty, hn, s⟩ := OpBuilder.addRights_step h
    exact same s.put_tags rfl
  | addFungible name sl v bl rt =>
    simp only [call, addFungible, except_bind_ok, checkLayer1_ok, Prod.exists, set_ok] at h
    obtain ⟨_, hl, o, t, hi, o', h, rfl⟩ := h
    obtain ⟨ty, hn, ht⟩ := OpBuilder.initAssetTag_tags hi
    obtain ⟨ty', t', hn', s⟩ := OpBuilder.addFungible_step h
    simp only [CCall.tagFor, hn, Option.map_some, Option.toList_some, List.map_cons, List.map_nil, List.mem_singleton]
    rw [s.put_tags, ht, @eq_comm _ ty x]
  | addFungibleDet name sl v bl rt =>
    simp only [call, addFungibleDet, except_bind_ok, checkLayer1_ok, Prod.exists, set_ok] at h
    obtain ⟨_, hl, o, t, hi, o', h, rfl⟩ := h
    obtain ⟨ty, hn, ht⟩ := OpBuilder.initAssetTag_tags hi
    obtain ⟨ty0, ps, hn0, r, ht0, -⟩ := OpBuilder.initAssetTag_run hi
    rw [hn] at hn0; cases hn0
    have s := OpBuilder.addFungibleDet_step h (by rw [← r.sameDocs.2.2.1]; exact hn) ht0
    simp only [CCall.tagFor, hn, Option.map_some, Option.toList_some, List.map_cons, List.map_nil, List.mem_singleton]
    rw [s.put_tags, ht, @eq_comm _ ty x]
  | addData name sl v salt =>
    simp only [call, sealed_ok] at h
    obtain ⟨hl, o, h, rfl⟩ := h
    obtain ⟨ty, v, rfl, hn, s⟩ := OpBuilder.addData_step h
    exact same s.put_tags rfl
  | addDataDet name sl v salt =>
    simp only [call, sealed_ok] at h
    obtain ⟨hl, o, h, rfl⟩ := h
    obtain ⟨ty, hn, s⟩ := OpBuilder.addDataDet_step h
    exact same s.put_tags rfl
  | addAttachment det name sl f m salt =>
    simp only [call, sealed_ok] at h
    obtain ⟨hl, o, h, rfl⟩ := h
    obtain ⟨ty, hn, s⟩ := OpBuilder.addAttachment_step h
    exact same s.put_tags rfl

theorem ContractBuilder.calls_tags {E : BEnv} {cs : List CCall} : ∀ {b b' : ContractBuilder}, calls E cs b = .ok b' → ∀ x,
    (OMap.contains b'.builder.tags x = true ↔
      OMap.contains b.builder.tags x = true ∨ x ∈ (cs.filterMap (CCall.tagFor b.builder.iimpl)).map Prod.fst) := by
  induction cs with
  | nil => intro b b' h x; cases h; simp
  | cons c cs ih =>
    intro b b' h x
    simp only [calls, except_bind_ok] at h
    obtain ⟨b1, h1, h2⟩ := h
    obtain ⟨ps, d⟩ := call_did h1
    have hi : b1.builder.iimpl = b.builder.iimpl := d.run.sameDocs.2.2.1.symm
    rw [ih h2 x, call_tags h1 x, hi, or_assoc]
    refine or_congr_right ?_
    cases hc : c.tagFor b.builder.iimpl <;> simp [List.filterMap_cons, hc]

theorem ContractBuilder.new_slots (det : Bool) (issuer : Nat) (iface : Iface) (schema : Schema) (iimpl : IfaceImpl) (k : StateKind) :
    (ContractBuilder.new det issuer iface schema iimpl).builder.slots k = [] := by cases k <;> rfl

theorem TransitionBuilder.new_slots (det : Bool) (contract : Nat) (iface : Iface) (schema : Schema) (iimpl : IfaceImpl) (ty : Nat) (k : StateKind) :
    (TransitionBuilder.new det contract iface schema iimpl ty).builder.slots k = [] := by cases k <;> rfl

/-! ### Completion -/

theorem mem_types {l : List ((Nat × BSeal) × RState)} {ty : Nat} :
    ty ∈ l.map (fun e => e.1.1) ↔ ∃ k, ty ∈ (ofKind k l).map Prod.fst := by
  simp only [ofKind, List.mem_map, List.mem_filterMap]
  constructor
  · rintro ⟨e, he, rfl⟩; exact ⟨e.2.kind, e.1, ⟨e, he, by simp⟩, rfl⟩
  · rintro ⟨k, x, ⟨e, he, hx⟩, rfl⟩
    split at hx
    · cases hx; exact ⟨e, he, rfl⟩
    · cases hx

theorem types_congr {l l' : List ((Nat × BSeal) × RState)} (h : l.map slotUntag = l'.map slotUntag) :
    l.map (fun e => e.1.1) = l'.map (fun e => e.1.1) := by
  have := congrArg (List.map (fun e : (Nat × BSeal) × RState => e.1.1)) h
  rwa [List.map_map, List.map_map] at this

theorem PRun.total_eq {a b : OpBuilder} {ps : List Prim} (r : PRun a ps b) (hi : a.Inv) (he : ∀ k, a.slots k = []) :
    b.total = different ((puts ps).map (fun e => e.1.1)) := by
  have hib := r.inv hi
  have hk : ∀ k ty, ty ∈ OMap.keys (b.slots k) ↔ OMap.contains (b.slots k) ty = true := by
    intro k ty; unfold OMap.contains; exact OMap.get?_isSome_iff.symm
  have hdis : ∀ k k', k ≠ k' → ∀ ty ∈ OMap.keys (b.slots k), ty ∉ OMap.keys (b.slots k') := by
    intro k k' hne ty h1 h2
    obtain ⟨i, hi⟩ := OMap.contains_iff.1 ((hk k ty).1 h1)
    obtain ⟨i', hi'⟩ := OMap.contains_iff.1 ((hk k' ty).1 h2)
    exact hne (hib.disjoint hi hi')
  rw [different_eq (l' := [StateKind.fungible, .structured, .declarative, .attachment].flatMap (fun k => OMap.keys (b.slots k)))
    (nodup_flatMap (fun k _ => (hib.wf k).sorted.nodup) (by
        have : [StateKind.fungible, .structured, .declarative, .attachment].Pairwise (· ≠ ·) := by decide
        exact this.imp (fun hne => hdis _ _ hne)))
    (fun ty => by
      rw [mem_types, List.mem_flatMap]
      simp only [hk, r.slot_contains hi he]
      constructor
      · rintro ⟨k, -, h⟩; exact ⟨k, h⟩
      · rintro ⟨k, h⟩; exact ⟨k, by cases k <;> simp, h⟩)]
  simp only [List.flatMap_cons, List.flatMap_nil, List.length_append, OMap.keys, List.length_map, List.length_nil, OpBuilder.slots,
    OpBuilder.total]
  omega

theorem Slots.put_length_le {m m' : Slots} {ty : Nat} {sl : BSeal} {st : RState} (w : Slots.WF m) (hl : m.length ≤ tinyMax)
    (h : Slots.put m ty sl st = .ok m') : m'.length ≤ tinyMax := by
  unfold Slots.put at h
  cases hg : OMap.get? m ty with
  | some inner =>
    rw [hg] at h
    simp only [except_bind_ok, insertMax_ok] at h
    obtain ⟨i', ⟨-, rfl⟩, h⟩ := h
    cases h
    rw [OMap.length_insert_of_mem w.sorted hg]; exact hl
  | none =>
    rw [hg] at h
    simp only [insertMax_ok] at h
    obtain ⟨h1, rfl⟩ := h
    have := OMap.length_insert_le m ty [(sl, st)]
    omega

theorem PRun.slots_length {a b : OpBuilder} {ps : List Prim} (r : PRun a ps b) (hi : a.Inv) (he : ∀ k, a.slots k = []) (k : StateKind) :
    (b.slots k).length ≤ tinyMax := by
  induction r with
  | nil => rw [he]; exact Nat.zero_le _
  | snoc r s ih =>
    have hib := r.inv hi
    cases s with
    | tag => cases k <;> exact ih
    | md => cases k <;> exact ih
    | glob => cases k <;> exact ih
    | put ty' sl' st sch m hs ha ht hp =>
      rw [OpBuilder.slots_setSlots]
      split
      · next e => subst e; exact Slots.put_length_le (hib.wf _) ih hp
      · exact ih

theorem OpBuilder.extendMax_length {max : Nat} : ∀ {l : List (Nat × TypedAssigns)} {m m' : Assignments}, m.length ≤ max →
    extendMax max m l = .ok m' → m'.length ≤ max := by
  intro l
  induction l with
  | nil => intro m m' h h'; cases h'; exact h
  | cons e l ih =>
    intro m m' _ h'
    unfold extendMax at h'
    split at h'
    · cases h'
    · next hl =>
      refine ih ?_ h'
      have := OMap.length_insert_le m e.1 e.2
      omega

/-- A builder is completed exactly if the types with assignments aren't too many and inputs of types with amounts are amounts. -/
theorem PRun.complete_iff {E : BEnv} (hb : ∀ ins outs, E.balance ins outs ≠ none) {a b : OpBuilder} {ps : List Prim} (r : PRun a ps b)
    (hi : a.Inv) (he : ∀ k, a.slots k = []) {ins : List (Opout × RState)} :
    okay (b.complete E ins) ↔ different ((puts ps).map (fun e => e.1.1)) ≤ 255 ∧
      ∀ ty, OMap.contains b.fungible ty = true → ∀ e ∈ ins, e.1.ty = ty → e.2.isAmount = true := by
  have hib := r.inv hi
  rw [← r.total_eq hi he]
  constructor
  · intro h
    have ht : b.total ≤ 255 := by
      obtain ⟨as, h⟩ := h
      simp only [OpBuilder.complete, except_bind_ok] at h
      obtain ⟨a0, h0, a1, h1, a2, h2, h3⟩ := h
      have hk0 := (OpBuilder.completeAllFungible_ok h0).1
      have l0 : a0.length ≤ tinyMax := by
        have e : a0.length = b.fungible.length := by
          have := congrArg List.length hk0
          simpa [OMap.keys] using this
        rw [e]; exact r.slots_length hi he .fungible
      have l3 := OpBuilder.extendMax_length (OpBuilder.extendMax_length (OpBuilder.extendMax_length l0 h1) h2) h3
      have s0 : OMap.Sorted a0 := by
        have := (hib.wf .fungible).sorted
        unfold OMap.Sorted at this ⊢
        rw [hk0]; exact this
      have e1 := OpBuilder.extendMax_ok h1
      have e2 := OpBuilder.extendMax_ok h2
      have e3 := OpBuilder.extendMax_ok h3
      have s3 : OMap.Sorted as := by rw [e3, e2, e1]; exact ((s0.extend _).extend _).extend _
      have hm : ∀ ty, ty ∈ OMap.keys as ↔ ∃ k, ty ∈ OMap.keys (b.slots k) := by
        intro ty
        have km : ∀ (f : OMap BSeal RState → TypedAssigns) (m : Slots), (OMap.mapVals f m).map Prod.fst = OMap.keys m := by
          intro f m; simp [OMap.mapVals, OMap.keys]
        rw [e3, e2, e1]
        simp only [OMap.mem_keys_extend, OpBuilder.completeOther, OpBuilder.completeRights, km, hk0]
        constructor
        · rintro (((h | h) | h) | h)
          · exact ⟨.fungible, h⟩
          · exact ⟨.structured, h⟩
          · exact ⟨.declarative, h⟩
          · exact ⟨.attachment, h⟩
        · rintro ⟨k, h⟩
          cases k
          · exact Or.inl (Or.inr h)
          · exact Or.inl (Or.inl (Or.inl h))
          · exact Or.inl (Or.inl (Or.inr h))
          · exact Or.inr h
      have hlen : as.length = different ((puts ps).map (fun e => e.1.1)) := by
        refine length_eq_different s3 (fun ty => ?_)
        rw [mem_types]
        unfold OMap.contains
        rw [OMap.get?_isSome_iff, hm]
        refine exists_congr fun k => ?_
        rw [← r.slot_contains hi he]
        unfold OMap.contains
        exact OMap.get?_isSome_iff.symm
      rw [r.total_eq hi he, ← hlen]
      exact l3
    exact ⟨ht, (OpBuilder.okay_complete hb hib ht).1 h⟩
  · rintro ⟨ht, h⟩; exact (OpBuilder.okay_complete hb hib ht).2 h

end Rgb
