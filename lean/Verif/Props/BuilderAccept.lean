import Verif.Props.Builder
import Verif.Lemmas.BuilderRoom

/-!
# What the builders accept: C65

`CCall.Fits` and `TCall.Fits` say, of the schema, the interface implementation and the calls made before, what a call needs;
`CCall.HasRoom` and `TCall.HasRoom` say whether what it adds has place beside what was added before, in collections of limited size.
-/

namespace Rgb.Props

open Rgb

/-- **C65**, in part: a contract builder accepts a call exactly if it fits: the names are known, owned state is of the kind defined by
the schema, global state and metadata are of the type defined by it, the layer is declared, the tag is the one of the type and wasn't
used before, metadata isn't set twice; and if it has place. Missing: the type of owned data, see `C65_data_fails`. -/
theorem C65_contract_partial {E : BEnv} {det : Bool} {issuer : Nat} {iface : Iface} {schema : Schema} {iimpl : IfaceImpl} {cs : List CCall}
    {b : ContractBuilder} (h : ContractBuilder.calls E cs (.new det issuer iface schema iimpl) = .ok b) (c : CCall) :
    (∃ b', b.call E c = .ok b') ↔
      (∀ m, c.mode = some m → E.debug = true → det = m) ∧ c.Fits E.types schema iimpl (OMap.get? b.builder.tags) cs ∧ c.HasRoom iimpl cs := by
  obtain ⟨ps, d⟩ := ContractBuilder.calls_did h
  have hs : schema = b.builder.schema := d.run.sameDocs.1
  have hi : iimpl = b.builder.iimpl := d.run.sameDocs.2.2.1
  have hd : det = b.builder.det := d.run.sameDocs.2.2.2
  have hinv := ContractBuilder.new_inv det issuer iface schema iimpl
  have hR : ∀ k aty, (b.builder.slots k).RoomAt aty ↔ RoomForState (ofKind k (cs.filterMap (CCall.slot iimpl))) aty := by
    intro k aty
    rw [d.run.roomAt hinv (ContractBuilder.new_slots _ _ _ _ _), ofKind_congr d.puts]; rfl
  have hG : ∀ ty, globalRoomAt b.builder.globals ty ↔ RoomForGlobal (cs.filterMap (CCall.global iimpl)) ty := by
    intro ty; rw [d.run.globalRoomAt rfl, d.globs]; rfl
  have hM : b.builder.metadata.length < tinyMax ↔ different ((cs.filterMap (CCall.metadatum iimpl)).map Prod.fst) < 255 := by
    rw [d.run.md_length rfl, d.mds]; rfl
  have hTc : ∀ ty, OMap.contains b.builder.tags ty = true ↔ ty ∈ (cs.filterMap (CCall.tagFor iimpl)).map Prod.fst := by
    intro ty; rw [ContractBuilder.calls_tags h]; simp [ContractBuilder.new, OMap.contains]
  have hT : b.builder.tags.length < tinyMax ↔ different ((cs.filterMap (CCall.tagFor iimpl)).map Prod.fst) < 255 := by
    rw [d.run.tags_length rfl hTc]; rfl
  have room0 : ∀ {c : CCall}, c.global iimpl = none → c.metadatum iimpl = none → c.tagFor iimpl = none →
      (c.HasRoom iimpl cs ↔ ∀ e, c.slot iimpl = some e → RoomForState (ofKind e.2.kind (cs.filterMap (CCall.slot iimpl))) e.1.1) := by
    intro c h2 h3 h4
    refine ⟨fun h => h.state, fun h => ⟨h, fun e he => ?_, fun e he => ?_, fun ty auto he => ?_⟩⟩
    · rw [h2] at he; cases he
    · rw [h3] at he; cases he
    · rw [h4] at he; cases he
  have room1 : ∀ {c : CCall} {ty : Nat}, c.tagFor iimpl = some (ty, true) → c.global iimpl = none → c.metadatum iimpl = none →
      (c.HasRoom iimpl cs ↔ (∀ e, c.slot iimpl = some e → RoomForState (ofKind e.2.kind (cs.filterMap (CCall.slot iimpl))) e.1.1) ∧
        (ty ∈ (cs.filterMap (CCall.tagFor iimpl)).map Prod.fst ∨ different ((cs.filterMap (CCall.tagFor iimpl)).map Prod.fst) < 255)) := by
    intro c ty h4 h2 h3
    refine ⟨fun h => ⟨h.state, (h.tags _ _ h4).imp_left And.right⟩, fun h => ⟨h.1, fun e he => ?_, fun e he => ?_, fun ty auto he => ?_⟩⟩
    · rw [h2] at he; cases he
    · rw [h3] at he; cases he
    · rw [h4] at he; cases he; exact h.2.imp_left (fun h => ⟨rfl, h⟩)
  have hf : ∀ ty, OMap.contains b.builder.fungible ty = false ↔
      ¬ ∃ c ∈ cs, ∃ sl st, c.assigned iimpl = some (ty, sl, st) ∧ st.isAmount = true := by
    intro ty
    refine false_of_not_iff ((fungible_contains d.run (ContractBuilder.new_inv _ _ _ _ _) (ContractBuilder.new_found _ _ _ _ _) d.puts ty).trans ?_)
    simp only [List.mem_filterMap, CCall.slot, Option.map_eq_some_iff]
    constructor
    · rintro ⟨e, ⟨c, hc, ⟨ty', sl, st⟩, hx, rfl⟩, rfl, hk⟩; exact ⟨c, hc, sl, st, hx, hk⟩
    · rintro ⟨c, hc, sl, st, hx, hk⟩; exact ⟨((ty, sl), st), ⟨c, hc, (ty, sl, st), hx, rfl⟩, rfl, hk⟩
  have hm : ∀ ty, OMap.contains b.builder.metadata ty = false ↔ ¬ ∃ c ∈ cs, ∃ y, c.metadatum iimpl = some (ty, y) := by
    intro ty
    refine false_of_not_iff ((d.run.md_contains ty).trans ?_)
    rw [d.mds]
    simp only [List.mem_filterMap]
    constructor
    · rintro (hx | ⟨⟨ty', y⟩, ⟨c, hc, hx⟩, rfl⟩)
      · cases hx
      · exact ⟨c, hc, y, hx⟩
    · rintro ⟨c, hc, y, hx⟩; exact Or.inr ⟨(ty, y), ⟨c, hc, hx⟩, rfl⟩
  have hl : ∀ sl : BSeal, b.hasLayer1 sl.layer1 = true ↔ (sl.layer1 = .liquid → CCall.addLiquid ∈ cs) := by
    intro sl
    cases sl.layer1 with
    | bitcoin => simp [ContractBuilder.hasLayer1]
    | liquid => simp [ContractBuilder.hasLayer1, d.liquid, ContractBuilder.new]
  rw [show (∃ b', b.call E c = .ok b') ↔ okay (b.call E c) from Iff.rfl]
  cases c with
  | setMainnet =>
    simp only [ContractBuilder.call, CCall.mode, CCall.Fits]
    exact ⟨fun _ => ⟨by simp, trivial, ⟨by simp [CCall.slot, CCall.assigned], by simp [CCall.global], by simp [CCall.metadatum],
      by simp [CCall.tagFor]⟩⟩, fun _ => okay_ok _⟩
  | addLiquid =>
    simp only [ContractBuilder.call, CCall.mode, CCall.Fits]
    exact ⟨fun _ => ⟨by simp, trivial, ⟨by simp [CCall.slot, CCall.assigned], by simp [CCall.global], by simp [CCall.metadatum],
      by simp [CCall.tagFor]⟩⟩, fun _ => okay_ok _⟩
  | addAssetTag n t =>
    simp only [ContractBuilder.call, ContractBuilder.okay_set, OpBuilder.okay_addAssetTag, CCall.mode, CCall.Fits, hf, hT, ← hi]
    constructor
    · rintro ⟨ty, h1, h2, h3⟩
      refine ⟨by simp, ⟨ty, h1, h2⟩, ⟨by simp [CCall.slot, CCall.assigned], by simp [CCall.global], by simp [CCall.metadatum], ?_⟩⟩
      intro _ _ _; exact Or.inr h3
    · rintro ⟨-, ⟨ty, h1, h2⟩, hr⟩
      refine ⟨ty, h1, h2, ?_⟩
      rcases hr.tags ty false (by simp [CCall.tagFor, h1]) with h | h
      · cases h.1
      · exact h
  | addMetadata n v =>
    simp only [ContractBuilder.call, ContractBuilder.okay_set, OpBuilder.okay_addMetadata, CCall.mode, CCall.Fits, hm, hM, ← hi, ← hs]
    constructor
    · rintro ⟨h1, h2⟩
      exact ⟨by simp, h1, ⟨by simp [CCall.slot, CCall.assigned], by simp [CCall.global], fun _ _ => h2, by simp [CCall.tagFor]⟩⟩
    · rintro ⟨-, ⟨x, ty, sem, rfl, h1, h2⟩, hr⟩
      exact ⟨⟨x, ty, sem, rfl, h1, h2⟩, hr.metadata (ty, x) (by simp [CCall.metadatum, h1])⟩
  | addGlobal n v =>
    simp only [ContractBuilder.call, ContractBuilder.okay_set, OpBuilder.okay_addGlobal, CCall.mode, CCall.Fits, hG, ← hi, ← hs]
    constructor
    · rintro ⟨x, ty, sem, max, rfl, h1, h2, h3, h4⟩
      refine ⟨by simp, ⟨x, ty, sem, max, rfl, h1, h2, h3⟩, ⟨by simp [CCall.slot, CCall.assigned], ?_, by simp [CCall.metadatum], by simp [CCall.tagFor]⟩⟩
      intro e he
      simp only [CCall.global, Option.bind_some, h1, Option.map_some, Option.some.injEq] at he
      subst he; exact h4
    · rintro ⟨-, ⟨x, ty, sem, max, rfl, h1, h2, h3⟩, hr⟩
      exact ⟨x, ty, sem, max, rfl, h1, h2, h3, hr.global (ty, x) (by simp [CCall.global, h1])⟩
  | addOwnedDet n sl st =>
    simp only [ContractBuilder.call, ContractBuilder.okay_sealed, OpBuilder.okay_addOwnedDet, hl, hR, ← hi, ← hs, ← hd]
    cases st <;>
      (simp only [CCall.mode, CCall.Fits, CCall.assigned, Option.some.injEq, forall_eq', Option.map_eq_some_iff, Prod.mk.injEq]
       constructor)
    all_goals first
      | (rintro ⟨h1, h2, ty, h3, h4, h5, hr⟩
         exact ⟨h2, ⟨ty, sl, _, ⟨ty, h3, rfl, rfl, rfl⟩, h4, h1⟩, (room0 rfl rfl rfl).2 (by intro e he; simp only [CCall.slot, CCall.assigned, h3, Option.map_some, Option.bind_some, Option.some.injEq] at he; subst he; exact hr)⟩)
      | (rintro ⟨h2, ⟨ty, sl', st', ⟨ty', h3, rfl, rfl, rfl⟩, h4, h1⟩, hr⟩
         exact ⟨h1, h2, ty', h3, h4, (fun _ _ _ hx => by cases hx), (by have q := (room0 rfl rfl rfl).1 hr; simp only [CCall.slot, CCall.assigned, h3, Option.map_some, Option.bind_some, Option.some.injEq, forall_eq'] at q; exact q)⟩)
      | (rintro ⟨h1, h2, ty, h3, h4, h5, hr⟩
         exact ⟨h2, ⟨ty, h3, h4, h5 _ _ _ rfl, h1⟩, (room0 rfl rfl rfl).2 (by intro e he; simp only [CCall.slot, CCall.assigned, h3, Option.map_some, Option.bind_some, Option.some.injEq] at he; subst he; exact hr)⟩)
      | (rintro ⟨h2, ⟨ty, h3, h4, h5, h1⟩, hr⟩
         exact ⟨h1, h2, ty, h3, h4, (fun _ _ _ hx => by cases hx; exact h5), (by have q := (room0 rfl rfl rfl).1 hr; simp only [CCall.slot, CCall.assigned, h3, Option.map_some, Option.bind_some, Option.some.injEq, forall_eq'] at q; exact q)⟩)
  | addRights n sl =>
    simp only [ContractBuilder.call, ContractBuilder.okay_sealed, OpBuilder.okay_addRights, hl, hR, ← hi, ← hs, ← hd]
    simp only [CCall.mode, CCall.Fits, CCall.assigned, Option.map_eq_some_iff, Prod.mk.injEq]
    constructor
    · rintro ⟨h1, ty, h3, h4, hr⟩
      exact ⟨by simp, ⟨ty, sl, _, ⟨ty, h3, rfl, rfl, rfl⟩, h4, h1⟩, (room0 rfl rfl rfl).2 (by intro e he; simp only [CCall.slot, CCall.assigned, h3, Option.map_some, Option.bind_some, Option.some.injEq] at he; subst he; exact hr)⟩
    · rintro ⟨-, ⟨ty, sl', st', ⟨ty', h3, rfl, rfl, rfl⟩, h4, h1⟩, hr⟩
      exact ⟨h1, ty', h3, h4, (by have q := (room0 rfl rfl rfl).1 hr; simp only [CCall.slot, CCall.assigned, h3, Option.map_some, Option.bind_some, Option.some.injEq, forall_eq'] at q; exact q)⟩
  | addFungible n sl v bl r =>
    simp only [ContractBuilder.call, ContractBuilder.okay_addFungible, hl, hR, hTc, hT, ← hi, ← hs, ← hd]
    simp only [CCall.mode, CCall.Fits, CCall.assigned, Option.some.injEq, forall_eq', Option.map_eq_some_iff, Prod.mk.injEq]
    constructor
    · rintro ⟨h1, h2, ty, h3, h4, hr⟩
      exact ⟨h2, ⟨ty, sl, _, ⟨ty, h3, rfl, rfl, rfl⟩, h4, h1⟩, (room1 (by simp only [CCall.tagFor, h3, Option.map_some]) rfl rfl).2 ⟨by intro e he; simp only [CCall.slot, CCall.assigned, h3, Option.map_some, Option.some.injEq] at he; subst he; exact hr.1, hr.2⟩⟩
    · rintro ⟨h2, ⟨ty, sl', st', ⟨ty', h3, rfl, rfl, rfl⟩, h4, h1⟩, hr⟩
      exact ⟨h1, h2, ty', h3, h4, ((room1 (by simp only [CCall.tagFor, h3, Option.map_some]) rfl rfl).1 hr).imp_left (fun q => by simp only [CCall.slot, CCall.assigned, h3, Option.map_some, Option.some.injEq, forall_eq'] at q; exact q)⟩
  | addFungibleDet n sl v bl r =>
    simp only [ContractBuilder.call, ContractBuilder.okay_addFungibleDet, hl, hR, hTc, hT, ← hi, ← hs, ← hd]
    simp only [CCall.mode, CCall.Fits, CCall.assigned, Option.some.injEq, forall_eq', Option.map_eq_some_iff, Prod.mk.injEq]
    constructor
    · rintro ⟨h1, h2, ty, h3, h4, hr⟩
      exact ⟨h2, ⟨ty, sl, _, ⟨ty, h3, rfl, rfl, rfl⟩, h4, h1⟩, (room1 (by simp only [CCall.tagFor, h3, Option.map_some]) rfl rfl).2 ⟨by intro e he; simp only [CCall.slot, CCall.assigned, h3, Option.map_some, Option.some.injEq] at he; subst he; exact hr.1, hr.2⟩⟩
    · rintro ⟨h2, ⟨ty, sl', st', ⟨ty', h3, rfl, rfl, rfl⟩, h4, h1⟩, hr⟩
      exact ⟨h1, h2, ty', h3, h4, ((room1 (by simp only [CCall.tagFor, h3, Option.map_some]) rfl rfl).1 hr).imp_left (fun q => by simp only [CCall.slot, CCall.assigned, h3, Option.map_some, Option.some.injEq, forall_eq'] at q; exact q)⟩
  | addData n sl v salt =>
    simp only [ContractBuilder.call, ContractBuilder.okay_sealed, OpBuilder.okay_addData, hl, hR, ← hi, ← hs, ← hd]
    simp only [CCall.mode, CCall.Fits, CCall.assigned, Option.some.injEq, forall_eq', Option.bind_eq_some_iff, Option.map_eq_some_iff,
      Prod.mk.injEq]
    constructor
    · rintro ⟨h1, h2, x, ty, rfl, h3, h4, hr⟩
      exact ⟨h2, ⟨ty, sl, _, ⟨x, rfl, ty, h3, rfl, rfl, rfl⟩, h4, h1⟩, (room0 rfl rfl rfl).2 (by intro e he; simp only [CCall.slot, CCall.assigned, h3, Option.map_some, Option.bind_some, Option.some.injEq] at he; subst he; exact hr)⟩
    · rintro ⟨h2, ⟨ty, sl', st', ⟨x, rfl, ty', h3, rfl, rfl, rfl⟩, h4, h1⟩, hr⟩
      exact ⟨h1, h2, x, ty', rfl, h3, h4, (by have q := (room0 rfl rfl rfl).1 hr; simp only [CCall.slot, CCall.assigned, h3, Option.map_some, Option.bind_some, Option.some.injEq, forall_eq'] at q; exact q)⟩
  | addDataDet n sl v salt =>
    simp only [ContractBuilder.call, ContractBuilder.okay_sealed, OpBuilder.okay_addDataDet, hl, hR, ← hi, ← hs, ← hd]
    simp only [CCall.mode, CCall.Fits, CCall.assigned, Option.some.injEq, forall_eq', Option.map_eq_some_iff, Prod.mk.injEq]
    constructor
    · rintro ⟨h1, h2, ty, h3, h4, hr⟩
      exact ⟨h2, ⟨ty, sl, _, ⟨ty, h3, rfl, rfl, rfl⟩, h4, h1⟩, (room0 rfl rfl rfl).2 (by intro e he; simp only [CCall.slot, CCall.assigned, h3, Option.map_some, Option.bind_some, Option.some.injEq] at he; subst he; exact hr)⟩
    · rintro ⟨h2, ⟨ty, sl', st', ⟨ty', h3, rfl, rfl, rfl⟩, h4, h1⟩, hr⟩
      exact ⟨h1, h2, ty', h3, h4, (by have q := (room0 rfl rfl rfl).1 hr; simp only [CCall.slot, CCall.assigned, h3, Option.map_some, Option.bind_some, Option.some.injEq, forall_eq'] at q; exact q)⟩
  | addAttachment dt n sl f m salt =>
    simp only [ContractBuilder.call, ContractBuilder.okay_sealed, OpBuilder.okay_addAttachment, hl, hR, ← hi, ← hs, ← hd]
    simp only [CCall.mode, CCall.Fits, CCall.assigned, Option.some.injEq, forall_eq', Option.map_eq_some_iff, Prod.mk.injEq]
    constructor
    · rintro ⟨h1, h2, ty, h3, h4, hr⟩
      exact ⟨h2, ⟨ty, sl, _, ⟨ty, h3, rfl, rfl, rfl⟩, h4, h1⟩, (room0 rfl rfl rfl).2 (by intro e he; simp only [CCall.slot, CCall.assigned, h3, Option.map_some, Option.bind_some, Option.some.injEq] at he; subst he; exact hr)⟩
    · rintro ⟨h2, ⟨ty, sl', st', ⟨ty', h3, rfl, rfl, rfl⟩, h4, h1⟩, hr⟩
      exact ⟨h1, h2, ty', h3, h4, (by have q := (room0 rfl rfl rfl).1 hr; simp only [CCall.slot, CCall.assigned, h3, Option.map_some, Option.bind_some, Option.some.injEq, forall_eq'] at q; exact q)⟩

/-- **C65**, in part: a transition builder accepts a call exactly if it fits and has place. Missing: the type of owned data. -/
theorem C65_transition_partial {E : BEnv} {det : Bool} {contract ty : Nat} {iface : Iface} {schema : Schema} {iimpl : IfaceImpl} {cs : List TCall}
    {b : TransitionBuilder} (h : TransitionBuilder.calls E cs (.new det contract iface schema iimpl ty) = .ok b) (c : TCall) :
    (∃ b', b.call E c = .ok b') ↔
      (∀ m, c.mode = some m → E.debug = true → det = m) ∧ c.Fits E.types schema iimpl (defaultName iface iimpl ty) cs ∧
        c.HasRoom iimpl (defaultName iface iimpl ty) cs := by
  obtain ⟨ps, d⟩ := TransitionBuilder.calls_did h
  have hs : schema = b.builder.schema := d.run.sameDocs.1
  have hif : iface = b.builder.iface := d.run.sameDocs.2.1
  have hi : iimpl = b.builder.iimpl := d.run.sameDocs.2.2.1
  have hd : det = b.builder.det := d.run.sameDocs.2.2.2
  have hty : b.ty = ty := d.same.2
  have hinv := TransitionBuilder.new_inv det contract iface schema iimpl ty
  have hR : ∀ k aty, (b.builder.slots k).RoomAt aty ↔
      RoomForState (ofKind k (cs.filterMap (TCall.slot iimpl (defaultName iface iimpl ty)))) aty := by
    intro k aty
    rw [d.run.roomAt hinv (TransitionBuilder.new_slots _ _ _ _ _ _), ofKind_congr d.puts]; rfl
  have hG : ∀ ty, globalRoomAt b.builder.globals ty ↔ RoomForGlobal (cs.filterMap (TCall.global iimpl)) ty := by
    intro ty; rw [d.run.globalRoomAt rfl, d.globs]; rfl
  have hM : b.builder.metadata.length < tinyMax ↔ different ((cs.filterMap (TCall.metadatum iimpl)).map Prod.fst) < 255 := by
    rw [d.run.md_length rfl, d.mds]; rfl
  have hin : b.inputs.length < tinyMax ↔ different ((cs.filterMap TCall.input).map Prod.fst) < 255 := by
    rw [d.inputs]; exact (by rw [show (TransitionBuilder.new det contract iface schema iimpl ty).inputs = [] from rfl, inputs_length]; rfl)
  have htag : ∀ ty, OMap.get? b.builder.tags ty = lastFor ty (cs.filterMap (TCall.tagged iimpl)) := by
    intro ty
    rw [d.run.tags, d.tags]
    simp [TransitionBuilder.new]
  have hT : b.builder.tags.length < tinyMax ↔ different ((cs.filterMap (TCall.tagged iimpl)).map Prod.fst) < 255 := by
    rw [d.run.tags_length rfl (l := (cs.filterMap (TCall.tagged iimpl)).map Prod.fst) (fun ty => by
      unfold OMap.contains
      rw [htag, ← Option.ne_none_iff_isSome, ne_eq, lastFor_none]
      simp only [List.mem_map, not_forall, Classical.not_not, exists_prop])]
    rfl
  have room0 : ∀ {c : TCall}, c.global iimpl = none → c.metadatum iimpl = none → c.tagged iimpl = none → c.input = none →
      (c.HasRoom iimpl (defaultName iface iimpl ty) cs ↔ ∀ e, c.slot iimpl (defaultName iface iimpl ty) = some e →
        RoomForState (ofKind e.2.kind (cs.filterMap (TCall.slot iimpl (defaultName iface iimpl ty)))) e.1.1) := by
    intro c h2 h3 h4 h5
    refine ⟨fun h => h.state, fun h => ⟨h, fun e he => ?_, fun e he => ?_, fun e he => ?_, fun e he => ?_⟩⟩
    · rw [h2] at he; cases he
    · rw [h3] at he; cases he
    · rw [h4] at he; cases he
    · rw [h5] at he; cases he
  have hf : ∀ aty, OMap.contains b.builder.fungible aty = false ↔
      ¬ ∃ c ∈ cs, ∃ sl st, c.assigned iimpl (defaultName iface iimpl ty) = some (aty, sl, st) ∧ st.isAmount = true := by
    intro aty
    refine false_of_not_iff ((fungible_contains d.run (TransitionBuilder.new_inv _ _ _ _ _ _) (TransitionBuilder.new_found _ _ _ _ _ _) d.puts
      aty).trans ?_)
    simp only [List.mem_filterMap, TCall.slot, Option.map_eq_some_iff]
    constructor
    · rintro ⟨e, ⟨c, hc, ⟨ty', sl, st⟩, hx, rfl⟩, rfl, hk⟩; exact ⟨c, hc, sl, st, hx, hk⟩
    · rintro ⟨c, hc, sl, st, hx, hk⟩; exact ⟨((aty, sl), st), ⟨c, hc, (aty, sl, st), hx, rfl⟩, rfl, hk⟩
  have hm : ∀ ty, OMap.contains b.builder.metadata ty = false ↔ ¬ ∃ c ∈ cs, ∃ y, c.metadatum iimpl = some (ty, y) := by
    intro ty
    refine false_of_not_iff ((d.run.md_contains ty).trans ?_)
    rw [d.mds]
    simp only [List.mem_filterMap]
    constructor
    · rintro (hx | ⟨⟨ty', y⟩, ⟨c, hc, hx⟩, rfl⟩)
      · cases hx
      · exact ⟨c, hc, y, hx⟩
    · rintro ⟨c, hc, y, hx⟩; exact Or.inr ⟨(ty, y), ⟨c, hc, hx⟩, rfl⟩
  have hdef : ∀ n, b.defaultAssignment = .ok n ↔ defaultName iface iimpl ty = some n := by
    intro n
    rw [TransitionBuilder.defaultAssignment_ok, ← hif, ← hi, hty]
  rw [show (∃ b', b.call E c = .ok b') ↔ okay (b.call E c) from Iff.rfl]
  cases c with
  | setNonce =>
    simp only [TransitionBuilder.call, TCall.mode, TCall.Fits]
    exact ⟨fun _ => ⟨by simp, trivial, ⟨by simp [TCall.slot, TCall.assigned], by simp [TCall.global], by simp [TCall.metadatum],
      by simp [TCall.tagged], by simp [TCall.input]⟩⟩, fun _ => okay_ok _⟩
  | addInput o st =>
    simp only [TransitionBuilder.call, TransitionBuilder.addInput, okay_bind, insertMax_ok, TCall.mode, TCall.Fits, hin]
    constructor
    · rintro ⟨_, ⟨h1, -⟩, -⟩
      exact ⟨by simp, trivial, ⟨by simp [TCall.slot, TCall.assigned], by simp [TCall.global], by simp [TCall.metadatum],
        by simp [TCall.tagged], fun _ _ => h1⟩⟩
    · rintro ⟨-, -, hr⟩
      exact ⟨_, ⟨hr.inputs (o, st) rfl, rfl⟩, okay_ok _⟩
  | addAssetTag n t =>
    simp only [TransitionBuilder.call, TransitionBuilder.okay_set, OpBuilder.okay_addAssetTag, TCall.mode, TCall.Fits, hf, hT, ← hi]
    constructor
    · rintro ⟨ty, h1, h2, h3⟩
      exact ⟨by simp, ⟨ty, h1, h2⟩, ⟨by simp [TCall.slot, TCall.assigned], by simp [TCall.global], by simp [TCall.metadatum],
        fun _ _ => h3, by simp [TCall.input]⟩⟩
    · rintro ⟨-, ⟨ty, h1, h2⟩, hr⟩
      exact ⟨ty, h1, h2, hr.tags (ty, t) (by simp [TCall.tagged, h1])⟩
  | addAssetTagRaw n t =>
    simp only [TransitionBuilder.call, TransitionBuilder.okay_set, OpBuilder.okay_addAssetTagRaw, TCall.mode, TCall.Fits, hf, hT]
    constructor
    · rintro ⟨h2, h3⟩
      exact ⟨by simp, h2, ⟨by simp [TCall.slot, TCall.assigned], by simp [TCall.global], by simp [TCall.metadatum],
        fun _ _ => h3, by simp [TCall.input]⟩⟩
    · rintro ⟨-, h2, hr⟩
      exact ⟨h2, hr.tags (n, t) rfl⟩
  | addMetadata n v =>
    simp only [TransitionBuilder.call, TransitionBuilder.okay_set, OpBuilder.okay_addMetadata, TCall.mode, TCall.Fits, hm, hM, ← hi, ← hs]
    constructor
    · rintro ⟨h1, h2⟩
      exact ⟨by simp, h1, ⟨by simp [TCall.slot, TCall.assigned], by simp [TCall.global], fun _ _ => h2, by simp [TCall.tagged],
        by simp [TCall.input]⟩⟩
    · rintro ⟨-, ⟨x, ty, sem, rfl, h1, h2⟩, hr⟩
      exact ⟨⟨x, ty, sem, rfl, h1, h2⟩, hr.metadata (ty, x) (by simp [TCall.metadatum, h1])⟩
  | addGlobal n v =>
    simp only [TransitionBuilder.call, TransitionBuilder.okay_set, OpBuilder.okay_addGlobal, TCall.mode, TCall.Fits, hG, ← hi, ← hs]
    constructor
    · rintro ⟨x, ty, sem, max, rfl, h1, h2, h3, h4⟩
      refine ⟨by simp, ⟨x, ty, sem, max, rfl, h1, h2, h3⟩, ⟨by simp [TCall.slot, TCall.assigned], ?_, by simp [TCall.metadatum],
        by simp [TCall.tagged], by simp [TCall.input]⟩⟩
      intro e he
      simp only [TCall.global, Option.bind_some, h1, Option.map_some, Option.some.injEq] at he
      subst he; exact h4
    · rintro ⟨-, ⟨x, ty, sem, max, rfl, h1, h2, h3⟩, hr⟩
      exact ⟨x, ty, sem, max, rfl, h1, h2, h3, hr.global (ty, x) (by simp [TCall.global, h1])⟩
  | addOwnedDet n sl st =>
    simp only [TransitionBuilder.call, TransitionBuilder.okay_set, OpBuilder.okay_addOwnedDet, hR, ← hi, ← hs, ← hd, htag]
    cases st <;>
      (simp only [TCall.mode, TCall.Fits, TCall.assigned, Option.some.injEq, forall_eq', Option.map_eq_some_iff, Prod.mk.injEq]
       constructor)
    all_goals first
      | (rintro ⟨h2, ty, h3, h4, h5, hr⟩
         exact ⟨h2, ⟨ty, sl, _, ⟨ty, h3, rfl, rfl, rfl⟩, h4, fun hx => by cases hx⟩, (room0 rfl rfl rfl rfl).2 (by intro e he; simp only [TCall.slot, TCall.assigned, h3, Option.map_some, Option.some.injEq] at he; subst he; exact hr)⟩)
      | (rintro ⟨h2, ⟨ty, sl', st', ⟨ty', h3, rfl, rfl, rfl⟩, h4, h1⟩, hr⟩
         exact ⟨h2, ty', h3, h4, (fun _ _ _ hx => by cases hx), (by have q := (room0 rfl rfl rfl rfl).1 hr; simp only [TCall.slot, TCall.assigned, h3, Option.map_some, Option.some.injEq, forall_eq'] at q; exact q)⟩)
      | (rintro ⟨h2, ty, h3, h4, h5, hr⟩; exact ⟨h2, ⟨ty, h3, h4, h5 _ _ _ rfl⟩, (room0 rfl rfl rfl rfl).2 (by intro e he; simp only [TCall.slot, TCall.assigned, h3, Option.map_some, Option.some.injEq] at he; subst he; exact hr)⟩)
      | (rintro ⟨h2, ⟨ty, h3, h4, h5⟩, hr⟩; exact ⟨h2, ty, h3, h4, (fun _ _ _ hx => by cases hx; exact h5), (by have q := (room0 rfl rfl rfl rfl).1 hr; simp only [TCall.slot, TCall.assigned, h3, Option.map_some, Option.some.injEq, forall_eq'] at q; exact q)⟩)
  | addOwnedRaw aty sl st =>
    simp only [TransitionBuilder.call, TransitionBuilder.okay_addOwnedRaw, hR, ← hs, htag]
    cases st <;>
      (simp only [TCall.mode, TCall.Fits, TCall.assigned, Option.some.injEq, Prod.mk.injEq]
       constructor)
    all_goals first
      | (rintro ⟨h4, h5, hr⟩; exact ⟨by simp, ⟨aty, sl, _, ⟨rfl, rfl, rfl⟩, h4, fun hx => by cases hx⟩, (room0 rfl rfl rfl rfl).2 (by intro e he; simp only [TCall.slot, TCall.assigned, Option.map_some, Option.some.injEq] at he; subst he; exact hr)⟩)
      | (rintro ⟨-, ⟨ty, sl', st', ⟨rfl, rfl, rfl⟩, h4, h1⟩, hr⟩; exact ⟨h4, (fun _ _ _ hx => by cases hx), (by have q := (room0 rfl rfl rfl rfl).1 hr; simp only [TCall.slot, TCall.assigned, Option.map_some, Option.some.injEq, forall_eq'] at q; exact q)⟩)
      | (rintro ⟨h4, h5, hr⟩; exact ⟨by simp, ⟨h4, h5 _ _ _ rfl⟩, (room0 rfl rfl rfl rfl).2 (by intro e he; simp only [TCall.slot, TCall.assigned, Option.map_some, Option.some.injEq] at he; subst he; exact hr)⟩)
      | (rintro ⟨-, ⟨h4, h5⟩, hr⟩; exact ⟨h4, (fun _ _ _ hx => by cases hx; exact h5), (by have q := (room0 rfl rfl rfl rfl).1 hr; simp only [TCall.slot, TCall.assigned, Option.map_some, Option.some.injEq, forall_eq'] at q; exact q)⟩)
  | addRights n sl =>
    simp only [TransitionBuilder.call, TransitionBuilder.okay_set, OpBuilder.okay_addRights, hR, ← hi, ← hs]
    simp only [TCall.mode, TCall.Fits, TCall.assigned, Option.map_eq_some_iff, Prod.mk.injEq]
    constructor
    · rintro ⟨ty, h3, h4, hr⟩; exact ⟨by simp, ⟨ty, sl, _, ⟨ty, h3, rfl, rfl, rfl⟩, h4, fun hx => by cases hx⟩, (room0 rfl rfl rfl rfl).2 (by intro e he; simp only [TCall.slot, TCall.assigned, h3, Option.map_some, Option.some.injEq] at he; subst he; exact hr)⟩
    · rintro ⟨-, ⟨ty, sl', st', ⟨ty', h3, rfl, rfl, rfl⟩, h4, h1⟩, hr⟩; exact ⟨ty', h3, h4, (by have q := (room0 rfl rfl rfl rfl).1 hr; simp only [TCall.slot, TCall.assigned, h3, Option.map_some, Option.some.injEq, forall_eq'] at q; exact q)⟩
  | addFungibleDefault dt sl v bl =>
    simp only [TransitionBuilder.call, TransitionBuilder.addFungibleDefault, okay_bind, hdef]
    simp only [TCall.mode, TCall.Fits, TCall.assigned, Option.some.injEq, forall_eq', Option.map_eq_some_iff, Option.bind_eq_some_iff,
      Prod.mk.injEq]
    constructor
    · rintro ⟨n, hn, h1⟩
      have h2 : (E.debug = true → det = dt) ∧ ∃ aty, typeByName iimpl.assignments n = some aty ∧
          schema.Owns aty (.fungible v bl 0) ∧ lastFor aty (cs.filterMap (TCall.tagged iimpl)) ≠ none ∧
          RoomForState (ofKind .fungible (cs.filterMap (TCall.slot iimpl (defaultName iface iimpl ty)))) aty := by
        cases dt with
        | true => simpa only [if_true, TransitionBuilder.okay_addFungibleDet, hR, ← hi, ← hs, ← hd, htag] using h1
        | false =>
          simpa only [Bool.false_eq_true, if_false, TransitionBuilder.addFungible, TransitionBuilder.okay_set, OpBuilder.okay_addFungible,
            hR, ← hi, ← hs, ← hd, htag] using h1
      obtain ⟨h2, ty, h3, h4, h5, hr⟩ := h2
      exact ⟨h2, ⟨ty, sl, _, ⟨ty, ⟨n, hn, h3⟩, rfl, rfl, rfl⟩, h4, fun _ => h5⟩, (room0 rfl rfl rfl rfl).2 (by intro e he; simp only [TCall.slot, TCall.assigned, hn, h3, Option.map_some, Option.bind_some, Option.some.injEq] at he; subst he; exact hr)⟩
    · rintro ⟨h2, ⟨aty, sl', st', ⟨ty', ⟨n, hn, h3⟩, rfl, rfl, rfl⟩, h4, h5⟩, hr⟩
      refine ⟨n, hn, ?_⟩
      have h6 : (E.debug = true → det = dt) ∧ ∃ aty, typeByName iimpl.assignments n = some aty ∧
          schema.Owns aty (.fungible v bl 0) ∧ lastFor aty (cs.filterMap (TCall.tagged iimpl)) ≠ none ∧
          RoomForState (ofKind .fungible (cs.filterMap (TCall.slot iimpl (defaultName iface iimpl ty)))) aty :=
        ⟨h2, ty', h3, h4, h5 rfl, (by have q := (room0 rfl rfl rfl rfl).1 hr; simp only [TCall.slot, TCall.assigned, hn, h3, Option.map_some, Option.bind_some, Option.some.injEq, forall_eq'] at q; rw [hn]; exact q)⟩
      cases dt with
      | true => simpa only [if_true, TransitionBuilder.okay_addFungibleDet, hR, ← hi, ← hs, ← hd, htag] using h6
      | false =>
        simpa only [Bool.false_eq_true, if_false, TransitionBuilder.addFungible, TransitionBuilder.okay_set, OpBuilder.okay_addFungible,
          hR, ← hi, ← hs, ← hd, htag] using h6
  | addFungible n sl v bl =>
    simp only [TransitionBuilder.call, TransitionBuilder.addFungible, TransitionBuilder.okay_set, OpBuilder.okay_addFungible, hR, ← hi, ← hs,
      ← hd, htag]
    simp only [TCall.mode, TCall.Fits, TCall.assigned, Option.some.injEq, forall_eq', Option.map_eq_some_iff, Prod.mk.injEq]
    constructor
    · rintro ⟨h2, ty, h3, h4, h5, hr⟩; exact ⟨h2, ⟨ty, sl, _, ⟨ty, h3, rfl, rfl, rfl⟩, h4, fun _ => h5⟩, (room0 rfl rfl rfl rfl).2 (by intro e he; simp only [TCall.slot, TCall.assigned, h3, Option.map_some, Option.some.injEq] at he; subst he; exact hr)⟩
    · rintro ⟨h2, ⟨ty, sl', st', ⟨ty', h3, rfl, rfl, rfl⟩, h4, h5⟩, hr⟩; exact ⟨h2, ty', h3, h4, h5 rfl, (by have q := (room0 rfl rfl rfl rfl).1 hr; simp only [TCall.slot, TCall.assigned, h3, Option.map_some, Option.some.injEq, forall_eq'] at q; exact q)⟩
  | addFungibleDet n sl v bl =>
    simp only [TransitionBuilder.call, TransitionBuilder.okay_addFungibleDet, hR, ← hi, ← hs, ← hd, htag]
    simp only [TCall.mode, TCall.Fits, TCall.assigned, Option.some.injEq, forall_eq', Option.map_eq_some_iff, Prod.mk.injEq]
    constructor
    · rintro ⟨h2, ty, h3, h4, h5, hr⟩; exact ⟨h2, ⟨ty, sl, _, ⟨ty, h3, rfl, rfl, rfl⟩, h4, fun _ => h5⟩, (room0 rfl rfl rfl rfl).2 (by intro e he; simp only [TCall.slot, TCall.assigned, h3, Option.map_some, Option.some.injEq] at he; subst he; exact hr)⟩
    · rintro ⟨h2, ⟨ty, sl', st', ⟨ty', h3, rfl, rfl, rfl⟩, h4, h5⟩, hr⟩; exact ⟨h2, ty', h3, h4, h5 rfl, (by have q := (room0 rfl rfl rfl rfl).1 hr; simp only [TCall.slot, TCall.assigned, h3, Option.map_some, Option.some.injEq, forall_eq'] at q; exact q)⟩
  | addFungibleRaw aty sl v bl =>
    simp only [TransitionBuilder.call, TransitionBuilder.addFungibleRaw, okay_bind, TransitionBuilder.okay_set, OpBuilder.assetTagRaw, orErr_ok,
      OpBuilder.okay_addFungibleRaw, hR, ← hs, htag]
    simp only [TCall.mode, TCall.Fits, TCall.assigned, Option.some.injEq, Prod.mk.injEq]
    constructor
    · rintro ⟨t, h1, h2, hr⟩; exact ⟨by simp, ⟨aty, sl, _, ⟨rfl, rfl, rfl⟩, h2, fun _ => by rw [h1]; simp⟩, (room0 rfl rfl rfl rfl).2 (by intro e he; simp only [TCall.slot, TCall.assigned, Option.map_some, Option.some.injEq] at he; subst he; exact hr)⟩
    · rintro ⟨-, ⟨ty, sl', st', ⟨rfl, rfl, rfl⟩, h4, h5⟩, hr⟩
      obtain ⟨t, ht⟩ := Option.ne_none_iff_exists'.1 (h5 rfl)
      exact ⟨t, ht, h4, (by have q := (room0 rfl rfl rfl rfl).1 hr; simp only [TCall.slot, TCall.assigned, Option.map_some, Option.some.injEq, forall_eq'] at q; exact q)⟩
  | addData n sl v salt =>
    simp only [TransitionBuilder.call, TransitionBuilder.okay_set, OpBuilder.okay_addData, hR, ← hi, ← hs, ← hd]
    simp only [TCall.mode, TCall.Fits, TCall.assigned, Option.some.injEq, forall_eq', Option.bind_eq_some_iff, Option.map_eq_some_iff,
      Prod.mk.injEq]
    constructor
    · rintro ⟨h2, x, ty, rfl, h3, h4, hr⟩; exact ⟨h2, ⟨ty, sl, _, ⟨x, rfl, ty, h3, rfl, rfl, rfl⟩, h4, fun hx => by cases hx⟩, (room0 rfl rfl rfl rfl).2 (by intro e he; simp only [TCall.slot, TCall.assigned, h3, Option.map_some, Option.bind_some, Option.some.injEq] at he; subst he; exact hr)⟩
    · rintro ⟨h2, ⟨ty, sl', st', ⟨x, rfl, ty', h3, rfl, rfl, rfl⟩, h4, h1⟩, hr⟩; exact ⟨h2, x, ty', rfl, h3, h4, (by have q := (room0 rfl rfl rfl rfl).1 hr; simp only [TCall.slot, TCall.assigned, h3, Option.map_some, Option.bind_some, Option.some.injEq, forall_eq'] at q; exact q)⟩
  | addDataDet n sl v salt =>
    simp only [TransitionBuilder.call, TransitionBuilder.okay_set, OpBuilder.okay_addDataDet, hR, ← hi, ← hs, ← hd]
    simp only [TCall.mode, TCall.Fits, TCall.assigned, Option.some.injEq, forall_eq', Option.map_eq_some_iff, Prod.mk.injEq]
    constructor
    · rintro ⟨h2, ty, h3, h4, hr⟩; exact ⟨h2, ⟨ty, sl, _, ⟨ty, h3, rfl, rfl, rfl⟩, h4, fun hx => by cases hx⟩, (room0 rfl rfl rfl rfl).2 (by intro e he; simp only [TCall.slot, TCall.assigned, h3, Option.map_some, Option.some.injEq] at he; subst he; exact hr)⟩
    · rintro ⟨h2, ⟨ty, sl', st', ⟨ty', h3, rfl, rfl, rfl⟩, h4, h1⟩, hr⟩; exact ⟨h2, ty', h3, h4, (by have q := (room0 rfl rfl rfl rfl).1 hr; simp only [TCall.slot, TCall.assigned, h3, Option.map_some, Option.some.injEq, forall_eq'] at q; exact q)⟩
  | addDataRaw aty sl v salt =>
    simp only [TransitionBuilder.call, TransitionBuilder.okay_set, OpBuilder.okay_addDataRaw, hR, ← hs]
    simp only [TCall.mode, TCall.Fits, TCall.assigned, Option.some.injEq, Prod.mk.injEq]
    constructor
    · rintro ⟨h4, hr⟩; exact ⟨by simp, ⟨aty, sl, _, ⟨rfl, rfl, rfl⟩, h4, fun hx => by cases hx⟩, (room0 rfl rfl rfl rfl).2 (by intro e he; simp only [TCall.slot, TCall.assigned, Option.map_some, Option.some.injEq] at he; subst he; exact hr)⟩
    · rintro ⟨-, ⟨ty, sl', st', ⟨rfl, rfl, rfl⟩, h4, h1⟩, hr⟩; exact ⟨h4, (by have q := (room0 rfl rfl rfl rfl).1 hr; simp only [TCall.slot, TCall.assigned, Option.map_some, Option.some.injEq, forall_eq'] at q; exact q)⟩
  | addDataDefault sl v salt =>
    simp only [TransitionBuilder.call, TransitionBuilder.addDataDefault, okay_bind, hdef, TransitionBuilder.okay_set, OpBuilder.okay_addData,
      hR, ← hi, ← hs, ← hd]
    simp only [TCall.mode, TCall.Fits, TCall.assigned, Option.some.injEq, forall_eq', Option.bind_eq_some_iff, Option.map_eq_some_iff,
      Prod.mk.injEq]
    constructor
    · rintro ⟨n, hn, h2, x, ty, rfl, h3, h4, hr⟩
      exact ⟨h2, ⟨ty, sl, _, ⟨x, rfl, ty, ⟨n, hn, h3⟩, rfl, rfl, rfl⟩, h4, fun hx => by cases hx⟩, (room0 rfl rfl rfl rfl).2 (by intro e he; simp only [TCall.slot, TCall.assigned, hn, h3, Option.map_some, Option.bind_some, Option.some.injEq] at he; subst he; exact hr)⟩
    · rintro ⟨h2, ⟨ty, sl', st', ⟨x, rfl, ty', ⟨n, hn, h3⟩, rfl, rfl, rfl⟩, h4, h1⟩, hr⟩
      exact ⟨n, hn, h2, x, ty', rfl, h3, h4, (by have q := (room0 rfl rfl rfl rfl).1 hr; simp only [TCall.slot, TCall.assigned, hn, h3, Option.map_some, Option.bind_some, Option.some.injEq, forall_eq'] at q; rw [hn]; exact q)⟩
  | addAttachment dt n sl f m salt =>
    simp only [TransitionBuilder.call, TransitionBuilder.okay_set, OpBuilder.okay_addAttachment, hR, ← hi, ← hs, ← hd]
    simp only [TCall.mode, TCall.Fits, TCall.assigned, Option.some.injEq, forall_eq', Option.map_eq_some_iff, Prod.mk.injEq]
    constructor
    · rintro ⟨h2, ty, h3, h4, hr⟩; exact ⟨h2, ⟨ty, sl, _, ⟨ty, h3, rfl, rfl, rfl⟩, h4, fun hx => by cases hx⟩, (room0 rfl rfl rfl rfl).2 (by intro e he; simp only [TCall.slot, TCall.assigned, h3, Option.map_some, Option.some.injEq] at he; subst he; exact hr)⟩
    · rintro ⟨h2, ⟨ty, sl', st', ⟨ty', h3, rfl, rfl, rfl⟩, h4, h1⟩, hr⟩; exact ⟨h2, ty', h3, h4, (by have q := (room0 rfl rfl rfl rfl).1 hr; simp only [TCall.slot, TCall.assigned, h3, Option.map_some, Option.some.injEq, forall_eq'] at q; exact q)⟩

/-- **C65** is false for owned data: it is added, and the contract is issued, although it isn't a value of the type the schema defines;
the same value is refused as global state of that type. -/
theorem C65_data_fails : ∃ (b : ContractBuilder) (g : BuiltGenesis),
    ContractBuilder.calls calcEnv [.addData 3 sealB (some 150) 14] (.new false 1 mixedIface mixedSchema mixedImpl) = .ok b ∧
      b.issue calcEnv (fun _ => true) false 0 = .ok g ∧
      OMap.get? g.assigns 4002 = some ⟨.structured, [.confidentialSeal 154 (.data 150 14)]⟩ ∧
      OMap.get? mixedSchema.ownedTypes 4002 = some (.structured 7) ∧ calcEnv.types 7 150 = false ∧
      OMap.get? mixedSchema.globalTypes 2000 = some (7, 1) ∧ b.call calcEnv (.addGlobal 1 (some 150)) = .error .reify := by
  exact ⟨_, _, rfl, rfl, rfl, rfl, rfl, rfl, rfl⟩

example : ∃ b', issuedBuilder.call calcEnv (.addFungible 5 sealL 10 1 2) = .ok b' :=
  (C65_contract_partial issued_calls _).2 ⟨fun m h _ => by cases h; rfl, ⟨4004, sealL, _, rfl, rfl, fun _ => by decide⟩,
    ⟨(fun e h => by cases h; unfold RoomForState; decide), (fun e h => by cases h), (fun e h => by cases h), fun ty auto h => by cases h; decide⟩⟩

example : ¬ ∃ b', issuedBuilder.call calcEnv (.addAssetTag 5 10) = .ok b' := by
  rw [C65_contract_partial issued_calls]
  rintro ⟨-, ⟨ty, h1, h2⟩, -⟩
  cases h1
  exact h2 ⟨.addFungible 5 sealA 7 33 997, by decide, sealA, _, rfl, rfl⟩

example : ¬ ∃ b', movedBuilder.call calcEnv (.addFungible 5 sealL 10 1) = .ok b' := by
  rw [C65_transition_partial moved_calls]
  rintro ⟨-, ⟨ty, sl, st, h1, -, h3⟩, -⟩
  cases h1
  exact h3 rfl rfl

/-! ### C46: completion -/

/-- **C46.** A transition is completed exactly if state is assigned for at most 255 types, and each type with assigned amounts has only
amounts as inputs (any inputs, if `zero_balanced` succeeds). -/
theorem C46_completes {E : BEnv} (hb : ∀ ins outs, E.balance ins outs ≠ none) {det : Bool} {contract ty : Nat} {iface : Iface}
    {schema : Schema} {iimpl : IfaceImpl} {cs : List TCall} {b : TransitionBuilder}
    (h : TransitionBuilder.calls E cs (.new det contract iface schema iimpl ty) = .ok b) :
    (∃ t, b.complete E = .ok t) ↔
      different ((cs.filterMap (TCall.slot iimpl (defaultName iface iimpl ty))).map (fun e => e.1.1)) ≤ 255 ∧ ∀ c ∈ cs, ∀ (aty : Nat) (sl : BSeal) (st : RState), c.assigned iimpl (defaultName iface iimpl ty) = some (aty, sl, st) →
        st.isAmount = true → ∀ (o : Opout) (v : RState), lastFor o (cs.filterMap TCall.input) = some v → o.ty = aty → v.isAmount = true := by
  obtain ⟨ps, d⟩ := TransitionBuilder.calls_did h
  have hf : ∀ aty, OMap.contains b.builder.fungible aty = true ↔
      ∃ c ∈ cs, ∃ sl st, c.assigned iimpl (defaultName iface iimpl ty) = some (aty, sl, st) ∧ st.isAmount = true := by
    intro aty
    refine (fungible_contains d.run (TransitionBuilder.new_inv _ _ _ _ _ _) (TransitionBuilder.new_found _ _ _ _ _ _) d.puts aty).trans ?_
    simp only [List.mem_filterMap, TCall.slot, Option.map_eq_some_iff]
    constructor
    · rintro ⟨e, ⟨c, hc, ⟨ty', sl, st⟩, hx, rfl⟩, rfl, hk⟩; exact ⟨c, hc, sl, st, hx, hk⟩
    · rintro ⟨c, hc, sl, st, hx, hk⟩; exact ⟨((aty, sl), st), ⟨c, hc, (aty, sl, st), hx, rfl⟩, rfl, hk⟩
  have hin : ∀ (o : Opout) (v : RState), (o, v) ∈ b.inputs ↔ lastFor o (cs.filterMap TCall.input) = some v := by
    intro o v
    have hg : OMap.get? b.inputs o = lastFor o (cs.filterMap TCall.input) := by
      rw [d.inputs, get?_extend]; simp [TransitionBuilder.new]
    have hsorted : OMap.Sorted b.inputs := by
      rw [d.inputs]; exact OMap.Sorted.extend (OMap.Sorted.nil) _
    rw [← hg]
    exact ⟨hsorted.get?_of_mem, OMap.mem_of_get?⟩
  rw [show (∃ t, b.complete E = .ok t) ↔ okay (b.builder.complete E b.inputs) from by
    show okay (b.complete E) ↔ _
    simp only [TransitionBuilder.complete, okay_bind]
    exact ⟨fun ⟨a, h, _⟩ => ⟨a, h⟩, fun ⟨a, h⟩ => ⟨a, h, okay_ok _⟩⟩]
  rw [d.run.complete_iff hb (TransitionBuilder.new_inv _ _ _ _ _ _) (TransitionBuilder.new_slots _ _ _ _ _ _), types_congr d.puts]
  refine and_congr_right fun _ => ?_
  constructor
  · intro h1 c hc aty sl st ha hst o v hl hty
    exact h1 aty ((hf aty).2 ⟨c, hc, sl, st, ha, hst⟩) (o, v) ((hin o v).2 hl) hty
  · rintro h1 aty hcn ⟨o, v⟩ he hty
    obtain ⟨c, hc, sl, st, ha, hst⟩ := (hf aty).1 hcn
    exact h1 c hc aty sl st ha hst o v ((hin o v).1 he) hty

/-- **C46.** A contract which validation accepts is issued exactly if state is assigned for at most 255 types. -/
theorem C46_issues {E : BEnv} (hb : ∀ ins outs, E.balance ins outs ≠ none) {det : Bool} {issuer : Nat} {iface : Iface}
    {schema : Schema} {iimpl : IfaceImpl} {cs : List CCall} {b : ContractBuilder}
    (h : ContractBuilder.calls E cs (.new det issuer iface schema iimpl) = .ok b) (ts : Int) :
    (∃ g, b.issue E (fun _ => true) det ts = .ok g) ↔ different ((cs.filterMap (CCall.slot iimpl)).map (fun e => e.1.1)) ≤ 255 := by
  obtain ⟨ps, d⟩ := ContractBuilder.calls_did h
  have hd : det = b.builder.det := d.run.sameDocs.2.2.2
  have hdd : b.builder.assertDet E det = .ok () := OpBuilder.okay_assertDet.2 (fun _ => hd.symm)
  have hc := d.run.complete_iff hb (ContractBuilder.new_inv _ _ _ _ _) (ContractBuilder.new_slots _ _ _ _ _) (ins := [])
  rw [types_congr d.puts] at hc
  rw [show (different ((cs.filterMap (CCall.slot iimpl)).map (fun e => e.1.1)) ≤ 255) ↔ okay (b.builder.complete E []) from by
    rw [hc]; exact ⟨fun h => ⟨h, fun _ _ _ he => by cases he⟩, And.left⟩]
  constructor
  · rintro ⟨g, hg⟩
    obtain ⟨as, ha, -⟩ := ContractBuilder.issue_ok hg
    exact ⟨as, ha⟩
  · rintro ⟨as, ha⟩
    show okay _
    unfold ContractBuilder.issue
    rw [hdd, ha]
    exact ⟨_, rfl⟩

example : (∀ ins outs, calcEnv.balance ins outs ≠ none) ∧
    different ((moveCalls.filterMap (TCall.slot mixedImpl (defaultName mixedIface mixedImpl 10000))).map (fun e => e.1.1)) ≤ 255 ∧
    different ((issueCalls.filterMap (CCall.slot mixedImpl)).map (fun e => e.1.1)) ≤ 255 :=
  ⟨fun _ _ => by simp [calcEnv], by decide, by decide⟩

/-! ### C46: headers -/

/-- **C46.** A transition is of the type and of the contract it was made for, with the nonce last set, or the highest one. -/
theorem C46_header {E : BEnv} {det : Bool} {contract ty : Nat} {iface : Iface} {schema : Schema} {iimpl : IfaceImpl} {cs : List TCall}
    {b : TransitionBuilder} (h : TransitionBuilder.calls E cs (.new det contract iface schema iimpl ty) = .ok b) {t : BuiltTransition}
    (ht : b.complete E = .ok t) :
    t.op.kind = .transition ∧ t.op.contract = contract ∧ t.op.ty = ty ∧
      t.op.nonce = (lastFor () (cs.filterMap TCall.nonce)).getD 18446744073709551615 := by
  obtain ⟨ps, d⟩ := TransitionBuilder.calls_did h
  obtain ⟨as, hc, rfl⟩ := TransitionBuilder.complete_ok ht
  refine ⟨rfl, d.same.1, d.same.2, ?_⟩
  have key : ∀ {cs : List TCall} {b b' : TransitionBuilder}, TransitionBuilder.calls E cs b = .ok b' →
      b'.nonce = (lastFor () (cs.filterMap TCall.nonce)).getD b.nonce := by
    intro cs
    induction cs with
    | nil => intro b b' h; cases h; rfl
    | cons c cs ih =>
      intro b b' h
      simp only [TransitionBuilder.calls, except_bind_ok] at h
      obtain ⟨b1, h1, h2⟩ := h
      rw [ih h2]
      rw [TransitionBuilder.call_nonce h1]
      cases hn : c.nonce with
      | none => simp [List.filterMap_cons, hn]
      | some e =>
        rw [List.filterMap_cons, hn]
        simp only
        rw [show e :: cs.filterMap TCall.nonce = [e] ++ cs.filterMap TCall.nonce from rfl, lastFor_cat]
        cases lastFor () (cs.filterMap TCall.nonce) <;> rfl
  exact key h

/-- **C46.** A genesis has the issuer, the time and the network asked for, and validation accepted it. -/
theorem C46_header_contract {E : BEnv} {det : Bool} {issuer : Nat} {iface : Iface} {schema : Schema}
    {iimpl : IfaceImpl} {cs : List CCall} {b : ContractBuilder}
    (h : ContractBuilder.calls E cs (.new det issuer iface schema iimpl) = .ok b)
    {valid : BuiltGenesis → Bool} {det' : Bool} {ts : Int} {g : BuiltGenesis} (hg : b.issue E valid det' ts = .ok g) :
    g.issuer = issuer ∧ g.timestamp = ts ∧ (g.testnet = true ↔ CCall.setMainnet ∉ cs) ∧ valid g = true := by
  obtain ⟨as, hc, hv, rfl⟩ := ContractBuilder.issue_ok hg
  have key : ∀ {cs : List CCall} {b b' : ContractBuilder}, ContractBuilder.calls E cs b = .ok b' →
      b'.issuer = b.issuer ∧ b'.testnet = (b.testnet && !decide (CCall.setMainnet ∈ cs)) := by
    intro cs
    induction cs with
    | nil => intro b b' h; cases h; simp
    | cons c cs ih =>
      intro b b' h
      simp only [ContractBuilder.calls, except_bind_ok] at h
      obtain ⟨b1, h1, h2⟩ := h
      obtain ⟨e1, e2⟩ := ih h2
      obtain ⟨f1, f2⟩ := ContractBuilder.call_header h1
      refine ⟨e1.trans f1, ?_⟩
      rw [e2, f2]
      by_cases e : CCall.setMainnet = c
      · subst e; simp
      · simp [e, Ne.symm e]
  obtain ⟨e1, e2⟩ := key h
  refine ⟨e1, rfl, ?_, ?_⟩
  · show b.testnet = true ↔ _
    rw [e2]; simp [ContractBuilder.new]
  · exact hv

example : movedBuilder.complete calcEnv = .ok moved ∧ moved.op.contract = 8 ∧ moved.op.ty = 10000 ∧
    issuedBuilder.issue calcEnv (fun _ => true) false 0 = .ok issued ∧ issued.testnet = true := ⟨moved_made, rfl, rfl, issued_made, rfl⟩

/-- An amount assigned to a type with an input which isn't an amount: completing panics. -/
example : ∃ b, TransitionBuilder.calls calcEnv
      [.addAssetTag 1 1000, .addInput ⟨9, 4000, 0⟩ .void, .addFungible 1 sealA 100 52]
      (.new false 8 mixedIface mixedSchema mixedImpl 10000) = .ok b ∧ b.complete calcEnv = .error .panic := ⟨_, rfl, rfl⟩

end Rgb.Props
