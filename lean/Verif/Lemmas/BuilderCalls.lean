import Verif.Lemmas.Builder

/-! Calls to the builders as sequences of elementary steps. -/

namespace Rgb

/-- A state without the tag. -/
def RState.untag : RState → RState
  | .fungible v b _ => .fungible v b 0
  | st => st

theorem RState.content_untag (st : RState) : st.untag.content = st.content := by cases st <;> rfl

theorem RState.kind_untag (st : RState) : st.untag.kind = st.kind := by cases st <;> rfl

theorem RState.kind_content (st : RState) : st.content.kind = st.kind := by cases st <;> rfl

def slotUntag (e : (Nat × BSeal) × RState) : (Nat × BSeal) × RState := (e.1, e.2.untag)

/-- The metadata set by elementary changes. -/
def mds (ps : List Prim) : List (Nat × Nat) :=
  ps.filterMap (fun p => match p with
    | .md ty v => some (ty, v)
    | _ => none)

theorem mds_append (ps qs : List Prim) : mds (ps ++ qs) = mds ps ++ mds qs := by simp [mds]

namespace OpBuilder

theorem addRightsRaw_step {b b' : OpBuilder} {ty : Nat} {sl : BSeal} (h : b.addRightsRaw ty sl = .ok b') :
    PStep b (.put ty sl .void) b' := by
  simp only [addRightsRaw, stateSchema, except_bind_ok, orErr_ok, failIf_ok, decide_eq_false_iff_not, ne_eq, Decidable.not_not] at h
  obtain ⟨sch, hs, _, rfl, m, hp, h⟩ := h
  cases h
  exact PStep.put b ty sl .void .declarative m hs rfl (fun _ _ _ h => by cases h) hp

theorem addFungibleRaw_step {b b' : OpBuilder} {ty : Nat} {sl : BSeal} {v bl t : Nat} (h : b.addFungibleRaw ty sl v bl t = .ok b')
    (ht : OMap.get? b.tags ty = some t) : PStep b (.put ty sl (.fungible v bl t)) b' := by
  simp only [addFungibleRaw, stateSchema, except_bind_ok, orErr_ok, failIf_ok, decide_eq_false_iff_not, ne_eq, Decidable.not_not] at h
  obtain ⟨sch, hs, _, rfl, m, hp, h⟩ := h
  cases h
  exact PStep.put b ty sl (.fungible v bl t) (.fungible u64Type) m hs (by simp [OwnedSchema.accepts])
    (fun _ _ _ h => by cases h; exact ht) hp

theorem addDataRaw_step {b b' : OpBuilder} {ty : Nat} {sl : BSeal} {v salt : Nat} (h : b.addDataRaw ty sl v salt = .ok b') :
    PStep b (.put ty sl (.data v salt)) b' := by
  simp only [addDataRaw, stateSchema, except_bind_ok, orErr_ok] at h
  obtain ⟨sch, hs, h⟩ := h
  cases sch with
  | structured sem =>
    simp only [except_bind_ok] at h
    obtain ⟨m, hp, h⟩ := h
    cases h
    exact PStep.put b ty sl (.data v salt) (.structured sem) m hs rfl (fun _ _ _ h => by cases h) hp
  | declarative => cases h
  | fungible => cases h
  | attachment => cases h

theorem addAttachmentRaw_step {b b' : OpBuilder} {ty : Nat} {sl : BSeal} {f m salt : Nat}
    (h : b.addAttachmentRaw ty sl f m salt = .ok b') : PStep b (.put ty sl (.attach f m salt)) b' := by
  simp only [addAttachmentRaw, stateSchema, except_bind_ok, orErr_ok] at h
  obtain ⟨sch, hs, h⟩ := h
  cases sch with
  | attachment med =>
    simp only [except_bind_ok] at h
    obtain ⟨m', hp, h⟩ := h
    cases h
    exact PStep.put b ty sl (.attach f m salt) (.attachment med) m' hs rfl (fun _ _ _ h => by cases h) hp
  | declarative => cases h
  | fungible => cases h
  | structured => cases h

theorem addOwnedRaw_step {b b' : OpBuilder} {ty : Nat} {sl : BSeal} {st : RState} (h : b.addOwnedRaw ty sl st = .ok b') :
    PStep b (.put ty sl st) b' := by
  cases st with
  | void => exact addRightsRaw_step h
  | data v salt => exact addDataRaw_step h
  | attach f m salt => exact addAttachmentRaw_step h
  | fungible v bl t =>
    simp only [addOwnedRaw, assetTagRaw, except_bind_ok, orErr_ok, failIf_ok, decide_eq_false_iff_not, ne_eq, Decidable.not_not] at h
    obtain ⟨t', ht, _, rfl, h⟩ := h
    exact addFungibleRaw_step h ht

theorem addAssetTagRaw_step {b b' : OpBuilder} {ty t : Nat} (h : b.addAssetTagRaw ty t = .ok b') : PStep b (.tag ty t) b' := by
  simp only [addAssetTagRaw, except_bind_ok, failIf_ok, insertMax_ok] at h
  obtain ⟨_, hc, m, ⟨hl, rfl⟩, h⟩ := h
  cases h
  exact PStep.tag b ty t (Or.inr hc) hl

theorem addAssetTag_step {b b' : OpBuilder} {name t : Nat} (h : b.addAssetTag name t = .ok b') :
    ∃ ty, typeByName b.iimpl.assignments name = some ty ∧ PStep b (.tag ty t) b' := by
  simp only [addAssetTag, typeOf, assignmentsType, except_bind_ok, orErr_ok] at h
  obtain ⟨ty, h1, h⟩ := h
  exact ⟨ty, h1, addAssetTagRaw_step h⟩

theorem initAssetTag_run {b b' : OpBuilder} {name rand t : Nat} (h : b.initAssetTag name rand = .ok (b', t)) :
    ∃ ty ps, typeByName b.iimpl.assignments name = some ty ∧ PRun b ps b' ∧ OMap.get? b'.tags ty = some t ∧
      puts ps = [] ∧ globs ps = [] ∧ mds ps = [] ∧ (tagsSet ps).length ≤ 1 := by
  simp only [initAssetTag, typeOf, assignmentsType, except_bind_ok, orErr_ok] at h
  obtain ⟨ty, h1, h⟩ := h
  refine ⟨ty, ?_⟩
  cases hg : OMap.get? b.tags ty with
  | some t' =>
    rw [hg] at h; cases h
    exact ⟨[], h1, PRun.nil _, hg, rfl, rfl, rfl, by simp [tagsSet]⟩
  | none =>
    rw [hg] at h
    simp only [except_bind_ok, insertMax_ok] at h
    obtain ⟨m, ⟨hl, rfl⟩, h⟩ := h
    cases h
    exact ⟨[.tag ty rand], h1, PRun.one (PStep.tag b ty rand (Or.inl hg) hl), by simp, rfl, rfl, rfl, by simp [tagsSet]⟩

theorem addMetadata_step {E : BEnv} {b b' : OpBuilder} {name : Nat} {value : Option Nat} (h : b.addMetadata E name value = .ok b') :
    ∃ ty v, value = some v ∧ typeByName b.iimpl.metadata name = some ty ∧ PStep b (.md ty v) b' := by
  simp only [addMetadata, except_bind_ok, orErr_ok, failIf_ok] at h
  obtain ⟨v, rfl, ty, h1, sem, _, _, _, _, _, _, _, h⟩ := h
  cases h
  exact ⟨ty, v, rfl, h1, PStep.md b ty v⟩

theorem addGlobal_step {E : BEnv} {b b' : OpBuilder} {name : Nat} {value : Option Nat} (h : b.addGlobal E name value = .ok b') :
    ∃ ty v, value = some v ∧ typeByName b.iimpl.globalState name = some ty ∧ PStep b (.glob ty v) b' := by
  simp only [addGlobal, except_bind_ok, orErr_ok, failIf_ok] at h
  obtain ⟨v, rfl, ty, h1, sem, hs, _, _, m, hp, h⟩ := h
  cases h
  exact ⟨ty, v, rfl, h1, PStep.glob b ty v m hp (OMap.contains_iff.mpr ⟨_, hs⟩)⟩

theorem typeOf_ok {b : OpBuilder} {name ty : Nat} : b.typeOf name = .ok ty ↔ typeByName b.iimpl.assignments name = some ty := by
  simp [typeOf, assignmentsType, orErr_ok]

theorem assertDet_ok {E : BEnv} {b : OpBuilder} {w : Bool} {u : Unit} :
    b.assertDet E w = .ok u ↔ (E.debug = true → b.det = w) := by
  unfold assertDet
  rw [failIf_ok]
  cases E.debug <;> simp

theorem addOwnedDet_step {E : BEnv} {b b' : OpBuilder} {name : Nat} {sl : BSeal} {st : RState}
    (h : b.addOwnedDet E name sl st = .ok b') :
    ∃ ty, typeByName b.iimpl.assignments name = some ty ∧ PStep b (.put ty sl st) b' := by
  simp only [addOwnedDet, except_bind_ok, typeOf_ok] at h
  obtain ⟨_, _, ty, h1, h⟩ := h
  exact ⟨ty, h1, addOwnedRaw_step h⟩

theorem addRights_step {b b' : OpBuilder} {name : Nat} {sl : BSeal} (h : b.addRights name sl = .ok b') :
    ∃ ty, typeByName b.iimpl.assignments name = some ty ∧ PStep b (.put ty sl .void) b' := by
  simp only [addRights, except_bind_ok, typeOf_ok] at h
  obtain ⟨ty, h1, h⟩ := h
  exact ⟨ty, h1, addRightsRaw_step h⟩

theorem addFungible_step {E : BEnv} {b b' : OpBuilder} {name : Nat} {sl : BSeal} {v bl : Nat}
    (h : b.addFungible E name sl v bl = .ok b') :
    ∃ ty t, typeByName b.iimpl.assignments name = some ty ∧ PStep b (.put ty sl (.fungible v bl t)) b' := by
  simp only [addFungible, assetTagRaw, except_bind_ok, typeOf_ok, orErr_ok] at h
  obtain ⟨_, _, ty, h1, t, ht, h⟩ := h
  exact ⟨ty, t, h1, addFungibleRaw_step h ht⟩

theorem addFungibleDet_step {E : BEnv} {b b' : OpBuilder} {name : Nat} {sl : BSeal} {v bl t ty : Nat}
    (h : b.addFungibleDet E name sl v bl t = .ok b') (hn : typeByName b.iimpl.assignments name = some ty)
    (ht : OMap.get? b.tags ty = some t) : PStep b (.put ty sl (.fungible v bl t)) b' := by
  simp only [addFungibleDet, except_bind_ok, typeOf_ok] at h
  obtain ⟨_, _, ty', h1, h⟩ := h
  rw [hn] at h1; cases h1
  exact addFungibleRaw_step h ht

theorem addData_step {E : BEnv} {b b' : OpBuilder} {name : Nat} {sl : BSeal} {value : Option Nat} {salt : Nat}
    (h : b.addData E name sl value salt = .ok b') :
    ∃ ty v, value = some v ∧ typeByName b.iimpl.assignments name = some ty ∧ PStep b (.put ty sl (.data v salt)) b' := by
  simp only [addData, except_bind_ok, typeOf_ok, orErr_ok] at h
  obtain ⟨_, _, v, rfl, ty, h1, h⟩ := h
  exact ⟨ty, v, rfl, h1, addDataRaw_step h⟩

theorem addDataDet_step {E : BEnv} {b b' : OpBuilder} {name : Nat} {sl : BSeal} {v salt : Nat}
    (h : b.addDataDet E name sl v salt = .ok b') :
    ∃ ty, typeByName b.iimpl.assignments name = some ty ∧ PStep b (.put ty sl (.data v salt)) b' := by
  simp only [addDataDet, except_bind_ok, typeOf_ok] at h
  obtain ⟨_, _, ty, h1, h⟩ := h
  exact ⟨ty, h1, addDataRaw_step h⟩

theorem addAttachment_step {E : BEnv} {b b' : OpBuilder} {det : Bool} {name : Nat} {sl : BSeal} {f m salt : Nat}
    (h : b.addAttachment E det name sl f m salt = .ok b') :
    ∃ ty, typeByName b.iimpl.assignments name = some ty ∧ PStep b (.put ty sl (.attach f m salt)) b' := by
  simp only [addAttachment, except_bind_ok, typeOf_ok] at h
  obtain ⟨_, _, ty, h1, h⟩ := h
  exact ⟨ty, h1, addAttachmentRaw_step h⟩

end OpBuilder

/-! ### Contract builder -/

namespace ContractBuilder

theorem set_ok {b b' : ContractBuilder} {x : Except BErr OpBuilder} :
    b.set x = .ok b' ↔ ∃ o, x = .ok o ∧ b' = { b with builder := o } := by
  simp only [set, except_bind_ok]
  constructor
  · rintro ⟨o, h, h'⟩; cases h'; exact ⟨o, h, rfl⟩
  · rintro ⟨o, h, rfl⟩; exact ⟨o, h, rfl⟩

theorem checkLayer1_ok {b : ContractBuilder} {l : Layer1} {u : Unit} : b.checkLayer1 l = .ok u ↔ b.hasLayer1 l = true := by
  simp [checkLayer1, failIf_ok]

theorem sealed_ok {b b' : ContractBuilder} {sl : BSeal} {x : Except BErr OpBuilder} :
    b.sealed sl x = .ok b' ↔ b.hasLayer1 sl.layer1 = true ∧ ∃ o, x = .ok o ∧ b' = { b with builder := o } := by
  simp only [sealed, except_bind_ok, checkLayer1_ok, set_ok]
  constructor
  · rintro ⟨_, h1, h2⟩; exact ⟨h1, h2⟩
  · rintro ⟨h1, h2⟩; exact ⟨(), h1, h2⟩

/-- What a successful call does. -/
structure Did (b : ContractBuilder) (c : CCall) (b' : ContractBuilder) (ps : List Prim) : Prop where
  run : PRun b.builder ps b'.builder
  puts : (puts ps).map slotUntag = ((c.slot b.builder.iimpl).map slotUntag).toList
  globs : globs ps = (c.global b.builder.iimpl).toList
  layer : ∀ e, c.slot b.builder.iimpl = some e → b.hasLayer1 e.1.2.layer1 = true
  liquid : b'.liquid = (b.liquid || decide (c = .addLiquid))
  mds : mds ps = (c.metadatum b.builder.iimpl).toList
  ntags : (tagsSet ps).length ≤ 1

theorem call_did {E : BEnv} {b b' : ContractBuilder} {c : CCall} (h : b.call E c = .ok b') : ∃ ps, Did b c b' ps := by
  cases c with
  | setMainnet => cases h; exact ⟨[], PRun.nil _, rfl, rfl, fun _ h => by (cases h), by simp, rfl, by simp [tagsSet]⟩
  | addLiquid => cases h; exact ⟨[], PRun.nil _, rfl, rfl, fun _ h => by (cases h), by simp, rfl, by simp [tagsSet]⟩
  | addAssetTag name t =>
    simp only [call, set_ok] at h
    obtain ⟨o, h, rfl⟩ := h
    obtain ⟨ty, _, s⟩ := OpBuilder.addAssetTag_step h
    exact ⟨_, PRun.one s, rfl, rfl, fun _ h => by (cases h), by simp, rfl, by simp [tagsSet]⟩
  | addMetadata name v =>
    simp only [call, set_ok] at h
    obtain ⟨o, h, rfl⟩ := h
    obtain ⟨ty, v, rfl, hn, s⟩ := OpBuilder.addMetadata_step h
    exact ⟨_, PRun.one s, rfl, rfl, fun _ h => by (cases h), by simp, by simp [CCall.metadatum, hn, Rgb.mds], by simp [tagsSet]⟩
  | addGlobal name v =>
    simp only [call, set_ok] at h
    obtain ⟨o, h, rfl⟩ := h
    obtain ⟨ty, v, rfl, hn, s⟩ := OpBuilder.addGlobal_step h
    exact ⟨_, PRun.one s, rfl, by simp [CCall.global, hn, Rgb.globs], fun _ h => by (cases h), by simp, rfl, by simp [tagsSet]⟩
  | addOwnedDet name sl st =>
    simp only [call, sealed_ok] at h
    obtain ⟨hl, o, h, rfl⟩ := h
    obtain ⟨ty, hn, s⟩ := OpBuilder.addOwnedDet_step h
    exact ⟨_, PRun.one s, by simp [CCall.slot, CCall.assigned, hn, Rgb.puts], rfl,
      by simp only [CCall.slot, CCall.assigned, hn, Option.map_some]; rintro e ⟨⟩; exact hl, by simp, rfl, by simp [tagsSet]⟩
  | addRights name sl =>
    simp only [call, sealed_ok] at h
    obtain ⟨hl, o, h, rfl⟩ := h
    obtain ⟨ty, hn, s⟩ := OpBuilder.addRights_step h
    exact ⟨_, PRun.one s, by simp [CCall.slot, CCall.assigned, hn, Rgb.puts], rfl,
      by simp only [CCall.slot, CCall.assigned, hn, Option.map_some]; rintro e ⟨⟩; exact hl, by simp, rfl, by simp [tagsSet]⟩
  | addFungible name sl v bl rt =>
    simp only [call, addFungible, except_bind_ok, checkLayer1_ok, Prod.exists, set_ok] at h
    obtain ⟨_, hl, o, t, hi, o', h, rfl⟩ := h
    obtain ⟨ty, ps, hn, r, ht, hp, hg, hm, htg⟩ := OpBuilder.initAssetTag_run hi
    obtain ⟨ty', t', hn', s⟩ := OpBuilder.addFungible_step h
    have hty : ty' = ty := by rw [← r.sameDocs.2.2.1, hn] at hn'; exact (Option.some.inj hn').symm
    subst hty
    exact ⟨_, PRun.snoc r s, by rw [puts_append, hp]; simp [CCall.slot, CCall.assigned, hn, Rgb.puts, slotUntag, RState.untag],
      by rw [globs_append, hg]; rfl,
      by simp only [CCall.slot, CCall.assigned, hn, Option.map_some]; rintro e ⟨⟩; exact hl, by simp, by rw [mds_append, hm]; rfl,
      by rw [tagsSet_append, show tagsSet [_] = [] from rfl, List.append_nil]; exact htg⟩
  | addFungibleDet name sl v bl rt =>
    simp only [call, addFungibleDet, except_bind_ok, checkLayer1_ok, Prod.exists, set_ok] at h
    obtain ⟨_, hl, o, t, hi, o', h, rfl⟩ := h
    obtain ⟨ty, ps, hn, r, ht, hp, hg, hm, htg⟩ := OpBuilder.initAssetTag_run hi
    have s := OpBuilder.addFungibleDet_step h (by rw [← r.sameDocs.2.2.1]; exact hn) ht
    exact ⟨_, PRun.snoc r s, by rw [puts_append, hp]; simp [CCall.slot, CCall.assigned, hn, Rgb.puts, slotUntag, RState.untag],
      by rw [globs_append, hg]; rfl,
      by simp only [CCall.slot, CCall.assigned, hn, Option.map_some]; rintro e ⟨⟩; exact hl, by simp, by rw [mds_append, hm]; rfl,
      by rw [tagsSet_append, show tagsSet [_] = [] from rfl, List.append_nil]; exact htg⟩
  | addData name sl v salt =>
    simp only [call, sealed_ok] at h
    obtain ⟨hl, o, h, rfl⟩ := h
    obtain ⟨ty, v, rfl, hn, s⟩ := OpBuilder.addData_step h
    exact ⟨_, PRun.one s, by simp [CCall.slot, CCall.assigned, hn, Rgb.puts], rfl,
      by simp only [CCall.slot, CCall.assigned, hn, Option.map_some, Option.bind_some]; rintro e ⟨⟩; exact hl, by simp, rfl, by simp [tagsSet]⟩
  | addDataDet name sl v salt =>
    simp only [call, sealed_ok] at h
    obtain ⟨hl, o, h, rfl⟩ := h
    obtain ⟨ty, hn, s⟩ := OpBuilder.addDataDet_step h
    exact ⟨_, PRun.one s, by simp [CCall.slot, CCall.assigned, hn, Rgb.puts], rfl,
      by simp only [CCall.slot, CCall.assigned, hn, Option.map_some]; rintro e ⟨⟩; exact hl, by simp, rfl, by simp [tagsSet]⟩
  | addAttachment det name sl f m salt =>
    simp only [call, sealed_ok] at h
    obtain ⟨hl, o, h, rfl⟩ := h
    obtain ⟨ty, hn, s⟩ := OpBuilder.addAttachment_step h
    exact ⟨_, PRun.one s, by simp [CCall.slot, CCall.assigned, hn, Rgb.puts], rfl,
      by simp only [CCall.slot, CCall.assigned, hn, Option.map_some]; rintro e ⟨⟩; exact hl, by simp, rfl, by simp [tagsSet]⟩

/-- What successful calls do. -/
structure DidAll (b : ContractBuilder) (cs : List CCall) (b' : ContractBuilder) (ps : List Prim) : Prop where
  run : PRun b.builder ps b'.builder
  puts : (puts ps).map slotUntag = (cs.filterMap (CCall.slot b.builder.iimpl)).map slotUntag
  globs : globs ps = cs.filterMap (CCall.global b.builder.iimpl)
  layer : ∀ e ∈ cs.filterMap (CCall.slot b.builder.iimpl), b'.hasLayer1 e.1.2.layer1 = true
  liquid : b'.liquid = (b.liquid || decide (CCall.addLiquid ∈ cs))
  mds : mds ps = cs.filterMap (CCall.metadatum b.builder.iimpl)
  ntags : (tagsSet ps).length ≤ cs.length

theorem calls_did {E : BEnv} {cs : List CCall} : ∀ {b b' : ContractBuilder}, calls E cs b = .ok b' → ∃ ps, DidAll b cs b' ps := by
  induction cs with
  | nil => intro b b' h; cases h; exact ⟨[], PRun.nil _, rfl, rfl, fun _ h => by simp at h, by simp, rfl, by simp [tagsSet]⟩
  | cons c cs ih =>
    intro b b' h
    simp only [calls, except_bind_ok] at h
    obtain ⟨b1, h1, h2⟩ := h
    obtain ⟨ps, d⟩ := call_did h1
    obtain ⟨qs, e⟩ := ih h2
    have hi : b1.builder.iimpl = b.builder.iimpl := d.run.sameDocs.2.2.1.symm
    have hmono : ∀ l, b1.hasLayer1 l = true → b'.hasLayer1 l = true := by
      intro l hl
      cases l with
      | bitcoin => rfl
      | liquid =>
        have : b1.liquid = true := hl
        show b'.liquid = true
        rw [e.liquid, this]; rfl
    have hmono0 : ∀ l, b.hasLayer1 l = true → b1.hasLayer1 l = true := by
      intro l hl
      cases l with
      | bitcoin => rfl
      | liquid =>
        have : b.liquid = true := hl
        show b1.liquid = true
        rw [d.liquid, this]; rfl
    refine ⟨ps ++ qs, d.run.append e.run, ?_, ?_, ?_, ?_, ?_, ?_⟩
    · rw [puts_append, List.map_append, d.puts, e.puts, hi]
      cases hc : c.slot b.builder.iimpl <;> simp [List.filterMap_cons, hc]
    · rw [globs_append, d.globs, e.globs, hi]
      cases hc : c.global b.builder.iimpl <;> simp [List.filterMap_cons, hc]
    · intro x hx
      rw [List.filterMap_cons] at hx
      cases hc : c.slot b.builder.iimpl with
      | none => rw [hc] at hx; simp only at hx; exact e.layer x (hi ▸ hx)
      | some y =>
        rw [hc] at hx
        simp only [List.mem_cons] at hx
        rcases hx with rfl | hx
        · exact hmono _ (hmono0 _ (d.layer _ hc))
        · exact e.layer x (hi ▸ hx)
    · rw [e.liquid, d.liquid]
      by_cases hc : c = .addLiquid
      · simp [hc]
      · have : (CCall.addLiquid ∈ c :: cs) ↔ (CCall.addLiquid ∈ cs) := by
          simp only [List.mem_cons, or_iff_right_iff_imp]; intro h; exact absurd h.symm hc
        simp [hc, this]
    · rw [mds_append, d.mds, e.mds, hi]
      cases hc : c.metadatum b.builder.iimpl <;> simp [List.filterMap_cons, hc]
    · rw [tagsSet_append, List.length_append, List.length_cons]
      have := d.ntags; have := e.ntags; omega

theorem new_inv (det : Bool) (issuer : Nat) (iface : Iface) (schema : Schema) (iimpl : IfaceImpl) :
    (new det issuer iface schema iimpl).builder.Inv := by
  refine ⟨?_, ?_, ?_, ?_, ?_⟩
  · intro k; cases k <;> exact Slots.WF.nil
  · intro k ty h; cases k <;> cases h
  · intro k ty sl st h; cases k <;> cases h
  · intro ty sl v bl t h; cases h
  · intro ty h; cases h

end ContractBuilder

/-! ### Transition builder -/

namespace TransitionBuilder

theorem set_ok {b b' : TransitionBuilder} {x : Except BErr OpBuilder} :
    b.set x = .ok b' ↔ ∃ o, x = .ok o ∧ b' = { b with builder := o } := by
  simp only [set, except_bind_ok]
  constructor
  · rintro ⟨o, h, h'⟩; cases h'; exact ⟨o, h, rfl⟩
  · rintro ⟨o, h, rfl⟩; exact ⟨o, h, rfl⟩

theorem defaultAssignment_ok {b : TransitionBuilder} {n : Nat} :
    b.defaultAssignment = .ok n ↔ defaultName b.builder.iface b.builder.iimpl b.ty = some n := by
  unfold defaultAssignment defaultName
  simp only [OpBuilder.transitionIface, except_bind_ok, orErr_ok, Option.bind_eq_some_iff]

/-- What a successful call does. -/
structure Did (b : TransitionBuilder) (c : TCall) (b' : TransitionBuilder) (ps : List Prim) : Prop where
  run : PRun b.builder ps b'.builder
  puts : (puts ps).map slotUntag = ((c.slot b.builder.iimpl (defaultName b.builder.iface b.builder.iimpl b.ty)).map slotUntag).toList
  globs : globs ps = (c.global b.builder.iimpl).toList
  tags : tagsSet ps = (c.tagged b.builder.iimpl).toList
  inputs : b'.inputs = OMap.extend b.inputs c.input.toList
  same : b'.contract = b.contract ∧ b'.ty = b.ty
  mds : mds ps = (c.metadatum b.builder.iimpl).toList

theorem addFungibleDet_did {E : BEnv} {b b' : TransitionBuilder} {name : Nat} {sl : BSeal} {v bl : Nat}
    (h : b.addFungibleDet E name sl v bl = .ok b') :
    ∃ ty t, typeByName b.builder.iimpl.assignments name = some ty ∧ ∃ o, b' = { b with builder := o } ∧
      PStep b.builder (.put ty sl (.fungible v bl t)) o := by
  simp only [addFungibleDet, except_bind_ok, set_ok, OpBuilder.typeOf_ok, OpBuilder.assetTagRaw, orErr_ok] at h
  obtain ⟨ty, hn, t, ht, o, h, rfl⟩ := h
  exact ⟨ty, t, hn, o, rfl, OpBuilder.addFungibleDet_step h hn ht⟩

theorem call_did {E : BEnv} {b b' : TransitionBuilder} {c : TCall} (h : b.call E c = .ok b') : ∃ ps, Did b c b' ps := by
  cases c with
  | setNonce n => cases h; exact ⟨[], PRun.nil _, rfl, rfl, rfl, rfl, ⟨rfl, rfl⟩, rfl⟩
  | addAssetTag name t =>
    simp only [call, set_ok] at h
    obtain ⟨o, h, rfl⟩ := h
    obtain ⟨ty, hn, s⟩ := OpBuilder.addAssetTag_step h
    exact ⟨_, PRun.one s, rfl, rfl, by simp [TCall.tagged, hn, Rgb.tagsSet], rfl, ⟨rfl, rfl⟩, rfl⟩
  | addAssetTagRaw ty t =>
    simp only [call, set_ok] at h
    obtain ⟨o, h, rfl⟩ := h
    exact ⟨_, PRun.one (OpBuilder.addAssetTagRaw_step h), rfl, rfl, rfl, rfl, ⟨rfl, rfl⟩, rfl⟩
  | addMetadata name v =>
    simp only [call, set_ok] at h
    obtain ⟨o, h, rfl⟩ := h
    obtain ⟨ty, v, rfl, hn, s⟩ := OpBuilder.addMetadata_step h
    exact ⟨_, PRun.one s, rfl, rfl, rfl, rfl, ⟨rfl, rfl⟩, by simp [TCall.metadatum, hn, Rgb.mds]⟩
  | addGlobal name v =>
    simp only [call, set_ok] at h
    obtain ⟨o, h, rfl⟩ := h
    obtain ⟨ty, v, rfl, hn, s⟩ := OpBuilder.addGlobal_step h
    exact ⟨_, PRun.one s, rfl, by simp [TCall.global, hn, Rgb.globs], rfl, rfl, ⟨rfl, rfl⟩, rfl⟩
  | addInput o st =>
    simp only [call, addInput, except_bind_ok, insertMax_ok] at h
    obtain ⟨m, ⟨-, rfl⟩, h⟩ := h
    cases h
    exact ⟨[], PRun.nil _, rfl, rfl, rfl, rfl, ⟨rfl, rfl⟩, rfl⟩
  | addOwnedDet name sl st =>
    simp only [call, set_ok] at h
    obtain ⟨o, h, rfl⟩ := h
    obtain ⟨ty, hn, s⟩ := OpBuilder.addOwnedDet_step h
    exact ⟨_, PRun.one s, by simp [TCall.slot, TCall.assigned, hn, Rgb.puts], rfl, rfl, rfl, ⟨rfl, rfl⟩, rfl⟩
  | addOwnedRaw ty sl st =>
    simp only [call, addOwnedRaw, except_bind_ok, set_ok] at h
    obtain ⟨_, _, o, h, rfl⟩ := h
    exact ⟨_, PRun.one (OpBuilder.addOwnedRaw_step h), rfl, rfl, rfl, rfl, ⟨rfl, rfl⟩, rfl⟩
  | addRights name sl =>
    simp only [call, set_ok] at h
    obtain ⟨o, h, rfl⟩ := h
    obtain ⟨ty, hn, s⟩ := OpBuilder.addRights_step h
    exact ⟨_, PRun.one s, by simp [TCall.slot, TCall.assigned, hn, Rgb.puts], rfl, rfl, rfl, ⟨rfl, rfl⟩, rfl⟩
  | addFungibleDefault det sl v bl =>
    simp only [call, addFungibleDefault, except_bind_ok, defaultAssignment_ok] at h
    obtain ⟨name, hd, h⟩ := h
    cases det with
    | true =>
      simp only [if_true] at h
      obtain ⟨ty, t, hn, o, rfl, s⟩ := addFungibleDet_did h
      exact ⟨_, PRun.one s, by simp [TCall.slot, TCall.assigned, hd, hn, Rgb.puts, slotUntag, RState.untag], rfl, rfl, rfl, ⟨rfl, rfl⟩, rfl⟩
    | false =>
      simp only [Bool.false_eq_true, if_false, addFungible, set_ok] at h
      obtain ⟨o, h, rfl⟩ := h
      obtain ⟨ty, t, hn, s⟩ := OpBuilder.addFungible_step h
      exact ⟨_, PRun.one s, by simp [TCall.slot, TCall.assigned, hd, hn, Rgb.puts, slotUntag, RState.untag], rfl, rfl, rfl, ⟨rfl, rfl⟩, rfl⟩
  | addFungible name sl v bl =>
    simp only [call, addFungible, set_ok] at h
    obtain ⟨o, h, rfl⟩ := h
    obtain ⟨ty, t, hn, s⟩ := OpBuilder.addFungible_step h
    exact ⟨_, PRun.one s, by simp [TCall.slot, TCall.assigned, hn, Rgb.puts, slotUntag, RState.untag], rfl, rfl, rfl, ⟨rfl, rfl⟩, rfl⟩
  | addFungibleDet name sl v bl =>
    obtain ⟨ty, t, hn, o, rfl, s⟩ := addFungibleDet_did h
    exact ⟨_, PRun.one s, by simp [TCall.slot, TCall.assigned, hn, Rgb.puts, slotUntag, RState.untag], rfl, rfl, rfl, ⟨rfl, rfl⟩, rfl⟩
  | addFungibleRaw ty sl v bl =>
    simp only [call, addFungibleRaw, except_bind_ok, set_ok, OpBuilder.assetTagRaw, orErr_ok] at h
    obtain ⟨t, ht, o, h, rfl⟩ := h
    exact ⟨_, PRun.one (OpBuilder.addFungibleRaw_step h ht), rfl, rfl, rfl, rfl, ⟨rfl, rfl⟩, rfl⟩
  | addData name sl v salt =>
    simp only [call, set_ok] at h
    obtain ⟨o, h, rfl⟩ := h
    obtain ⟨ty, v, rfl, hn, s⟩ := OpBuilder.addData_step h
    exact ⟨_, PRun.one s, by simp [TCall.slot, TCall.assigned, hn, Rgb.puts], rfl, rfl, rfl, ⟨rfl, rfl⟩, rfl⟩
  | addDataDet name sl v salt =>
    simp only [call, set_ok] at h
    obtain ⟨o, h, rfl⟩ := h
    obtain ⟨ty, hn, s⟩ := OpBuilder.addDataDet_step h
    exact ⟨_, PRun.one s, by simp [TCall.slot, TCall.assigned, hn, Rgb.puts], rfl, rfl, rfl, ⟨rfl, rfl⟩, rfl⟩
  | addDataRaw ty sl v salt =>
    simp only [call, set_ok] at h
    obtain ⟨o, h, rfl⟩ := h
    exact ⟨_, PRun.one (OpBuilder.addDataRaw_step h), rfl, rfl, rfl, rfl, ⟨rfl, rfl⟩, rfl⟩
  | addDataDefault sl v salt =>
    simp only [call, addDataDefault, except_bind_ok, defaultAssignment_ok, set_ok] at h
    obtain ⟨name, hd, o, h, rfl⟩ := h
    obtain ⟨ty, v, rfl, hn, s⟩ := OpBuilder.addData_step h
    exact ⟨_, PRun.one s, by simp [TCall.slot, TCall.assigned, hd, hn, Rgb.puts], rfl, rfl, rfl, ⟨rfl, rfl⟩, rfl⟩
  | addAttachment det name sl f m salt =>
    simp only [call, set_ok] at h
    obtain ⟨o, h, rfl⟩ := h
    obtain ⟨ty, hn, s⟩ := OpBuilder.addAttachment_step h
    exact ⟨_, PRun.one s, by simp [TCall.slot, TCall.assigned, hn, Rgb.puts], rfl, rfl, rfl, ⟨rfl, rfl⟩, rfl⟩

/-- What successful calls do. -/
structure DidAll (b : TransitionBuilder) (cs : List TCall) (b' : TransitionBuilder) (ps : List Prim) : Prop where
  run : PRun b.builder ps b'.builder
  puts : (puts ps).map slotUntag =
    (cs.filterMap (TCall.slot b.builder.iimpl (defaultName b.builder.iface b.builder.iimpl b.ty))).map slotUntag
  globs : globs ps = cs.filterMap (TCall.global b.builder.iimpl)
  tags : tagsSet ps = cs.filterMap (TCall.tagged b.builder.iimpl)
  inputs : b'.inputs = OMap.extend b.inputs (cs.filterMap TCall.input)
  same : b'.contract = b.contract ∧ b'.ty = b.ty
  mds : mds ps = cs.filterMap (TCall.metadatum b.builder.iimpl)

theorem calls_did {E : BEnv} {cs : List TCall} : ∀ {b b' : TransitionBuilder}, calls E cs b = .ok b' → ∃ ps, DidAll b cs b' ps := by
  induction cs with
  | nil => intro b b' h; cases h; exact ⟨[], PRun.nil _, rfl, rfl, rfl, rfl, ⟨rfl, rfl⟩, rfl⟩
  | cons c cs ih =>
    intro b b' h
    simp only [calls, except_bind_ok] at h
    obtain ⟨b1, h1, h2⟩ := h
    obtain ⟨ps, d⟩ := call_did h1
    obtain ⟨qs, e⟩ := ih h2
    have hi : b1.builder.iimpl = b.builder.iimpl := d.run.sameDocs.2.2.1.symm
    have hf : b1.builder.iface = b.builder.iface := d.run.sameDocs.2.1.symm
    refine ⟨ps ++ qs, d.run.append e.run, ?_, ?_, ?_, ?_, ⟨e.same.1.trans d.same.1, e.same.2.trans d.same.2⟩, ?_⟩
    · rw [puts_append, List.map_append, d.puts, e.puts, hi, hf, d.same.2]
      cases hc : c.slot b.builder.iimpl (defaultName b.builder.iface b.builder.iimpl b.ty) <;> simp [List.filterMap_cons, hc]
    · rw [globs_append, d.globs, e.globs, hi]
      cases hc : c.global b.builder.iimpl <;> simp [List.filterMap_cons, hc]
    · rw [tagsSet_append, d.tags, e.tags, hi]
      cases hc : c.tagged b.builder.iimpl <;> simp [List.filterMap_cons, hc]
    · rw [e.inputs, d.inputs, ← OMap.extend_append]
      cases hc : c.input <;> simp [List.filterMap_cons, hc]
    · rw [mds_append, d.mds, e.mds, hi]
      cases hc : c.metadatum b.builder.iimpl <;> simp [List.filterMap_cons, hc]

theorem new_inv (det : Bool) (contract : Nat) (iface : Iface) (schema : Schema) (iimpl : IfaceImpl) (ty : Nat) :
    (new det contract iface schema iimpl ty).builder.Inv := by
  refine ⟨?_, ?_, ?_, ?_, ?_⟩
  · intro k; cases k <;> exact Slots.WF.nil
  · intro k ty h; cases k <;> cases h
  · intro k ty sl st h; cases k <;> cases h
  · intro ty sl v bl t h; cases h
  · intro ty h; cases h

end TransitionBuilder

theorem get?_extend {κ ν : Type} [Key κ] [DecidableEq κ] (m : OMap κ ν) (es : List (κ × ν)) (k : κ) :
    OMap.get? (OMap.extend m es) k = (lastFor k es).or (OMap.get? m k) := by
  induction es generalizing m with
  | nil => simp [OMap.extend, lastFor_nil]
  | cons e es ih =>
    rw [OMap.extend_cons, ih, show e :: es = [e] ++ es from rfl, lastFor_cat, Option.or_assoc]
    congr 1
    rw [OMap.get?_insert]
    by_cases h : k = e.1
    · simp [h, lastFor]
    · simp [h, Ne.symm h, lastFor]

end Rgb
