import Verif.Lemmas.BuilderFinal
import Verif.Spec.Iface

/-!
# Builders of contracts and transitions: C43 – C46

A contract or a transition is built by any sequence of calls; each call takes the builder returned by the previous one. What is drawn
at random is an argument of the calls. The dependencies are in `BEnv`, with what is assumed of them in `BEnv.Lawful`.
-/

namespace Rgb.Props

open Rgb

/-! ### Examples used below -/

/-- A schema with two types of amounts, a right, data and an attachment. -/
def mixedSchema : Schema where
  metaTypes := [(1010, 7)]
  globalTypes := [(2000, (7, 1)), (2001, (8, 9))]
  ownedTypes := [(4000, .fungible 8), (4001, .declarative), (4002, .structured 7), (4003, .attachment 0), (4004, .fungible 8)]
  transitions := [(10000, { inputs := some [(4000, ⟨1, 0⟩)], assignments := [(4000, ⟨1, 0⟩)] })]

/-- An interface which names them. -/
def mixedIface : Iface where
  name := 300
  metadata := [(1, 7)]
  globalState := [(1, .mk' (some 7) .required), (2, .mk' none .oneOrMore)]
  assignments := [(1, .mk' false .amount .oneOrMore), (2, .mk' true .rights .optional), (3, .mk' false .any .noneOrMore)]
  genesis := { modifier := .final }
  transitions := [(1, { modifier := .final, defaultAssignment := some 1 })]
  defaultOperation := some 1

def mixedImpl : IfaceImpl where
  schemaId := 1
  ifaceId := 300
  metadata := [⟨1010, 1, 0⟩]
  globalState := [⟨2000, 1, 0⟩, ⟨2001, 2, 0⟩]
  assignments := [⟨4000, 1, 0⟩, ⟨4001, 2, 0⟩, ⟨4002, 3, 0⟩, ⟨4003, 4, 0⟩, ⟨4004, 5, 0⟩]
  transitions := [⟨10000, 1, 0⟩]

/-- Blinding factors modulo 97; values of the type 7 are less than 100. -/
def calcEnv : BEnv where
  debug := true
  types := fun sem v => sem ≠ 7 || decide (v < 100)
  emptyBlinding := 126
  balance := fun ins outs => some ((ins.sum + 96 * outs.sum) % 97)
  order := List.reverse

theorem calcEnv_lawful : calcEnv.Lawful 97 := by
  refine ⟨?_, fun l => List.reverse_perm l⟩
  intro ins outs b h
  simp only [calcEnv, Option.some.injEq] at h
  omega

def sealA : BSeal := .revealed ⟨.bitcoin, .opretFirst, none, 1, 11⟩
def sealB : BSeal := .concealed .bitcoin 77
def sealL : BSeal := .revealed ⟨.liquid, .tapretFirst, some 5, 0, 12⟩

/-- Calls which build a contract. -/
def issueCalls : List CCall :=
  [.addLiquid, .addGlobal 1 (some 42), .addGlobal 2 (some 1), .addAssetTag 1 1000, .addGlobal 2 (some 2), .addFungible 1 sealA 500 31 999,
    .addFungible 1 sealB 250 32 998, .addRights 2 sealL, .addRights 2 sealA, .addFungible 5 sealA 7 33 997, .addData 3 sealB (some 13) 14,
    .addAttachment false 4 sealA 1 2 3]

/-- Calls which build a transition. -/
def moveCalls : List TCall :=
  [.addAssetTag 1 1000, .addInput ⟨9, 4000, 0⟩ (.fungible 500 41 1000), .addInput ⟨9, 4000, 1⟩ (.fungible 250 42 1000),
    .addInput ⟨9, 4001, 0⟩ .void, .addFungibleDefault false sealB 600 51, .addFungible 1 sealA 100 52, .addFungible 1 sealL 50 53,
    .addRights 2 sealA, .addGlobal 2 (some 3)]

def issuedBuilder : ContractBuilder :=
  ((ContractBuilder.calls calcEnv issueCalls (.new false 1 mixedIface mixedSchema mixedImpl)).toOption).getD
    (.new false 1 mixedIface mixedSchema mixedImpl)

def movedBuilder : TransitionBuilder :=
  ((TransitionBuilder.calls calcEnv moveCalls (.new false 8 mixedIface mixedSchema mixedImpl 10000)).toOption).getD
    (.new false 8 mixedIface mixedSchema mixedImpl 10000)

/-- The genesis these calls give. -/
def issued : BuiltGenesis where
  timestamp := 0
  testnet := true
  liquid := true
  tags := [(4000, 1000), (4004, 997)]
  metadata := []
  globals := [(2000, [42]), (2001, [1, 2])]
  assigns :=
    [(4000, ⟨.fungible, [.revealed ⟨.bitcoin, .opretFirst, none, 1, 11⟩ (.fungible 500 31 1000), .confidentialSeal 154 (.fungible 250 95 1000)]⟩),
      (4001, ⟨.declarative, [.revealed ⟨.liquid, .tapretFirst, some 5, 0, 12⟩ .void, .revealed ⟨.bitcoin, .opretFirst, none, 1, 11⟩ .void]⟩),
      (4002, ⟨.structured, [.confidentialSeal 154 (.data 13 14)]⟩),
      (4003, ⟨.attachment, [.revealed ⟨.bitcoin, .opretFirst, none, 1, 11⟩ (.attach 1 2 3)]⟩),
      (4004, ⟨.fungible, [.revealed ⟨.bitcoin, .opretFirst, none, 1, 11⟩ (.fungible 7 29 997)]⟩)]
  issuer := 1

/-- The transition these calls give. -/
def moved : BuiltTransition where
  op :=
    { kind := .transition, contract := 8, ty := 10000, nonce := 18446744073709551615, globals := [(2001, [3])],
      inputs := [⟨9, 4000, 0⟩, ⟨9, 4000, 1⟩, ⟨9, 4001, 0⟩],
      assigns :=
        [(4000, ⟨.fungible,
            [.revealed ⟨.bitcoin, .opretFirst, none, 1, 11⟩ (.fungible 100 52 1000),
              .revealed ⟨.liquid, .tapretFirst, some 5, 0, 12⟩ (.fungible 50 53 1000), .confidentialSeal 154 (.fungible 600 75 1000)]⟩),
          (4001, ⟨.declarative, [.revealed ⟨.bitcoin, .opretFirst, none, 1, 11⟩ .void]⟩)] }
  metadata := []

theorem issued_calls : ContractBuilder.calls calcEnv issueCalls (.new false 1 mixedIface mixedSchema mixedImpl) = .ok issuedBuilder := by
  have : ((ContractBuilder.calls calcEnv issueCalls (.new false 1 mixedIface mixedSchema mixedImpl)).toOption).isSome = true := by
    decide +kernel
  unfold issuedBuilder
  cases h : ContractBuilder.calls calcEnv issueCalls (.new false 1 mixedIface mixedSchema mixedImpl) with
  | ok b => rfl
  | error e => rw [h] at this; cases this

theorem issued_made : issuedBuilder.issue calcEnv (fun _ => true) false 0 = .ok issued := by decide +kernel

theorem moved_calls :
    TransitionBuilder.calls calcEnv moveCalls (.new false 8 mixedIface mixedSchema mixedImpl 10000) = .ok movedBuilder := by
  have : ((TransitionBuilder.calls calcEnv moveCalls (.new false 8 mixedIface mixedSchema mixedImpl 10000)).toOption).isSome = true := by
    decide +kernel
  unfold movedBuilder
  cases h : TransitionBuilder.calls calcEnv moveCalls (.new false 8 mixedIface mixedSchema mixedImpl 10000) with
  | ok b => rfl
  | error e => rw [h] at this; cases this

theorem moved_made : movedBuilder.complete calcEnv = .ok moved := by decide +kernel

/-! ### C43 -/

/-- **C43**, in part: in a completed transition the blinding factors of assignments of each fungible type sum up to the ones of its
inputs of that type, if there are such inputs. Missing: types with inputs and no assignments, see `C43_burn_fails`. -/
theorem C43_balanced_partial {E : BEnv} {n : Nat} (hE : E.Lawful n) {det : Bool} {contract ty : Nat} {iface : Iface} {schema : Schema}
    {iimpl : IfaceImpl} {cs : List TCall} {b : TransitionBuilder}
    (h : TransitionBuilder.calls E cs (.new det contract iface schema iimpl ty) = .ok b) {t : BuiltTransition} (ht : b.complete E = .ok t)
    {aty : Nat} {ta : TypedAssigns} (ha : OMap.get? t.op.assigns aty = some ta) (hk : ta.kind = .fungible)
    (hin : ∃ o ∈ t.op.inputs, o.ty = aty) :
    ta.blindingSum % n = ((t.op.inputs.filter (fun o => o.ty = aty)).map
      (fun o => ((lastFor o (cs.filterMap TCall.input)).map RState.blindingFactor).getD 0)).sum % n := by
  obtain ⟨ps, d⟩ := TransitionBuilder.calls_did h
  obtain ⟨a, hc, rfl⟩ := TransitionBuilder.complete_ok ht
  have hi := d.run.inv (TransitionBuilder.new_inv _ _ _ _ _ _)
  have hC := (OpBuilder.complete_get hi hc aty ta).1 ha
  obtain ⟨items, hg, hf⟩ := Completed.kind hC
  rw [hk] at hg
  have hs := completeFungible_sum hE (hf hk) (by
    intro e he
    have hw := (hi.wf .fungible).inner aty items hg
    exact hi.kinds .fungible aty e.1 e.2 (by simp only [Slots.find, hg]; exact hw.1.get?_of_mem he))
  have hsorted : OMap.Sorted b.inputs := by rw [d.inputs]; exact OMap.Sorted.nil.extend _
  have hlast : ∀ o, OMap.get? b.inputs o = lastFor o (cs.filterMap TCall.input) := by
    intro o; rw [d.inputs, get?_extend]; simp [TransitionBuilder.new]
  rw [hs, filter_map_keys hsorted (fun o => decide (o.ty = aty)) RState.blindingFactor]
  have hne : ((OMap.keys b.inputs).filter (fun o => decide (o.ty = aty))).map
      (fun k => ((OMap.get? b.inputs k).map RState.blindingFactor).getD 0) ≠ [] := by
    obtain ⟨o, ho, hoty⟩ := hin
    simp only [ne_eq, List.map_eq_nil_iff, List.filter_eq_nil_iff, decide_eq_true_eq]
    intro hall; exact hall o ho hoty
  have ho : ∀ l : List Nat, l ≠ [] → OpBuilder.orEmpty E l = l := by intro l hl; cases l <;> simp_all [OpBuilder.orEmpty]
  rw [ho _ hne]
  simp only [hlast]

/-- **C43**, in part: amounts which are issued, in a contract or by a transition with no inputs of the type, are blinded by factors which
sum up to the constant known to everyone.
Missing: types with inputs and no outputs, see `C43_burn_fails`. -/
theorem C43_issue_partial {E : BEnv} {n : Nat} (hE : E.Lawful n) {det : Bool} {issuer : Nat} {iface : Iface} {schema : Schema}
    {iimpl : IfaceImpl} {cs : List CCall} {b : ContractBuilder}
    (h : ContractBuilder.calls E cs (.new det issuer iface schema iimpl) = .ok b)
    {valid : BuiltGenesis → Bool} {det' : Bool} {ts : Int} {g : BuiltGenesis} (hg : b.issue E valid det' ts = .ok g)
    {aty : Nat} {ta : TypedAssigns} (ha : OMap.get? g.assigns aty = some ta) (hk : ta.kind = .fungible) :
    ta.blindingSum % n = E.emptyBlinding % n := by
  obtain ⟨ps, d⟩ := ContractBuilder.calls_did h
  obtain ⟨a, hc, -, rfl⟩ := ContractBuilder.issue_ok hg
  have hi := d.run.inv (ContractBuilder.new_inv _ _ _ _ _)
  have hC := (OpBuilder.complete_get hi hc aty ta).1 ha
  obtain ⟨items, hgt, hf⟩ := Completed.kind hC
  rw [hk] at hgt
  have hs := completeFungible_sum hE (hf hk) (by
    intro e he
    have hw := (hi.wf .fungible).inner aty items hgt
    exact hi.kinds .fungible aty e.1 e.2 (by simp only [Slots.find, hgt]; exact hw.1.get?_of_mem he))
  rw [hs]; simp [OpBuilder.orEmpty]

theorem C43_issue_transition_partial {E : BEnv} {n : Nat} (hE : E.Lawful n) {det : Bool} {contract ty : Nat} {iface : Iface}
    {schema : Schema} {iimpl : IfaceImpl} {cs : List TCall} {b : TransitionBuilder}
    (h : TransitionBuilder.calls E cs (.new det contract iface schema iimpl ty) = .ok b) {t : BuiltTransition} (ht : b.complete E = .ok t)
    {aty : Nat} {ta : TypedAssigns} (ha : OMap.get? t.op.assigns aty = some ta) (hk : ta.kind = .fungible)
    (hin : ¬ ∃ o ∈ t.op.inputs, o.ty = aty) :
    ta.blindingSum % n = E.emptyBlinding % n := by
  obtain ⟨ps, d⟩ := TransitionBuilder.calls_did h
  obtain ⟨a, hc, rfl⟩ := TransitionBuilder.complete_ok ht
  have hi := d.run.inv (TransitionBuilder.new_inv _ _ _ _ _ _)
  have hC := (OpBuilder.complete_get hi hc aty ta).1 ha
  obtain ⟨items, hg, hf⟩ := Completed.kind hC
  rw [hk] at hg
  have hs := completeFungible_sum hE (hf hk) (by
    intro e he
    have hw := (hi.wf .fungible).inner aty items hg
    exact hi.kinds .fungible aty e.1 e.2 (by simp only [Slots.find, hg]; exact hw.1.get?_of_mem he))
  have hsorted : OMap.Sorted b.inputs := by rw [d.inputs]; exact OMap.Sorted.nil.extend _
  have hnil : (OMap.keys b.inputs).filter (fun o => decide (o.ty = aty)) = [] := by
    simp only [List.filter_eq_nil_iff, decide_eq_true_eq]
    intro o ho hoty; exact hin ⟨o, ho, hoty⟩
  rw [hs, filter_map_keys hsorted (fun o => decide (o.ty = aty)) RState.blindingFactor, hnil]
  simp [OpBuilder.orEmpty]

/-- **C43** is false of the code: a transition which has inputs of a fungible type and assigns nothing of that type completes, and the
blinding factors aren't balanced. -/
theorem C43_burn_fails : ∃ (cs : List TCall) (b : TransitionBuilder) (t : BuiltTransition),
    TransitionBuilder.calls calcEnv cs (.new false 8 mixedIface mixedSchema mixedImpl 10000) = .ok b ∧ b.complete calcEnv = .ok t ∧
      lastFor ⟨9, 4000, 0⟩ (cs.filterMap TCall.input) = some (.fungible 500 41 1000) ∧
      (⟨9, 4000, 0⟩ : Opout) ∈ t.op.inputs ∧ t.op.assigns = [] :=
  ⟨[.addInput ⟨9, 4000, 0⟩ (.fungible 500 41 1000)], _, _, rfl, rfl, by decide, by decide, rfl⟩

example : ∃ ta, OMap.get? moved.op.assigns 4000 = some ta ∧ ta.kind = .fungible ∧ (∃ o ∈ moved.op.inputs, o.ty = 4000) ∧
    ta.blindingSum % 97 = (41 + 42) % 97 ∧ ta.items.length = 3 := ⟨_, rfl, rfl, ⟨⟨9, 4000, 0⟩, by decide, rfl⟩, by decide, rfl⟩

example : ∃ ta, OMap.get? issued.assigns 4000 = some ta ∧ ta.kind = .fungible ∧ ta.blindingSum % 97 = 126 % 97 :=
  ⟨_, rfl, rfl, by decide⟩

/-! ### C44 -/

/-- **C44.** Each amount in an issued contract has the tag recorded in the genesis for its type. -/
theorem C44_state {E : BEnv} {n : Nat} (hE : E.Lawful n) {det : Bool} {issuer : Nat} {iface : Iface} {schema : Schema}
    {iimpl : IfaceImpl} {cs : List CCall} {b : ContractBuilder}
    (h : ContractBuilder.calls E cs (.new det issuer iface schema iimpl) = .ok b)
    {valid : BuiltGenesis → Bool} {det' : Bool} {ts : Int} {g : BuiltGenesis} (hg : b.issue E valid det' ts = .ok g)
    {ty : Nat} {t : TypedAssigns} {a : Assign} {v bl tag : Nat} (ht : OMap.get? g.assigns ty = some t) (ha : a ∈ t.items)
    (hst : a.state? = some (.fungible v bl tag)) : OMap.get? g.tags ty = some tag := by
  obtain ⟨ps, d⟩ := ContractBuilder.calls_did h
  obtain ⟨as, hc, -, rfl⟩ := ContractBuilder.issue_ok hg
  have hi := d.run.inv (ContractBuilder.new_inv _ _ _ _ _)
  exact Completed.tag hE hi ((OpBuilder.complete_get hi hc ty t).1 ht) ha hst

/-- **C44.** Each amount in a built transition has the tag which was last set for its type. -/
theorem C44_transition {E : BEnv} {n : Nat} (hE : E.Lawful n) {det : Bool} {contract ty : Nat} {iface : Iface} {schema : Schema}
    {iimpl : IfaceImpl} {cs : List TCall} {b : TransitionBuilder}
    (h : TransitionBuilder.calls E cs (.new det contract iface schema iimpl ty) = .ok b) {t : BuiltTransition} (ht : b.complete E = .ok t)
    {aty : Nat} {ta : TypedAssigns} {a : Assign} {v bl tag : Nat} (hta : OMap.get? t.op.assigns aty = some ta) (ha : a ∈ ta.items)
    (hst : a.state? = some (.fungible v bl tag)) : lastFor aty (cs.filterMap (TCall.tagged iimpl)) = some tag := by
  obtain ⟨ps, d⟩ := TransitionBuilder.calls_did h
  obtain ⟨as, hc, rfl⟩ := TransitionBuilder.complete_ok ht
  have hi := d.run.inv (TransitionBuilder.new_inv _ _ _ _ _ _)
  have h1 := Completed.tag hE hi ((OpBuilder.complete_get hi hc aty ta).1 hta) ha hst
  rw [d.run.tags, d.tags] at h1
  simpa [TransitionBuilder.new] using h1

/-- **C44.** After an amount of a type was added to a contract, the type has a tag, which stays the same whatever is called later, and
setting it is refused. -/
theorem C44_fixed {E : BEnv} {det : Bool} {issuer : Nat} {iface : Iface} {schema : Schema} {iimpl : IfaceImpl} {cs cs' : List CCall}
    {b b' : ContractBuilder} (h : ContractBuilder.calls E cs (.new det issuer iface schema iimpl) = .ok b)
    (h' : ContractBuilder.calls E cs' b = .ok b') {c : CCall} (hc : c ∈ cs) {ty : Nat} {sl : BSeal} {st : RState}
    (ha : c.assigned iimpl = some (ty, sl, st)) (hst : st.isAmount = true) {name : Nat}
    (hn : typeByName iimpl.assignments name = some ty) :
    ∃ tag, b.builder.assetTag name = .ok tag ∧ b'.builder.assetTag name = .ok tag ∧
      ∀ new, b'.call E (.addAssetTag name new) = .error (.assetTagAutomatic ty) := by
  obtain ⟨ps, d⟩ := ContractBuilder.calls_did h
  obtain ⟨qs, d'⟩ := ContractBuilder.calls_did h'
  have hi := d.run.inv (ContractBuilder.new_inv _ _ _ _ _)
  have him : b.builder.iimpl = iimpl := d.run.sameDocs.2.2.1.symm
  have him' : b'.builder.iimpl = iimpl := d'.run.sameDocs.2.2.1.symm.trans him
  have hslot : ((ty, sl), st) ∈ cs.filterMap (CCall.slot iimpl) := by
    rw [List.mem_filterMap]; exact ⟨c, hc, by simp [CCall.slot, ha]⟩
  have hput : ∃ st', ((ty, sl), st') ∈ puts ps ∧ st'.kind = .fungible := by
    have h1 : slotUntag ((ty, sl), st) ∈ (puts ps).map slotUntag := by
      rw [d.puts]; exact List.mem_map_of_mem hslot
    rw [List.mem_map] at h1
    obtain ⟨e, he, hee⟩ := h1
    refine ⟨e.2, ?_, ?_⟩
    · have : e.1 = (ty, sl) := congrArg Prod.fst hee
      rw [← this]; exact he
    · have : e.2.untag = st.untag := congrArg Prod.snd hee
      rw [← RState.kind_untag, this, RState.kind_untag]
      cases st <;> simp [RState.isAmount] at hst; rfl
  obtain ⟨st', hp, hk⟩ := hput
  have hf := d.run.put_contains (ContractBuilder.new_inv _ _ _ _ _) hp hk
  obtain ⟨k1, k2⟩ := d'.run.tagKept hi hf
  obtain ⟨tag, htag⟩ := OMap.contains_iff.1 (hi.tagged ty hf)
  refine ⟨tag, ?_, ?_, ?_⟩
  · simp [OpBuilder.assetTag, OpBuilder.typeOf, OpBuilder.assignmentsType, him, hn, orErr, OpBuilder.assetTagRaw, htag,
      except_bind_ok]
  · simp [OpBuilder.assetTag, OpBuilder.typeOf, OpBuilder.assignmentsType, him', hn, orErr, OpBuilder.assetTagRaw, k1, htag,
      except_bind_ok]
  · intro new
    simp [ContractBuilder.call, ContractBuilder.set, OpBuilder.addAssetTag, OpBuilder.typeOf, OpBuilder.assignmentsType, him', hn, orErr,
      OpBuilder.addAssetTagRaw, k2, failIf, Except.bind, bind]

example : OMap.get? issued.tags 4000 = some 1000 ∧ CCall.addFungible 1 sealA 500 31 999 ∈ issueCalls ∧
    (CCall.addFungible 1 sealA 500 31 999).assigned mixedImpl = some (4000, sealA, .fungible 500 31 0) ∧
    lastFor 4000 (moveCalls.filterMap (TCall.tagged mixedImpl)) = some 1000 := by decide +kernel

/-! ### C45 -/

/-- **C45.** Each assignment of an issued contract is sealed on Bitcoin, or on Liquid if the genesis declares it; Liquid is declared
exactly if it was added to the builder. -/
theorem C45_layer {E : BEnv} {n : Nat} (hE : E.Lawful n) {det : Bool} {issuer : Nat} {iface : Iface} {schema : Schema}
    {iimpl : IfaceImpl} {cs : List CCall} {b : ContractBuilder}
    (h : ContractBuilder.calls E cs (.new det issuer iface schema iimpl) = .ok b)
    {valid : BuiltGenesis → Bool} {det' : Bool} {ts : Int} {g : BuiltGenesis} (hg : b.issue E valid det' ts = .ok g) :
    (g.liquid = true ↔ CCall.addLiquid ∈ cs) ∧
      ∀ (ty : Nat) (t : TypedAssigns) (a : Assign), OMap.get? g.assigns ty = some t → a ∈ t.items →
        a.layer1 = .bitcoin ∨ (a.layer1 = .liquid ∧ g.liquid = true) := by
  obtain ⟨ps, d⟩ := ContractBuilder.calls_did h
  obtain ⟨as, hc, -, rfl⟩ := ContractBuilder.issue_ok hg
  have hi := d.run.inv (ContractBuilder.new_inv _ _ _ _ _)
  refine ⟨?_, ?_⟩
  · show b.liquid = true ↔ _
    rw [d.liquid]; simp [ContractBuilder.new]
  · intro ty t a ht ha
    obtain ⟨sl, hsl, hl⟩ := Completed.sealed hE hi ((OpBuilder.complete_get hi hc ty t).1 ht) ha
    have := ContractBuilder.has_of_found (E := E) d (ContractBuilder.new_found _ _ _ _ _) hsl
    rw [hl]
    cases hx : sl.layer1 with
    | bitcoin => exact Or.inl rfl
    | liquid => rw [hx] at this; exact Or.inr ⟨rfl, this⟩

/-- **C45.** A seal on a layer which wasn't declared before is refused, whatever the call. -/
theorem C45_refused {E : BEnv} {det : Bool} {issuer : Nat} {iface : Iface} {schema : Schema}
    {iimpl : IfaceImpl} {cs : List CCall} {b : ContractBuilder}
    (h : ContractBuilder.calls E cs (.new det issuer iface schema iimpl) = .ok b) {c : CCall} {sl : BSeal} (hc : c.seal? = some sl)
    (hl : sl.layer1 = .liquid) (hno : CCall.addLiquid ∉ cs) : b.call E c = .error (.invalidLayer1 .liquid) := by
  obtain ⟨ps, d⟩ := ContractBuilder.calls_did h
  have hliq : b.liquid = false := by rw [d.liquid]; simp [ContractBuilder.new, hno]
  have hch : b.checkLayer1 sl.layer1 = .error (.invalidLayer1 .liquid) := by
    rw [hl]; simp [ContractBuilder.checkLayer1, ContractBuilder.hasLayer1, hliq, failIf]
  cases c <;> simp [CCall.seal?] at hc <;> subst hc <;>
    simp [ContractBuilder.call, ContractBuilder.sealed, ContractBuilder.addFungible, ContractBuilder.addFungibleDet, hch,
      Except.bind, bind]

example : (∃ t a, OMap.get? issued.assigns 4001 = some t ∧ a ∈ t.items ∧ a.layer1 = .liquid) ∧ issued.liquid = true := by
  refine ⟨⟨_, .revealed ⟨.liquid, .tapretFirst, some 5, 0, 12⟩ .void, rfl, ?_, rfl⟩, rfl⟩
  decide

example : ContractBuilder.calls calcEnv [.addGlobal 1 (some 42), .addRights 2 sealL] (.new false 1 mixedIface mixedSchema mixedImpl) =
    (.error (.invalidLayer1 .liquid) : Except BErr ContractBuilder) := rfl

/-! ### C46 -/

/-- **C46.** A built transition has exactly the inputs which were added. -/
theorem C46_inputs {E : BEnv} {det : Bool} {contract ty : Nat} {iface : Iface} {schema : Schema}
    {iimpl : IfaceImpl} {cs : List TCall} {b : TransitionBuilder}
    (h : TransitionBuilder.calls E cs (.new det contract iface schema iimpl ty) = .ok b) {t : BuiltTransition} (ht : b.complete E = .ok t)
    (o : Opout) : o ∈ t.op.inputs ↔ ∃ st, TCall.addInput o st ∈ cs := by
  obtain ⟨ps, d⟩ := TransitionBuilder.calls_did h
  obtain ⟨as, hc, rfl⟩ := TransitionBuilder.complete_ok ht
  show o ∈ OMap.keys b.inputs ↔ _
  rw [d.inputs, ← OMap.get?_isSome_iff, get?_extend]
  have : (TransitionBuilder.new det contract iface schema iimpl ty).inputs = [] := rfl
  rw [this, OMap.get?_nil, Option.or_none]
  constructor
  · intro hs
    obtain ⟨st, hst⟩ := Option.isSome_iff_exists.1 hs
    obtain ⟨c, hc, hci⟩ := List.mem_filterMap.1 (lastFor_mem hst)
    cases c <;> simp [TCall.input] at hci
    obtain ⟨rfl, rfl⟩ := hci
    exact ⟨_, hc⟩
  · rintro ⟨st, hst⟩
    cases hl : lastFor o (cs.filterMap TCall.input) with
    | some _ => rfl
    | none =>
      exact absurd rfl (lastFor_none.1 hl (o, st) (List.mem_filterMap.2 ⟨_, hst, rfl⟩))

/-- **C46.** Built transitions and contracts have exactly the global state which was added, of each type in the order of adding. -/
theorem C46_globals {E : BEnv} {det : Bool} {contract ty : Nat} {iface : Iface} {schema : Schema}
    {iimpl : IfaceImpl} {cs : List TCall} {b : TransitionBuilder}
    (h : TransitionBuilder.calls E cs (.new det contract iface schema iimpl ty) = .ok b) {t : BuiltTransition} (ht : b.complete E = .ok t)
    (g : Nat) : (OMap.get? t.op.globals g).getD [] = allFor g (cs.filterMap (TCall.global iimpl)) ∧ OMap.get? t.op.globals g ≠ some [] := by
  obtain ⟨ps, d⟩ := TransitionBuilder.calls_did h
  obtain ⟨as, hc, rfl⟩ := TransitionBuilder.complete_ok ht
  have := globals_empty (m := b.builder.globals) d.run rfl rfl g
  rw [d.globs] at this
  show (OMap.get? b.builder.globals g).getD [] = _ ∧ OMap.get? b.builder.globals g ≠ some []
  rw [this]
  have him : (TransitionBuilder.new det contract iface schema iimpl ty).builder.iimpl = iimpl := rfl
  rw [him]
  by_cases hx : allFor g (cs.filterMap (TCall.global iimpl)) = []
  · simp [hx]
  · simp [hx]

theorem C46_globals_contract {E : BEnv} {det : Bool} {issuer : Nat} {iface : Iface} {schema : Schema}
    {iimpl : IfaceImpl} {cs : List CCall} {b : ContractBuilder}
    (h : ContractBuilder.calls E cs (.new det issuer iface schema iimpl) = .ok b)
    {valid : BuiltGenesis → Bool} {det' : Bool} {ts : Int} {gen : BuiltGenesis} (hg : b.issue E valid det' ts = .ok gen)
    (g : Nat) : (OMap.get? gen.globals g).getD [] = allFor g (cs.filterMap (CCall.global iimpl)) ∧ OMap.get? gen.globals g ≠ some [] := by
  obtain ⟨ps, d⟩ := ContractBuilder.calls_did h
  obtain ⟨as, hc, -, rfl⟩ := ContractBuilder.issue_ok hg
  have := globals_empty (m := b.builder.globals) d.run rfl rfl g
  rw [d.globs] at this
  show (OMap.get? b.builder.globals g).getD [] = _ ∧ OMap.get? b.builder.globals g ≠ some []
  rw [this]
  have him : (ContractBuilder.new det issuer iface schema iimpl).builder.iimpl = iimpl := rfl
  rw [him]
  by_cases hx : allFor g (cs.filterMap (CCall.global iimpl)) = []
  · simp [hx]
  · simp [hx]

/-- **C46**, in part: a built transition assigns exactly the states which were added: of each type one to each seal for which a state was
added, and this is the one added last, up to its blinding factor and tag. Missing: what was added before to the same seal, see
`C46_same_seal_fails`. -/
theorem C46_assigned_partial {E : BEnv} {n : Nat} (hE : E.Lawful n) {det : Bool} {contract ty : Nat} {iface : Iface} {schema : Schema}
    {iimpl : IfaceImpl} {cs : List TCall} {b : TransitionBuilder}
    (h : TransitionBuilder.calls E cs (.new det contract iface schema iimpl ty) = .ok b) {t : BuiltTransition} (ht : b.complete E = .ok t)
    (aty : Nat) :
    (∀ ta, OMap.get? t.op.assigns aty = some ta →
        ta.Hold (fun sl => lastFor (aty, sl) (cs.filterMap (TCall.slot iimpl (defaultName iface iimpl ty))))) ∧
      ((∃ ta, OMap.get? t.op.assigns aty = some ta) ↔ ∃ c ∈ cs, ∃ sl st, c.assigned iimpl (defaultName iface iimpl ty) = some (aty, sl, st)) := by
  obtain ⟨ps, d⟩ := TransitionBuilder.calls_did h
  obtain ⟨as, hc, rfl⟩ := TransitionBuilder.complete_ok ht
  have hi := d.run.inv (TransitionBuilder.new_inv _ _ _ _ _ _)
  have hlast : ∀ sl, (b.builder.found aty sl).map RState.untag =
      (lastFor (aty, sl) (cs.filterMap (TCall.slot iimpl (defaultName iface iimpl ty)))).map RState.untag :=
    fun sl => found_content d.run (TransitionBuilder.new_found _ _ _ _ _ _) d.puts aty sl
  refine ⟨fun ta hta => Completed.hold hE hi ((OpBuilder.complete_get hi hc aty ta).1 hta) hlast, ?_, ?_⟩
  · rintro ⟨ta, hta⟩
    have hC := (OpBuilder.complete_get hi hc aty ta).1 hta
    obtain ⟨items, hg, -⟩ := Completed.kind hC
    obtain ⟨hsorted, hne⟩ := (hi.wf ta.kind).inner aty items hg
    obtain ⟨e, he⟩ := List.exists_mem_of_ne_nil _ hne
    have hf := OpBuilder.found_of_find hi (k := ta.kind) (ty := aty) (sl := e.1) (st := e.2)
      (by simp only [Slots.find, hg]; exact hsorted.get?_of_mem he)
    have := hlast e.1
    rw [hf] at this
    cases hl : lastFor (aty, e.1) (cs.filterMap (TCall.slot iimpl (defaultName iface iimpl ty))) with
    | none => rw [hl] at this; simp at this
    | some st =>
      obtain ⟨c, hcm, hcs⟩ := List.mem_filterMap.1 (lastFor_mem hl)
      simp only [TCall.slot, Option.map_eq_some_iff] at hcs
      obtain ⟨⟨x, y, z⟩, h1, h2⟩ := hcs
      simp only [Prod.mk.injEq] at h2
      obtain ⟨⟨rfl, rfl⟩, rfl⟩ := h2
      exact ⟨c, hcm, _, _, h1⟩
  · rintro ⟨c, hcm, sl, st, hst⟩
    have hl : lastFor (aty, sl) (cs.filterMap (TCall.slot iimpl (defaultName iface iimpl ty))) ≠ none := by
      intro hn
      exact lastFor_none.1 hn ((aty, sl), st) (List.mem_filterMap.2 ⟨c, hcm, by simp [TCall.slot, hst]⟩) rfl
    obtain ⟨st', hst'⟩ := Option.ne_none_iff_exists'.1 hl
    have := hlast sl
    rw [hst'] at this
    cases hf : b.builder.found aty sl with
    | none => rw [hf] at this; simp at this
    | some st0 =>
      obtain ⟨ta, hta, -⟩ := complete_exists hi hc hf
      exact ⟨ta, hta⟩

/-- **C46**, in part, for contracts.
Missing: state of a type on the same seal as earlier one, see `C46_same_seal_fails`, and metadata, see `C46_metadata_fails`. -/
theorem C46_assigned_contract_partial {E : BEnv} {n : Nat} (hE : E.Lawful n) {det : Bool} {issuer : Nat} {iface : Iface} {schema : Schema}
    {iimpl : IfaceImpl} {cs : List CCall} {b : ContractBuilder}
    (h : ContractBuilder.calls E cs (.new det issuer iface schema iimpl) = .ok b)
    {valid : BuiltGenesis → Bool} {det' : Bool} {ts : Int} {g : BuiltGenesis} (hg : b.issue E valid det' ts = .ok g) (aty : Nat) :
    (∀ ta, OMap.get? g.assigns aty = some ta → ta.Hold (fun sl => lastFor (aty, sl) (cs.filterMap (CCall.slot iimpl)))) ∧
      ((∃ ta, OMap.get? g.assigns aty = some ta) ↔ ∃ c ∈ cs, ∃ sl st, c.assigned iimpl = some (aty, sl, st)) := by
  obtain ⟨ps, d⟩ := ContractBuilder.calls_did h
  obtain ⟨as, hc, -, rfl⟩ := ContractBuilder.issue_ok hg
  have hi := d.run.inv (ContractBuilder.new_inv _ _ _ _ _)
  have hlast : ∀ sl, (b.builder.found aty sl).map RState.untag =
      (lastFor (aty, sl) (cs.filterMap (CCall.slot iimpl))).map RState.untag :=
    fun sl => found_content d.run (ContractBuilder.new_found _ _ _ _ _) d.puts aty sl
  refine ⟨fun ta hta => Completed.hold hE hi ((OpBuilder.complete_get hi hc aty ta).1 hta) hlast, ?_, ?_⟩
  · rintro ⟨ta, hta⟩
    have hC := (OpBuilder.complete_get hi hc aty ta).1 hta
    obtain ⟨items, hg, -⟩ := Completed.kind hC
    obtain ⟨hsorted, hne⟩ := (hi.wf ta.kind).inner aty items hg
    obtain ⟨e, he⟩ := List.exists_mem_of_ne_nil _ hne
    have hf := OpBuilder.found_of_find hi (k := ta.kind) (ty := aty) (sl := e.1) (st := e.2)
      (by simp only [Slots.find, hg]; exact hsorted.get?_of_mem he)
    have := hlast e.1
    rw [hf] at this
    cases hl : lastFor (aty, e.1) (cs.filterMap (CCall.slot iimpl)) with
    | none => rw [hl] at this; simp at this
    | some st =>
      obtain ⟨c, hcm, hcs⟩ := List.mem_filterMap.1 (lastFor_mem hl)
      simp only [CCall.slot, Option.map_eq_some_iff] at hcs
      obtain ⟨⟨x, y, z⟩, h1, h2⟩ := hcs
      simp only [Prod.mk.injEq] at h2
      obtain ⟨⟨rfl, rfl⟩, rfl⟩ := h2
      exact ⟨c, hcm, _, _, h1⟩
  · rintro ⟨c, hcm, sl, st, hst⟩
    have hl : lastFor (aty, sl) (cs.filterMap (CCall.slot iimpl)) ≠ none := by
      intro hn
      exact lastFor_none.1 hn ((aty, sl), st) (List.mem_filterMap.2 ⟨c, hcm, by simp [CCall.slot, hst]⟩) rfl
    obtain ⟨st', hst'⟩ := Option.ne_none_iff_exists'.1 hl
    have := hlast sl
    rw [hst'] at this
    cases hf : b.builder.found aty sl with
    | none => rw [hf] at this; simp at this
    | some st0 =>
      obtain ⟨ta, hta, -⟩ := complete_exists hi hc hf
      exact ⟨ta, hta⟩

/-- **C46** is false of the code: metadata which were added are in none of the built operations. -/
theorem C46_metadata_fails : ∃ (cs : List CCall) (b : ContractBuilder) (g : BuiltGenesis) (cs' : List TCall) (b' : TransitionBuilder)
    (t : BuiltTransition),
    ContractBuilder.calls calcEnv cs (.new false 1 mixedIface mixedSchema mixedImpl) = .ok b ∧
      CCall.addMetadata 1 (some 42) ∈ cs ∧ b.issue calcEnv (fun _ => true) false 0 = .ok g ∧ g.metadata = [] ∧
      TransitionBuilder.calls calcEnv cs' (.new false 8 mixedIface mixedSchema mixedImpl 10000) = .ok b' ∧
      TCall.addMetadata 1 (some 42) ∈ cs' ∧ b'.complete calcEnv = .ok t ∧ t.metadata = [] :=
  ⟨[.addMetadata 1 (some 42)], _, _, [.addMetadata 1 (some 42)], _, _, rfl, by decide, rfl, rfl, rfl, by decide, rfl, rfl⟩

/-- **C46** is false of the code: a second amount added to the same seal replaces the first one, silently. -/
theorem C46_same_seal_fails : ∃ (cs : List TCall) (b : TransitionBuilder) (t : BuiltTransition) (ta : TypedAssigns),
    TransitionBuilder.calls calcEnv cs (.new false 8 mixedIface mixedSchema mixedImpl 10000) = .ok b ∧
      TCall.addFungible 1 sealA 100 31 ∈ cs ∧ TCall.addFungible 1 sealA 7 32 ∈ cs ∧ b.complete calcEnv = .ok t ∧
      t.op.assigns = [(4000, ta)] ∧ ta.items.map (fun a => a.state?.map RState.content) = [some (.fungible 7 0 0)] :=
  ⟨[.addAssetTag 1 1000, .addFungible 1 sealA 100 31, .addFungible 1 sealA 7 32], _, _, _, rfl, by decide, by decide, rfl, rfl, rfl⟩

example : moved.op.globals = [(2001, [3])] ∧ allFor 2001 (moveCalls.filterMap (TCall.global mixedImpl)) = [3] ∧
    allFor 2001 (issueCalls.filterMap (CCall.global mixedImpl)) = [1, 2] ∧
    lastFor (4000, sealB) (moveCalls.filterMap (TCall.slot mixedImpl (defaultName mixedIface mixedImpl 10000))) =
      some (.fungible 600 51 0) := by decide +kernel

end Rgb.Props
