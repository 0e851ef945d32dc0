import Verif.Lemmas.Payable
import Verif.Spec.Answer

/-! Composing doesn't panic. -/

namespace Rgb

/-- Either a value of which `P` holds, or an error which isn't a panic. -/
def Safe {α : Type} (P : α → Prop) : Except CErr α → Prop
  | .ok a => P a
  | .error e => e ≠ .panic

theorem Safe.not_panic {α : Type} {P : α → Prop} {x : Except CErr α} (h : Safe P x) : x ≠ .error .panic := by
  rintro rfl; exact h rfl

theorem Safe.bind {α β : Type} {P : α → Prop} {Q : β → Prop} {x : Except CErr α} {f : α → Except CErr β} (h : Safe P x)
    (hf : ∀ a, x = .ok a → P a → Safe Q (f a)) : Safe Q (x >>= f) := by
  cases x with
  | ok a => exact hf a rfl h
  | error e => exact h

theorem Safe.mono {α : Type} {P Q : α → Prop} {x : Except CErr α} (h : Safe P x) (hf : ∀ a, x = .ok a → P a → Q a) : Safe Q x := by
  cases x with
  | ok a => exact hf a rfl h
  | error e => exact h

theorem safe_of {α : Type} {x : Except CErr α} (h : x ≠ .error .panic) : Safe (fun a => x = .ok a) x := by
  cases x with
  | ok a => exact rfl
  | error e => exact fun he => h (by rw [he])

theorem safe_orErr {α : Type} {e : CErr} (he : e ≠ .panic) (x : Option α) : Safe (fun a => x = some a) (orErr e x) := by
  cases x with
  | none => exact he
  | some a => exact rfl

theorem safe_failIf {e : CErr} (he : e ≠ .panic) (c : Bool) : Safe (fun _ => c = false) (failIf e c) := by
  cases c with
  | true => exact he
  | false => exact rfl

theorem safe_liftB {α : Type} {P : α → Prop} {x : Except BErr α} (hp : x ≠ .error .panic) (h : ∀ a, x = .ok a → P a) : Safe P (liftB x) := by
  cases x with
  | ok a => exact h a rfl
  | error e => cases e <;> first | exact absurd rfl hp | exact fun h => by cases h

theorem put_err {m : Slots} {ty : Nat} {sl : BSeal} {st : RState} : Slots.put m ty sl st ≠ .error .panic := by
  unfold Slots.put insertMax
  intro h
  split at h
  · rcases except_bind_error.1 h with h | ⟨x, -, h⟩
    · split at h <;> cases h
    · cases h
  · split at h <;> cases h

/-- A builder with inputs of state which fits, and state of types which inputs have. -/
def BSafe (S : Schema) (T : OMap Nat Nat) (b : TransitionBuilder) : Prop := ∃ m, BReady S T 255 m b

theorem safe_addInput {S : Schema} {T : OMap Nat Nat} {b : TransitionBuilder} (h : BSafe S T b) {o : Opout} {st : RState} (hf : BFits S T o.ty st) :
    Safe (fun b' => BSafe S T b' ∧ o ∈ OMap.keys b'.inputs) (liftB (b.addInput o st)) := by
  obtain ⟨m, h⟩ := h
  by_cases hl : b.inputs.length < 255
  · obtain ⟨b', h1, h2, h3⟩ := okay_addInput (n := b.inputs.length) { h with few := Nat.le_refl _ } hl hf
    rw [h1]
    exact ⟨⟨m, h2.mono hl (Nat.le_refl _)⟩, h3⟩
  · have : insertMax tinyMax b.inputs o st = .error .confinement := by
      unfold insertMax
      exact if_pos (Nat.le_of_not_lt hl)
    have h2 : b.addInput o st = .error .confinement := by
      unfold TransitionBuilder.addInput
      rw [this]; rfl
    rw [h2]
    exact fun h => by cases h

theorem set_err {b : TransitionBuilder} {x : Except BErr OpBuilder} (h : x ≠ .error .panic) : b.set x ≠ .error .panic := by
  unfold TransitionBuilder.set
  intro hx
  rcases except_bind_error.1 hx with hx | ⟨y, -, hx⟩
  · exact h hx
  · cases hx

theorem addOwned_bind {S : Schema} {T : OMap Nat Nat} {n m : Nat} {b : TransitionBuilder} (h : BReady S T n m b) {ty : Nat} (sl : BSeal) {st : RState}
    (hf : BFits S T ty st) :
    b.addOwnedRaw ty sl st = (Slots.put (b.builder.slots st.kind) ty sl st >>= fun x => .ok { b with builder := b.builder.setSlots st.kind x }) := by
  have ho := hf.1
  rw [← h.schema] at ho
  cases hx : Slots.put (b.builder.slots st.kind) ty sl st with
  | ok x =>
    show _ = Except.ok _
    unfold TransitionBuilder.addOwnedRaw
    cases st with
    | void =>
      refine except_bind_ok.2 ⟨(), rfl, TransitionBuilder.set_ok.2 ⟨_, ?_, rfl⟩⟩
      simp only [OpBuilder.addOwnedRaw, OpBuilder.addRightsRaw, OpBuilder.stateSchema, except_bind_ok, orErr_ok, failIf_ok, decide_eq_false_iff_not,
        ne_eq, Decidable.not_not]
      exact ⟨_, ho, (), rfl, x, hx, rfl⟩
    | fungible v bl t =>
      have ht := hf.2 v bl t rfl
      rw [← h.tags] at ht
      have hc : b.checkTag ty (.fungible v bl t) = .ok () := by
        simp only [TransitionBuilder.checkTag, OpBuilder.assetTagRaw, except_bind_ok, orErr_ok, failIf_ok, decide_eq_false_iff_not, ne_eq,
          Decidable.not_not]
        exact ⟨t, ht, rfl⟩
      refine except_bind_ok.2 ⟨(), hc, TransitionBuilder.set_ok.2 ⟨_, ?_, rfl⟩⟩
      simp only [OpBuilder.addOwnedRaw, OpBuilder.addFungibleRaw, OpBuilder.assetTagRaw, OpBuilder.stateSchema, except_bind_ok, orErr_ok, failIf_ok,
        decide_eq_false_iff_not, ne_eq, Decidable.not_not]
      exact ⟨t, ht, (), rfl, _, ho, (), rfl, x, hx, rfl⟩
    | data v salt =>
      obtain ⟨sem, ho⟩ := ho
      refine except_bind_ok.2 ⟨(), rfl, TransitionBuilder.set_ok.2 ⟨_, ?_, rfl⟩⟩
      simp only [OpBuilder.addOwnedRaw, OpBuilder.addDataRaw, OpBuilder.stateSchema, except_bind_ok, orErr_ok]
      exact ⟨_, ho, except_bind_ok.2 ⟨x, hx, rfl⟩⟩
    | attach f md salt =>
      obtain ⟨sem, ho⟩ := ho
      refine except_bind_ok.2 ⟨(), rfl, TransitionBuilder.set_ok.2 ⟨_, ?_, rfl⟩⟩
      simp only [OpBuilder.addOwnedRaw, OpBuilder.addAttachmentRaw, OpBuilder.stateSchema, except_bind_ok, orErr_ok]
      exact ⟨_, ho, except_bind_ok.2 ⟨x, hx, rfl⟩⟩
  | error e =>
    show _ = Except.error e
    cases st with
    | void =>
      replace hx : Slots.put b.builder.rights ty sl .void = .error e := hx
      replace ho : OMap.get? b.builder.schema.ownedTypes ty = some .declarative := ho
      simp [TransitionBuilder.addOwnedRaw, TransitionBuilder.checkTag, TransitionBuilder.set, OpBuilder.addOwnedRaw, OpBuilder.addRightsRaw,
        OpBuilder.stateSchema, bind, Except.bind, orErr, failIf, ho, hx]
    | fungible v bl t =>
      have ht := hf.2 v bl t rfl
      rw [← h.tags] at ht
      replace hx : Slots.put b.builder.fungible ty sl (.fungible v bl t) = .error e := hx
      replace ho : OMap.get? b.builder.schema.ownedTypes ty = some (.fungible OpBuilder.u64Type) := ho
      simp [TransitionBuilder.addOwnedRaw, TransitionBuilder.checkTag, TransitionBuilder.set, OpBuilder.addOwnedRaw, OpBuilder.addFungibleRaw,
        OpBuilder.assetTagRaw, OpBuilder.stateSchema, bind, Except.bind, orErr, failIf, ho, hx, ht]
    | data v salt =>
      obtain ⟨sem, ho⟩ := ho
      replace hx : Slots.put b.builder.data ty sl (.data v salt) = .error e := hx
      simp [TransitionBuilder.addOwnedRaw, TransitionBuilder.checkTag, TransitionBuilder.set, OpBuilder.addOwnedRaw, OpBuilder.addDataRaw,
        OpBuilder.stateSchema, bind, Except.bind, orErr, ho, hx]
    | attach f md salt =>
      obtain ⟨sem, ho⟩ := ho
      replace hx : Slots.put b.builder.attachments ty sl (.attach f md salt) = .error e := hx
      simp [TransitionBuilder.addOwnedRaw, TransitionBuilder.checkTag, TransitionBuilder.set, OpBuilder.addOwnedRaw, OpBuilder.addAttachmentRaw,
        OpBuilder.stateSchema, bind, Except.bind, orErr, ho, hx]

theorem safe_put {S : Schema} {T : OMap Nat Nat} {m : Nat} {b : TransitionBuilder} (h : BReady S T 255 m b) {ty : Nat}
    (hi : ∃ o ∈ OMap.keys b.inputs, o.ty = ty) {sl : BSeal} {st : RState} (hf : BFits S T ty st) {x : Except BErr TransitionBuilder}
    (hx : x = (Slots.put (b.builder.slots st.kind) ty sl st >>= fun x => .ok { b with builder := b.builder.setSlots st.kind x })) :
    Safe (fun b' => BSafe S T b' ∧ b'.inputs = b.inputs) (liftB x) := by
  subst hx
  refine safe_liftB ?_ ?_
  · intro he
    rcases except_bind_error.1 he with he | ⟨y, -, he⟩
    · exact put_err he
    · cases he
  · intro b' hb
    obtain ⟨y, h1, h2⟩ := except_bind_ok.1 hb
    cases h2
    exact ⟨⟨_, h.after hi hf h1⟩, rfl⟩

theorem safe_addOwned {S : Schema} {T : OMap Nat Nat} {b : TransitionBuilder} (h : BSafe S T b) {ty : Nat}
    (hi : ∃ o ∈ OMap.keys b.inputs, o.ty = ty) (sl : BSeal) {st : RState} (hf : BFits S T ty st) :
    Safe (fun b' => BSafe S T b' ∧ b'.inputs = b.inputs) (liftB (b.addOwnedRaw ty sl st)) := by
  obtain ⟨m, h⟩ := h
  exact safe_put h hi hf (addOwned_bind h sl hf)

theorem safe_pay {S : Schema} {T : OMap Nat Nat} {b : TransitionBuilder} (h : BSafe S T b) {ty : Nat} (sl : BSeal) {v bl : Nat}
    (hi : 0 < v → ∃ o st, (o, st) ∈ b.inputs ∧ o.ty = ty ∧ st.kind = .fungible) :
    Safe (fun b' => BSafe S T b' ∧ b'.inputs = b.inputs) (Stock.pay b ty sl v bl) := by
  unfold Stock.pay
  by_cases hv : v > 0
  · rw [if_pos hv]
    obtain ⟨o, st, hin, rfl, hk⟩ := hi hv
    obtain ⟨m, h⟩ := h
    obtain ⟨ho, ht⟩ := h.fits o st hin
    cases st with
    | void => cases hk
    | data => cases hk
    | attach => cases hk
    | fungible v0 bl0 t =>
      have ht := ht v0 bl0 t rfl
      have hf : BFits S T o.ty (.fungible v bl t) := ⟨ho.same rfl, fun _ _ _ e => by cases e; exact ht⟩
      refine safe_put h ⟨o, List.mem_map.2 ⟨_, hin, rfl⟩, rfl⟩ hf (sl := sl) ?_
      have := addOwned_bind h sl hf
      rw [← this]
      rw [← h.tags] at ht
      simp [TransitionBuilder.addFungibleRaw, TransitionBuilder.addOwnedRaw, TransitionBuilder.checkTag, OpBuilder.addOwnedRaw, OpBuilder.assetTagRaw,
        ht, orErr, bind, Except.bind, failIf]
  · rw [if_neg hv]
    exact ⟨h, rfl⟩

theorem safe_payData {S : Schema} {T : OMap Nat Nat} {b : TransitionBuilder} (h : BSafe S T b) {ty : Nat} (sl : BSeal) {v salt : Nat}
    (hi : ∃ o st, (o, st) ∈ b.inputs ∧ o.ty = ty ∧ st.kind = .structured) :
    Safe (fun b' => BSafe S T b' ∧ b'.inputs = b.inputs) (liftB (b.set (b.builder.addDataRaw ty sl v salt))) := by
  obtain ⟨o, st, hin, rfl, hk⟩ := hi
  obtain ⟨m, h⟩ := h
  obtain ⟨ho, -⟩ := h.fits o st hin
  have hf : BFits S T o.ty (.data v salt) := ⟨ho.same hk, fun _ _ _ e => by cases e⟩
  refine safe_put h ⟨o, List.mem_map.2 ⟨_, hin, rfl⟩, rfl⟩ hf (sl := sl) ?_
  rw [← addOwned_bind h sl hf]
  rfl

/-- A type found by a name has a name. -/
theorem nameByType_some {s : OSet NamedField} {n ty : Nat} (h : typeByName s n = some ty) : ∃ n', nameByType s ty = some n' := by
  unfold typeByName at h
  obtain ⟨f, hf, rfl⟩ := Option.map_eq_some_iff.1 h
  have hm := List.mem_of_find?_eq_some hf
  unfold nameByType
  cases hx : s.find? (fun g => g.id = f.id) with
  | some g => exact ⟨_, rfl⟩
  | none => exact absurd (List.find?_eq_none.1 hx f hm) (by simp)

namespace Stock

open MemStash

/-! ### Spending -/

structure SGoing (S : Schema) (T : OMap Nat Nat) (a : Acc) : Prop where
  main : BSafe S T a.main
  alt : BSafe S T a.alt

theorem SGoing.side {S : Schema} {T : OMap Nat Nat} {a : Acc} (h : SGoing S T a) (side : Bool) : BSafe S T (if side then a.main else a.alt) := by
  cases side
  · exact h.alt
  · exact h.main

theorem safe_outputFor (E : CEnv) (W : Wallet) (k : Stock) (layer : Layer1) (site : Site) (c ty : Nat) :
    Safe (fun _ => True) (outputFor E W k layer site c ty) := by
  unfold outputFor
  exact (safe_orErr (by simp) _).bind (fun _ _ _ => trivial)

theorem safe_on {S : Schema} {T : OMap Nat Nat} {a : Acc} (h : SGoing S T a) (side : Bool) {f : TransitionBuilder → Except BErr TransitionBuilder}
    {P : TransitionBuilder → Prop} (hf : Safe (fun b => BSafe S T b ∧ P b) (liftB (f (if side then a.main else a.alt)))) :
    Safe (fun a' => SGoing S T a' ∧ a'.sum = a.sum ∧ a'.sumAlt = a.sumAlt ∧ P (if side then a'.main else a'.alt)) (a.on side f) := by
  unfold Acc.on
  cases side with
  | true => exact hf.bind (fun b _ hb => ⟨⟨hb.1, h.alt⟩, rfl, rfl, hb.2⟩)
  | false => exact hf.bind (fun b _ hb => ⟨⟨h.main, hb.1⟩, rfl, rfl, hb.2⟩)

theorem safe_addU (E : CEnv) {a b : Nat} (h : E.B.debug = true → a + b < w64) : Safe (fun s => E.B.debug = true → s = a + b) (addU E a b) := by
  cases hx : addU E a b with
  | error e =>
    obtain ⟨-, hd, hl⟩ := addU_err hx
    exact absurd (h hd) (Nat.not_lt.2 hl)
  | ok s =>
    intro hd
    have := okay_addU E (h hd)
    rw [hx] at this
    exact Except.ok.inj this

theorem safe_count (E : CEnv) (want : Option Nat) (side : Bool) {a : Acc} {st : RState} (hs : E.B.debug = true → a.sum + st.amount < w64)
    (hle : E.B.debug = true → a.sumAlt ≤ a.sum) :
    Safe (fun a' => a'.main = a.main ∧ a'.alt = a.alt ∧ (E.B.debug = true → a'.sum = a.sum + st.amount ∧ a'.sumAlt ≤ a'.sum)) (a.count E want side st) := by
  cases st with
  | void => exact ⟨rfl, rfl, fun hd => ⟨rfl, hle hd⟩⟩
  | attach => exact ⟨rfl, rfl, fun hd => ⟨rfl, hle hd⟩⟩
  | data v salt => exact ⟨rfl, rfl, fun hd => ⟨rfl, hle hd⟩⟩
  | fungible v bl t =>
    simp only [RState.amount] at hs ⊢
    unfold Acc.count
    refine (safe_addU E hs).bind (fun sum _ h1 => ?_)
    cases side with
    | true => exact ⟨rfl, rfl, fun hd => ⟨h1 hd, by have := h1 hd; have := hle hd; show a.sumAlt ≤ sum; omega⟩⟩
    | false =>
      refine Safe.bind (P := fun s => E.B.debug = true → s = a.sumAlt + v) (safe_addU E (fun hd => by have := hs hd; have := hle hd; omega))
        (fun sumAlt _ h2 => ?_)
      exact ⟨rfl, rfl, fun hd => ⟨h1 hd, by have := h1 hd; have := h2 hd; have := hle hd; show sumAlt ≤ sum; omega⟩⟩

theorem safe_spendOne {E : CEnv} {W : Wallet} {k : Stock} {p : Prep} (want : Option Nat) (s : OutSeal) {S : Schema} {T : OMap Nat Nat} {a : Acc}
    (h : SGoing S T a) (hle : E.B.debug = true → a.sumAlt ≤ a.sum) {o : Opout} {st : RState} (hf : BFits S T o.ty st)
    (hs : E.B.debug = true → a.sum + sumItems p.ty [(s, o, st)] < w64) :
    Safe (fun a' => SGoing S T a' ∧ (E.B.debug = true → a'.sumAlt ≤ a'.sum ∧ a'.sum = a.sum + sumItems p.ty [(s, o, st)]))
      (spendOne E W k p want s a o st) := by
  unfold spendOne
  rw [sumItems_one] at hs ⊢
  refine (safe_on h (decide (s.method = W.method)) (f := fun b => b.addInput o st) (P := fun b => o ∈ OMap.keys b.inputs)
    (safe_addInput (h.side _) hf)).bind (fun a1 _ h1 => ?_)
  obtain ⟨g1, e1, e2, ho⟩ := h1
  by_cases hty : o.ty = p.ty
  · have hne : ¬ o.ty ≠ p.ty := fun h => h hty
    rw [if_neg hne]
    simp only [if_pos hty] at hs ⊢
    refine (safe_count E want _ (st := st) (fun hd => by rw [e1]; exact hs hd) (fun hd => by rw [e1, e2]; exact hle hd)).mono (fun a2 _ h2 => ?_)
    obtain ⟨m1, m2, m3⟩ := h2
    exact ⟨⟨by rw [m1]; exact g1.main, by rw [m2]; exact g1.alt⟩, fun hd => ⟨(m3 hd).2, by rw [(m3 hd).1, e1]⟩⟩
  · rw [if_pos hty]
    simp only [hty, if_false] at hs ⊢
    refine (safe_outputFor ..).bind (fun sl _ _ => ?_)
    refine (safe_on g1 (decide (s.method = W.method)) (P := fun _ => True)
      (f := fun b => b.addOwnedRaw o.ty sl (OpBuilder.setBlinding (W.factors (.moved p.contract s o)) st))
      ((safe_addOwned (g1.side _) ⟨o, ho, rfl⟩ sl (hf.blinded _)).mono (fun b _ hb => ⟨hb.1, trivial⟩))).mono (fun a2 _ h2 => ?_)
    obtain ⟨g2, e3, e4, -⟩ := h2
    exact ⟨g2, fun hd => ⟨by rw [e3, e4, e1, e2]; exact hle hd, by rw [e3, e1]; rfl⟩⟩

theorem safe_spendList {E : CEnv} {W : Wallet} {k : Stock} {p : Prep} (want : Option Nat) (s : OutSeal) {S : Schema} {T : OMap Nat Nat}
    (l : List (Opout × RState)) : ∀ {a : Acc}, SGoing S T a → (E.B.debug = true → a.sumAlt ≤ a.sum) → (∀ x ∈ l, BFits S T x.1.ty x.2) →
    (E.B.debug = true → a.sum + sumItems p.ty (l.map (fun x => (s, x.1, x.2))) < w64) →
    Safe (fun a' => SGoing S T a' ∧ (E.B.debug = true → a'.sumAlt ≤ a'.sum ∧ a'.sum = a.sum + sumItems p.ty (l.map (fun x => (s, x.1, x.2)))))
      (spendList E W k p want s l a) := by
  induction l with
  | nil => intro a h hle hf hs; exact ⟨h, fun hd => ⟨hle hd, rfl⟩⟩
  | cons x l ih =>
    intro a h hle hf hs
    obtain ⟨o, st⟩ := x
    have hv : sumItems p.ty (((o, st) :: l).map (fun x => (s, x.1, x.2))) = sumItems p.ty [(s, o, st)] + sumItems p.ty (l.map (fun x => (s, x.1, x.2))) := by
      rw [List.map_cons, ← List.singleton_append, sumItems_append]
    rw [hv] at hs ⊢
    simp only [spendList]
    refine (safe_spendOne (E := E) (p := p) (k := k) want s h hle (o := o) (st := st) (hf (o, st) (by simp)) (fun hd => by have := hs hd; omega)).bind (fun a1 _ h1 => ?_)
    refine (ih h1.1 (fun hd => (h1.2 hd).1) (fun x hx => hf x (by simp [hx])) (fun hd => by rw [(h1.2 hd).2]; have := hs hd; omega)).mono (fun a2 _ h2 => ?_)
    exact ⟨h2.1, fun hd => ⟨(h2.2 hd).1, by rw [(h2.2 hd).2, (h1.2 hd).2]; omega⟩⟩

theorem safe_spendAll {E : CEnv} {W : Wallet} {k : Stock} {p : Prep} (want : Option Nat) {S : Schema} {T : OMap Nat Nat}
    (l : List (OutSeal × OMap Opout RState)) : ∀ {a : Acc}, SGoing S T a → (E.B.debug = true → a.sumAlt ≤ a.sum) →
    (∀ x ∈ visited E p.contract l, BFits S T x.2.1.ty x.2.2) → (E.B.debug = true → a.sum + sumItems p.ty (visited E p.contract l) < w64) →
    Safe (SGoing S T) (spendAll E W k p want l a) := by
  induction l with
  | nil => intro a h hle hf hs; exact h
  | cons x l ih =>
    intro a h hle hf hs
    obtain ⟨s, o⟩ := x
    have hv : visited E p.contract ((s, o) :: l) = (E.ordOpouts p.contract s o).map (fun x => (s, x.1, x.2)) ++ visited E p.contract l := by
      simp [visited]
    rw [hv] at hf
    rw [hv, sumItems_append] at hs
    have hp : SGoing S T (a.pushOutput W s) := by
      unfold Acc.pushOutput; split <;> exact ⟨h.main, h.alt⟩
    have hle' : E.B.debug = true → (a.pushOutput W s).sumAlt ≤ (a.pushOutput W s).sum := by
      unfold Acc.pushOutput; split <;> exact hle
    have hse : (a.pushOutput W s).sum = a.sum := by
      unfold Acc.pushOutput; split <;> rfl
    simp only [spendAll]
    refine (safe_spendList (E := E) (k := k) (p := p) want s (E.ordOpouts p.contract s o) hp hle'
      (fun x hx => hf (s, x.1, x.2) (List.mem_append_left _ (List.mem_map.2 ⟨x, hx, rfl⟩))) (fun hd => by rw [hse]; have := hs hd; omega)).bind
      (fun a1 _ h1 => ?_)
    exact ih h1.1 (fun hd => (h1.2 hd).1) (fun x hx => hf x (List.mem_append_right _ hx)) (fun hd => by rw [(h1.2 hd).2, hse]; have := hs hd; omega)

/-! ### Payments -/

/-- What is left as it is by payments. -/
structure SPaid (S : Schema) (T : OMap Nat Nat) (a a' : Acc) : Prop where
  going : SGoing S T a'
  mainIn : a'.mainIn = a.mainIn
  altIn : a'.altIn = a.altIn
  main : a'.main.inputs = a.main.inputs
  alt : a'.alt.inputs = a.alt.inputs

theorem safe_subU (E : CEnv) {a b : Nat} (h : E.B.debug = true → b ≤ a) :
    Safe (fun s => (0 < s → a ≠ b) ∧ (b = 0 → s = a)) (subU E a b) := by
  unfold subU
  by_cases hl : b ≤ a
  · rw [if_pos hl]
    exact ⟨fun hs => by omega, fun hz => by omega⟩
  · rw [if_neg hl]
    cases hd : E.B.debug with
    | true => exact absurd (h hd) hl
    | false =>
      exact ⟨fun _ => by omega, fun hz => by omega⟩

theorem safe_payAmount {E : CEnv} {W : Wallet} {k : Stock} {p : Prep} {amt : Nat} {S : Schema} {T : OMap Nat Nat} {a : Acc} (h : SGoing S T a)
    (hle : E.B.debug = true → a.sumAlt ≤ a.sum)
    (hmain : a.sum ≠ a.sumAlt → ∃ o st, (o, st) ∈ a.main.inputs ∧ o.ty = p.ty ∧ st.kind = .fungible)
    (halt : 0 < a.sumAlt → ∃ o st, (o, st) ∈ a.alt.inputs ∧ o.ty = p.ty ∧ st.kind = .fungible) :
    Safe (SPaid S T a) (payAmount E W k p amt a) := by
  unfold payAmount
  refine (safe_failIf (by simp) _).bind (fun _ _ hamt => ?_)
  have hamt : amt ≤ a.sum := by simpa using hamt
  refine (safe_subU E hle).bind (fun sm _ hsm => ?_)
  have hs1 : (split sm amt).1 ≤ sm := by unfold split; split <;> simp only <;> omega
  have hs2 : 0 < (split sm amt).2 → 0 < a.sumAlt := by
    intro hp
    by_contra hz
    have := hsm.2 (by omega)
    unfold split at hp
    split at hp <;> simp only at hp <;> omega
  refine (safe_pay h.main p.beneficiary (ty := p.ty) (fun hv => hmain (hsm.1 (by omega)))).bind (fun m1 _ r1 => ?_)
  refine (safe_pay h.alt p.beneficiary (ty := p.ty) (fun hv => halt (hs2 hv))).bind (fun a1 _ r2 => ?_)
  refine (safe_outputFor ..).bind (fun ch _ _ => ?_)
  refine (safe_pay r1.1 ch (ty := p.ty) (fun hv => by rw [r1.2]; exact hmain (hsm.1 (by omega)))).bind (fun m2 _ r3 => ?_)
  refine (safe_pay r2.1 ch (ty := p.ty) (fun hv => by rw [r2.2]; exact halt (by omega))).bind (fun a2 _ r4 => ?_)
  exact ⟨⟨r3.1, r4.1⟩, rfl, rfl, r3.2.trans r1.2, r4.2.trans r2.2⟩

theorem safe_payToken {W : Wallet} {p : Prep} {token : Nat} {S : Schema} {T : OMap Nat Nat} {a : Acc} (h : SGoing S T a)
    (hmain : token ∈ a.data → a.dataMain = true → ∃ o st, (o, st) ∈ a.main.inputs ∧ o.ty = p.ty ∧ st.kind = .structured)
    (halt : a.dataMain = false → ∃ o st, (o, st) ∈ a.alt.inputs ∧ o.ty = p.ty ∧ st.kind = .structured) :
    Safe (SPaid S T a) (payToken W p token a) := by
  unfold payToken
  refine (safe_failIf (by simp) _).bind (fun _ _ ht => ?_)
  have ht : token ∈ a.data := by simpa using ht
  unfold Acc.on
  cases hd : a.dataMain with
  | true => exact (safe_payData h.main p.beneficiary (hmain ht hd)).bind (fun b _ hb => ⟨⟨hb.1, h.alt⟩, rfl, rfl, hb.2, rfl⟩)
  | false => exact (safe_payData h.alt p.beneficiary (halt hd)).bind (fun b _ hb => ⟨⟨h.main, hb.1⟩, rfl, rfl, rfl, hb.2⟩)

/-! ### Completion -/

theorem outpointSet_err (max : Nat) (l : List Outpoint) : ∀ (s : OSet Outpoint) (e : TInfoErr), outpointSet max l s = .error e → e = .tooMany := by
  induction l with
  | nil => intro s e h; cases h
  | cons o l ih =>
    intro s e h
    unfold outpointSet at h
    split at h
    · cases h; rfl
    · exact ih _ _ h

theorem safe_newInfo {E : CEnv} (t : BuiltTransition) {outs : List OutSeal} (hne : outs ≠ []) {m : CloseMethod} (hm : ∀ s ∈ outs, s.method = m) :
    Safe (fun _ => True) (newInfo E t outs) := by
  obtain ⟨s, rest, rfl⟩ := List.exists_cons_of_ne_nil hne
  unfold newInfo
  cases hx : TransitionInfo.new E.H t (s :: rest) with
  | ok i => exact trivial
  | error e =>
    have : e = .tooMany := by
      unfold TransitionInfo.new at hx
      rcases except_bind_error.1 hx with hx | ⟨y, -, hx⟩
      · exact outpointSet_err _ _ _ _ hx
      · rw [if_neg] at hx
        · cases hx
        · simp only [List.any_eq_true, decide_eq_true_eq, not_exists, not_and, ne_eq, Decidable.not_not]
          intro y hy
          rw [hm y hy, hm s (by simp)]
    subst this
    exact fun h => by cases h

theorem safe_info {E : CEnv} (hb : ∀ ins outs, E.B.balance ins outs ≠ none) {S : Schema} {T : OMap Nat Nat} {b : TransitionBuilder}
    (h : BSafe S T b) {c : Nat} {l : List (OutSeal × OMap Opout RState)} {f : OutSeal → Bool} {mt : CloseMethod}
    (hf : ∀ s, f s = true → s.method = mt) (hne : ((visited E c l).filter (fun x => f x.1)) ≠ []) :
    Safe (fun _ => True) (mainInfo E b ((l.map Prod.fst).filter f)) := by
  obtain ⟨m, h⟩ := h
  obtain ⟨t, ht⟩ := okay_completes hb h (Nat.le_refl _)
  unfold mainInfo
  rw [ht]
  exact safe_newInfo t (side_outs hne) (m := mt) (fun s hs => hf s (List.mem_filter.1 hs).2)

/-! ### Blank transitions -/

structure SBGoing (S : Schema) (T : OMap Nat Nat) (a : BlankAcc) : Prop where
  tapret : BSafe S T a.tapret
  opret : BSafe S T a.opret

theorem safe_move {S : Schema} {T : OMap Nat Nat} {b : TransitionBuilder} (h : BSafe S T b) {o : Opout} (sl : BSeal) {st : RState}
    (hf : BFits S T o.ty st) : Safe (BSafe S T) (moveState b o sl st) := by
  unfold moveState
  refine (safe_addInput h hf).bind (fun b1 _ h1 => ?_)
  exact (safe_addOwned h1.1 ⟨o, h1.2, rfl⟩ sl hf).mono (fun b2 _ h2 => h2.1)

theorem safe_blankList {E : CEnv} {W : Wallet} {k : Stock} {layer : Layer1} {id : Nat} (s : OutSeal) {S : Schema} {T : OMap Nat Nat}
    (l : List (Opout × RState)) : ∀ {a : BlankAcc}, SBGoing S T a → (∀ x ∈ l, BFits S T x.1.ty x.2) →
    Safe (SBGoing S T) (blankList E W k layer id s l a) := by
  induction l with
  | nil => intro a h hf; exact h
  | cons x l ih =>
    intro a h hf
    obtain ⟨o, st⟩ := x
    have hfo := hf (o, st) (by simp)
    simp only [blankList]
    refine (safe_outputFor ..).bind (fun sl _ _ => ?_)
    cases hs : s.method with
    | tapretFirst => exact (safe_move h.tapret sl hfo).bind (fun b _ hb => ih ⟨hb, h.opret⟩ (fun x hx => hf x (by simp [hx])))
    | opretFirst => exact (safe_move h.opret sl hfo).bind (fun b _ hb => ih ⟨h.tapret, hb⟩ (fun x hx => hf x (by simp [hx])))

theorem safe_blankAll {E : CEnv} {W : Wallet} {k : Stock} {layer : Layer1} {id : Nat} {S : Schema} {T : OMap Nat Nat}
    (l : List (OutSeal × OMap Opout RState)) : ∀ {a : BlankAcc}, SBGoing S T a → (∀ x ∈ visited E id l, BFits S T x.2.1.ty x.2.2) →
    Safe (SBGoing S T) (blankAll E W k layer id l a) := by
  induction l with
  | nil => intro a h hf; exact h
  | cons x l ih =>
    intro a h hf
    obtain ⟨s, o⟩ := x
    have hv : visited E id ((s, o) :: l) = (E.ordOpouts id s o).map (fun x => (s, x.1, x.2)) ++ visited E id l := by
      simp [visited]
    rw [hv] at hf
    have hp : SBGoing S T (a.pushOutput s) := by
      unfold BlankAcc.pushOutput; split <;> exact ⟨h.tapret, h.opret⟩
    simp only [blankAll]
    exact (safe_blankList s _ hp (fun x hx => hf (s, x.1, x.2) (List.mem_append_left _ (List.mem_map.2 ⟨x, hx, rfl⟩)))).bind
      (fun a1 _ h1 => ih h1 (fun x hx => hf x (List.mem_append_right _ hx)))

theorem safe_blankInfo {E : CEnv} {b : TransitionBuilder} {outs : List OutSeal} (h : b.hasInputs = true → Safe (fun _ => True) (mainInfo E b outs)) :
    Safe (fun is => is.length = if b.hasInputs then 1 else 0) (blankInfo E b outs) := by
  unfold blankInfo
  cases hb : b.hasInputs with
  | false => exact rfl
  | true =>
    have hm := h hb
    unfold mainInfo at hm
    show Safe _ (liftB (b.complete E.B) >>= _)
    cases hx : liftB (b.complete E.B) with
    | error e => rw [hx] at hm; exact hm
    | ok t =>
      rw [hx] at hm
      show Safe _ (newInfo E t outs >>= _)
      exact Safe.bind (x := newInfo E t outs) (P := fun _ => True) hm (fun i _ _ => rfl)

/-! ### State at outputs -/

theorem own_item {E : CEnv} {n : Nat} (hE : E.Lawful n) {k : Stock} {c : Nat} {prevs : List OutSeal} {m : Spent}
    (h : contractAssignmentsFor k c (prevs.map OutSeal.outpoint) = .ok m) {x : Item} (hx : x ∈ visited E c (E.ordOuts c m)) :
    ∃ a ∈ k.stateAt c prevs, a.item = x := by
  obtain ⟨v, hv, hwf, hl⟩ := contractAssignmentsFor_ok h
  obtain ⟨s, o, st⟩ := x
  rw [(visited_perm hE c m).mem_iff, hwf.mem_flat, hl] at hx
  obtain ⟨a, ha, he⟩ := List.mem_map.1 (lastFor_mem hx)
  simp only [OutAssign.entry, Prod.mk.injEq] at he
  refine ⟨a, ?_, ?_⟩
  · unfold stateAt; rw [hv]; exact ha
  · obtain ⟨⟨h1, h2⟩, h3⟩ := he
    subst h1 h2 h3
    rfl

theorem sum_sublist {l m : List Nat} (h : l.Sublist m) : l.sum ≤ m.sum := by
  induction h with
  | slnil => exact Nat.le_refl _
  | cons a _ ih => rw [List.sum_cons]; omega
  | cons_cons a _ ih => rw [List.sum_cons, List.sum_cons]; omega

theorem own_sum {E : CEnv} {n : Nat} (hE : E.Lawful n) {k : Stock} {c : Nat} {prevs : List OutSeal} {m : Spent}
    (h : contractAssignmentsFor k c (prevs.map OutSeal.outpoint) = .ok m) (ty : Nat) :
    sumItems ty (visited E c (E.ordOuts c m)) ≤ sumOf ty (k.stateAt c prevs) := by
  rw [← sumItems_items]
  obtain ⟨v, hv, hwf, hl⟩ := contractAssignmentsFor_ok h
  have hsub : List.Subperm (visited E c (E.ordOuts c m)) ((k.stateAt c prevs).map OutAssign.item) := by
    refine List.Nodup.subperm ((visited_perm hE c m).nodup_iff.2 hwf.nodup) ?_
    intro x hx
    obtain ⟨a, ha, e⟩ := own_item hE h hx
    exact List.mem_map.2 ⟨a, ha, e⟩
  obtain ⟨l, hp, hs⟩ := hsub
  rw [← sumItems_perm hp]
  unfold sumItems
  exact sum_sublist ((hs.filter _).map _)

theorem own_fits {E : CEnv} {n : Nat} (hE : E.Lawful n) {k : Stock} {c : Nat} {prevs : List OutSeal} {m : Spent}
    (h : contractAssignmentsFor k c (prevs.map OutSeal.outpoint) = .ok m) (hd : ∀ a ∈ k.stateAt c prevs, k.Defines E c a) {g : Op} {si : SchemaIfaces}
    (hg : k.stash.genesis c = some g) (hs : k.stash.schema (E.I.genesisSchema g) = some si) :
    ∀ x ∈ visited E c (E.ordOuts c m), BFits (E.schemaOf si.doc) (E.tagsOf g) x.2.1.ty x.2.2 := by
  intro x hx
  obtain ⟨a, ha, rfl⟩ := own_item hE h hx
  exact (hd a ha).fits hg hs

theorem safe_contractAssignmentsFor (k : Stock) (c : Nat) (outs : List Outpoint) :
    Safe (fun m => contractAssignmentsFor k c outs = .ok m) (contractAssignmentsFor k c outs) := by
  refine safe_of ?_
  unfold contractAssignmentsFor
  split <;> simp

theorem safe_spentState (k : Stock) (own : Nat) (outs : List Outpoint) (ids : List Nat) : ∀ (m0 : OMap Nat Spent),
    Safe (fun _ => True) (spentState k own outs ids m0) := by
  induction ids with
  | nil => intro m0; exact trivial
  | cons id ids ih =>
    intro m0
    simp only [spentState]
    split
    · exact ih m0
    · exact (safe_contractAssignmentsFor k id outs).bind (fun st _ _ => ih _)

theorem safe_blankFor {E : CEnv} {n : Nat} (hE : E.Lawful n) (hT : E.TagMaps) (hb : ∀ ins outs, E.B.balance ins outs ≠ none) {W : Wallet}
    {k : Stock} {layer : Layer1} {iface id : Nat} {prevs : List OutSeal} (hd : ∀ a ∈ k.stateAt id prevs, k.Defines E id a)
    (hne : k.stateAt id prevs ≠ []) {m : Spent} (hm : contractAssignmentsFor k id (prevs.map OutSeal.outpoint) = .ok m) :
    Safe (fun _ => True) (blankFor E W k layer iface id m) := by
  unfold blankFor
  refine (safe_of (blankBuilder_err hT)).bind (fun bt _ hbt => ?_)
  refine (safe_of (blankBuilder_err hT)).bind (fun bo _ hbo => ?_)
  rw [hbt] at hbo
  cases hbo
  obtain ⟨bl⟩ := blankBuilder_ok hbt
  have hr : BSafe (E.schemaOf bl.si.doc) (E.tagsOf bl.g) bt := ⟨0, (ready_calls hT bl.calls).mono (Nat.zero_le _) (Nat.le_refl _)⟩
  refine (safe_blankAll (E.ordOuts id m) ⟨hr, hr⟩ (own_fits hE hm hd bl.genesis bl.schema)).bind (fun a ha g => ?_)
  obtain ⟨hbk, ot, oo⟩ := blankAll_ok ha
  have hit := hasInputs_calls bl.calls hbk.tapret
  have hio := hasInputs_calls bl.calls hbk.opret
  rw [blank_input] at hit hio
  simp only [List.nil_append] at ot oo
  refine (safe_blankInfo (E := E) (b := a.tapret) (outs := a.outTapret) (fun hi => by
    rw [hi] at hit
    rw [ot]
    refine safe_info (c := id) hb g.tapret (f := fun s => decide (s.method = .tapretFirst)) (mt := .tapretFirst) (fun s h => by simpa using h) ?_
    intro he
    rw [show (visited E id (E.ordOuts id m)).filter byTapret = [] from he] at hit
    simp at hit)).bind (fun x _ lx => ?_)
  refine (safe_blankInfo (E := E) (b := a.opret) (outs := a.outOpret) (fun hi => by
    rw [hi] at hio
    rw [oo]
    refine safe_info (c := id) hb g.opret (f := fun s => !decide (s.method = .tapretFirst)) (mt := .opretFirst) (fun s h => by cases hsm : s.method <;> simp [hsm] at h ⊢) ?_
    intro he
    rw [show (visited E id (E.ordOuts id m)).filter (fun x => !byTapret x) = [] from he] at hio
    simp at hio)).bind (fun y _ ly => ?_)
  have hd : ∃ d, Dichotomy.ofList (x ++ y) = some d := by
    obtain ⟨z0, hz0⟩ := List.exists_mem_of_ne_nil _ hne
    obtain ⟨st, hz⟩ := (own_mem hE hm z0.sl z0.opout).2 ⟨z0, hz0, rfl, rfl⟩
    generalize (z0.sl, z0.opout, st) = z at hz
    have hor : a.tapret.hasInputs = true ∨ a.opret.hasInputs = true := by
      rw [hit, hio]
      cases hzt : byTapret z with
      | true =>
        left
        have h2 := List.ne_nil_of_mem (List.mem_filter.2 ⟨hz, hzt⟩)
        simpa using h2
      | false =>
        right
        have : z ∈ (visited E id (E.ordOuts id m)).filter (fun x => !byTapret x) := List.mem_filter.2 ⟨hz, by simp [hzt]⟩
        have h2 := List.ne_nil_of_mem this
        simpa using h2
    match x, y, lx, ly with
    | [], [], lx, ly =>
      exfalso
      rcases hor with h | h
      · rw [h] at lx; cases lx
      · rw [h] at ly; cases ly
    | [p], [], _, _ => exact ⟨_, rfl⟩
    | [], [q], _, _ => exact ⟨_, rfl⟩
    | [p], [q], _, _ => exact ⟨_, rfl⟩
    | _ :: _ :: _, _, lx, _ => exfalso; split at lx <;> simp at lx
    | _, _ :: _ :: _, _, ly => exfalso; split at ly <;> simp at ly
  obtain ⟨d, hd⟩ := hd
  rw [hd]
  exact trivial

theorem safe_blankLoop {E : CEnv} {W : Wallet} {k : Stock} {layer : Layer1} {iface : Nat} (l : List (Nat × Spent)) :
    ∀ (bs : List (Dichotomy TransitionInfo)), (∀ e ∈ l, Safe (fun _ => True) (blankFor E W k layer iface e.1 e.2)) →
    Safe (fun _ => True) (blankLoop E W k layer iface l bs) := by
  induction l with
  | nil => intro bs _; exact trivial
  | cons x l ih =>
    intro bs h
    obtain ⟨id, sp⟩ := x
    simp only [blankLoop]
    refine (h (id, sp) List.mem_cons_self).bind (fun d _ _ => ?_)
    exact (safe_failIf (by simp) _).bind (fun _ _ _ => ih _ (fun e he => h e (List.mem_cons_of_mem _ he)))

theorem safe_mainDichotomy {E : CEnv} {a : Acc} (hm : a.main.hasInputs = true → Safe (fun _ => True) (mainInfo E a.main a.mainIn))
    (ha : a.alt.hasInputs = true → Safe (fun _ => True) (mainInfo E a.alt a.altIn)) : Safe (fun _ => True) (mainDichotomy E a) := by
  unfold mainDichotomy
  cases h1 : a.main.hasInputs with
  | true =>
    cases h2 : a.alt.hasInputs with
    | true => exact (hm h1).bind (fun i _ _ => (ha h2).bind (fun j _ _ => trivial))
    | false => exact (hm h1).bind (fun i _ _ => trivial)
  | false =>
    cases h2 : a.alt.hasInputs with
    | true => exact (ha h2).bind (fun i _ _ => trivial)
    | false => exact fun h => by cases h

/-! ### All of it -/

theorem safe_prepare {E : CEnv} (hT : E.TagMaps) {H : Commit} {W : Wallet} {k : Stock} (ha : Addressed H E.I k.stash) (hi : Impls k.stash)
    (hds : DocsSorted k.stash) {inv : Inv.Invoice}
    (hop : ∀ c g si n d x, inv.contract = some c → k.stash.genesis c = some g → k.stash.schema (E.I.genesisSchema g) = some si → inv.iface = some n →
      k.stash.ifaceByName (E.name n) = some d → si.ImplementedBy E.I d x → ∃ ty, E.opType d x (inv.operation.map E.name) = some ty ∧
        (inv.assignment = none → ∀ name, nameByType (E.implOf x).transitions ty = some name → name ∈ OMap.keys (E.ifaceOf d).transitions)) :
    Safe (fun p => prepare E W k inv = .ok p) (prepare E W k inv) := by
  refine safe_of (Safe.not_panic (P := fun _ => True) ?_)
  unfold prepare
  refine (safe_failIf (by simp) _).bind (fun _ _ _ => ?_)
  refine (safe_orErr (by simp) _).bind (fun c _ hc => ?_)
  refine (safe_orErr (by simp) _).bind (fun n _ hn => ?_)
  have htb : transitionBuilder E k.stash c (.name (E.name n)) (inv.operation.map E.name) ≠ .error .panic := by
    intro h
    obtain ⟨g, si, d, x, h1, h2, h3, h4, -, h6⟩ := (transitionBuilder_panic hT ha hi hds).1 h
    obtain ⟨ty, h7, -⟩ := hop c g si n d x hc h1 h2 hn h3 h4
    rw [h6] at h7
    cases h7
  refine (safe_of htb).bind (fun b _ hb => ?_)
  have hname : Safe (fun _ => True) (assignmentName E inv b) := by
    unfold assignmentName
    cases hz : inv.assignment with
    | some y => exact trivial
    | none =>
      cases hx : b.defaultAssignment with
      | ok y => exact trivial
      | error e =>
        have : e ≠ .panic := by
          rintro rfl
          obtain ⟨s⟩ := transitionBuilder_ok hb
          obtain ⟨d1, d2, d3⟩ := s.docs
          have himpl : s.si.ImplementedBy E.I s.d s.impl := (implemented_get hi hds s.schema (iface_found ha hi.sorted (r := .name (E.name n)) s.iface)).mp s.iimpl
          obtain ⟨ty, h7, h8⟩ := hop c s.g s.si n s.d s.impl hc s.genesis s.schema hn s.iface himpl
          have hty : ty = s.tty := by
            unfold CEnv.opType at h7
            rw [s.named] at h7
            have h9 := s.typed
            rw [Option.bind_some] at h7
            rw [h7] at h9
            exact Option.some.inj h9
          have h9 := s.typed
          unfold TransitionBuilder.defaultAssignment OpBuilder.transitionIface at hx
          rw [d1, d2, d3] at hx
          obtain ⟨nm, hnm⟩ := nameByType_some h9
          have hk := h8 hz nm (by rw [hty]; exact hnm)
          cases hg : OMap.get? (E.ifaceOf s.d).transitions nm with
          | none => exact OMap.get?_eq_none_iff.1 hg hk
          | some op =>
            rw [hnm] at hx
            simp only [orErr, bind, Except.bind, hg] at hx
            split at hx <;> cases hx
        revert this
        cases e <;> intro he <;> first | exact absurd rfl he | exact fun h => by cases h
  refine hname.bind (fun nm _ _ => ?_)
  refine (safe_orErr (by simp) _).bind (fun ty _ _ => ?_)
  refine (safe_of htb).bind (fun b' _ _ => ?_)
  refine Safe.bind (P := fun _ => True) ?_ (fun sl _ _ => trivial)
  unfold beneficiarySeal
  split <;> split <;> first | exact trivial | exact fun h => by cases h

theorem safe_compose {E : CEnv} {n : Nat} (hE : E.Lawful n) (hT : E.TagMaps) {H : Commit} {W : Wallet} {k : Stock} (ha : Addressed H E.I k.stash)
    (hi : Impls k.stash) (hds : DocsSorted k.stash) {inv : Inv.Invoice} {prevs : List OutSeal} (h : k.Answerable E inv prevs) :
    Safe (fun _ => True) (Stock.compose E W k inv prevs) := by
  unfold compose
  refine (safe_prepare hT ha hi hds h.operation).bind (fun p _ hp => ?_)
  have hP := prepare_ok hp
  obtain ⟨st⟩ := hP.started
  have hdef := h.defined p.contract (.inl hP.contract)
  refine (safe_contractAssignmentsFor ..).bind (fun m _ hm => ?_)
  have hfits := own_fits hE hm hdef st.genesis st.schema
  have hr : BSafe (E.schemaOf st.si.doc) (E.tagsOf st.g) p.main := ⟨0, (ready_calls hT st.calls).mono (Nat.zero_le _) (Nat.le_refl _)⟩
  have hsum : E.B.debug = true → sumItems p.ty (visited E p.contract (E.ordOuts p.contract m)) < w64 := fun hd =>
    Nat.lt_of_le_of_lt (own_sum hE hm p.ty) (h.sum hd _ _ hP.contract hP.ty)
  refine (safe_spendAll (E := E) (W := W) (k := k) (p := p) (wanted E inv.ownedState) (E.ordOuts p.contract m) (a := { main := p.main, alt := p.alt })
    ⟨hr, by rw [hP.alt]; exact hr⟩ (fun _ => Nat.le_refl _) hfits (fun hd => by rw [Nat.zero_add]; exact hsum hd)).bind (fun a ha' hg => ?_)
  obtain ⟨hsp, hmi, hai⟩ := spendAll_ok ha'
  simp only [List.nil_append] at hmi hai
  have hsplit := sumItems_split W p.ty (visited E p.contract (E.ordOuts p.contract m))
  have halt := hsp.alt
  simp only [hP.alt] at halt
  have inMain : ∀ x ∈ (visited E p.contract (E.ordOuts p.contract m)).filter (onMain W),
      ∃ st', (x.2.1, st') ∈ a.main.inputs ∧ st'.kind = x.2.2.kind := by
    intro x hx
    obtain ⟨mm, hgm⟩ := hg.main
    refine input_of_item st.calls hsp.main hgm ?_ (hfits x (List.mem_filter.1 hx).1).1
    rw [items_input]; exact List.mem_map.2 ⟨x, hx, rfl⟩
  have inAlt : ∀ x ∈ (visited E p.contract (E.ordOuts p.contract m)).filter (fun x => !onMain W x),
      ∃ st', (x.2.1, st') ∈ a.alt.inputs ∧ st'.kind = x.2.2.kind := by
    intro x hx
    obtain ⟨mm, hgm⟩ := hg.alt
    refine input_of_item st.calls halt hgm ?_ (hfits x (List.mem_filter.1 hx).1).1
    rw [items_input]; exact List.mem_map.2 ⟨x, hx, rfl⟩
  have hpay : Safe (SPaid (E.schemaOf st.si.doc) (E.tagsOf st.g) a) (payInvoice E W k p a inv.ownedState) := by
    rcases h.state with ⟨amt, hst⟩ | ⟨t, hst⟩
    · rw [hst]
      have hs := hsp.sum
      have hsa := hsp.sumAlt
      have hw : (0 : Nat) < w64 := by decide
      have l1 := hsp.sumLt hw
      have l2 := hsp.altLt hw
      simp only [Nat.zero_add] at hs hsa
      rw [Nat.mod_eq_of_lt l1] at hs
      rw [Nat.mod_eq_of_lt l2] at hsa
      refine safe_payAmount hg (fun hd => ?_) (fun hne => ?_) (fun hpos => ?_)
      · obtain ⟨e1, e2⟩ := hsp.debug hd
        rw [e1, e2]
        simp only [Nat.zero_add]
        omega
      · obtain ⟨x, hx, e1, e2⟩ := sumItems_pos (ty := p.ty) (l := (visited E p.contract (E.ordOuts p.contract m)).filter (onMain W)) (by
          by_contra hz
          apply hne
          rw [hs, hsa, hsplit]
          congr 1
          omega)
        obtain ⟨s', h1, h2⟩ := inMain x hx
        exact ⟨_, s', h1, e1, h2.trans e2⟩
      · obtain ⟨x, hx, e1, e2⟩ := sumItems_pos (ty := p.ty) (l := (visited E p.contract (E.ordOuts p.contract m)).filter (fun x => !onMain W x)) (by
          by_contra hz
          have hz' : sumItems p.ty ((visited E p.contract (E.ordOuts p.contract m)).filter (fun x => !onMain W x)) = 0 := by omega
          rw [hz'] at hsa
          rw [hsa] at hpos
          simp at hpos)
        obtain ⟨s', h1, h2⟩ := inAlt x hx
        exact ⟨_, s', h1, e1, h2.trans e2⟩
    · have kind : ∀ s : RState, s.data?.isSome = true → s.kind = .structured := by
        intro s hs; cases s <;> first | rfl | cases hs
      have hw : wanted E inv.ownedState = some (E.dataOf t) := by rw [hst]; rfl
      have hdm := hsp.dataMain
      rw [hst]
      refine safe_payToken (W := W) (p := p) (token := E.dataOf t) hg (fun htok hd => ?_) (fun hd => ?_)
      · rw [hsp.data] at htok
        simp only [List.nil_append] at htok
        unfold dataItems at htok
        obtain ⟨z, hz, hz2⟩ := List.mem_filterMap.1 htok
        obtain ⟨hzv, hz1⟩ := List.mem_filter.1 hz
        replace hz1 := of_decide_eq_true hz1
        rw [hd] at hdm
        have hno : isAltData W (wanted E inv.ownedState) p.ty z = false := by
          simp only [Bool.true_and] at hdm
          have h3 : (visited E p.contract (E.ordOuts p.contract m)).any (isAltData W (wanted E inv.ownedState) p.ty) = false := by
            simpa using hdm.symm
          have h4 := List.any_eq_false.1 h3 z hzv
          simpa using h4
        have hom : onMain W z = true := by
          cases hx : onMain W z with
          | true => rfl
          | false =>
            unfold isAltData at hno
            rw [hx, hw, hz2] at hno
            simp [hz1] at hno
        obtain ⟨s', h1, h2⟩ := inMain z (List.mem_filter.2 ⟨hzv, hom⟩)
        exact ⟨_, s', h1, hz1, h2.trans (kind _ (by rw [hz2]; rfl))⟩
      · rw [hd] at hdm
        have h3 : (visited E p.contract (E.ordOuts p.contract m)).any (isAltData W (wanted E inv.ownedState) p.ty) = true := by
          simp only [Bool.true_and] at hdm
          simpa using hdm.symm
        obtain ⟨x, hx, hxa⟩ := List.any_eq_true.1 h3
        unfold isAltData at hxa
        simp only [Bool.and_eq_true, decide_eq_true_eq] at hxa
        obtain ⟨⟨q1, q2⟩, q3, -⟩ := hxa
        obtain ⟨s', h1, h2⟩ := inAlt x (List.mem_filter.2 ⟨hx, q2⟩)
        exact ⟨_, s', h1, q1, h2.trans (kind _ q3)⟩
  refine hpay.bind (fun a' _ hp' => ?_)
  refine (safe_spentState ..).bind (fun others hot _ => ?_)
  obtain ⟨hos, hog, hok⟩ := spentState_ok hot OMap.Sorted.nil (fun id sp hx => by cases hx)
  refine (safe_blankLoop (E.ordContracts others) [] (fun e he => ?_)).bind (fun bs _ _ => ?_)
  · have he' := (hE.contracts others).mem_iff.1 he
    obtain ⟨hne, hca⟩ := hog e.1 e.2 (hos.get?_of_mem he')
    have hin : e.1 ∈ k.index.contractsAssigning (prevs.map OutSeal.outpoint) := by
      rcases (hok e.1).1 (List.mem_map.2 ⟨e, he', rfl⟩) with hx | hx
      · cases hx
      · exact hx.1
    refine safe_blankFor hE hT h.balance (h.defined _ (.inr hin)) (h.others _ hin ?_) hca
    rw [hP.contract]
    exact fun hx => hne (Option.some.inj hx).symm
  have eM : a'.main.hasInputs = !((visited E p.contract (E.ordOuts p.contract m)).filter (onMain W)).isEmpty := by
    rw [← mainInputs st hsp.main]; unfold TransitionBuilder.hasInputs; rw [hp'.main]
  have eA : a'.alt.hasInputs = !((visited E p.contract (E.ordOuts p.contract m)).filter (fun x => !onMain W x)).isEmpty := by
    rw [← mainInputs st halt]; unfold TransitionBuilder.hasInputs; rw [hp'.alt]
  refine Safe.bind (P := fun _ => True) (safe_mainDichotomy (E := E) (a := a') (fun hi => ?_) (fun hi => ?_)) (fun _ _ _ => trivial)
  · rw [hp'.mainIn, hmi]
    refine safe_info (c := p.contract) h.balance hp'.going.main (f := fun s => decide (s.method = W.method)) (mt := W.method) (fun s hs => by simpa using hs) ?_
    intro he
    rw [hi, show (visited E p.contract (E.ordOuts p.contract m)).filter (onMain W) = [] from he] at eM
    simp at eM
  · rw [hp'.altIn, hai]
    refine safe_info (c := p.contract) h.balance hp'.going.alt (f := fun s => !decide (s.method = W.method))
      (mt := match W.method with | .opretFirst => .tapretFirst | .tapretFirst => .opretFirst)
      (fun s hs => by cases hw : W.method <;> cases hsm : s.method <;> simp [hw, hsm] at hs ⊢) ?_
    intro he
    rw [hi, show (visited E p.contract (E.ordOuts p.contract m)).filter (fun x => !onMain W x) = [] from he] at eA
    simp at eA

end Stock

end Rgb
