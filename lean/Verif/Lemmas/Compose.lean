import Verif.Lemmas.Spent

/-! Lemmas about composing: each of the builders gets a definite list of calls. -/

namespace Rgb

theorem except_bind_error {ε α β : Type} {x : Except ε α} {f : α → Except ε β} {e : ε} :
    (x >>= f) = .error e ↔ x = .error e ∨ ∃ a, x = .ok a ∧ f a = .error e := by
  cases x with
  | error e' =>
    constructor
    · intro h; cases h; exact .inl rfl
    · rintro (h | ⟨a, h, _⟩)
      · cases h; rfl
      · cases h
  | ok a =>
    constructor
    · intro h; exact .inr ⟨a, rfl, h⟩
    · rintro (h | ⟨b, h, h'⟩)
      · cases h
      · cases h; exact h'

theorem liftB_ok {α : Type} {x : Except BErr α} {a : α} : liftB x = .ok a ↔ x = .ok a := by
  cases x with
  | ok b => simp [liftB]
  | error e => cases e <;> simp [liftB]

theorem expectB_ok {α : Type} {x : Except BErr α} {a : α} : expectB x = .ok a ↔ x = .ok a := by
  cases x with
  | ok b => simp [expectB]
  | error e => simp [expectB]

/-- Errors which come from a builder. -/
def CErr.isBuilder : CErr → Prop
  | .builder _ => True
  | .panic => True
  | _ => False

theorem liftB_err {α : Type} {x : Except BErr α} {e : CErr} (h : liftB x = .error e) : e.isBuilder := by
  cases x with
  | ok b => cases h
  | error b => cases b <;> (simp only [liftB] at h; cases h; trivial)

theorem expectB_err {α : Type} {x : Except BErr α} {e : CErr} (h : expectB x = .error e) : e = .panic := by
  cases x with
  | ok b => cases h
  | error b => simp only [expectB] at h; cases h; rfl

theorem calls_append {E : BEnv} {xs ys : List TCall} {b : TransitionBuilder} :
    TransitionBuilder.calls E (xs ++ ys) b = (TransitionBuilder.calls E xs b >>= TransitionBuilder.calls E ys) := by
  induction xs generalizing b with
  | nil => rfl
  | cons c xs ih =>
    simp only [List.cons_append, TransitionBuilder.calls]
    cases b.call E c with
    | error e => rfl
    | ok b' => exact ih

theorem calls_append_ok {E : BEnv} {xs ys : List TCall} {b b' b'' : TransitionBuilder} (h : TransitionBuilder.calls E xs b = .ok b')
    (h' : TransitionBuilder.calls E ys b' = .ok b'') : TransitionBuilder.calls E (xs ++ ys) b = .ok b'' := by
  rw [calls_append, h]; exact h'

theorem calls_one {E : BEnv} {c : TCall} {b : TransitionBuilder} : TransitionBuilder.calls E [c] b = b.call E c := by
  simp only [TransitionBuilder.calls]
  cases b.call E c <;> rfl

/-! ### Asset tags -/

def tagCalls (tags : List (Nat × Nat)) : List TCall := tags.map (fun e => .addAssetTagRaw e.1 e.2)

theorem addTags_ok {B : BEnv} {tags : List (Nat × Nat)} {b b' : TransitionBuilder} (h : Stock.addTags tags b = .ok b') :
    TransitionBuilder.calls B (tagCalls tags) b = .ok b' := by
  induction tags generalizing b with
  | nil => simpa [Stock.addTags, tagCalls, TransitionBuilder.calls] using h
  | cons e tags ih =>
    obtain ⟨ty, tag⟩ := e
    simp only [Stock.addTags] at h
    obtain ⟨b1, h1, h2⟩ := except_bind_ok.1 h
    rw [expectB_ok] at h1
    show TransitionBuilder.calls B (TCall.addAssetTagRaw ty tag :: tagCalls tags) b = _
    simp only [TransitionBuilder.calls]
    rw [show b.call B (.addAssetTagRaw ty tag) = .ok b1 from h1]
    exact ih h2

theorem addTags_err {tags : List (Nat × Nat)} {b : TransitionBuilder} {e : CErr} (h : Stock.addTags tags b = .error e) : e = .panic := by
  induction tags generalizing b with
  | nil => cases h
  | cons x tags ih =>
    obtain ⟨ty, tag⟩ := x
    simp only [Stock.addTags] at h
    rcases except_bind_error.1 h with h | ⟨_, _, h⟩
    · exact expectB_err h
    · exact ih h

/-- What the builder of a transition has been given. -/
structure Started (E : CEnv) (k : Stock) (c name : Nat) (op : Option Nat) (b : TransitionBuilder) where
  g : Op
  si : SchemaIfaces
  d : IfaceDoc
  impl : IimplDoc
  opName : Nat
  tty : Nat
  genesis : k.stash.genesis c = some g
  schema : k.stash.schema (E.I.genesisSchema g) = some si
  iface : k.stash.ifaceByName name = some d
  iimpl : si.get (E.I.iface d) = some impl
  named : op.or (E.ifaceOf d).defaultOperation = some opName
  typed : typeByName (E.implOf impl).transitions opName = some tty
  calls : TransitionBuilder.calls E.B (tagCalls (E.tagsOf g)) (.new false c (E.ifaceOf d) (E.schemaOf si.doc) (E.implOf impl) tty) = .ok b

theorem contractSchema_ok {E : CEnv} {s : MemStash} {c : Nat} {x : Op × SchemaIfaces} (h : Stock.contractSchema E s c = .ok x) :
    s.genesis c = some x.1 ∧ s.schema (E.I.genesisSchema x.1) = some x.2 := by
  unfold Stock.contractSchema at h
  obtain ⟨g, h1, h⟩ := except_bind_ok.1 h
  obtain ⟨si, h2, h⟩ := except_bind_ok.1 h
  cases h
  exact ⟨orErr_ok.1 h1, orErr_ok.1 h2⟩

theorem transitionBuilder_ok {E : CEnv} {k : Stock} {c name : Nat} {op : Option Nat} {b : TransitionBuilder}
    (h : Stock.transitionBuilder E k.stash c (.name name) op = .ok b) : Nonempty (Started E k c name op b) := by
  unfold Stock.transitionBuilder at h
  obtain ⟨⟨g, si⟩, h1, h⟩ := except_bind_ok.1 h
  obtain ⟨d, h2, h⟩ := except_bind_ok.1 h
  obtain ⟨impl, h3, h⟩ := except_bind_ok.1 h
  obtain ⟨_, h4, h⟩ := except_bind_ok.1 h
  obtain ⟨b0, h5, h⟩ := except_bind_ok.1 h
  obtain ⟨hg, hs⟩ := contractSchema_ok h1
  rw [expectB_ok] at h5
  cases op with
  | some n =>
    simp only [Stock.namedOrDefault, TransitionBuilder.named] at h5
    obtain ⟨ty, h6, h5⟩ := except_bind_ok.1 h5
    cases h5
    exact ⟨⟨g, si, d, impl, n, ty, hg, hs, orErr_ok.1 h2, orErr_ok.1 h3, rfl, orErr_ok.1 h6, addTags_ok h⟩⟩
  | none =>
    simp only [Stock.namedOrDefault, TransitionBuilder.default] at h5
    obtain ⟨ty, h6, h5⟩ := except_bind_ok.1 h5
    cases h5
    rw [orErr_ok, Option.bind_eq_some_iff] at h6
    obtain ⟨n, hn, hty⟩ := h6
    exact ⟨⟨g, si, d, impl, n, ty, hg, hs, orErr_ok.1 h2, orErr_ok.1 h3, by simpa using hn, hty, addTags_ok h⟩⟩

/-- What the builder of a blank transition has been given. -/
structure Blanked (E : CEnv) (k : Stock) (c : Nat) (b : TransitionBuilder) where
  g : Op
  si : SchemaIfaces
  d : IfaceDoc
  impl : IimplDoc
  genesis : k.stash.genesis c = some g
  schema : k.stash.schema (E.I.genesisSchema g) = some si
  calls : TransitionBuilder.calls E.B (tagCalls (E.tagsOf g)) (.new false c (E.ifaceOf d) (E.schemaOf si.doc) (E.implOf impl) blankType) = .ok b

theorem blankBuilder_ok {E : CEnv} {k : Stock} {c : Nat} {r : IfaceRef} {b : TransitionBuilder}
    (h : Stock.blankBuilder E k.stash c r = .ok b) : Nonempty (Blanked E k c b) := by
  unfold Stock.blankBuilder at h
  obtain ⟨⟨g, si⟩, h1, h⟩ := except_bind_ok.1 h
  obtain ⟨d, h2, h⟩ := except_bind_ok.1 h
  obtain ⟨_, h3, h⟩ := except_bind_ok.1 h
  obtain ⟨_, h4, h⟩ := except_bind_ok.1 h
  obtain ⟨⟨d', impl⟩, h5, h⟩ := except_bind_ok.1 h
  obtain ⟨hg, hs⟩ := contractSchema_ok h1
  exact ⟨⟨g, si, d', impl, hg, hs, addTags_ok h⟩⟩

/-! ### Moving and counting of states -/

/-- A state with its place. -/
abbrev Item := OutSeal × Opout × RState

namespace Stock

/-- The calls for a spent state. -/
def itemCalls (E : CEnv) (W : Wallet) (k : Stock) (p : Prep) (x : Item) : List TCall :=
  .addInput x.2.1 x.2.2 ::
    (if x.2.1.ty ≠ p.ty then
      [.addOwnedRaw x.2.1.ty (W.outSeal E k p.layer (.moved p.contract x.1 x.2.1) p.contract x.2.1.ty)
        (OpBuilder.setBlinding (W.factors (.moved p.contract x.1 x.2.1)) x.2.2)]
    else [])

/-- Whether a state is at an output closed with the method of the wallet. -/
def onMain (W : Wallet) (x : Item) : Bool := decide (x.1.method = W.method)

/-- Sum of amounts of the type. -/
def sumItems (ty : Nat) (l : List Item) : Nat := ((l.filter (fun x => decide (x.2.1.ty = ty))).map (fun x => x.2.2.amount)).sum

/-- Data of the type. -/
def dataItems (ty : Nat) (l : List Item) : List Nat :=
  (l.filter (fun x => decide (x.2.1.ty = ty))).filterMap (fun x => x.2.2.data?)

/-- Whether a place has the wanted data and isn't closed with the method of the wallet. -/
def isAltData (W : Wallet) (want : Option Nat) (ty : Nat) (x : Item) : Bool :=
  decide (x.2.1.ty = ty) && !onMain W x && (x.2.2.data?.isSome && decide (want = x.2.2.data?))

theorem outputFor_ok {E : CEnv} {W : Wallet} {k : Stock} {layer : Layer1} {site : Site} {c ty : Nat} {sl : BSeal}
    (h : outputFor E W k layer site c ty = .ok sl) : sl = W.outSeal E k layer site c ty := by
  unfold outputFor at h
  obtain ⟨v, h1, h⟩ := except_bind_ok.1 h
  cases h
  rw [orErr_ok] at h1
  simp [Wallet.outSeal, h1]

theorem outputFor_err {E : CEnv} {W : Wallet} {k : Stock} {layer : Layer1} {site : Site} {c ty : Nat} {e : CErr}
    (h : outputFor E W k layer site c ty = .error e) : e = .noBlankOrChange := by
  unfold outputFor at h
  rcases except_bind_error.1 h with h | ⟨_, _, h⟩
  · cases hx : W.alloc site c ty (E.velocity (k.stash.supplements (E.genesisRef c)).head? ty) with
    | none => rw [hx] at h; simp only [orErr] at h; cases h; rfl
    | some v => rw [hx] at h; cases h
  · cases h

theorem on_ok {a a' : Acc} {m : Bool} {f : TransitionBuilder → Except BErr TransitionBuilder} (h : a.on m f = .ok a') :
    (m = true ∧ ∃ b, f a.main = .ok b ∧ a' = { a with main := b }) ∨ (m = false ∧ ∃ b, f a.alt = .ok b ∧ a' = { a with alt := b }) := by
  unfold Acc.on at h
  cases m with
  | true =>
    simp only [if_true] at h
    obtain ⟨b, h1, h⟩ := except_bind_ok.1 h
    cases h
    exact .inl ⟨rfl, b, liftB_ok.1 h1, rfl⟩
  | false =>
    simp only [Bool.false_eq_true, if_false] at h
    obtain ⟨b, h1, h⟩ := except_bind_ok.1 h
    cases h
    exact .inr ⟨rfl, b, liftB_ok.1 h1, rfl⟩

theorem on_err {a : Acc} {m : Bool} {f : TransitionBuilder → Except BErr TransitionBuilder} {e : CErr} (h : a.on m f = .error e) :
    e.isBuilder := by
  unfold Acc.on at h
  cases m with
  | true =>
    simp only [if_true] at h
    rcases except_bind_error.1 h with h | ⟨_, _, h⟩
    · exact liftB_err h
    · cases h
  | false =>
    simp only [Bool.false_eq_true, if_false] at h
    rcases except_bind_error.1 h with h | ⟨_, _, h⟩
    · exact liftB_err h
    · cases h

def w64 : Nat := 18446744073709551616

theorem addU_ok {E : CEnv} {a b c : Nat} (h : addU E a b = .ok c) : c = (a + b) % w64 ∧ (E.B.debug = true → a + b < w64) := by
  unfold addU at h
  split at h
  · cases h; rename_i hl; exact ⟨(Nat.mod_eq_of_lt hl).symm, fun _ => hl⟩
  · cases hd : E.B.debug <;> rw [hd] at h
    · cases h; exact ⟨rfl, fun h => by cases h⟩
    · cases h

theorem addU_err {E : CEnv} {a b : Nat} {e : CErr} (h : addU E a b = .error e) : e = .panic ∧ E.B.debug = true ∧ w64 ≤ a + b := by
  unfold addU at h
  split at h
  · cases h
  · rename_i hl
    cases hd : E.B.debug <;> rw [hd] at h
    · cases h
    · cases h; exact ⟨rfl, rfl, Nat.le_of_not_lt hl⟩

/-- What spending a list of states does. -/
structure Spending (E : CEnv) (W : Wallet) (k : Stock) (p : Prep) (want : Option Nat) (l : List Item) (a a' : Acc) : Prop where
  main : TransitionBuilder.calls E.B ((l.filter (onMain W)).flatMap (itemCalls E W k p)) a.main = .ok a'.main
  alt : TransitionBuilder.calls E.B ((l.filter (fun x => !onMain W x)).flatMap (itemCalls E W k p)) a.alt = .ok a'.alt
  sum : a'.sum % w64 = (a.sum + sumItems p.ty l) % w64
  sumAlt : a'.sumAlt % w64 = (a.sumAlt + sumItems p.ty (l.filter (fun x => !onMain W x))) % w64
  sumLt : a.sum < w64 → a'.sum < w64
  altLt : a.sumAlt < w64 → a'.sumAlt < w64
  debug : E.B.debug = true →
    a'.sum = a.sum + sumItems p.ty l ∧ a'.sumAlt = a.sumAlt + sumItems p.ty (l.filter (fun x => !onMain W x))
  data : a'.data = a.data ++ dataItems p.ty l
  dataMain : a'.dataMain = (a.dataMain && !(l.any (isAltData W want p.ty)))

theorem sumItems_append (ty : Nat) (l m : List Item) : sumItems ty (l ++ m) = sumItems ty l + sumItems ty m := by
  simp [sumItems]

theorem dataItems_append (ty : Nat) (l m : List Item) : dataItems ty (l ++ m) = dataItems ty l ++ dataItems ty m := by
  simp [dataItems]

theorem Spending.refl (E : CEnv) (W : Wallet) (k : Stock) (p : Prep) (want : Option Nat) (a : Acc) : Spending E W k p want [] a a where
  main := rfl
  alt := rfl
  sum := rfl
  sumAlt := rfl
  sumLt := id
  altLt := id
  debug := fun _ => ⟨rfl, rfl⟩
  data := by simp [dataItems]
  dataMain := by simp

theorem mod_step {a b c x y w : Nat} (h1 : b % w = (a + x) % w) (h2 : c % w = (b + y) % w) : c % w = (a + (x + y)) % w := by
  rw [h2, Nat.add_mod, h1, ← Nat.add_mod, Nat.add_assoc]

theorem Spending.trans {E : CEnv} {W : Wallet} {k : Stock} {p : Prep} {want : Option Nat} {l m : List Item} {a b c : Acc}
    (h1 : Spending E W k p want l a b) (h2 : Spending E W k p want m b c) : Spending E W k p want (l ++ m) a c where
  main := by rw [List.filter_append, List.flatMap_append]; exact calls_append_ok h1.main h2.main
  alt := by rw [List.filter_append, List.flatMap_append]; exact calls_append_ok h1.alt h2.alt
  sum := by rw [sumItems_append]; exact mod_step h1.sum h2.sum
  sumAlt := by rw [List.filter_append, sumItems_append]; exact mod_step h1.sumAlt h2.sumAlt
  sumLt := fun h => h2.sumLt (h1.sumLt h)
  altLt := fun h => h2.altLt (h1.altLt h)
  debug := fun h => by
    obtain ⟨x1, x2⟩ := h1.debug h
    obtain ⟨y1, y2⟩ := h2.debug h
    rw [List.filter_append, sumItems_append, sumItems_append]
    omega
  data := by rw [h2.data, h1.data, dataItems_append, List.append_assoc]
  dataMain := by rw [h2.dataMain, h1.dataMain, List.any_append]; cases a.dataMain <;> simp

theorem sumItems_one (ty : Nat) (x : Item) : sumItems ty [x] = if x.2.1.ty = ty then x.2.2.amount else 0 := by
  by_cases h : x.2.1.ty = ty <;> simp [sumItems, h]

theorem count_ok {E : CEnv} {want : Option Nat} {m : Bool} {a a' : Acc} {st : RState} (h : a.count E want m st = .ok a') :
    a'.main = a.main ∧ a'.alt = a.alt ∧ a'.sum % w64 = (a.sum + st.amount) % w64 ∧
      a'.sumAlt % w64 = (a.sumAlt + if m then 0 else st.amount) % w64 ∧ (a.sum < w64 → a'.sum < w64) ∧ (a.sumAlt < w64 → a'.sumAlt < w64) ∧
      (E.B.debug = true → a'.sum = a.sum + st.amount ∧ a'.sumAlt = a.sumAlt + if m then 0 else st.amount) ∧
      a'.data = a.data ++ st.data?.toList ∧
      a'.dataMain = (a.dataMain && !(!m && (st.data?.isSome && decide (want = st.data?)))) ∧
      a'.mainIn = a.mainIn ∧ a'.altIn = a.altIn := by
  cases st with
  | void => simp only [Acc.count, Except.ok.injEq] at h; subst h; simp [RState.amount, RState.data?]
  | attach f md salt => simp only [Acc.count, Except.ok.injEq] at h; subst h; simp [RState.amount, RState.data?]
  | data v salt =>
    simp only [Acc.count, Except.ok.injEq] at h
    subst h
    refine ⟨rfl, rfl, by simp [RState.amount], by simp [RState.amount], id, id, by simp [RState.amount], rfl, ?_, rfl, rfl⟩
    simp only [RState.data?, Option.isSome_some, Bool.true_and]
    cases m <;> by_cases hw : want = some v <;> simp [hw]
  | fungible v bl tag =>
    simp only [Acc.count] at h
    obtain ⟨s1, h1, h⟩ := except_bind_ok.1 h
    obtain ⟨e1, d1⟩ := addU_ok h1
    have hw : 0 < w64 := by decide
    cases m with
    | true =>
      simp only [if_true] at h
      obtain ⟨s2, h2, h⟩ := except_bind_ok.1 h
      cases h2
      cases h
      refine ⟨rfl, rfl, by simp [e1, RState.amount], by simp, fun _ => by rw [e1]; exact Nat.mod_lt _ hw, id, fun hd => ⟨?_, by simp⟩,
        by simp [RState.data?], by simp [RState.data?], rfl, rfl⟩
      rw [e1]; exact Nat.mod_eq_of_lt (d1 hd)
    | false =>
      simp only [Bool.false_eq_true, if_false] at h
      obtain ⟨s2, h2, h⟩ := except_bind_ok.1 h
      cases h
      obtain ⟨e2, d2⟩ := addU_ok h2
      refine ⟨rfl, rfl, by simp [e1, RState.amount], by simp [e2, RState.amount], fun _ => by rw [e1]; exact Nat.mod_lt _ hw,
        fun _ => by rw [e2]; exact Nat.mod_lt _ hw, fun hd => ⟨?_, ?_⟩, by simp [RState.data?], by simp [RState.data?], rfl, rfl⟩
      · rw [e1]; exact Nat.mod_eq_of_lt (d1 hd)
      · simp only [Bool.false_eq_true, if_false]; rw [e2]; exact Nat.mod_eq_of_lt (d2 hd)

theorem spendOne_ok {E : CEnv} {W : Wallet} {k : Stock} {p : Prep} {want : Option Nat} {s : OutSeal} {a a' : Acc} {o : Opout} {st : RState}
    (h : spendOne E W k p want s a o st = .ok a') :
    Spending E W k p want [(s, o, st)] a a' ∧ a'.mainIn = a.mainIn ∧ a'.altIn = a.altIn := by
  unfold spendOne at h
  obtain ⟨a1, h1, h⟩ := except_bind_ok.1 h
  have hon : onMain W (s, o, st) = decide (s.method = W.method) := rfl
  by_cases hty : o.ty ≠ p.ty
  · rw [if_pos hty] at h
    obtain ⟨sl, hsl, h2⟩ := except_bind_ok.1 h
    have hsl := outputFor_ok hsl
    subst hsl
    have hs0 : sumItems p.ty [(s, o, st)] = 0 := by rw [sumItems_one]; exact if_neg hty
    have hd0 : dataItems p.ty [(s, o, st)] = [] := by simp [dataItems, hty]
    have ha0 : isAltData W want p.ty (s, o, st) = false := by simp [isAltData, hty]
    rcases on_ok h1 with ⟨hm, b1, hb1, rfl⟩ | ⟨hm, b1, hb1, rfl⟩
    · rcases on_ok h2 with ⟨_, b2, hb2, rfl⟩ | ⟨hm', _⟩
      · have hf : [(s, o, st)].filter (onMain W) = [(s, o, st)] := by simp [hon, hm]
        have hf' : [(s, o, st)].filter (fun x => !onMain W x) = [] := by simp [hon, hm]
        refine ⟨⟨?_, ?_, ?_, ?_, id, id, fun _ => ⟨?_, ?_⟩, ?_, ?_⟩, rfl, rfl⟩
        · rw [hf]
          simp only [itemCalls, List.flatMap_cons, List.flatMap_nil, List.append_nil, if_pos hty]
          exact calls_append_ok (xs := [TCall.addInput o st]) (by rw [calls_one]; exact hb1) (by rw [calls_one]; exact hb2)
        · rw [hf']; rfl
        · rw [hs0]; rfl
        · rw [hf']; rfl
        · rw [hs0]; rfl
        · rw [hf']; rfl
        · rw [hd0]; simp
        · simp [ha0]
      · rw [hm] at hm'; cases hm'
    · rcases on_ok h2 with ⟨hm', _⟩ | ⟨_, b2, hb2, rfl⟩
      · rw [hm] at hm'; cases hm'
      · have hf : [(s, o, st)].filter (onMain W) = [] := by simp [hon, hm]
        have hf' : [(s, o, st)].filter (fun x => !onMain W x) = [(s, o, st)] := by simp [hon, hm]
        refine ⟨⟨?_, ?_, ?_, ?_, id, id, fun _ => ⟨?_, ?_⟩, ?_, ?_⟩, rfl, rfl⟩
        · rw [hf]; rfl
        · rw [hf']
          simp only [itemCalls, List.flatMap_cons, List.flatMap_nil, List.append_nil, if_pos hty]
          exact calls_append_ok (xs := [TCall.addInput o st]) (by rw [calls_one]; exact hb1) (by rw [calls_one]; exact hb2)
        · rw [hs0]; rfl
        · rw [hf', hs0]; rfl
        · rw [hs0]; rfl
        · rw [hf', hs0]; rfl
        · rw [hd0]; simp
        · simp [ha0]
  · rw [if_neg hty] at h
    have hty : o.ty = p.ty := Decidable.byContradiction hty
    obtain ⟨c1, c2, c3, c4, c5, c6, c7, c8, c9, c10, c11⟩ := count_ok h
    have hs0 : sumItems p.ty [(s, o, st)] = st.amount := by rw [sumItems_one]; exact if_pos hty
    have hd0 : dataItems p.ty [(s, o, st)] = st.data?.toList := by
      cases st <;> simp [dataItems, hty, RState.data?]
    have hcalls : ∀ b b1 : TransitionBuilder, b.addInput o st = .ok b1 →
        TransitionBuilder.calls E.B ([(s, o, st)].flatMap (itemCalls E W k p)) b = .ok b1 := by
      intro b b1 hb
      simp only [itemCalls, List.flatMap_cons, List.flatMap_nil, List.append_nil, hty, ne_eq, not_true_eq_false, if_false]
      rw [calls_one]; exact hb
    have ha0 : isAltData W want p.ty (s, o, st) =
        (!decide (s.method = W.method) && (st.data?.isSome && decide (want = st.data?))) := by
      simp only [isAltData, hty, decide_true, Bool.true_and, hon]
    rcases on_ok h1 with ⟨hm, b1, hb1, rfl⟩ | ⟨hm, b1, hb1, rfl⟩
    · have hf : [(s, o, st)].filter (onMain W) = [(s, o, st)] := by simp [hon, hm]
      have hf' : [(s, o, st)].filter (fun x => !onMain W x) = [] := by simp [hon, hm]
      rw [hm] at c4 c7 c9
      refine ⟨⟨?_, ?_, ?_, ?_, c5, c6, fun hd => ⟨?_, ?_⟩, ?_, ?_⟩, c10, c11⟩
      · rw [hf, c1]; exact hcalls _ _ hb1
      · rw [hf', c2]; rfl
      · rw [hs0, c3]
      · rw [hf', c4]; rfl
      · rw [hs0, (c7 hd).1]
      · rw [hf', (c7 hd).2]; rfl
      · rw [hd0, c8]
      · simp only [List.any_cons, List.any_nil, Bool.or_false, ha0, hm]; exact c9
    · have hf : [(s, o, st)].filter (onMain W) = [] := by simp [hon, hm]
      have hf' : [(s, o, st)].filter (fun x => !onMain W x) = [(s, o, st)] := by simp [hon, hm]
      rw [hm] at c4 c7 c9
      refine ⟨⟨?_, ?_, ?_, ?_, c5, c6, fun hd => ⟨?_, ?_⟩, ?_, ?_⟩, c10, c11⟩
      · rw [hf, c1]; rfl
      · rw [hf', c2]; exact hcalls _ _ hb1
      · rw [hs0, c3]
      · rw [hf', hs0, c4]; rfl
      · rw [hs0, (c7 hd).1]
      · rw [hf', hs0, (c7 hd).2]; rfl
      · rw [hd0, c8]
      · simp only [List.any_cons, List.any_nil, Bool.or_false, ha0, hm]; exact c9

theorem spendList_ok {E : CEnv} {W : Wallet} {k : Stock} {p : Prep} {want : Option Nat} {s : OutSeal} {l : List (Opout × RState)} {a a' : Acc}
    (h : spendList E W k p want s l a = .ok a') :
    Spending E W k p want (l.map (fun x => (s, x.1, x.2))) a a' ∧ a'.mainIn = a.mainIn ∧ a'.altIn = a.altIn := by
  induction l generalizing a with
  | nil => simp only [spendList, Except.ok.injEq] at h; subst h; exact ⟨.refl .., rfl, rfl⟩
  | cons x l ih =>
    obtain ⟨o, st⟩ := x
    simp only [spendList] at h
    obtain ⟨b, h1, h2⟩ := except_bind_ok.1 h
    obtain ⟨i1, i2, i3⟩ := spendOne_ok h1
    obtain ⟨j1, j2, j3⟩ := ih h2
    exact ⟨i1.trans j1, j2.trans i2, j3.trans i3⟩

/-- The states in the order in which they are visited. -/
def visited (E : CEnv) (c : Nat) (l : List (OutSeal × OMap Opout RState)) : List Item :=
  l.flatMap (fun e => (E.ordOpouts c e.1 e.2).map (fun x => (e.1, x.1, x.2)))

theorem pushOutput_spending (E : CEnv) (W : Wallet) (k : Stock) (p : Prep) (want : Option Nat) (a : Acc) (s : OutSeal) :
    Spending E W k p want [] a (a.pushOutput W s) := by
  unfold Acc.pushOutput
  split <;> exact ⟨rfl, rfl, rfl, rfl, id, id, fun _ => ⟨rfl, rfl⟩, by simp [dataItems], by simp⟩

theorem spendAll_ok {E : CEnv} {W : Wallet} {k : Stock} {p : Prep} {want : Option Nat} {l : List (OutSeal × OMap Opout RState)} {a a' : Acc}
    (h : spendAll E W k p want l a = .ok a') :
    Spending E W k p want (visited E p.contract l) a a' ∧
      a'.mainIn = a.mainIn ++ (l.map Prod.fst).filter (fun s => decide (s.method = W.method)) ∧
      a'.altIn = a.altIn ++ (l.map Prod.fst).filter (fun s => !decide (s.method = W.method)) := by
  induction l generalizing a with
  | nil => simp only [spendAll, Except.ok.injEq] at h; subst h; exact ⟨.refl .., by simp, by simp⟩
  | cons x l ih =>
    obtain ⟨s, m⟩ := x
    simp only [spendAll] at h
    obtain ⟨b, h1, h2⟩ := except_bind_ok.1 h
    obtain ⟨i1, i2, i3⟩ := spendList_ok h1
    obtain ⟨j1, j2, j3⟩ := ih h2
    refine ⟨?_, ?_, ?_⟩
    · have := ((pushOutput_spending E W k p want a s).trans i1).trans j1
      simpa [visited] using this
    · rw [j2, i2]
      unfold Acc.pushOutput
      by_cases hm : s.method = W.method <;> simp [hm]
    · rw [j3, i3]
      unfold Acc.pushOutput
      by_cases hm : s.method = W.method <;> simp [hm]

end Stock

end Rgb
