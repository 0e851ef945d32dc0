import Verif.Spec.Builder
import Verif.Lemmas.Base

/-! Lemmas on the builders: each call is a sequence of elementary steps, and what these steps keep. -/

namespace Rgb

theorem except_bind_ok {ε α β : Type} {x : Except ε α} {f : α → Except ε β} {b : β} :
    (x >>= f) = .ok b ↔ ∃ a, x = .ok a ∧ f a = .ok b := by
  cases x with
  | error e => constructor
               · intro h; cases h
               · rintro ⟨a, h, _⟩; cases h
  | ok a => constructor
            · intro h; exact ⟨a, rfl, h⟩
            · rintro ⟨a', h, h'⟩; cases h; exact h'

theorem except_bind_err {ε α β : Type} {x : Except ε α} {f : α → Except ε β} {e : ε} :
    (x >>= f) = .error e ↔ x = .error e ∨ ∃ a, x = .ok a ∧ f a = .error e := by
  cases x with
  | error e' => constructor
                · intro h; cases h; exact Or.inl rfl
                · rintro (h | ⟨a, h, _⟩) <;> cases h; rfl
  | ok a => constructor
            · intro h; exact Or.inr ⟨a, rfl, h⟩
            · rintro (h | ⟨a', h, h'⟩)
              · cases h
              · cases h; exact h'

theorem orErr_ok {ε α : Type} {e : ε} {x : Option α} {a : α} : orErr e x = .ok a ↔ x = some a := by
  cases x <;> simp [orErr]

theorem failIf_ok {ε : Type} {e : ε} {c : Bool} {u : Unit} : failIf e c = .ok u ↔ c = false := by
  cases c <;> simp [failIf]

theorem insertMax_ok {κ ν : Type} [Key κ] [DecidableEq κ] {max : Nat} {m m' : OMap κ ν} {k : κ} {v : ν} :
    insertMax max m k v = .ok m' ↔ m.length < max ∧ m' = OMap.insert m k v := by
  unfold insertMax
  split
  · constructor
    · intro h; cases h
    · rintro ⟨h, _⟩; omega
  · constructor
    · intro h; cases h; exact ⟨by omega, rfl⟩
    · rintro ⟨_, h⟩; rw [h]

theorem lastFor_append {κ ν : Type} [DecidableEq κ] (k : κ) (l : List (κ × ν)) (e : κ × ν) :
    lastFor k (l ++ [e]) = if e.1 = k then some e.2 else lastFor k l := by
  simp [lastFor]

theorem lastFor_nil {κ ν : Type} [DecidableEq κ] (k : κ) : lastFor k ([] : List (κ × ν)) = none := rfl

theorem lastFor_foldl {κ ν : Type} [DecidableEq κ] (k : κ) (l : List (κ × ν)) (o : Option ν) :
    l.foldl (fun acc e => if e.1 = k then some e.2 else acc) o = (lastFor k l).or o := by
  unfold lastFor
  induction l generalizing o with
  | nil => simp
  | cons e l ih =>
    simp only [List.foldl_cons]
    by_cases h : e.1 = k
    · simp only [if_pos h]; rw [ih]
      cases (l.foldl (fun acc e => if e.1 = k then some e.2 else acc) none) <;> rfl
    · simp only [if_neg h]; rw [ih]

theorem lastFor_cat {κ ν : Type} [DecidableEq κ] (k : κ) (l l' : List (κ × ν)) :
    lastFor k (l ++ l') = (lastFor k l').or (lastFor k l) := by
  rw [lastFor, List.foldl_append, lastFor_foldl]; rfl

theorem lastFor_none {κ ν : Type} [DecidableEq κ] {k : κ} {l : List (κ × ν)} : lastFor k l = none ↔ ∀ e ∈ l, e.1 ≠ k := by
  induction l with
  | nil => simp [lastFor]
  | cons e l ih =>
    rw [show e :: l = [e] ++ l from rfl, lastFor_cat]
    cases h : lastFor k l with
    | some v =>
      rw [Option.some_or]
      simp only [reduceCtorEq, false_iff]
      intro hall
      have := ih.2 (fun e' he' => hall e' (by simp [he']))
      rw [h] at this; cases this
    | none =>
      have h' := ih.1 h
      simp only [Option.none_or]
      by_cases hk : e.1 = k
      · simp [lastFor, hk]
      · simp [lastFor, hk]; exact fun a b hab => h' (a, b) hab

theorem lastFor_mem {κ ν : Type} [DecidableEq κ] {k : κ} {v : ν} {l : List (κ × ν)} (h : lastFor k l = some v) : (k, v) ∈ l := by
  induction l with
  | nil => simp [lastFor] at h
  | cons e l ih =>
    rw [show e :: l = [e] ++ l from rfl, lastFor_cat] at h
    cases h' : lastFor k l with
    | some w => rw [h'] at h; simp at h; subst h; simp [ih h']
    | none =>
      rw [h'] at h
      simp only [Option.none_or] at h
      by_cases hk : e.1 = k
      · simp [lastFor, hk] at h; simp [← h, ← hk]
      · simp [lastFor, hk] at h

/-! ### Slots -/

def Slots.find (m : Slots) (ty : Nat) (sl : BSeal) : Option RState := (OMap.get? m ty).bind (fun i => OMap.get? i sl)

structure Slots.WF (m : Slots) : Prop where
  sorted : OMap.Sorted m
  inner : ∀ (ty : Nat) (i : OMap BSeal RState), OMap.get? m ty = some i → OMap.Sorted i ∧ i ≠ []

theorem Slots.WF.nil : Slots.WF [] := ⟨OMap.Sorted.nil, fun ty i h => by cases h⟩

theorem OMap.insert_ne_nil {κ ν : Type} [Key κ] [DecidableEq κ] (m : OMap κ ν) (k : κ) (v : ν) : OMap.insert m k v ≠ [] := by
  cases m with
  | nil => simp [OMap.insert]
  | cons e m => obtain ⟨k', v'⟩ := e; simp only [OMap.insert]; split <;> (try split) <;> simp

theorem Slots.put_ok {m m' : Slots} {ty : Nat} {sl : BSeal} {st : RState} (h : Slots.put m ty sl st = .ok m') :
    (∀ ty' sl', Slots.find m' ty' sl' = if (ty', sl') = (ty, sl) then some st else Slots.find m ty' sl') ∧
      (∀ ty', OMap.contains m' ty' = (decide (ty' = ty) || OMap.contains m ty')) ∧
      (Slots.WF m → Slots.WF m') := by
  unfold Slots.put at h
  cases hg : OMap.get? m ty with
  | some inner =>
    rw [hg] at h
    simp only [except_bind_ok, insertMax_ok] at h
    obtain ⟨i', ⟨-, rfl⟩, h⟩ := h
    cases h
    refine ⟨?_, ?_, ?_⟩
    · intro ty' sl'
      unfold Slots.find
      by_cases h1 : ty' = ty
      · subst h1
        rw [OMap.get?_insert_self, hg]
        simp only [Option.bind_some, Prod.mk.injEq, true_and]
        by_cases h2 : sl' = sl
        · subst h2; simp
        · rw [OMap.get?_insert_ne _ _ h2, if_neg h2]
      · rw [OMap.get?_insert_ne _ _ h1, if_neg (by simp [h1])]
    · intro ty'
      unfold OMap.contains
      by_cases h1 : ty' = ty
      · subst h1; simp
      · rw [OMap.get?_insert_ne _ _ h1]; simp [h1]
    · intro wf
      refine ⟨wf.sorted.insert _ _, ?_⟩
      intro ty' i hi
      by_cases h1 : ty' = ty
      · subst h1; rw [OMap.get?_insert_self] at hi; cases hi
        exact ⟨(wf.inner _ _ hg).1.insert _ _, OMap.insert_ne_nil _ _ _⟩
      · rw [OMap.get?_insert_ne _ _ h1] at hi; exact wf.inner _ _ hi
  | none =>
    rw [hg] at h
    simp only [insertMax_ok] at h
    obtain ⟨-, rfl⟩ := h
    refine ⟨?_, ?_, ?_⟩
    · intro ty' sl'
      unfold Slots.find
      by_cases h1 : ty' = ty
      · subst h1
        rw [OMap.get?_insert_self, hg]
        simp only [Option.bind_some, Option.bind_none, Prod.mk.injEq, true_and, OMap.get?_cons, OMap.get?_nil]
      · rw [OMap.get?_insert_ne _ _ h1, if_neg (by simp [h1])]
    · intro ty'
      unfold OMap.contains
      by_cases h1 : ty' = ty
      · subst h1; simp
      · rw [OMap.get?_insert_ne _ _ h1]; simp [h1]
    · intro wf
      refine ⟨wf.sorted.insert _ _, ?_⟩
      intro ty' i hi
      by_cases h1 : ty' = ty
      · subst h1; rw [OMap.get?_insert_self] at hi; cases hi
        refine ⟨?_, by simp⟩
        simp [OMap.Sorted, OMap.keys]
      · rw [OMap.get?_insert_ne _ _ h1] at hi; exact wf.inner _ _ hi

/-! ### Elementary steps -/

/-- The kind of state of an owned type which builders accept. -/
def OwnedSchema.accepts : OwnedSchema → RState → Bool
  | .declarative, .void => true
  | .fungible n, .fungible _ _ _ => n = OpBuilder.u64Type
  | .structured _, .data _ _ => true
  | .attachment _, .attach _ _ _ => true
  | _, _ => false

def OwnedSchema.kind : OwnedSchema → StateKind
  | .declarative => .declarative
  | .fungible _ => .fungible
  | .structured _ => .structured
  | .attachment _ => .attachment

theorem OwnedSchema.accepts_kind {s : OwnedSchema} {st : RState} (h : s.accepts st = true) : st.kind = s.kind := by
  cases s <;> cases st <;> simp_all [OwnedSchema.accepts, OwnedSchema.kind, RState.kind]

namespace OpBuilder

def slots (b : OpBuilder) : StateKind → Slots
  | .declarative => b.rights
  | .fungible => b.fungible
  | .structured => b.data
  | .attachment => b.attachments

def setSlots (b : OpBuilder) (k : StateKind) (m : Slots) : OpBuilder :=
  match k with
  | .declarative => { b with rights := m }
  | .fungible => { b with fungible := m }
  | .structured => { b with data := m }
  | .attachment => { b with attachments := m }

theorem slots_setSlots (b : OpBuilder) (k k' : StateKind) (m : Slots) :
    (b.setSlots k m).slots k' = if k' = k then m else b.slots k' := by
  cases k <;> cases k' <;> simp [slots, setSlots]

/-- The part which calls never change. -/
def sameDocs (a b : OpBuilder) : Prop := a.schema = b.schema ∧ a.iface = b.iface ∧ a.iimpl = b.iimpl ∧ a.det = b.det

theorem sameDocs.refl (b : OpBuilder) : sameDocs b b := ⟨rfl, rfl, rfl, rfl⟩

theorem sameDocs.trans {a b c : OpBuilder} (h : sameDocs a b) (h' : sameDocs b c) : sameDocs a c :=
  ⟨h.1.trans h'.1, h.2.1.trans h'.2.1, h.2.2.1.trans h'.2.2.1, h.2.2.2.trans h'.2.2.2⟩

theorem sameDocs_setSlots (b : OpBuilder) (k : StateKind) (m : Slots) : sameDocs b (b.setSlots k m) := by
  cases k <;> exact ⟨rfl, rfl, rfl, rfl⟩

theorem setSlots_rest (b : OpBuilder) (k : StateKind) (m : Slots) :
    (b.setSlots k m).tags = b.tags ∧ (b.setSlots k m).globals = b.globals ∧ (b.setSlots k m).metadata = b.metadata := by
  cases k <;> exact ⟨rfl, rfl, rfl⟩

end OpBuilder

/-- Elementary changes of a builder. -/
inductive Prim where
  | tag (ty t : Nat)
  | glob (ty v : Nat)
  | md (ty v : Nat)
  | put (ty : Nat) (sl : BSeal) (st : RState)

inductive PStep : OpBuilder → Prim → OpBuilder → Prop
  | tag (b : OpBuilder) (ty t : Nat) (h : OMap.get? b.tags ty = none ∨ OMap.contains b.fungible ty = false) (hl : b.tags.length < tinyMax) :
      PStep b (.tag ty t) { b with tags := OMap.insert b.tags ty t }
  | glob (b : OpBuilder) (ty v : Nat) (m : OMap Nat (List Nat)) (h : OpBuilder.pushGlobal b.globals ty v = .ok m)
      (hk : OMap.contains b.schema.globalTypes ty = true) :
      PStep b (.glob ty v) { b with globals := m }
  | md (b : OpBuilder) (ty v : Nat) : PStep b (.md ty v) { b with metadata := OMap.insert b.metadata ty v }
  | put (b : OpBuilder) (ty : Nat) (sl : BSeal) (st : RState) (sch : OwnedSchema) (m : Slots)
      (hs : OMap.get? b.schema.ownedTypes ty = some sch) (ha : sch.accepts st = true)
      (ht : ∀ v bl t, st = .fungible v bl t → OMap.get? b.tags ty = some t)
      (hp : Slots.put (b.slots st.kind) ty sl st = .ok m) : PStep b (.put ty sl st) (b.setSlots st.kind m)

inductive PRun : OpBuilder → List Prim → OpBuilder → Prop
  | nil (b : OpBuilder) : PRun b [] b
  | snoc {a b c : OpBuilder} {ps : List Prim} {p : Prim} (h : PRun a ps b) (s : PStep b p c) : PRun a (ps ++ [p]) c

theorem PRun.one {a b : OpBuilder} {p : Prim} (s : PStep a p b) : PRun a [p] b := PRun.snoc (PRun.nil a) s

theorem PRun.append {a b c : OpBuilder} {ps qs : List Prim} (h : PRun a ps b) (h' : PRun b qs c) : PRun a (ps ++ qs) c := by
  induction h' with
  | nil => simpa using h
  | snoc _ s ih => rw [← List.append_assoc]; exact PRun.snoc ih s

theorem PStep.sameDocs {a b : OpBuilder} {p : Prim} (s : PStep a p b) : OpBuilder.sameDocs a b := by
  cases s with
  | put b ty sl st sch m => exact OpBuilder.sameDocs_setSlots _ _ _
  | _ => exact ⟨rfl, rfl, rfl, rfl⟩

theorem PRun.sameDocs {a b : OpBuilder} {ps : List Prim} (h : PRun a ps b) : OpBuilder.sameDocs a b := by
  induction h with
  | nil => exact OpBuilder.sameDocs.refl _
  | snoc _ s ih => exact ih.trans s.sameDocs

/-- The states put by elementary changes. -/
def puts (ps : List Prim) : List ((Nat × BSeal) × RState) :=
  ps.filterMap (fun p => match p with
    | .put ty sl st => some ((ty, sl), st)
    | _ => none)

def globs (ps : List Prim) : List (Nat × Nat) :=
  ps.filterMap (fun p => match p with
    | .glob ty v => some (ty, v)
    | _ => none)

def tagsSet (ps : List Prim) : List (Nat × Nat) :=
  ps.filterMap (fun p => match p with
    | .tag ty v => some (ty, v)
    | _ => none)

/-! ### Invariants of elementary steps -/

structure OpBuilder.Inv (b : OpBuilder) : Prop where
  wf : ∀ k, Slots.WF (b.slots k)
  typed : ∀ (k : StateKind) (ty : Nat), OMap.contains (b.slots k) ty = true →
    ∃ sch, OMap.get? b.schema.ownedTypes ty = some sch ∧ sch.kind = k
  kinds : ∀ (k : StateKind) (ty : Nat) (sl : BSeal) (st : RState), Slots.find (b.slots k) ty sl = some st → st.kind = k
  tag : ∀ (ty : Nat) (sl : BSeal) (v bl t : Nat), Slots.find b.fungible ty sl = some (.fungible v bl t) → OMap.get? b.tags ty = some t
  tagged : ∀ (ty : Nat), OMap.contains b.fungible ty = true → OMap.contains b.tags ty = true

theorem PStep.inv {a b : OpBuilder} {p : Prim} (s : PStep a p b) (h : a.Inv) : b.Inv := by
  cases s with
  | glob => exact ⟨h.wf, h.typed, h.kinds, h.tag, h.tagged⟩
  | md => exact ⟨h.wf, h.typed, h.kinds, h.tag, h.tagged⟩
  | tag ty t hg _ =>
    refine ⟨h.wf, h.typed, h.kinds, ?_, ?_⟩
    · intro ty' sl v bl t' hf
      have h1 := h.tag ty' sl v bl t' hf
      have hne : ty' ≠ ty := by
        rintro rfl
        rcases hg with hg | hg
        · rw [hg] at h1; cases h1
        · unfold Slots.find at hf
          unfold OMap.contains at hg
          cases hx : OMap.get? a.fungible ty' with
          | none => simp only [hx] at hf; cases hf
          | some _ => rw [hx] at hg; cases hg
      show OMap.get? (OMap.insert a.tags ty t) ty' = some t'
      rw [OMap.get?_insert_ne _ _ hne]; exact h1
    · intro ty' hc
      have h1 := h.tagged ty' hc
      show OMap.contains (OMap.insert a.tags ty t) ty' = true
      unfold OMap.contains at *
      by_cases hne : ty' = ty
      · subst hne; simp
      · rw [OMap.get?_insert_ne _ _ hne]; exact h1
  | put ty sl st sch m hs ha ht hp =>
    obtain ⟨p1, p2, p3⟩ := Slots.put_ok hp
    have hk := OwnedSchema.accepts_kind ha
    have hsch : (a.setSlots st.kind m).schema = a.schema := (OpBuilder.sameDocs_setSlots a st.kind m).1.symm
    have htags : (a.setSlots st.kind m).tags = a.tags := (OpBuilder.setSlots_rest a st.kind m).1
    refine ⟨?_, ?_, ?_, ?_, ?_⟩
    · intro k
      rw [OpBuilder.slots_setSlots]
      split
      · rename_i e; exact p3 (h.wf _)
      · exact h.wf k
    · intro k ty' hc
      rw [OpBuilder.slots_setSlots] at hc
      rw [hsch]
      split at hc
      · rename_i e; subst e
        rw [p2] at hc
        by_cases hty : ty' = ty
        · subst hty; exact ⟨sch, hs, hk.symm⟩
        · simp only [hty, decide_false, Bool.false_or] at hc; exact h.typed _ _ hc
      · exact h.typed _ _ hc
    · intro k ty' sl' st' hf
      rw [OpBuilder.slots_setSlots] at hf
      split at hf
      · rename_i e; subst e
        rw [p1] at hf
        split at hf
        · cases hf; rfl
        · exact h.kinds _ _ _ _ hf
      · exact h.kinds _ _ _ _ hf
    · intro ty' sl' v bl t hf
      rw [htags]
      change Slots.find ((a.setSlots st.kind m).slots .fungible) ty' sl' = _ at hf
      rw [OpBuilder.slots_setSlots] at hf
      split at hf
      · rw [p1] at hf
        split at hf
        · rename_i e1 e2
          cases hf; simp only [Prod.mk.injEq] at e2; rw [e2.1]; exact ht _ _ _ rfl
        · rename_i e1 _
          rw [← e1] at hf; exact h.tag _ _ _ _ _ hf
      · exact h.tag _ _ _ _ _ hf
    · intro ty' hc
      rw [htags]
      change OMap.contains ((a.setSlots st.kind m).slots .fungible) ty' = _ at hc
      rw [OpBuilder.slots_setSlots] at hc
      split at hc
      · rename_i e1
        rw [p2] at hc
        by_cases hty : ty' = ty
        · subst hty
          cases st <;> simp [RState.kind] at e1
          have := ht _ _ _ rfl
          unfold OMap.contains; rw [this]; rfl
        · simp only [hty, decide_false, Bool.false_or] at hc
          rw [← e1] at hc; exact h.tagged _ hc
      · exact h.tagged _ hc

theorem PRun.inv {a b : OpBuilder} {ps : List Prim} (r : PRun a ps b) (h : a.Inv) : b.Inv := by
  induction r with
  | nil => exact h
  | snoc _ s ih => exact s.inv ih

/-- The state found under a type and a seal in any of the collections. -/
def OpBuilder.found (b : OpBuilder) (ty : Nat) (sl : BSeal) : Option RState :=
  match OMap.get? b.schema.ownedTypes ty with
  | some sch => Slots.find (b.slots sch.kind) ty sl
  | none => none

theorem OpBuilder.found_of_find {b : OpBuilder} (h : b.Inv) {k : StateKind} {ty : Nat} {sl : BSeal} {st : RState}
    (hf : Slots.find (b.slots k) ty sl = some st) : b.found ty sl = some st := by
  have hc : OMap.contains (b.slots k) ty = true := by
    unfold Slots.find at hf; unfold OMap.contains
    cases hx : OMap.get? (b.slots k) ty with
    | none => rw [hx] at hf; cases hf
    | some _ => rfl
  obtain ⟨sch, h1, h2⟩ := h.typed _ _ hc
  unfold OpBuilder.found
  rw [h1]; simp only; rw [h2]; exact hf

theorem PStep.found {a b : OpBuilder} {p : Prim} (s : PStep a p b) (ty : Nat) (sl : BSeal) :
    b.found ty sl = (lastFor (ty, sl) (puts [p])).or (a.found ty sl) := by
  cases s with
  | tag => rfl
  | glob => rfl
  | md => rfl
  | put ty' sl' st sch m hs ha ht hp =>
    obtain ⟨p1, -, -⟩ := Slots.put_ok hp
    have hk := OwnedSchema.accepts_kind ha
    have hsch : (a.setSlots st.kind m).schema = a.schema := (OpBuilder.sameDocs_setSlots a st.kind m).1.symm
    have hl : lastFor (ty, sl) (puts [Prim.put ty' sl' st]) = if (ty', sl') = (ty, sl) then some st else none := rfl
    rw [hl]
    unfold OpBuilder.found
    rw [hsch]
    by_cases hty : ty = ty'
    · subst hty
      rw [hs]; simp only
      rw [OpBuilder.slots_setSlots, if_pos hk.symm, p1, hk]
      by_cases hsl : sl = sl'
      · subst hsl; simp
      · rw [if_neg (by simp [hsl]), if_neg (by simp [Ne.symm hsl])]; rfl
    · rw [if_neg (by simp [Ne.symm hty])]
      cases hx : OMap.get? a.schema.ownedTypes ty with
      | none => rfl
      | some sch' =>
        simp only [Option.none_or]
        rw [OpBuilder.slots_setSlots]
        split
        · rename_i e; rw [p1, if_neg (by simp [hty]), e]
        · rfl

theorem puts_append (ps qs : List Prim) : puts (ps ++ qs) = puts ps ++ puts qs := by simp [puts]
theorem globs_append (ps qs : List Prim) : globs (ps ++ qs) = globs ps ++ globs qs := by simp [globs]
theorem tagsSet_append (ps qs : List Prim) : tagsSet (ps ++ qs) = tagsSet ps ++ tagsSet qs := by simp [tagsSet]

theorem PRun.found {a b : OpBuilder} {ps : List Prim} (r : PRun a ps b) (ty : Nat) (sl : BSeal) :
    b.found ty sl = (lastFor (ty, sl) (puts ps)).or (a.found ty sl) := by
  induction r with
  | nil => simp [puts, lastFor_nil]
  | snoc _ s ih => rw [s.found, ih, puts_append, lastFor_cat, Option.or_assoc]

/-- Global state of a type. -/
def globalsOf (m : OMap Nat (List Nat)) (ty : Nat) : List Nat := (OMap.get? m ty).getD []

theorem pushGlobal_ok {m m' : OMap Nat (List Nat)} {ty v : Nat} (h : OpBuilder.pushGlobal m ty v = .ok m') (ty' : Nat) :
    globalsOf m' ty' = globalsOf m ty' ++ (if ty = ty' then [v] else []) ∧
      (OMap.contains m' ty' = (decide (ty' = ty) || OMap.contains m ty')) := by
  unfold OpBuilder.pushGlobal at h
  cases hg : OMap.get? m ty with
  | some l =>
    rw [hg] at h
    simp only at h
    split at h
    · cases h
    · cases h
      unfold globalsOf OMap.contains
      by_cases e : ty' = ty
      · subst e; simp [hg]
      · rw [OMap.get?_insert_ne _ _ e]; simp [e, Ne.symm e]
  | none =>
    rw [hg] at h
    simp only [insertMax_ok] at h
    obtain ⟨-, rfl⟩ := h
    unfold globalsOf OMap.contains
    by_cases e : ty' = ty
    · subst e; simp [hg]
    · rw [OMap.get?_insert_ne _ _ e]; simp [e, Ne.symm e]

theorem PRun.globals {a b : OpBuilder} {ps : List Prim} (r : PRun a ps b) (ty : Nat) :
    globalsOf b.globals ty = globalsOf a.globals ty ++ ((globs ps).filter (fun e => e.1 = ty)).map Prod.snd := by
  induction r with
  | nil => simp [globs]
  | snoc _ s ih =>
    rw [globs_append, List.filter_append, List.map_append, ← List.append_assoc, ← ih]
    cases s with
    | tag => simp [globs]
    | md => simp [globs]
    | put => rw [(OpBuilder.setSlots_rest _ _ _).2.1]; simp [globs]
    | glob ty' v m h _ =>
      rw [(pushGlobal_ok h ty).1]
      by_cases e : ty' = ty <;> simp [globs, e]

theorem PRun.globals_known {a b : OpBuilder} {ps : List Prim} (r : PRun a ps b) (ty : Nat) :
    OMap.contains b.globals ty = (OMap.contains a.globals ty || decide (∃ e ∈ globs ps, e.1 = ty)) := by
  induction r with
  | nil => simp [globs]
  | snoc _ s ih =>
    rw [globs_append]
    cases s with
    | tag => rw [show globs [_] = [] from rfl, List.append_nil]; exact ih
    | md => rw [show globs [_] = [] from rfl, List.append_nil]; exact ih
    | put => rw [(OpBuilder.setSlots_rest _ _ _).2.1, show globs [_] = [] from rfl, List.append_nil]; exact ih
    | glob ty' v m h _ =>
      rw [(pushGlobal_ok h ty).2, ih]
      rw [show globs [Prim.glob ty' v] = [(ty', v)] from rfl]
      by_cases e : ty = ty'
      · subst e; simp
      · have : ¬ ty' = ty := fun h => e h.symm
        have e2 : ∀ l : List (Nat × Nat), (∃ x ∈ l ++ [(ty', v)], x.1 = ty) ↔ (∃ x ∈ l, x.1 = ty) := by
          intro l
          constructor
          · rintro ⟨x, hx, hxe⟩
            rcases List.mem_append.1 hx with hx | hx
            · exact ⟨x, hx, hxe⟩
            · simp only [List.mem_singleton] at hx; subst hx; exact absurd hxe this
          · rintro ⟨x, hx, hxe⟩; exact ⟨x, List.mem_append_left _ hx, hxe⟩
        simp only [e2, e, decide_false, Bool.false_or]

theorem PStep.tagKept {a b : OpBuilder} {p : Prim} (s : PStep a p b) (h : a.Inv) {ty : Nat}
    (hf : OMap.contains a.fungible ty = true) :
    OMap.get? b.tags ty = OMap.get? a.tags ty ∧ OMap.contains b.fungible ty = true := by
  cases s with
  | glob => exact ⟨rfl, hf⟩
  | md => exact ⟨rfl, hf⟩
  | tag ty' t hg _ =>
    refine ⟨?_, hf⟩
    have hne : ty ≠ ty' := by
      rintro rfl
      rcases hg with hg | hg
      · have := h.tagged _ hf; unfold OMap.contains at this; rw [hg] at this; cases this
      · rw [hg] at hf; cases hf
    exact OMap.get?_insert_ne _ _ hne
  | put ty' sl st sch m hs ha ht hp =>
    refine ⟨by rw [(OpBuilder.setSlots_rest _ _ _).1], ?_⟩
    change OMap.contains ((a.setSlots st.kind m).slots .fungible) ty = true
    rw [OpBuilder.slots_setSlots]
    split
    · rename_i e
      rw [(Slots.put_ok hp).2.1, ← e]; change (_ || OMap.contains a.fungible ty) = true; rw [hf]; simp
    · exact hf

theorem PRun.tagKept {a b : OpBuilder} {ps : List Prim} (r : PRun a ps b) (h : a.Inv) {ty : Nat}
    (hf : OMap.contains a.fungible ty = true) :
    OMap.get? b.tags ty = OMap.get? a.tags ty ∧ OMap.contains b.fungible ty = true := by
  induction r with
  | nil => exact ⟨rfl, hf⟩
  | snoc r s ih =>
    have h1 := ih
    have h2 := s.tagKept (r.inv h) h1.2
    exact ⟨h2.1.trans h1.1, h2.2⟩

theorem PRun.tags {a b : OpBuilder} {ps : List Prim} (r : PRun a ps b) (ty : Nat) :
    OMap.get? b.tags ty = (lastFor ty (tagsSet ps)).or (OMap.get? a.tags ty) := by
  induction r with
  | nil => simp [tagsSet, lastFor_nil]
  | snoc _ s ih =>
    rw [tagsSet_append, lastFor_cat, Option.or_assoc, ← ih]
    cases s with
    | glob => rfl
    | md => rfl
    | put => rw [(OpBuilder.setSlots_rest _ _ _).1]; rfl
    | tag ty' t hg _ =>
      show OMap.get? (OMap.insert _ ty' t) ty = _
      by_cases e : ty = ty'
      · subst e; simp [tagsSet, lastFor]
      · rw [OMap.get?_insert_ne _ _ e]; simp [tagsSet, lastFor, Ne.symm e]

theorem PRun.put_contains {a b : OpBuilder} {ps : List Prim} (r : PRun a ps b) (h : a.Inv) {ty : Nat} {sl : BSeal} {st : RState}
    (hp : ((ty, sl), st) ∈ puts ps) (hk : st.kind = .fungible) : OMap.contains b.fungible ty = true := by
  induction r with
  | nil => simp [puts] at hp
  | snoc r s ih =>
    rw [puts_append, List.mem_append] at hp
    rcases hp with hp | hp
    · exact (s.tagKept (r.inv h) (ih hp)).2
    · cases s with
      | tag => simp [puts] at hp
      | glob => simp [puts] at hp
      | md => simp [puts] at hp
      | put ty' sl' st' sch m hs ha ht hp' =>
        rw [show puts [Prim.put ty' sl' st'] = [((ty', sl'), st')] from rfl] at hp
        simp only [List.mem_singleton, Prod.mk.injEq] at hp
        obtain ⟨⟨rfl, rfl⟩, rfl⟩ := hp
        show OMap.contains ((OpBuilder.setSlots _ st.kind m).slots .fungible) ty = true
        rw [OpBuilder.slots_setSlots, if_pos hk.symm, (Slots.put_ok hp').2.1]; simp

end Rgb
