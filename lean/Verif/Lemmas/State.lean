import Verif.Spec.State
import Verif.Lemmas.Base
import Verif.Lemmas.Merge

namespace Rgb
open ContractState

/-! ### Functional specification of adding an operation -/

/-- What the items say about a key. -/
def itemAt (w : Option WitnessId) (opid ty no : Nat) (items : List Assign) (key : OutKey) : Option OutAssign :=
  if key.opout.op = opid ∧ key.opout.ty = ty ∧ no ≤ key.opout.no then
    (items[key.opout.no - no]?).bind (fun a => (revealed? a).bind (fun r =>
      if Index.outputSeal w r.1 = some key.sl then some ⟨key.opout, key.sl, r.2, w⟩ else none))
  else none

theorem itemAt_nil (w : Option WitnessId) (opid ty no : Nat) (key : OutKey) : itemAt w opid ty no [] key = none := by
  simp [itemAt]

theorem itemAt_cons (w : Option WitnessId) (opid ty no : Nat) (a : Assign) (items : List Assign) (key : OutKey) :
    itemAt w opid ty no (a :: items) key =
      if key.opout = ⟨opid, ty, no⟩ then (revealed? a).bind (fun r =>
        if Index.outputSeal w r.1 = some key.sl then some ⟨key.opout, key.sl, r.2, w⟩ else none)
      else itemAt w opid ty (no + 1) items key := by
  obtain ⟨⟨o, t, n⟩, sl⟩ := key
  simp only [itemAt, Opout.mk.injEq]
  by_cases h1 : o = opid
  · by_cases h2 : t = ty
    · by_cases h3 : n = no
      · subst h1 h2 h3; simp
      · by_cases h4 : no ≤ n
        · have h5 : no + 1 ≤ n := by omega
          have h6 : n - no = (n - (no + 1)) + 1 := by omega
          simp [h1, h2, h3, h4, h5, h6]
        · have h5 : ¬ no + 1 ≤ n := by omega
          simp [h3, h4, h5]
    · simp [h2]
  · simp [h1]

theorem OutSet.get?_push (s : OutSet) (a : OutAssign) (key : OutKey) :
    OMap.get? (OutSet.push s a) key = (OMap.get? s key).or (if key = ⟨a.opout, a.sl⟩ then some a else none) := by
  unfold OutSet.push
  split
  · rename_i h
    obtain ⟨v, hv⟩ := OMap.contains_iff.mp h
    by_cases hk : key = ⟨a.opout, a.sl⟩
    · subst hk; rw [hv]; rfl
    · rw [if_neg hk]; simp
  · rename_i h
    rw [OMap.get?_insert]
    by_cases hk : key = ⟨a.opout, a.sl⟩
    · subst hk
      have : OMap.get? s ⟨a.opout, a.sl⟩ = none := by
        cases hg : OMap.get? s ⟨a.opout, a.sl⟩ with
        | none => rfl
        | some v => exact absurd (OMap.contains_iff.mpr ⟨v, hg⟩) h
      simp [this]
    · simp [hk]

theorem OutSet.sorted_push {s : OutSet} (h : OMap.Sorted s) (a : OutAssign) : OMap.Sorted (OutSet.push s a) := by
  unfold OutSet.push
  split
  · exact h
  · exact h.insert _ _

def ItemsResolve (w : Option WitnessId) (items : List Assign) : Prop :=
  ∀ a ∈ items, ∀ r, revealed? a = some r → (Index.outputSeal w r.1).isSome

theorem process_isSome (w : Option WitnessId) (opid ty : Nat) (items : List Assign) (no : Nat) (s : OutSet) :
    (process w opid ty items no s).isSome ↔ ItemsResolve w items := by
  induction items generalizing no s with
  | nil => simp [process, ItemsResolve]
  | cons a items ih =>
    simp only [process, ItemsResolve, List.mem_cons, forall_eq_or_imp]
    cases hr : revealed? a with
    | none => simp only [ih]; simp [ItemsResolve]
    | some r =>
      obtain ⟨sl, st⟩ := r
      simp only [Option.some.injEq, forall_eq']
      cases ho : Index.outputSeal w sl with
      | none => simp
      | some out => simp only [ih]; simp [ItemsResolve]

theorem process_get? {w : Option WitnessId} {opid ty : Nat} {items : List Assign} {no : Nat} {s s' : OutSet}
    (h : process w opid ty items no s = some s') :
    (∀ key, OMap.get? s' key = (OMap.get? s key).or (itemAt w opid ty no items key)) ∧
    (OMap.Sorted s → OMap.Sorted s') := by
  induction items generalizing no s with
  | nil => simp only [process, Option.some.injEq] at h; subst h; simp [itemAt_nil]
  | cons a items ih =>
    simp only [process] at h
    cases hr : revealed? a with
    | none =>
      rw [hr] at h
      obtain ⟨h1, h2⟩ := ih h
      refine ⟨fun key => ?_, h2⟩
      rw [h1, itemAt_cons, hr]
      split
      · rename_i hk
        have : itemAt w opid ty (no + 1) items key = none := by
          exact if_neg (fun hh => by have := hh.2.2; rw [hk] at this; simp at this; try omega)
        rw [this]; simp
      · rfl
    | some r =>
      obtain ⟨sl, st⟩ := r
      rw [hr] at h
      simp only at h
      cases ho : Index.outputSeal w sl with
      | none => rw [ho] at h; cases h
      | some out =>
        rw [ho] at h
        simp only at h
        obtain ⟨h1, h2⟩ := ih h
        refine ⟨fun key => ?_, fun hs => h2 (OutSet.sorted_push hs _)⟩
        rw [h1, OutSet.get?_push, itemAt_cons, hr, Option.or_assoc]
        congr 1
        by_cases hk : key.opout = ⟨opid, ty, no⟩
        · rw [if_pos hk]
          have : itemAt w opid ty (no + 1) items key = none := by
            exact if_neg (fun hh => by have := hh.2.2; rw [hk] at this; simp at this; try omega)
          rw [this]
          simp only [Option.bind_some, ho, Option.some.injEq]
          obtain ⟨ko, ks⟩ := key
          simp only at hk
          subst hk
          by_cases hs : out = ks
          · subst hs; simp
          · simp [hs, Ne.symm hs]
        · rw [if_neg hk, if_neg]
          · simp
          · intro h; exact hk (by rw [h])

theorem kindSet_setKind (s : ContractState) (k k' : StateKind) (v : OutSet) :
    (s.setKind k v).kindSet k' = if k' = k then v else s.kindSet k' := by
  cases k <;> cases k' <;> rfl

theorem setKind_global (s : ContractState) (k : StateKind) (v : OutSet) : (s.setKind k v).global = s.global := by
  cases k <;> rfl
theorem setKind_schema (s : ContractState) (k : StateKind) (v : OutSet) : (s.setKind k v).schema = s.schema := by
  cases k <;> rfl
theorem setKind_contract (s : ContractState) (k : StateKind) (v : OutSet) : (s.setKind k v).contract = s.contract := by
  cases k <;> rfl

/-- What the assignments of an operation say about a key. -/
def assignedAt (w : Option WitnessId) (opid : Nat) (as : Assignments) (k : StateKind) (key : OutKey) : Option OutAssign :=
  (OMap.get? as key.opout.ty).bind (fun t => if t.kind = k then itemAt w opid key.opout.ty 0 t.items key else none)

def AssignsResolve (w : Option WitnessId) (as : Assignments) : Prop := ∀ e ∈ as, ItemsResolve w e.2.items

theorem addAssignments_isSome (w : Option WitnessId) (opid : Nat) (as : Assignments) (s : ContractState) :
    (addAssignments w opid as s).isSome ↔ AssignsResolve w as := by
  induction as generalizing s with
  | nil => simp [addAssignments, AssignsResolve]
  | cons e as ih =>
    obtain ⟨ty, t⟩ := e
    simp only [addAssignments, AssignsResolve, List.mem_cons, forall_eq_or_imp]
    cases hp : process w opid ty t.items 0 (s.kindSet t.kind) with
    | none =>
      have := process_isSome w opid ty t.items 0 (s.kindSet t.kind)
      rw [hp] at this
      simp only [Option.isSome_none, Bool.false_eq_true, false_iff] at this ⊢
      exact fun h => this h.1
    | some set =>
      have := (process_isSome w opid ty t.items 0 (s.kindSet t.kind)).mp (by simp [hp])
      simp only [ih, AssignsResolve, this, true_and]

theorem addAssignments_get? {w : Option WitnessId} {opid : Nat} {as : Assignments} {s s' : ContractState}
    (has : OMap.Sorted as) (h : addAssignments w opid as s = some s') :
    (∀ k key, OMap.get? (s'.kindSet k) key = (OMap.get? (s.kindSet k) key).or (assignedAt w opid as k key)) ∧
    s'.global = s.global ∧ s'.schema = s.schema ∧ s'.contract = s.contract ∧
    ((∀ k, OMap.Sorted (s.kindSet k)) → ∀ k, OMap.Sorted (s'.kindSet k)) := by
  induction as generalizing s with
  | nil => simp only [addAssignments, Option.some.injEq] at h; subst h; simp [assignedAt, OMap.get?]
  | cons e as ih =>
    obtain ⟨ty, t⟩ := e
    simp only [addAssignments] at h
    cases hp : process w opid ty t.items 0 (s.kindSet t.kind) with
    | none => rw [hp] at h; cases h
    | some set =>
      rw [hp] at h
      simp only at h
      obtain ⟨h1, h2, h3, h4, h5⟩ := ih has.tail h
      obtain ⟨p1, p2⟩ := process_get? hp
      refine ⟨fun k key => ?_, by rw [h2, setKind_global], by rw [h3, setKind_schema], by rw [h4, setKind_contract],
        fun hs k => h5 (fun k' => ?_) k⟩
      · rw [h1, kindSet_setKind]
        have hat : assignedAt w opid ((ty, t) :: as) k key =
            if key.opout.ty = ty then (if t.kind = k then itemAt w opid ty 0 t.items key else none)
            else assignedAt w opid as k key := by
          simp only [assignedAt, OMap.get?_cons]
          split
          · rename_i h; simp [h]
          · rfl
        have hnone : key.opout.ty = ty → assignedAt w opid as k key = none := by
          intro hty
          have : OMap.get? as key.opout.ty = none := by
            rw [OMap.get?_eq_none_iff]; intro hm
            exact absurd (has.head hm) (by rw [hty]; simp [Key.lt_irrefl])
          simp [assignedAt, this]
        rw [hat]
        by_cases hk : k = t.kind
        · subst hk
          rw [if_pos rfl, p1, Option.or_assoc]
          congr 1
          by_cases hty : key.opout.ty = ty
          · rw [hnone hty, if_pos hty, if_pos rfl]; simp
          · have : itemAt w opid ty 0 t.items key = none := by
              rw [itemAt, if_neg]; rintro ⟨-, h, -⟩; exact hty h
            rw [this, if_neg hty]; rfl
        · rw [if_neg hk]
          congr 1
          by_cases hty : key.opout.ty = ty
          · rw [hnone hty, if_pos hty, if_neg (fun h => hk h.symm)]
          · rw [if_neg hty]
      · rw [kindSet_setKind]; split
        · exact p2 (hs _)
        · exact hs _

/-! Globals -/

def gitemAt (opid nonce idx : Nat) (ow : OpWitness) (vals : List Nat) (g : GlobalOut) : Option Nat :=
  if g.opid = opid ∧ g.nonce = nonce ∧ g.opWitness = ow ∧ idx ≤ g.index then vals[g.index - idx]? else none

theorem addGlobalItems_get? (opid nonce : Nat) (ow : OpWitness) (vals : List Nat) (idx : Nat) (m : OMap GlobalOut Nat) :
    (∀ g, OMap.get? (addGlobalItems opid nonce ow vals idx m) g = (gitemAt opid nonce idx ow vals g).or (OMap.get? m g)) ∧
    (OMap.Sorted m → OMap.Sorted (addGlobalItems opid nonce ow vals idx m)) := by
  induction vals generalizing idx m with
  | nil => simp [addGlobalItems, gitemAt]
  | cons v vals ih =>
    obtain ⟨h1, h2⟩ := ih (idx + 1) (OMap.insert m ⟨opid, nonce, idx, ow⟩ v)
    refine ⟨fun g => ?_, fun h => h2 (h.insert _ _)⟩
    rw [addGlobalItems, h1, OMap.get?_insert]
    obtain ⟨o, n, i, w⟩ := g
    simp only [gitemAt, GlobalOut.mk.injEq]
    by_cases a1 : o = opid ∧ n = nonce ∧ w = ow
    · obtain ⟨rfl, rfl, rfl⟩ := a1
      by_cases a2 : i = idx
      · subst a2
        have : ¬ i + 1 ≤ i := by omega
        simp [this]
      · by_cases a3 : idx ≤ i
        · have h5 : idx + 1 ≤ i := by omega
          have h6 : i - idx = (i - (idx + 1)) + 1 := by omega
          simp [a2, a3, h5, h6]
        · have h5 : ¬ idx + 1 ≤ i := by omega
          simp [a2, a3, h5]
    · have b1 : ∀ p : Prop, ¬ (o = opid ∧ n = nonce ∧ w = ow ∧ p) := fun p h => a1 ⟨h.1, h.2.1, h.2.2.1⟩
      have b2 : ¬ (o = opid ∧ n = nonce ∧ i = idx ∧ w = ow) := fun h => a1 ⟨h.1, h.2.1, h.2.2.2⟩
      simp [b1, b2]

/-- Known global value under a type and a key. -/
def gget (g : OMap Nat GlobalState) (ty : Nat) (key : GlobalOut) : Option Nat :=
  (OMap.get? g ty).bind (fun gs => OMap.get? gs.known key)

def globalAt (opid nonce : Nat) (ow : OpWitness) (gl : OMap Nat (List Nat)) (ty : Nat) (key : GlobalOut) : Option Nat :=
  (OMap.get? gl ty).bind (fun vals => gitemAt opid nonce 0 ow vals key)

def GlobalsKnown (g : OMap Nat GlobalState) (gl : OMap Nat (List Nat)) : Prop := ∀ e ∈ gl, OMap.contains g e.1 = true

structure GInv (g : OMap Nat GlobalState) : Prop where
  sorted : OMap.Sorted g
  known : ∀ ty gs, OMap.get? g ty = some gs → OMap.Sorted gs.known

theorem addGlobals_isSome (opid nonce : Nat) (ow : OpWitness) (gl : OMap Nat (List Nat)) (g : OMap Nat GlobalState) :
    (addGlobals opid nonce ow gl g).isSome ↔ GlobalsKnown g gl := by
  induction gl generalizing g with
  | nil => simp [addGlobals, GlobalsKnown]
  | cons e gl ih =>
    obtain ⟨ty, vals⟩ := e
    simp only [addGlobals, GlobalsKnown, List.mem_cons, forall_eq_or_imp]
    cases hg : OMap.get? g ty with
    | none => simp [OMap.contains, hg]
    | some gs =>
      simp only [ih, GlobalsKnown]
      have : OMap.contains g ty = true := by simp [OMap.contains, hg]
      simp only [this, true_and]
      constructor
      · intro h e he
        have := h e he
        simp only [OMap.contains, OMap.get?_insert] at this ⊢
        split at this
        · rename_i heq; rw [heq, hg]; rfl
        · exact this
      · intro h e he
        have := h e he
        simp only [OMap.contains, OMap.get?_insert] at this ⊢
        split
        · rfl
        · exact this

theorem addGlobals_get? {opid nonce : Nat} {ow : OpWitness} {gl : OMap Nat (List Nat)} {g g' : OMap Nat GlobalState}
    (hgl : OMap.Sorted gl) (h : addGlobals opid nonce ow gl g = some g') :
    (∀ ty key, OMap.contains g ty = true → gget g' ty key = (globalAt opid nonce ow gl ty key).or (gget g ty key)) ∧
    (∀ ty, (OMap.get? g' ty).map GlobalState.limit = (OMap.get? g ty).map GlobalState.limit) ∧
    (GInv g → GInv g') := by
  induction gl generalizing g with
  | nil => simp only [addGlobals, Option.some.injEq] at h; subst h; simp [globalAt, OMap.get?]
  | cons e gl ih =>
    obtain ⟨ty, vals⟩ := e
    simp only [addGlobals] at h
    cases hg : OMap.get? g ty with
    | none => rw [hg] at h; cases h
    | some gs =>
      rw [hg] at h
      simp only at h
      obtain ⟨h1, h2, h3⟩ := ih hgl.tail h
      obtain ⟨p1, p2⟩ := addGlobalItems_get? opid nonce ow vals 0 gs.known
      refine ⟨fun ty' key hc => ?_, fun ty' => ?_, fun hi => h3 ⟨hi.sorted.insert _ _, ?_⟩⟩
      · rw [h1 ty' key (by
          simp only [OMap.contains, OMap.get?_insert] at hc ⊢; split
          · rfl
          · exact hc)]
        by_cases hty : ty' = ty
        · subst hty
          have : OMap.get? gl ty' = none := by
            rw [OMap.get?_eq_none_iff]; intro hm
            exact absurd (hgl.head hm) (by simp [Key.lt_irrefl])
          simp [globalAt, this, gget, OMap.get?_cons, p1, hg]
        · simp [globalAt, gget, OMap.get?_cons, OMap.get?_insert, hty]
      · rw [h2, OMap.get?_insert]
        split
        · rename_i h; subst h; simp [hg]
        · rfl
      · intro ty' gs' hgs
        rw [OMap.get?_insert] at hgs
        split at hgs
        · cases hgs; exact p2 (hi.known _ _ hg)
        · exact hi.known _ _ hgs

/-! The operation -/

structure CSInv (s : ContractState) : Prop where
  sets : ∀ k, OMap.Sorted (s.kindSet k)
  glob : GInv s.global

/-- When adding the operation doesn't panic. -/
def Addable (g : OMap Nat GlobalState) (op : Op) (ow : OpWitness) : Prop :=
  GlobalsKnown g op.globals ∧ AssignsResolve ow.witness? op.assigns

theorem addOperation_isSome (H : Commit) (s : ContractState) (op : Op) (ow : OpWitness) :
    (s.addOperation H op ow).isSome ↔ Addable s.global op ow := by
  have hg := addGlobals_isSome (op.id H) op.nonce ow op.globals s.global
  unfold addOperation
  cases h : addGlobals (op.id H) op.nonce ow op.globals s.global with
  | none =>
    rw [h] at hg
    simp only [Option.isSome_none, Bool.false_eq_true, false_iff] at hg ⊢
    exact fun h => hg h.1
  | some g =>
    rw [h] at hg
    simp only [Option.isSome_some, true_iff] at hg
    simp only [addAssignments_isSome, Addable, hg, true_and]

structure AddSpec (H : Commit) (s s' : ContractState) (op : Op) (ow : OpWitness) : Prop where
  sets : ∀ k key, OMap.get? (s'.kindSet k) key =
    (OMap.get? (s.kindSet k) key).or (assignedAt ow.witness? (op.id H) op.assigns k key)
  glob : ∀ ty key,
    gget s'.global ty key = (globalAt (op.id H) op.nonce ow op.globals ty key).or (gget s.global ty key)
  limit : ∀ ty, (OMap.get? s'.global ty).map GlobalState.limit = (OMap.get? s.global ty).map GlobalState.limit
  schema : s'.schema = s.schema
  contract : s'.contract = s.contract
  inv : CSInv s → CSInv s'

theorem addOperation_spec {H : Commit} {s s' : ContractState} {op : Op} {ow : OpWitness} (hp : op.Proper)
    (h : s.addOperation H op ow = some s') : AddSpec H s s' op ow := by
  unfold addOperation at h
  cases hg : addGlobals (op.id H) op.nonce ow op.globals s.global with
  | none => rw [hg] at h; cases h
  | some g =>
    rw [hg] at h
    simp only at h
    obtain ⟨g1, g2, g3⟩ := addGlobals_get? hp.2 hg
    obtain ⟨a1, a2, a3, a4, a5⟩ := addAssignments_get? hp.1 h
    have hk : ∀ k, ({ s with global := g } : ContractState).kindSet k = s.kindSet k := by intro k; cases k <;> rfl
    exact { sets := fun k key => by rw [a1, hk]
            glob := fun ty key => by
              rw [a2]
              by_cases hc : OMap.contains s.global ty = true
              · exact g1 ty key hc
              · have hn : OMap.get? s.global ty = none := by simpa [OMap.contains] using hc
                have hn' : OMap.get? g ty = none := by
                  have := g2 ty
                  rw [hn] at this
                  simpa using this
                have hk := (addGlobals_isSome (op.id H) op.nonce ow op.globals s.global).mp (by simp [hg])
                have hgl : OMap.get? op.globals ty = none := by
                  cases hx : OMap.get? op.globals ty with
                  | none => rfl
                  | some vals => exact absurd (hk _ (OMap.mem_of_get? hx)) hc
                simp [gget, hn, hn', globalAt, hgl]
            limit := fun ty => by rw [a2]; exact g2 ty
            schema := a3
            contract := a4
            inv := fun hi => ⟨a5 (fun k => by rw [hk]; exact hi.sets k), by rw [a2]; exact g3 hi.glob⟩ }

theorem AddSpec.contains {H : Commit} {s s' : ContractState} {op : Op} {ow : OpWitness} (h : AddSpec H s s' op ow) (ty : Nat) :
    OMap.contains s'.global ty = OMap.contains s.global ty := by
  have := h.limit ty
  simp only [OMap.contains]
  cases h1 : OMap.get? s'.global ty <;> cases h2 : OMap.get? s.global ty <;> simp [h1, h2] at this ⊢

/-- Contract states with the same content are equal. -/
theorem ContractState.ext' {s t : ContractState} (hs : CSInv s) (ht : CSInv t)
    (hsets : ∀ k key, OMap.get? (s.kindSet k) key = OMap.get? (t.kindSet k) key)
    (hlim : ∀ ty, (OMap.get? s.global ty).map GlobalState.limit = (OMap.get? t.global ty).map GlobalState.limit)
    (hg : ∀ ty key, gget s.global ty key = gget t.global ty key)
    (hsch : s.schema = t.schema) (hc : s.contract = t.contract) : s = t := by
  have hk : ∀ k, s.kindSet k = t.kindSet k := fun k => (hs.sets k).ext (ht.sets k) (hsets k)
  have hgl : s.global = t.global := by
    refine hs.glob.sorted.ext ht.glob.sorted fun ty => ?_
    have h1 := hlim ty
    cases a : OMap.get? s.global ty with
    | none =>
      cases b : OMap.get? t.global ty with
      | none => rfl
      | some gs => rw [a, b] at h1; simp at h1
    | some gs =>
      cases b : OMap.get? t.global ty with
      | none => rw [a, b] at h1; simp at h1
      | some gs' =>
        rw [a, b] at h1
        simp only [Option.map_some, Option.some.injEq] at h1
        have : gs.known = gs'.known := by
          refine (hs.glob.known _ _ a).ext (ht.glob.known _ _ b) fun key => ?_
          have := hg ty key
          simpa [gget, a, b] using this
        cases gs; cases gs'; simp_all
  have h1 := hk .declarative
  have h2 := hk .fungible
  have h3 := hk .structured
  have h4 := hk .attachment
  cases s; cases t
  simp only [kindSet] at h1 h2 h3 h4 hgl hsch hc
  subst h1 h2 h3 h4 hgl hsch hc
  rfl

/-! ### The whole state -/

def entry (s : MemState) (c : Nat) (k : StateKind) (key : OutKey) : Option OutAssign :=
  (OMap.get? s.contracts c).bind (fun cs => OMap.get? (cs.kindSet k) key)

def gentry (s : MemState) (c ty : Nat) (key : GlobalOut) : Option Nat :=
  (OMap.get? s.contracts c).bind (fun cs => gget cs.global ty key)

theorem StCall.Proper.op {c : StCall} (h : c.Proper) : c.op.Proper := by
  cases c
  · exact h.2.1
  · exact h.1
  · exact h.1

def StCall.assigned (H : Commit) (call : StCall) (k : StateKind) (key : OutKey) : Option OutAssign :=
  assignedAt call.witness? (call.op.id H) call.op.assigns k key

def StCall.globals (H : Commit) (call : StCall) (ty : Nat) (key : GlobalOut) : Option Nat :=
  globalAt (call.op.id H) call.op.nonce call.opWitness call.op.globals ty key

def glimit (s : MemState) (c ty : Nat) : Option Nat :=
  (OMap.get? s.contracts c).bind (fun cs => (OMap.get? cs.global ty).map GlobalState.limit)

def cschema (s : MemState) (c : Nat) : Option (Nat × Nat) :=
  (OMap.get? s.contracts c).map (fun cs => (cs.schema, cs.contract))

/-- Limits a new contract gets from the call. -/
def StCall.limits : StCall → Nat → Option Nat
  | .register sch _, ty => OMap.get? sch.maxItems ty
  | _, _ => none

structure StInv (s : MemState) : Prop where
  contracts : OMap.Sorted s.contracts
  witnesses : OMap.Sorted s.witnesses
  cs : ∀ c cs, OMap.get? s.contracts c = some cs → CSInv cs

structure CallSpec (H : Commit) (s s' : MemState) (call : StCall) : Prop where
  entry : ∀ c k key, entry s' c k key = (entry s c k key).or (if c = call.contract H then call.assigned H k key else none)
  gentry : ∀ c ty key, gentry s' c ty key = (if c = call.contract H then call.globals H ty key else none).or (gentry s c ty key)
  witnesses : ∀ w, OMap.get? s'.witnesses w =
    (call.witnessOrd?.bind (fun p => if w = p.1 then some p.2 else none)).or (OMap.get? s.witnesses w)
  mem : OMap.contains s'.contracts (call.contract H) = true
  mono : ∀ c, OMap.contains s.contracts c = true → OMap.contains s'.contracts c = true
  limit : ∀ c ty, glimit s' c ty = if OMap.contains s.contracts c = true then glimit s c ty
    else if c = call.contract H then call.limits ty else none
  schema : ∀ c, OMap.contains s.contracts c = true → cschema s' c = cschema s c
  only : ∀ c, OMap.contains s'.contracts c = true → OMap.contains s.contracts c = true ∨ c = call.contract H
  reg : OMap.contains s.contracts (call.contract H) = false → ∃ sch g, call = .register sch g
  other : ∀ c, c ≠ call.contract H → OMap.get? s'.contracts c = OMap.get? s.contracts c
  inv : StInv s → StInv s'

theorem StCall.opWitness_witness (call : StCall) : call.opWitness.witness? = call.witness? := by cases call <;> rfl

theorem new_entry (sch : SchemaGlobals) (c : Nat) (k : StateKind) (key : OutKey) :
    OMap.get? ((ContractState.new sch c).kindSet k) key = none := by cases k <;> rfl

theorem new_gget (sch : SchemaGlobals) (c ty : Nat) (key : GlobalOut) :
    gget (ContractState.new sch c).global ty key = none := by
  simp only [gget, ContractState.new, OMap.get?_mapVals]
  cases OMap.get? sch.maxItems ty <;> simp [OMap.get?]

theorem new_inv {sch : SchemaGlobals} (h : OMap.Sorted sch.maxItems) (c : Nat) : CSInv (ContractState.new sch c) := by
  refine ⟨fun k => by cases k <;> exact OMap.Sorted.nil, ⟨h.mapVals _, ?_⟩⟩
  intro ty gs hgs
  simp only [ContractState.new, OMap.get?_mapVals] at hgs
  cases hx : OMap.get? sch.maxItems ty with
  | none => simp [hx] at hgs
  | some l => simp [hx] at hgs; subst hgs; exact OMap.Sorted.nil

/-- Common part: contract `c` is replaced with the result of adding the operation. -/
theorem callSpec_of {H : Commit} {s : MemState} {call : StCall} {cs cs' : ContractState} {ws : OMap WitnessId WitnessOrd}
    (ha : AddSpec H cs cs' call.op call.opWitness)
    (hold : ∀ k key, entry s (call.contract H) k key = OMap.get? (cs.kindSet k) key)
    (hgold : ∀ ty key, gentry s (call.contract H) ty key = gget cs.global ty key)
    (hws : ∀ w, OMap.get? ws w =
      (call.witnessOrd?.bind (fun p => if w = p.1 then some p.2 else none)).or (OMap.get? s.witnesses w))
    (hwi : OMap.Sorted s.witnesses → OMap.Sorted ws) (hci : StInv s → CSInv cs)
    (hreg : OMap.contains s.contracts (call.contract H) = false → ∃ sch g, call = .register sch g)
    (hlim : OMap.contains s.contracts (call.contract H) = false →
      ∀ ty, (OMap.get? cs.global ty).map GlobalState.limit = call.limits ty)
    (hcs : ∀ c, OMap.get? s.contracts (call.contract H) = some c → c = cs) :
    CallSpec H s { witnesses := ws, contracts := OMap.insert s.contracts (call.contract H) cs' } call where
  entry c k key := by
    by_cases hc : c = call.contract H
    · subst hc
      rw [hold]
      simp only [Rgb.entry, OMap.get?_insert_self, Option.bind_some, ha.sets, if_true, StCall.assigned, StCall.opWitness_witness]
    · simp [Rgb.entry, OMap.get?_insert, hc]
  gentry c ty key := by
    by_cases hc : c = call.contract H
    · subst hc
      rw [hgold]
      simp only [Rgb.gentry, OMap.get?_insert_self, Option.bind_some, ha.glob, if_true, StCall.globals]
    · simp [Rgb.gentry, OMap.get?_insert, hc]
  witnesses := hws
  mem := by simp [OMap.contains]
  mono c h := by
    simp only [OMap.contains, OMap.get?_insert] at h ⊢; split
    · rfl
    · exact h
  limit c ty := by
    by_cases hc : c = call.contract H
    · subst hc
      simp only [glimit, OMap.get?_insert_self, Option.bind_some, ha.limit, if_true]
      split
      · rename_i h
        obtain ⟨c, hc⟩ := OMap.contains_iff.mp h
        rw [hc, hcs c hc]; rfl
      · rename_i h
        exact hlim (by simpa using h) ty
    · simp only [glimit, OMap.get?_insert, if_neg hc]
      split
      · rfl
      · rename_i h
        have : OMap.get? s.contracts c = none := by simpa [OMap.contains] using h
        rw [this]; rfl
  schema c h := by
    by_cases hc : c = call.contract H
    · subst hc
      obtain ⟨c, hc⟩ := OMap.contains_iff.mp h
      simp [cschema, hc, hcs c hc, ha.schema, ha.contract]
    · simp [cschema, OMap.get?_insert, hc]
  only c h := by
    simp only [OMap.contains, OMap.get?_insert] at h ⊢
    split at h
    · exact .inr (by assumption)
    · exact .inl h
  reg := hreg
  other c hc := by simp [OMap.get?_insert, hc]
  inv hi := ⟨hi.contracts.insert _ _, hwi hi.witnesses, fun c cs₁ h => by
    simp only [OMap.get?_insert] at h
    split at h
    · cases h; exact ha.inv (hci hi)
    · exact hi.cs _ _ h⟩

theorem exec_spec {H : Commit} {s s' : MemState} {call : StCall} {e : Option StErr} (hp : call.Proper)
    (h : call.exec H s = some (s', e)) :
    (e = none ∧ CallSpec H s s' call) ∨ (e ≠ none ∧ s' = s) := by
  have key : ∀ (c : Nat) (op : Op) (w : WitnessId) (ord : WitnessOrd) (ow : OpWitness), call.contract H = c → call.op = op →
      call.opWitness = ow → call.witnessOrd? = some (w, ord) → s.addOp H c op w ord ow = some (s', e) →
      (e = none ∧ CallSpec H s s' call) ∨ (e ≠ none ∧ s' = s) := by
    intro c op w ord ow hc hop how hwo h
    unfold MemState.addOp at h
    cases hg : OMap.get? s.contracts c with
    | none => rw [hg] at h; simp only [Option.some.injEq, Prod.mk.injEq] at h; exact .inr ⟨by rw [← h.2]; simp, h.1.symm⟩
    | some cs =>
      rw [hg] at h
      simp only at h
      obtain ⟨cs', h1, h2⟩ := Option.map_eq_some_iff.mp h
      simp only [Prod.mk.injEq] at h2
      obtain ⟨rfl, rfl⟩ := h2
      refine .inl ⟨rfl, ?_⟩
      rw [← hc]
      refine callSpec_of (cs := cs) (addOperation_spec hp.op (by rw [hop, how]; exact h1)) ?_ ?_ ?_ (fun h => h.insert _ _)
        (fun hi => hi.cs _ _ hg) (by simp [OMap.contains, hc, hg]) (by simp [OMap.contains, hc, hg]) (by simp [hc, hg])
      · intro k key; simp [entry, hc, hg]
      · intro ty key; simp [gentry, hc, hg]
      · intro w'
        rw [hwo, OMap.get?_insert]
        simp only [Option.bind_some]
        split
        · rfl
        · rfl
  cases call with
  | transition c op w ord => exact key c op w ord _ rfl rfl rfl rfl h
  | extension c op w ord => exact key c op w ord _ rfl rfl rfl rfl h
  | register sch g =>
    unfold StCall.exec MemState.registerContract at h
    simp only at h
    cases hg : OMap.get? s.contracts (g.contractId H) with
    | some cs =>
      rw [hg] at h
      simp only at h
      obtain ⟨cs', h1, h2⟩ := Option.map_eq_some_iff.mp h
      simp only [Prod.mk.injEq] at h2
      obtain ⟨rfl, rfl⟩ := h2
      refine .inl ⟨rfl, ?_⟩
      refine callSpec_of (call := .register sch g) (cs := cs) (ws := s.witnesses) (addOperation_spec hp.2.1 h1) ?_ ?_ ?_ id
        (fun hi => hi.cs _ _ hg) (by simp [OMap.contains, StCall.contract, hg]) (by simp [OMap.contains, StCall.contract, hg])
        (by simp [StCall.contract, hg])
      · intro k key; simp [entry, StCall.contract, hg]
      · intro ty key; simp [gentry, StCall.contract, hg]
      · intro w'; simp [StCall.witnessOrd?]
    | none =>
      rw [hg] at h
      simp only at h
      split at h
      · simp only [Option.some.injEq, Prod.mk.injEq] at h; exact .inr ⟨by rw [← h.2]; simp, h.1.symm⟩
      · obtain ⟨cs', h1, h2⟩ := Option.map_eq_some_iff.mp h
        simp only [Prod.mk.injEq] at h2
        obtain ⟨rfl, rfl⟩ := h2
        refine .inl ⟨rfl, ?_⟩
        refine callSpec_of (call := .register sch g) (cs := ContractState.new sch (g.contractId H)) (ws := s.witnesses)
          (addOperation_spec hp.2.1 h1) ?_ ?_ ?_ id (fun _ => new_inv hp.1 _) (fun _ => ⟨sch, g, rfl⟩)
          (fun _ ty => by simp [ContractState.new, OMap.get?_mapVals, StCall.limits, Function.comp_def]) (by simp [StCall.contract, hg])
        · intro k key; rw [new_entry]; simp [entry, StCall.contract, hg]
        · intro ty key; rw [new_gget]; simp [gentry, StCall.contract, hg]
        · intro w'; simp [StCall.witnessOrd?]

/-! ### Witness updates -/

theorem updateLoop_keys (r : Resolver) (after : Nat) (m : OMap WitnessId WitnessOrd) :
    OMap.keys (MemState.updateLoop r after m).1 = OMap.keys m := by
  induction m with
  | nil => rfl
  | cons e m ih =>
    obtain ⟨id, ord⟩ := e
    simp only [MemState.updateLoop]
    split
    · simp only [OMap.keys, List.map_cons] at ih ⊢; rw [ih]
    · split <;> (simp only [OMap.keys, List.map_cons] at ih ⊢; rw [ih])

theorem updateLoop_get? (r : Resolver) (after : Nat) (m : OMap WitnessId WitnessOrd) (w : WitnessId) :
    OMap.get? (MemState.updateLoop r after m).1 w =
      (OMap.get? m w).map (fun ord => if MemState.skipped after ord then ord else (r w).getD ord) := by
  induction m with
  | nil => rfl
  | cons e m ih =>
    obtain ⟨id, ord⟩ := e
    simp only [MemState.updateLoop]
    by_cases hw : w = id
    · subst hw
      split
      · rename_i h; simp [OMap.get?_cons, h]
      · rename_i h
        split
        · rename_i new hn; simp [OMap.get?_cons, h, hn]
        · rename_i hn; simp [OMap.get?_cons, h, hn]
    · split
      · simp only [OMap.get?_cons, if_neg hw]; exact ih
      · split <;> (simp only [OMap.get?_cons, if_neg hw]; exact ih)

theorem sorted_of_keys {κ ν μ : Type} [Key κ] {m : OMap κ ν} {n : OMap κ μ} (h : OMap.keys m = OMap.keys n)
    (hs : OMap.Sorted n) : OMap.Sorted m := by
  simp only [OMap.Sorted] at hs ⊢; rw [h]; exact hs

/-! ### Histories -/

theorem stInv_empty : StInv {} := ⟨OMap.Sorted.nil, OMap.Sorted.nil, fun _ _ h => by cases h⟩

theorem update_inv {s : MemState} (h : StInv s) (r : Resolver) (after : Nat) : StInv (s.updateWitnesses r after).1 := by
  refine ⟨h.contracts, ?_, h.cs⟩
  exact sorted_of_keys (updateLoop_keys _ _ _) h.witnesses

theorem run_cons_call {H : Commit} {s s' : MemState} {call : StCall} {es : List StEvent}
    (h : runSt H s (.call call :: es) = some s') :
    ∃ s₁ e, call.exec H s = some (s₁, e) ∧ runSt H s₁ es = some s' := by
  simp only [runSt] at h
  split at h
  · cases h
  · rename_i s₁ e he; exact ⟨s₁, e, he, h⟩

theorem runSt_inv {H : Commit} {s s' : MemState} {es : List StEvent} (hp : EventsProper es) (hs : StInv s)
    (h : runSt H s es = some s') : StInv s' := by
  induction es generalizing s with
  | nil => simp only [runSt, Option.some.injEq] at h; subst h; exact hs
  | cons e es ih =>
    have hp' : EventsProper es := fun c hc => hp c (List.mem_cons_of_mem _ hc)
    cases e with
    | update r after => exact ih hp' (update_inv hs r after) h
    | call call =>
      obtain ⟨s₁, e, he, hr⟩ := run_cons_call h
      refine ih hp' ?_ hr
      rcases exec_spec (hp call List.mem_cons_self) he with ⟨-, hc⟩ | ⟨-, rfl⟩
      · exact hc.inv hs
      · exact hs

/-- Effect of the calls on one key: the first one that has an entry for it wins. -/
theorem runSt_entry {H : Commit} {s s' : MemState} {es : List StEvent} (hp : EventsProper es)
    (h : runSt H s es = some s') (c : Nat) (k : StateKind) (key : OutKey) :
    entry s' c k key = (entry s c k key).or
      ((accepted H s es).findSome? (fun call => if c = call.contract H then call.assigned H k key else none)) := by
  induction es generalizing s with
  | nil => simp only [runSt, Option.some.injEq] at h; subst h; simp [accepted]
  | cons e es ih =>
    have hp' : EventsProper es := fun c hc => hp c (List.mem_cons_of_mem _ hc)
    cases e with
    | update r after => exact ih hp' h
    | call call =>
      obtain ⟨s₁, e, he, hr⟩ := run_cons_call h
      rw [ih hp' hr]
      rcases exec_spec (hp call List.mem_cons_self) he with ⟨rfl, hc⟩ | ⟨hne, rfl⟩
      · have hacc : accepted H s (.call call :: es) = call :: accepted H s₁ es := by simp [accepted, he]
        rw [hacc, hc.entry, Option.or_assoc, List.findSome?_cons]
        cases (if c = call.contract H then call.assigned H k key else none) <;> simp
      · obtain ⟨e', rfl⟩ := Option.ne_none_iff_exists'.mp hne
        have hacc : accepted H s₁ (.call call :: es) = accepted H s₁ es := by simp [accepted, he]
        rw [hacc]

/-- The same for global state: the last one wins. -/
theorem runSt_gentry {H : Commit} {s s' : MemState} {es : List StEvent} (hp : EventsProper es)
    (h : runSt H s es = some s') (c : Nat) (ty : Nat) (key : GlobalOut) :
    gentry s' c ty key = ((accepted H s es).reverse.findSome?
      (fun call => if c = call.contract H then call.globals H ty key else none)).or (gentry s c ty key) := by
  induction es generalizing s with
  | nil => simp only [runSt, Option.some.injEq] at h; subst h; simp [accepted]
  | cons e es ih =>
    have hp' : EventsProper es := fun c hc => hp c (List.mem_cons_of_mem _ hc)
    cases e with
    | update r after => exact ih hp' h
    | call call =>
      obtain ⟨s₁, e, he, hr⟩ := run_cons_call h
      rw [ih hp' hr]
      rcases exec_spec (hp call List.mem_cons_self) he with ⟨rfl, hc⟩ | ⟨hne, rfl⟩
      · have hacc : accepted H s (.call call :: es) = call :: accepted H s₁ es := by simp [accepted, he]
        rw [hacc, hc.gentry, ← Option.or_assoc, List.reverse_cons, List.findSome?_append]
        congr 1
        simp
      · obtain ⟨e', rfl⟩ := Option.ne_none_iff_exists'.mp hne
        have hacc : accepted H s₁ (.call call :: es) = accepted H s₁ es := by simp [accepted, he]
        rw [hacc]

/-- Contracts after a history are those before and those registered. -/
theorem runSt_contracts {H : Commit} {s s' : MemState} {es : List StEvent} (hp : EventsProper es)
    (h : runSt H s es = some s') :
    (∀ call ∈ accepted H s es, OMap.contains s'.contracts (call.contract H) = true) ∧
    (∀ c, OMap.contains s.contracts c = true → OMap.contains s'.contracts c = true ∧ cschema s' c = cschema s c ∧
      ∀ ty, glimit s' c ty = glimit s c ty) ∧
    (∀ c, OMap.contains s'.contracts c = true → OMap.contains s.contracts c = false →
      ∃ sch g, StCall.register sch g ∈ accepted H s es ∧ g.contractId H = c ∧
        ∀ ty, glimit s' c ty = OMap.get? sch.maxItems ty) := by
  induction es generalizing s with
  | nil =>
    simp only [runSt, Option.some.injEq] at h; subst h
    refine ⟨by simp [accepted], by simp, fun c h1 h2 => by rw [h1] at h2; cases h2⟩
  | cons e es ih =>
    have hp' : EventsProper es := fun c hc => hp c (List.mem_cons_of_mem _ hc)
    cases e with
    | update r after => exact ih hp' h
    | call call =>
      obtain ⟨s₁, e, he, hr⟩ := run_cons_call h
      obtain ⟨i1, i2, i3⟩ := ih hp' hr
      rcases exec_spec (hp call List.mem_cons_self) he with ⟨rfl, hc⟩ | ⟨hne, rfl⟩
      · have hacc : accepted H s (.call call :: es) = call :: accepted H s₁ es := by simp [accepted, he]
        rw [hacc]
        refine ⟨fun call' hm => ?_, fun c h1 => ?_, fun c h1 h2 => ?_⟩
        · rcases List.mem_cons.mp hm with rfl | hm
          · exact (i2 _ hc.mem).1
          · exact i1 _ hm
        · obtain ⟨j1, j2, j3⟩ := i2 c (hc.mono c h1)
          exact ⟨j1, j2.trans (hc.schema c h1), fun ty => (j3 ty).trans (by rw [hc.limit, if_pos h1])⟩
        · by_cases h3 : OMap.contains s₁.contracts c = true
          · rcases hc.only c h3 with h4 | rfl
            · rw [h4] at h2; cases h2
            · obtain ⟨sch, g, rfl⟩ := hc.reg h2
              refine ⟨sch, g, List.mem_cons_self, rfl, fun ty => ?_⟩
              rw [(i2 _ h3).2.2 ty, hc.limit, if_neg (by simp [h2]), if_pos rfl]; rfl
          · obtain ⟨sch, g, h4, h5⟩ := i3 c h1 (by simpa using h3)
            exact ⟨sch, g, List.mem_cons_of_mem _ h4, h5⟩
      · obtain ⟨e', rfl⟩ := Option.ne_none_iff_exists'.mp hne
        have hacc : accepted H s₁ (.call call :: es) = accepted H s₁ es := by simp [accepted, he]
        rw [hacc]
        exact ⟨i1, i2, i3⟩

/-! ### Views -/

theorem get?_filter_key {κ ν : Type} [Key κ] [DecidableEq κ] (m : OMap κ ν) (p : κ → Bool) (k : κ) :
    OMap.get? (m.filter (fun e => p e.1)) k = if p k = true then OMap.get? m k else none := by
  induction m with
  | nil => simp
  | cons e m ih =>
    obtain ⟨k', v⟩ := e
    simp only [List.filter_cons]
    by_cases hp : p k' = true
    · simp only [hp, if_true, OMap.get?_cons, ih]
      by_cases hk : k = k'
      · subst hk; simp [hp]
      · simp [hk]
    · rw [if_neg hp, ih, OMap.get?_cons]
      by_cases hk : k = k'
      · subst hk; simp [hp]
      · simp [hk]

theorem mem_vals_iff {κ ν : Type} [Key κ] [DecidableEq κ] {m : OMap κ ν} (h : OMap.Sorted m) {v : ν} :
    v ∈ OMap.vals m ↔ ∃ k, OMap.get? m k = some v := by
  simp only [OMap.vals, List.mem_map]
  constructor
  · rintro ⟨⟨k, v'⟩, h1, rfl⟩; exact ⟨k, h.get?_of_mem h1⟩
  · rintro ⟨k, hk⟩; exact ⟨(k, v), OMap.mem_of_get? hk, rfl⟩

theorem mentions_of_mem {cs : ContractState} {k : StateKind} {a : OutAssign} {w : WitnessId}
    (h : a ∈ OMap.vals (cs.kindSet k)) (hw : a.witness = some w) : cs.mentions w = true := by
  have h' : (OMap.vals (cs.kindSet k)).any (fun a => decide (a.witness = some w)) = true :=
    List.any_eq_true.mpr ⟨a, h, by simp [hw]⟩
  unfold ContractState.mentions
  cases k <;> (simp only [kindSet] at h'; simp [h'])

theorem checkWitness_iff {s : MemState} {c : Nat} {v : ContractView} (hv : s.contractState c = .ok v) {k : StateKind}
    {a : OutAssign} (h : a ∈ OMap.vals (v.unfiltered.kindSet k)) : v.checkWitness a = true ↔ s.Valid a.witness := by
  unfold MemState.contractState at hv
  cases hc : OMap.get? s.contracts c with
  | none => rw [hc] at hv; cases hv
  | some cs =>
    rw [hc] at hv
    simp only [Except.ok.injEq] at hv
    subst hv
    unfold ContractView.checkWitness
    cases hw : a.witness with
    | none => simp [MemState.Valid]
    | some w =>
      simp only [MemState.Valid]
      have := mentions_of_mem h hw
      rw [get?_filter_key s.witnesses (fun w => ContractState.mentions cs w), if_pos this]
      cases ho : OMap.get? s.witnesses w with
      | none => simp
      | some ord => cases ord <;> simp

theorem contractState_get? {s : MemState} {c : Nat} {v : ContractView} (hv : s.contractState c = .ok v) :
    OMap.get? s.contracts c = some v.unfiltered := by
  unfold MemState.contractState at hv
  cases hc : OMap.get? s.contracts c with
  | none => rw [hc] at hv; cases hv
  | some cs => rw [hc] at hv; simp only [Except.ok.injEq] at hv; subst hv; rfl

theorem entry_view {s : MemState} {c : Nat} {v : ContractView} (hv : s.contractState c = .ok v) (k : StateKind) (key : OutKey) :
    entry s c k key = OMap.get? (v.unfiltered.kindSet k) key := by
  simp [entry, contractState_get? hv]

theorem mem_all_iff {s : MemState} (hs : StInv s) {c : Nat} {v : ContractView} (hv : s.contractState c = .ok v) (k : StateKind)
    (a : OutAssign) : a ∈ v.all k ↔ (∃ key, entry s c k key = some a) ∧ s.Valid a.witness := by
  have hsort := (hs.cs _ _ (contractState_get? hv)).sets k
  simp only [ContractView.all, List.mem_filter]
  constructor
  · rintro ⟨h1, h2⟩
    refine ⟨?_, (checkWitness_iff hv h1).mp h2⟩
    obtain ⟨key, hk⟩ := (mem_vals_iff hsort).mp h1
    exact ⟨key, by rw [entry_view hv]; exact hk⟩
  · rintro ⟨⟨key, hk⟩, h2⟩
    rw [entry_view hv] at hk
    have h1 : a ∈ OMap.vals (v.unfiltered.kindSet k) := (mem_vals_iff hsort).mpr ⟨key, hk⟩
    exact ⟨h1, (checkWitness_iff hv h1).mpr h2⟩

/-! ### Assignments of an operation in the words of the specification -/

theorem outputSeal_eq (w : Option WitnessId) (sl : Seal) :
    Index.outputSeal w sl = (match w with | none => sl.toOutput | some w => sl.toOutputWith w) := by
  cases w <;> rfl

theorem revealed?_eq_some {x : Assign} {sl : Seal} {st : RState} : revealed? x = some (sl, st) ↔ x = .revealed sl st := by
  cases x <;> simp [revealed?]

theorem assignedAt_iff (H : Commit) (op : Op) (w : Option WitnessId) (k : StateKind) (key : OutKey) (a : OutAssign) :
    assignedAt w (op.id H) op.assigns k key = some a ↔ op.Makes H w k a ∧ key = ⟨a.opout, a.sl⟩ := by
  obtain ⟨⟨o, ty, no⟩, sl⟩ := key
  simp only [assignedAt, itemAt, Op.Makes]
  constructor
  · intro h
    obtain ⟨t, ht, h⟩ := Option.bind_eq_some_iff.mp h
    split at h
    · rename_i hk
      split at h
      · rename_i hcond
        obtain ⟨x, hx, h⟩ := Option.bind_eq_some_iff.mp h
        obtain ⟨⟨sl', st⟩, hr, h⟩ := Option.bind_eq_some_iff.mp h
        split at h
        · rename_i hsl
          cases h
          rw [revealed?_eq_some] at hr
          subst hr
          exact ⟨⟨hcond.1, rfl, t, sl', ht, hk, by simpa using hx, hsl⟩, rfl⟩
        · cases h
      · cases h
    · cases h
  · rintro ⟨⟨h1, h2, t, sl', ht, hk, hx, hsl⟩, hkey⟩
    obtain ⟨⟨o', ty', no'⟩, sl'', st, w'⟩ := a
    simp only [OutKey.mk.injEq, Opout.mk.injEq] at hkey
    obtain ⟨⟨rfl, rfl, rfl⟩, rfl⟩ := hkey
    simp only at h1 h2 ht hx hsl
    subst h1 h2
    have hsl' : Index.outputSeal w' sl' = some sl := (outputSeal_eq _ _).trans hsl
    rw [ht]
    simp [hk, hx, revealed?, hsl']

/-! ### Agreement of the same operation seen several times -/

theorem id_conceal {H : Commit} (hH : H.Binding) {a b : Op} (h : a.id H = b.id H) : a.conceal H = b.conceal H :=
  hH.op_inj _ _ h

theorem makes_agree {H : Commit} (hH : H.Binding) {op op' : Op} {w : Option WitnessId} {k k' : StateKind} {a a' : OutAssign}
    (h : op.Makes H w k a) (h' : op'.Makes H w k' a') (ho : a.opout = a'.opout) : a = a' ∧ k = k' := by
  obtain ⟨h1, h2, t, sl, ht, hk, hx, hsl⟩ := h
  obtain ⟨h1', h2', t', sl', ht', hk', hx', hsl'⟩ := h'
  have hid : op.id H = op'.id H := by rw [← h1, ← h1', ho]
  have hc := id_conceal hH hid
  have hca : Assignments.conceal H op.assigns = Assignments.conceal H op'.assigns := congrArg Op.assigns hc
  have hg : OMap.get? (Assignments.conceal H op.assigns) a.opout.ty = OMap.get? (Assignments.conceal H op'.assigns) a.opout.ty := by
    rw [hca]
  rw [← ho] at ht'
  simp only [Assignments.conceal, OMap.get?_mapVals, ht, ht', Option.map_some, Option.some.injEq] at hg
  rw [typed_conceal_iff] at hg
  rw [← ho] at hx'
  have hxx := conceal_get hg.2 hx hx'
  simp only [Assign.conceal, Assign.confidential.injEq] at hxx
  have e1 := hH.seal_inj _ _ hxx.1
  have e2 := hH.state_inj _ _ hxx.2
  subst e1
  rw [hsl] at hsl'
  refine ⟨?_, by rw [← hk, ← hk', hg.1]⟩
  obtain ⟨o, s, st, w⟩ := a
  obtain ⟨o', s', st', w'⟩ := a'
  simp only [Option.some.injEq] at h2 h2' ho e2 hsl'
  subst h2 h2' ho e2 hsl'
  rfl

theorem globalAt_some {opid nonce : Nat} {ow : OpWitness} {gl : OMap Nat (List Nat)} {ty : Nat} {key : GlobalOut} {v : Nat}
    (h : globalAt opid nonce ow gl ty key = some v) : key.opid = opid ∧ key.nonce = nonce ∧ key.opWitness = ow ∧
      ∃ vals, OMap.get? gl ty = some vals ∧ vals[key.index]? = some v := by
  unfold globalAt at h
  obtain ⟨vals, h1, h2⟩ := Option.bind_eq_some_iff.mp h
  unfold gitemAt at h2
  split at h2
  · rename_i hc
    obtain ⟨c1, c2, c3, c4⟩ := hc
    exact ⟨c1, c2, c3, vals, h1, by simpa using h2⟩
  · cases h2

theorem globals_agree {H : Commit} (hH : H.Binding) {a b : StCall} {ty : Nat} {key : GlobalOut} {v v' : Nat}
    (h : a.globals H ty key = some v) (h' : b.globals H ty key = some v') : v = v' := by
  obtain ⟨h1, -, -, vals, h2, h3⟩ := globalAt_some h
  obtain ⟨h1', -, -, vals', h2', h3'⟩ := globalAt_some h'
  have hc := id_conceal hH (h1.symm.trans h1')
  have hg : (a.op.conceal H).globals = (b.op.conceal H).globals := by rw [hc]
  change a.op.globals = b.op.globals at hg
  rw [hg] at h2
  rw [h2] at h2'
  cases h2'
  rw [h3] at h3'
  cases h3'
  rfl

theorem assigned_agree {H : Commit} (hH : H.Binding) {a b : StCall} {k : StateKind} {key : OutKey} {x y : OutAssign}
    (hw : a.op.id H = b.op.id H → a.witness? = b.witness?)
    (h : a.assigned H k key = some x) (h' : b.assigned H k key = some y) : x = y := by
  obtain ⟨m, hk⟩ := (assignedAt_iff H _ _ _ _ _).mp h
  obtain ⟨m', hk'⟩ := (assignedAt_iff H _ _ _ _ _).mp h'
  have ho : x.opout = y.opout := congrArg OutKey.opout (hk.symm.trans hk')
  have hid : a.op.id H = b.op.id H := by rw [← m.1, ← m'.1, ho]
  rw [hw hid] at m
  exact (makes_agree hH m m' ho).1

theorem findSome?_congr {α β : Type} {l l' : List α} {f : α → Option β} (hm : ∀ x, x ∈ l ↔ x ∈ l')
    (h : ∀ a ∈ l, ∀ b ∈ l, ∀ x y, f a = some x → f b = some y → x = y) : l.findSome? f = l'.findSome? f := by
  cases h1 : l.findSome? f with
  | none =>
    rw [List.findSome?_eq_none_iff] at h1
    symm
    rw [List.findSome?_eq_none_iff]
    exact fun x hx => h1 x ((hm x).mpr hx)
  | some x =>
    obtain ⟨a, ha, hx⟩ := List.exists_of_findSome?_eq_some h1
    cases h2 : l'.findSome? f with
    | none =>
      rw [List.findSome?_eq_none_iff] at h2
      rw [h2 a ((hm a).mp ha)] at hx; cases hx
    | some y =>
      obtain ⟨b, hb, hy⟩ := List.exists_of_findSome?_eq_some h2
      rw [h a ha b ((hm b).mpr hb) x y hx hy]

theorem findSome?_mem {α β : Type} {l : List α} {f : α → Option β} {a : α} {x : β} (ha : a ∈ l) (hx : f a = some x) :
    ∃ b ∈ l, ∃ y, f b = some y ∧ l.findSome? f = some y := by
  cases h1 : l.findSome? f with
  | none => rw [List.findSome?_eq_none_iff] at h1; rw [h1 a ha] at hx; cases hx
  | some y => obtain ⟨b, hb, hy⟩ := List.exists_of_findSome?_eq_some h1; exact ⟨b, hb, y, hy, rfl⟩

/-! ### Panics -/

/-- Adding the operation to its contract in the state doesn't panic. -/
def AddableIn (H : Commit) (s : MemState) (call : StCall) : Prop :=
  (∀ e ∈ call.op.globals, (glimit s (call.contract H) e.1).isSome) ∧ AssignsResolve call.witness? call.op.assigns

theorem addable_iff {H : Commit} {s : MemState} {call : StCall} {cs : ContractState}
    (h : OMap.get? s.contracts (call.contract H) = some cs) : Addable cs.global call.op call.opWitness ↔ AddableIn H s call := by
  unfold Addable AddableIn GlobalsKnown
  rw [StCall.opWitness_witness]
  simp [glimit, h, OMap.contains]

theorem exec_of_addable {H : Commit} {s : MemState} {call : StCall} (hc : OMap.contains s.contracts (call.contract H) = true) :
    AddableIn H s call ↔ ∃ s', call.exec H s = some (s', none) := by
  obtain ⟨cs, hcs⟩ := OMap.contains_iff.mp hc
  rw [← addable_iff hcs, ← addOperation_isSome H, Option.isSome_iff_exists]
  cases call with
  | register sch g =>
    simp only [StCall.contract] at hcs
    simp only [StCall.exec, MemState.registerContract, hcs, StCall.op, StCall.opWitness]
    constructor
    · rintro ⟨x, hx⟩; rw [hx]; exact ⟨_, rfl⟩
    · rintro ⟨s', h⟩; obtain ⟨x, hx, -⟩ := Option.map_eq_some_iff.mp h; exact ⟨x, hx⟩
  | transition c op w ord =>
    simp only [StCall.contract] at hcs
    simp only [StCall.exec, MemState.addOp, hcs, StCall.op, StCall.opWitness]
    constructor
    · rintro ⟨x, hx⟩; rw [hx]; exact ⟨_, rfl⟩
    · rintro ⟨s', h⟩; obtain ⟨x, hx, -⟩ := Option.map_eq_some_iff.mp h; exact ⟨x, hx⟩
  | extension c op w ord =>
    simp only [StCall.contract] at hcs
    simp only [StCall.exec, MemState.addOp, hcs, StCall.op, StCall.opWitness]
    constructor
    · rintro ⟨x, hx⟩; rw [hx]; exact ⟨_, rfl⟩
    · rintro ⟨s', h⟩; obtain ⟨x, hx, -⟩ := Option.map_eq_some_iff.mp h; exact ⟨x, hx⟩

/-- With the contract known, a call either panics or succeeds. -/
theorem exec_known {H : Commit} {s s' : MemState} {call : StCall} {e : Option StErr}
    (hc : OMap.contains s.contracts (call.contract H) = true) (h : call.exec H s = some (s', e)) : e = none := by
  obtain ⟨cs, hcs⟩ := OMap.contains_iff.mp hc
  cases call with
  | register sch g =>
    simp only [StCall.contract] at hcs
    simp only [StCall.exec, MemState.registerContract, hcs] at h
    obtain ⟨x, hx, h2⟩ := Option.map_eq_some_iff.mp h
    exact (congrArg Prod.snd h2).symm
  | transition c op w ord =>
    simp only [StCall.contract] at hcs
    simp only [StCall.exec, MemState.addOp, hcs] at h
    obtain ⟨x, hx, h2⟩ := Option.map_eq_some_iff.mp h
    exact (congrArg Prod.snd h2).symm
  | extension c op w ord =>
    simp only [StCall.contract] at hcs
    simp only [StCall.exec, MemState.addOp, hcs] at h
    obtain ⟨x, hx, h2⟩ := Option.map_eq_some_iff.mp h
    exact (congrArg Prod.snd h2).symm

/-- After a call succeeds it can be repeated. -/
theorem addable_after {H : Commit} {s s' : MemState} {call : StCall} (hp : call.Proper) (h : call.exec H s = some (s', none)) :
    AddableIn H s' call := by
  rcases exec_spec hp h with ⟨-, hc⟩ | ⟨hne, -⟩
  · by_cases hk : OMap.contains s.contracts (call.contract H) = true
    · have ha := (exec_of_addable hk).mpr ⟨s', h⟩
      exact ⟨fun e he => by rw [hc.limit, if_pos hk]; exact ha.1 e he, ha.2⟩
    · obtain ⟨sch, g, rfl⟩ := hc.reg (by simpa using hk)
      have hg : OMap.get? s.contracts (g.contractId H) = none := by simpa [OMap.contains, StCall.contract] using hk
      simp only [StCall.exec, MemState.registerContract, hg] at h
      split at h
      · simp at h
      · obtain ⟨x, hx, -⟩ := Option.map_eq_some_iff.mp h
        have ha := (addOperation_isSome H _ g .genesis).mp (by rw [hx]; rfl)
        refine ⟨fun e he => ?_, ha.2⟩
        rw [hc.limit, if_neg hk, if_pos rfl]
        have := ha.1 e he
        simpa [OMap.contains, ContractState.new, OMap.get?_mapVals, StCall.limits] using this
  · exact absurd rfl hne

theorem accepted_addable {H : Commit} {s s' : MemState} {es : List StEvent} (hp : EventsProper es)
    (h : runSt H s es = some s') : ∀ call ∈ accepted H s es, AddableIn H s' call := by
  induction es generalizing s with
  | nil => simp [accepted]
  | cons e es ih =>
    have hp' : EventsProper es := fun c hc => hp c (List.mem_cons_of_mem _ hc)
    cases e with
    | update r after => exact ih hp' h
    | call call =>
      obtain ⟨s₁, e, he, hr⟩ := run_cons_call h
      have hih := ih hp' hr
      rcases exec_spec (hp call List.mem_cons_self) he with ⟨rfl, hc⟩ | ⟨hne, rfl⟩
      · have hacc : accepted H s (.call call :: es) = call :: accepted H s₁ es := by simp [accepted, he]
        rw [hacc]
        intro call' hm
        rcases List.mem_cons.mp hm with rfl | hm
        · have ha := addable_after (hp call' List.mem_cons_self) he
          exact ⟨fun e he => by rw [((runSt_contracts hp' hr).2.1 _ hc.mem).2.2]; exact ha.1 e he, ha.2⟩
        · exact hih call' hm
      · obtain ⟨e', rfl⟩ := Option.ne_none_iff_exists'.mp hne
        have hacc : accepted H s₁ (.call call :: es) = accepted H s₁ es := by simp [accepted, he]
        rw [hacc]; exact hih

/-- States with the same content are equal. -/
theorem contracts_ext {s t : MemState} (hs : StInv s) (ht : StInv t)
    (hc : ∀ c, OMap.contains s.contracts c = OMap.contains t.contracts c)
    (he : ∀ c k key, entry s c k key = entry t c k key) (hg : ∀ c ty key, gentry s c ty key = gentry t c ty key)
    (hl : ∀ c ty, glimit s c ty = glimit t c ty) (hsch : ∀ c, cschema s c = cschema t c) : s.contracts = t.contracts := by
  refine hs.contracts.ext ht.contracts fun c => ?_
  have h0 := hc c
  cases h1 : OMap.get? s.contracts c with
  | none => simp only [OMap.contains, h1] at h0; cases h2 : OMap.get? t.contracts c with
    | none => rfl
    | some y => simp [h2] at h0
  | some x =>
    cases h2 : OMap.get? t.contracts c with
    | none => simp [OMap.contains, h1, h2] at h0
    | some y =>
      congr 1
      refine ContractState.ext' (hs.cs _ _ h1) (ht.cs _ _ h2) ?_ ?_ ?_ ?_ ?_
      · intro k key; have := he c k key; simpa [entry, h1, h2] using this
      · intro ty; have := hl c ty; simpa [glimit, h1, h2] using this
      · intro ty key; have := hg c ty key; simpa [gentry, h1, h2] using this
      · have := hsch c; simp [cschema, h1, h2] at this; exact this.1
      · have := hsch c; simp [cschema, h1, h2] at this; exact this.2

/-! ### Sequences of calls -/

theorem accepted_calls {H : Commit} {s s' : MemState} {l : List StCall} (hp : ∀ c ∈ l, c.Proper)
    (hr : ∀ c ∈ l, c.isRegister = false) (h : runSt H s (l.map .call) = some s') :
    accepted H s (l.map .call) = l.filter (fun c => OMap.contains s.contracts (c.contract H)) ∧
    (∀ c, OMap.contains s'.contracts c = OMap.contains s.contracts c) := by
  induction l generalizing s with
  | nil => simp only [List.map_nil, runSt, Option.some.injEq] at h; subst h; simp [accepted]
  | cons call l ih =>
    rw [List.map_cons] at h ⊢
    obtain ⟨s₁, e, he, hrun⟩ := run_cons_call h
    obtain ⟨i1, i2⟩ := ih (fun c hc => hp c (List.mem_cons_of_mem _ hc)) (fun c hc => hr c (List.mem_cons_of_mem _ hc)) hrun
    rcases exec_spec (hp call List.mem_cons_self) he with ⟨rfl, hc⟩ | ⟨hne, rfl⟩
    · have hk : OMap.contains s.contracts (call.contract H) = true := by
        cases hx : OMap.contains s.contracts (call.contract H) with
        | true => rfl
        | false =>
          obtain ⟨sch, g, rfl⟩ := hc.reg hx
          have := hr _ List.mem_cons_self
          simp [StCall.isRegister] at this
      have hsame : ∀ c, OMap.contains s₁.contracts c = OMap.contains s.contracts c := by
        intro c
        cases hx : OMap.contains s.contracts c with
        | true => exact hc.mono c hx
        | false =>
          cases hy : OMap.contains s₁.contracts c with
          | false => rfl
          | true =>
            rcases hc.only c hy with h1 | rfl
            · rw [h1] at hx; cases hx
            · rw [hk] at hx; cases hx
      have hacc : accepted H s (.call call :: l.map .call) = call :: accepted H s₁ (l.map .call) := by simp [accepted, he]
      rw [hacc, i1, List.filter_cons_of_pos (by simpa using hk)]
      refine ⟨?_, fun c => (i2 c).trans (hsame c)⟩
      simp only [hsame]
    · obtain ⟨e', rfl⟩ := Option.ne_none_iff_exists'.mp hne
      have hk : ¬ OMap.contains s₁.contracts (call.contract H) = true := fun hk => by have := exec_known hk he; simp at this
      have hacc : accepted H s₁ (.call call :: l.map .call) = accepted H s₁ (l.map .call) := by simp [accepted, he]
      rw [hacc, List.filter_cons_of_neg (by simpa using hk)]
      exact ⟨i1, i2⟩

theorem exec_unknown {H : Commit} {s : MemState} {call : StCall} (hr : call.isRegister = false)
    (hc : OMap.contains s.contracts (call.contract H) = false) :
    call.exec H s = some (s, some (.unknownContract (call.contract H))) := by
  have hg : OMap.get? s.contracts (call.contract H) = none := by simpa [OMap.contains] using hc
  cases call with
  | register sch g => simp [StCall.isRegister] at hr
  | transition c op w ord => simp only [StCall.contract] at hg ⊢; simp [StCall.exec, MemState.addOp, hg]
  | extension c op w ord => simp only [StCall.contract] at hg ⊢; simp [StCall.exec, MemState.addOp, hg]

theorem run_calls_isSome {H : Commit} {s : MemState} {l : List StCall} (hp : ∀ c ∈ l, c.Proper)
    (hr : ∀ c ∈ l, c.isRegister = false) :
    (runSt H s (l.map .call)).isSome ↔
      ∀ call ∈ l, OMap.contains s.contracts (call.contract H) = true → AddableIn H s call := by
  induction l generalizing s with
  | nil => simp [runSt]
  | cons call l ih =>
    have hp' := fun c hc => hp c (List.mem_cons_of_mem _ hc)
    have hr' := fun c hc => hr c (List.mem_cons_of_mem _ hc)
    rw [List.map_cons]
    cases hk : OMap.contains s.contracts (call.contract H) with
    | false =>
      simp only [runSt, exec_unknown (hr call List.mem_cons_self) hk]
      rw [ih hp' hr']
      simp [hk]
    | true =>
      cases he : call.exec H s with
      | none =>
        simp only [runSt, he, Option.isSome_none, Bool.false_eq_true, false_iff]
        intro hall
        obtain ⟨s', hs'⟩ := (exec_of_addable hk).mp (hall call List.mem_cons_self hk)
        rw [he] at hs'; cases hs'
      | some r =>
        obtain ⟨s₁, e⟩ := r
        cases exec_known hk he
        simp only [runSt, he]
        rw [ih hp' hr']
        rcases exec_spec (hp call List.mem_cons_self) he with ⟨-, hc⟩ | ⟨hne, -⟩
        · have ha := (exec_of_addable hk).mpr ⟨s₁, he⟩
          have hcont : ∀ c, OMap.contains s₁.contracts c = true ↔ OMap.contains s.contracts c = true :=
            fun c => ⟨fun h => by rcases hc.only c h with h | rfl <;> assumption, hc.mono c⟩
          have heq : ∀ call' : StCall, OMap.contains s.contracts (call'.contract H) = true →
              (AddableIn H s₁ call' ↔ AddableIn H s call') := by
            intro call' hk'
            simp only [AddableIn, hc.limit, if_pos hk']
          constructor
          · intro h call' hm hk'
            rcases List.mem_cons.mp hm with rfl | hm
            · exact ha
            · exact (heq _ hk').mp (h call' hm ((hcont _).mpr hk'))
          · intro h call' hm hk'
            exact (heq _ ((hcont _).mp hk')).mpr (h call' (List.mem_cons_of_mem _ hm) ((hcont _).mp hk'))
        · exact absurd rfl hne

/-- Positions of witnesses after calls: the last position given. -/
theorem run_calls_witness {H : Commit} {s s' : MemState} {l : List StCall} (hp : ∀ c ∈ l, c.Proper)
    (h : runSt H s (l.map .call) = some s') (w : WitnessId) :
    OMap.get? s'.witnesses w = ((accepted H s (l.map .call)).reverse.findSome?
      (fun call => call.witnessOrd?.bind (fun p => if w = p.1 then some p.2 else none))).or (OMap.get? s.witnesses w) := by
  induction l generalizing s with
  | nil => simp only [List.map_nil, runSt, Option.some.injEq] at h; subst h; simp [accepted]
  | cons call l ih =>
    rw [List.map_cons] at h ⊢
    obtain ⟨s₁, e, he, hrun⟩ := run_cons_call h
    rw [ih (fun c hc => hp c (List.mem_cons_of_mem _ hc)) hrun]
    rcases exec_spec (hp call List.mem_cons_self) he with ⟨rfl, hc⟩ | ⟨hne, rfl⟩
    · have hacc : accepted H s (.call call :: l.map .call) = call :: accepted H s₁ (l.map .call) := by simp [accepted, he]
      rw [hacc, hc.witnesses, ← Option.or_assoc, List.reverse_cons, List.findSome?_append]
      congr 1
      simp
    · obtain ⟨e', rfl⟩ := Option.ne_none_iff_exists'.mp hne
      have hacc : accepted H s₁ (.call call :: l.map .call) = accepted H s₁ (l.map .call) := by simp [accepted, he]
      rw [hacc]

theorem mem_accepted {H : Commit} {s : MemState} {es : List StEvent} {call : StCall} (h : call ∈ accepted H s es) :
    StEvent.call call ∈ es := by
  induction es generalizing s with
  | nil => simp [accepted] at h
  | cons e es ih =>
    cases e with
    | update r after => exact List.mem_cons_of_mem _ (ih h)
    | call c =>
      simp only [accepted] at h
      split at h
      · simp at h
      · rcases List.mem_cons.mp h with rfl | h
        · exact List.mem_cons_self
        · exact List.mem_cons_of_mem _ (ih h)
      · exact List.mem_cons_of_mem _ (ih h)

theorem reorgs_contracts (s : MemState) (us : List (Resolver × Nat)) : (reorgs s us).contracts = s.contracts := by
  induction us generalizing s with
  | nil => rfl
  | cons u us ih => exact (ih (s.updateWitnesses u.1 u.2).1).trans rfl

theorem updateLoop_failed (r : Resolver) (after : Nat) {m : OMap WitnessId WitnessOrd} (hm : OMap.Sorted m) (w : WitnessId) :
    w ∈ (MemState.updateLoop r after m).2.failed ↔
      (∃ ord, OMap.get? m w = some ord ∧ MemState.skipped after ord = false) ∧ r w = none := by
  induction m with
  | nil => simp [MemState.updateLoop]
  | cons e m ih =>
    obtain ⟨id, ord⟩ := e
    have ih := ih hm.tail
    have hne : ∀ o, OMap.get? m id = some o → False := fun o ho => by
      have h1 : id ∈ OMap.keys m := OMap.get?_isSome_iff.mp (by simp [ho])
      have := hm.head h1
      exact Key.lt_ne this rfl
    have hcons : (∃ o, OMap.get? ((id, ord) :: m) w = some o ∧ MemState.skipped after o = false) ↔
        (w = id ∧ MemState.skipped after ord = false) ∨ (w ≠ id ∧ ∃ o, OMap.get? m w = some o ∧ MemState.skipped after o = false) := by
      simp only [OMap.get?_cons]
      by_cases hw : w = id
      · subst hw; simp
      · simp [hw]
    rw [hcons]
    have hne' : (∃ o, OMap.get? m w = some o ∧ MemState.skipped after o = false) →
        (w ≠ id ∧ ∃ o, OMap.get? m w = some o ∧ MemState.skipped after o = false) := by
      rintro ⟨o, ho, h⟩; exact ⟨by rintro rfl; exact hne o ho, o, ho, h⟩
    simp only [MemState.updateLoop]
    split
    · rename_i hsk
      simp only [ih, hsk]
      constructor
      · rintro ⟨h1, h2⟩; exact ⟨.inr (hne' h1), h2⟩
      · rintro ⟨h1 | h1, h2⟩
        · simp at h1
        · exact ⟨h1.2, h2⟩
    · rename_i hsk
      have hsk : MemState.skipped after ord = false := by simpa using hsk
      split
      · rename_i new hn
        simp only [ih, hsk]
        constructor
        · rintro ⟨h1, h2⟩; exact ⟨.inr (hne' h1), h2⟩
        · rintro ⟨h1 | h1, h2⟩
          · rw [h1.1, hn] at h2; cases h2
          · exact ⟨h1.2, h2⟩
      · rename_i hn
        simp only [OSet.mem_insert, ih, hsk]
        constructor
        · rintro (rfl | ⟨h1, h2⟩)
          · exact ⟨.inl ⟨rfl, trivial⟩, hn⟩
          · exact ⟨.inr (hne' h1), h2⟩
        · rintro ⟨h1 | h1, h2⟩
          · exact .inl h1.1
          · exact .inr ⟨h1.2, h2⟩

theorem updateLoop_congr (r' r : Resolver) (after : Nat) {m : OMap WitnessId WitnessOrd} 
    (h : ∀ e ∈ m, MemState.skipped after e.2 = false → r' e.1 = r e.1) :
    MemState.updateLoop r' after m = MemState.updateLoop r after m := by
  induction m with
  | nil => rfl
  | cons e m ih =>
    obtain ⟨id, ord⟩ := e
    have ih := ih fun e he => h e (List.mem_cons_of_mem _ he)
    simp only [MemState.updateLoop, ih]
    split
    · rfl
    · rename_i hsk
      rw [h (id, ord) List.mem_cons_self (by simpa using hsk)]

theorem updateLoop_eq_iff (r' r : Resolver) {s : MemState} (hs : OMap.Sorted s.witnesses) {after : Nat} :
    s.updateWitnesses r' after = s.updateWitnesses r after ↔
      ∀ w, (∃ ord, OMap.get? s.witnesses w = some ord ∧
        MemState.skipped (if after = 0 then 1 else after) ord = false) → r' w = r w := by
  constructor
  · rintro h w ⟨ord, h1, h2⟩
    have hg : OMap.get? (s.updateWitnesses r' after).1.witnesses w = OMap.get? (s.updateWitnesses r after).1.witnesses w := by rw [h]
    have hf : w ∈ (s.updateWitnesses r' after).2.failed ↔ w ∈ (s.updateWitnesses r after).2.failed := by rw [h]
    have hf' := (updateLoop_failed r' (if after = 0 then 1 else after) hs w).symm.trans
      (hf.trans (updateLoop_failed r (if after = 0 then 1 else after) hs w))
    have g1 := updateLoop_get? r' (if after = 0 then 1 else after) s.witnesses w
    have g2 := updateLoop_get? r (if after = 0 then 1 else after) s.witnesses w
    have hg' := g1.symm.trans (Eq.trans hg g2)
    rw [h1] at hg'
    simp only [Option.map_some, Option.some.injEq, h2, Bool.false_eq_true, if_false] at hg'
    have hf2 : r' w = none ↔ r w = none :=
      ⟨fun h => (hf'.mp ⟨⟨ord, h1, h2⟩, h⟩).2, fun h => (hf'.mpr ⟨⟨ord, h1, h2⟩, h⟩).2⟩
    cases a : r' w with
    | none => rw [hf2.mp a]
    | some x =>
      cases b : r w with
      | none => rw [hf2.mpr b] at a; cases a
      | some y => simp only [a, b, Option.getD_some] at hg'; rw [hg']
  · intro h
    have := updateLoop_congr r' r (if after = 0 then 1 else after) (m := s.witnesses) (fun e he h2 => h e.1 ⟨e.2, hs.get?_of_mem he, h2⟩)
    simp only [MemState.updateWitnesses, this]

theorem updateLoop_count (r : Resolver) (after : Nat) {m : OMap WitnessId WitnessOrd} (hm : OMap.Sorted m) :
    ∃ l : List WitnessId, l.Nodup ∧
      (∀ w, w ∈ l ↔ ∃ ord, OMap.get? m w = some ord ∧ MemState.skipped after ord = false) ∧
      (MemState.updateLoop r after m).2.succeeded = l.length := by
  refine ⟨(m.filter (fun e => !MemState.skipped after e.2)).map Prod.fst, ?_, ?_, ?_⟩
  · have h1 : (m.map Prod.fst).Nodup := hm.nodup
    exact List.Nodup.sublist (List.Sublist.map _ List.filter_sublist) h1
  · intro w
    simp only [List.mem_map, List.mem_filter, Bool.not_eq_true', Prod.exists, exists_and_right, exists_eq_right]
    exact exists_congr fun o => and_congr_left fun _ => hm.mem_iff
  · clear hm
    induction m with
    | nil => rfl
    | cons e m ih =>
      obtain ⟨id, ord⟩ := e
      simp only [MemState.updateLoop]
      split
      · rename_i hsk; simp only [ih]; simp [hsk]
      · rename_i hsk
        split
        · simp only [ih]; simp [hsk]
        · simp only [ih]; simp [hsk]

/-! ### Global state -/

theorem mentions_of_global {cs : ContractState} {ty : Nat} {gs : GlobalState} (h : OMap.get? cs.global ty = some gs) {e : GlobalOut × Nat}
    (he : e ∈ gs.known) {w : WitnessId} (hw : e.1.opWitness.witness? = some w) : cs.mentions w = true := by
  have : (OMap.vals cs.global).any (fun gs => (OMap.keys gs.known).any (fun o => decide (o.opWitness.witness? = some w))) = true := by
    refine List.any_eq_true.mpr ⟨gs, List.mem_map.mpr ⟨_, OMap.mem_of_get? h, rfl⟩, List.any_eq_true.mpr ⟨e.1, List.mem_map.mpr ⟨e, he, rfl⟩, ?_⟩⟩
    simp [hw]
  simp [ContractState.mentions, this]

theorem view_filter {s : MemState} {c : Nat} {v : ContractView} (hv : s.contractState c = .ok v) (w : WitnessId) :
    OMap.get? v.filter w = if v.unfiltered.mentions w = true then OMap.get? s.witnesses w else none := by
  unfold MemState.contractState at hv
  cases hc : OMap.get? s.contracts c with
  | none => rw [hc] at hv; cases hv
  | some cs =>
    rw [hc] at hv; simp only [Except.ok.injEq] at hv; subst hv
    exact get?_filter_key s.witnesses (fun w => ContractState.mentions cs w) w

theorem globalItem_eq {s : MemState} {c : Nat} {v : ContractView} (hv : s.contractState c = .ok v) {ty : Nat} {gs : GlobalState}
    (h : OMap.get? v.unfiltered.global ty = some gs) (key : GlobalOut) (x : Nat) (he : (key, x) ∈ gs.known) :
    v.globalItem (key, x) = (match key.opWitness with
      | .genesis => some (.genesis key.index, x)
      | .transition w t => (OMap.get? s.witnesses w).map (fun ord => (.transition key.opid key.index t key.nonce ord, x))
      | .extension w t => (OMap.get? s.witnesses w).map (fun ord => (.extension key.opid key.index t key.nonce ord, x))) := by
  unfold ContractView.globalItem
  cases hw : key.opWitness with
  | genesis => simp only [hw]
  | transition w t =>
    have := mentions_of_global h he (w := w) (by simp [hw, OpWitness.witness?])
    simp only [hw, view_filter hv, if_pos this]
  | extension w t =>
    have := mentions_of_global h he (w := w) (by simp [hw, OpWitness.witness?])
    simp only [hw, view_filter hv, if_pos this]

theorem GlobalOut.opid_le {a b : GlobalOut} (h : Key.lt a b = true) : a.opid ≤ b.opid := by
  simp only [Key.lt, Key.enc, List.cons_append, lexLt] at h
  by_cases h1 : a.opid < b.opid
  · omega
  · by_cases h2 : a.opid = b.opid
    · omega
    · simp [h1] at h; exact h.1

theorem globalItem_opid {v : ContractView} {e : GlobalOut × Nat} {it : GlobalOrd × Nat} (h : v.globalItem e = some it) {a : Nat}
    (ha : it.1.opid? = some a) : a = e.1.opid := by
  unfold ContractView.globalItem at h
  split at h
  · cases h; cases ha
  · obtain ⟨o, -, rfl⟩ := Option.map_eq_some_iff.mp h; cases ha; rfl
  · obtain ⟨o, -, rfl⟩ := Option.map_eq_some_iff.mp h; cases ha; rfl

/-! ### Consignments -/

theorem foldl_used (t : Op) (w : WitnessId) (ord : WitnessOrd) (exts : List Nat) (u : OMap Nat (WitnessId × WitnessOrd)) (e : Nat) :
    OMap.get? (exts.foldl (fun u e => if OMap.contains u e then u
        else if t.inputs.any (fun i => decide (i.op = e)) then OMap.insert u e (w, ord) else u) u) e =
      (OMap.get? u e).or (if e ∈ exts ∧ ∃ i ∈ t.inputs, i.op = e then some (w, ord) else none) := by
  induction exts generalizing u with
  | nil => simp
  | cons x exts ih =>
    rw [List.foldl_cons, ih]
    have hany : ∀ e, t.inputs.any (fun i => decide (i.op = e)) = true ↔ ∃ i ∈ t.inputs, i.op = e := by
      intro e; simp [List.any_eq_true]
    by_cases hc : OMap.contains u x = true
    · rw [if_pos hc]
      by_cases hx : e = x
      · subst hx
        obtain ⟨y, hy⟩ := OMap.contains_iff.mp hc
        simp [hy]
      · simp [hx]
    · rw [if_neg hc]
      by_cases hi : t.inputs.any (fun i => decide (i.op = x)) = true
      · rw [if_pos hi, OMap.get?_insert]
        by_cases hx : e = x
        · subst hx
          have hn : OMap.get? u e = none := by simpa [OMap.contains] using hc
          have h2 : (e ∈ e :: exts ∧ ∃ i ∈ t.inputs, i.op = e) := ⟨List.mem_cons_self, (hany e).mp hi⟩
          rw [if_pos rfl, hn, if_pos h2]; rfl
        · simp [hx]
      · rw [if_neg hi]
        by_cases hx : e = x
        · subst hx
          have : ¬ ∃ i ∈ t.inputs, i.op = e := fun h => hi ((hany e).mpr h)
          simp only [this, and_false, if_false]
        · simp [hx]

theorem transitionLoop_spec (H : Commit) (c : Nat) (exts : List Nat) (r : Resolver) (ts : List (Op × WitnessId))
    (u : OMap Nat (WitnessId × WitnessOrd)) :
    ∃ calls used err, transitionLoop H c exts r ts u = (calls, used, err) ∧
      (err ≠ none ↔ ∃ t w, (t, w) ∈ ts ∧ r w = none) ∧
      (err = none →
        (∀ call, call ∈ calls ↔ ∃ t w ord, (t, w) ∈ ts ∧ r w = some ord ∧ call = .transition c t w ord) ∧
        (∀ e, (OMap.get? used e).isSome ↔ (OMap.get? u e).isSome ∨ (e ∈ exts ∧ ∃ t w, (t, w) ∈ ts ∧ ∃ i ∈ t.inputs, i.op = e)) ∧
        (∀ e p, OMap.get? used e = some p → OMap.get? u e = some p ∨
          (r p.1 = some p.2 ∧ ∃ t, (t, p.1) ∈ ts ∧ ∃ i ∈ t.inputs, i.op = e))) := by
  induction ts generalizing u with
  | nil => exact ⟨[], u, none, rfl, by simp, fun _ => ⟨by simp, by simp, fun e p h => .inl h⟩⟩
  | cons x ts ih =>
    obtain ⟨t, w⟩ := x
    cases hrw : r w with
    | none =>
      refine ⟨[], u, some (.resolver w), by simp [transitionLoop, hrw], ?_, by simp⟩
      simp only [ne_eq, reduceCtorEq, not_false_eq_true, true_iff]
      exact ⟨t, w, List.mem_cons_self, hrw⟩
    | some ord =>
      obtain ⟨calls, used, err, h1, h2, h3⟩ := ih (exts.foldl (fun u e => if OMap.contains u e then u
        else if t.inputs.any (fun i => decide (i.op = e)) then OMap.insert u e (w, ord) else u) u)
      refine ⟨.transition c t w ord :: calls, used, err, by simp only [transitionLoop, hrw, h1], ?_, ?_⟩
      · rw [h2]
        constructor
        · rintro ⟨t', w', h, hn⟩; exact ⟨t', w', List.mem_cons_of_mem _ h, hn⟩
        · rintro ⟨t', w', h, hn⟩
          rcases List.mem_cons.mp h with h | h
          · cases h; rw [hrw] at hn; cases hn
          · exact ⟨t', w', h, hn⟩
      · intro he
        obtain ⟨a1, a2, a3⟩ := h3 he
        refine ⟨?_, ?_, ?_⟩
        · intro call
          rw [List.mem_cons, a1]
          constructor
          · rintro (rfl | ⟨t', w', o, h, h', rfl⟩)
            · exact ⟨t, w, ord, List.mem_cons_self, hrw, rfl⟩
            · exact ⟨t', w', o, List.mem_cons_of_mem _ h, h', rfl⟩
          · rintro ⟨t', w', o, h, h', rfl⟩
            rcases List.mem_cons.mp h with h | h
            · cases h; rw [hrw] at h'; cases h'; exact .inl rfl
            · exact .inr ⟨t', w', o, h, h', rfl⟩
        · intro e
          rw [a2, foldl_used]
          have hsome : ((OMap.get? u e).or (if e ∈ exts ∧ ∃ i ∈ t.inputs, i.op = e then some (w, ord) else none)).isSome ↔
              (OMap.get? u e).isSome ∨ (e ∈ exts ∧ ∃ i ∈ t.inputs, i.op = e) := by
            cases OMap.get? u e with
            | some y => simp
            | none => by_cases hx : (e ∈ exts ∧ ∃ i ∈ t.inputs, i.op = e) <;> simp [hx]
          rw [hsome]
          constructor
          · rintro ((h | ⟨h, h'⟩) | ⟨h, t', w', h', h''⟩)
            · exact .inl h
            · exact .inr ⟨h, t, w, List.mem_cons_self, h'⟩
            · exact .inr ⟨h, t', w', List.mem_cons_of_mem _ h', h''⟩
          · rintro (h | ⟨h, t', w', h', h''⟩)
            · exact .inl (.inl h)
            · rcases List.mem_cons.mp h' with h3 | h3
              · cases h3; exact .inl (.inr ⟨h, h''⟩)
              · exact .inr ⟨h, t', w', h3, h''⟩
        · intro e p hp
          rcases a3 e p hp with h | ⟨h, t', h', h''⟩
          · rw [foldl_used] at h
            cases hu : OMap.get? u e with
            | some y => rw [hu] at h; exact .inl h
            | none =>
              rw [hu] at h
              simp only [Option.none_or] at h
              split at h
              · rename_i hx; cases h; exact .inr ⟨hrw, t, List.mem_cons_self, hx.2⟩
              · cases h
          · exact .inr ⟨h, t', List.mem_cons_of_mem _ h', h''⟩

end Rgb
