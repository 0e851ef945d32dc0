import Verif.Spec.History
import Verif.Lemmas.State
import Verif.Props.Amount

/-! Lemmas about filters and histories. -/

namespace Rgb
open ContractState

theorem AFilter.includes_iff (f : AFilter) (o : Outpoint) (w : Option WitnessId) : f.includes o w = true ↔ f.Selects o w := by
  induction f with
  | all => simp [AFilter.includes, AFilter.Selects]
  | absent => simp [AFilter.includes, AFilter.Selects]
  | exclude f ih => simp only [AFilter.includes, AFilter.Selects, ← ih]; simp
  | «present» f ih => simp only [AFilter.includes, AFilter.Selects, ih]
  | outpoint p => simp only [AFilter.includes, AFilter.Selects, decide_eq_true_eq]; exact eq_comm
  | outpoints ps => simp [AFilter.includes, AFilter.Selects]
  | keys m =>
    simp only [AFilter.includes, AFilter.Selects, List.any_eq_true, decide_eq_true_eq]
    constructor
    · rintro ⟨⟨p, x⟩, h, rfl⟩; exact ⟨x, h⟩
    · rintro ⟨x, h⟩; exact ⟨(o, x), h, rfl⟩
  | custom f => simp [AFilter.includes, AFilter.Selects]

/-! ### Groups -/

def AllocGroups.addAll {κ : Type} [DecidableEq κ] (l : List (κ × Alloc)) (m : AllocGroups κ) : AllocGroups κ :=
  l.foldl (fun m e => m.add e.1 e.2) m

theorem AllocGroups.get_add {κ : Type} [DecidableEq κ] (m : AllocGroups κ) (k k' : κ) (a : Alloc) :
    (m.add k a).get k' = if k' = k then some (hashInsert ((m.get k).getD []) a) else m.get k' := by
  induction m with
  | nil =>
    simp only [AllocGroups.add, AllocGroups.get]
    by_cases h : k' = k
    · subst h; simp
    · simp [h, Ne.symm h]
  | cons e m ih =>
    obtain ⟨k0, s⟩ := e
    simp only [AllocGroups.add]
    by_cases h0 : k0 = k
    · subst h0
      simp only [if_true, AllocGroups.get]
      by_cases h : k' = k0
      · subst h; simp
      · simp [h, Ne.symm h]
    · simp only [if_neg h0, AllocGroups.get, ih]
      by_cases h : k' = k
      · subst h; simp [h0]
      · simp [h]

def hashExtend (s l : List Alloc) : List Alloc := l.foldl hashInsert s

theorem hashExtend_nodup {s l : List Alloc} (h : (s ++ l).Nodup) : hashExtend s l = s ++ l := by
  induction l generalizing s with
  | nil => simp [hashExtend]
  | cons a l ih =>
    have ha : a ∉ s := by
      intro hm
      have := (List.nodup_append.mp h).2.2 a hm a (by simp)
      exact this rfl
    have : hashInsert s a = s ++ [a] := by simp [hashInsert, ha]
    simp only [hashExtend, List.foldl_cons, this] at *
    have h' : ((s ++ [a]) ++ l).Nodup := by simpa using h
    have := ih h'
    simpa using this

theorem AllocGroups.get_addAll {κ : Type} [DecidableEq κ] (l : List (κ × Alloc)) (m : AllocGroups κ) (k : κ) :
    (AllocGroups.addAll l m).get k =
      if (l.filter (fun e => decide (e.1 = k))).isEmpty then m.get k
      else some (hashExtend ((m.get k).getD []) ((l.filter (fun e => decide (e.1 = k))).map Prod.snd)) := by
  induction l generalizing m with
  | nil => simp [AllocGroups.addAll]
  | cons e l ih =>
    obtain ⟨k0, a⟩ := e
    have : AllocGroups.addAll ((k0, a) :: l) m = AllocGroups.addAll l (m.add k0 a) := rfl
    rw [this, ih, AllocGroups.get_add]
    by_cases hk : k0 = k
    · subst hk
      simp only [if_true, List.filter_cons, decide_true, List.isEmpty_cons, Bool.false_eq_true, if_false, Option.getD_some,
        List.map_cons, hashExtend, List.foldl_cons]
      by_cases he : (l.filter (fun e => decide (e.1 = k0))).isEmpty
      · simp only [he, if_true]
        rw [List.isEmpty_iff.mp he]; simp
      · simp only [he]; simp
    · simp only [if_neg (Ne.symm hk), List.filter_cons, decide_eq_true_eq, hk, if_false]

theorem AllocGroups.mem_keys {κ : Type} [DecidableEq κ] (m : AllocGroups κ) (k : κ) : k ∈ m.map Prod.fst ↔ (m.get k).isSome := by
  induction m with
  | nil => simp [AllocGroups.get]
  | cons e m ih =>
    obtain ⟨k0, s⟩ := e
    simp only [List.map_cons, List.mem_cons, AllocGroups.get, ih]
    by_cases h : k0 = k
    · subst h; simp
    · simp [h, Ne.symm h]

/-- Members of a group. -/
def groupOf {κ : Type} [DecidableEq κ] (l : List (κ × Alloc)) (k : κ) : Option (List Alloc) :=
  if (l.filter (fun e => decide (e.1 = k))).isEmpty then none else some ((l.filter (fun e => decide (e.1 = k))).map Prod.snd)

theorem AllocGroups.get_grouped {κ : Type} [DecidableEq κ] (l : List (κ × Alloc)) (hn : (l.map Prod.snd).Nodup) (k : κ) :
    (AllocGroups.addAll l []).get k = groupOf l k := by
  rw [AllocGroups.get_addAll, groupOf]
  split
  · rfl
  · have : ((l.filter (fun e => decide (e.1 = k))).map Prod.snd).Nodup := (List.filter_sublist.map _).nodup hn
    simp only [AllocGroups.get, Option.getD_none]
    rw [hashExtend_nodup (by simpa using this)]; simp

theorem groupOurs_eq (l : List OutAssign) (m : AllocGroups (Option WitnessId)) :
    groupOurs l m = AllocGroups.addAll (l.map (fun a => (a.witness, Alloc.of a))) m := by
  induction l generalizing m with
  | nil => rfl
  | cons a l ih => simp only [groupOurs, ih]; rfl

def withWitness (l : List OutAssign) : List (WitnessId × Alloc) := l.filterMap (fun a => a.witness.map (fun w => (w, Alloc.of a)))

theorem groupWitnesses_eq (l : List OutAssign) (m : AllocGroups WitnessId) :
    groupWitnesses l m = if l.all (fun a => a.witness.isSome) then .ok (AllocGroups.addAll (withWitness l) m) else .error .noWitness := by
  induction l generalizing m with
  | nil => rfl
  | cons a l ih =>
    simp only [groupWitnesses, withWitness]
    cases hw : a.witness with
    | none => simp [hw]
    | some w =>
      simp only [ih, List.all_cons, hw, Option.isSome_some, Bool.true_and, List.filterMap_cons, Option.map_some]
      rfl

/-! ### Distinct allocations -/

/-- No two assignments of a kind are at the same output with the same seal. -/
def ContractView.Distinct (v : ContractView) (k : StateKind) : Prop := ((v.all k).map (fun a => (a.opout, a.sl))).Nodup

theorem view_distinct {H : Commit} {es : List StEvent} (hp : EventsProper es) {s : MemState} (hr : runSt H {} es = some s)
    {c : Nat} {v : ContractView} (hv : s.contractState c = .ok v) (k : StateKind) : v.Distinct k := by
  have hs := runSt_inv hp stInv_empty hr
  have hsort := (hs.cs _ _ (contractState_get? hv)).sets k
  have hkey : ∀ e ∈ v.unfiltered.kindSet k, e.1 = ⟨e.2.opout, e.2.sl⟩ := by
    rintro ⟨key, a⟩ he
    have h1 := hsort.get?_of_mem he
    rw [← entry_view hv, runSt_entry hp hr] at h1
    have h0 : entry {} c k key = none := rfl
    simp only [h0, Option.none_or, List.findSome?_eq_some_iff] at h1
    obtain ⟨_, call, _, _, hcall, _⟩ := h1
    split at hcall
    · exact ((assignedAt_iff H _ _ _ _ _).mp hcall).2
    · cases hcall
  unfold ContractView.Distinct ContractView.all
  have hsub : ((OMap.vals (v.unfiltered.kindSet k)).map (fun a => (a.opout, a.sl))).Nodup := by
    have h2 : (OMap.vals (v.unfiltered.kindSet k)).map (fun a => (a.opout, a.sl)) =
        (OMap.keys (v.unfiltered.kindSet k)).map (fun x => (x.opout, x.sl)) := by
      simp only [OMap.vals, OMap.keys, List.map_map]
      apply List.map_congr_left
      intro e he
      simp [hkey e he]
    rw [h2]
    have hn := hsort.nodup
    refine List.pairwise_map.mpr (hn.imp ?_)
    rintro ⟨a, b⟩ ⟨a', b'⟩ hne he
    simp only [Prod.mk.injEq] at he
    exact hne (by rw [he.1, he.2])
  exact (List.filter_sublist.map _).nodup hsub

theorem inj_of_nodup_map {α β : Type} {f : α → β} {l : List α} (h : (l.map f).Nodup) {a b : α} (ha : a ∈ l) (hb : b ∈ l)
    (he : f a = f b) : a = b := by
  induction l with
  | nil => cases ha
  | cons x l ih =>
    simp only [List.map_cons, List.nodup_cons] at h
    rcases List.mem_cons.mp ha with rfl | ha'
    · rcases List.mem_cons.mp hb with rfl | hb'
      · rfl
      · exact absurd (List.mem_map.mpr ⟨b, hb', he.symm⟩) h.1
    · rcases List.mem_cons.mp hb with rfl | hb'
      · exact absurd (List.mem_map.mpr ⟨a, ha', he⟩) h.1
      · exact ih h.2 ha' hb'

theorem ContractView.Distinct.nodup {v : ContractView} {k : StateKind} (h : v.Distinct k) : ((v.all k).map Alloc.of).Nodup := by
  unfold ContractView.Distinct at h
  refine List.pairwise_map.mpr ((List.pairwise_map.mp h).imp ?_)
  intro a b hne he
  simp only [Alloc.of, Alloc.mk.injEq] at he
  exact hne (by rw [he.1, he.2.1])

theorem ContractView.Distinct.inj {v : ContractView} {k : StateKind} (h : v.Distinct k) {a b : OutAssign} (ha : a ∈ v.all k)
    (hb : b ∈ v.all k) (he : Alloc.of a = Alloc.of b) : a = b := inj_of_nodup_map h.nodup ha hb he

/-- A set of allocations as an entry of a hash map. -/
def asEntry (l : List OutAssign) : Option (List Alloc) := if l.isEmpty then none else some (l.map Alloc.of)

theorem groupOf_ours (l : List OutAssign) (w : Option WitnessId) :
    groupOf (l.map (fun a => (a.witness, Alloc.of a))) w = asEntry (l.filter (fun a => decide (a.witness = w))) := by
  unfold groupOf asEntry
  rw [List.filter_map, List.isEmpty_map, List.map_map]
  rfl

theorem groupOf_witness (l : List OutAssign) (w : WitnessId) :
    groupOf (withWitness l) w = asEntry (l.filter (fun a => decide (a.witness = some w))) := by
  have h : (withWitness l).filter (fun e => decide (e.1 = w)) =
      (l.filter (fun a => decide (a.witness = some w))).map (fun a => (w, Alloc.of a)) := by
    induction l with
    | nil => rfl
    | cons a l ih =>
      cases hw : a.witness with
      | none =>
        have : withWitness (a :: l) = withWitness l := by simp [withWitness, hw]
        rw [this, ih]; simp [hw]
      | some w' =>
        have : withWitness (a :: l) = (w', Alloc.of a) :: withWitness l := by simp [withWitness, hw]
        rw [this, List.filter_cons, ih]
        by_cases he : w' = w
        · subst he; simp [hw]
        · simp [hw, he]
  unfold groupOf asEntry
  rw [h, List.isEmpty_map, List.map_map]
  rfl

theorem ownedBy_eq (v : ContractView) (k : StateKind) (fo : AFilter) (w : Option WitnessId) :
    ((v.all k).filter fo.takes).filter (fun a => decide (a.witness = w)) = ownedBy v k fo w := by
  rw [List.filter_filter]; rfl

/-- Allocations made by the witness of the wallet. -/
def madeBy (v : ContractView) (k : StateKind) (fw : AFilter) (w : WitnessId) : List OutAssign :=
  (v.all k).filter (fun a => decide (a.witness = some w) && fw.takes a)

theorem madeBy_eq (v : ContractView) (k : StateKind) (fw : AFilter) (w : WitnessId) :
    ((v.all k).filter fw.takes).filter (fun a => decide (a.witness = some w)) = madeBy v k fw w := by
  rw [List.filter_filter]; rfl

theorem madeBy_isEmpty (v : ContractView) (k : StateKind) (fw : AFilter) (w : WitnessId) :
    (madeBy v k fw w).isEmpty = !madeByWallet v k fw w := by
  unfold madeBy madeByWallet
  generalize v.all k = l
  induction l with
  | nil => rfl
  | cons a l ih =>
    simp only [List.filter_cons, List.any_cons]
    cases h : (decide (a.witness = some w) && fw.takes a) with
    | true =>
      have h' : (decide (a.witness = some w) && fw.includes a.sl.outpoint a.witness) = true := h
      rw [h']; rfl
    | false =>
      have h' : (decide (a.witness = some w) && fw.includes a.sl.outpoint a.witness) = false := h
      rw [h']; simpa using ih

theorem ext_eq {v : ContractView} {k : StateKind} (hd : v.Distinct k) (fo fw : AFilter) (w : WitnessId) :
    ((madeBy v k fw w).map Alloc.of).filter (fun a => !((ownedBy v k fo (some w)).map Alloc.of).contains a) =
      (sentBy v k fo fw w).map Alloc.of := by
  rw [List.filter_map]
  congr 1
  unfold madeBy sentBy
  rw [List.filter_filter]
  apply List.filter_congr
  intro a ha
  simp only [Function.comp_apply, AFilter.takes]
  by_cases hw : a.witness = some w
  · have : ((ownedBy v k fo (some w)).map Alloc.of).contains (Alloc.of a) = fo.includes a.sl.outpoint a.witness := by
      rw [Bool.eq_iff_iff, List.contains_iff_mem, List.mem_map]
      constructor
      · rintro ⟨b, hb, he⟩
        have hb' := List.mem_filter.mp hb
        have := hd.inj hb'.1 ha he
        subst this
        have h2 := hb'.2
        simp only [Bool.and_eq_true] at h2
        exact h2.2
      · intro h
        exact ⟨a, List.mem_filter.mpr ⟨ha, by simp only [Bool.and_eq_true]; exact ⟨by simp [hw], h⟩⟩, rfl⟩
    rw [this]
    cases fo.includes a.sl.outpoint a.witness <;> simp [hw]
  · simp [hw]

/-- Records of a group of the specification. -/
def groupRecords (ord : List Alloc → List Alloc) (fungible : Bool) (g : HistGroup) : Except HistPanic (List ContractOp) :=
  if g.allocs.isEmpty then .ok [] else ContractOp.records ord fungible g.direction g.witness (g.allocs.map Alloc.of)

theorem witnessRecords_eq (ord : List Alloc → List Alloc) (fungible : Bool) {v : ContractView} {k : StateKind} (hd : v.Distinct k)
    (fo fw : AFilter) (w : WitnessId) (info : WitnessInfo) (hi : v.info? w = some info)
    (hw : madeByWallet v k fw w = true ∨ (ownedBy v k fo (some w)).isEmpty = false) :
    witnessRecords ord fungible info (asEntry (ownedBy v k fo (some w))) (asEntry (madeBy v k fw w)) =
      groupRecords ord fungible (witnessGroup v k fo fw w) := by
  have hm := madeBy_isEmpty v k fw w
  have he := ext_eq hd fo fw w
  have hlen : ((sentBy v k fo fw w).map Alloc.of).isEmpty = (sentBy v k fo fw w).isEmpty := List.isEmpty_map
  unfold witnessGroup groupRecords
  cases hmw : madeByWallet v k fw w with
  | true =>
    rw [hmw] at hm
    simp only [if_true]
    have h1 : asEntry (madeBy v k fw w) = some ((madeBy v k fw w).map Alloc.of) := by
      unfold asEntry; rw [hm]; rfl
    rw [h1]
    cases ho : (ownedBy v k fo (some w)).isEmpty with
    | true =>
      have h2 : asEntry (ownedBy v k fo (some w)) = none := by unfold asEntry; rw [ho]; rfl
      rw [h2]
      rw [List.isEmpty_iff.mp ho] at he
      simp only [List.map_nil, List.contains_nil, Bool.not_false] at he
      have he' : (madeBy v k fw w).map Alloc.of = (sentBy v k fo fw w).map Alloc.of := by
        rw [← he]; exact (List.filter_eq_self.mpr (by simp)).symm
      have hne : (sentBy v k fo fw w).isEmpty = false := by
        rw [← hlen, ← he', List.isEmpty_map, hm]; rfl
      simp only [witnessRecords, hne, he', hi]
      rfl
    | false =>
      have h2 : asEntry (ownedBy v k fo (some w)) = some ((ownedBy v k fo (some w)).map Alloc.of) := by unfold asEntry; rw [ho]; rfl
      rw [h2]
      simp only [witnessRecords, he, hlen, hi]
  | false =>
    rw [hmw] at hm
    have ho := hw.resolve_left (by rw [hmw]; simp)
    have h1 : asEntry (madeBy v k fw w) = none := by unfold asEntry; rw [hm]; rfl
    have h2 : asEntry (ownedBy v k fo (some w)) = some ((ownedBy v k fo (some w)).map Alloc.of) := by unfold asEntry; rw [ho]; rfl
    rw [h1, h2]
    simp only [witnessRecords, hi, Bool.false_eq_true, if_false, ho]

theorem exists_of_not_isEmpty {α : Type} {l : List α} (h : l.isEmpty = false) : ∃ a, a ∈ l := by
  cases l with
  | nil => cases h
  | cons a l => exact ⟨a, by simp⟩

def concatRecords (ord : List Alloc → List Alloc) (fungible : Bool) : List HistGroup → Except HistPanic (List ContractOp)
  | [] => .ok []
  | g :: rest =>
    match groupRecords ord fungible g with
    | .error e => .error e
    | .ok ops =>
      match concatRecords ord fungible rest with
      | .error e => .error e
      | .ok ops' => .ok (ops ++ ops')

theorem checked_info {v : ContractView} {k : StateKind} {a : OutAssign} (ha : a ∈ v.all k) {w : WitnessId} (hw : a.witness = some w) :
    ∃ info, v.info? w = some info := by
  have h := (List.mem_filter.mp ha).2
  unfold ContractView.checkWitness at h
  rw [hw] at h
  simp only at h
  cases ho : OMap.get? v.filter w with
  | none => rw [ho] at h; simp at h
  | some o => exact ⟨⟨w, o⟩, by simp [ContractView.info?, ho]⟩

theorem operations_eq (ord : List Alloc → List Alloc) {v : ContractView} {k : StateKind} (hd : v.Distinct k) (fo fw : AFilter) :
    ∃ ws, HistoryWitnesses v k fo fw ws ∧ v.operations ord k fo fw =
      if ((v.all k).filter fw.takes).all (fun a => a.witness.isSome) then
        concatRecords ord k.isFungible (⟨.issued, none, ownedBy v k fo none⟩ :: ws.map (witnessGroup v k fo fw))
      else .error .noWitness := by
  have hours : ∀ w, (groupOurs ((v.all k).filter fo.takes) []).get w = asEntry (ownedBy v k fo w) := by
    intro w
    rw [groupOurs_eq, AllocGroups.get_grouped, groupOf_ours, ownedBy_eq]
    rw [List.map_map]
    exact (List.filter_sublist.map _).nodup hd.nodup
  have hwits : ∀ w, (AllocGroups.addAll (withWitness ((v.all k).filter fw.takes)) []).get w = asEntry (madeBy v k fw w) := by
    intro w
    rw [AllocGroups.get_grouped, groupOf_witness, madeBy_eq]
    have hsub : (withWitness ((v.all k).filter fw.takes)).map Prod.snd = 
        (((v.all k).filter fw.takes).filter (fun a => a.witness.isSome)).map Alloc.of := by
      generalize (v.all k).filter fw.takes = l
      induction l with
      | nil => rfl
      | cons a l ih =>
        cases hw : a.witness with
        | none => simp only [withWitness, List.filterMap_cons, hw, Option.map_none, List.filter_cons, Option.isSome_none] at ih ⊢; exact ih
        | some w => simp only [withWitness, List.filterMap_cons, hw, Option.map_some, List.filter_cons, Option.isSome_some,
            List.map_cons] at ih ⊢; rw [ih]; rfl
    rw [hsub]
    exact ((List.filter_sublist.trans List.filter_sublist).map _).nodup hd.nodup
  generalize hm : AllocGroups.addAll (withWitness ((v.all k).filter fw.takes)) [] = wits at hwits
  generalize ho : groupOurs ((v.all k).filter fo.takes) [] = ours at hours
  refine ⟨OSet.extend (OSet.ofList (wits.map Prod.fst)) ((ours.map Prod.fst).filterMap id), ⟨?_, ?_⟩, ?_⟩
  · exact OSet.Sorted.extend (OSet.Sorted.extend List.Pairwise.nil _) _
  · intro w
    rw [OSet.mem_extend, OSet.mem_ofList, AllocGroups.mem_keys, hwits]
    simp only [List.mem_filterMap, id_eq]
    have h1 : (asEntry (madeBy v k fw w)).isSome ↔ ∃ a ∈ v.all k, a.witness = some w ∧ fw.Selects a.sl.outpoint a.witness := by
      unfold asEntry
      cases he : (madeBy v k fw w).isEmpty with
      | true =>
        simp only [if_true, Option.isSome_none, Bool.false_eq_true, false_iff]
        rintro ⟨a, h1, h2, h3⟩
        have : a ∈ madeBy v k fw w := List.mem_filter.mpr ⟨h1, by
          simp only [Bool.and_eq_true, decide_eq_true_eq]; exact ⟨h2, (AFilter.includes_iff _ _ _).mpr h3⟩⟩
        rw [List.isEmpty_iff.mp he] at this; cases this
      | false =>
        simp only [Bool.false_eq_true, if_false, Option.isSome_some, true_iff]
        obtain ⟨a, ha⟩ := exists_of_not_isEmpty he
        have h2 := (List.mem_filter.mp ha)
        simp only [Bool.and_eq_true, decide_eq_true_eq] at h2
        exact ⟨a, h2.1, h2.2.1, (AFilter.includes_iff _ _ _).mp h2.2.2⟩
    have h2 : (∃ x ∈ ours.map Prod.fst, x = some w) ↔ ∃ a ∈ v.all k, a.witness = some w ∧ fo.Selects a.sl.outpoint a.witness := by
      have : (∃ x ∈ ours.map Prod.fst, x = some w) ↔ some w ∈ ours.map Prod.fst :=
        ⟨fun ⟨x, h1, h2⟩ => h2 ▸ h1, fun h => ⟨_, h, rfl⟩⟩
      rw [this, AllocGroups.mem_keys, hours]
      unfold asEntry
      cases he : (ownedBy v k fo (some w)).isEmpty with
      | true =>
        simp only [if_true, Option.isSome_none, Bool.false_eq_true, false_iff]
        rintro ⟨a, h1, h2, h3⟩
        have : a ∈ ownedBy v k fo (some w) := List.mem_filter.mpr ⟨h1, by
          simp only [Bool.and_eq_true, decide_eq_true_eq]; exact ⟨h2, (AFilter.includes_iff _ _ _).mpr h3⟩⟩
        rw [List.isEmpty_iff.mp he] at this; cases this
      | false =>
        simp only [Bool.false_eq_true, if_false, Option.isSome_some, true_iff]
        obtain ⟨a, ha⟩ := exists_of_not_isEmpty he
        have h2 := (List.mem_filter.mp ha)
        simp only [Bool.and_eq_true, decide_eq_true_eq] at h2
        exact ⟨a, h2.1, h2.2.1, (AFilter.includes_iff _ _ _).mp h2.2.2⟩
    rw [h1, h2]
    constructor
    · rintro (⟨a, h1, h2, h3⟩ | ⟨a, h1, h2, h3⟩)
      · exact ⟨a, h1, h2, Or.inr h3⟩
      · exact ⟨a, h1, h2, Or.inl h3⟩
    · rintro ⟨a, h1, h2, h3 | h3⟩
      · exact Or.inr ⟨a, h1, h2, h3⟩
      · exact Or.inl ⟨a, h1, h2, h3⟩
  · unfold ContractView.operations
    rw [groupWitnesses_eq]
    by_cases hall : ((v.all k).filter fw.takes).all (fun a => a.witness.isSome) = true
    · simp only [hall, if_true, hm, ho]
      have hg : genesisRecords ord k.isFungible (ours.get none) =
          groupRecords ord k.isFungible ⟨.issued, none, ownedBy v k fo none⟩ := by
        rw [hours]
        unfold asEntry groupRecords genesisRecords
        cases (ownedBy v k fo none).isEmpty <;> rfl
      rw [hg]
      simp only [concatRecords]
      have hloop : ∀ l : List WitnessId, (∀ w ∈ l, w ∈ OSet.extend (OSet.ofList (wits.map Prod.fst)) ((ours.map Prod.fst).filterMap id)) →
          witnessLoop ord k.isFungible v ours wits l = concatRecords ord k.isFungible (l.map (witnessGroup v k fo fw)) := by
        intro l
        induction l with
        | nil => intro _; rfl
        | cons w l ih =>
          intro hl
          have hw := hl w (by simp)
          rw [OSet.mem_extend, OSet.mem_ofList, AllocGroups.mem_keys, hwits, List.mem_filterMap] at hw
          have hcase : madeByWallet v k fw w = true ∨ (ownedBy v k fo (some w)).isEmpty = false := by
            rcases hw with h | ⟨x, hx, hxw⟩
            · left
              have := madeBy_isEmpty v k fw w
              unfold asEntry at h
              cases he : (madeBy v k fw w).isEmpty with
              | true => rw [he] at h; simp at h
              | false => rw [he] at this; simpa using this.symm
            · right
              simp only [id_eq] at hxw
              subst hxw
              rw [AllocGroups.mem_keys, hours] at hx
              unfold asEntry at hx
              cases he : (ownedBy v k fo (some w)).isEmpty with
              | true => rw [he] at hx; simp at hx
              | false => rfl
          have hinfo : ∃ info, v.info? w = some info := by
            rcases hcase with h | h
            · unfold madeByWallet at h
              obtain ⟨a, ha, h2⟩ := List.any_eq_true.mp h
              simp only [Bool.and_eq_true, decide_eq_true_eq] at h2
              exact checked_info ha h2.1
            · obtain ⟨a, ha⟩ := exists_of_not_isEmpty h
              have h2 := (List.mem_filter.mp ha)
              simp only [Bool.and_eq_true, decide_eq_true_eq] at h2
              exact checked_info h2.1 h2.2.1
          obtain ⟨info, hi⟩ := hinfo
          have hi' : v.witnessInfo w = some info := hi
          simp only [witnessLoop, hi', hours, hwits, List.map_cons, concatRecords]
          rw [witnessRecords_eq ord _ hd fo fw w info hi hcase, ih (fun x hx => hl x (by simp [hx]))]
          rfl
      rw [hloop _ (fun w hw => hw)]
      rfl
    · rw [if_neg hall, if_neg hall]

/-! ### Records -/

theorem concat_items (ord : List Alloc → List Alloc) (hord : HashOrder ord) (gs : List HistGroup) :
    concatRecords ord false gs =
      .ok (gs.flatMap (fun g => (ord (g.allocs.map Alloc.of)).map (ContractOp.single g.direction g.witness))) := by
  induction gs with
  | nil => rfl
  | cons g gs ih =>
    have hg : groupRecords ord false g = .ok ((ord (g.allocs.map Alloc.of)).map (ContractOp.single g.direction g.witness)) := by
      unfold groupRecords
      split
      · rename_i he
        rw [List.isEmpty_iff.mp he]
        have := (hord []).eq_nil
        simp [this]
      · rfl
    simp only [concatRecords, hg, ih, List.flatMap_cons]

theorem unwrapAmounts_ok {l : List OutAssign} (h : ∀ a ∈ l, ∃ x b t, a.state = .fungible x b t) {as : List Alloc}
    (hp : as.Perm (l.map Alloc.of)) :
    ∃ vs, unwrapAmounts as = .ok vs ∧ vs.Perm (l.map (fun a => a.state.amountOf)) := by
  have h1 : ∀ as : List Alloc, (∀ a ∈ as, ∃ x, a.state = .amount x) →
      unwrapAmounts as = .ok (as.map (fun a => match a.state with | .amount x => x | _ => 0)) := by
    intro as
    induction as with
    | nil => intro _; rfl
    | cons a as ih =>
      intro hm
      obtain ⟨x, hx⟩ := hm a (by simp)
      simp only [unwrapAmounts, hx, ih (fun b hb => hm b (by simp [hb])), List.map_cons]
  have h2 : ∀ a ∈ as, ∃ x, a.state = .amount x := by
    intro a ha
    obtain ⟨o, ho, rfl⟩ := List.mem_map.mp (hp.mem_iff.mp ha)
    obtain ⟨x, b, t, hs⟩ := h o ho
    exact ⟨x, by simp [Alloc.of, hs, AllocState.of]⟩
  refine ⟨_, h1 as h2, (hp.map _).trans ?_⟩
  rw [List.map_map]
  refine List.Perm.of_eq (List.map_congr_left fun a ha => ?_)
  obtain ⟨x, b, t, hs⟩ := h a ha
  simp [Alloc.of, hs, AllocState.of, RState.amountOf]

theorem reduceToTy_ok {as : List Alloc} {ty : Nat} :
    reduceToTy as = .ok ty ↔ as ≠ [] ∧ ∀ a ∈ as, a.opout.ty = ty := by
  cases as with
  | nil => simp [reduceToTy]
  | cons a as =>
    simp only [reduceToTy]
    split
    · rename_i h
      rw [List.all_eq_true] at h
      simp only [decide_eq_true_eq] at h
      simp only [Except.ok.injEq, ne_eq, reduceCtorEq, not_false_eq_true, List.mem_cons, forall_eq_or_imp, true_and]
      constructor
      · rintro rfl; exact ⟨rfl, fun b hb => (h b hb).symm⟩
      · rintro ⟨h1, _⟩; exact h1
    · rename_i h
      simp only [reduceCtorEq, ne_eq, not_false_eq_true, List.mem_cons, forall_eq_or_imp, true_and, false_iff]
      rintro ⟨rfl, h2⟩
      apply h
      rw [List.all_eq_true]
      intro b hb
      simp [h2 b hb]

theorem reduceToTy_mixed {as : List Alloc} (hne : as ≠ []) (h : ¬ ∃ ty, ∀ a ∈ as, a.opout.ty = ty) : reduceToTy as = .error .mixedTypes := by
  cases as with
  | nil => exact absurd rfl hne
  | cons a as =>
    simp only [reduceToTy]
    split
    · rename_i h'
      rw [List.all_eq_true] at h'
      simp only [decide_eq_true_eq] at h'
      exact absurd ⟨a.opout.ty, fun b hb => by
        rcases List.mem_cons.mp hb with rfl | hb
        · rfl
        · exact (h' b hb).symm⟩ h
    · rfl

theorem ofList_perm {α : Type} [Key α] [DecidableEq α] {l l' : List α} (h : l.Perm l') : OSet.ofList l = OSet.ofList l' := by
  apply OSet.Sorted.ext (OSet.Sorted.extend List.Pairwise.nil _) (OSet.Sorted.extend List.Pairwise.nil _)
  intro x
  rw [show OSet.extend [] l = OSet.ofList l from rfl, show OSet.extend [] l' = OSet.ofList l' from rfl, OSet.mem_ofList, OSet.mem_ofList,
    h.mem_iff]

theorem total_ok (ord : List Alloc → List Alloc) (hord : HashOrder ord) (g : HistGroup) (hne : g.allocs.isEmpty = false)
    (hf : ∀ a ∈ g.allocs, ∃ x b t, a.state = .fungible x b t) (ho : g.OneType) :
    groupRecords ord true g = .ok [g.record] := by
  have hp := hord (g.allocs.map Alloc.of)
  obtain ⟨vs, hvs, hvp⟩ := unwrapAmounts_ok hf hp
  unfold groupRecords
  rw [hne]
  simp only [Bool.false_eq_true, if_false, ContractOp.records, if_true, ContractOp.total, hvs]
  obtain ⟨a0, ha0⟩ : ∃ a0, g.allocs.head? = some a0 := by
    cases hx : g.allocs with
    | nil => rw [hx] at hne; cases hne
    | cons a l => exact ⟨a, rfl⟩
  have hm0 : a0 ∈ g.allocs := by
    cases hx : g.allocs with
    | nil => rw [hx] at ha0; cases ha0
    | cons a l => rw [hx] at ha0; simp at ha0; subst ha0; simp
  have hr : reduceToTy (ord (g.allocs.map Alloc.of)) = .ok a0.opout.ty := by
    rw [reduceToTy_ok]
    refine ⟨fun h => ?_, fun a ha => ?_⟩
    · rw [h] at hp
      have := hp.symm.eq_nil
      rw [List.map_eq_nil_iff] at this
      rw [this] at hne; cases hne
    · obtain ⟨o, hom, rfl⟩ := List.mem_map.mp (hp.mem_iff.mp ha)
      exact ho o hom a0 hm0
  rw [hr]
  simp only [Except.map, HistGroup.record, ha0, Option.map_some, Option.getD_some]
  congr 2
  have e1 : OSet.ofList ((ord (g.allocs.map Alloc.of)).map (fun a => a.opout.op)) = OSet.ofList (g.allocs.map (fun a => a.opout.op)) := by
    apply ofList_perm
    refine (hp.map _).trans ?_
    rw [List.map_map]; exact List.Perm.refl _
  have e2 : OSet.ofList ((ord (g.allocs.map Alloc.of)).map (fun a => a.sl)) = OSet.ofList (g.allocs.map (fun a => a.sl)) := by
    apply ofList_perm
    refine (hp.map _).trans ?_
    rw [List.map_map]; exact List.Perm.refl _
  rw [e1, e2, Props.C02_amount_sum, hvp.sum_nat]

theorem total_mixed (ord : List Alloc → List Alloc) (hord : HashOrder ord) (g : HistGroup)
    (hf : ∀ a ∈ g.allocs, ∃ x b t, a.state = .fungible x b t) (ho : ¬ g.OneType) :
    groupRecords ord true g = .error .mixedTypes := by
  have hp := hord (g.allocs.map Alloc.of)
  obtain ⟨vs, hvs, hvp⟩ := unwrapAmounts_ok hf hp
  have hne : g.allocs.isEmpty = false := by
    cases hx : g.allocs with
    | nil => exact absurd (fun a ha => by rw [hx] at ha; cases ha) ho
    | cons a l => rfl
  unfold groupRecords
  rw [hne]
  simp only [Bool.false_eq_true, if_false, ContractOp.records, if_true, ContractOp.total, hvs]
  rw [reduceToTy_mixed]
  · rfl
  · intro h
    rw [h] at hp
    have := hp.symm.eq_nil
    rw [List.map_eq_nil_iff] at this
    rw [this] at hne; cases hne
  · rintro ⟨ty, hty⟩
    apply ho
    intro a ha b hb
    have h1 := hty (Alloc.of a) (hp.mem_iff.mpr (List.mem_map_of_mem ha))
    have h2 := hty (Alloc.of b) (hp.mem_iff.mpr (List.mem_map_of_mem hb))
    exact h1.trans h2.symm

theorem concat_totals (ord : List Alloc → List Alloc) (hord : HashOrder ord) (gs : List HistGroup)
    (hf : ∀ g ∈ gs, ∀ a ∈ g.allocs, ∃ x b t, a.state = .fungible x b t) :
    ((∀ g ∈ gs, g.OneType) → concatRecords ord true gs = .ok ((gs.filter (fun g => !g.allocs.isEmpty)).map HistGroup.record)) ∧
    ((¬ ∀ g ∈ gs, g.OneType) → concatRecords ord true gs = .error .mixedTypes) := by
  induction gs with
  | nil => exact ⟨fun _ => rfl, fun h => absurd (fun g hg => by cases hg) h⟩
  | cons g gs ih =>
    obtain ⟨ih1, ih2⟩ := ih (fun g' h' => hf g' (by simp [h']))
    by_cases ho : g.OneType
    · have hg : groupRecords ord true g = .ok (if g.allocs.isEmpty then [] else [g.record]) := by
        cases he : g.allocs.isEmpty with
        | true => simp [groupRecords, he]
        | false => simpa using total_ok ord hord g he (hf g (by simp)) ho
      constructor
      · intro h
        simp only [concatRecords, hg, ih1 (fun g' h' => h g' (by simp [h'])), List.filter_cons]
        cases g.allocs.isEmpty <;> simp
      · intro h
        simp only [concatRecords, hg]
        rw [ih2 (fun h' => h (fun g' hg' => by
          rcases List.mem_cons.mp hg' with rfl | hm
          · exact ho
          · exact h' g' hm))]
    · constructor
      · intro h; exact absurd (h g (by simp)) ho
      · intro _
        simp only [concatRecords, total_mixed ord hord g (hf g (by simp)) ho]

end Rgb
