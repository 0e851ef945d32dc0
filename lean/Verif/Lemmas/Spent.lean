import Verif.Spec.Compose
import Verif.Lemmas.BuilderAccept

/-! Lemmas about the maps of states at outputs. -/

namespace Rgb

/-- All states of the map with where they are. -/
def Spent.flat (m : Spent) : List (OutSeal × Opout × RState) := m.flatMap (fun e => e.2.map (fun x => (e.1, x.1, x.2)))

/-- The state at a place. -/
def Spent.look (m : Spent) (s : OutSeal) (o : Opout) : Option RState := OMap.get? ((OMap.get? m s).getD []) o

/-- The invariant of the maps. -/
structure Spent.WF (m : Spent) : Prop where
  sorted : OMap.Sorted m
  inner : ∀ s l, OMap.get? m s = some l → OMap.Sorted l ∧ l ≠ []

theorem Spent.WF.nil : Spent.WF [] := ⟨OMap.Sorted.nil, fun s l h => by cases h⟩

theorem Spent.WF.mem_flat {m : Spent} (h : m.WF) {s : OutSeal} {o : Opout} {st : RState} :
    (s, o, st) ∈ m.flat ↔ m.look s o = some st := by
  unfold Spent.flat Spent.look
  simp only [List.mem_flatMap, List.mem_map, Prod.mk.injEq]
  constructor
  · rintro ⟨⟨s', l⟩, he, ⟨o', st'⟩, hx, rfl, rfl, rfl⟩
    have hg := h.sorted.get?_of_mem he
    rw [hg]
    exact (h.inner _ _ hg).1.get?_of_mem hx
  · intro hg
    cases hs : OMap.get? m s with
    | none => rw [hs] at hg; cases hg
    | some l =>
      rw [hs] at hg
      exact ⟨(s, l), OMap.mem_of_get? hs, (o, st), OMap.mem_of_get? hg, rfl, rfl, rfl⟩

theorem nodup_flatMap {α β : Type} {f : α → List β} {l : List α} (hf : ∀ a ∈ l, (f a).Nodup)
    (hd : l.Pairwise (fun a b => ∀ x ∈ f a, x ∉ f b)) : (l.flatMap f).Nodup := by
  induction l with
  | nil => exact List.nodup_nil
  | cons a l ih =>
    obtain ⟨h1, h2⟩ := List.pairwise_cons.1 hd
    rw [List.flatMap_cons]
    refine List.nodup_append.2 ⟨hf a (List.mem_cons_self ..), ih (fun b hb => hf b (List.mem_cons_of_mem _ hb)) h2, ?_⟩
    rintro x hx y hy rfl
    obtain ⟨b, hb, hxb⟩ := List.mem_flatMap.1 hy
    exact h1 b hb x hx hxb

theorem Spent.WF.nodup_keys {m : Spent} (h : m.WF) : (m.flat.map (fun x => (x.1, x.2.1))).Nodup := by
  unfold Spent.flat
  rw [List.map_flatMap]
  refine nodup_flatMap ?_ ?_
  · rintro ⟨s, l⟩ he
    have hg := h.sorted.get?_of_mem he
    have := (h.inner _ _ hg).1.nodup
    rw [List.map_map]
    show (l.map (fun x => (s, x.1))).Nodup
    have h2 : l.map (fun x => (s, x.1)) = (OMap.keys l).map (fun o => (s, o)) := by simp [OMap.keys]
    rw [h2]
    exact List.Pairwise.map _ (fun a b hab hc => hab (by simpa using hc)) this
  · have := h.sorted.nodup
    rw [OMap.keys, List.Nodup, List.pairwise_map] at this
    refine this.imp ?_
    rintro ⟨s, l⟩ ⟨s', l'⟩ hne x hx hx'
    obtain ⟨z, hz, rfl⟩ := List.mem_map.1 hx
    obtain ⟨w, hw, rfl⟩ := List.mem_map.1 hz
    obtain ⟨z', hz', he⟩ := List.mem_map.1 hx'
    obtain ⟨w', hw', rfl⟩ := List.mem_map.1 hz'
    simp only [Prod.mk.injEq] at he
    exact hne he.1.symm

theorem nodup_of_map {α β : Type} (f : α → β) {l : List α} (h : (l.map f).Nodup) : l.Nodup := by
  rw [List.Nodup, List.pairwise_map] at h
  exact h.imp (fun hab he => hab (by rw [he]))

theorem Spent.WF.nodup {m : Spent} (h : m.WF) : m.flat.Nodup := nodup_of_map _ h.nodup_keys

theorem Spent.WF.ext {m n : Spent} (hm : m.WF) (hn : n.WF) (h : ∀ s o, m.look s o = n.look s o) : m = n := by
  refine hm.sorted.ext hn.sorted (fun s => ?_)
  have key : ∀ (m n : Spent), m.WF → n.WF → (∀ s o, m.look s o = n.look s o) → OMap.get? m s = none → OMap.get? n s = none := by
    intro m n hm hn h hg
    cases hg' : OMap.get? n s with
    | none => rfl
    | some l =>
      obtain ⟨hs, hne⟩ := hn.inner _ _ hg'
      obtain ⟨x, hx⟩ := List.exists_mem_of_ne_nil _ hne
      have := h s x.1
      unfold Spent.look at this
      rw [hg, hg'] at this
      simp only [Option.getD_none, Option.getD_some, OMap.get?_nil] at this
      rw [hs.get?_of_mem (k := x.1) (v := x.2) hx] at this
      cases this
  cases hg : OMap.get? m s with
  | none => exact (key m n hm hn h hg).symm
  | some l =>
    cases hg' : OMap.get? n s with
    | none => rw [key n m hn hm (fun s o => (h s o).symm) hg'] at hg; cases hg
    | some l' =>
      refine congrArg some ((hm.inner _ _ hg).1.ext (hn.inner _ _ hg').1 (fun o => ?_))
      have := h s o
      unfold Spent.look at this
      rw [hg, hg'] at this
      exact this

theorem Spent.WF.set {m : Spent} (h : m.WF) (s : OutSeal) {l : OMap Opout RState} (hl : OMap.Sorted l) (hne : l ≠ []) :
    Spent.WF (OMap.insert m s l) := by
  refine ⟨h.sorted.insert _ _, fun s' l' hg => ?_⟩
  rw [OMap.get?_insert] at hg
  split at hg
  · cases hg; exact ⟨hl, hne⟩
  · exact h.inner _ _ hg

theorem Spent.WF.innerSorted {m : Spent} (h : m.WF) (s : OutSeal) : OMap.Sorted ((OMap.get? m s).getD []) := by
  cases hg : OMap.get? m s with
  | none => exact OMap.Sorted.nil
  | some l => exact (h.inner _ _ hg).1

theorem Spent.WF.add {m : Spent} (h : m.WF) (a : OutAssign) : (Stock.addSpent m a).WF :=
  h.set _ ((h.innerSorted _).insert _ _) (OMap.insert_ne_nil _ _ _)

theorem look_add (m : Spent) (a : OutAssign) (s : OutSeal) (o : Opout) :
    (Stock.addSpent m a).look s o = if s = a.sl ∧ o = a.opout then some a.state else m.look s o := by
  unfold Spent.look Stock.addSpent
  rw [OMap.get?_insert]
  by_cases hs : s = a.sl
  · subst hs
    simp only [if_true, Option.getD_some, OMap.get?_insert, true_and]
  · simp [hs]

/-- Where an assignment is, and its state. -/
def OutAssign.entry (a : OutAssign) : (OutSeal × Opout) × RState := ((a.sl, a.opout), a.state)

theorem look_foldl (l : List OutAssign) (m : Spent) (s : OutSeal) (o : Opout) :
    Spent.look (l.foldl Stock.addSpent m) s o = (lastFor (s, o) (l.map OutAssign.entry)).or (m.look s o) := by
  induction l generalizing m with
  | nil => rfl
  | cons a l ih =>
    rw [List.foldl_cons, ih, List.map_cons, show a.entry :: l.map OutAssign.entry = [a.entry] ++ l.map OutAssign.entry from rfl, lastFor_cat,
      look_add]
    have : lastFor (s, o) [a.entry] = if s = a.sl ∧ o = a.opout then some a.state else none := by
      show (if (a.sl, a.opout) = (s, o) then some a.state else none) = _
      by_cases h : s = a.sl ∧ o = a.opout
      · obtain ⟨rfl, rfl⟩ := h; simp
      · rw [if_neg h, if_neg]
        intro he; cases he; exact h ⟨rfl, rfl⟩
    rw [this]
    cases lastFor (s, o) (l.map OutAssign.entry) with
    | some x => rfl
    | none => split <;> simp

theorem wf_foldl (l : List OutAssign) {m : Spent} (h : m.WF) : Spent.WF (l.foldl Stock.addSpent m) := by
  induction l generalizing m with
  | nil => exact h
  | cons a l ih => exact ih (h.add a)

/-- What is found at outputs: the last one for each place. -/
theorem contractAssignmentsFor_ok {k : Stock} {c : Nat} {outs : List Outpoint} {m : Spent}
    (h : Stock.contractAssignmentsFor k c outs = .ok m) :
    ∃ v, k.state.contractState c = .ok v ∧ m.WF ∧ ∀ s o, m.look s o = lastFor (s, o) ((v.at_ outs).map OutAssign.entry) := by
  unfold Stock.contractAssignmentsFor at h
  cases hv : k.state.contractState c with
  | error e => rw [hv] at h; cases h
  | ok v =>
    rw [hv] at h
    simp only [Except.ok.injEq] at h
    refine ⟨v, rfl, ?_⟩
    have : m = (v.at_ outs).foldl Stock.addSpent [] := by
      rw [← h]
      unfold Stock.spentOf ContractView.at_
      simp only [List.filter_append, List.foldl_append]
    rw [this]
    refine ⟨wf_foldl _ Spent.WF.nil, fun s o => ?_⟩
    rw [look_foldl]
    show Option.or _ (OMap.get? [] o) = _
    simp [OMap.get?]

theorem contractAssignmentsFor_err {k : Stock} {c : Nat} {outs : List Outpoint} {e : CErr}
    (h : Stock.contractAssignmentsFor k c outs = .error e) : ∃ x, e = .state x := by
  unfold Stock.contractAssignmentsFor at h
  cases hv : k.state.contractState c with
  | error e => rw [hv] at h; cases h; exact ⟨_, rfl⟩
  | ok v => rw [hv] at h; cases h

theorem lastFor_of_nodup {κ ν : Type} [DecidableEq κ] {l : List (κ × ν)} (h : (l.map Prod.fst).Nodup) {k : κ} {v : ν} :
    lastFor k l = some v ↔ (k, v) ∈ l := by
  constructor
  · exact lastFor_mem
  · intro hm
    cases hl : lastFor k l with
    | none => exact absurd rfl (lastFor_none.1 hl (k, v) hm)
    | some w =>
      have hw := lastFor_mem hl
      have : ∀ l : List (κ × ν), (l.map Prod.fst).Nodup → (k, v) ∈ l → (k, w) ∈ l → w = v := by
        intro l
        induction l with
        | nil => intro _ h; cases h
        | cons e l ih =>
          intro hn h1 h2
          rw [List.map_cons, List.nodup_cons] at hn
          rcases List.mem_cons.1 h1 with rfl | h3
          · rcases List.mem_cons.1 h2 with h2 | h2
            · cases h2; rfl
            · exact absurd (List.mem_map.2 ⟨_, h2, rfl⟩) hn.1
          · rcases List.mem_cons.1 h2 with rfl | h2
            · exact absurd (List.mem_map.2 ⟨(k, v), h3, rfl⟩ : (k, w).1 ∈ l.map Prod.fst) hn.1
            · exact ih hn.2 h3 h2
      rw [this l h hm hw]

/-- If no operation output is at two outputs, the map has exactly the states at the outputs. -/
theorem flat_perm {l : List OutAssign} (hn : (l.map (fun a => a.opout)).Nodup) {m : Spent} (hm : m.WF)
    (h : ∀ s o, m.look s o = lastFor (s, o) (l.map OutAssign.entry)) : m.flat.Perm (l.map (fun a => (a.sl, a.opout, a.state))) := by
  have hk : ((l.map OutAssign.entry).map Prod.fst).Nodup := by
    rw [List.map_map]
    refine nodup_of_map Prod.snd ?_
    rw [List.map_map]
    exact hn
  refine (List.perm_ext_iff_of_nodup hm.nodup ?_).2 ?_
  · refine nodup_of_map (fun x => x.2.1) ?_
    rw [List.map_map]
    exact hn
  · rintro ⟨s, o, st⟩
    rw [hm.mem_flat, h, lastFor_of_nodup hk]
    simp only [List.mem_map, OutAssign.entry, Prod.mk.injEq, and_assoc]

theorem lastFor_sorted {κ ν : Type} [Key κ] [DecidableEq κ] {m : OMap κ ν} (h : OMap.Sorted m) (k : κ) : lastFor k m = OMap.get? m k := by
  have hn : (m.map Prod.fst).Nodup := h.nodup
  cases hg : OMap.get? m k with
  | some v => exact (lastFor_of_nodup hn).2 (OMap.mem_of_get? hg)
  | none =>
    cases hl : lastFor k m with
    | none => rfl
    | some v =>
      have := h.get?_of_mem ((lastFor_of_nodup hn).1 hl)
      rw [hg] at this; cases this

theorem Spent.WF.tail {x : OutSeal × OMap Opout RState} {m : Spent} (h : Spent.WF (x :: m)) : m.WF := by
  refine ⟨h.sorted.tail, fun s l hg => h.inner s l ?_⟩
  rw [OMap.get?_cons, if_neg, hg]
  exact Ne.symm (Key.lt_ne (h.sorted.head (OMap.get?_isSome_iff.1 (by rw [hg]; rfl))))

theorem look_merge {m : Spent} (hm : m.WF) (e : Spent) (s : OutSeal) (o : Opout) :
    (Stock.mergeSpent e m).look s o = (m.look s o).or (e.look s o) := by
  induction m generalizing e with
  | nil => show _ = (OMap.get? [] o).or _; simp [OMap.get?, Stock.mergeSpent]
  | cons x m ih =>
    obtain ⟨s', l⟩ := x
    have hl : OMap.Sorted l := (hm.inner s' l (by simp [OMap.get?_cons])).1
    have hnot : OMap.get? m s' = none := by
      rw [OMap.get?_eq_none_iff]
      intro hmem
      exact Key.lt_ne (hm.sorted.head hmem) rfl
    show Spent.look (Stock.mergeSpent (OMap.insert e s' (OMap.extend ((OMap.get? e s').getD []) l)) m) s o = _
    rw [ih hm.tail]
    unfold Spent.look
    rw [OMap.get?_insert, OMap.get?_cons]
    by_cases hs : s = s'
    · subst hs
      simp only [if_true, Option.getD_some, hnot, Option.getD_none, OMap.get?_nil, Option.none_or]
      rw [get?_extend, lastFor_sorted hl]
    · simp [hs]

theorem extend_ne_nil {κ ν : Type} [Key κ] [DecidableEq κ] (m : OMap κ ν) {l : List (κ × ν)} (h : l ≠ []) : OMap.extend m l ≠ [] := by
  obtain ⟨x, hx⟩ := List.exists_mem_of_ne_nil _ h
  intro he
  have : x.1 ∈ OMap.keys (OMap.extend m l) := OMap.mem_keys_extend.2 (.inr (List.mem_map.2 ⟨x, hx, rfl⟩))
  rw [he] at this
  cases this

theorem Spent.WF.merge {m : Spent} (hm : m.WF) {e : Spent} (he : e.WF) : (Stock.mergeSpent e m).WF := by
  induction m generalizing e with
  | nil => exact he
  | cons x m ih =>
    obtain ⟨s', l⟩ := x
    have hl := hm.inner s' l (by simp [OMap.get?_cons])
    exact ih hm.tail (he.set _ ((he.innerSorted _).extend _) (extend_ne_nil _ hl.2))

theorem merge_nil {m : Spent} (hm : m.WF) : Stock.mergeSpent [] m = m := by
  refine (hm.merge Spent.WF.nil).ext hm (fun s o => ?_)
  rw [look_merge hm]
  show Option.or _ (OMap.get? [] o) = _
  simp [OMap.get?]

theorem merge_self {m : Spent} (hm : m.WF) : Stock.mergeSpent m m = m := by
  refine (hm.merge hm).ext hm (fun s o => ?_)
  rw [look_merge hm]
  cases m.look s o <;> rfl

/-- State of other contracts: for each of the listed ones what is at the outputs. -/
theorem spentState_ok {k : Stock} {own : Nat} {outs : List Outpoint} {ids : List Nat} {m0 m : OMap Nat Spent}
    (h : Stock.spentState k own outs ids m0 = .ok m) (hs : OMap.Sorted m0)
    (h0 : ∀ id sp, OMap.get? m0 id = some sp → id ≠ own ∧ Stock.contractAssignmentsFor k id outs = .ok sp) :
    OMap.Sorted m ∧ (∀ id sp, OMap.get? m id = some sp → id ≠ own ∧ Stock.contractAssignmentsFor k id outs = .ok sp) ∧
      ∀ id, id ∈ OMap.keys m ↔ id ∈ OMap.keys m0 ∨ (id ∈ ids ∧ id ≠ own) := by
  induction ids generalizing m0 with
  | nil =>
    simp only [Stock.spentState, Except.ok.injEq] at h
    subst h
    exact ⟨hs, h0, by simp⟩
  | cons i ids ih =>
    simp only [Stock.spentState] at h
    by_cases hi : i = own
    · rw [if_pos hi] at h
      obtain ⟨h1, h2, h3⟩ := ih h hs h0
      refine ⟨h1, h2, fun id => ?_⟩
      rw [h3]
      constructor
      · rintro (h | ⟨h, h'⟩)
        · exact .inl h
        · exact .inr ⟨List.mem_cons_of_mem _ h, h'⟩
      · rintro (h | ⟨h, h'⟩)
        · exact .inl h
        · rcases List.mem_cons.1 h with rfl | h
          · exact absurd hi h'
          · exact .inr ⟨h, h'⟩
    · rw [if_neg hi] at h
      obtain ⟨sp, hsp, h⟩ := except_bind_ok.1 h
      obtain ⟨v, hv, hwf, hlook⟩ := contractAssignmentsFor_ok hsp
      have hmerge : Stock.mergeSpent ((OMap.get? m0 i).getD []) sp = sp := by
        cases hg : OMap.get? m0 i with
        | none => exact merge_nil hwf
        | some sp' =>
          have := (h0 i sp' hg).2
          rw [hsp] at this
          cases this
          exact merge_self hwf
      rw [hmerge] at h
      obtain ⟨h1, h2, h3⟩ := ih h (hs.insert _ _) (by
        intro id sp' hg
        rw [OMap.get?_insert] at hg
        split at hg
        · cases hg; subst_vars; exact ⟨hi, hsp⟩
        · exact h0 id sp' hg)
      refine ⟨h1, h2, fun id => ?_⟩
      rw [h3, OMap.mem_keys_insert]
      constructor
      · rintro ((rfl | h) | ⟨h, h'⟩)
        · exact .inr ⟨List.mem_cons_self .., hi⟩
        · exact .inl h
        · exact .inr ⟨List.mem_cons_of_mem _ h, h'⟩
      · rintro (h | ⟨h, h'⟩)
        · exact .inl (.inr h)
        · rcases List.mem_cons.1 h with rfl | h
          · exact .inl (.inl rfl)
          · exact .inr ⟨h, h'⟩

theorem spentState_err {k : Stock} {own : Nat} {outs : List Outpoint} {ids : List Nat} {m0 : OMap Nat Spent} {e : CErr}
    (h : Stock.spentState k own outs ids m0 = .error e) : ∃ x, e = .state x := by
  induction ids generalizing m0 with
  | nil => cases h
  | cons i ids ih =>
    simp only [Stock.spentState] at h
    split at h
    · exact ih h
    · cases hc : Stock.contractAssignmentsFor k i outs with
      | error e' => rw [hc] at h; cases h; exact contractAssignmentsFor_err hc
      | ok sp => rw [hc] at h; exact ih h

end Rgb
