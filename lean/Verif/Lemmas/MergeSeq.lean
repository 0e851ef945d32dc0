import Verif.Lemmas.Merge
import Mathlib.Data.List.Perm.Basic

namespace Rgb
variable {H : Commit}

/-- Pure merge of operations. -/
def joinOp (a b : Op) : Op := { a with assigns := mergeMaps a.assigns b.assigns }

/-- `b` is another valid disclosure of `a`. -/
def SameOp (H : Commit) (a b : Op) : Prop := a.id H = b.id H ∧ b.WF

theorem merge_joinOp (hH : H.Binding) {a b : Op} (h : a.id H = b.id H) (ha : a.WF) :
    a.merge H b = .ok (joinOp a b) := Op.merge_eq hH h ha

theorem joinOp_id (hH : H.Binding) {a b : Op} (h : a.id H = b.id H) : (joinOp a b).id H = a.id H :=
  Op.merge_id hH h

theorem joinOp_wf (hH : H.Binding) {a b : Op} (h : a.id H = b.id H) (ha : a.WF) : (joinOp a b).WF :=
  Op.merge_wf hH h ha

theorem joinOp_comm (hH : H.Binding) {a b : Op} (h : a.id H = b.id H) : joinOp a b = joinOp b a := by
  have hc := Op.conceal_of_id hH h
  rw [joinOp, mergeMaps_comm hH (Op.conceal_assigns hc), Op.conceal_rest hc]; rfl

theorem joinOp_assoc (hH : H.Binding) {a b c : Op} (h : a.id H = b.id H) (h' : b.id H = c.id H) :
    joinOp (joinOp a b) c = joinOp a (joinOp b c) := by
  have hc := Op.conceal_assigns (Op.conceal_of_id hH h)
  have hc' := Op.conceal_assigns (Op.conceal_of_id hH h')
  simp [joinOp, mergeMaps_assoc hH hc hc']

theorem joinOp_self (a : Op) : joinOp a a = a := by simp [joinOp, mergeMaps_self]

theorem mergeAll_eq (hH : H.Binding) (a : Op) (l : List Op) (ha : a.WF) (h : ∀ b ∈ l, a.id H = b.id H) :
    Op.mergeAll H a l = .ok (l.foldl joinOp a) := by
  induction l generalizing a with
  | nil => rfl
  | cons b l ih =>
    have hb := h b List.mem_cons_self
    simp only [Op.mergeAll, merge_joinOp hH hb ha, List.foldl_cons]
    refine ih _ (joinOp_wf hH hb ha) fun c hc => ?_
    rw [joinOp_id hH hb]; exact h c (List.mem_cons_of_mem _ hc)

theorem foldl_joinOp_perm (hH : H.Binding) {l₁ l₂ : List Op} (hp : l₁.Perm l₂) (a : Op)
    (h : ∀ b ∈ l₁, a.id H = b.id H) : l₁.foldl joinOp a = l₂.foldl joinOp a := by
  induction hp generalizing a with
  | nil => rfl
  | cons x _ ih =>
    simp only [List.foldl_cons]
    have hx := h x List.mem_cons_self
    exact ih _ fun b hb => by rw [joinOp_id hH hx]; exact h b (List.mem_cons_of_mem _ hb)
  | swap x y l =>
    simp only [List.foldl_cons]
    have hy := h y (by simp)
    have hx := h x (by simp)
    congr 1
    have hyx : y.id H = x.id H := hy.symm.trans hx
    rw [joinOp_assoc hH hy hyx, joinOp_assoc hH hx hyx.symm, joinOp_comm hH hyx]
  | trans p₁ p₂ ih1 ih2 =>
    rw [ih1 a h, ih2 a (fun b hb => h b (p₁.mem_iff.mpr hb))]

theorem foldl_joinOp_perm' (hH : H.Binding) {a b : Op} {l₁ l₂ : List Op} (hp : (a :: l₁).Perm (b :: l₂))
    (h : ∀ c ∈ l₁, a.id H = c.id H) : l₁.foldl joinOp a = l₂.foldl joinOp b := by
  by_cases hab : a = b
  · subst hab; exact foldl_joinOp_perm hH (List.perm_cons a |>.mp hp) a h
  · have hb : b ∈ l₁ := by
      have := hp.mem_iff.mpr (List.mem_cons_self (a := b) (l := l₂))
      rcases List.mem_cons.mp this with h' | h'
      · exact absurd h'.symm hab
      · exact h'
    have p1 : l₁.Perm (b :: l₁.erase b) := List.perm_cons_erase hb
    have p2 : (b :: a :: l₁.erase b).Perm (b :: l₂) :=
      (List.Perm.swap a b _).trans ((List.Perm.cons a p1.symm).trans hp)
    have p3 : (a :: l₁.erase b).Perm l₂ := (List.perm_cons b).mp p2
    have hid := h b hb
    rw [foldl_joinOp_perm hH p1 a h, List.foldl_cons, joinOp_comm hH hid, ← List.foldl_cons]
    refine foldl_joinOp_perm hH p3 b fun c hc => ?_
    rcases List.mem_cons.mp hc with rfl | hc
    · exact hid.symm
    · exact hid.symm.trans (h c (List.mem_of_mem_erase hc))

/-! Bundles -/

theorem bundle_mergeLoop (hH : H.Binding) (es : List (Nat × Op)) (acc : OMap Nat Op)
    (hacc : ∀ k t, OMap.get? acc k = some t → t.id H = k ∧ t.WF)
    (hes : ∀ e ∈ es, e.2.id H = e.1) :
    ∃ r, Bundle.mergeLoop H es acc = .ok r ∧
      (∀ k t, OMap.get? acc k = some t → ∃ t', OMap.get? r k = some t' ∧
        t' = (es.filterMap (fun e => if e.1 = k then some e.2 else none)).foldl joinOp t) ∧
      (∀ k, OMap.get? acc k = none → OMap.get? r k = none) ∧
      (OMap.Sorted acc → OMap.Sorted r) := by
  induction es generalizing acc with
  | nil => exact ⟨acc, rfl, fun k t h => ⟨t, h, rfl⟩, fun _ h => h, id⟩
  | cons e es ih =>
    obtain ⟨opid, other⟩ := e
    simp only [Bundle.mergeLoop]
    cases hg : OMap.get? acc opid with
    | none =>
      obtain ⟨r, h1, h2, h3, h4⟩ := ih acc hacc (fun e he => hes e (List.mem_cons_of_mem _ he))
      refine ⟨r, h1, ?_, h3, h4⟩
      intro k t hk
      obtain ⟨t', h5, h6⟩ := h2 k t hk
      refine ⟨t', h5, ?_⟩
      have : opid ≠ k := by rintro rfl; rw [hg] at hk; cases hk
      simpa [this] using h6
    | some t₀ =>
      obtain ⟨hid, hwf⟩ := hacc _ _ hg
      have ho : other.id H = opid := hes (opid, other) List.mem_cons_self
      have heq : t₀.id H = other.id H := hid.trans ho.symm
      simp only [merge_joinOp hH heq hwf]
      have hget : ∀ k, OMap.get? (OMap.insert (OMap.erase acc opid) opid (joinOp t₀ other)) k =
          if k = opid then some (joinOp t₀ other) else OMap.get? acc k := by
        intro k; rw [OMap.get?_insert, OMap.get?_erase]; split <;> simp_all
      have hacc' : ∀ k t, OMap.get? (OMap.insert (OMap.erase acc opid) opid (joinOp t₀ other)) k = some t →
          t.id H = k ∧ t.WF := by
        intro k t hk
        rw [hget] at hk
        split at hk
        · cases hk; rename_i hk'; subst hk'
          exact ⟨(joinOp_id hH heq).trans hid, joinOp_wf hH heq hwf⟩
        · exact hacc k t hk
      obtain ⟨r, h1, h2, h3, h4⟩ := ih _ hacc' (fun e he => hes e (List.mem_cons_of_mem _ he))
      refine ⟨r, h1, ?_, ?_, fun hs => h4 ((hs.erase _).insert _ _)⟩
      · intro k t hk
        by_cases hkk : k = opid
        · subst hkk
          rw [hg] at hk; cases hk
          obtain ⟨t', h5, h6⟩ := h2 k (joinOp t₀ other) (by rw [hget]; simp)
          exact ⟨t', h5, by simpa using h6⟩
        · obtain ⟨t', h5, h6⟩ := h2 k t (by rw [hget, if_neg hkk]; exact hk)
          refine ⟨t', h5, ?_⟩
          simpa [Ne.symm hkk] using h6
      · intro k hk
        refine h3 k ?_
        rw [hget]
        have : k ≠ opid := by rintro rfl; rw [hg] at hk; cases hk
        rw [if_neg this]; exact hk

theorem filterMap_key {m : OMap Nat Op} (hs : OMap.Sorted m) (k : Nat) :
    m.filterMap (fun e => if e.1 = k then some e.2 else none) = (OMap.get? m k).toList := by
  induction m with
  | nil => rfl
  | cons e m ih =>
    obtain ⟨k₁, v⟩ := e
    rw [List.filterMap_cons, OMap.get?_cons]
    by_cases h : k = k₁
    · subst h
      have : OMap.get? m k = none := OMap.get?_eq_none_iff.mpr fun hm => Key.lt_ne (hs.head hm) rfl
      simp [ih hs.tail, this]
    · simp [Ne.symm h, h, ih hs.tail]

theorem length_le_of_subset_nodup {α : Type} [DecidableEq α] {l m : List α} (hn : l.Nodup) (h : ∀ x ∈ l, x ∈ m) :
    l.length ≤ m.length := (List.subperm_of_subset hn h).length_le

theorem bundle_merge_eq (hH : H.Binding) {a b : Bundle} (ha : a.WF H) (hb : b.WF H) :
    ∃ r, a.merge H b = .ok r ∧ r.closeMethod = a.closeMethod ∧ r.inputMap = a.inputMap ∧ OMap.Sorted r.known ∧
      ∀ k, OMap.get? r.known k = (OMap.get? a.known k).map (fun t =>
        match OMap.get? b.known k with
        | some u => joinOp t u
        | none => t) := by
  obtain ⟨r, h1, h2, h3, h4⟩ := bundle_mergeLoop hH b.known a.known ha.keyed
    (fun e he => (hb.keyed e.1 e.2 (hb.sorted.get?_of_mem he)).1)
  have hr := h4 ha.sorted
  have hlen : ¬ a.inputMap.length < r.length := by
    have h5 : (OMap.keys r).length ≤ (OMap.vals a.inputMap).length := by
      refine length_le_of_subset_nodup hr.nodup fun k hk => ?_
      cases hg : OMap.get? a.known k with
      | none =>
        have := h3 k hg
        rw [OMap.get?_eq_none_iff] at this; exact absurd hk this
      | some t => exact ha.spent k t hg
    simp only [OMap.keys, OMap.vals, List.length_map] at h5
    omega
  refine ⟨{ a with known := r }, by simp [Bundle.merge, h1, hlen], rfl, rfl, hr, fun k => ?_⟩
  cases hg : OMap.get? a.known k with
  | none => simpa using h3 k hg
  | some t =>
    obtain ⟨t', h5, h6⟩ := h2 k t hg
    rw [filterMap_key hb.sorted] at h6
    show OMap.get? r k = _
    rw [h5, h6]
    cases OMap.get? b.known k <;> rfl

end Rgb
