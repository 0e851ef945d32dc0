import Verif.Spec.Iface
import Verif.Lemmas.Base

/-! Lemmas on interfaces: the merging loops, extension, the checks. -/

namespace Rgb

theorem OwnedIface.isSuperset_iff (a b : OwnedIface) :
    a.isSuperset b = true ↔ ∀ k, b.Allows k → a.Allows k := by
  constructor
  · intro h k hk
    cases a <;> cases b <;> simp_all [OwnedIface.isSuperset, OwnedIface.Allows]
  · intro h
    have h1 := h .rights
    have h2 := h .amount
    have h3 := h .attach
    have h4 := h (.data 0)
    have h5 := h (.data 1)
    have h6 := h (.data (match b with | .data s => s | _ => 0))
    cases a <;> cases b <;> simp [OwnedIface.isSuperset, OwnedIface.Allows] at h1 h2 h3 h4 h5 h6 ⊢
    all_goals omega

theorem mergeLoop_other {ν : Type} (cf : Nat → ν → ν → Option ExtErr) (ov : ExtErr) (es : List (Nat × ν)) :
    ∀ (m : OMap Nat ν) (n : Nat), n ∉ OMap.keys es → OMap.get? (mergeLoop cf ov m es).1 n = OMap.get? m n := by
  induction es with
  | nil => intro m n _; rfl
  | cons e es ih =>
    intro m n hn
    obtain ⟨k, v⟩ := e
    have hk : n ≠ k := by intro h; subst h; exact hn (by simp [OMap.keys])
    have hr : n ∉ OMap.keys es := by intro h; exact hn (by simp [OMap.keys] at h ⊢; exact Or.inr h)
    simp only [mergeLoop]
    split
    · split
      · rfl
      · rw [ih _ _ hr, OMap.get?_insert_ne _ _ hk]
    · split
      · exact ih _ _ hr
      · rw [ih _ _ hr, OMap.get?_insert_ne _ _ hk]

theorem mergeLoop_sorted {ν : Type} (cf : Nat → ν → ν → Option ExtErr) (ov : ExtErr) (es : List (Nat × ν)) :
    ∀ (m : OMap Nat ν), OMap.Sorted m → OMap.Sorted (mergeLoop cf ov m es).1 := by
  induction es with
  | nil => intro m h; exact h
  | cons e es ih =>
    intro m h
    obtain ⟨k, v⟩ := e
    simp only [mergeLoop]
    split
    · split
      · exact h
      · exact ih _ (h.insert _ _)
    · split
      · exact ih _ h
      · exact ih _ (h.insert _ _)

theorem mergeLoop_ext {ν : Type} (cf : Nat → ν → ν → Option ExtErr) (ov : ExtErr) (es : List (Nat × ν)) :
    ∀ (m : OMap Nat ν), (OMap.keys es).Nodup → (mergeLoop cf ov m es).2 = [] →
      ∀ (n : Nat) (v : ν), OMap.get? es n = some v → OMap.get? (mergeLoop cf ov m es).1 n = some v := by
  induction es with
  | nil => intro m _ _ n v h; simp [OMap.get?] at h
  | cons e es ih =>
    intro m hnd h n v hv
    obtain ⟨k, w⟩ := e
    simp only [OMap.keys, List.map_cons, List.nodup_cons] at hnd
    simp only [mergeLoop] at h ⊢
    simp only [OMap.get?] at hv
    cases hg : OMap.get? m k with
    | none =>
      simp only [hg] at h ⊢
      split at h
      · simp at h
      · rename_i hf
        simp only [if_neg hf]
        split at hv
        · rename_i hnk
          subst hnk; cases hv
          rw [mergeLoop_other _ _ _ _ _ hnd.1, OMap.get?_insert]; simp
        · exact ih _ hnd.2 h n v hv
    | some o =>
      simp only [hg] at h ⊢
      cases hc : cf k o w with
      | some e => simp only [hc] at h; simp at h
      | none =>
        simp only [hc] at h ⊢
        split at hv
        · rename_i hnk
          subst hnk; cases hv
          rw [mergeLoop_other _ _ _ _ _ hnd.1, OMap.get?_insert]; simp
        · exact ih _ hnd.2 h n v hv

theorem mergeLoop_base {ν : Type} (cf : Nat → ν → ν → Option ExtErr) (ov : ExtErr) (R : ν → ν → Prop)
    (hrefl : ∀ v, R v v) (htrans : ∀ a b c, R a b → R b c → R a c)
    (hcf : ∀ n a b, cf n a b = none → R a b) (es : List (Nat × ν)) :
    ∀ (m : OMap Nat ν) (n : Nat) (v : ν), OMap.get? m n = some v →
      ∃ v', OMap.get? (mergeLoop cf ov m es).1 n = some v' ∧ R v v' := by
  induction es with
  | nil => intro m n v h; exact ⟨v, h, hrefl v⟩
  | cons e es ih =>
    intro m n v h
    obtain ⟨k, w⟩ := e
    simp only [mergeLoop]
    cases hg : OMap.get? m k with
    | none =>
      simp only
      split
      · exact ⟨v, h, hrefl v⟩
      · apply ih
        rw [OMap.get?_insert_ne _ _ (by intro hnk; subst hnk; rw [hg] at h; cases h)]
        exact h
    | some o =>
      cases hc : cf k o w with
      | some e => simp only [hc]; exact ih m n v h
      | none =>
        simp only [hc]
        by_cases hnk : n = k
        · subst hnk
          have hov : o = v := by rw [hg] at h; cases h; rfl
          subst hov
          obtain ⟨v', h1, h2⟩ := ih (OMap.insert m n w) n w (by rw [OMap.get?_insert]; simp)
          exact ⟨v', h1, htrans _ _ _ (hcf _ _ _ hc) h2⟩
        · exact ih _ _ _ (by rw [OMap.get?_insert_ne _ _ hnk]; exact h)

theorem tinyExtend_keys {ν : Type} (err : ExtErr) (es : List (Nat × ν)) :
    ∀ (m : OMap Nat ν), (tinyExtend err m es).2 = [] →
      ∀ n, n ∈ OMap.keys (tinyExtend err m es).1 ↔ n ∈ OMap.keys m ∨ n ∈ OMap.keys es := by
  induction es with
  | nil => intro m _ n; simp [tinyExtend, OMap.keys]
  | cons e es ih =>
    intro m h n
    obtain ⟨k, w⟩ := e
    simp only [tinyExtend] at h ⊢
    split at h
    · simp at h
    · rename_i hf
      rw [if_neg hf, ih _ h n, OMap.mem_keys_insert]
      simp [OMap.keys]
      constructor
      · rintro ((h | h) | h)
        · exact Or.inr (Or.inl h)
        · exact Or.inl h
        · exact Or.inr (Or.inr h)
      · rintro (h | h | h)
        · exact Or.inl (Or.inr h)
        · exact Or.inl (Or.inl h)
        · exact Or.inr h

theorem OSet.mem_insert' {α : Type} [Key α] [DecidableEq α] {s : OSet α} {a x : α} : x ∈ OSet.insert s a ↔ x ∈ s ∨ x = a := by
  have := OSet.mem_extend (s := s) (as := [a]) (x := x)
  simpa [OSet.extend] using this

theorem presenceLoop_mem (err : ExtErr) (es : List Nat) :
    ∀ (s : OSet Nat), (presenceLoop err s es).2 = [] →
      ∀ n, n ∈ (presenceLoop err s es).1 ↔ n ∈ s ∨ n ∈ es := by
  induction es with
  | nil => intro m _ n; simp [presenceLoop]
  | cons e es ih =>
    intro m h n
    simp only [presenceLoop] at h ⊢
    split at h
    · simp at h
    · rename_i hf
      rw [if_neg hf, ih _ h n, OSet.mem_insert']
      simp
      constructor
      · rintro ((h | h) | h)
        · exact Or.inl h
        · exact Or.inr (Or.inl h)
        · exact Or.inr (Or.inr h)
      · rintro (h | h | h)
        · exact Or.inl (Or.inl h)
        · exact Or.inl (Or.inr h)
        · exact Or.inr h

theorem ArgsKept.refl (m : OMap Nat Occ) : ArgsKept m m := fun _ o h => ⟨o, h, Nat.le_refl _⟩

theorem occ_base (op : OpName) (k : ArgKind) (ov : ExtErr) (m : OMap Nat Occ) (es : List (Nat × Occ)) :
    ArgsKept (mergeLoop (occConflict op k) ov m es).1 m := by
  intro n o h
  refine mergeLoop_base (occConflict op k) ov (fun a b => a.minValue ≤ b.minValue) (fun _ => Nat.le_refl _)
    (fun _ _ _ => Nat.le_trans) ?_ es m n o h
  intro n a b hc
  simp only [occConflict] at hc
  split at hc
  · cases hc
  · omega

theorem occ_ext (op : OpName) (k : ArgKind) (ov : ExtErr) (m : OMap Nat Occ) (es : List (Nat × Occ))
    (hs : OMap.Sorted es) (h : (mergeLoop (occConflict op k) ov m es).2 = []) :
    ArgsKept (mergeLoop (occConflict op k) ov m es).1 es :=
  fun n o hn => ⟨o, mergeLoop_ext _ _ _ _ hs.nodup h n o hn, Nat.le_refl _⟩

structure OpIface.ExtOk (x y c : OpIface) : Prop where
  notFinal : x.modifier ≠ .final
  canOverride : x.modifier.canBeOverriddenBy y.modifier = true
  modifier : c.modifier = x.modifier
  optional : c.optional = (x.optional || y.optional)
  keepsSelf : c.Keeps x
  keepsExt : y.WF → c.Keeps y
  wf : x.WF → c.WF

theorem OpIface.extended_ok {self ext c : OpIface} {op : OpName} (h : self.extended ext op = .ok c) :
    OpIface.ExtOk self ext c := by
  simp only [OpIface.extended] at h
  split at h
  · rename_i he
    simp only [OpIface.extErrors, List.append_eq_nil_iff] at he
    obtain ⟨⟨⟨⟨⟨⟨⟨⟨h0, h1⟩, h2⟩, h3⟩, h4⟩, h5⟩, h6⟩, h7⟩, h8⟩ := he
    cases h
    have hf : self.modifier ≠ .final := by
      intro hf; simp [hf, Modifier.isFinal] at h0
    have ho : self.modifier.canBeOverriddenBy ext.modifier = true := by
      simp only [Modifier.isFinal, hf, decide_false, Bool.false_eq_true, if_false] at h0
      cases hc : self.modifier.canBeOverriddenBy ext.modifier
      · simp [hc] at h0
      · rfl
    refine ⟨hf, ho, rfl, rfl, ⟨?_, occ_base _ _ _ _ _, occ_base _ _ _ _ _, occ_base _ _ _ _ _, ?_, ?_, ?_, ?_⟩, ?_, ?_⟩
    · intro n hn; exact (presenceLoop_mem _ _ _ h1 n).mpr (Or.inl hn)
    · intro n hn; exact (presenceLoop_mem _ _ _ h6 n).mpr (Or.inl hn)
    · intro n hn; exact (presenceLoop_mem _ _ _ h5 n).mpr (Or.inl hn)
    · intro n hn; exact (presenceLoop_mem _ _ _ h7 n).mpr (Or.inl hn)
    · intro n hn
      simp only [hn] at h8 ⊢
      cases hd : ext.defaultAssignment with
      | none => simp
      | some d =>
        simp only [hd] at h8
        simp at h8 ⊢
        exact h8.symm
    · intro hw
      refine ⟨?_, occ_ext _ _ _ _ _ hw.globals h2, occ_ext _ _ _ _ _ hw.inputs h4, occ_ext _ _ _ _ _ hw.assignments h3,
        ?_, ?_, ?_, ?_⟩
      · intro n hn; exact (presenceLoop_mem _ _ _ h1 n).mpr (Or.inr hn)
      · intro n hn; exact (presenceLoop_mem _ _ _ h6 n).mpr (Or.inr hn)
      · intro n hn; exact (presenceLoop_mem _ _ _ h5 n).mpr (Or.inr hn)
      · intro n hn; exact (presenceLoop_mem _ _ _ h7 n).mpr (Or.inr hn)
      · intro n hn; simp [hn]
    · intro hw
      exact ⟨mergeLoop_sorted _ _ _ _ hw.globals, mergeLoop_sorted _ _ _ _ hw.inputs, mergeLoop_sorted _ _ _ _ hw.assignments⟩
  · cases h

theorem OpIface.Keeps.refl (o : OpIface) : o.Keeps o :=
  ⟨fun _ h => h, ArgsKept.refl _, ArgsKept.refl _, ArgsKept.refl _, fun _ h => h, fun _ h => h, fun _ h => h, fun _ h => h⟩

theorem ArgsKept.trans {a b c : OMap Nat Occ} (h1 : ArgsKept a b) (h2 : ArgsKept b c) : ArgsKept a c := by
  intro n o h
  obtain ⟨o1, ho1, hl1⟩ := h2 n o h
  obtain ⟨o2, ho2, hl2⟩ := h1 n o1 ho1
  exact ⟨o2, ho2, Nat.le_trans hl1 hl2⟩

theorem OpIface.Keeps.trans {a b c : OpIface} (h1 : a.Keeps b) (h2 : b.Keeps c) : a.Keeps c :=
  ⟨fun n h => h1.metadata n (h2.metadata n h), h1.globals.trans h2.globals, h1.inputs.trans h2.inputs,
    h1.assignments.trans h2.assignments, fun n h => h1.redeems n (h2.redeems n h), fun n h => h1.valencies n (h2.valencies n h),
    fun n h => h1.errors n (h2.errors n h), fun n h => h1.default n (h2.default n h)⟩

theorem get?_insert_erase {ν : Type} (m : OMap Nat ν) (k n : Nat) (v : ν) :
    OMap.get? (OMap.insert (OMap.erase m k) k v) n = if n = k then some v else OMap.get? m n := by
  rw [OMap.get?_insert]
  by_cases h : n = k
  · simp [h]
  · rw [if_neg h, if_neg h, OMap.get?_erase, if_neg h]

theorem opsLoop_other (es : List (Nat × OpIface)) : ∀ (m : OMap Nat OpIface) (n : Nat), n ∉ OMap.keys es →
    OMap.get? (opsLoop m es).1 n = OMap.get? m n := by
  induction es with
  | nil => intro m n _; rfl
  | cons e es ih =>
    intro m n hn
    obtain ⟨k, v⟩ := e
    have hk : n ≠ k := by intro h; subst h; exact hn (by simp [OMap.keys])
    have hr : n ∉ OMap.keys es := by intro h; exact hn (by simp [OMap.keys] at h ⊢; exact Or.inr h)
    simp only [opsLoop]
    split
    · split
      · exact ih _ _ hr
      · split
        · rfl
        · rw [ih _ _ hr, OMap.get?_insert_ne _ _ hk]
    · split
      · rw [ih _ _ hr, get?_insert_erase, if_neg hk]
      · rw [ih _ _ hr, OMap.get?_erase, if_neg hk]

/-- What one step of `opsLoop` does when there is no error. -/
theorem opsLoop_cons {m : OMap Nat OpIface} {k : Nat} {v : OpIface} {es : List (Nat × OpIface)}
    (h : (opsLoop m ((k, v) :: es)).2 = []) :
    (OMap.get? m k = none ∧ v.optional = true ∧ opsLoop m ((k, v) :: es) = opsLoop m es ∧ (opsLoop m es).2 = []) ∨
    (OMap.get? m k = none ∧ v.optional = false ∧ opsLoop m ((k, v) :: es) = opsLoop (OMap.insert m k v) es ∧
      (opsLoop (OMap.insert m k v) es).2 = []) ∨
    (∃ o c, OMap.get? m k = some o ∧ OpIface.ExtOk o v c ∧
      opsLoop m ((k, v) :: es) = opsLoop (OMap.insert (OMap.erase m k) k c) es ∧
      (opsLoop (OMap.insert (OMap.erase m k) k c) es).2 = []) := by
  cases hg : OMap.get? m k with
  | none =>
    cases hv : v.optional with
    | true =>
      have : opsLoop m ((k, v) :: es) = opsLoop m es := by simp [opsLoop, hg, hv]
      rw [this] at h ⊢
      exact Or.inl ⟨rfl, rfl, rfl, h⟩
    | false =>
      by_cases hl : m.length ≥ tinyMax
      · simp [opsLoop, hg, hv, hl] at h
      · have : opsLoop m ((k, v) :: es) = opsLoop (OMap.insert m k v) es := by simp [opsLoop, hg, hv, hl]
        rw [this] at h ⊢
        exact Or.inr (Or.inl ⟨rfl, rfl, rfl, h⟩)
  | some o =>
    cases hx : o.extended v (.transition k) with
    | ok c =>
      have : opsLoop m ((k, v) :: es) = opsLoop (OMap.insert (OMap.erase m k) k c) es := by simp [opsLoop, hg, hx]
      rw [this] at h ⊢
      exact Or.inr (Or.inr ⟨o, c, rfl, OpIface.extended_ok hx, rfl, h⟩)
    | error er =>
      have hne : er ≠ [] := by
        simp only [OpIface.extended] at hx
        split at hx
        · cases hx
        · rename_i hne; cases hx; exact hne
      simp [opsLoop, hg, hx] at h
      exact absurd h.1 hne

theorem opsLoop_base (es : List (Nat × OpIface)) : ∀ (m : OMap Nat OpIface), (opsLoop m es).2 = [] →
    ∀ (n : Nat) (o : OpIface), OMap.get? m n = some o →
      ∃ c, OMap.get? (opsLoop m es).1 n = some c ∧ c.Keeps o ∧ c.modifier = o.modifier := by
  induction es with
  | nil => intro m _ n o h; exact ⟨o, h, OpIface.Keeps.refl o, rfl⟩
  | cons e es ih =>
    intro m h n o ho
    obtain ⟨k, v⟩ := e
    rcases opsLoop_cons h with ⟨_, _, he, h'⟩ | ⟨hg, _, he, h'⟩ | ⟨o', c, hg, hx, he, h'⟩
    · rw [he]; exact ih _ h' n o ho
    · rw [he]
      refine ih _ h' n o ?_
      rw [OMap.get?_insert_ne _ _ (by intro hnk; subst hnk; rw [hg] at ho; cases ho)]
      exact ho
    · rw [he]
      by_cases hnk : n = k
      · subst hnk
        have : o' = o := by rw [hg] at ho; cases ho; rfl
        subst this
        obtain ⟨c', h1, h2, h3⟩ := ih _ h' n c (by rw [get?_insert_erase, if_pos rfl])
        exact ⟨c', h1, h2.trans hx.keepsSelf, h3.trans hx.modifier⟩
      · exact ih _ h' n o (by rw [get?_insert_erase, if_neg hnk]; exact ho)

theorem opsLoop_ext (es : List (Nat × OpIface)) : ∀ (m : OMap Nat OpIface), (OMap.keys es).Nodup → (opsLoop m es).2 = [] →
    ∀ (n : Nat) (v : OpIface), OMap.get? es n = some v → v.WF → (v.optional = false ∨ ∃ o, OMap.get? m n = some o) →
      ∃ c, OMap.get? (opsLoop m es).1 n = some c ∧ c.Keeps v := by
  induction es with
  | nil => intro m _ _ n v h; simp [OMap.get?] at h
  | cons e es ih =>
    intro m hnd h n v hv hw hp
    obtain ⟨k, w⟩ := e
    simp only [OMap.keys, List.map_cons, List.nodup_cons] at hnd
    simp only [OMap.get?] at hv
    rcases opsLoop_cons h with ⟨hg, hopt, he, h'⟩ | ⟨hg, _, he, h'⟩ | ⟨o', c, hg, hx, he, h'⟩
    · rw [he]
      split at hv
      · rename_i hnk; subst hnk; cases hv
        rcases hp with hp | ⟨o, ho⟩
        · rw [hp] at hopt; cases hopt
        · rw [hg] at ho; cases ho
      · exact ih _ hnd.2 h' n v hv hw hp
    · rw [he]
      split at hv
      · rename_i hnk; subst hnk; cases hv
        refine ⟨_, ?_, OpIface.Keeps.refl _⟩
        rw [opsLoop_other _ _ _ hnd.1, OMap.get?_insert]; simp
      · rename_i hnk
        refine ih _ hnd.2 h' n v hv hw ?_
        rw [OMap.get?_insert_ne _ _ hnk]; exact hp
    · rw [he]
      split at hv
      · rename_i hnk; subst hnk; cases hv
        refine ⟨c, ?_, hx.keepsExt hw⟩
        rw [opsLoop_other _ _ _ hnd.1, get?_insert_erase, if_pos rfl]
      · rename_i hnk
        refine ih _ hnd.2 h' n v hv hw ?_
        rw [get?_insert_erase, if_neg hnk]; exact hp

theorem opsLoop_final (es : List (Nat × OpIface)) : ∀ (m : OMap Nat OpIface), (opsLoop m es).2 = [] →
    ∀ (n : Nat) (o : OpIface), OMap.get? m n = some o → o.modifier = .final →
      n ∉ OMap.keys es ∧ OMap.get? (opsLoop m es).1 n = some o := by
  induction es with
  | nil => intro m _ n o h _; exact ⟨by simp [OMap.keys], h⟩
  | cons e es ih =>
    intro m h n o ho hf
    obtain ⟨k, v⟩ := e
    have key : ∀ m' : OMap Nat OpIface, (opsLoop m' es).2 = [] → n ≠ k → OMap.get? m' n = some o →
        n ∉ OMap.keys ((k, v) :: es) ∧ OMap.get? (opsLoop m' es).1 n = some o := by
      intro m' h' hnk hm'
      obtain ⟨h1, h2⟩ := ih m' h' n o hm' hf
      refine ⟨?_, h2⟩
      simp only [OMap.keys, List.map_cons, List.mem_cons, not_or]
      exact ⟨hnk, h1⟩
    rcases opsLoop_cons h with ⟨hg, _, he, h'⟩ | ⟨hg, _, he, h'⟩ | ⟨o', c, hg, hx, he, h'⟩
    · rw [he]
      exact key _ h' (by intro hnk; subst hnk; rw [hg] at ho; cases ho) ho
    · rw [he]
      have hnk : n ≠ k := by intro hnk; subst hnk; rw [hg] at ho; cases ho
      exact key _ h' hnk (by rw [OMap.get?_insert_ne _ _ hnk]; exact ho)
    · rw [he]
      have hnk : n ≠ k := by
        intro hnk; subst hnk; rw [hg] at ho; cases ho
        exact hx.notFinal hf
      exact key _ h' hnk (by rw [get?_insert_erase, if_neg hnk]; exact ho)

theorem opsLoop_wf (es : List (Nat × OpIface)) (hes : ∀ e ∈ es, e.2.WF) : ∀ (m : OMap Nat OpIface), (opsLoop m es).2 = [] →
    OMap.Sorted m → (∀ (n : Nat) (o : OpIface), OMap.get? m n = some o → o.WF) →
    OMap.Sorted (opsLoop m es).1 ∧ (∀ (n : Nat) (o : OpIface), OMap.get? (opsLoop m es).1 n = some o → o.WF) := by
  induction es with
  | nil => intro m _ hs hm; exact ⟨hs, hm⟩
  | cons e es ih =>
    intro m h hs hm
    obtain ⟨k, v⟩ := e
    have ih := ih (fun e he => hes e (by simp [he]))
    rcases opsLoop_cons h with ⟨hg, _, he, h'⟩ | ⟨hg, _, he, h'⟩ | ⟨o', c, hg, hx, he, h'⟩
    · rw [he]; exact ih _ h' hs hm
    · rw [he]
      refine ih _ h' (hs.insert _ _) ?_
      intro n o ho
      rw [OMap.get?_insert] at ho
      split at ho
      · cases ho; exact hes (k, v) (by simp)
      · exact hm n o ho
    · rw [he]
      refine ih _ h' ((hs.erase _).insert _ _) ?_
      intro n o ho
      rw [get?_insert_erase] at ho
      split at ho
      · cases ho; exact hx.wf (hm _ _ hg)
      · exact hm n o ho

/-- What a successful extension gives. -/
structure Iface.ExtOk (hid : Iface → Nat) (x y c : Iface) (name : Nat) : Prop where
  name : c.name = name
  inherits : c.inherits = x.inherits ++ ([hid x] ++ y.inherits ++ [hid y])
  keepsSelf : c.Keeps x
  keepsExt : y.WF → c.Keeps y
  wf : x.WF → y.WF → c.WF
  genesis : OpIface.ExtOk x.genesis y.genesis c.genesis
  transitions : (opsLoop x.transitions y.transitions).2 = [] ∧ c.transitions = (opsLoop x.transitions y.transitions).1
  extensions : (opsLoop x.extensions y.extensions).2 = [] ∧ c.extensions = (opsLoop x.extensions y.extensions).1

theorem Iface.extended_ok {hid : Iface → Nat} {self ext c : Iface} {name : Nat} (h : self.extended hid ext name = .ok c) :
    Iface.ExtOk hid self ext c name := by
  simp only [Iface.extended] at h
  split at h
  · rename_i gen inh hg hi
    split at h
    · rename_i he
      simp only [Iface.extErrors, List.append_eq_nil_iff] at he
      obtain ⟨⟨⟨⟨⟨⟨⟨⟨⟨h1, h2⟩, h3⟩, h4⟩, _⟩, h5⟩, h6⟩, h7⟩, h8⟩, _⟩ := he
      cases h
      have hgen := OpIface.extended_ok hg
      have hi' : inh = self.inherits ++ ([hid self] ++ ext.inherits ++ [hid ext]) := by
        simp only [tinyAppend] at hi
        split at hi
        · cases hi
        · cases hi; rfl
      refine ⟨rfl, hi', ⟨?_, ?_, ?_, ?_, ?_, hgen.keepsSelf, ?_⟩, ?_, ?_, hgen, ⟨h5, rfl⟩, ⟨h6, rfl⟩⟩
      · intro n g hgn
        refine mergeLoop_base globalConflict .globalOverflow
          (fun a b => (a.required = true → b.required = true) ∧ (∀ s, a.semId = some s → b.semId = some s))
          (fun _ => ⟨fun h => h, fun _ h => h⟩)
          (fun a b c h1 h2 => ⟨fun h => h2.1 (h1.1 h), fun s h => h2.2 s (h1.2 s h)⟩) ?_ _ _ n g hgn
        intro n a b hc
        simp only [globalConflict] at hc
        split at hc
        · cases hc
        · rename_i hsem
          split at hc
          · cases hc
          · rename_i hreq
            refine ⟨?_, ?_⟩
            · intro ha; cases hb : b.required
              · simp [ha, hb] at hreq
              · rfl
            · intro s hs
              simp [hs] at hsem
              exact hsem
      · intro n g hgn
        refine mergeLoop_base assignConflict .assignmentOverflow
          (fun a b => (a.required = true → b.required = true) ∧ (a.pub = true → b.pub = true) ∧
            (∀ k, b.ownedState.Allows k → a.ownedState.Allows k))
          (fun _ => ⟨fun h => h, fun h => h, fun _ h => h⟩)
          (fun a b c h1 h2 => ⟨fun h => h2.1 (h1.1 h), fun h => h2.2.1 (h1.2.1 h), fun k h => h1.2.2 k (h2.2.2 k h)⟩) ?_ _ _ n g hgn
        intro n a b hc
        simp only [assignConflict] at hc
        split at hc
        · cases hc
        · rename_i hsup
          split at hc
          · cases hc
          · rename_i hreq
            split at hc
            · cases hc
            · rename_i hpub
              refine ⟨?_, ?_, ?_⟩
              · intro ha; cases hb : b.required
                · simp [ha, hb] at hreq
                · rfl
              · intro ha; cases hb : b.pub
                · simp [ha, hb] at hpub
                · rfl
              · refine (OwnedIface.isSuperset_iff _ _).mp ?_
                cases hb : a.ownedState.isSuperset b.ownedState
                · simp [hb] at hsup
                · rfl
      · intro n r hr
        refine mergeLoop_base valencyConflict .valencyOverflow (fun a b => a = true → b = true) (fun _ h => h)
          (fun a b c h1 h2 h => h2 (h1 h)) ?_ _ _ n r hr
        intro n a b hc ha
        cases b
        · simp [valencyConflict, ha] at hc
        · rfl
      · intro n hn; exact (tinyExtend_keys _ _ _ h7 n).mpr (Or.inl hn)
      · intro n hn; exact (tinyExtend_keys _ _ _ h1 n).mpr (Or.inl hn)
      · intro n hn
        simp only [hn] at h8 ⊢
        cases hd : ext.defaultOperation with
        | none => simp
        | some d =>
          simp only [hd] at h8
          simp at h8 ⊢
          exact h8.symm
      · intro hw
        refine ⟨?_, ?_, ?_, ?_, ?_, hgen.keepsExt hw.genesis, ?_⟩
        · intro n g hgn
          exact ⟨g, mergeLoop_ext _ _ _ _ hw.globals.nodup h2 n g hgn, fun h => h, fun _ h => h⟩
        · intro n a hgn
          exact ⟨a, mergeLoop_ext _ _ _ _ hw.assignments.nodup h3 n a hgn, fun h => h, fun h => h, fun _ h => h⟩
        · intro n r hgn
          exact ⟨r, mergeLoop_ext _ _ _ _ hw.valencies.nodup h4 n r hgn, fun h => h⟩
        · intro n hn; exact (tinyExtend_keys _ _ _ h7 n).mpr (Or.inr hn)
        · intro n hn; exact (tinyExtend_keys _ _ _ h1 n).mpr (Or.inr hn)
        · intro n hn; simp [hn]
      · intro hs he
        have ht := opsLoop_wf ext.transitions he.transitionOps self.transitions h5 hs.transitions
          (fun n o ho => hs.transitionOps (n, o) (OMap.mem_of_get? ho))
        have hx := opsLoop_wf ext.extensions he.extensionOps self.extensions h6 hs.extensions
          (fun n o ho => hs.extensionOps (n, o) (OMap.mem_of_get? ho))
        refine ⟨mergeLoop_sorted _ _ _ _ hs.globals, mergeLoop_sorted _ _ _ _ hs.assignments, mergeLoop_sorted _ _ _ _ hs.valencies,
          hgen.wf hs.genesis, ht.1, hx.1, ?_, ?_⟩
        · intro e hm; exact ht.2 e.1 e.2 (ht.1.get?_of_mem hm)
        · intro e hm; exact hx.2 e.1 e.2 (hx.1.get?_of_mem hm)
    · cases h
  · cases h

theorem Iface.Keeps.trans {a b c : Iface} (h1 : a.Keeps b) (h2 : b.Keeps c) : a.Keeps c := by
  refine ⟨?_, ?_, ?_, fun n h => h1.errors n (h2.errors n h), fun n h => h1.metadata n (h2.metadata n h),
    h1.genesis.trans h2.genesis, fun n h => h1.default n (h2.default n h)⟩
  · intro n g h
    obtain ⟨g1, e1, r1, s1⟩ := h2.globals n g h
    obtain ⟨g2, e2, r2, s2⟩ := h1.globals n g1 e1
    exact ⟨g2, e2, fun h => r2 (r1 h), fun s h => s2 s (s1 s h)⟩
  · intro n g h
    obtain ⟨g1, e1, r1, p1, s1⟩ := h2.assignments n g h
    obtain ⟨g2, e2, r2, p2, s2⟩ := h1.assignments n g1 e1
    exact ⟨g2, e2, fun h => r2 (r1 h), fun h => p2 (p1 h), fun s h => s1 s (s2 s h)⟩
  · intro n g h
    obtain ⟨g1, e1, r1⟩ := h2.valencies n g h
    obtain ⟨g2, e2, r2⟩ := h1.valencies n g1 e1
    exact ⟨g2, e2, fun h => r2 (r1 h)⟩

theorem Iface.Derived.wf {hid : Iface → Nat} {c p : Iface} (h : Iface.Derived hid c p) : c.WF := by
  induction h with
  | base hp he hx => exact (Iface.extended_ok hx).wf hp he
  | ext hp he hx => exact (Iface.extended_ok hx).wf he hp
  | baseTrans _ he hx ih => exact (Iface.extended_ok hx).wf ih he
  | extTrans _ he hx ih => exact (Iface.extended_ok hx).wf he ih

/-- Everything derived keeps what the parent promises and lists it, with all its parents. -/
theorem Iface.Derived.keeps {hid : Iface → Nat} {c p : Iface} (h : Iface.Derived hid c p) :
    c.Keeps p ∧ hid p ∈ c.inherits ∧ ∀ a ∈ p.inherits, a ∈ c.inherits := by
  induction h with
  | base hp he hx =>
    have hk := Iface.extended_ok hx
    refine ⟨hk.keepsSelf, ?_, ?_⟩ <;> rw [hk.inherits] <;> simp +contextual
  | ext hp he hx =>
    have hk := Iface.extended_ok hx
    refine ⟨hk.keepsExt hp, ?_, ?_⟩ <;> rw [hk.inherits] <;> simp +contextual
  | baseTrans _ he hx ih =>
    have hk := Iface.extended_ok hx
    refine ⟨hk.keepsSelf.trans ih.1, ?_, fun a ha => ?_⟩ <;> rw [hk.inherits]
    · simp [ih.2.1]
    · simp [ih.2.2 a ha]
  | extTrans hd he hx ih =>
    have hk := Iface.extended_ok hx
    refine ⟨(hk.keepsExt hd.wf).trans ih.1, ?_, fun a ha => ?_⟩ <;> rw [hk.inherits]
    · simp [ih.2.1]
    · simp [ih.2.2 a ha]

theorem Iface.inheritLoop_derived {hid : Iface → Nat} {name : Nat} (rest : List Iface) :
    ∀ (i c : Iface), i.WF → (∀ j ∈ rest, j.WF) → Iface.inheritLoop hid name i rest = .ok c →
      (∀ p, Iface.Derived hid i p → Iface.Derived hid c p) ∧ (∀ p ∈ rest, Iface.Derived hid c p) ∧
        (rest ≠ [] → Iface.Derived hid c i) := by
  induction rest with
  | nil =>
    intro i c _ _ h
    simp only [Iface.inheritLoop, Except.ok.injEq] at h
    subst h
    exact ⟨fun _ h => h, by simp, by simp⟩
  | cons e rest ih =>
    intro i c hi hr h
    simp only [Iface.inheritLoop] at h
    split at h
    · rename_i i' hx
      have he := hr e (by simp)
      have hi' := (Iface.extended_ok hx).wf hi he
      obtain ⟨h1, h2, _⟩ := ih i' c hi' (fun j hj => hr j (by simp [hj])) h
      have hself : Iface.Derived hid c i := h1 i (.base hi he hx)
      refine ⟨fun p hp => h1 p (.baseTrans hp he hx), ?_, fun _ => hself⟩
      intro p hp
      rcases List.mem_cons.mp hp with rfl | hp
      · exact h1 p (.ext he hi hx)
      · exact h2 p hp
    · cases h

/-- What the extending interface defines is what the result has. -/
theorem mergeShown {hid : Iface → Nat} {p e c : Iface} {name : Nat} (h : p.extended hid e name = .ok c) (he : e.WF) :
    (∀ n b, OMap.get? e.assignments n = some b → OMap.get? c.assignments n = some b) ∧
    (∀ n b, OMap.get? e.globalState n = some b → OMap.get? c.globalState n = some b) ∧
    (∀ n b, OMap.get? e.valencies n = some b → OMap.get? c.valencies n = some b) ∧
    (∀ n b, OMap.get? e.genesis.assignments n = some b → OMap.get? c.genesis.assignments n = some b) := by
  simp only [Iface.extended] at h
  split at h
  · rename_i gen inh hg hi
    split at h
    · rename_i hn
      simp only [Except.ok.injEq] at h
      subst h
      simp only [Iface.extErrors, List.append_eq_nil_iff] at hn
      obtain ⟨⟨⟨⟨⟨⟨⟨⟨⟨-, hG⟩, hA⟩, hV⟩, -⟩, -⟩, -⟩, -⟩, -⟩, -⟩ := hn
      refine ⟨mergeLoop_ext _ _ _ _ he.assignments.nodup hA, mergeLoop_ext _ _ _ _ he.globals.nodup hG,
        mergeLoop_ext _ _ _ _ he.valencies.nodup hV, ?_⟩
      simp only [OpIface.extended] at hg
      split at hg
      · rename_i ho
        simp only [Except.ok.injEq] at hg
        subst hg
        simp only [OpIface.extErrors, List.append_eq_nil_iff] at ho
        obtain ⟨⟨⟨⟨⟨⟨⟨-, -⟩, hO⟩, -⟩, -⟩, -⟩, -⟩, -⟩ := ho
        exact mergeLoop_ext _ _ _ _ he.genesis.assignments.nodup (by assumption)
      · cases hg
    · cases h
  · cases h

end Rgb
