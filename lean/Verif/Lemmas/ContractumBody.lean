import Verif.Lemmas.Contractum

/-! The parts of the text of an interface are taken apart one after the other. -/

namespace Rgb.Contractum

variable {N : Env}

theorem colon_head (t : Text) : ∀ c, (": ".toList ++ t).head? = some c → ¬ IdChar c := by simp [IdChar]

theorem nil_head : ∀ c, ([] : Text).head? = some c → ¬ IdChar c := by simp

theorem heads_blank {ts : List Text} {b : Bool} {u : List Text} (hu : Heads ts u) : Heads ([] :: ts) (lineIf b [] ++ u) :=
  heads_append (heads_lineIf (by simp)) (fun l hl => List.mem_cons_of_mem _ (hu l hl))

theorem metaLines_unique (hN : N.Lawful) {x y : Iface} {u v : List Text} {ts : List Text} (ht : "\tme".toList ∉ ts) (hu : Heads ts u) (hv : Heads ts v)
    (h : metaLines N x ++ u = metaLines N y ++ v) : x.metadata = y.metadata ∧ u = v := by
  unfold metaLines at h
  rw [List.append_assoc, List.append_assoc] at h
  obtain ⟨h1, h2⟩ := map_unique (R := fun a b => a = b) (tag := fun t => t = "\tme".toList) (ts := [] :: ts) (fun a => by rfl) (fun a => by rfl)
    (fun t hm he => by
      subst he
      rcases List.mem_cons.1 hm with h | h
      · exact absurd h (by decide)
      · exact ht h) (heads_blank hu) (heads_blank hv) (by
    intro a _ b _ he
    simp only [List.append_assoc] at he
    obtain ⟨h3, h4⟩ := name_unique hN (List.append_cancel_left he) (colon_head _) (colon_head _)
    exact Prod.ext h3 (metaType_unique hN (List.append_cancel_left h4))) h
  exact ⟨pointwise_eq h1, blank_unique h1 h2⟩

theorem globalLines_unique (hN : N.Lawful) {x y : Iface} {u v : List Text} (h : globalLines N x ++ u = globalLines N y ++ v) : x.globalState = y.globalState ∧ u = v := by
  unfold globalLines at h
  rw [List.append_assoc, List.append_assoc] at h
  obtain ⟨h1, h2⟩ := map_unique (R := fun a b => a = b) (tag := fun t => t = "\tgl".toList) (ts := [[]]) (fun a => by rfl) (fun a => by rfl)
    (by simp) (by simp [Heads]) (by simp [Heads]) (by
    intro a _ b _ he
    simp only [List.append_assoc] at he
    obtain ⟨h3, h4⟩ := name_unique hN (List.append_cancel_left he) (sugar_head _ _ _) (sugar_head _ _ _)
    obtain ⟨h5, h6, h7⟩ := sugar_unique h4
    have h8 := globalType_unique hN h7
    obtain ⟨n, g⟩ := a; obtain ⟨m, g'⟩ := b; cases g; cases g'; simp_all) h
  exact ⟨pointwise_eq h1, by simpa using h2⟩

theorem pub_tag (p : Bool) (t : Text) : ('\t' :: ((if p then "public ".toList else "owned ".toList) ++ t)).take 3 = "\tpu".toList ∨
    ('\t' :: ((if p then "public ".toList else "owned ".toList) ++ t)).take 3 = "\tow".toList := by
  cases p
  · exact .inr rfl
  · exact .inl rfl

theorem pub_unique {p q : Bool} {s t : Text} (h : '\t' :: ((if p then "public ".toList else "owned ".toList) ++ s) = '\t' :: ((if q then "public ".toList else "owned ".toList) ++ t)) :
    p = q ∧ s = t := by
  have h := (List.cons.inj h).2
  cases p <;> cases q
  · exact ⟨rfl, List.append_cancel_left (as := "owned ".toList) h⟩
  · exact absurd (List.cons.inj h).1 (by decide : 'o' ≠ 'p')
  · exact absurd (List.cons.inj h).1 (by decide : 'p' ≠ 'o')
  · exact ⟨rfl, List.append_cancel_left (as := "public ".toList) h⟩

theorem assignLine_unique (hN : N.Lawful) {a b : Nat × AssignIface}
    (h : N.name a.1 ++ (sugar a.2.required a.2.multiple ++ (": ".toList ++ ownedText N a.2.ownedState)) =
      N.name b.1 ++ (sugar b.2.required b.2.multiple ++ (": ".toList ++ ownedText N b.2.ownedState))) (hp : a.2.pub = b.2.pub) : a = b := by
  obtain ⟨h3, h4⟩ := name_unique hN h (sugar_head _ _ _) (sugar_head _ _ _)
  obtain ⟨h5, h6, h7⟩ := sugar_unique h4
  have h8 := ownedText_unique hN h7
  obtain ⟨n, g⟩ := a
  obtain ⟨m, g'⟩ := b
  cases g
  cases g'
  simp only at h3 h5 h6 h8 hp
  rw [h3, h5, h6, h8, hp]

theorem assignLines_unique (hN : N.Lawful) {x y : Iface} {u v : List Text} {ts : List Text} (ht : "\tpu".toList ∉ ts ∧ "\tow".toList ∉ ts) (hu : Heads ts u)
    (hv : Heads ts v) (h : assignLines N x ++ u = assignLines N y ++ v) : x.assignments = y.assignments ∧ u = v := by
  unfold assignLines at h
  simp only [List.append_assoc, List.cons_append] at h
  obtain ⟨h1, h2⟩ := map_unique (R := fun a b => a = b) (tag := fun t => t = "\tpu".toList ∨ t = "\tow".toList) (ts := [] :: ts)
    (fun a => pub_tag _ _) (fun a => pub_tag _ _)
    (fun t hm he => by
      rcases List.mem_cons.1 hm with h | h
      · subst h; rcases he with h | h <;> exact absurd h (by decide)
      · rcases he with h' | h' <;> subst h'
        · exact ht.1 h
        · exact ht.2 h) (heads_blank hu) (heads_blank hv)
    (fun a _ b _ he => assignLine_unique hN (pub_unique he).2 (pub_unique he).1) h
  exact ⟨pointwise_eq h1, blank_unique h1 h2⟩

theorem valencyLines_unique (hN : N.Lawful) {x y : Iface} {u v : List Text} {ts : List Text} (ht : "\tva".toList ∉ ts) (hu : Heads ts u) (hv : Heads ts v)
    (h : valencyLines N x ++ u = valencyLines N y ++ v) : x.valencies = y.valencies ∧ u = v := by
  unfold valencyLines at h
  rw [List.append_assoc, List.append_assoc] at h
  obtain ⟨h1, h2⟩ := map_unique (R := fun a b => a = b) (tag := fun t => t = "\tva".toList) (ts := [] :: ts) (fun a => by rfl) (fun a => by rfl)
    (fun t hm he => by
      subst he
      rcases List.mem_cons.1 hm with h | h
      · exact absurd h (by decide)
      · exact ht h) (heads_blank hu) (heads_blank hv) (by
    intro a _ b _ he
    have hh : ∀ (e : Bool), ∀ c, (if e then [] else "(?)".toList : Text).head? = some c → ¬ IdChar c := fun e => by cases e <;> simp [IdChar]
    have he : "\tvalency ".toList ++ (N.name a.1 ++ (if a.2 then [] else "(?)".toList)) = "\tvalency ".toList ++ (N.name b.1 ++ (if b.2 then [] else "(?)".toList)) := by
      simpa only [List.append_assoc] using he
    obtain ⟨h3, h4⟩ := name_unique hN (List.append_cancel_left he) (hh _) (hh _)
    refine Prod.ext h3 ?_
    cases ha : a.2 <;> cases hb : b.2 <;> simp [ha, hb] at h4 ⊢) h
  exact ⟨pointwise_eq h1, blank_unique h1 h2⟩

theorem errorLines_unique (hN : N.Lawful) {x y : Iface} {u v : List Text} {ts : List Text} (ht : "\ter".toList ∉ ts) (hu : Heads ts u) (hv : Heads ts v)
    (h : errorLines N x ++ u = errorLines N y ++ v) : SameErrors N x.errors y.errors ∧ u = v := by
  unfold errorLines at h
  rw [List.append_assoc, List.append_assoc] at h
  obtain ⟨h1, h2⟩ := flatMap_unique (R := fun e e' => e.1 = e'.1 ∧ N.descr e.2 = N.descr e'.2) (tag := fun t => t = "\ter".toList) (ts := [] :: ts)
    (fun a => ⟨_, _, rfl, by rfl⟩) (fun a => ⟨_, _, rfl, by rfl⟩)
    (fun t hm he => by
      subst he
      rcases List.mem_cons.1 hm with h | h
      · exact absurd h (by decide)
      · exact ht h) (heads_blank hu) (heads_blank hv) (by
    intro a _ b _ p q he
    simp only [List.cons_append, List.nil_append, List.cons.injEq] at he
    obtain ⟨he1, he2, he3⟩ := he
    refine ⟨⟨hN.name_inj _ _ (List.append_cancel_left he1), ?_⟩, he3⟩
    exact List.append_cancel_left (List.append_cancel_right he2)) h
  exact ⟨h1, blank_unique h1 h2⟩

theorem opLines_unique (hN : N.Lawful) {s t : OpIface} {u v : List Text} {ts : List Text}
    (ht : "\t\te".toList ∉ ts ∧ "\t\tm".toList ∉ ts ∧ "\t\tg".toList ∉ ts ∧ "\t\tv".toList ∉ ts ∧ "\t\ta".toList ∉ ts) (hu : Heads ts u) (hv : Heads ts v)
    (h : opLines N s ++ u = opLines N t ++ v) (hm : s.modifier = t.modifier) : SameOp N s t ∧ u = v := by
  unfold opLines at h
  simp only [List.append_assoc] at h
  have up : ∀ {a : Text} {as ls : List Text}, Heads as ls → Heads (a :: as) ls := fun h l hl => List.mem_cons_of_mem _ (h l hl)
  have a1 : ∀ {w : List Text} (r : OpIface), Heads ts w → Heads ("\t\ta".toList :: ts) (lineIf (!r.assignments.isEmpty) ("\t\tassigns: ".toList ++ argMap N r.assignments) ++ w) :=
    fun r hw => heads_append (heads_lineIf (List.mem_cons.2 (.inl (by rfl)))) (up hw)
  have a2 : ∀ {w : List Text} (r : OpIface), Heads ts w → Heads ("\t\tv".toList :: "\t\ta".toList :: ts) (lineIf (!r.valencies.isEmpty) ("\t\tvalencies: ".toList ++ namesText N r.valencies) ++
      (lineIf (!r.assignments.isEmpty) ("\t\tassigns: ".toList ++ argMap N r.assignments) ++ w)) :=
    fun r hw => heads_append (heads_lineIf (List.mem_cons.2 (.inl (by rfl)))) (up (a1 r hw))
  have a3 : ∀ {w : List Text} (r : OpIface), Heads ts w → Heads ("\t\tg".toList :: "\t\tv".toList :: "\t\ta".toList :: ts) (lineIf (!r.globals.isEmpty) ("\t\tglobals: ".toList ++ argMap N r.globals) ++
      (lineIf (!r.valencies.isEmpty) ("\t\tvalencies: ".toList ++ namesText N r.valencies) ++
      (lineIf (!r.assignments.isEmpty) ("\t\tassigns: ".toList ++ argMap N r.assignments) ++ w))) :=
    fun r hw => heads_append (heads_lineIf (List.mem_cons.2 (.inl (by rfl)))) (up (a2 r hw))
  have a4 : ∀ {w : List Text} (r : OpIface), Heads ts w → Heads ("\t\tm".toList :: "\t\tg".toList :: "\t\tv".toList :: "\t\ta".toList :: ts)
      (lineIf (!r.metadata.isEmpty) ("\t\tmeta: ".toList ++ namesText N r.metadata) ++ (lineIf (!r.globals.isEmpty) ("\t\tglobals: ".toList ++ argMap N r.globals) ++
      (lineIf (!r.valencies.isEmpty) ("\t\tvalencies: ".toList ++ namesText N r.valencies) ++
      (lineIf (!r.assignments.isEmpty) ("\t\tassigns: ".toList ++ argMap N r.assignments) ++ w)))) :=
    fun r hw => heads_append (heads_lineIf (List.mem_cons.2 (.inl (by rfl)))) (up (a3 r hw))
  have fresh : ∀ {a b : Text} {as : List Text}, a ≠ b → a ∉ as → a ∉ b :: as := fun h1 h2 hm => by
    rcases List.mem_cons.1 hm with h | h
    · exact h1 h
    · exact h2 h
  obtain ⟨e1, e2, h⟩ := lineIf_unique (tag := "\t\te".toList) (fun t => by rfl)
    (fresh (by decide) (fresh (by decide) (fresh (by decide) (fresh (by decide) ht.1)))) (a4 s hu) (a4 t hv) h
  obtain ⟨m1, m2, h⟩ := lineIf_unique (tag := "\t\tm".toList) (fun t => by rfl) (fresh (by decide) (fresh (by decide) (fresh (by decide) ht.2.1))) (a3 s hu) (a3 t hv) h
  obtain ⟨g1, g2, h⟩ := lineIf_unique (tag := "\t\tg".toList) (fun t => by rfl) (fresh (by decide) (fresh (by decide) ht.2.2.1)) (a2 s hu) (a2 t hv) h
  obtain ⟨v1, v2, h⟩ := lineIf_unique (tag := "\t\tv".toList) (fun t => by rfl) (fresh (by decide) ht.2.2.2.1) (a1 s hu) (a1 t hv) h
  obtain ⟨s1, s2, h⟩ := lineIf_unique (tag := "\t\ta".toList) (fun t => by rfl) ht.2.2.2.2 hu hv h
  have names : ∀ {l m : List Nat}, (!l.isEmpty) = (!m.isEmpty) → ((!l.isEmpty) = true → namesText N l = namesText N m) → l = m := fun {l m} h1 h2 => by
    cases l with
    | nil => cases m with
      | nil => rfl
      | cons b m => simp at h1
    | cons a l => exact names_unique hN (h2 rfl)
  have args : ∀ {l m : OMap Nat Occ}, (!l.isEmpty) = (!m.isEmpty) → ((!l.isEmpty) = true → argMap N l = argMap N m) → SameArgs N l m := fun {l m} h1 h2 => by
    cases l with
    | nil => cases m with
      | nil => exact pointwise_nil
      | cons b m => simp at h1
    | cons a l => exact args_unique hN (h2 rfl)
  exact ⟨⟨hm, names e1 e2, names m1 m2, args g1 g2, names v1 v2, args s1 s2⟩, h⟩

end Rgb.Contractum
