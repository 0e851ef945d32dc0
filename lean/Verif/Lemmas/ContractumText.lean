import Verif.Lemmas.ContractumBody

/-! The operations, the heading, and the whole text of an interface. -/

namespace Rgb.Contractum

variable {N : Env}

/-- The words after the name of an operation. -/
def words (m : Modifier) (optional dflt : Bool) : Text :=
  commaSep ((if optional then [] else ["required".toList]) ++ (if dflt then ["default".toList] else []) ++ [modifierText m])

theorem words_unique : ∀ {m m' : Modifier} {o d o' d' : Bool}, words m o d = words m' o' d' → m = m' ∧ o = o' ∧ d = d' := by
  intro m m' o d o' d'
  cases m <;> cases m' <;> revert o d o' d' <;> decide

theorem words_line (m : Modifier) (o d : Bool) : '\n' ∉ words m o d := by
  cases m <;> revert o d <;> decide

theorem opsugar_some (pred : Text) (n : Nat) (m : Modifier) (o d : Bool) :
    opsugar N pred (some n) m o d = '\t' :: (pred ++ (' ' :: (N.name n ++ (": ".toList ++ words m o d)))) := by
  simp only [opsugar, words, List.cons_append, List.append_assoc]

theorem opsugar_none (pred : Text) (m : Modifier) (o d : Bool) : opsugar N pred none m o d = '\t' :: (pred ++ (": ".toList ++ words m o d)) := by
  simp only [opsugar, words, List.cons_append, List.append_assoc, List.nil_append]

theorem opsugar_unique (hN : N.Lawful) {pred : Text} {n n' : Nat} {m m' : Modifier} {o d o' d' : Bool}
    (h : opsugar N pred (some n) m o d = opsugar N pred (some n') m' o' d') : n = n' ∧ m = m' ∧ o = o' ∧ d = d' := by
  rw [opsugar_some, opsugar_some] at h
  have h := (List.cons.inj (List.append_cancel_left (List.cons.inj h).2)).2
  obtain ⟨h1, h2⟩ := name_unique hN h (colon_head _) (colon_head _)
  exact ⟨h1, words_unique (List.append_cancel_left h2)⟩

theorem genesisLines_unique (hN : N.Lawful) {x y : Iface} {u v : List Text} (h : genesisLines N x ++ u = genesisLines N y ++ v) :
    SameOp N x.genesis y.genesis ∧ u = v := by
  unfold genesisLines at h
  simp only [List.cons_append, List.append_assoc] at h
  obtain ⟨h1, h2⟩ := List.cons.inj h
  rw [opsugar_none, opsugar_none] at h1
  have h4 := (words_unique (List.append_cancel_left (List.append_cancel_left (List.cons.inj h1).2))).1
  obtain ⟨h5, h6⟩ := opLines_unique hN (ts := [[]]) (by decide) (by simp [Heads]) (by simp [Heads]) h2 h4
  exact ⟨h5, by simpa using h6⟩

theorem defaultLine_unique (hN : N.Lawful) {a b : Option Nat} {u v : List Text} {ts : List Text} (ht : "\t\td".toList ∉ ts) (hu : Heads ts u) (hv : Heads ts v)
    (h : defaultLine N a ++ u = defaultLine N b ++ v) : a = b ∧ u = v := by
  cases a with
  | none =>
    cases b with
    | none => exact ⟨rfl, h⟩
    | some d =>
      exact absurd (hu ("\t\tdefault: ".toList ++ N.name d) (by
        have : u = ("\t\tdefault: ".toList ++ N.name d) :: v := h
        rw [this]; rfl)) ht
  | some c =>
    cases b with
    | none =>
      exact absurd (hv ("\t\tdefault: ".toList ++ N.name c) (by
        have : ("\t\tdefault: ".toList ++ N.name c) :: u = v := h
        rw [← this]; rfl)) ht
    | some d =>
      have h := List.cons.inj (h : ("\t\tdefault: ".toList ++ N.name c) :: u = ("\t\tdefault: ".toList ++ N.name d) :: v)
      exact ⟨by rw [hN.name_inj _ _ (List.append_cancel_left h.1)], h.2⟩

theorem heads_default {a : Option Nat} {u : List Text} {ts : List Text} (hu : Heads ts u) : Heads ("\t\td".toList :: ts) (defaultLine N a ++ u) := by
  refine heads_append ?_ (fun l hl => List.mem_cons_of_mem _ (hu l hl))
  cases a with
  | none => intro l hl; simp [defaultLine] at hl
  | some d =>
    intro l hl
    have : l = "\t\tdefault: ".toList ++ N.name d := by simpa [defaultLine, eq_comm] using hl
    subst this
    exact List.mem_cons.2 (.inl (by rfl))

theorem transition_unique (hN : N.Lawful) {x y : Iface} {a b : Nat × OpIface} {u v : List Text} (h : transitionLines N x a.1 a.2 ++ u = transitionLines N y b.1 b.2 ++ v) :
    (a.1 = b.1 ∧ SameTransition N a.2 b.2 ∧ (x.defaultOperation = some a.1 ↔ y.defaultOperation = some b.1)) ∧ u = v := by
  unfold transitionLines at h
  simp only [List.cons_append, List.append_assoc, List.nil_append] at h
  obtain ⟨h1, h2⟩ := List.cons.inj h
  obtain ⟨n1, m1, o1, d1⟩ := opsugar_unique hN h1
  have hi : ∀ (r : OpIface) (w : List Text), Heads ["\t\ti".toList] (("\t\tinputs: ".toList ++ argMap N r.inputs) :: [] :: w) := fun r w l hl => by
    have : "\t\tinputs: ".toList ++ argMap N r.inputs = l := by simpa using hl
    subst this
    exact List.mem_cons.2 (.inl (by rfl))
  obtain ⟨h3, h4⟩ := opLines_unique hN (ts := ["\t\td".toList, "\t\ti".toList]) (by decide) (heads_default (hi _ _)) (heads_default (hi _ _)) h2 m1
  obtain ⟨h5, h6⟩ := defaultLine_unique hN (ts := ["\t\ti".toList]) (by decide) (hi _ _) (hi _ _) h4
  obtain ⟨h7, h8⟩ := List.cons.inj h6
  exact ⟨⟨n1, { h3 with optional := o1, defaultAssignment := h5, inputs := args_unique hN (List.append_cancel_left h7) }, by simpa using d1⟩, (List.cons.inj h8).2⟩

theorem extension_unique (hN : N.Lawful) {x y : Iface} {a b : Nat × OpIface} {u v : List Text} (h : extensionLines N x a.1 a.2 ++ u = extensionLines N y b.1 b.2 ++ v) :
    (a.1 = b.1 ∧ SameExtension N a.2 b.2 ∧ (x.defaultOperation = some a.1 ↔ y.defaultOperation = some b.1)) ∧ u = v := by
  unfold extensionLines at h
  simp only [List.cons_append, List.append_assoc, List.nil_append] at h
  obtain ⟨h1, h2⟩ := List.cons.inj h
  obtain ⟨n1, m1, o1, d1⟩ := opsugar_unique hN h1
  have hi : ∀ (r : OpIface) (w : List Text), Heads ["\t\tr".toList] (("\t\tredeems: ".toList ++ namesText N r.redeems) :: [] :: w) := fun r w l hl => by
    have : "\t\tredeems: ".toList ++ namesText N r.redeems = l := by simpa using hl
    subst this
    exact List.mem_cons.2 (.inl (by rfl))
  obtain ⟨h3, h4⟩ := opLines_unique hN (ts := ["\t\td".toList, "\t\tr".toList]) (by decide) (heads_default (hi _ _)) (heads_default (hi _ _)) h2 m1
  obtain ⟨h5, h6⟩ := defaultLine_unique hN (ts := ["\t\tr".toList]) (by decide) (hi _ _) (hi _ _) h4
  obtain ⟨h7, h8⟩ := List.cons.inj h6
  exact ⟨⟨n1, { h3 with optional := o1, defaultAssignment := h5, redeems := names_unique hN (List.append_cancel_left h7) }, by simpa using d1⟩, (List.cons.inj h8).2⟩

/-! ## The body -/

theorem heads_transitions (x : Iface) : Heads ["\ttr".toList] (x.transitions.flatMap (fun e => transitionLines N x e.1 e.2)) :=
  heads_flatMap (fun a l hl => by
    have : opsugar N "transition".toList (some a.1) a.2.modifier a.2.optional (x.defaultOperation = some a.1) = l := by simpa [transitionLines] using hl
    rw [opsugar_some] at this
    subst this
    exact List.mem_cons.2 (.inl (by rfl)))

theorem heads_extensions (x : Iface) : Heads ["\tex".toList] (x.extensions.flatMap (fun e => extensionLines N x e.1 e.2)) :=
  heads_flatMap (fun a l hl => by
    have : opsugar N "extension".toList (some a.1) a.2.modifier a.2.optional (x.defaultOperation = some a.1) = l := by simpa [extensionLines] using hl
    rw [opsugar_some] at this
    subst this
    exact List.mem_cons.2 (.inl (by rfl)))

theorem heads_genesis (x : Iface) (w : List Text) : Heads ["\tge".toList] (genesisLines N x ++ w) := by
  intro l hl
  have : opsugar N "genesis".toList none x.genesis.modifier true false = l := by simpa [genesisLines] using hl
  subst this
  exact List.mem_cons.2 (.inl (by rfl))

theorem heads_mono {ts ts' : List Text} {l : List Text} (h : Heads ts l) (hs : ∀ t ∈ ts, t ∈ ts') : Heads ts' l := fun a ha => hs _ (h a ha)

theorem heads_errors (x : Iface) {w : List Text} {ts : List Text} (hw : Heads ts w) : Heads ([] :: "\ter".toList :: ts) (errorLines N x ++ w) := by
  unfold errorLines
  rw [List.append_assoc]
  refine heads_append (heads_flatMap (fun a l hl => ?_)) (heads_mono (heads_blank hw) (by simp +contextual))
  have : "\terror ".toList ++ N.name a.1 = l := by simpa using hl
  subst this
  exact List.mem_cons_of_mem _ (List.mem_cons.2 (.inl (by rfl)))

theorem heads_valencies (x : Iface) {w : List Text} {ts : List Text} (hw : Heads ts w) : Heads ([] :: "\tva".toList :: ts) (valencyLines N x ++ w) := by
  unfold valencyLines
  rw [List.append_assoc]
  exact heads_append (heads_map (fun a => List.mem_cons_of_mem _ (List.mem_cons.2 (.inl (by rfl))))) (heads_mono (heads_blank hw) (by simp +contextual))

theorem heads_globals (x : Iface) (w : List Text) : Heads [[], "\tgl".toList] (globalLines N x ++ w) := by
  unfold globalLines
  rw [List.append_assoc]
  exact heads_append (heads_map (fun a => List.mem_cons_of_mem _ (List.mem_cons.2 (.inl (by rfl))))) (by simp [Heads])

/-- Everything after the heading. -/
structure SameBody (N : Env) (x y : Iface) : Prop where
  metadata : x.metadata = y.metadata
  globalState : x.globalState = y.globalState
  assignments : x.assignments = y.assignments
  valencies : x.valencies = y.valencies
  errors : SameErrors N x.errors y.errors
  genesis : SameOp N x.genesis y.genesis
  transitions : Pointwise (fun e e' => e.1 = e'.1 ∧ SameTransition N e.2 e'.2 ∧ (x.defaultOperation = some e.1 ↔ y.defaultOperation = some e'.1)) x.transitions y.transitions
  extensions : Pointwise (fun e e' => e.1 = e'.1 ∧ SameExtension N e.2 e'.2 ∧ (x.defaultOperation = some e.1 ↔ y.defaultOperation = some e'.1)) x.extensions y.extensions

theorem body_unique (hN : N.Lawful) {x y : Iface} (h : bodyLines N x = bodyLines N y) : SameBody N x y := by
  unfold bodyLines at h
  obtain ⟨h1, h⟩ := metaLines_unique hN (ts := [[], "\tgl".toList]) (by decide) (heads_globals x _) (heads_globals y _) h
  obtain ⟨h2, h⟩ := globalLines_unique hN h
  have hv := fun (z : Iface) (w : List Text) => heads_valencies (N := N) z (heads_errors (N := N) z (heads_genesis (N := N) z w))
  obtain ⟨h3, h⟩ := assignLines_unique hN (by decide) (hv x _) (hv y _) h
  have he := fun (z : Iface) (w : List Text) => heads_errors (N := N) z (heads_genesis (N := N) z w)
  obtain ⟨h4, h⟩ := valencyLines_unique hN (by decide) (he x _) (he y _) h
  obtain ⟨h5, h⟩ := errorLines_unique hN (by decide) (heads_genesis x _) (heads_genesis y _) h
  obtain ⟨h6, h⟩ := genesisLines_unique hN h
  obtain ⟨h7, h⟩ := flatMap_unique (f := fun e : Nat × OpIface => transitionLines N x e.1 e.2) (g := fun e : Nat × OpIface => transitionLines N y e.1 e.2)
    (R := fun e e' => e.1 = e'.1 ∧ SameTransition N e.2 e'.2 ∧ (x.defaultOperation = some e.1 ↔ y.defaultOperation = some e'.1))
    (tag := fun t => t = "\ttr".toList) (ts := ["\tex".toList])
    (fun a => ⟨_, _, rfl, by rw [opsugar_some]; rfl⟩) (fun a => ⟨_, _, rfl, by rw [opsugar_some]; rfl⟩) (by simp) (heads_extensions x) (heads_extensions y)
    (fun a _ b _ u v hab => transition_unique hN hab) h
  have h : x.extensions.flatMap (fun e => extensionLines N x e.1 e.2) ++ [] = y.extensions.flatMap (fun e => extensionLines N y e.1 e.2) ++ [] := by simpa using h
  obtain ⟨h8, _⟩ := flatMap_unique (f := fun e : Nat × OpIface => extensionLines N x e.1 e.2) (g := fun e : Nat × OpIface => extensionLines N y e.1 e.2)
    (R := fun e e' => e.1 = e'.1 ∧ SameExtension N e.2 e'.2 ∧ (x.defaultOperation = some e.1 ↔ y.defaultOperation = some e'.1))
    (tag := fun t => t = "\tex".toList) (ts := [])
    (fun a => ⟨_, _, rfl, by rw [opsugar_some]; rfl⟩) (fun a => ⟨_, _, rfl, by rw [opsugar_some]; rfl⟩) (by simp) (by simp [Heads]) (by simp [Heads])
    (fun a _ b _ u v hab => extension_unique hN hab) h
  exact ⟨h1, h2, h3, h4, h5, h6, h7, h8⟩

/-! ## No line breaks within lines -/

theorem commaSep_line {d : Char} (h1 : d ≠ ',') (h2 : d ≠ ' ') : ∀ {ps : List Text}, (∀ p ∈ ps, d ∉ p) → d ∉ commaSep ps
  | [], _ => by simp [commaSep]
  | [p], h => h p (by simp)
  | p :: q :: ps, h => by
    have := commaSep_line h1 h2 (ps := q :: ps) (fun r hr => h r (List.mem_cons_of_mem _ hr))
    simp only [commaSep, List.mem_append, not_or]
    exact ⟨⟨h p (by simp), by simp [h1, h2]⟩, this⟩

/-- Texts without line breaks. -/
def Line (t : Text) : Prop := '\n' ∉ t

theorem line_append {a b : Text} (ha : Line a) (hb : Line b) : Line (a ++ b) := by
  unfold Line at *
  rw [List.mem_append, not_or]
  exact ⟨ha, hb⟩

theorem line_cons {c : Char} {a : Text} (hc : c ≠ '\n') (ha : Line a) : Line (c :: a) := by
  unfold Line at *
  rw [List.mem_cons, not_or]
  exact ⟨fun h => hc h.symm, ha⟩

theorem line_nil : Line [] := by simp [Line]

theorem line_name (hN : N.Lawful) (n : Nat) : Line (N.name n) := hN.name_not n '\n' (by decide) (by decide)

theorem line_names (hN : N.Lawful) (s : List Nat) : Line (namesText N s) :=
  commaSep_line (by decide) (by decide) (fun p hp => by
    obtain ⟨n, _, rfl⟩ := List.mem_map.1 hp
    exact line_name hN n)

theorem line_args (hN : N.Lawful) (s : OMap Nat Occ) : Line (argMap N s) :=
  commaSep_line (by decide) (by decide) (fun p hp => by
    obtain ⟨e, _, rfl⟩ := List.mem_map.1 hp
    exact line_append (line_name hN e.1) (occText_not _ _ (.inr rfl)))

theorem line_resolve (hN : N.Lawful) (i : Nat) : Line (resolve N i) := by
  unfold resolve
  cases h : N.lookup i with
  | some t => exact (hN.lookup_char i t h).2.2
  | none => exact line_append (hN.semShort_line i) (by unfold Line; decide)

theorem line_sugar (a b : Bool) : Line (sugar a b) := by unfold Line; revert a b; decide

theorem line_owned (hN : N.Lawful) (k : OwnedIface) : Line (ownedText N k) := by
  cases k with
  | data n => exact line_resolve hN n
  | any => exact (by decide : '\n' ∉ "AnyType".toList)
  | amount => exact (by decide : '\n' ∉ "Zk64".toList)
  | anyData => exact (by decide : '\n' ∉ "Any".toList)
  | anyAttach => exact (by decide : '\n' ∉ "AnyAttachment".toList)
  | rights => exact (by decide : '\n' ∉ "Rights".toList)

/-- Lists of lines. -/
def Lines (l : List Text) : Prop := ∀ a ∈ l, Line a

theorem lines_append {a b : List Text} (ha : Lines a) (hb : Lines b) : Lines (a ++ b) := fun l hl => by
  rcases List.mem_append.1 hl with h | h
  · exact ha l h
  · exact hb l h

theorem lines_cons {a : Text} {b : List Text} (ha : Line a) (hb : Lines b) : Lines (a :: b) := fun l hl => by
  rcases List.mem_cons.1 hl with h | h
  · exact h ▸ ha
  · exact hb l h

theorem lines_nil : Lines [] := fun l hl => by simp at hl

theorem lines_map {α : Type} {f : α → Text} {l : List α} (h : ∀ a ∈ l, Line (f a)) : Lines (l.map f) := fun t ht => by
  obtain ⟨a, ha, rfl⟩ := List.mem_map.1 ht
  exact h a ha

theorem lines_flatMap {α : Type} {f : α → List Text} {l : List α} (h : ∀ a ∈ l, Lines (f a)) : Lines (l.flatMap f) := fun t ht => by
  obtain ⟨a, ha, ht⟩ := List.mem_flatMap.1 ht
  exact h a ha t ht

theorem lines_lineIf {b : Bool} {l : Text} (h : Line l) : Lines (lineIf b l) := by
  cases b
  · exact lines_nil
  · exact lines_cons h lines_nil

theorem lines_op (hN : N.Lawful) (t : OpIface) : Lines (opLines N t) := by
  unfold opLines
  refine lines_append (lines_append (lines_append (lines_append ?_ ?_) ?_) ?_) ?_ <;> refine lines_lineIf (line_append (by unfold Line; decide) ?_)
  · exact line_names hN _
  · exact line_names hN _
  · exact line_args hN _
  · exact line_names hN _
  · exact line_args hN _

theorem line_opsugar (hN : N.Lawful) {pred : Text} (hp : Line pred) (n : Nat) (m : Modifier) (o d : Bool) : Line (opsugar N pred (some n) m o d) := by
  rw [opsugar_some]
  exact line_cons (by decide) (line_append hp (line_cons (by decide) (line_append (line_name hN n) (line_append (by unfold Line; decide) (words_line m o d)))))

theorem lines_default (hN : N.Lawful) (d : Option Nat) : Lines (defaultLine N d) := by
  cases d with
  | none => exact lines_nil
  | some d => exact lines_cons (line_append (by unfold Line; decide) (line_name hN d)) lines_nil

theorem lines_body (hN : N.Lawful) {x : Iface} (he : OneLineErrors N x) : Lines (bodyLines N x) := by
  unfold bodyLines
  refine lines_append ?_ (lines_append ?_ (lines_append ?_ (lines_append ?_ (lines_append ?_ (lines_append ?_ (lines_append ?_ ?_))))))
  · refine lines_append (lines_map (fun a _ => line_append (line_append (line_append (by unfold Line; decide) (line_name hN _)) (by unfold Line; decide)) ?_)) (lines_lineIf line_nil)
    cases h : N.lookup a.2 with
    | some t => exact (hN.lookup_char _ t h).2.2
    | none => exact line_append (hN.semFull_line _) (by unfold Line; decide)
  · refine lines_append (lines_map (fun a _ => line_append (line_append (line_append (line_append (by unfold Line; decide) (line_name hN _)) (line_sugar _ _))
      (by unfold Line; decide)) ?_)) (lines_cons line_nil lines_nil)
    cases a.2.semId with
    | some i => exact line_resolve hN i
    | none => exact (by decide : '\n' ∉ "Any".toList)
  · refine lines_append (lines_map (fun a _ => line_append (line_append (line_append (line_append ?_ (line_name hN _)) (line_sugar _ _))
      (by unfold Line; decide)) (line_owned hN _))) (lines_lineIf line_nil)
    unfold Line
    cases a.2.pub <;> decide
  · refine lines_append (lines_map (fun a _ => line_append (line_append (by unfold Line; decide) (line_name hN _)) ?_)) (lines_lineIf line_nil)
    unfold Line
    cases a.2 <;> decide
  · refine lines_append (lines_flatMap (fun a ha => lines_cons (line_append (by unfold Line; decide) (line_name hN _)) (lines_cons ?_ lines_nil))) (lines_lineIf line_nil)
    exact line_append (line_append (by unfold Line; decide) (he a ha)) (by unfold Line; decide)
  · unfold genesisLines
    refine lines_append (lines_cons ?_ (lines_op hN _)) (lines_cons line_nil lines_nil)
    rw [opsugar_none]
    exact line_cons (by decide) (line_append (by unfold Line; decide) (line_append (by unfold Line; decide) (words_line _ _ _)))
  · refine lines_flatMap (fun a _ => lines_append (lines_append (lines_cons (line_opsugar hN (by unfold Line; decide) _ _ _ _) (lines_op hN _)) (lines_default hN _)) ?_)
    exact lines_cons (line_append (by unfold Line; decide) (line_args hN _)) (lines_cons line_nil lines_nil)
  · refine lines_flatMap (fun a _ => lines_append (lines_append (lines_cons (line_opsugar hN (by unfold Line; decide) _ _ _ _) (lines_op hN _)) (lines_default hN _)) ?_)
    exact lines_cons (line_append (by unfold Line; decide) (line_names hN _)) (lines_cons line_nil lines_nil)

/-! ## The heading -/

theorem refOne_unique (hN : N.Lawful) (hD : N.DistinctExternals) {i j : Nat} {x y : Text} (hx : Stops x) (hy : Stops y) (h : refOne N i ++ x = refOne N j ++ y) :
    i = j ∧ x = y := by
  have hn : ∀ n, ',' ∉ N.name n ∧ '\n' ∉ N.name n := fun n => ⟨hN.name_not n ',' (by decide) (by decide), hN.name_not n '\n' (by decide) (by decide)⟩
  have hij : i = j := by
    unfold refOne at h
    cases hi : N.external i with
    | some a =>
      cases hj : N.external j with
      | some b =>
        simp only [hi, hj] at h
        have := hN.name_inj _ _ (key_unique h (hn a) (hn b) hx hy).1
        subst this
        exact hD _ _ _ hi hj
      | none =>
        simp only [hi, hj, List.append_assoc] at h
        exact absurd (key_unique h (hn a) (hN.refText_char j) hx (stops_line _)).1.symm (hN.refText_name _ _)
    | none =>
      cases hj : N.external j with
      | some b =>
        simp only [hi, hj, List.append_assoc] at h
        exact absurd (key_unique h (hN.refText_char i) (hn b) (stops_line _) hy).1 (hN.refText_name _ _)
      | none =>
        simp only [hi, hj, List.append_assoc] at h
        exact hN.refText_inj _ _ (key_unique h (hN.refText_char i) (hN.refText_char j) (stops_line _) (stops_line _)).1
  subst hij
  exact ⟨rfl, List.append_cancel_left h⟩

theorem headText_unique (hN : N.Lawful) (hD : N.DistinctExternals) {x y : Iface} {u v : Text} (h : headText N x ++ '\n' :: u = headText N y ++ '\n' :: v) :
    x.name = y.name ∧ x.inherits = y.inherits ∧ u = v := by
  have hl : ∀ (w : Text), Stops ('\n' :: w) := stops_line
  unfold headText at h
  simp only [List.append_assoc] at h
  have h := List.append_cancel_left h
  have hh : ∀ (z : Iface) (w : Text), ∀ c, ((if z.inherits.isEmpty then [] else ": ".toList ++ commaSep (z.inherits.map (refOne N))) ++ '\n' :: w).head? = some c → ¬ IdChar c := by
    intro z w c hc
    cases hz : z.inherits.isEmpty
    · have : ':' = c := by simpa [hz] using hc
      subst this; simp [IdChar]
    · have : '\n' = c := by simpa [hz] using hc
      subst this; simp [IdChar]
  obtain ⟨h1, h2⟩ := name_unique hN h (hh x u) (hh y v)
  refine ⟨h1, ?_⟩
  cases hx : x.inherits with
  | nil =>
    cases hy : y.inherits with
    | nil => simp [hx, hy] at h2; exact ⟨rfl, h2⟩
    | cons b m => simp [hx, hy] at h2
  | cons a l =>
    cases hy : y.inherits with
    | nil => simp [hx, hy] at h2
    | cons b m =>
      have h3 : ": ".toList ++ (commaSep ((a :: l).map (refOne N)) ++ '\n' :: u) = ": ".toList ++ (commaSep ((b :: m).map (refOne N)) ++ '\n' :: v) := by
        simpa only [hx, hy, List.isEmpty_cons, Bool.false_eq_true, if_false, List.append_assoc] using h2
      obtain ⟨h4, h5⟩ := commaSep_unique (R := fun i j => i = j) (by simp) (by simp) (hl u) (hl v)
        (fun c _ d _ p q hp hq he => refOne_unique hN hD hp hq he) (by simp) (by simp) (List.append_cancel_left h3)
      exact ⟨pointwise_eq h4, (List.cons.inj h5).2⟩

theorem annotations_unique (hN : N.Lawful) {x y : Iface} {u v : Text} (h : unlines (annotationLines N x) ++ u = unlines (annotationLines N y) ++ v) :
    x.version = y.version ∧ x.developer = y.developer ∧ x.timestamp = y.timestamp ∧ u = v := by
  have lv : ∀ z : Iface, '\n' ∉ "@version(".toList ++ N.version z.version ++ ")".toList := fun z =>
    line_append (line_append (by unfold Line; decide) (hN.version_line _)) (by unfold Line; decide)
  have li : ∀ z : Iface, '\n' ∉ "@id(".toList ++ N.ifaceId z ++ ")".toList := fun z =>
    line_append (line_append (by unfold Line; decide) (hN.ifaceId_line _)) (by unfold Line; decide)
  have ld : ∀ z : Iface, '\n' ∉ "@developer(\"".toList ++ N.developer z.developer ++ "\")".toList := fun z =>
    line_append (line_append (by unfold Line; decide) (hN.developer_line _)) (by unfold Line; decide)
  have lt : ∀ z : Iface, '\n' ∉ "@timestamp(".toList ++ showInt z.timestamp ++ ")".toList := fun z =>
    line_append (line_append (by unfold Line; decide) (showInt_not _ _ (by decide) (by decide))) (by unfold Line; decide)
  unfold annotationLines at h
  have h : ("@version(".toList ++ N.version x.version ++ ")".toList) ++ '\n' :: (("@id(".toList ++ N.ifaceId x ++ ")".toList) ++ '\n' ::
      (unlines (lineIf (!N.anonymous x.developer) ("@developer(\"".toList ++ N.developer x.developer ++ "\")".toList) ++
        ["@timestamp(".toList ++ showInt x.timestamp ++ ")".toList]) ++ u)) =
      ("@version(".toList ++ N.version y.version ++ ")".toList) ++ '\n' :: (("@id(".toList ++ N.ifaceId y ++ ")".toList) ++ '\n' ::
      (unlines (lineIf (!N.anonymous y.developer) ("@developer(\"".toList ++ N.developer y.developer ++ "\")".toList) ++
        ["@timestamp(".toList ++ showInt y.timestamp ++ ")".toList]) ++ v)) := by
    simpa only [unlines, List.append_assoc, List.cons_append, List.nil_append] using h
  obtain ⟨h1, h⟩ := line_unique h (lv x) (lv y)
  obtain ⟨_, h⟩ := line_unique h (li x) (li y)
  refine ⟨hN.version_inj _ _ (List.append_cancel_left (List.append_cancel_right h1)), ?_⟩
  have fin : ∀ {u v : Text}, ("@timestamp(".toList ++ showInt x.timestamp ++ ")".toList) ++ '\n' :: u = ("@timestamp(".toList ++ showInt y.timestamp ++ ")".toList) ++ '\n' :: v →
      x.timestamp = y.timestamp ∧ u = v := fun h => by
    obtain ⟨h1, h2⟩ := line_unique h (lt x) (lt y)
    exact ⟨showInt_injective (List.append_cancel_left (List.append_cancel_right h1)), h2⟩
  cases hx : N.anonymous x.developer <;> cases hy : N.anonymous y.developer <;> rw [hx, hy] at h <;>
    simp only [lineIf, Bool.not_true, Bool.not_false, Bool.false_eq_true, if_true, if_false, List.nil_append, List.cons_append, unlines, List.append_assoc] at h
  · have h : ("@developer(\"".toList ++ N.developer x.developer ++ "\")".toList) ++ '\n' :: (("@timestamp(".toList ++ showInt x.timestamp ++ ")".toList) ++ '\n' :: u) =
      ("@developer(\"".toList ++ N.developer y.developer ++ "\")".toList) ++ '\n' :: (("@timestamp(".toList ++ showInt y.timestamp ++ ")".toList) ++ '\n' :: v) := by
      simpa only [List.append_assoc, List.cons_append, List.nil_append] using h
    obtain ⟨h2, h3⟩ := line_unique h (ld x) (ld y)
    exact ⟨hN.developer_inj _ _ (List.append_cancel_left (List.append_cancel_right h2)), fin h3⟩
  · simp at h
  · simp at h
  · refine ⟨hN.anonymous _ _ hx hy, fin ?_⟩
    simpa only [List.append_assoc, List.cons_append, List.nil_append] using h

end Rgb.Contractum
