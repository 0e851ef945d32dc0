import Verif.Lemmas.ContractumText
import Verif.Lemmas.Base

/-! C87: the text of an interface determines what the interface declares. -/

namespace Rgb.Props

open Rgb Contractum

/-- Two interfaces with the same text declare the same: the version, the developer, the time, the name, what is inherited, metadata, global state, assignments,
valencies and errors, and for every operation its modifier, whether it is required, its metadata, state, errors and counts, inputs or redeemed valencies, and the
default assignment. Nothing follows from the printed id here: it may be any text. Missing: descriptions of errors which have line breaks
(`C87_descriptions_fails`), and interfaces of the same name among the inherited ones (`C87_namesakes_fails`). -/
theorem C87_declarations_partial {N : Env} (hN : N.Lawful) (hD : N.DistinctExternals) {x y : Iface} (hx : OneLineErrors N x) (hy : OneLineErrors N y)
    (h : text N x = text N y) : SameDeclarations N x y := by
  unfold text at h
  simp only [List.append_assoc] at h
  obtain ⟨h1, h2, h3, h⟩ := annotations_unique hN h
  obtain ⟨h4, h5, h⟩ := headText_unique hN hD h
  have hb := body_unique hN (unlines_inj h (lines_body hN hx) (lines_body hN hy))
  exact ⟨h1, h2, h3, h4, h5, hb.metadata, hb.globalState, hb.assignments, hb.valencies, hb.errors, hb.genesis,
    pointwise_mono hb.transitions (fun _ _ h => ⟨h.1, h.2.1⟩), pointwise_mono hb.extensions (fun _ _ h => ⟨h.1, h.2.1⟩)⟩

theorem pointwise_keys {α β : Type} {R : Nat × α → Nat × β → Prop} {l : OMap Nat α} {m : OMap Nat β} (h : Pointwise R l m) {n : Nat} (hn : n ∈ OMap.keys l)
    (hr : ∀ a b, R a b → a.1 = b.1) : n ∈ OMap.keys m ∧ ∃ a b, R a b ∧ a.1 = n := by
  obtain ⟨a, ha, rfl⟩ := List.mem_map.1 hn
  obtain ⟨k, hk⟩ := List.mem_iff_getElem?.1 ha
  have hl : k < m.length := by
    have := (List.getElem?_eq_some_iff.1 hk).1
    rw [← h.1]; exact this
  have hr' := h.2 k a m[k] hk (List.getElem?_eq_getElem hl)
  refine ⟨?_, a, m[k], hr', rfl⟩
  rw [hr _ _ hr']
  exact List.mem_map.2 ⟨_, List.getElem_mem hl, rfl⟩

/-- If the default operation is one of those declared, the text determines it too. Missing: `C87_default_fails`. -/
theorem C87_default_partial {N : Env} (hN : N.Lawful) (hD : N.DistinctExternals) {x y : Iface} (hx : OneLineErrors N x) (hy : OneLineErrors N y)
    (hdx : DefaultDeclared x) (hdy : DefaultDeclared y) (h : text N x = text N y) : x.defaultOperation = y.defaultOperation := by
  unfold text at h
  simp only [List.append_assoc] at h
  obtain ⟨_, _, _, h⟩ := annotations_unique hN h
  obtain ⟨_, _, h⟩ := headText_unique hN hD h
  have hb := body_unique hN (unlines_inj h (lines_body hN hx) (lines_body hN hy))
  -- an operation declared in `x` is marked in both or in none
  have key : ∀ n, n ∈ OMap.keys x.transitions ∨ n ∈ OMap.keys x.extensions → (x.defaultOperation = some n ↔ y.defaultOperation = some n) := by
    rintro n (hn | hn)
    · obtain ⟨_, a, b, hr, rfl⟩ := pointwise_keys hb.transitions hn (fun _ _ h => h.1)
      have := hr.2.2
      rwa [← hr.1] at this
    · obtain ⟨_, a, b, hr, rfl⟩ := pointwise_keys hb.extensions hn (fun _ _ h => h.1)
      have := hr.2.2
      rwa [← hr.1] at this
  have back : ∀ n, n ∈ OMap.keys y.transitions ∨ n ∈ OMap.keys y.extensions → n ∈ OMap.keys x.transitions ∨ n ∈ OMap.keys x.extensions := by
    have sym : ∀ {R : Nat × OpIface → Nat × OpIface → Prop} {l m : OMap Nat OpIface}, Pointwise R l m → (∀ a b, R a b → a.1 = b.1) → ∀ n, n ∈ OMap.keys m → n ∈ OMap.keys l :=
      fun {R l m} hp hr n hn => (pointwise_keys (R := fun b a => R a b) (l := m) (m := l) ⟨hp.1.symm, fun k a b ha hb => hp.2 k b a hb ha⟩ hn (fun a b h => (hr b a h).symm)).1
    rintro n (hn | hn)
    · exact .inl (sym hb.transitions (fun _ _ h => h.1) n hn)
    · exact .inr (sym hb.extensions (fun _ _ h => h.1) n hn)
  cases hdef : x.defaultOperation with
  | some n => exact ((key n (hdx n hdef)).1 hdef).symm
  | none =>
    cases hdef' : y.defaultOperation with
    | none => rfl
    | some n =>
      have := (key n (back n (hdy n hdef'))).2 hdef'
      rw [hdef] at this
      cases this

/-- What `check` finds no fault with has a declared default operation. -/
theorem C87_checked {x : Iface} {validTs : Int → Bool} {now : Int} (h : x.check validTs now = []) : DefaultDeclared x := by
  intro n hn
  unfold Iface.check at h
  simp only [List.append_eq_nil_iff] at h
  have h := h.1.1.1.2
  rw [hn] at h
  simp only at h
  split at h
  · cases h
  · rename_i hc
    simp only [Bool.and_eq_true, not_and, Option.isNone_iff_eq_none] at hc
    by_cases ht : OMap.get? x.transitions n = none
    · exact .inr (OMap.get?_isSome_iff.1 (Option.isSome_iff_ne_none.2 (hc ht)))
    · exact .inl (OMap.get?_isSome_iff.1 (Option.isSome_iff_ne_none.2 ht))

/-- The mark after a name says how many there may be, in the same way as it is said in the operations. -/
theorem sugar_counts (required multiple : Bool) : ∃ o : Occurrences, sugar required multiple = occText o ∧
    ∀ k, o.Admits k ↔ ((required = true → 1 ≤ k) ∧ (multiple = false → k ≤ 1)) := by
  cases required <;> cases multiple
  · exact ⟨.noneOrOnce, rfl, fun k => by simp [Occurrences.Admits]⟩
  · exact ⟨.noneOrMore, rfl, fun k => by simp [Occurrences.Admits]⟩
  · exact ⟨.once, rfl, fun k => by simp only [Occurrences.Admits, true_implies]; omega⟩
  · exact ⟨.onceOrMore, rfl, fun k => by simp [Occurrences.Admits]⟩

theorem unlines_mem {l : Text} : ∀ {ls : List Text}, l ∈ ls → ∃ pre post, '\n' :: unlines ls = pre ++ ('\n' :: (l ++ '\n' :: post))
  | a :: ls, h => by
    rcases List.mem_cons.1 h with rfl | h
    · exact ⟨[], unlines ls, rfl⟩
    · obtain ⟨pre, post, h⟩ := unlines_mem h
      exact ⟨'\n' :: a ++ pre, post, by rw [List.append_assoc, ← h]; rfl⟩

theorem line_shown {N : Env} {x : Iface} {l : Text} (h : l ∈ bodyLines N x) : ∃ pre post, text N x = pre ++ ('\n' :: (l ++ '\n' :: post)) := by
  obtain ⟨pre, post, hp⟩ := unlines_mem h
  exact ⟨unlines (annotationLines N x) ++ headText N x ++ pre, post, by rw [List.append_assoc, ← hp, text]⟩

/-- Global state is shown in a line of its own, with its name and how many of it there may be. -/
theorem C87_global {N : Env} {x : Iface} {n : Nat} {g : GlobalIface} (h : (n, g) ∈ x.globalState) :
    ∃ (o : Occurrences) (type pre post : Text), (∀ k, o.Admits k ↔ ((g.required = true → 1 ≤ k) ∧ (g.multiple = false → k ≤ 1))) ∧
      text N x = pre ++ ('\n' :: (("\tglobal ".toList ++ N.name n ++ occText o ++ ": ".toList ++ type) ++ '\n' :: post)) := by
  obtain ⟨o, ho, hk⟩ := sugar_counts g.required g.multiple
  obtain ⟨pre, post, hp⟩ := line_shown (N := N) (x := x) (l := "\tglobal ".toList ++ N.name n ++ sugar g.required g.multiple ++ ": ".toList ++
      (match g.semId with | some i => resolve N i | none => "Any".toList)) (by
    unfold bodyLines
    refine List.mem_append.2 (.inr (List.mem_append.2 (.inl ?_)))
    exact List.mem_append.2 (.inl (List.mem_map.2 ⟨(n, g), h, rfl⟩)))
  exact ⟨o, _, pre, post, hk, by rw [hp, ho]⟩

/-- Owned state is shown in a line of its own, which says whether it is public, its name and how many of it there may be. -/
theorem C87_assignment {N : Env} {x : Iface} {n : Nat} {a : AssignIface} (h : (n, a) ∈ x.assignments) :
    ∃ (o : Occurrences) (pre post : Text), (∀ k, o.Admits k ↔ ((a.required = true → 1 ≤ k) ∧ (a.multiple = false → k ≤ 1))) ∧
      text N x = pre ++ ('\n' :: (((if a.pub = true then "\tpublic ".toList else "\towned ".toList) ++ N.name n ++ occText o ++ ": ".toList ++
        ownedText N a.ownedState) ++ '\n' :: post)) := by
  obtain ⟨o, ho, hk⟩ := sugar_counts a.required a.multiple
  obtain ⟨pre, post, hp⟩ := line_shown (N := N) (x := x) (l := '\t' :: (if a.pub then "public ".toList else "owned ".toList) ++ N.name n ++ sugar a.required a.multiple ++
      ": ".toList ++ ownedText N a.ownedState) (by
    unfold bodyLines
    refine List.mem_append.2 (.inr (List.mem_append.2 (.inr (List.mem_append.2 (.inl ?_)))))
    exact List.mem_append.2 (.inl (List.mem_map.2 ⟨(n, a), h, rfl⟩)))
  refine ⟨o, pre, post, hk, ?_⟩
  rw [hp, ho]
  cases a.pub <;> rfl

/-- A valency is shown in a line of its own: its name, and a mark if it isn't required. -/
theorem C87_valency {N : Env} {x : Iface} {n : Nat} {required : Bool} (h : (n, required) ∈ x.valencies) :
    ∃ (o : Occurrences) (pre post : Text), (∀ k, o.Admits k ↔ ((required = true → 1 ≤ k) ∧ k ≤ 1)) ∧
      text N x = pre ++ ('\n' :: (("\tvalency ".toList ++ N.name n ++ occText o) ++ '\n' :: post)) := by
  obtain ⟨o, ho, hk⟩ := sugar_counts required false
  obtain ⟨pre, post, hp⟩ := line_shown (N := N) (x := x) (l := "\tvalency ".toList ++ N.name n ++ (if required then [] else "(?)".toList)) (by
    unfold bodyLines
    refine List.mem_append.2 (.inr (List.mem_append.2 (.inr (List.mem_append.2 (.inr (List.mem_append.2 (.inl ?_)))))))
    exact List.mem_append.2 (.inl (List.mem_map.2 ⟨(n, required), h, rfl⟩)))
  refine ⟨o, pre, post, fun k => by simpa using hk k, ?_⟩
  rw [hp, ← ho]
  cases required <;> rfl

theorem words_of (t : OpIface) (d : Bool) : Words t (d = true)
    ((if t.optional then [] else ["required".toList]) ++ (if d then ["default".toList] else []) ++ [modifierText t.modifier]) := by
  have key : ∀ (o d : Bool) (m : Modifier),
      ("required".toList ∈ (if o then [] else ["required".toList]) ++ (if d then ["default".toList] else []) ++ [modifierText m] ↔ o = false) ∧
      ("default".toList ∈ (if o then [] else ["required".toList]) ++ (if d then ["default".toList] else []) ++ [modifierText m] ↔ d = true) ∧
      ("final".toList ∈ (if o then [] else ["required".toList]) ++ (if d then ["default".toList] else []) ++ [modifierText m] ↔ m = .final) ∧
      ("abstract".toList ∈ (if o then [] else ["required".toList]) ++ (if d then ["default".toList] else []) ++ [modifierText m] ↔ m = .abstract) ∧
      ("override".toList ∈ (if o then [] else ["required".toList]) ++ (if d then ["default".toList] else []) ++ [modifierText m] ↔ m = .override) := by
    intro o d m
    cases m <;> revert o d <;> decide
  obtain ⟨h1, h2, h3, h4, h5⟩ := key t.optional d t.modifier
  exact ⟨h1, h2, h3, h4, h5⟩

/-- A transition is shown with a line which says what kind of operation it is, its name, and the words which describe it. -/
theorem C87_transition {N : Env} {x : Iface} {n : Nat} {t : OpIface} (h : (n, t) ∈ x.transitions) :
    ∃ (ws : List Text) (pre post : Text), Words t (x.defaultOperation = some n) ws ∧
      text N x = pre ++ ('\n' :: (("\ttransition ".toList ++ (N.name n ++ (": ".toList ++ commaSep ws))) ++ '\n' :: post)) := by
  obtain ⟨pre, post, hp⟩ := line_shown (N := N) (x := x) (l := opsugar N "transition".toList (some n) t.modifier t.optional (x.defaultOperation = some n)) (by
    unfold bodyLines
    simp only [List.mem_append]
    refine .inr (.inr (.inr (.inr (.inr (.inr (.inl (List.mem_flatMap.2 ⟨(n, t), h, ?_⟩)))))))
    exact List.mem_append.2 (.inl (List.mem_append.2 (.inl (List.mem_cons.2 (.inl rfl))))))
  have hw := words_of t (x.defaultOperation = some n)
  refine ⟨_, pre, post, ⟨hw.required, by rw [hw.default, decide_eq_true_iff], hw.final, hw.abstract, hw.override⟩, ?_⟩
  rw [hp, opsugar_some]
  rfl

/-- And so is an extension. -/
theorem C87_extension {N : Env} {x : Iface} {n : Nat} {t : OpIface} (h : (n, t) ∈ x.extensions) :
    ∃ (ws : List Text) (pre post : Text), Words t (x.defaultOperation = some n) ws ∧
      text N x = pre ++ ('\n' :: (("\textension ".toList ++ (N.name n ++ (": ".toList ++ commaSep ws))) ++ '\n' :: post)) := by
  obtain ⟨pre, post, hp⟩ := line_shown (N := N) (x := x) (l := opsugar N "extension".toList (some n) t.modifier t.optional (x.defaultOperation = some n)) (by
    unfold bodyLines
    simp only [List.mem_append]
    refine .inr (.inr (.inr (.inr (.inr (.inr (.inr (List.mem_flatMap.2 ⟨(n, t), h, ?_⟩)))))))
    exact List.mem_append.2 (.inl (List.mem_append.2 (.inl (List.mem_cons.2 (.inl rfl))))))
  have hw := words_of t (x.defaultOperation = some n)
  refine ⟨_, pre, post, ⟨hw.required, by rw [hw.default, decide_eq_true_iff], hw.final, hw.abstract, hw.override⟩, ?_⟩
  rw [hp, opsugar_some]
  rfl

/-! ## Examples -/

/-- Names `a0`, `a1`, …; interfaces up to the ninth have names; types up to the ninth have names. -/
def exTexts : Env where
  name n := 'a' :: showNat n
  descr n := if n = 0 then "x\"\n\terror a2\n\t\t\"y".toList else if n = 1 then "x".toList else "y".toList
  version := showNat
  developer := showNat
  anonymous n := n = 0
  occ o := if o.rest = 0 then .exactly o.minValue else .range o.minValue o.rest
  ifaceId x := showNat x.name
  refText n := '-' :: showNat n
  external n := if n < 10 then some n else none
  lookup n := if n < 10 then some ("Lib.T".toList ++ showNat n) else none
  semFull := showNat
  semShort := showNat

theorem exTexts_lawful : exTexts.Lawful where
  name_inj a b h := showNat_injective (List.cons.inj h).2
  name_char a c hc := by
    rcases List.mem_cons.1 hc with rfl | hc
    · exact .inl (by decide)
    · obtain ⟨d, hd, rfl⟩ := showNat_digits a c hc
      have : ∀ d : Fin 10, (digitChar d.val).isAlphanum = true := by decide
      exact .inl (this ⟨d, hd⟩)
  name_ne a h := by cases h
  version_inj a b h := showNat_injective h
  version_line a := showNat_not_mem a _ (by decide)
  developer_inj a b h := showNat_injective h
  developer_line a := showNat_not_mem a _ (by decide)
  anonymous a b ha hb := by
    have ha : a = 0 := of_decide_eq_true ha
    have hb : b = 0 := of_decide_eq_true hb
    rw [ha, hb]
  ifaceId_line x := showNat_not_mem x.name _ (by decide)
  refText_inj a b h := showNat_injective (List.cons.inj h).2
  refText_char a := by
    refine ⟨fun h => ?_, fun h => ?_⟩
    · rcases List.mem_cons.1 h with h | h
      · exact absurd h (by decide)
      · exact showNat_not_mem a ',' (by decide) h
    · rcases List.mem_cons.1 h with h | h
      · exact absurd h (by decide)
      · exact showNat_not_mem a '\n' (by decide) h
  refText_name a n h := absurd (List.cons.inj h).1 (by decide)
  lookup_inj a b t ha hb := by
    have ha : (if a < 10 then some ("Lib.T".toList ++ showNat a) else none) = some t := ha
    have hb : (if b < 10 then some ("Lib.T".toList ++ showNat b) else none) = some t := hb
    split at ha
    · split at hb
      · have ha := Option.some.inj ha
        have hb := Option.some.inj hb
        exact showNat_injective (List.append_cancel_left (ha.trans hb.symm))
      · cases hb
    · cases ha
  lookup_char a t h := by
    have h : (if a < 10 then some ("Lib.T".toList ++ showNat a) else none) = some t := h
    split at h
    · have h := Option.some.inj h
      subst h
      refine ⟨List.mem_append.2 (.inl (by decide)), fun h => ?_, fun h => ?_⟩
      · rcases List.mem_append.1 h with h | h
        · exact absurd h (by decide)
        · exact showNat_not_mem a ' ' (by decide) h
      · rcases List.mem_append.1 h with h | h
        · exact absurd h (by decide)
        · exact showNat_not_mem a '\n' (by decide) h
    · cases h
  semFull_inj a b h := showNat_injective h
  semFull_line a := showNat_not_mem a _ (by decide)
  semShort_inj a b h := showNat_injective h
  semShort_line a := showNat_not_mem a _ (by decide)

theorem exTexts_distinct : exTexts.DistinctExternals := by
  intro a b n ha hb
  have ha : (if a < 10 then some a else none) = some n := ha
  have hb : (if b < 10 then some b else none) = some n := hb
  split at ha
  · split at hb
    · exact (Option.some.inj ha).trans (Option.some.inj hb).symm
    · cases hb
  · cases ha

/-- An interface with something in every part. -/
def exTextIface : Iface where
  version := 1
  name := 7
  inherits := [3, 12, 5]
  timestamp := -5
  metadata := [(1, 2), (2, 20)]
  globalState := [(1, { semId := some 3, required := true, multiple := false }), (4, { semId := none, required := false, multiple := true })]
  assignments := [(5, { ownedState := .amount, pub := false, required := true, multiple := true }), (6, { ownedState := .data 30, pub := true, required := false, multiple := false })]
  valencies := [(1, true), (8, false)]
  genesis := { globals := [(1, { minValue := 1 })], assignments := [(5, { minValue := 1, rest := 9 })], valencies := [1], errors := [1] }
  transitions := [(1, { inputs := [(5, { minValue := 1 }), (6, { minValue := 0, rest := 4 })], assignments := [(5, { minValue := 1 })], metadata := [1], optional := false,
                        modifier := .abstract, defaultAssignment := some 5 }),
                  (9, { inputs := [], optional := true })]
  extensions := [(3, { redeems := [1, 8], globals := [(4, { minValue := 0, rest := 2 })], modifier := .override })]
  defaultOperation := some 1
  errors := [(1, 1), (3, 2)]
  developer := 4

/-- The hypotheses are met, and this is how the text begins. -/
example : OneLineErrors exTexts exTextIface ∧ DefaultDeclared exTextIface ∧
    (text exTexts exTextIface).take 79 = "@version(1)\n@id(7)\n@developer(\"4\")\n@timestamp(-5)\ninterface a7: a3, -12\n, a5\n\tm".toList := by
  refine ⟨?_, ?_, by decide +kernel⟩
  · unfold OneLineErrors; decide
  · intro n hn
    exact .inl (by have := Option.some.inj hn; subst this; decide)

/-- It has state, valencies and operations to show. -/
example : exTextIface.globalState ≠ [] ∧ exTextIface.assignments ≠ [] ∧ exTextIface.valencies ≠ [] ∧ exTextIface.transitions ≠ [] ∧ exTextIface.extensions ≠ [] := by
  decide

/-- It passes the check. -/
example : exTextIface.check (fun _ => true) 0 = [] := by decide +kernel

/-- **Descriptions of errors.** A description is printed as it is, with its line breaks and quotation marks: an interface with one error has the same text, but for
the id, as an interface with two. -/
theorem C87_descriptions_fails : ∃ (N : Env) (x y : Iface), N.Lawful ∧ N.DistinctExternals ∧ DefaultDeclared x ∧ DefaultDeclared y ∧
    x.errors.length = 1 ∧ y.errors.length = 2 ∧ ∀ t, text (N.hideId t) x = text (N.hideId t) y := by
  refine ⟨exTexts, { name := 1, errors := [(1, 0)] }, { name := 1, errors := [(1, 1), (2, 2)] }, exTexts_lawful, exTexts_distinct,
    (fun n h => by cases h), (fun n h => by cases h), rfl, rfl, fun t => ?_⟩
  have hb : bodyLines exTexts { name := 1, errors := [(1, 0)] } ≠ bodyLines exTexts { name := 1, errors := [(1, 1), (2, 2)] } ∧
      unlines (bodyLines exTexts { name := 1, errors := [(1, 0)] }) = unlines (bodyLines exTexts { name := 1, errors := [(1, 1), (2, 2)] }) := by decide +kernel
  exact congrArg (fun w => unlines (annotationLines (exTexts.hideId t) { name := 1 }) ++ headText exTexts { name := 1 } ++ '\n' :: w) hb.2

/-- **The default operation.** It is shown as a word at the operation: one which isn't declared isn't shown at all. (`check` finds it, `C87_checked`; but displaying
doesn't ask for a check.) -/
theorem C87_default_fails : ∃ (N : Env) (x y : Iface), N.Lawful ∧ N.DistinctExternals ∧ OneLineErrors N x ∧ OneLineErrors N y ∧
    x.defaultOperation ≠ y.defaultOperation ∧ ∀ t, text (N.hideId t) x = text (N.hideId t) y :=
  ⟨exTexts, { name := 1, defaultOperation := some 3 }, { name := 1 }, exTexts_lawful, exTexts_distinct, (fun e he => by cases he), (fun e he => by cases he),
    by decide, fun t => rfl⟩

/-- **Namesakes.** The caller gives names of interfaces by their ids, so two of them may have the same name; an inherited interface is shown by the name alone. -/
theorem C87_namesakes_fails : ∃ (N : Env) (x y : Iface), N.Lawful ∧ OneLineErrors N x ∧ OneLineErrors N y ∧ x.inherits ≠ y.inherits ∧
    ∀ t, text (N.hideId t) x = text (N.hideId t) y :=
  ⟨{ exTexts with external := fun _ => some 0 }, { name := 1, inherits := [1] }, { name := 1, inherits := [2] },
    { exTexts_lawful with }, (fun e he => by cases he), (fun e he => by cases he), by decide, fun t => rfl⟩

end Rgb.Props
