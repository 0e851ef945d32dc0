import Verif.Lemmas.IfaceCheck

/-! When interfaces can be extended. -/

namespace Rgb

theorem length_insert_le {ν : Type} (m : OMap Nat ν) (n : Nat) (v : ν) : (OMap.insert m n v).length ≤ m.length + 1 := by
  induction m with
  | nil => simp [OMap.insert]
  | cons e m ih =>
    obtain ⟨k, w⟩ := e
    simp only [OMap.insert]
    split
    · simp
    · split
      · simp
      · simp only [List.length_cons]; omega

theorem osetLength_insert_le (s : OSet Nat) (n : Nat) : (OSet.insert s n).length ≤ s.length + 1 := by
  induction s with
  | nil => simp [OSet.insert]
  | cons e m ih =>
    simp only [OSet.insert]
    split
    · simp
    · split
      · simp
      · simp only [List.length_cons]; omega

theorem get?_cons_ne {ν : Type} {es : List (Nat × ν)} {k n : Nat} {v : ν} (h : n ≠ k) :
    OMap.get? ((k, v) :: es : OMap Nat ν) n = OMap.get? es n := by simp [OMap.get?, h]

theorem get?_cons_self {ν : Type} {es : List (Nat × ν)} {k : Nat} {v : ν} :
    OMap.get? ((k, v) :: es : OMap Nat ν) k = some v := by simp [OMap.get?]

theorem mergeLoop_fits {ν : Type} (cf : Nat → ν → ν → Option ExtErr) (ov : ExtErr) (es : List (Nat × ν)) :
    ∀ (m : OMap Nat ν), (OMap.keys es).Nodup → m.length + es.length ≤ tinyMax →
      (∀ n w v, OMap.get? m n = some w → OMap.get? es n = some v → cf n w v = none) → (mergeLoop cf ov m es).2 = [] := by
  induction es with
  | nil => intro m _ _ _; rfl
  | cons e es ih =>
    intro m hnd hl hc
    obtain ⟨k, v⟩ := e
    simp only [OMap.keys, List.map_cons, List.nodup_cons, List.length_cons] at hnd hl
    have hrest : (mergeLoop cf ov (OMap.insert m k v) es).2 = [] := by
      have := length_insert_le m k v
      refine ih _ hnd.2 (by omega) ?_
      intro n w v' h1 h2
      have hne : n ≠ k := by
        rintro rfl
        exact hnd.1 (OMap.get?_isSome_iff.mp (by rw [h2]; rfl))
      rw [OMap.get?_insert, if_neg hne] at h1
      exact hc n w v' h1 (by rw [get?_cons_ne hne]; exact h2)
    simp only [mergeLoop]
    cases hg : OMap.get? m k with
    | none =>
      simp only
      rw [if_neg (by omega)]
      exact hrest
    | some w =>
      simp only [hc k w v hg get?_cons_self]
      exact hrest

theorem tinyExtend_fits {ν : Type} (err : ExtErr) (es : List (Nat × ν)) :
    ∀ (m : OMap Nat ν), m.length + es.length ≤ tinyMax → (tinyExtend err m es).2 = [] := by
  induction es with
  | nil => intro m _; rfl
  | cons e es ih =>
    intro m h
    obtain ⟨k, v⟩ := e
    simp only [List.length_cons] at h
    have := length_insert_le m k v
    simp only [tinyExtend]
    rw [if_neg (by omega)]
    exact ih _ (by omega)

theorem presenceLoop_fits (err : ExtErr) (es : List Nat) :
    ∀ (s : OSet Nat), s.length + es.length ≤ tinyMax → (presenceLoop err s es).2 = [] := by
  induction es with
  | nil => intro m _; rfl
  | cons e es ih =>
    intro m h
    simp only [List.length_cons] at h
    have := osetLength_insert_le m e
    simp only [presenceLoop]
    rw [if_neg (by omega)]
    exact ih _ (by omega)

theorem occ_fits (op : OpName) (k : ArgKind) (ov : ExtErr) (m : OMap Nat Occ) (es : List (Nat × Occ)) (hs : OMap.Sorted es)
    (hl : m.length + es.length ≤ tinyMax)
    (hc : ∀ (n : Nat) (x y : Occ), OMap.get? m n = some x → OMap.get? es n = some y → x.minValue ≤ y.minValue) :
    (mergeLoop (occConflict op k) ov m es).2 = [] :=
  mergeLoop_fits _ _ _ _ hs.nodup hl (fun n w v h1 h2 => by
    have := hc n w v h1 h2
    simp only [occConflict]
    rw [if_neg (by omega)])

theorem default_fits {a b : Option Nat} {e : ExtErr} (h : ∀ n m, a = some n → b = some m → n = m) :
    (if b.isSome && a.isSome && a ≠ b then [e] else []) = [] := by
  cases a with
  | none => simp
  | some x =>
    cases b with
    | none => simp
    | some y => simp [h x y rfl rfl]

theorem OpIface.extErrors_fits {a b : OpIface} (op : OpName) (hw : b.WF) (hc : a.Overridable b) (hf : a.Fit b) : a.extErrors b op = [] := by
  simp only [OpIface.extErrors, List.append_eq_nil_iff]
  refine ⟨⟨⟨⟨⟨⟨⟨⟨?_, presenceLoop_fits _ _ _ hf.metadata⟩, occ_fits _ _ _ _ _ hw.globals hf.globals hc.globals⟩,
    occ_fits _ _ _ _ _ hw.assignments hf.assignments hc.assignments⟩, occ_fits _ _ _ _ _ hw.inputs hf.inputs hc.inputs⟩,
    presenceLoop_fits _ _ _ hf.valencies⟩, presenceLoop_fits _ _ _ hf.redeems⟩, presenceLoop_fits _ _ _ hf.errors⟩,
    default_fits hc.default⟩
  have h1 := hc.notFinal
  have h2 := hc.notAbstract
  cases ha : a.modifier <;> cases hb : b.modifier <;> simp_all [Modifier.isFinal, Modifier.canBeOverriddenBy]

theorem OpIface.extended_fits {a b : OpIface} (op : OpName) (hw : b.WF) (hc : a.Overridable b) (hf : a.Fit b) :
    ∃ c, a.extended b op = .ok c := by
  simp only [OpIface.extended, OpIface.extErrors_fits op hw hc hf, if_true]
  exact ⟨_, rfl⟩

theorem length_erase_le {ν : Type} (m : OMap Nat ν) (n : Nat) : (OMap.erase m n).length ≤ m.length := List.length_filter_le _ _

theorem opsLoop_fits (es : List (Nat × OpIface)) : ∀ (m : OMap Nat OpIface), (OMap.keys es).Nodup → (∀ e ∈ es, e.2.WF) →
    m.length + es.length ≤ tinyMax →
    (∀ (n : Nat) (x y : OpIface), OMap.get? m n = some x → OMap.get? es n = some y → x.Overridable y ∧ x.Fit y) →
    (opsLoop m es).2 = [] := by
  induction es with
  | nil => intro m _ _ _ _; rfl
  | cons e es ih =>
    intro m hnd hw hl hc
    obtain ⟨k, v⟩ := e
    simp only [OMap.keys, List.map_cons, List.nodup_cons, List.length_cons] at hnd hl
    have hrest : ∀ m' : OMap Nat OpIface, m'.length ≤ m.length + 1 → (∀ n, n ≠ k → OMap.get? m' n = OMap.get? m n) →
        (opsLoop m' es).2 = [] := by
      intro m' hl' hm'
      refine ih m' hnd.2 (fun e he => hw e (by simp [he])) (by omega) ?_
      intro n x y h1 h2
      have hne : n ≠ k := by
        rintro rfl
        exact hnd.1 (OMap.get?_isSome_iff.mp (by rw [h2]; rfl))
      rw [hm' n hne] at h1
      exact hc n x y h1 (by rw [get?_cons_ne hne]; exact h2)
    simp only [opsLoop]
    cases hg : OMap.get? m k with
    | none =>
      simp only
      by_cases hopt : v.optional = true
      · rw [if_pos hopt]
        exact hrest m (by omega) (fun _ _ => rfl)
      · rw [if_neg hopt, if_neg (by omega)]
        exact hrest _ (length_insert_le m k v) (fun n h => by rw [OMap.get?_insert, if_neg h])
    | some x =>
      obtain ⟨h1, h2⟩ := hc k x v hg get?_cons_self
      obtain ⟨c, hx⟩ := OpIface.extended_fits (.transition k) (hw (k, v) (by simp)) h1 h2
      simp only [hx]
      refine hrest _ ?_ (fun n h => by rw [get?_insert_erase, if_neg h])
      have := length_insert_le (OMap.erase m k) k c
      have := length_erase_le m k
      omega

theorem Iface.extended_fits (hid : Iface → Nat) {a b : Iface} (name : Nat) (hw : b.WF) (hc : a.Compatible b) (hf : a.Fit b) :
    ∃ c, a.extended hid b name = .ok c := by
  obtain ⟨g, hg⟩ := OpIface.extended_fits .genesis hw.genesis hc.genesis hf.genesis
  have hin : tinyAppend a.inherits ([hid a] ++ b.inherits ++ [hid b]) = some (a.inherits ++ ([hid a] ++ b.inherits ++ [hid b])) := by
    have := hf.inherits
    simp only [tinyAppend]
    rw [if_neg]
    simp only [List.length_append, List.length_singleton]
    omega
  have hno : a.extErrors hid b = [] := by
    simp only [Iface.extErrors, List.append_eq_nil_iff]
    refine ⟨⟨⟨⟨⟨⟨⟨⟨⟨tinyExtend_fits _ _ _ hf.metadata, ?_⟩, ?_⟩, ?_⟩, OpIface.extErrors_fits _ hw.genesis hc.genesis hf.genesis⟩,
      opsLoop_fits _ _ hw.transitions.nodup hw.transitionOps hf.transitions
        (fun n x y h1 h2 => ⟨hc.transitions n x y h1 h2, hf.transitionOps n x y h1 h2⟩)⟩,
      opsLoop_fits _ _ hw.extensions.nodup hw.extensionOps hf.extensions
        (fun n x y h1 h2 => ⟨hc.extensions n x y h1 h2, hf.extensionOps n x y h1 h2⟩)⟩,
      tinyExtend_fits _ _ _ hf.errors⟩, default_fits hc.default⟩, by rw [hin]; rfl⟩
    · refine mergeLoop_fits _ _ _ _ hw.globals.nodup hf.globals (fun n x y h1 h2 => ?_)
      obtain ⟨h3, h4⟩ := hc.globals n x y h1 h2
      simp only [globalConflict]
      have : ¬(x.semId.isSome && decide (y.semId ≠ x.semId)) = true := by
        cases hx : x.semId with
        | none => simp
        | some s => simp [h3 s hx]
      rw [if_neg this]
      cases hx : x.required
      · simp
      · simp [h4 hx]
    · refine mergeLoop_fits _ _ _ _ hw.assignments.nodup hf.assignments (fun n x y h1 h2 => ?_)
      obtain ⟨h3, h4, h5⟩ := hc.assignments n x y h1 h2
      simp only [assignConflict, (OwnedIface.isSuperset_iff _ _).mpr h3]
      cases hx : x.required <;> cases hp : x.pub <;> simp_all
    · refine mergeLoop_fits _ _ _ _ hw.valencies.nodup hf.valencies (fun n x y h1 h2 => ?_)
      simp only [valencyConflict]
      cases x
      · simp
      · cases y
        · exact absurd h2 (hc.valencies n h1)
        · simp
  simp only [Iface.extended, hg, hin, hno, if_true]
  exact ⟨_, rfl⟩

theorem Iface.extended_error {hid : Iface → Nat} {a b : Iface} {name : Nat} {es : List ExtErr} (h : a.extended hid b name = .error es) :
    es ≠ [] := by
  simp only [Iface.extended] at h
  split at h
  · split at h
    · cases h
    · rename_i hne; cases h; exact hne
  · rename_i hno
    cases h
    intro he
    simp only [Iface.extErrors, List.append_eq_nil_iff] at he
    obtain ⟨⟨⟨⟨⟨⟨-, hg⟩, -⟩, -⟩, -⟩, -⟩, hi⟩ := he
    cases hx : tinyAppend a.inherits ([hid a] ++ b.inherits ++ [hid b]) with
    | none => rw [hx] at hi; simp at hi
    | some l =>
      have : ∃ g, a.genesis.extended b.genesis .genesis = .ok g := by
        simp only [OpIface.extended, hg, if_true]; exact ⟨_, rfl⟩
      obtain ⟨g, hg'⟩ := this
      exact hno g l hg' hx

theorem occ_le {op : OpName} {k : ArgKind} {ov : ExtErr} {m es : OMap Nat Occ} (hs : OMap.Sorted es)
    (h : (mergeLoop (occConflict op k) ov m es).2 = []) (n : Nat) (x y : Occ) (hx : OMap.get? m n = some x) (hy : OMap.get? es n = some y) :
    x.minValue ≤ y.minValue := by
  obtain ⟨o, ho, hl⟩ := occ_base op k ov m es n x hx
  rw [mergeLoop_ext _ _ _ _ hs.nodup h n y hy] at ho
  cases ho
  exact hl

theorem default_eq {a b : Option Nat} {e : ExtErr} (h : (if b.isSome && a.isSome && a ≠ b then [e] else []) = []) :
    ∀ n m, a = some n → b = some m → n = m := by
  rintro n m rfl rfl
  by_cases hnm : n = m
  · exact hnm
  · simp [hnm] at h

theorem OpIface.overridable_of_ok {a b c : OpIface} {op : OpName} (hw : b.WF) (h : a.extended b op = .ok c) : a.Overridable b := by
  have hk := OpIface.extended_ok h
  simp only [OpIface.extended] at h
  split at h
  · rename_i he
    simp only [OpIface.extErrors, List.append_eq_nil_iff] at he
    obtain ⟨⟨⟨⟨⟨⟨⟨⟨-, -⟩, h2⟩, h3⟩, h4⟩, -⟩, -⟩, -⟩, h8⟩ := he
    refine ⟨hk.notFinal, ?_, occ_le hw.globals h2, occ_le hw.inputs h4, occ_le hw.assignments h3, default_eq h8⟩
    intro hb
    have := hk.canOverride
    rw [hb] at this
    cases ha : a.modifier <;> rw [ha] at this <;> simp [Modifier.canBeOverriddenBy] at this
  · cases h

theorem opsLoop_overridable (es : List (Nat × OpIface)) : ∀ (m : OMap Nat OpIface), (OMap.keys es).Nodup → (∀ e ∈ es, e.2.WF) →
    (opsLoop m es).2 = [] →
    ∀ (n : Nat) (x y : OpIface), OMap.get? m n = some x → OMap.get? es n = some y → x.Overridable y := by
  induction es with
  | nil => intro m _ _ _ n x y _ h; simp [OMap.get?] at h
  | cons e es ih =>
    intro m hnd hw h n x y hx hy
    obtain ⟨k, v⟩ := e
    simp only [OMap.keys, List.map_cons, List.nodup_cons] at hnd
    by_cases hne : n = k
    · subst hne
      rw [get?_cons_self] at hy
      cases hy
      simp only [opsLoop, hx] at h
      cases hc : x.extended y (.transition n) with
      | ok c => exact OpIface.overridable_of_ok (hw (n, y) (by simp)) hc
      | error es' =>
        simp only [hc] at h
        rw [List.append_eq_nil_iff] at h
        simp only [OpIface.extended] at hc
        split at hc
        · cases hc
        · rename_i hn; cases hc; exact absurd h.1 hn
    · rw [get?_cons_ne hne] at hy
      have hrest : ∀ m' : OMap Nat OpIface, OMap.get? m' n = some x → (opsLoop m' es).2 = [] → x.Overridable y :=
        fun m' h1 h2 => ih m' hnd.2 (fun e he => hw e (by simp [he])) h2 n x y h1 hy
      rcases opsLoop_cons h with ⟨_, _, _, h1⟩ | ⟨_, _, _, h1⟩ | ⟨o, c, _, _, _, h1⟩
      · exact hrest _ hx h1
      · exact hrest _ (by rw [OMap.get?_insert, if_neg hne]; exact hx) h1
      · exact hrest _ (by rw [get?_insert_erase, if_neg hne]; exact hx) h1

theorem Iface.compatible_of_ok {hid : Iface → Nat} {a b c : Iface} {name : Nat} (hw : b.WF) (h : a.extended hid b name = .ok c) :
    a.Compatible b := by
  have hk := Iface.extended_ok h
  obtain ⟨hA, hG, hV, -⟩ := mergeShown h hw
  refine ⟨?_, ?_, ?_, ?_, opsLoop_overridable _ _ hw.transitions.nodup hw.transitionOps hk.transitions.1,
    opsLoop_overridable _ _ hw.extensions.nodup hw.extensionOps hk.extensions.1, ?_⟩
  · intro n x y hx hy
    obtain ⟨g, hg, h1, h2⟩ := hk.keepsSelf.globals n x hx
    rw [hG n y hy] at hg
    cases hg
    exact ⟨h2, h1⟩
  · intro n x y hx hy
    obtain ⟨g, hg, h1, h2, h3⟩ := hk.keepsSelf.assignments n x hx
    rw [hA n y hy] at hg
    cases hg
    exact ⟨h3, h1, h2⟩
  · intro n hx hy
    obtain ⟨g, hg, h1⟩ := hk.keepsSelf.valencies n true hx
    rw [hV n false hy] at hg
    cases hg
    simp at h1
  · simp only [Iface.extended] at h
    split at h
    · rename_i hg _
      exact OpIface.overridable_of_ok hw.genesis hg
    · cases h
  · intro n m h1 h2
    have e1 := hk.keepsSelf.default n h1
    have e2 := (hk.keepsExt hw).default m h2
    rw [e1] at e2
    cases e2
    rfl

end Rgb
