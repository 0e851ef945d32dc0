import Verif.Lemmas.ResumeStock
import Verif.Spec.Consume

/-!
When fascias are taken.
-/

namespace Rgb

open Stock Index

variable {H : Commit}

/-! ### State -/

/-- The states know the same contracts, with the same global state types. -/
def SameContracts (s s' : MemState) : Prop :=
  ∀ c, OMap.contains s'.contracts c = OMap.contains s.contracts c ∧ ∀ ty, glimit s' c ty = glimit s c ty

theorem SameContracts.refl (s : MemState) : SameContracts s s := fun _ => ⟨rfl, fun _ => rfl⟩

theorem SameContracts.trans {s t u : MemState} (h : SameContracts s t) (h' : SameContracts t u) : SameContracts s u :=
  fun c => ⟨(h' c).1.trans (h c).1, fun ty => ((h' c).2 ty).trans ((h c).2 ty)⟩

theorem addOp_same {s s' : MemState} {call : StCall} (hp : call.Proper) (hc : OMap.contains s.contracts (call.contract H) = true)
    (h : call.exec H s = some (s', none)) : SameContracts s s' := by
  rcases exec_spec hp h with ⟨-, hs⟩ | ⟨hne, -⟩
  swap; · exact absurd rfl hne
  intro c
  have h1 : OMap.contains s'.contracts c = OMap.contains s.contracts c := by
    rw [Bool.eq_iff_iff]
    refine ⟨fun h => ?_, hs.mono c⟩
    rcases hs.only c h with h | rfl
    · exact h
    · exact hc
  refine ⟨h1, fun ty => ?_⟩
  rw [hs.limit]
  split
  · rfl
  · rename_i hn
    split
    · rename_i e; rw [e] at hn; exact absurd hc hn
    · have : OMap.get? s.contracts c = none := by
        cases hg : OMap.get? s.contracts c with
        | none => rfl
        | some cs => exact absurd (OMap.contains_iff.mpr ⟨cs, hg⟩) hn
      simp [glimit, this]

/-- Calls for a known contract succeed exactly if none of them panics. -/
theorem stCalls_iff {c : Nat} (l : List StCall) {s : MemState} (hc : OMap.contains s.contracts c = true)
    (hp : ∀ call ∈ l, call.Proper ∧ call.contract H = c) :
    ((∃ s', StCall.execAll H s l = some (s', none)) ↔ ∀ call ∈ l, AddableIn H s call) ∧
    ∀ s', StCall.execAll H s l = some (s', none) → SameContracts s s' := by
  induction l generalizing s with
  | nil =>
    refine ⟨⟨fun _ _ h => (by cases h), fun _ => ⟨s, rfl⟩⟩, fun s' h => ?_⟩
    cases h; exact .refl s
  | cons call l ih =>
    obtain ⟨p1, p2⟩ := hp call (by simp)
    have hc' : OMap.contains s.contracts (call.contract H) = true := by rw [p2]; exact hc
    have step : ∀ {s'}, StCall.execAll H s (call :: l) = some (s', none) →
        ∃ s1, call.exec H s = some (s1, none) ∧ StCall.execAll H s1 l = some (s', none) := by
      intro s' h
      simp only [StCall.execAll] at h
      cases he : call.exec H s with
      | none => rw [he] at h; cases h
      | some q =>
        obtain ⟨s1, o⟩ := q
        rw [he] at h
        cases o with
        | some e => cases h
        | none => exact ⟨s1, rfl, h⟩
    have same : ∀ {s1}, call.exec H s = some (s1, none) → SameContracts s s1 := fun h => addOp_same p1 hc' h
    have trans : ∀ {s1}, SameContracts s s1 → ∀ x ∈ l, (AddableIn H s1 x ↔ AddableIn H s x) := by
      intro s1 h x hx
      simp only [AddableIn, (h _).2]
    constructor
    · constructor
      · rintro ⟨s', h⟩
        obtain ⟨s1, h1, h2⟩ := step h
        intro x hx
        rcases List.mem_cons.mp hx with rfl | hx
        · exact (exec_of_addable hc').mpr ⟨s1, h1⟩
        · have h3 := same h1
          exact (trans h3 x hx).mp ((ih (by rw [(h3 c).1]; exact hc) (fun y hy => hp y (by simp [hy]))).1.mp ⟨s', h2⟩ x hx)
      · intro h
        obtain ⟨s1, h1⟩ := (exec_of_addable hc').mp (h call (by simp))
        have h3 := same h1
        obtain ⟨s', h2⟩ := (ih (by rw [(h3 c).1]; exact hc) (fun y hy => hp y (by simp [hy]))).1.mpr
          (fun x hx => (trans h3 x hx).mpr (h x (by simp [hx])))
        exact ⟨s', by simp only [StCall.execAll, h1, h2]⟩
    · intro s' h
      obtain ⟨s1, h1, h2⟩ := step h
      have h3 := same h1
      exact h3.trans ((ih (by rw [(h3 c).1]; exact hc) (fun y hy => hp y (by simp [hy]))).2 s' h2)

/-- What a bundle needs of the state. -/
def StTakes (r : Resolver) (w : WitnessId) (s : MemState) (e : Nat × Bundle) : Prop :=
  OMap.contains s.contracts e.1 = true ∧ (e.2.known ≠ [] → (r w).isSome = true) ∧
    ∀ t ∈ OMap.vals e.2.known, (∀ g ∈ t.globals, (glimit s e.1 g.1).isSome = true) ∧ AssignsResolve (some w) t.assigns

theorem updateFromBundle_iff {r : Resolver} {w : WitnessId} {s : MemState} {e : Nat × Bundle}
    (hp : ∀ t ∈ OMap.vals e.2.known, t.Proper ∧ t.kind = .transition) :
    ((∃ s', s.updateFromBundle H e.1 e.2 w r = some (s', none)) ↔ StTakes r w s e) ∧
    ∀ s', s.updateFromBundle H e.1 e.2 w r = some (s', none) → SameContracts s s' := by
  unfold MemState.updateFromBundle StTakes
  by_cases hc : OMap.contains s.contracts e.1 = true
  swap
  · rw [if_neg hc]
    exact ⟨⟨fun ⟨s', h⟩ => (by cases h), fun h => absurd h.1 hc⟩, fun s' h => (by cases h)⟩
  rw [if_pos hc]
  by_cases he : e.2.known = []
  · simp only [he, List.isEmpty_nil, if_true]
    refine ⟨⟨fun _ => ⟨hc, fun h => absurd rfl h, fun t ht => (by simp [OMap.vals] at ht)⟩, fun _ => ⟨s, rfl⟩⟩, fun s' h => ?_⟩
    cases h; exact .refl s
  · have he' : ¬ e.2.known.isEmpty = true := by simpa using he
    rw [if_neg he']
    cases hr : r w with
    | none =>
      refine ⟨⟨fun ⟨s', h⟩ => (by cases h), fun h => ?_⟩, fun s' h => (by cases h)⟩
      have := h.2.1 he; cases this
    | some ord =>
      have hpp : ∀ call ∈ e.2.known.map (fun k => StCall.transition e.1 k.2 w ord), call.Proper ∧ call.contract H = e.1 := by
        intro call hcall
        obtain ⟨x, hx, rfl⟩ := List.mem_map.mp hcall
        exact ⟨hp x.2 (List.mem_map.mpr ⟨x, hx, rfl⟩), rfl⟩
      obtain ⟨h1, h2⟩ := stCalls_iff (H := H) _ hc hpp
      refine ⟨?_, h2⟩
      rw [h1]
      constructor
      · intro h
        refine ⟨hc, fun _ => rfl, fun t ht => ?_⟩
        obtain ⟨x, hx, rfl⟩ := List.mem_map.mp ht
        exact h _ (List.mem_map.mpr ⟨x, hx, rfl⟩)
      · rintro ⟨-, -, h⟩ call hcall
        obtain ⟨x, hx, rfl⟩ := List.mem_map.mp hcall
        exact h x.2 (List.mem_map.mpr ⟨x, hx, rfl⟩)

theorem stLoop_takes {r : Resolver} {w : WitnessId} (l : List (Nat × Bundle)) {s : MemState}
    (hp : ∀ e ∈ l, ∀ t ∈ OMap.vals e.2.known, t.Proper ∧ t.kind = .transition) :
    (∃ s', StLoop H r w l s s') ↔ ∀ e ∈ l, StTakes r w s e := by
  induction l generalizing s with
  | nil => exact ⟨fun _ _ h => (by cases h), fun _ => ⟨s, rfl⟩⟩
  | cons e l ih =>
    obtain ⟨h1, h2⟩ := updateFromBundle_iff (H := H) (r := r) (w := w) (s := s) (hp e (by simp))
    have tr : ∀ {s1}, SameContracts s s1 → ∀ x, (StTakes r w s1 x ↔ StTakes r w s x) := by
      intro s1 h x
      simp only [StTakes, (h _).1, (h _).2]
    constructor
    · rintro ⟨s', s1, e1, e2⟩ x hx
      rcases List.mem_cons.mp hx with rfl | hx
      · exact h1.mp ⟨s1, e1⟩
      · exact (tr (h2 s1 e1) x).mp ((ih (fun y hy => hp y (by simp [hy]))).mp ⟨s', e2⟩ x hx)
    · intro h
      obtain ⟨s1, e1⟩ := h1.mpr (h e (by simp))
      obtain ⟨s', e2⟩ := (ih (s := s1) (fun y hy => hp y (by simp [hy]))).mpr (fun x hx => (tr (h2 s1 e1) x).mpr (h x (by simp [hx])))
      exact ⟨s', s1, e1, e2⟩

/-! ### Index -/

theorem fasciaCalls_mem {l : List (Nat × Bundle)} {w : WitnessId} {call : IdxCall}
    (h : call ∈ l.flatMap (fun e => Index.bundleCalls H e.1 e.2 w)) :
    ∃ e ∈ l, call = .registerBundle (e.2.id H) w e.1 ∨ ∃ k ∈ e.2.known, call = .registerOperation k.1 (e.2.id H) ∨
      ∃ x ∈ k.2.assigns, call = .assignments e.1 (some w) x.2.items k.1 x.1 := by
  simp only [List.mem_flatMap, bundleCalls, List.mem_cons, List.mem_map] at h
  obtain ⟨e, he, rfl | ⟨k, hk, rfl | ⟨x, hx, rfl⟩⟩⟩ := h
  · exact ⟨e, he, .inl rfl⟩
  · exact ⟨e, he, .inr ⟨k, hk, .inl rfl⟩⟩
  · exact ⟨e, he, .inr ⟨k, hk, .inr ⟨x, hx, rfl⟩⟩⟩

theorem fasciaCalls_reg (l : List (Nat × Bundle)) (w : WitnessId) (b : Nat) :
    ((l.flatMap (fun e => Index.bundleCalls H e.1 e.2 w)).map (callReg b)).sum = (l.filter (fun e => decide (e.2.id H = b))).length := by
  rw [sum_flatMap]
  simp only [bundleCalls_reg]
  induction l with
  | nil => rfl
  | cons e l ih =>
    rw [List.map_cons, List.sum_cons, ih, List.filter_cons]
    split <;> simp_all [Nat.add_comm]

theorem fasciaCalls_hid (l : List (Nat × Bundle)) (w : WitnessId) (s : Nat) :
    ((l.flatMap (fun e => Index.bundleCalls H e.1 e.2 w)).map (callHid s)).sum = ((l.flatMap (fun e => OMap.vals e.2.known)).map (Op.hiddenTo H s)).sum := by
  rw [sum_flatMap, sum_flatMap]
  exact sum_map_congr (fun e _ => bundleCalls_hid H e.1 e.2 w s)

/-- Calls which succeeded found their contracts, and all their seals have outputs. -/
theorem assignments_done (l : List IdxCall) {x x' : Index} (hn : ∀ c, IdxCall.registerContract c ∉ l) (h : IdxCall.execAll x l = (x', none))
    {c : Nat} {w : Option WitnessId} {items : List Assign} {opid ty : Nat} (hm : IdxCall.assignments c w items opid ty ∈ l) :
    OMap.contains x.contracts c = true ∧ ∀ a ∈ items, ∀ sl, a.seal? = some sl → (outputSeal w sl).isSome = true := by
  induction l generalizing x with
  | nil => cases hm
  | cons call l ih =>
    simp only [IdxCall.execAll] at h
    have he := exec_effect x call
    cases hx : call.exec x with
    | mk x1 o =>
      rw [hx] at h he
      cases o with
      | some e => cases h
      | none =>
        rcases List.mem_cons.mp hm with rfl | hm
        · simp only [IdxCall.exec, indexAssignments] at hx
          cases hg : OMap.get? x.contracts c with
          | none => rw [hg] at hx; cases hx
          | some ci =>
            refine ⟨OMap.contains_iff.mpr ⟨ci, hg⟩, ?_⟩
            rw [hg] at hx
            simp only at hx
            have h2 : (indexOuts w opid ty items 0 ci.outs).2 = none := by
              cases hi : (indexOuts w opid ty items 0 ci.outs).2 with
              | none => rfl
              | some e => rw [hi] at hx; cases hx
            clear hx he h ih hn
            generalize 0 = no at h2
            generalize ci.outs = m at h2
            induction items generalizing no m with
            | nil => intro a ha; cases ha
            | cons b items ih =>
              intro a ha sl hsl
              simp only [indexOuts] at h2
              rcases List.mem_cons.mp ha with rfl | ha
              · rw [hsl] at h2
                simp only at h2
                cases ho : outputSeal w sl with
                | none => rw [ho] at h2; cases h2
                | some out => rfl
              · cases hb : b.seal? with
                | none => rw [hb] at h2; exact ih (.head _) _ _ h2 a ha sl hsl
                | some s =>
                  rw [hb] at h2
                  simp only at h2
                  cases ho : outputSeal w s with
                  | none => rw [ho] at h2; cases h2
                  | some out => rw [ho] at h2; exact ih (.head _) _ _ h2 a ha sl hsl
        · obtain ⟨h1, h2⟩ := ih (fun c' hc' => hn c' (.tail _ hc')) h hm
          refine ⟨?_, h2⟩
          rcases he.conSound c h1 with h3 | h3
          · exact h3
          · cases call with
            | registerContract c' => exact absurd (.head _) (hn c')
            | _ => exact absurd h3 (by simp [callContract])

/-- What a fascia needs of the index. -/
def IdxTakes (H : Commit) (w : WitnessId) (l : List (Nat × Bundle)) (x : Index) : Prop :=
  (∀ e ∈ l, (∃ t ∈ OMap.vals e.2.known, t.assigns ≠ []) → OMap.contains x.contracts e.1 = true) ∧
  (∀ e ∈ l, ∀ t ∈ OMap.vals e.2.known, ∀ a ∈ t.assigned, ∀ s, a.seal? = some s → (s.toOutputWith w).isSome = true) ∧
  (∀ e ∈ l, ∀ e' ∈ l, e.2.id H = e'.2.id H → e.1 = e'.1) ∧
  (∀ e ∈ l, ∀ e' ∈ l, ∀ o, OMap.contains e.2.known o = true → OMap.contains e'.2.known o = true → e.2.id H = e'.2.id H) ∧
  (∀ e ∈ l, (∀ c, OMap.get? x.bundleContract (e.2.id H) = some c → c = e.1) ∧
    (∀ o i, OMap.contains e.2.known o = true → OMap.get? x.opBundle o = some i → i = e.2.id H))

theorem known_call {l : List (Nat × Bundle)} {w : WitnessId} {e : Nat × Bundle} (he : e ∈ l) {o : Nat} (ho : OMap.contains e.2.known o = true) :
    IdxCall.registerOperation o (e.2.id H) ∈ l.flatMap (fun e => Index.bundleCalls H e.1 e.2 w) := by
  obtain ⟨t, ht⟩ := OMap.contains_iff.mp ho
  have := OMap.mem_of_get? ht
  simp only [List.mem_flatMap, bundleCalls, List.mem_cons, List.mem_map]
  exact ⟨e, he, .inr ⟨_, this, .inl rfl⟩⟩

theorem bundle_call {l : List (Nat × Bundle)} {w : WitnessId} {e : Nat × Bundle} (he : e ∈ l) :
    IdxCall.registerBundle (e.2.id H) w e.1 ∈ l.flatMap (fun e => Index.bundleCalls H e.1 e.2 w) := by
  simp only [List.mem_flatMap, bundleCalls, List.mem_cons, List.mem_map]
  exact ⟨e, he, .inl rfl⟩

theorem idxTakes_of {w : WitnessId} {l : List (Nat × Bundle)} {x x' : Index}
    (h : IdxCall.execAll x (l.flatMap (fun e => Index.bundleCalls H e.1 e.2 w)) = (x', none)) : IdxTakes H w l x := by
  have hn : ∀ c, IdxCall.registerContract c ∉ l.flatMap (fun e => Index.bundleCalls H e.1 e.2 w) := by
    intro c hc
    obtain ⟨e, -, h | ⟨k, -, h | ⟨y, -, h⟩⟩⟩ := fasciaCalls_mem hc <;> cases h
  have ha := @assignments_done _ x x' hn h
  have hf := execAll_effect (l.flatMap (fun e => Index.bundleCalls H e.1 e.2 w)) x
  rw [h] at hf
  simp only at hf
  have hb : ∀ e ∈ l, OMap.get? x'.bundleContract (e.2.id H) = some e.1 := fun e he =>
    (hf.bComplete rfl (e.2.id H) w e.1 ⟨_, bundle_call he, by simp [callBundle]⟩).1
  have ho : ∀ e ∈ l, ∀ o, OMap.contains e.2.known o = true → OMap.get? x'.opBundle o = some (e.2.id H) := fun e he o hk =>
    hf.opComplete rfl o (e.2.id H) ⟨_, known_call he hk, by simp [callOp]⟩
  refine ⟨?_, ?_, ?_, ?_, ?_⟩
  · rintro e he ⟨t, ht, hne⟩
    obtain ⟨k, hk, rfl⟩ := List.mem_map.mp ht
    obtain ⟨y, hy⟩ := List.exists_mem_of_ne_nil _ hne
    refine (ha (c := e.1) (w := some w) (items := y.2.items) (opid := k.1) (ty := y.1) ?_).1
    simp only [List.mem_flatMap, bundleCalls, List.mem_cons, List.mem_map]
    exact ⟨e, he, .inr ⟨k, hk, .inr ⟨y, hy, rfl⟩⟩⟩
  · intro e he t ht a hat s hs
    obtain ⟨k, hk, rfl⟩ := List.mem_map.mp ht
    obtain ⟨y, hy, hay⟩ := List.mem_flatMap.mp hat
    refine (ha (c := e.1) (w := some w) (items := y.2.items) (opid := k.1) (ty := y.1) ?_).2 a hay s hs
    simp only [List.mem_flatMap, bundleCalls, List.mem_cons, List.mem_map]
    exact ⟨e, he, .inr ⟨k, hk, .inr ⟨y, hy, rfl⟩⟩⟩
  · intro e he e' he' hid
    have h1 := hb e he
    rw [hid, hb e' he'] at h1
    exact (Option.some.inj h1).symm
  · intro e he e' he' o h1 h2
    have := ho e he o h1
    rw [ho e' he' o h2] at this
    exact (Option.some.inj this).symm
  · intro e he
    refine ⟨fun c hc => ?_, fun o i hk hi => ?_⟩
    · have := hf.bcMono _ _ hc
      rw [hb e he] at this
      exact (Option.some.inj this).symm
    · have := hf.opMono _ _ hi
      rw [ho e he o hk] at this
      exact (Option.some.inj this).symm

theorem idxTakes_runs {w : WitnessId} {l : List (Nat × Bundle)} {x : Index} (h : IdxTakes H w l x)
    (hw : ∀ b, (mset x.bundleWitness b).length + (l.filter (fun e => decide (e.2.id H = b))).length ≤ 255)
    (ht : ∀ s, (mset x.terminals s).length + ((l.flatMap (fun e => OMap.vals e.2.known)).map (Op.hiddenTo H s)).sum ≤ 255) :
    ∃ x', IdxCall.execAll x (l.flatMap (fun e => Index.bundleCalls H e.1 e.2 w)) = (x', none) := by
  obtain ⟨h1, h2, h3, h4, h5⟩ := h
  have : Runs x (l.flatMap (fun e => Index.bundleCalls H e.1 e.2 w)) := by
    refine ⟨?_, ?_, ?_, ?_, ?_, ?_, ?_, ?_, ?_⟩
    · intro c w' items opid ty hm
      obtain ⟨e, he, h | ⟨k, hk, h | ⟨y, hy, h⟩⟩⟩ := fasciaCalls_mem hm <;> cases h
      exact h1 e he ⟨k.2, List.mem_map.mpr ⟨k, hk, rfl⟩, List.ne_nil_of_mem hy⟩
    · intro c w' items opid ty hm a ha sl hsl
      obtain ⟨e, he, h | ⟨k, hk, h | ⟨y, hy, h⟩⟩⟩ := fasciaCalls_mem hm <;> cases h
      exact h2 e he k.2 (List.mem_map.mpr ⟨k, hk, rfl⟩) a (mem_assigned hy ha) sl hsl
    · intro c hm
      obtain ⟨e, he, h | ⟨k, hk, h | ⟨y, hy, h⟩⟩⟩ := fasciaCalls_mem hm <;> cases h
    · intro b w' c hm c' hc'
      obtain ⟨e, he, h | ⟨k, hk, h | ⟨y, hy, h⟩⟩⟩ := fasciaCalls_mem hm <;> cases h
      exact (h5 e he).1 c' hc'
    · intro b w1 c w2 c' hm hm'
      obtain ⟨e, he, h | ⟨k, hk, h | ⟨y, hy, h⟩⟩⟩ := fasciaCalls_mem hm <;> cases h
      obtain ⟨e', he', h | ⟨k, hk, h | ⟨y, hy, h⟩⟩⟩ := fasciaCalls_mem hm'
      · injection h with i1 i2 i3
        rw [i3]; exact h3 e' he' e he i1.symm
      · cases h
      · cases h
    · intro b; rw [fasciaCalls_reg]; exact hw b
    · intro o b hm b' hb'
      obtain ⟨e, he, h | ⟨k, hk, h | ⟨y, hy, h⟩⟩⟩ := fasciaCalls_mem hm <;> cases h
      exact (h5 e he).2 _ b' (contains_of_mem hk) hb'
    · intro o b b' hm hm'
      obtain ⟨e, he, h | ⟨k, hk, h | ⟨y, hy, h⟩⟩⟩ := fasciaCalls_mem hm <;> cases h
      obtain ⟨e', he', h | ⟨k', hk', h | ⟨y, hy, h⟩⟩⟩ := fasciaCalls_mem hm'
      · cases h
      · injection h with i1 i2
        rw [i2]; exact h4 e' he' e he k.1 (i1 ▸ contains_of_mem hk') (contains_of_mem hk)
      · cases h
    · intro s; rw [fasciaCalls_hid]; exact ht s
  have h6 := execAll_runs _ this
  cases he : IdxCall.execAll x (l.flatMap (fun e => Index.bundleCalls H e.1 e.2 w)) with
  | mk x' o => rw [he] at h6; simp only at h6; subst h6; exact ⟨x', rfl⟩

/-! ### Stash -/

theorem shLoop_ok (hH : H.Binding) (l : List (Nat × Bundle)) (hl : ∀ e ∈ l, e.2.WF H) {s : MemStash} (hs : s.Good H) : ∃ s', ShLoop H l s s' := by
  induction l generalizing s with
  | nil => exact ⟨s, rfl⟩
  | cons e l ih =>
    obtain ⟨t, b, h1, h2, -⟩ := Rgb.bundle_ok hH hs (hl e (by simp))
    obtain ⟨s', hs'⟩ := ih (fun x hx => hl x (by simp [hx])) h2
    exact ⟨s', t, b, h1, hs'⟩

theorem anchor_merge_eq {a b r : Anchor} (h : a.merge b = .ok r) : a.proof = b.proof ∧ a.root = b.root := by
  unfold Anchor.merge at h
  split at h
  · cases h
  split at h
  · cases h
  rename_i h1 h2
  exact ⟨by simpa using h1, by simpa using h2⟩

theorem anchorOf_of_merge {a b r : AnchorSet} (h : a.merge b = .ok r) (m : CloseMethod) (x y : Anchor) (hx : anchorOf a m = some x)
    (hy : anchorOf b m = some y) : x.proof = y.proof ∧ x.root = y.root := by
  have sym : ∀ {p q : Anchor}, p.proof = q.proof ∧ p.root = q.root → q.proof = p.proof ∧ q.root = p.root := fun h => ⟨h.1.symm, h.2.symm⟩
  cases a <;> cases b <;> cases m <;> simp only [anchorOf, Option.some.injEq] at hx hy <;>
    first
    | (cases hx; done)
    | (cases hy; done)
    | skip
  all_goals subst hx; subst hy; simp only [AnchorSet.merge] at h
  all_goals first
    | (split at h
       · cases h
       · rename_i z hz
         obtain ⟨z', hz', -⟩ := Except.map_ok h
         first | exact anchor_merge_eq hz | exact anchor_merge_eq hz')
    | (obtain ⟨z, hz, -⟩ := Except.map_ok h
       first | exact anchor_merge_eq hz | exact sym (anchor_merge_eq hz))

theorem consumeWitness_iff {s : MemStash} (hs : s.Good H) {w : SealWitness} :
    (∃ t b, s.consumeWitness w = some (t, .ok b)) ↔
    ∀ sw, s.witness w.id = some sw → (sw.pub.pub.tx? = none ∨ w.pub.pub.tx?.isSome = true) ∧
      ∀ m a a', anchorOf sw.anchors m = some a → anchorOf w.anchors m = some a' → a.proof = a'.proof ∧ a.root = a'.root := by
  constructor
  · rintro ⟨t, b, h⟩ sw hsw
    simp only [MemStash.consumeWitness, hsw] at h
    cases hp : sw.pub.merge w.pub with
    | error e => rw [hp] at h; cases h
    | ok p =>
      rw [hp] at h
      simp only at h
      cases ha : sw.anchors.merge w.anchors with
      | error e => rw [ha] at h; cases h
      | ok a =>
        refine ⟨?_, anchorOf_of_merge ha⟩
        have := ((Props.C16_witness_merge_partial sw.pub w.pub).1.mp ⟨p, hp⟩).2
        cases htx : sw.pub.pub.tx? with
        | none => exact .inl rfl
        | some x => exact .inr (this (by rw [htx]; rfl))
  · intro h
    obtain ⟨t, b, h1, -⟩ := Rgb.witness_ok hs (w := w) (fun sw hsw => (h sw hsw).1) (fun sw hsw => Rgb.merge_of_anchorOf (h sw hsw).2)
    exact ⟨t, b, h1⟩

/-! ### Stock -/

theorem itemsResolve_of {w : WitnessId} {t : Op} (h : ∀ a ∈ t.assigned, ∀ s, a.seal? = some s → (s.toOutputWith w).isSome = true) :
    AssignsResolve (some w) t.assigns := by
  intro e he a ha x hx
  exact h a (mem_assigned he ha) _ (revealed?_seal hx)

theorem glimit_isSome {s : MemState} {c ty : Nat} : (glimit s c ty).isSome = true ↔ ∃ cs, OMap.get? s.contracts c = some cs ∧ OMap.contains cs.global ty = true := by
  unfold glimit
  cases hg : OMap.get? s.contracts c with
  | none => simp
  | some cs => simp [OMap.contains]

theorem consumeFascia_ok {k k' : Stock} {r : Resolver} {f : Fascia} : consumeFascia H r f k = some (k', none) ↔
    ∃ s u, k.stash.consumeWitness ⟨f.witness, f.anchor⟩ = some (s, .ok u) ∧
      fasciaBundles H r f.witness.id f.bundles { k with stash := s } = some (k', none) := by
  constructor
  · intro h
    exact fascia_done (I := ⟨fun _ => 0, fun _ => 0, fun x => x, fun _ => 0⟩) (M := ⟨fun _ _ _ => none⟩) (G := fun _ => ⟨0, []⟩) h
  · rintro ⟨s, u, h1, h2⟩
    simp only [consumeFascia, storeTx_mem, fasciaBody, h1, h2]
    rfl

theorem fascia_needs {k : Stock} (hk : k.stash.Good H) {r : Resolver} {f : Fascia} (hp : StockEvent.Proper H (.fascia f r))
    {k' : Stock} (h : consumeFascia H r f k = some (k', none)) : f.Coherent H r ∧ k.Consistent H f := by
  obtain ⟨s, u, h1, h2⟩ := consumeFascia_ok.1 h
  obtain ⟨-, b2, b3, -⟩ := fasciaBundles_iff.mp h2
  simp only at b2 b3
  obtain ⟨i1, i2, i3, i4, i5⟩ := idxTakes_of b2
  have st := (stLoop_takes f.bundles (fun e he => (hp e he).2)).mp ⟨_, b3⟩
  refine ⟨⟨fun hne => ?_, ?_, i3, i4⟩, ⟨fun e he => ?_, i1, i5, (consumeWitness_iff hk).1 ⟨s, u, h1⟩⟩⟩
  · obtain ⟨t, ht⟩ := List.exists_mem_of_ne_nil _ hne
    obtain ⟨e, he, hte⟩ := List.mem_flatMap.mp ht
    refine (st e he).2.1 (fun hnil => ?_)
    rw [hnil] at hte; cases hte
  · intro t ht
    obtain ⟨e, he, hte⟩ := List.mem_flatMap.mp ht
    exact i2 e he t hte
  · obtain ⟨s1, -, s3⟩ := st e he
    obtain ⟨cs, hcs⟩ := OMap.contains_iff.mp s1
    refine ⟨cs, hcs, fun t ht g hg => ?_⟩
    obtain ⟨cs', h1, h2⟩ := glimit_isSome.1 ((s3 t ht).1 g hg)
    rw [hcs] at h1; cases h1; exact h2

theorem fascia_accepts (hH : H.Binding) {k : Stock} (hk : k.stash.Good H) {r : Resolver} {f : Fascia} (hp : StockEvent.Proper H (.fascia f r))
    (hc : f.Coherent H r) (ha : k.Consistent H f) (hr : k.Holds H f) : ∃ k', consumeFascia H r f k = some (k', none) := by
  obtain ⟨s, u, h1⟩ := (consumeWitness_iff hk (w := ⟨f.witness, f.anchor⟩)).2 ha.witness
  have gs : s.Good H := ((MemStash.step_consumeWitness k.stash hk ⟨f.witness, f.anchor⟩).1 _ _ h1).1
  obtain ⟨x', hx⟩ := idxTakes_runs (H := H) (w := f.witness.id) (l := f.bundles) (x := k.index)
    ⟨ha.index, fun e he t ht => hc.seals t (List.mem_flatMap.mpr ⟨e, he, ht⟩), hc.bundles, hc.ops, ha.bundles⟩ hr.witnesses hr.terminals
  obtain ⟨t', ht⟩ := (stLoop_takes (H := H) (r := r) (w := f.witness.id) (s := k.state) f.bundles (fun e he => (hp e he).2)).mpr (fun e he => by
    obtain ⟨cs, c1, c2⟩ := ha.state e he
    refine ⟨OMap.contains_iff.mpr ⟨cs, c1⟩, fun hne => hc.resolved ?_, fun t ht => ⟨fun g hg => glimit_isSome.2 ⟨cs, c1, c2 t ht g hg⟩, ?_⟩⟩
    · obtain ⟨y, hy⟩ := List.exists_mem_of_ne_nil _ hne
      exact List.ne_nil_of_mem (List.mem_flatMap.mpr ⟨e, he, List.mem_map.mpr ⟨y, hy, rfl⟩⟩)
    · exact itemsResolve_of (hc.seals t (List.mem_flatMap.mpr ⟨e, he, ht⟩)))
  obtain ⟨s', hs⟩ := shLoop_ok hH f.bundles (fun e he => (hp e he).1) gs
  refine ⟨⟨s', t', x'⟩, consumeFascia_ok.2 ⟨s, u, h1, fasciaBundles_iff.mpr ⟨fun e he => ?_, hx, ht, hs⟩⟩⟩
  unfold BundleChecked
  rw [List.all_eq_true]
  intro o ho
  obtain ⟨y, hy, rfl⟩ := List.mem_map.mp ho
  obtain ⟨z, hz⟩ := OMap.contains_iff.mp (contains_of_mem hy)
  simpa using (hp e he).1.spent _ _ hz

end Rgb
