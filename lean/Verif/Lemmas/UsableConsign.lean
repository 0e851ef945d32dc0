import Verif.Lemmas.UsableStock

/-!
When consigning succeeds.
-/

namespace Rgb.Stock

open MemStash

variable {H : Commit} {E : Env} {k : Stock}

theorem selectValid_complete {s : MemState} {ws : List WitnessId} (hk : ∀ w ∈ ws, ∃ ord, OMap.get? s.witnesses w = some ord)
    (hv : ∃ w ∈ ws, ∃ ord, OMap.get? s.witnesses w = some ord ∧ ord.isValid = true) : ∃ w, s.selectValidWitness ws = .ok w := by
  induction ws with
  | nil => obtain ⟨w, h, -⟩ := hv; cases h
  | cons a ws ih =>
    simp only [MemState.selectValidWitness, MemState.isValidWitness]
    obtain ⟨ord, ho⟩ := hk a (by simp)
    simp only [ho]
    cases ev : ord.isValid with
    | true => exact ⟨a, rfl⟩
    | false =>
      refine ih (fun w hw => hk w (by simp [hw])) ?_
      obtain ⟨w, hw, o, h1, h2⟩ := hv
      rcases List.mem_cons.mp hw with rfl | hw
      · rw [ho] at h1; cases h1; rw [ev] at h2; cases h2
      · exact ⟨w, hw, o, h1, h2⟩

theorem anchorOf_knows {a : AnchorSet} {m : CloseMethod} {c : Nat} (h : a.knows m c) : ∃ x, anchorOf a m = some x ∧ c ∈ OMap.keys x.known := by
  cases a <;> cases m <;> simp only [AnchorSet.knows] at h <;> first | exact h.elim | exact ⟨_, rfl, h⟩

/-- When the client bundle can be made. -/
theorem clientBundle_complete (hE : E.Lawful) {b c : Nat} {ws : OSet WitnessId} {bundle : Bundle} (h1 : OMap.get? k.index.bundleWitness b = some ws)
    (h2 : OMap.get? k.index.bundleContract b = some c) (h3 : k.stash.bundle b = some bundle)
    (h4 : ∀ w ∈ ws, (∃ ord, OMap.get? k.state.witnesses w = some ord) ∧ ∃ sw, k.stash.witness w = some sw ∧ sw.anchors.knows bundle.closeMethod c)
    (h5 : ∃ w ∈ ws, ∃ ord, OMap.get? k.state.witnesses w = some ord ∧ ord.isValid = true) : ∃ cb, clientBundle E k b = .ok cb := by
  obtain ⟨w, hw⟩ := selectValid_complete (fun w hw => (h4 w hw).1) h5
  obtain ⟨-, sw, h6, h7⟩ := h4 w (selectValid_ok hw).1
  obtain ⟨a, h8, h9⟩ := anchorOf_knows h7
  obtain ⟨p, hp⟩ := Option.isSome_iff_exists.mp (hE a.root a.known c h9)
  simp only [clientBundle, bundleInfo_ok.mpr ⟨h1, h2⟩, h3, hw, h6, anchorFor_eq, h8, hp]
  exact ⟨_, rfl⟩

/-- All which is needed can be read. -/
structure Ready (E : Env) (k : Stock) (c : Nat) (N : Nat → Prop) : Prop where
  known : ∀ o, N o → ∃ b t cb, Knows k o b t ∧ clientBundle E k b = .ok cb
  parents : ∀ o b t, N o → Knows k o b t → ∀ p ∈ parents t, p ≠ c → N p

theorem visit_complete (hg : k.stash.Good H) {c : Nat} {N : Nat → Prop} (hr : Ready E k c N) {acc : ConsignAcc} (hi : Inv E k N acc) {o : Nat} (hn : N o) :
    ∃ acc' b t, consignVisit H E k acc o = .ok (acc', parents t) ∧ Knows k o b t ∧ Inv E k N acc' := by
  obtain ⟨b, t, cb, h1, h2⟩ := hr.known o hn
  have h3 : ((OMap.get? acc.anchored b).getD cb) = cb := by
    cases e : OMap.get? acc.anchored b with
    | none => rfl
    | some x => have := (hi.anchored _ _ e).1; rw [h2] at this; cases this; rfl
  have h4 : consignVisit H E k acc o = .ok ({ acc with anchored := OMap.insert acc.anchored b cb, transitions := OMap.insert acc.transitions o t }, parents t) := by
    simp only [consignVisit, transition_ok.mpr ⟨b, h1⟩, h1.id hg, bundleIdForOp_ok.mpr h1.1, h2, h3, reveal_known hg h1 h2]
  exact ⟨_, b, t, h4, h1, (consignVisit_ok hg hi hn h4).1⟩

theorem loop_complete (hg : k.stash.Good H) {c : Nat} {N : Nat → Prop} (hr : Ready E k c N) (fuel : Nat) (st : List Nat) {acc : ConsignAcc}
    (hi : Inv E k N acc) (hst : ∀ o ∈ st, o ≠ c → N o) {e : StockErr} : consignLoop H E k c fuel st acc ≠ some (.error e) := by
  induction fuel generalizing st acc with
  | zero => cases st <;> simp [consignLoop]
  | succ fuel ih =>
    cases st with
    | nil => simp [consignLoop]
    | cons o st =>
      simp only [consignLoop]
      by_cases hoc : o = c
      · simp only [hoc, if_true]
        exact ih st hi (fun x hx => hst x (by simp [hx]))
      · simp only [hoc, if_false]
        obtain ⟨acc', b, t, h1, h2, h3⟩ := visit_complete hg hr hi (hst o (by simp) hoc)
        simp only [h1]
        refine ih _ h3 (fun x hx hxc => ?_)
        rcases List.mem_append.mp hx with hx | hx
        · exact hr.parents o b t (hst o (by simp) hoc) h2 x (List.mem_reverse.mp hx) hxc
        · exact hst x (by simp [hx]) hxc

theorem addTerminals_complete {s b : Nat} (l : List Nat) {m : OMap Nat Nat} (h1 : l.count s ≤ 1) (h2 : s ∈ l → OMap.get? m b = none) :
    ∃ m', addTerminals (some s) b l m = some m' ∧ (m' = m ∨ (s ∈ l ∧ m' = OMap.insert m b s)) := by
  induction l generalizing m with
  | nil => exact ⟨m, rfl, .inl rfl⟩
  | cons a l ih =>
    simp only [addTerminals]
    by_cases ha : s = a
    · subst ha
      have hc : OMap.contains m b = false := by simp [OMap.contains, h2 (by simp)]
      simp only [if_true, hc, Bool.false_eq_true, if_false]
      have hn : s ∉ l := by
        intro hm
        have := List.count_pos_iff.mpr hm
        simp only [List.count_cons_self] at h1
        omega
      obtain ⟨m', h3, h4⟩ := ih (m := OMap.insert m b s) (by simp [List.count_eq_zero.mpr hn]) (fun h => absurd h hn)
      rcases h4 with h4 | ⟨h4, -⟩
      · exact ⟨m', h3, .inr ⟨by simp, h4⟩⟩
      · exact absurd h4 hn
    · simp only [Option.some.injEq, ha, if_false]
      rw [List.count_cons_of_ne (fun e => ha e.symm)] at h1
      obtain ⟨m', h3, h4⟩ := ih (m := m) h1 (fun h => h2 (by simp [h]))
      refine ⟨m', h3, h4.imp id (fun h => ⟨by simp [h.1], h.2⟩)⟩

/-- No bundle has two of the listed operations assigning to the seal, and no such operation does it twice. -/
def OnceEach (H : Commit) (k : Stock) (c : Nat) (secret : Option Nat) (ops : List Nat) : Prop :=
  ∀ s, secret = some s → (∀ o ∈ ops, o ≠ c → ∀ b t, Knows k o b t → (secretSeals H t).count s ≤ 1) ∧
    ops.Pairwise (fun o o' => o ≠ c → o' ≠ c → ∀ b t t', Knows k o b t → Knows k o' b t' → ¬ (s ∈ secretSeals H t ∧ s ∈ secretSeals H t'))

theorem opouts_complete (hg : k.stash.Good H) {c : Nat} {N : Nat → Prop} (hr : Ready E k c N) {secret : Option Nat} (ops : List Nat) {acc : ConsignAcc}
    (hi : Inv E k N acc) (hops : ∀ o ∈ ops, o ≠ c → N o) (h1 : OnceEach H k c secret ops)
    (h2 : ∀ s, secret = some s → ∀ o ∈ ops, o ≠ c → ∀ b t, Knows k o b t → s ∈ secretSeals H t → OMap.get? acc.terminals b = none) :
    ∃ acc', consignOpouts H E k c secret ops acc = .ok acc' := by
  induction ops generalizing acc with
  | nil => exact ⟨acc, rfl⟩
  | cons o ops ih =>
    simp only [consignOpouts]
    have h1' : OnceEach H k c secret ops := fun s hs => ⟨fun o ho => (h1 s hs).1 o (by simp [ho]), (List.pairwise_cons.mp (h1 s hs).2).2⟩
    by_cases hoc : o = c
    · simp only [consignOpout, hoc, if_true]
      exact ih hi (fun x hx => hops x (by simp [hx])) h1' (fun s hs x hx => h2 s hs x (by simp [hx]))
    · obtain ⟨b, t, cb, h3, h4⟩ := hr.known o (hops o (by simp) hoc)
      have h5 : ∃ terms, addTerminals secret b (secretSeals H t) acc.terminals = some terms ∧
          (terms = acc.terminals ∨ ∃ s, secret = some s ∧ s ∈ secretSeals H t ∧ terms = OMap.insert acc.terminals b s) := by
        cases secret with
        | none => exact ⟨_, addTerminals_none _ _, .inl rfl⟩
        | some s =>
          obtain ⟨m', h5, h6⟩ := addTerminals_complete (s := s) (b := b) (secretSeals H t) (m := acc.terminals) ((h1 s rfl).1 o (by simp) hoc b t h3)
            (fun h => h2 s rfl o (by simp) hoc b t h3 h)
          exact ⟨m', h5, h6.imp id (fun h => ⟨s, rfl, h⟩)⟩
      obtain ⟨terms, h5, h6⟩ := h5
      have h7 : ∃ a, consignOpout H E k c secret acc o = .ok a ∧ a.terminals = terms := by
        simp only [consignOpout, hoc, if_false, transition_ok.mpr ⟨b, h3⟩, h3.id hg, bundleIdForOp_ok.mpr h3.1, h5, h4]
        split <;> exact ⟨_, rfl, rfl⟩
      obtain ⟨a, h7, h8⟩ := h7
      simp only [h7]
      refine ih (consignOpout_ok hg hi (hops o (by simp)) h7).1 (fun x hx => hops x (by simp [hx])) h1' (fun s hs x hx hxc b' t' hk hm => ?_)
      rw [h8]
      rcases h6 with rfl | ⟨s', hs', hm', rfl⟩
      · exact h2 s hs x (by simp [hx]) hxc b' t' hk hm
      · rw [hs] at hs'; cases hs'
        have hbb : b' ≠ b := by
          rintro rfl
          exact (List.pairwise_cons.mp (h1 s hs).2).1 x hx hoc hxc b' t t' h3 hk ⟨hm', hm⟩
        rw [OMap.get?_insert_ne _ _ hbb]
        exact h2 s hs x (by simp [hx]) hxc b' t' hk hm

/-- The witness under which a bundle is put. -/
def Sel (H : Commit) (k : Stock) (cb : ClientBundle) (w : WitnessId) : Prop :=
  ∃ ws, OMap.get? k.index.bundleWitness (cb.bundle.id H) = some ws ∧ k.state.selectValidWitness ws = .ok w

/-- The proofs are under their methods. -/
def Fits : AnchoredBundles → Prop
  | .tapret t => t.dbc.method = .tapretFirst
  | .opret o => o.dbc.method = .opretFirst
  | .double t o => t.dbc.method = .tapretFirst ∧ o.dbc.method = .opretFirst

theorem fits_of (cb : ClientBundle) : Fits (AnchoredBundles.of cb) := by
  simp only [AnchoredBundles.of]
  split <;> simp_all [Fits]

theorem group_complete (hg : k.stash.Good H) (cbs : List ClientBundle) (m : OMap WitnessId WitnessBundle)
    (hcb : ∀ cb ∈ cbs, clientBundle E k (cb.bundle.id H) = .ok cb)
    (hm : ∀ w wb, OMap.get? m w = some wb → Fits wb.anchored ∧ ∀ x ∈ wb.anchored.list, ∀ cb ∈ cbs, Sel H k cb w → x.dbc.method ≠ cb.dbc.method)
    (hp : cbs.Pairwise (fun x y => ∀ w, Sel H k x w → Sel H k y w → x.dbc.method ≠ y.dbc.method)) :
    ∃ m', groupBundles H k cbs m = .ok m' := by
  induction cbs generalizing m with
  | nil => exact ⟨m, rfl⟩
  | cons cb cbs ih =>
    obtain ⟨hp1, hp2⟩ := List.pairwise_cons.mp hp
    obtain ⟨-, ws, c, w, sw, a, i1, i2, i3, i4, -⟩ := clientBundle_ok (hcb cb (by simp))
    have hsel : Sel H k cb w := ⟨ws, i1, i3⟩
    simp only [groupBundles, bundleInfo_ok.mpr ⟨i1, i2⟩, i3, i4]
    cases e : OMap.get? m w with
    | none =>
      simp only
      refine ih _ (fun x hx => hcb x (by simp [hx])) (fun w' wb h => ?_) hp2
      simp only [OMap.get?_insert] at h
      split at h
      · rename_i hw; subst hw; cases h
        refine ⟨fits_of cb, fun x hx y hy hs => ?_⟩
        have hl : (WitnessBundle.with_ sw.pub cb).anchored.list = [cb] := by
          simp only [WitnessBundle.with_, AnchoredBundles.of]; split <;> rfl
        rw [hl, List.mem_singleton] at hx
        subst hx
        exact hp1 y hy _ hsel hs
      · obtain ⟨h1, h2⟩ := hm _ _ h
        exact ⟨h1, fun x hx y hy => h2 x hx y (by simp [hy])⟩
    | some wb =>
      obtain ⟨h1, h2⟩ := hm _ _ e
      have hd : ∃ wb', wb.intoDouble cb = .ok wb' ∧ Fits wb'.anchored ∧ ∀ x ∈ wb'.anchored.list, x = cb ∨ x ∈ wb.anchored.list := by
        have h3 := fun x hx => h2 x hx cb (by simp) hsel
        cases ha : wb.anchored with
        | tapret t =>
          rw [ha] at h1 h3
          have := h3 t (by simp [AnchoredBundles.list])
          simp only [Fits] at h1
          cases hmeth : cb.dbc.method with
          | tapretFirst => rw [h1, hmeth] at this; exact absurd rfl this
          | opretFirst =>
            refine ⟨{ wb with anchored := .double t cb }, by simp [WitnessBundle.intoDouble, ha, hmeth], (⟨h1, hmeth⟩ : _ ∧ _), fun x hx => ?_⟩
            simp only [AnchoredBundles.list, List.mem_cons, List.not_mem_nil, or_false] at hx ⊢
            exact hx.symm
        | opret t =>
          rw [ha] at h1 h3
          have := h3 t (by simp [AnchoredBundles.list])
          simp only [Fits] at h1
          cases hmeth : cb.dbc.method with
          | opretFirst => rw [h1, hmeth] at this; exact absurd rfl this
          | tapretFirst =>
            refine ⟨{ wb with anchored := .double cb t }, by simp [WitnessBundle.intoDouble, ha, hmeth], (⟨hmeth, h1⟩ : _ ∧ _), fun x hx => ?_⟩
            simp only [AnchoredBundles.list, List.mem_cons, List.not_mem_nil, or_false] at hx ⊢
            exact hx
        | double t o =>
          rw [ha] at h1 h3
          have t1 := h3 t (by simp [AnchoredBundles.list])
          have t2 := h3 o (by simp [AnchoredBundles.list])
          rw [h1.1] at t1
          rw [h1.2] at t2
          cases hmeth : cb.dbc.method <;> simp_all
      obtain ⟨wb', hd1, hd2, hd3⟩ := hd
      simp only [hd1]
      refine ih _ (fun x hx => hcb x (by simp [hx])) (fun w' wb'' h => ?_) hp2
      simp only [OMap.get?_insert] at h
      split at h
      · rename_i hw; subst hw; cases h
        refine ⟨hd2, fun x hx y hy hs => ?_⟩
        rcases hd3 x hx with rfl | hx
        · exact hp1 y hy _ hsel hs
        · exact h2 x hx y (by simp [hy]) hs
      · rw [OMap.get?_erase] at h
        split at h
        · cases h
        · obtain ⟨h1, h2⟩ := hm _ _ h
          exact ⟨h1, fun x hx y hy => h2 x hx y (by simp [hy])⟩

theorem ifaces_complete (l : OMap Nat IimplDoc) (m : OMap IfaceDoc IimplDoc) (P : IfaceDoc → Prop)
    (h : ∀ e ∈ l, ∃ d, k.stash.ifaceByName e.1 = some d ∧ P d) (hm : ∀ d ∈ OMap.keys m, P d) :
    ∃ m', consignIfaces k l m = .ok m' ∧ ∀ d ∈ OMap.keys m', P d := by
  induction l generalizing m with
  | nil => exact ⟨m, rfl, hm⟩
  | cons e l ih =>
    obtain ⟨d, h1, h2⟩ := h e (by simp)
    simp only [consignIfaces, h1]
    refine ih _ (fun e' he' => h e' (by simp [he'])) (fun d' hd' => ?_)
    rcases OMap.mem_keys_insert.mp hd' with rfl | hd'
    · exact h2
    · exact hm _ hd'

theorem extract_complete {s : MemStash} {sd : SchemaDoc} {ifaces : List IfaceDoc} (h1 : ∀ t ∈ E.schemaTypes sd, t ∈ s.types)
    (h2 : ∀ d ∈ ifaces, ∀ t ∈ E.ifaceTypes d, t ∈ s.types) (h3 : ∀ l ∈ E.schemaLibs sd, (s.lib l).isSome = true) :
    ∃ p, extract E s sd ifaces = .ok p := by
  simp only [extract]
  split
  · rename_i t ht
    have h4 := List.find?_some ht
    have h5 := List.mem_of_find?_eq_some ht
    simp only [decide_eq_true_eq] at h4
    rcases List.mem_append.mp h5 with h5 | h5
    · exact absurd (h1 t h5) h4
    · obtain ⟨d, hd, h5⟩ := List.mem_flatMap.mp h5
      exact absurd (h2 d hd t h5) h4
  · split
    · rename_i l hl
      have h4 := List.find?_some hl
      have h5 := h3 l (List.mem_of_find?_eq_some hl)
      rw [Option.isNone_iff_eq_none] at h4
      rw [h4] at h5; cases h5
    · exact ⟨_, rfl⟩

theorem length_insert_le {κ ν : Type} [Key κ] [DecidableEq κ] (m : OMap κ ν) (a : κ) (b : ν) : (OMap.insert m a b).length ≤ m.length + 1 := by
  induction m with
  | nil => simp [OMap.insert]
  | cons e m ih =>
    simp only [OMap.insert]
    split
    · simp
    · split <;> simp <;> omega

theorem length_extend_le {κ ν : Type} [Key κ] [DecidableEq κ] (l : List (κ × ν)) (m : OMap κ ν) : (OMap.extend m l).length ≤ m.length + l.length := by
  induction l generalizing m with
  | nil => simp [OMap.extend]
  | cons e l ih =>
    rw [OMap.extend_cons]
    have h1 := ih (OMap.insert m e.1 e.2)
    have h2 := length_insert_le m e.1 e.2
    simp only [List.length_cons]; omega

theorem length_oset_insert_le {α : Type} [Key α] [DecidableEq α] (m : OSet α) (a : α) : (OSet.insert m a).length ≤ m.length + 1 := by
  induction m with
  | nil => simp [OSet.insert]
  | cons e m ih =>
    simp only [OSet.insert]
    split
    · simp
    · split <;> simp <;> omega

theorem length_oset_extend_le {α : Type} [Key α] [DecidableEq α] (l : List α) (m : OSet α) : (OSet.extend m l).length ≤ m.length + l.length := by
  induction l generalizing m with
  | nil => simp [OSet.extend]
  | cons e l ih =>
    have h1 := ih (OSet.insert m e)
    have h2 := length_oset_insert_le m e
    have h3 : OSet.extend m (e :: l) = OSet.extend (OSet.insert m e) l := rfl
    rw [h3]
    simp only [List.length_cons]; omega

theorem length_consignIfaces (l : OMap Nat IimplDoc) (m m' : OMap IfaceDoc IimplDoc) (h : consignIfaces k l m = .ok m') :
    m'.length ≤ m.length + l.length := by
  induction l generalizing m with
  | nil => cases h; simp
  | cons e l ih =>
    simp only [consignIfaces] at h
    split at h
    · cases h
    · rename_i d _
      have h1 := ih _ h
      have h2 := length_insert_le m d e.2
      simp only [List.length_cons]; omega

theorem length_contents {I : Ids} {c i : Nat} (m : OMap IfaceDoc IimplDoc) : (consignContents I E c i m).length = 2 + 2 * m.length := by
  simp only [consignContents, List.length_cons, List.length_flatMap]
  induction m with
  | nil => rfl
  | cons e m ih => simp at ih ⊢; omega

theorem annotations_few {s : MemStash} {I : Ids} {c i : Nat} {m : OMap IfaceDoc IimplDoc} (h : m.length ≤ 126) :
    ¬ (consignSuppl s (consignContents I E c i m)).length > tinyMax ∧ ¬ (consignSigs s (consignContents I E c i m)).length > tinyMax := by
  have h0 := length_contents (I := I) (E := E) (c := c) (i := i) m
  have h1 : (consignSuppl s (consignContents I E c i m)).length ≤ (consignContents I E c i m).length := by
    have h1 := length_oset_extend_le ((consignContents I E c i m).filterMap s.supplement) []
    have h2 := List.length_filterMap_le s.supplement (consignContents I E c i m)
    simp only [List.length_nil] at h1
    exact Nat.le_trans (by simpa [consignSuppl, OSet.ofList] using h1) h2
  have h2 : (consignSigs s (consignContents I E c i m)).length ≤ (consignContents I E c i m).length := by
    have h1 := length_extend_le ((consignContents I E c i m).filterMap (fun r => (s.sigsFor r).map (fun m => (r, m)))) []
    have h2 := List.length_filterMap_le (fun r => (s.sigsFor r).map (fun m => (r, m))) (consignContents I E c i m)
    simp only [List.length_nil] at h1
    exact Nat.le_trans (by simpa [consignSigs, OMap.ofList] using h1) h2
  simp only [tinyMax]
  omega

/-- Consigning succeeds whenever it's finished. -/
theorem consign_complete (hg : k.stash.Good H) {I : Ids} {c : Nat} {outputs : List Outpoint} {secret : Option Nat} {N : Nat → Prop}
    (hr : Ready E k c N) {ops : List Nat} (hops : consignOps k c outputs secret = .ok ops) (hn : ∀ o ∈ ops, o ≠ c → N o)
    (hone : OnceEach H k c secret ops)
    (hsel : ∀ o o' b b' t t' cb cb', N o → N o' → Knows k o b t → Knows k o' b' t' → clientBundle E k b = .ok cb → clientBundle E k b' = .ok cb' →
      b ≠ b' → ∀ w, Sel H k cb w → Sel H k cb' w → cb.dbc.method ≠ cb'.dbc.method)
    {g : Op} {si : SchemaIfaces} (h1 : k.stash.genesis c = some g) (h2 : k.stash.schema (I.genesisSchema g) = some si)
    (h3 : ∀ e ∈ si.iimpls, ∃ d, k.stash.ifaceByName e.1 = some d ∧ ∀ t ∈ E.ifaceTypes d, t ∈ k.stash.types)
    (h4 : ∀ t ∈ E.schemaTypes si.doc, t ∈ k.stash.types) (h5 : ∀ l ∈ E.schemaLibs si.doc, (k.stash.lib l).isSome = true)
    (hfew : si.iimpls.length ≤ 126) (fuel : Nat) (e : StockErr) : consign H I E fuel k c outputs secret ≠ some (.error e) := by
  have hinit : Inv E k N {} := ⟨.nil, .nil, by simp, by simp⟩
  obtain ⟨acc₀, e2⟩ := opouts_complete hg hr ops hinit hn hone (fun _ _ _ _ _ _ _ _ _ => rfl)
  obtain ⟨i1, -, -⟩ := consignOpouts_ok hg ops hinit hn e2
  simp only [consign, hops, e2]
  have hst : ∀ o ∈ ((OMap.vals acc₀.transitions).flatMap parents).reverse, o ≠ c → N o := by
    intro o ho hoc
    simp only [List.mem_reverse, List.mem_flatMap] at ho
    obtain ⟨t, ht, hp⟩ := ho
    obtain ⟨x, hx⟩ := (mem_vals i1.sortedT).mp ht
    obtain ⟨n, b, hk, -⟩ := i1.trans _ _ hx
    exact hr.parents x b t n hk o hp hoc
  cases e3 : consignLoop H E k c fuel ((OMap.vals acc₀.transitions).flatMap parents).reverse acc₀ with
  | none => simp
  | some r =>
  cases r with
  | error x => exact absurd e3 (loop_complete hg hr fuel _ i1 hst)
  | ok acc =>
  obtain ⟨i2, -⟩ := consignLoop_ok hg hr.parents fuel _ i1 hst (fun o t ho p hp hpc => by
      right
      simp only [List.mem_reverse, List.mem_flatMap]
      exact ⟨t, (mem_vals i1.sortedT).mpr ⟨o, ho⟩, hp⟩) e3
  have hid : ∀ b cb, OMap.get? acc.anchored b = some cb → cb.bundle.id H = b :=
    fun b cb h => (hg.bundle _ _ (clientBundle_ok (i2.anchored _ _ h).1).1).1
  obtain ⟨groups, e7⟩ := group_complete (E := E) hg (OMap.vals acc.anchored) [] (fun cb hcb => by
    obtain ⟨b, hb⟩ := (mem_vals i2.sortedA).mp hcb
    rw [hid b cb hb]
    exact (i2.anchored _ _ hb).1) (by simp) (by
    simp only [OMap.vals, List.pairwise_map]
    refine List.Pairwise.imp_of_mem ?_ (List.pairwise_map.mp i2.sortedA.nodup)
    intro x y hx hy hxy w s1 s2
    have gx := i2.sortedA.get?_of_mem hx
    have gy := i2.sortedA.get?_of_mem hy
    obtain ⟨c1, o1, t1, n1, k1⟩ := i2.anchored _ _ gx
    obtain ⟨c2, o2, t2, n2, k2⟩ := i2.anchored _ _ gy
    exact hsel _ _ _ _ _ _ _ _ n1 n2 k1 k2 c1 c2 hxy w s1 s2)
  obtain ⟨ifaces, e6, h6⟩ := ifaces_complete (k := k) si.iimpls [] (fun d => ∀ t ∈ E.ifaceTypes d, t ∈ k.stash.types) h3 (by simp [OMap.keys])
  obtain ⟨⟨types, scripts⟩, e8⟩ := extract_complete (E := E) (ifaces := OMap.keys ifaces) h4 h6 h5
  have h7 := length_consignIfaces _ _ _ e6
  have h8 := annotations_few (s := k.stash) (I := I) (E := E) (c := c) (i := I.genesisSchema g) (m := ifaces) (by simp at h7; omega)
  simp [consignFinish, h1, h2, e6, e7, e8, h8]

end Rgb.Stock

namespace Rgb.Stock

open MemStash

variable {H : Commit} {E : Env} {k : Stock}

/-- Under these conditions nothing but the assertion may fail. -/
theorem opouts_result (hg : k.stash.Good H) {c : Nat} {N : Nat → Prop} (hr : Ready E k c N) {secret : Option Nat} (ops : List Nat) {acc : ConsignAcc}
    (hi : Inv E k N acc) (hops : ∀ o ∈ ops, o ≠ c → N o) :
    (∃ acc', consignOpouts H E k c secret ops acc = .ok acc') ∨ consignOpouts H E k c secret ops acc = .error .panic := by
  induction ops generalizing acc with
  | nil => exact .inl ⟨acc, rfl⟩
  | cons o ops ih =>
    simp only [consignOpouts]
    by_cases hoc : o = c
    · simp only [consignOpout, hoc, if_true]
      exact ih hi (fun x hx => hops x (by simp [hx]))
    · obtain ⟨b, t, cb, h3, h4⟩ := hr.known o (hops o (by simp) hoc)
      cases h5 : addTerminals secret b (secretSeals H t) acc.terminals with
      | none =>
        right
        simp only [consignOpout, hoc, if_false, transition_ok.mpr ⟨b, h3⟩, h3.id hg, bundleIdForOp_ok.mpr h3.1, h5]
      | some terms =>
        have h7 : ∃ a, consignOpout H E k c secret acc o = .ok a := by
          simp only [consignOpout, hoc, if_false, transition_ok.mpr ⟨b, h3⟩, h3.id hg, bundleIdForOp_ok.mpr h3.1, h5, h4]
          split <;> exact ⟨_, rfl⟩
        obtain ⟨a, h7⟩ := h7
        simp only [h7]
        exact ih (consignOpout_ok hg hi (hops o (by simp)) h7).1 (fun x hx => hops x (by simp [hx]))

/-- The converse of `opouts_complete`. -/
theorem opouts_once (hg : k.stash.Good H) {c : Nat} {secret : Option Nat} (ops : List Nat) {acc acc' : ConsignAcc}
    (h : consignOpouts H E k c secret ops acc = .ok acc') : OnceEach H k c secret ops ∧
      ∀ s, secret = some s → ∀ o ∈ ops, o ≠ c → ∀ b t, Knows k o b t → s ∈ secretSeals H t → OMap.get? acc.terminals b = none := by
  induction ops generalizing acc with
  | nil => exact ⟨fun s _ => ⟨by simp, .nil⟩, by simp⟩
  | cons o ops ih =>
    simp only [consignOpouts] at h
    cases e : consignOpout H E k c secret acc o with
    | error x => simp [e] at h
    | ok a =>
    simp only [e] at h
    obtain ⟨i1, i2⟩ := ih h
    by_cases hoc : o = c
    · simp only [consignOpout, hoc, if_true] at e
      cases e
      refine ⟨fun s hs => ⟨fun x hx hxc => ?_, List.pairwise_cons.mpr ⟨fun x hx h1 => absurd hoc h1, (i1 s hs).2⟩⟩, fun s hs x hx hxc => ?_⟩
      · rcases List.mem_cons.mp hx with rfl | hx
        · exact absurd hoc hxc
        · exact (i1 s hs).1 x hx hxc
      · rcases List.mem_cons.mp hx with rfl | hx
        · exact absurd hoc hxc
        · exact i2 s hs x hx hxc
    simp only [consignOpout, hoc, if_false] at e
    cases e1 : k.transition o with
    | error x => simp [e1] at e
    | ok t =>
    obtain ⟨b, hk⟩ := transition_ok.mp e1
    simp only [e1, hk.id hg, bundleIdForOp_ok.mpr hk.1] at e
    cases e2 : addTerminals secret b (secretSeals H t) acc.terminals with
    | none => simp [e2] at e
    | some terms =>
    simp only [e2] at e
    have ha : a.terminals = terms := by
      split at e
      · cases e; rfl
      · split at e
        · cases e
        · cases e; rfl
    rw [ha] at i2
    have key : ∀ s, secret = some s → (s ∉ secretSeals H t ∧ terms = acc.terminals) ∨ (s ∈ secretSeals H t ∧ (secretSeals H t).count s ≤ 1 ∧
        OMap.get? acc.terminals b = none ∧ terms = OMap.insert acc.terminals b s) := by
      intro s hs
      subst hs
      rcases addTerminals_some _ e2 with ⟨h1, rfl⟩ | ⟨h1, h2, h3, rfl⟩
      · exact .inl ⟨h1, rfl⟩
      · exact .inr ⟨h1, Nat.le_of_eq h2, h3, rfl⟩
    refine ⟨fun s hs => ⟨fun x hx hxc b' t' hk' => ?_, List.pairwise_cons.mpr ⟨fun x hx _ hxc b' t₁ t' hk₁ hk' hm => ?_, (i1 s hs).2⟩⟩,
      fun s hs x hx hxc b' t' hk' hm => ?_⟩
    · rcases List.mem_cons.mp hx with rfl | hx
      · obtain ⟨rfl, rfl⟩ := hk.unique hk'
        rcases key s hs with ⟨h1, -⟩ | ⟨-, h1, -⟩
        · rw [List.count_eq_zero.mpr h1]; omega
        · exact h1
      · exact (i1 s hs).1 x hx hxc b' t' hk'
    · obtain ⟨rfl, rfl⟩ := hk.unique hk₁
      rcases key s hs with ⟨h1, -⟩ | ⟨-, -, -, h2⟩
      · exact h1 hm.1
      · have := i2 s hs x hx hxc _ t' hk' hm.2
        rw [h2] at this
        simp at this
    · rcases List.mem_cons.mp hx with rfl | hx
      · obtain ⟨rfl, rfl⟩ := hk.unique hk'
        rcases key s hs with ⟨h1, -⟩ | ⟨-, -, h1, -⟩
        · exact absurd hm h1
        · exact h1
      · have := i2 s hs x hx hxc b' t' hk' hm
        rcases key s hs with ⟨-, rfl⟩ | ⟨-, -, -, rfl⟩
        · exact this
        · rw [OMap.get?_insert] at this
          split at this
          · cases this
          · exact this

/-- Consigning panics whenever the condition isn't met. -/
theorem consign_panics (hg : k.stash.Good H) {I : Ids} {c : Nat} {outputs : List Outpoint} {secret : Option Nat} {N : Nat → Prop}
    (hr : Ready E k c N) {ops : List Nat} (hops : consignOps k c outputs secret = .ok ops) (hn : ∀ o ∈ ops, o ≠ c → N o)
    (hone : ¬ OnceEach H k c secret ops) (fuel : Nat) : consign H I E fuel k c outputs secret = some (.error .panic) := by
  have hinit : Inv E k N {} := ⟨.nil, .nil, by simp, by simp⟩
  rcases opouts_result (secret := secret) hg hr ops hinit hn with ⟨acc₀, h⟩ | h
  · exact absurd (opouts_once hg ops h).1 hone
  · simp only [consign, hops, h]

end Rgb.Stock
