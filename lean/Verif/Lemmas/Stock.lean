import Verif.Spec.Stock
import Verif.Lemmas.Stash

/-!
Lemmas on consigning.
-/

namespace Rgb.Stock

open MemStash

variable {H : Commit} {E : Env} {k : Stock}

theorem Knows.unique {o b b' : Nat} {t t' : Op} (h : Knows k o b t) (h' : Knows k o b' t') : b = b' ∧ t = t' := by
  obtain ⟨h1, x, h2, h3⟩ := h
  obtain ⟨h1', x', h2', h3'⟩ := h'
  rw [h1] at h1'; cases h1'
  rw [h2] at h2'; cases h2'
  rw [h3] at h3'; cases h3'
  exact ⟨rfl, rfl⟩

theorem transition_ok {o : Nat} {t : Op} : k.transition o = .ok t ↔ ∃ b, Knows k o b t := by
  simp only [transition, Index.bundleIdForOp, Knows]
  cases h1 : OMap.get? k.index.opBundle o with
  | none => simp
  | some b =>
    simp only
    cases h2 : k.stash.bundle b with
    | none => simp [h2]
    | some x =>
      simp only
      cases h3 : OMap.get? x.known o with
      | none => simp [h2, h3]
      | some t' => simp [h2, h3]

theorem Knows.id (hg : k.stash.Good H) {o b : Nat} {t : Op} (h : Knows k o b t) : t.id H = o := by
  obtain ⟨-, x, h2, h3⟩ := h
  exact ((hg.bundle _ _ h2).2.keyed _ _ h3).1

theorem bundleIdForOp_ok {x : Index} {o b : Nat} : x.bundleIdForOp o = .ok b ↔ OMap.get? x.opBundle o = some b := by
  simp only [Index.bundleIdForOp]
  split <;> simp_all

theorem bundleInfo_ok {x : Index} {b c : Nat} {ws : OSet WitnessId} : x.bundleInfo b = .ok (ws, c) ↔
    OMap.get? x.bundleWitness b = some ws ∧ OMap.get? x.bundleContract b = some c := by
  simp only [Index.bundleInfo]
  cases OMap.get? x.bundleWitness b <;> simp
  cases OMap.get? x.bundleContract b <;> simp

theorem anchorFor_eq (a : AnchorSet) (m : CloseMethod) : anchorFor a m = anchorOf a m := by
  cases a <;> cases m <;> rfl

theorem selectValid_ok {s : MemState} {ws : List WitnessId} {w : WitnessId} (h : s.selectValidWitness ws = .ok w) :
    w ∈ ws ∧ ∃ ord, OMap.get? s.witnesses w = some ord ∧ ord.isValid = true := by
  induction ws with
  | nil => simp [MemState.selectValidWitness] at h
  | cons a ws ih =>
    simp only [MemState.selectValidWitness, MemState.isValidWitness] at h
    cases e : OMap.get? s.witnesses a with
    | none => simp [e] at h
    | some ord =>
      simp only [e] at h
      cases ev : ord.isValid with
      | true =>
        simp only [ev] at h; cases h
        exact ⟨by simp, ord, e, ev⟩
      | false =>
        simp only [ev] at h
        obtain ⟨h1, h2⟩ := ih h
        exact ⟨by simp [h1], h2⟩

/-- What `client_bundle` returns. -/
theorem clientBundle_ok {b : Nat} {cb : ClientBundle} (h : clientBundle E k b = .ok cb) :
    k.stash.bundle b = some cb.bundle ∧
    ∃ ws c w sw a, OMap.get? k.index.bundleWitness b = some ws ∧ OMap.get? k.index.bundleContract b = some c ∧
      k.state.selectValidWitness ws = .ok w ∧ k.stash.witness w = some sw ∧
      anchorOf sw.anchors cb.bundle.closeMethod = some a ∧ cb.dbc = ⟨cb.bundle.closeMethod, a.proof⟩ ∧
      E.toProof a.root a.known c = some cb.mpc := by
  simp only [clientBundle] at h
  cases e1 : k.index.bundleInfo b with
  | error e => simp [e1] at h
  | ok p =>
  obtain ⟨ws, c⟩ := p
  simp only [e1] at h
  cases e2 : k.stash.bundle b with
  | none => simp [e2] at h
  | some bundle =>
  simp only [e2] at h
  cases e3 : k.state.selectValidWitness ws with
  | error e => simp [e3] at h
  | ok w =>
  simp only [e3] at h
  cases e4 : k.stash.witness w with
  | none => simp [e4] at h
  | some sw =>
  simp only [e4, anchorFor_eq] at h
  cases e5 : anchorOf sw.anchors bundle.closeMethod with
  | none => simp [e5] at h
  | some a =>
  simp only [e5] at h
  cases e6 : E.toProof a.root a.known c with
  | none => simp [e6] at h
  | some p =>
    simp only [e6] at h
    cases h
    obtain ⟨i1, i2⟩ := bundleInfo_ok.mp e1
    exact ⟨rfl, ws, c, w, sw, a, i1, i2, e3, e4, e5, rfl, e6⟩

/-- What is kept during consigning. -/
structure Inv (E : Env) (k : Stock) (N : Nat → Prop) (acc : ConsignAcc) : Prop where
  sortedA : OMap.Sorted acc.anchored
  sortedT : OMap.Sorted acc.transitions
  anchored : ∀ b cb, OMap.get? acc.anchored b = some cb → clientBundle E k b = .ok cb ∧ ∃ o t, N o ∧ Knows k o b t
  trans : ∀ o t, OMap.get? acc.transitions o = some t → N o ∧ ∃ b, Knows k o b t ∧ (OMap.get? acc.anchored b).isSome = true

theorem Inv.add {N : Nat → Prop} {acc : ConsignAcc} (hi : Inv E k N acc) {o b : Nat} {t : Op} {cb : ClientBundle} (hn : N o)
    (hk : Knows k o b t) (hc : clientBundle E k b = .ok cb) (terms : OMap Nat Nat) :
    Inv E k N { anchored := OMap.insert acc.anchored b cb, transitions := OMap.insert acc.transitions o t, terminals := terms } := by
  refine ⟨hi.sortedA.insert _ _, hi.sortedT.insert _ _, fun b' cb' h => ?_, fun o' t' h => ?_⟩
  · simp only [OMap.get?_insert] at h
    split at h
    · rename_i e; subst e; cases h
      exact ⟨hc, o, t, hn, hk⟩
    · exact hi.anchored _ _ h
  · have keep : ∀ x, (OMap.get? acc.anchored x).isSome = true → (OMap.get? (OMap.insert acc.anchored b cb) x).isSome = true := by
      intro x hx
      simp only [OMap.get?_insert]
      split <;> simp_all
    simp only [OMap.get?_insert] at h
    split at h
    · rename_i e; subst e; cases h
      exact ⟨hn, b, hk, by simp⟩
    · obtain ⟨h1, b', h2, h3⟩ := hi.trans _ _ h
      exact ⟨h1, b', h2, keep _ h3⟩

theorem Inv.addTrans {N : Nat → Prop} {acc : ConsignAcc} (hi : Inv E k N acc) {o b : Nat} {t : Op} (hn : N o)
    (hk : Knows k o b t) (hc : (OMap.get? acc.anchored b).isSome = true) (terms : OMap Nat Nat) :
    Inv E k N { anchored := acc.anchored, transitions := OMap.insert acc.transitions o t, terminals := terms } := by
  refine ⟨hi.sortedA, hi.sortedT.insert _ _, hi.anchored, fun o' t' h => ?_⟩
  simp only [OMap.get?_insert] at h
  split at h
  · rename_i e; subst e; cases h
    exact ⟨hn, b, hk, hc⟩
  · exact hi.trans _ _ h

/-- One opout. -/
theorem consignOpout_ok (hg : k.stash.Good H) {N : Nat → Prop} {c o : Nat} {secret : Option Nat} {acc acc' : ConsignAcc}
    (hi : Inv E k N acc) (hn : o ≠ c → N o) (h : consignOpout H E k c secret acc o = .ok acc') :
    Inv E k N acc' ∧ (∀ x, (OMap.get? acc.transitions x).isSome = true → (OMap.get? acc'.transitions x).isSome = true) ∧
      (o ≠ c → (OMap.get? acc'.transitions o).isSome = true) := by
  simp only [consignOpout] at h
  by_cases hoc : o = c
  · simp only [hoc, if_true] at h
    cases h
    exact ⟨hi, fun _ h => h, fun h => absurd hoc h⟩
  simp only [hoc, if_false] at h
  cases e1 : k.transition o with
  | error e => simp [e1] at h
  | ok t =>
  obtain ⟨b, hk⟩ := transition_ok.mp e1
  simp only [e1, hk.id hg, bundleIdForOp_ok.mpr hk.1] at h
  have hm : ∀ terms a, ∀ x, (OMap.get? acc.transitions x).isSome = true →
      (OMap.get? (ConsignAcc.mk a (OMap.insert acc.transitions o t) terms).transitions x).isSome = true := by
    intro terms a x hx
    simp only [OMap.get?_insert]
    split <;> simp_all
  cases e2 : addTerminals secret b (secretSeals H t) acc.terminals with
  | none => simp [e2] at h
  | some terms =>
  simp only [e2] at h
  by_cases hc : OMap.contains acc.anchored b = true
  · simp only [hc, if_true] at h
    cases h
    obtain ⟨v, hv⟩ := OMap.contains_iff.mp hc
    exact ⟨hi.addTrans (hn hoc) hk (by simp [hv]) terms, hm _ _, fun _ => by simp⟩
  · simp only [hc, Bool.false_eq_true, if_false] at h
    cases e3 : clientBundle E k b with
    | error e => simp [e3] at h
    | ok cb =>
      simp only [e3] at h
      cases h
      exact ⟨hi.add (hn hoc) hk e3 terms, hm _ _, fun _ => by simp⟩

theorem consignOpouts_ok (hg : k.stash.Good H) {N : Nat → Prop} {c : Nat} {secret : Option Nat} (ops : List Nat) {acc acc' : ConsignAcc}
    (hi : Inv E k N acc) (hn : ∀ o ∈ ops, o ≠ c → N o) (h : consignOpouts H E k c secret ops acc = .ok acc') :
    Inv E k N acc' ∧ (∀ x, (OMap.get? acc.transitions x).isSome = true → (OMap.get? acc'.transitions x).isSome = true) ∧
      (∀ o ∈ ops, o ≠ c → (OMap.get? acc'.transitions o).isSome = true) := by
  induction ops generalizing acc with
  | nil =>
    simp only [consignOpouts] at h; cases h
    exact ⟨hi, fun _ h => h, by simp⟩
  | cons o ops ih =>
    simp only [consignOpouts] at h
    cases e : consignOpout H E k c secret acc o with
    | error e' => simp [e] at h
    | ok acc1 =>
      simp only [e] at h
      obtain ⟨i1, m1, t1⟩ := consignOpout_ok hg hi (hn o (by simp)) e
      obtain ⟨i2, m2, t2⟩ := ih i1 (fun x hx => hn x (by simp [hx])) h
      refine ⟨i2, fun x hx => m2 _ (m1 _ hx), fun x hx hxc => ?_⟩
      rcases List.mem_cons.mp hx with rfl | hx
      · exact m2 _ (t1 hxc)
      · exact t2 _ hx hxc

/-- Revealing a transition which the bundle knows changes nothing. -/
theorem reveal_known (hg : k.stash.Good H) {o b : Nat} {t : Op} (hk : Knows k o b t) {cb : ClientBundle}
    (hc : clientBundle E k b = .ok cb) : cb.revealTransition H t = .ok (false, cb) := by
  obtain ⟨x, hx, h3⟩ := hk.2
  have hb := (clientBundle_ok hc).1
  rw [hx] at hb
  obtain ⟨rfl⟩ := Option.some.inj hb
  have hsp := (hg.bundle _ _ hx).2.spent _ _ h3
  simp only [ClientBundle.revealTransition, hk.id hg]
  rw [if_neg, if_pos]
  · exact OMap.contains_iff.mpr ⟨_, h3⟩
  · simp only [List.all_eq_true, decide_eq_true_eq]
    intro hall
    exact hall _ hsp rfl

theorem consignVisit_ok (hg : k.stash.Good H) {N : Nat → Prop} {o : Nat} {acc acc' : ConsignAcc} {ps : List Nat}
    (hi : Inv E k N acc) (hn : N o) (h : consignVisit H E k acc o = .ok (acc', ps)) :
    Inv E k N acc' ∧ acc'.terminals = acc.terminals ∧
      (∀ x, (OMap.get? acc.transitions x).isSome = true → (OMap.get? acc'.transitions x).isSome = true) ∧
      ∃ b t, Knows k o b t ∧ ps = parents t ∧ acc'.transitions = OMap.insert acc.transitions o t := by
  simp only [consignVisit] at h
  cases e1 : k.transition o with
  | error e => simp [e1] at h
  | ok t =>
  obtain ⟨b, hk⟩ := transition_ok.mp e1
  simp only [e1, hk.id hg, bundleIdForOp_ok.mpr hk.1] at h
  cases e3 : clientBundle E k b with
  | error e => simp [e3] at h
  | ok new =>
  have hnew : (OMap.get? acc.anchored b).getD new = new := by
    cases e4 : OMap.get? acc.anchored b with
    | none => rfl
    | some cb =>
      have := (hi.anchored _ _ e4).1
      rw [e3] at this; cases this; rfl
  simp only [e3, hnew, reveal_known hg hk e3] at h
  cases h
  refine ⟨hi.add hn hk e3 _, rfl, fun x hx => ?_, b, t, hk, rfl, rfl⟩
  simp only [OMap.get?_insert]
  split <;> simp_all

/-- Everything in `transitions` has its parents there or on the stack. -/
def Closed (c : Nat) (acc : ConsignAcc) (st : List Nat) : Prop :=
  ∀ o t, OMap.get? acc.transitions o = some t → ∀ p ∈ parents t, p ≠ c → (OMap.get? acc.transitions p).isSome = true ∨ p ∈ st

theorem consignLoop_ok (hg : k.stash.Good H) {N : Nat → Prop} {c : Nat}
    (hp : ∀ o b t, N o → Knows k o b t → ∀ p ∈ parents t, p ≠ c → N p)
    (fuel : Nat) (st : List Nat) {acc acc' : ConsignAcc}
    (hi : Inv E k N acc) (hst : ∀ o ∈ st, o ≠ c → N o) (hcl : Closed c acc st)
    (h : consignLoop H E k c fuel st acc = some (.ok acc')) :
    Inv E k N acc' ∧ Closed c acc' [] ∧ acc'.terminals = acc.terminals ∧
      (∀ x, (OMap.get? acc.transitions x).isSome = true → (OMap.get? acc'.transitions x).isSome = true) := by
  induction fuel generalizing st acc with
  | zero =>
    cases st with
    | nil => simp only [consignLoop] at h; cases h; exact ⟨hi, hcl, rfl, fun _ h => h⟩
    | cons o st => simp [consignLoop] at h
  | succ fuel ih =>
    cases st with
    | nil => simp only [consignLoop] at h; cases h; exact ⟨hi, hcl, rfl, fun _ h => h⟩
    | cons o st =>
      simp only [consignLoop] at h
      by_cases hoc : o = c
      · simp only [hoc, if_true] at h
        refine ih st hi (fun x hx => hst x (by simp [hx])) (fun x t hx p hpp hpc => ?_) h
        rcases hcl x t hx p hpp hpc with h1 | h1
        · exact .inl h1
        · rcases List.mem_cons.mp h1 with rfl | h1
          · exact absurd hoc hpc
          · exact .inr h1
      simp only [hoc, if_false] at h
      cases e : consignVisit H E k acc o with
      | error e' => simp [e] at h
      | ok q =>
        obtain ⟨acc1, ps⟩ := q
        simp only [e] at h
        obtain ⟨i1, j1, m1, b, t, hk, rfl, ht⟩ := consignVisit_ok hg hi (hst o (by simp) hoc) e
        obtain ⟨i2, c2, j2, m2⟩ := ih (_ ++ st) i1 (fun x hx hxc => by
            rcases List.mem_append.mp hx with hx | hx
            · exact hp o b t (hst o (by simp) hoc) hk x (List.mem_reverse.mp hx) hxc
            · exact hst x (by simp [hx]) hxc) (fun x t' hx p hpp hpc => by
            rw [ht] at hx
            simp only [OMap.get?_insert] at hx
            split at hx
            · cases hx
              exact .inr (List.mem_append_left _ (List.mem_reverse.mpr hpp))
            · rcases hcl x t' hx p hpp hpc with h1 | h1
              · exact .inl (m1 _ h1)
              · rcases List.mem_cons.mp h1 with rfl | h1
                · exact .inl (by rw [ht]; simp)
                · exact .inr (List.mem_append_right _ h1)) h
        exact ⟨i2, c2, j2.trans j1, fun x hx => m2 _ (m1 _ hx)⟩

/-- The bundles `cbs` are all and only those in the groups, each in the group of its witness. -/
theorem groupBundles_ok (hg : k.stash.Good H) (cbs : List ClientBundle) (m m' : OMap WitnessId WitnessBundle)
    (hs : OMap.Sorted m) (hm : ∀ w wb, OMap.get? m w = some wb → ∃ sw, k.stash.witness w = some sw ∧ wb.pub = sw.pub)
    (hcb : ∀ cb ∈ cbs, clientBundle E k (cb.bundle.id H) = .ok cb)
    (h : groupBundles H k cbs m = .ok m') :
    OMap.Sorted m' ∧ (∀ w wb, OMap.get? m' w = some wb → ∃ sw, k.stash.witness w = some sw ∧ wb.pub = sw.pub) ∧
    (∀ w cb, (∃ wb, OMap.get? m' w = some wb ∧ cb ∈ wb.anchored.list) ↔
      ((∃ wb, OMap.get? m w = some wb ∧ cb ∈ wb.anchored.list) ∨
        cb ∈ cbs ∧ ∃ ws, OMap.get? k.index.bundleWitness (cb.bundle.id H) = some ws ∧ k.state.selectValidWitness ws = .ok w)) := by
  induction cbs generalizing m with
  | nil => simp only [groupBundles] at h; cases h; exact ⟨hs, hm, by simp⟩
  | cons cb cbs ih =>
    simp only [groupBundles] at h
    obtain ⟨-, ws, c, w, sw, a, i1, i2, i3, i4, -⟩ := clientBundle_ok (hcb cb (by simp))
    simp only [bundleInfo_ok.mpr ⟨i1, i2⟩, i3, i4] at h
    have hsel : ∀ x w', x = cb → ((∃ ws, OMap.get? k.index.bundleWitness (x.bundle.id H) = some ws ∧ k.state.selectValidWitness ws = .ok w') ↔ w' = w) := by
      rintro _ w' rfl
      constructor
      · rintro ⟨ws', h1, h2⟩
        rw [i1] at h1; cases h1
        rw [i3] at h2; cases h2; rfl
      · rintro rfl; exact ⟨ws, i1, i3⟩
    cases e : OMap.get? m w with
    | none =>
      simp only [e] at h
      obtain ⟨r1, r2, r3⟩ := ih _ (hs.insert w _) (fun w' wb' h' => by
        simp only [OMap.get?_insert] at h'
        split at h'
        · rename_i e'; subst e'; cases h'; exact ⟨sw, i4, rfl⟩
        · exact hm _ _ h') (fun x hx => hcb x (by simp [hx])) h
      refine ⟨r1, r2, fun w' x => ?_⟩
      rw [r3]
      have hl : (WitnessBundle.with_ sw.pub cb).anchored.list = [cb] := by
        simp only [WitnessBundle.with_, AnchoredBundles.of]
        split <;> rfl
      by_cases hw : w' = w
      · subst hw
        simp only [OMap.get?_insert_self, Option.some.injEq, e]
        constructor
        · rintro (⟨wb, rfl, hx⟩ | ⟨hx, hy⟩)
          · rw [hl] at hx
            have : x = cb := by simpa using hx
            exact .inr ⟨by simp [this], (hsel x w' this).mpr rfl⟩
          · exact .inr ⟨by simp [hx], hy⟩
        · rintro (⟨wb, h0, -⟩ | ⟨hx, hy⟩)
          · cases h0
          · rcases List.mem_cons.mp hx with rfl | hx
            · exact .inl ⟨_, rfl, by simp [hl]⟩
            · exact .inr ⟨hx, hy⟩
      · rw [OMap.get?_insert_ne _ _ hw]
        constructor
        · rintro (h1 | ⟨hx, hy⟩)
          · exact .inl h1
          · exact .inr ⟨by simp [hx], hy⟩
        · rintro (h1 | ⟨hx, hy⟩)
          · exact .inl h1
          · rcases List.mem_cons.mp hx with rfl | hx
            · exact absurd ((hsel x w' rfl).mp hy) hw
            · exact .inr ⟨hx, hy⟩
    | some wb =>
      simp only [e] at h
      cases e2 : wb.intoDouble cb with
      | error e' => simp [e2] at h
      | ok wb2 =>
      simp only [e2] at h
      have hd : wb2.pub = wb.pub ∧ ∀ x, x ∈ wb2.anchored.list ↔ x = cb ∨ x ∈ wb.anchored.list := by
        simp only [WitnessBundle.intoDouble] at e2
        split at e2 <;> first | cases e2 | skip
        all_goals
          rename_i ea _
          refine ⟨rfl, fun x => ?_⟩
          rw [ea]
          simp [AnchoredBundles.list, or_comm]
      obtain ⟨r1, r2, r3⟩ := ih _ ((hs.erase w).insert w _) (fun w' wb' h' => by
        simp only [OMap.get?_insert] at h'
        split at h'
        · rename_i e'; subst e'; cases h'
          rw [hd.1]
          exact hm _ _ e
        · rw [OMap.get?_erase] at h'
          split at h'
          · cases h'
          · exact hm _ _ h') (fun x hx => hcb x (by simp [hx])) h
      refine ⟨r1, r2, fun w' x => ?_⟩
      rw [r3]
      by_cases hw : w' = w
      · subst hw
        simp only [OMap.get?_insert_self, Option.some.injEq, e]
        constructor
        · rintro (⟨_, rfl, hx⟩ | ⟨hx, hy⟩)
          · rcases (hd.2 x).mp hx with rfl | hx
            · exact .inr ⟨by simp, (hsel x w' rfl).mpr rfl⟩
            · exact .inl ⟨wb, rfl, hx⟩
          · exact .inr ⟨by simp [hx], hy⟩
        · rintro (⟨_, rfl, hx⟩ | ⟨hx, hy⟩)
          · exact .inl ⟨_, rfl, (hd.2 x).mpr (.inr hx)⟩
          · rcases List.mem_cons.mp hx with rfl | hx
            · exact .inl ⟨_, rfl, (hd.2 x).mpr (.inl rfl)⟩
            · exact .inr ⟨hx, hy⟩
      · rw [OMap.get?_insert_ne _ _ hw, OMap.get?_erase, if_neg hw]
        constructor
        · rintro (h1 | ⟨hx, hy⟩)
          · exact .inl h1
          · exact .inr ⟨by simp [hx], hy⟩
        · rintro (h1 | ⟨hx, hy⟩)
          · exact .inl h1
          · rcases List.mem_cons.mp hx with rfl | hx
            · exact absurd ((hsel x w' rfl).mp hy) hw
            · exact .inr ⟨hx, hy⟩

end Rgb.Stock

namespace Rgb.Stock

open MemStash

variable {H : Commit} {E : Env} {k : Stock}

theorem mem_vals {κ ν : Type} [Key κ] [DecidableEq κ] {m : OMap κ ν} (hm : OMap.Sorted m) {v : ν} :
    v ∈ OMap.vals m ↔ ∃ i, OMap.get? m i = some v := by
  simp only [OMap.vals, List.mem_map]
  constructor
  · rintro ⟨⟨i, v'⟩, h, rfl⟩
    exact ⟨i, hm.get?_of_mem h⟩
  · rintro ⟨i, h⟩
    exact ⟨_, OMap.mem_of_get? h, rfl⟩

theorem mem_consignOps {c : Nat} {outputs : List Outpoint} {secret : Option Nat} {ops : List Nat}
    (hpub : ∀ l, k.index.publicOpouts c = .ok l → l = []) (h : consignOps k c outputs secret = .ok ops) (x : Nat) :
    x ∈ ops ↔ ∃ o, Requested k c outputs secret o ∧ o.op = x := by
  simp only [consignOps] at h
  cases e1 : k.index.publicOpouts c with
  | error e => simp [e1] at h
  | ok pub =>
  have := hpub _ e1; subst this
  simp only [e1] at h
  cases e2 : k.index.opoutsByOutputs c outputs with
  | error e => simp [e2] at h
  | ok outs =>
  simp only [e2, Except.ok.injEq] at h
  subst h
  simp only [List.mem_map, OSet.mem_extend, Requested, e2, Except.ok.injEq]
  constructor
  · rintro ⟨o, ((h1 | h1) | h1), rfl⟩
    · cases h1
    · exact ⟨o, .inl ⟨_, rfl, h1⟩, rfl⟩
    · cases secret with
      | none => simp [Index.opoutsByTerminals, OSet.mem_ofList] at h1
      | some s => exact ⟨o, .inr ⟨s, rfl, h1⟩, rfl⟩
  · rintro ⟨o, (⟨l, rfl, h1⟩ | ⟨s, rfl, h1⟩), rfl⟩
    · exact ⟨o, .inl (.inr h1), rfl⟩
    · exact ⟨o, .inr h1, rfl⟩

theorem mem_consignContents {I : Ids} {c r : Nat} {con : Consignment} :
    r ∈ consignContents I E c (I.genesisSchema con.data.genesis) con.ifaces ↔ ContentOf I E c con r := by
  simp only [consignContents, ContentOf, List.mem_cons, List.mem_flatMap, List.not_mem_nil, or_false, Prod.exists]

theorem mem_consignSuppl {s : MemStash} {refs : List Nat} {x : SupplDoc} :
    x ∈ consignSuppl s refs ↔ ∃ r, r ∈ refs ∧ s.supplement r = some x := by
  simp only [consignSuppl, OSet.mem_ofList, List.mem_filterMap]

theorem supplement_eq {s : MemStash} {r : Nat} : s.supplement r = (s.supplements r).head? := by
  simp only [MemStash.supplement, MemStash.supplements]
  cases OMap.get? s.suppl r <;> rfl

theorem get?_sigsList {s : MemStash} (refs : List Nat) (m : OMap Nat (OMap Nat Nat)) (hm : ∀ r l, OMap.get? m r = some l → s.sigsFor r = some l)
    (r : Nat) (l : OMap Nat Nat) :
    OMap.get? (OMap.extend m (refs.filterMap (fun r => (s.sigsFor r).map (fun l => (r, l))))) r = some l ↔
      OMap.get? m r = some l ∨ (r ∈ refs ∧ s.sigsFor r = some l) := by
  induction refs generalizing m with
  | nil => simp [OMap.extend]
  | cons a refs ih =>
    simp only [List.filterMap_cons]
    cases ha : s.sigsFor a with
    | none =>
      simp only [Option.map_none, List.mem_cons]
      rw [ih m hm]
      constructor
      · rintro (h | ⟨h1, h2⟩)
        · exact .inl h
        · exact .inr ⟨.inr h1, h2⟩
      · rintro (h | ⟨rfl | h1, h2⟩)
        · exact .inl h
        · rw [ha] at h2; cases h2
        · exact .inr ⟨h1, h2⟩
    | some v =>
      simp only [Option.map_some, OMap.extend_cons, List.mem_cons]
      rw [ih _ (fun r l h => by
        rw [OMap.get?_insert] at h
        split at h
        · rename_i h1; subst h1; cases h; exact ha
        · exact hm r l h)]
      rw [OMap.get?_insert]
      constructor
      · rintro (h | ⟨h1, h2⟩)
        · split at h
          · rename_i h1; subst h1; cases h; exact .inr ⟨.inl rfl, ha⟩
          · exact .inl h
        · exact .inr ⟨.inr h1, h2⟩
      · rintro (h | ⟨h1, h2⟩)
        · left
          split
          · rename_i h1; subst h1; rw [hm _ _ h] at ha; rw [ha]
          · exact h
        · by_cases e : r = a
          · subst e; left; simp; rw [ha] at h2; exact Option.some.inj h2
          · exact .inr ⟨h1.resolve_left e, h2⟩

theorem get?_consignSigs {s : MemStash} {refs : List Nat} {r : Nat} {l : OMap Nat Nat} :
    OMap.get? (consignSigs s refs) r = some l ↔ r ∈ refs ∧ s.sigsFor r = some l := by
  have := get?_sigsList (s := s) refs [] (by simp) r l
  simpa [consignSigs, OMap.ofList] using this

/-- The stages of a successful `consign`. -/
theorem consign_ok (hg : k.stash.Good H) {I : Ids} {fuel c : Nat} {outputs : List Outpoint} {secret : Option Nat} {con : Consignment}
    (hpub : ∀ l, k.index.publicOpouts c = .ok l → l = [])
    (h : consign H I E fuel k c outputs secret = some (.ok con)) :
    ∃ ops acc₀ acc groups si, consignOps k c outputs secret = .ok ops ∧ consignOpouts H E k c secret ops {} = .ok acc₀ ∧
      Inv E k (Needed k c outputs secret) acc ∧ acc.terminals = acc₀.terminals ∧
      (∀ o, Needed k c outputs secret o ↔ (OMap.get? acc.transitions o).isSome = true) ∧
      k.stash.genesis c = some con.data.genesis ∧ k.stash.schema (I.genesisSchema con.data.genesis) = some si ∧ con.schema = si.doc ∧
      consignIfaces k si.iimpls [] = .ok con.ifaces ∧
      groupBundles H k (OMap.vals acc.anchored) [] = .ok groups ∧
      extract E k.stash si.doc (OMap.keys con.ifaces) = .ok (con.types, con.scripts) ∧
      con.data.bundles = OMap.vals groups ∧ con.terminals = acc.terminals ∧ con.data.extensions = [] ∧
      con.supplements = consignSuppl k.stash (consignContents I E c (I.genesisSchema con.data.genesis) con.ifaces) ∧
      con.signatures = consignSigs k.stash (consignContents I E c (I.genesisSchema con.data.genesis) con.ifaces) ∧
      con.supplements.length ≤ tinyMax ∧ con.signatures.length ≤ tinyMax ∧ con.attachments = [] := by
  simp only [consign] at h
  cases e1 : consignOps k c outputs secret with
  | error e => simp [e1] at h
  | ok ops =>
  simp only [e1] at h
  cases e2 : consignOpouts H E k c secret ops {} with
  | error e => simp [e2] at h
  | ok acc₀ =>
  simp only [e2] at h
  cases e3 : consignLoop H E k c fuel ((OMap.vals acc₀.transitions).flatMap parents).reverse acc₀ with
  | none => simp [e3] at h
  | some r =>
  cases r with
  | error e => simp [e3] at h
  | ok acc =>
  simp only [e3, Option.some.injEq, consignFinish] at h
  have hroot : ∀ x ∈ ops, x ≠ c → Needed k c outputs secret x := by
    intro x hx hxc
    obtain ⟨o, ho, rfl⟩ := (mem_consignOps hpub e1 x).mp hx
    exact .output ho hxc
  have hpar : ∀ o b t, Needed k c outputs secret o → Knows k o b t → ∀ p ∈ parents t, p ≠ c → Needed k c outputs secret p := by
    intro o b t hn hk p hp hpc
    simp only [parents, List.mem_map] at hp
    obtain ⟨i, hi, rfl⟩ := hp
    exact .input hn hk hi hpc
  have hinit : Inv E k (Needed k c outputs secret) {} := ⟨.nil, .nil, by simp, by simp⟩
  obtain ⟨i1, -, t1⟩ := consignOpouts_ok hg ops hinit hroot e2
  obtain ⟨i2, c2, j2, m2⟩ := consignLoop_ok hg hpar fuel _ i1 (fun o ho hoc => by
      simp only [List.mem_reverse, List.mem_flatMap] at ho
      obtain ⟨t, ht, hp⟩ := ho
      obtain ⟨x, hx⟩ := (mem_vals i1.sortedT).mp ht
      obtain ⟨n, b, hk, -⟩ := i1.trans _ _ hx
      exact hpar x b t n hk o hp hoc) (fun o t ho p hp hpc => by
      right
      simp only [List.mem_reverse, List.mem_flatMap]
      exact ⟨t, (mem_vals i1.sortedT).mpr ⟨o, ho⟩, hp⟩) e3
  have hall : ∀ o, Needed k c outputs secret o ↔ (OMap.get? acc.transitions o).isSome = true := by
    intro o
    constructor
    · intro hn
      induction hn with
      | output hr hoc => exact m2 _ (t1 _ ((mem_consignOps hpub e1 _).mpr ⟨_, hr, rfl⟩) hoc)
      | @input o b t i hn hk hi hic ih =>
        obtain ⟨t', ht'⟩ := Option.isSome_iff_exists.mp ih
        obtain ⟨-, b', hk', -⟩ := i2.trans _ _ ht'
        obtain ⟨-, rfl⟩ := hk.unique hk'
        rcases c2 _ _ ht' i.op (by simp only [parents, List.mem_map]; exact ⟨i, hi, rfl⟩) hic with h1 | h1
        · exact h1
        · cases h1
    · intro ho
      obtain ⟨t, ht⟩ := Option.isSome_iff_exists.mp ho
      exact (i2.trans _ _ ht).1
  cases e4 : k.stash.genesis c with
  | none => simp [e4] at h
  | some g =>
  simp only [e4] at h
  cases e5 : k.stash.schema (I.genesisSchema g) with
  | none => simp [e5] at h
  | some si =>
  simp only [e5] at h
  cases e6 : consignIfaces k si.iimpls [] with
  | error e => simp [e6] at h
  | ok ifaces =>
  simp only [e6] at h
  cases e7 : groupBundles H k (OMap.vals acc.anchored) [] with
  | error e => simp [e7] at h
  | ok groups =>
  simp only [e7] at h
  cases e8 : extract E k.stash si.doc (OMap.keys ifaces) with
  | error e => simp [e8] at h
  | ok q =>
  obtain ⟨types, scripts⟩ := q
  simp only [e8] at h
  split at h
  · cases h
  split at h
  · cases h
  rename_i l1 l2
  cases h
  exact ⟨ops, acc₀, acc, groups, si, rfl, e2, i2, j2, hall, rfl, e5, rfl, e6, e7, e8, rfl, rfl, rfl, rfl, rfl, Nat.not_lt.mp l1, Nat.not_lt.mp l2, rfl⟩

/-- The bundles of the consignment are exactly those of the needed operations. -/
theorem consign_bundles (hg : k.stash.Good H) {N : Nat → Prop} {acc : ConsignAcc} (hi : Inv E k N acc) {groups : OMap WitnessId WitnessBundle}
    (hgr : groupBundles H k (OMap.vals acc.anchored) [] = .ok groups) :
    (∀ wb ∈ OMap.vals groups, ∀ cb ∈ wb.anchored.list, ∃ b, OMap.get? acc.anchored b = some cb ∧ Proves E k b cb wb) ∧
    (∀ b cb, OMap.get? acc.anchored b = some cb → ∃ wb ∈ OMap.vals groups, Proves E k b cb wb) := by
  have hid : ∀ b cb, OMap.get? acc.anchored b = some cb → cb.bundle.id H = b := by
    intro b cb h
    exact (hg.bundle _ _ (clientBundle_ok (hi.anchored _ _ h).1).1).1
  obtain ⟨r1, r2, r3⟩ := groupBundles_ok hg (OMap.vals acc.anchored) [] groups .nil (by simp) (fun cb hcb => by
    obtain ⟨b, hb⟩ := (mem_vals hi.sortedA).mp hcb
    rw [hid b cb hb]
    exact (hi.anchored _ _ hb).1) hgr
  have hprove : ∀ b cb w wb, OMap.get? acc.anchored b = some cb → OMap.get? groups w = some wb → cb ∈ wb.anchored.list →
      (∃ ws, OMap.get? k.index.bundleWitness (cb.bundle.id H) = some ws ∧ k.state.selectValidWitness ws = .ok w) → Proves E k b cb wb := by
    intro b cb w wb hb hw hl ⟨ws, h1, h2⟩
    obtain ⟨p1, ws', c, w', sw, a, i1, i2, i3, i4, i5, i6, i7⟩ := clientBundle_ok (hi.anchored _ _ hb).1
    rw [hid b cb hb, i1] at h1; cases h1
    rw [i3] at h2; cases h2
    obtain ⟨sw', s1, s2⟩ := r2 _ _ hw
    rw [i4] at s1; cases s1
    have hwb : wb.id = w := by
      have := hg.witness _ _ i4
      rw [← this, SealWitness.id, WitnessBundle.id, s2]
    obtain ⟨v1, v2⟩ := selectValid_ok i3
    exact ⟨p1, hl, ⟨ws, i1, hwb ▸ v1⟩, hwb ▸ v2, c, sw, a, i2, hwb ▸ i4, s2, i5, i6, i7⟩
  refine ⟨fun wb hwb cb hcb => ?_, fun b cb hb => ?_⟩
  · obtain ⟨w, hw⟩ := (mem_vals r1).mp hwb
    rcases (r3 w cb).mp ⟨wb, hw, hcb⟩ with ⟨_, h1, -⟩ | ⟨h1, h2⟩
    · cases h1
    · obtain ⟨b, hb⟩ := (mem_vals hi.sortedA).mp h1
      exact ⟨b, hb, hprove b cb w wb hb hw hcb h2⟩
  · obtain ⟨-, ws, c, w, sw, a, i1, i2, i3, i4, -⟩ := clientBundle_ok (hi.anchored _ _ hb).1
    have hsel : ∃ ws, OMap.get? k.index.bundleWitness (cb.bundle.id H) = some ws ∧ k.state.selectValidWitness ws = .ok w :=
      ⟨ws, by rw [hid b cb hb, i1], i3⟩
    obtain ⟨wb, hw, hl⟩ := (r3 w cb).mpr (.inr ⟨(mem_vals hi.sortedA).mpr ⟨b, hb⟩, hsel⟩)
    exact ⟨wb, (mem_vals r1).mpr ⟨w, hw⟩, hprove b cb w wb hb hw hl hsel⟩

/-! ## Termination -/

theorem consignLoop_mono {c : Nat} (fuel : Nat) (st : List Nat) (acc : ConsignAcc) (r : Except StockErr ConsignAcc)
    (h : consignLoop H E k c fuel st acc = some r) (fuel' : Nat) (hf : fuel ≤ fuel') :
    consignLoop H E k c fuel' st acc = some r := by
  induction fuel generalizing st acc fuel' with
  | zero =>
    cases st with
    | nil => cases fuel' <;> simpa [consignLoop] using h
    | cons o st => simp [consignLoop] at h
  | succ fuel ih =>
    obtain ⟨f', rfl⟩ : ∃ f', fuel' = f' + 1 := ⟨fuel' - 1, by omega⟩
    cases st with
    | nil => simpa [consignLoop] using h
    | cons o st =>
      simp only [consignLoop] at h ⊢
      by_cases hoc : o = c
      · simp only [hoc, if_true] at h ⊢
        exact ih _ _ h _ (by omega)
      · simp only [hoc, if_false] at h ⊢
        cases e : consignVisit H E k acc o with
        | error e' => simpa [e] using h
        | ok q =>
          simp only [e] at h ⊢
          exact ih _ _ h _ (by omega)

theorem consignVisit_parents {o : Nat} {acc acc' : ConsignAcc} {ps : List Nat}
    (h : consignVisit H E k acc o = .ok (acc', ps)) : ∃ b t, Knows k o b t ∧ ps = parents t := by
  simp only [consignVisit] at h
  cases e1 : k.transition o with
  | error e => simp [e1] at h
  | ok t =>
  obtain ⟨b, hk⟩ := transition_ok.mp e1
  simp only [e1] at h
  repeat (split at h <;> first | cases h | skip)
  exact ⟨b, t, hk, rfl⟩

/-- If the stack can be processed from every state, then appending is fine. -/
theorem consignLoop_terminates {c : Nat} (rank : Nat → Nat)
    (hr : ∀ o b t, Knows k o b t → ∀ p ∈ parents t, p ≠ c → rank p < rank o) (n : Nat) :
    ∀ st : List Nat, (∀ o ∈ st, o ≠ c → rank o < n) → ∀ acc, ∃ fuel r, consignLoop H E k c fuel st acc = some r := by
  induction n with
  | zero =>
    intro st
    induction st with
    | nil => exact fun _ acc => ⟨0, _, rfl⟩
    | cons o st ih =>
      intro hst acc
      have hoc : o = c := Decidable.byContradiction fun h => by have := hst o (by simp) h; omega
      obtain ⟨f, r, hf⟩ := ih (fun x hx => hst x (by simp [hx])) acc
      exact ⟨f + 1, r, by simp only [consignLoop, hoc, if_true]; exact hf⟩
  | succ n ihn =>
    -- processing a prefix of low rank and then the rest
    have app : ∀ (fuel : Nat) (a b : List Nat) (acc : ConsignAcc) (r : Except StockErr ConsignAcc),
        consignLoop H E k c fuel a acc = some r →
        (∀ acc', ∃ fuel r, consignLoop H E k c fuel b acc' = some r) → ∃ fuel' r', consignLoop H E k c fuel' (a ++ b) acc = some r' := by
      intro fuel
      induction fuel with
      | zero =>
        intro a b acc r h hb
        cases a with
        | nil => exact hb acc
        | cons o a => simp [consignLoop] at h
      | succ fuel ih =>
        intro a b acc r h hb
        cases a with
        | nil => exact hb acc
        | cons o a =>
          simp only [consignLoop] at h
          by_cases hoc : o = c
          · simp only [hoc, if_true] at h
            obtain ⟨f, r', hf⟩ := ih _ b _ _ h hb
            exact ⟨f + 1, r', by simp only [List.cons_append, consignLoop, hoc, if_true]; exact hf⟩
          · simp only [hoc, if_false] at h
            cases e : consignVisit H E k acc o with
            | error e' => exact ⟨1, .error e', by simp only [List.cons_append, consignLoop, hoc, if_false, e]⟩
            | ok q =>
              simp only [e] at h
              obtain ⟨f, r', hf⟩ := ih _ b _ _ h hb
              exact ⟨f + 1, r', by simp only [List.cons_append, consignLoop, hoc, if_false, e]; rw [← List.append_assoc]; exact hf⟩
    intro st
    induction st with
    | nil => exact fun _ acc => ⟨0, _, rfl⟩
    | cons o st ih =>
      intro hst acc
      have ih := ih (fun x hx => hst x (by simp [hx]))
      by_cases hoc : o = c
      · obtain ⟨f, r, hf⟩ := ih acc
        exact ⟨f + 1, r, by simp only [consignLoop, hoc, if_true]; exact hf⟩
      · cases e : consignVisit H E k acc o with
        | error e' => exact ⟨1, .error e', by simp only [consignLoop, hoc, if_false, e]⟩
        | ok q =>
          obtain ⟨acc1, ps⟩ := q
          obtain ⟨b, t, hk, rfl⟩ := consignVisit_parents e
          obtain ⟨f, r, hf⟩ := ihn (parents t).reverse (fun p hp hpc => by
            have h1 := hr o b t hk p (List.mem_reverse.mp hp) hpc
            have h2 := hst o (by simp) hoc
            omega) acc1
          obtain ⟨f', r', hf'⟩ := app f _ st _ _ hf ih
          exact ⟨f' + 1, r', by simp only [consignLoop, hoc, if_false, e]; exact hf'⟩

/-! ## Terminals -/

theorem addTerminals_some {s b : Nat} (l : List Nat) {m m' : OMap Nat Nat} (h : addTerminals (some s) b l m = some m') :
    (s ∉ l ∧ m' = m) ∨ (s ∈ l ∧ l.count s = 1 ∧ OMap.get? m b = none ∧ m' = OMap.insert m b s) := by
  induction l generalizing m with
  | nil => simp only [addTerminals] at h; cases h; exact .inl ⟨by simp, rfl⟩
  | cons a l ih =>
    simp only [addTerminals] at h
    by_cases ha : s = a
    · subst ha
      simp only [if_true] at h
      cases hc : OMap.contains m b with
      | true => simp [hc] at h
      | false =>
        simp only [hc, Bool.false_eq_true, if_false] at h
        have hn : OMap.get? m b = none := by
          cases e : OMap.get? m b with
          | none => rfl
          | some v => rw [OMap.contains_iff.mpr ⟨v, e⟩] at hc; cases hc
        rcases ih h with ⟨h1, h2⟩ | ⟨-, -, h2, -⟩
        · exact .inr ⟨by simp, by simp [List.count_eq_zero.mpr h1], hn, h2⟩
        · simp at h2
    · simp only [Option.some.injEq, ha, if_false] at h
      rcases ih h with ⟨h1, h2⟩ | ⟨h1, h2, h3, h4⟩
      · exact .inl ⟨by simp [ha, h1], h2⟩
      · exact .inr ⟨by simp [h1], by rw [List.count_cons_of_ne (fun e => ha e.symm)]; exact h2, h3, h4⟩

theorem addTerminals_none {b : Nat} (l : List Nat) (m : OMap Nat Nat) : addTerminals none b l m = some m := by
  induction l with
  | nil => rfl
  | cons a l ih => simpa [addTerminals] using ih

theorem mem_secretSeals {t : Op} {s : Nat} : s ∈ secretSeals H t ↔ t.AssignsTo H s := by
  simp only [secretSeals, OMap.vals, List.mem_flatMap, List.mem_map, Op.AssignsTo]
  constructor
  · rintro ⟨ta, ⟨⟨ty, _⟩, h1, rfl⟩, a, h2, h3⟩
    exact ⟨ty, _, a, h1, h2, h3⟩
  · rintro ⟨ty, ta, a, h1, h2, h3⟩
    exact ⟨ta, ⟨_, h1, rfl⟩, a, h2, h3⟩

/-- Terminals after the first loop. -/
theorem consignOpouts_terminals (hg : k.stash.Good H) {c : Nat} {secret : Option Nat} (ops : List Nat) {acc acc' : ConsignAcc}
    (h : consignOpouts H E k c secret ops acc = .ok acc') (b v : Nat) :
    OMap.get? acc'.terminals b = some v ↔ OMap.get? acc.terminals b = some v ∨
      (secret = some v ∧ ∃ o ∈ ops, o ≠ c ∧ ∃ t, Knows k o b t ∧ t.AssignsTo H v) := by
  induction ops generalizing acc with
  | nil => simp only [consignOpouts] at h; cases h; simp
  | cons o ops ih =>
    simp only [consignOpouts] at h
    cases e : consignOpout H E k c secret acc o with
    | error x => simp [e] at h
    | ok a =>
    simp only [e] at h
    rw [ih h]
    have key : OMap.get? a.terminals b = some v ↔ OMap.get? acc.terminals b = some v ∨
        (secret = some v ∧ o ≠ c ∧ ∃ t, Knows k o b t ∧ t.AssignsTo H v) := by
      simp only [consignOpout] at e
      by_cases hoc : o = c
      · simp only [hoc, if_true] at e
        cases e
        simp [hoc]
      simp only [hoc, if_false] at e
      cases e1 : k.transition o with
      | error x => simp [e1] at e
      | ok t =>
      obtain ⟨b', hk⟩ := transition_ok.mp e1
      simp only [e1, hk.id hg, bundleIdForOp_ok.mpr hk.1] at e
      cases e2 : addTerminals secret b' (secretSeals H t) acc.terminals with
      | none => simp [e2] at e
      | some terms =>
      simp only [e2] at e
      have ha : a.terminals = terms := by
        split at e
        · cases e; rfl
        · split at e
          · cases e
          · cases e; rfl
      rw [ha]
      have hex : (∃ t, Knows k o b t ∧ t.AssignsTo H v) ↔ b = b' ∧ v ∈ secretSeals H t := by
        rw [mem_secretSeals]
        constructor
        · rintro ⟨t', hk', ht⟩
          obtain ⟨rfl, rfl⟩ := hk.unique hk'
          exact ⟨rfl, ht⟩
        · rintro ⟨rfl, ht⟩
          exact ⟨t, hk, ht⟩
      rw [hex]
      cases secret with
      | none =>
        rw [addTerminals_none] at e2
        cases e2
        simp
      | some s =>
        rcases addTerminals_some _ e2 with ⟨h1, rfl⟩ | ⟨h1, -, h2, rfl⟩
        · constructor
          · exact .inl
          · rintro (h | ⟨hs, -, -, hm⟩)
            · exact h
            · cases hs; exact absurd hm h1
        · rw [OMap.get?_insert]
          by_cases hb : b = b'
          · subst hb
            simp only [if_true, h2, reduceCtorEq, false_or, Option.some.injEq, ne_eq, hoc, not_false_eq_true, true_and]
            constructor
            · rintro rfl; exact ⟨rfl, h1⟩
            · rintro ⟨rfl, -⟩; rfl
          · simp [hb]
    rw [key]
    constructor
    · rintro ((h | ⟨h1, h2, h3⟩) | ⟨h1, o', h2, h3⟩)
      · exact .inl h
      · exact .inr ⟨h1, o, by simp, h2, h3⟩
      · exact .inr ⟨h1, o', by simp [h2], h3⟩
    · rintro (h | ⟨h1, o', h2, h3⟩)
      · exact .inl (.inl h)
      · rcases List.mem_cons.mp h2 with rfl | h2
        · exact .inl (.inr ⟨h1, h3⟩)
        · exact .inr ⟨h1, o', h2, h3⟩

theorem extract_ok {s : MemStash} {sd : SchemaDoc} {ifaces : List IfaceDoc} {types : OSet Nat} {scripts : List Nat}
    (h : extract E s sd ifaces = .ok (types, scripts)) :
    (∀ t ∈ E.schemaTypes sd, t ∈ types) ∧ (∀ d ∈ ifaces, ∀ t ∈ E.ifaceTypes d, t ∈ types) ∧
    (∀ l ∈ E.schemaLibs sd, ∃ x, s.lib l = some x ∧ x ∈ scripts) := by
  simp only [extract] at h
  split at h
  · cases h
  split at h
  · cases h
  rename_i h1 h2
  cases h
  refine ⟨fun t ht => OSet.mem_ofList.mpr (by simp [ht]), fun d hd t ht => OSet.mem_ofList.mpr (by simp; exact .inr ⟨d, hd, ht⟩),
    fun l hl => ?_⟩
  rw [List.find?_eq_none] at h2
  have := h2 l hl
  simp only [Bool.not_eq_true, Option.isNone_eq_false_iff] at this
  obtain ⟨x, hx⟩ := Option.isSome_iff_exists.mp this
  refine ⟨x, hx, ?_⟩
  simp only [OMap.ofList]
  rw [mem_vals (OMap.Sorted.extend .nil _)]
  refine ⟨l, ?_⟩
  have key : ∀ (L : List Nat) (m : OMap Nat Nat), (l ∈ L ∨ OMap.get? m l = some x) →
      OMap.get? (OMap.extend m (L.filterMap (fun i => (s.lib i).map (fun l => (i, l))))) l = some x := by
    intro L
    induction L with
    | nil => intro m hm; rcases hm with hm | hm <;> simp_all [OMap.extend]
    | cons a L ih =>
      intro m hm
      cases ha : s.lib a with
      | none =>
        simp only [List.filterMap_cons, ha, Option.map_none]
        refine ih m ?_
        rcases hm with hm | hm
        · rcases List.mem_cons.mp hm with rfl | hm
          · rw [hx] at ha; cases ha
          · exact .inl hm
        · exact .inr hm
      | some y =>
        simp only [List.filterMap_cons, ha, Option.map_some, OMap.extend, List.foldl_cons]
        refine ih _ ?_
        by_cases hal : l = a
        · subst hal
          rw [hx] at ha; cases ha
          exact .inr (OMap.get?_insert_self _ _ _)
        · rw [OMap.get?_insert_ne _ _ hal]
          rcases hm with hm | hm
          · rcases List.mem_cons.mp hm with rfl | hm
            · exact absurd rfl hal
            · exact .inl hm
          · exact .inr hm
  exact key _ [] (.inl hl)

theorem consignIfaces_ok (l : OMap Nat IimplDoc) (m m' : OMap IfaceDoc IimplDoc) (h : consignIfaces k l m = .ok m') :
    (∀ name x, (name, x) ∈ l → ∃ d, k.stash.ifaceByName name = some d ∧ d ∈ m'.map Prod.fst) ∧
    (∀ d ∈ m.map Prod.fst, d ∈ m'.map Prod.fst) := by
  induction l generalizing m with
  | nil => simp only [consignIfaces] at h; cases h; simp
  | cons e l ih =>
    obtain ⟨name, x⟩ := e
    simp only [consignIfaces] at h
    cases e : k.stash.ifaceByName name with
    | none => simp [e] at h
    | some d =>
      simp only [e] at h
      obtain ⟨h1, h2⟩ := ih _ h
      refine ⟨fun n y hy => ?_, fun d' hd' => h2 d' ?_⟩
      · rcases List.mem_cons.mp hy with hy | hy
        · cases hy
          exact ⟨d, e, h2 d (OMap.mem_keys_insert.mpr (.inl rfl))⟩
        · exact h1 n y hy
      · exact OMap.mem_keys_insert.mpr (.inr hd')

end Rgb.Stock
