import Verif.Lemmas.UsableHist
import Verif.Spec.Recover

/-!
The anchors in the stash are what the witnesses commit to.
-/

namespace Rgb

open MemStash Props Stock

variable {H : Commit} {I : Ids} {M : Mpc} {C : WitnessId → CloseMethod → Nat → Nat → Prop}

/-- All entries of the stored anchors are commitments of their witness. -/
def AnchorsAre (C : WitnessId → CloseMethod → Nat → Nat → Prop) (s : MemStash) : Prop :=
  ∀ w sw, s.witness w = some sw → ∀ m c i, sw.anchors.Commits m c i → C w m c i

theorem anchorsAre_congr {s t : MemStash} (h : AnchorsAre C s) (e : t.witnesses = s.witnesses) : AnchorsAre C t := by
  intro w sw hw
  simp only [witness, e] at hw
  exact h w sw hw

theorem mem_of_extend {κ ν : Type} [Key κ] [DecidableEq κ] {l m : OMap κ ν} {e : κ × ν} (h : e ∈ OMap.extend m l) : e ∈ m ∨ e ∈ l := by
  induction l generalizing m with
  | nil => exact .inl h
  | cons x l ih =>
    obtain ⟨y, v⟩ := x
    rw [OMap.extend_cons] at h
    rcases ih h with h | h
    · rcases OMap.mem_of_insert h with h | h
      · exact .inr (by simp [h])
      · exact .inl h
    · exact .inr (by simp [h])

theorem Anchor.merge_mem {a b c : Anchor} (h : a.merge b = .ok c) {e : Nat × Nat} (hi : e ∈ c.known) : e ∈ a.known ∨ e ∈ b.known := by
  simp only [Anchor.merge] at h
  split at h
  · cases h
  split at h
  · cases h
  cases h
  exact mem_of_extend hi

theorem AnchorSet.merge_commits {a b r : AnchorSet} (h : a.merge b = .ok r) {m : CloseMethod} {c i : Nat} (hr : r.Commits m c i) :
    a.Commits m c i ∨ b.Commits m c i := by
  cases a <;> cases b <;> simp only [AnchorSet.merge] at h
  case double.double x y x' y' =>
    split at h
    · cases h
    · rename_i z hz
      obtain ⟨u, hu, rfl⟩ := Except.map_ok h
      cases m
      · exact Anchor.merge_mem (by assumption) hr
      · exact Anchor.merge_mem (by assumption) hr
  case tapret.opret => cases h; cases m <;> first | exact .inl hr | exact .inr hr
  case opret.tapret => cases h; cases m <;> first | exact .inl hr | exact .inr hr
  all_goals
    obtain ⟨u, hu, rfl⟩ := Except.map_ok h
    cases m <;> first | exact Anchor.merge_mem hu hr | exact (Anchor.merge_mem hu hr).symm | exact .inl hr | exact .inr hr | exact hr.elim

theorem anchorsAre_witness {s t : MemStash} (hs : AnchorsAre C s) {g : SealWitness} (hg : ∀ m c i, g.anchors.Commits m c i → C g.id m c i)
    {r : Except StashErr Bool}  (h : s.consumeWitness g = some (t, r)) : AnchorsAre C t := by
  simp only [consumeWitness] at h
  split at h
  · cases h
    intro w sw hw
    simp only [witness, OMap.get?_insert] at hw
    split at hw
    · rename_i e; subst e; cases hw; exact hg
    · exact hs w sw hw
  · rename_i old ho
    split at h
    · cases h; exact hs
    rename_i p hp
    split at h
    · cases h; exact hs
    rename_i a ha
    have hid : (⟨p, a⟩ : SealWitness).id = g.id := (merge_pub_shown hp).2.1
    cases h
    intro w sw hw
    simp only [witness, OMap.get?_insert] at hw
    split at hw
    · rename_i e; subst e; cases hw
      intro m c i hc
      rcases AnchorSet.merge_commits ha hc with h | h
      · exact hid ▸ hs _ _ ho m c i h
      · exact hid ▸ hg m c i h
    · exact hs w sw hw

theorem witnesses_each {α β : Type} {f : MemStash → α → SR β} (hf : ∀ s a t r, f s a = some (t, r) → t.witnesses = s.witnesses) (l : List α)
    (s t : MemStash) (r : Except StashErr Unit) (h : SR.each f l s = some (t, r)) : t.witnesses = s.witnesses :=
  each_keeps (Φ := fun t => t.witnesses = s.witnesses) l (fun _ _ s' _ _ hs h => (hf s' _ _ _ h).trans hs) s t r rfl h

theorem witnesses_consumeKit {s t : MemStash} {k : Kit} {r : Except StashErr Unit} (h : s.consumeKit I k = some (t, r)) :
    t.witnesses = s.witnesses := by
  have ch : ∀ {α : Type} {f : MemStash → α → SR Bool} (l : List α), (∀ s a t r, f s a = some (t, r) → t.witnesses = s.witnesses) →
      ∀ u t r, u.witnesses = s.witnesses → SR.each f l u = some (t, r) → t.witnesses = s.witnesses :=
    fun l hf u t r hu h => (witnesses_each hf l u t r h).trans hu
  refine bind_keeps (Φ := fun t => t.witnesses = s.witnesses) (fun u o hu => by cases hu; rfl) (fun s1 _ t _ h1 h => ?_) h
  refine bind_keeps (Φ := fun t => t.witnesses = s.witnesses) (fun u o hu => ch _ ?_ _ _ _ h1 hu) (fun s1 _ t _ h1 h => ?_) h
  · intro s a t r h; cases h; rfl
  refine bind_keeps (Φ := fun t => t.witnesses = s.witnesses) (fun u o hu => ch _ ?_ _ _ _ h1 hu) (fun s1 _ t _ h1 h => ?_) h
  · intro s a t r h; simp only [replaceSchema] at h; split at h
    · cases h; rfl
    · split at h <;> cases h <;> rfl
  refine bind_keeps (Φ := fun t => t.witnesses = s.witnesses) (fun u o hu => ch _ ?_ _ _ _ h1 hu) (fun s1 _ t _ h1 h => ?_) h
  · intro s a t r h; simp only [replaceIface] at h; split at h
    · cases h; rfl
    · split at h <;> cases h <;> rfl
  refine bind_keeps (Φ := fun t => t.witnesses = s.witnesses) (fun u o hu => ch _ ?_ _ _ _ h1 hu) (fun s1 _ t _ h1 h => ?_) h
  · intro s a t r h; simp only [replaceIimpl] at h; split at h
    · split at h <;> cases h <;> rfl
    · cases h
  refine bind_keeps (Φ := fun t => t.witnesses = s.witnesses) (fun u o hu => ?_) (fun s1 _ t _ h1 h => ?_) h
  · refine (witnesses_each (f := addSupplement) ?_ _ _ _ _ hu).trans h1
    intro s a t r h; simp only [addSupplement] at h; split at h <;> split at h <;> cases h <;> rfl
  · refine Eq.trans ?_ h1
    clear h1
    revert h
    generalize k.signatures = l
    intro h
    induction l generalizing s1 with
    | nil => cases h; rfl
    | cons e l ih =>
      simp only [importAllSigs] at h
      split at h
      · cases h
      · rename_i u o hu
        refine (ih _ h).trans ?_
        simp only [importSigs] at hu
        split at hu
        · cases hu; rfl
        · split at hu <;> cases hu <;> rfl

theorem witnesses_consumeGenesis {s t : MemStash} {g : Op} {r : Except StashErr Bool} (h : s.consumeGenesis H g = some (t, r)) : t.witnesses = s.witnesses := by
  simp only [consumeGenesis, replaceGenesis] at h
  split at h
  · split at h <;> cases h <;> rfl
  · split at h
    · cases h; rfl
    · split at h <;> cases h <;> rfl

theorem witnesses_consumeExtension {s t : MemStash} {g : Op} {r : Except StashErr Bool} (h : s.consumeExtension H g = some (t, r)) : t.witnesses = s.witnesses := by
  simp only [consumeExtension, replaceExtension] at h
  split at h
  · cases h; rfl
  · split at h <;> cases h <;> rfl

theorem witnesses_consumeBundle {s t : MemStash} {g : Bundle} {r : Except StashErr Bool} (h : s.consumeBundle H g = some (t, r)) : t.witnesses = s.witnesses := by
  simp only [consumeBundle, replaceBundle] at h
  split at h
  · cases h; rfl
  · split at h <;> cases h <;> rfl

/-- The collected anchors are those of the proofs. -/
theorem anchored_of {c : Nat} (l : List ClientBundle) {s t : MemStash} {r : Except StashErr (List (CloseMethod × Anchor))}
    (h : consumeAnchored H M c l s = some (t, r)) : t.witnesses = s.witnesses ∧
      ∀ as, r = .ok as → ∀ e ∈ as, ∃ x ∈ l, ∃ p, M.block x.mpc c (x.bundle.id H) = some p ∧ e.1 = x.dbc.method ∧ e.2.known = p.2 := by
  induction l generalizing s t r with
  | nil => cases h; exact ⟨rfl, fun as h => by cases h; simp⟩
  | cons b l ih =>
    simp only [consumeAnchored] at h
    cases hb : s.consumeBundle H b.bundle with
    | none => rw [hb] at h; cases h
    | some p =>
    obtain ⟨u, o⟩ := p
    have hw := witnesses_consumeBundle hb
    rw [hb] at h
    cases o with
    | error e => cases h; exact ⟨hw, fun as h => by cases h⟩
    | ok y =>
    simp only [SR.bind] at h
    cases hm : M.block b.mpc c (b.bundle.id H) with
    | none => simp only [hm] at h; cases h; exact ⟨hw, fun as h => by cases h⟩
    | some q =>
      obtain ⟨root, known⟩ := q
      simp only [hm] at h
      cases hr : consumeAnchored H M c l u with
      | none => rw [hr] at h; cases h
      | some z =>
        obtain ⟨v, o⟩ := z
        obtain ⟨i1, i2⟩ := ih hr
        rw [hr] at h
        cases o with
        | error e => cases h; exact ⟨i1.trans hw, fun as h => by cases h⟩
        | ok as =>
          cases h
          refine ⟨i1.trans hw, fun as' h => ?_⟩
          cases h
          intro e he
          rcases List.mem_cons.mp he with rfl | he
          · exact ⟨b, by simp, _, hm, rfl, rfl⟩
          · obtain ⟨x, hx, j⟩ := i2 as rfl e he
            exact ⟨x, by simp [hx], j⟩

theorem anchorSetOf_commits {as : List (CloseMethod × Anchor)} {a : AnchorSet} (h : anchorSetOf as = some a) {m : CloseMethod} {c i : Nat}
    (hc : a.Commits m c i) : ∃ e ∈ as, e.1 = m ∧ (c, i) ∈ e.2.known := by
  unfold anchorSetOf at h
  split at h <;> cases h <;> cases m <;> first | exact hc.elim | skip
  all_goals first | exact ⟨(.tapretFirst, _), by simp only [List.mem_cons, true_or, or_true], rfl, hc⟩ | exact ⟨(.opretFirst, _), by simp only [List.mem_cons, true_or, or_true], rfl, hc⟩

theorem anchorsAre_consignment (hH : H.Binding) {s t : MemStash} {con : Consignment} (hcp : con.Proper H) (hg : Good H s)
    (hC : ∀ wb ∈ con.data.bundles, ∀ x ∈ wb.anchored.list, ∀ p,
      M.block x.mpc (con.data.genesis.contractId H) (x.bundle.id H) = some p → ∀ c i, (c, i) ∈ p.2 → C wb.id x.dbc.method c i)
    (hs : AnchorsAre C s) {r : Except StashErr Unit} (h : s.consumeConsignment H I M con = some (t, r)) : AnchorsAre C t := by
  suffices h : AnchorsAre C t ∧ Good H t from h.1
  refine bind_keeps (Φ := fun t => AnchorsAre C t ∧ Good H t) (fun u o hu => ?_) (fun s _ t _ hs h => ?_) h
  · exact ⟨anchorsAre_congr hs (witnesses_consumeGenesis hu), ((step_consumeGenesis hH s hg _ hcp.genesisKind hcp.genesis).1 u o hu).1⟩
  refine bind_keeps (Φ := fun t => AnchorsAre C t ∧ Good H t) (fun u o hu => ?_) (fun s _ t _ hs h => ?_) h
  · refine each_keeps (Φ := fun t => AnchorsAre C t ∧ Good H t) _ (fun a ha s t r hs h => ?_) _ _ _ hs hu
    exact ⟨anchorsAre_congr hs.1 (witnesses_consumeExtension h), ((step_consumeExtension hH s hs.2 a (hcp.extensions a ha)).1 t r h).1⟩
  refine bind_keeps (Φ := fun t => AnchorsAre C t ∧ Good H t) (fun u o hu => ?_) (fun s _ t _ hs h => ?_) h
  · refine each_keeps (Φ := fun t => AnchorsAre C t ∧ Good H t) _ (fun w hw s t r hs h => ?_) _ _ _ hs hu
    refine ⟨?_, ((step_consumeWitnessBundle hH M _ w (fun b hb => hcp.bundles w hw b hb) s hs.2).1 t r h).1⟩
    simp only [consumeWitnessBundle] at h
    cases ha : consumeAnchored H M (con.data.genesis.contractId H) w.anchored.list s with
    | none => rw [ha] at h; cases h
    | some z =>
      obtain ⟨v, o⟩ := z
      obtain ⟨i1, i2⟩ := anchored_of _ ha
      rw [ha] at h
      cases o with
      | error e => cases h; exact anchorsAre_congr hs.1 i1
      | ok as =>
        simp only [SR.bind] at h
        cases hset : anchorSetOf as with
        | none => rw [hset] at h; cases h
        | some a =>
          rw [hset] at h
          refine anchorsAre_witness (anchorsAre_congr hs.1 i1) ?_ h
          · intro m c i hc
            obtain ⟨e, he, rfl, hm⟩ := anchorSetOf_commits hset hc
            obtain ⟨x, hx, p, j1, j2, j3⟩ := i2 as rfl e he
            rw [j2]
            exact hC w hw x hx p j1 c i (j3 ▸ hm)
  refine bind_keeps (Φ := fun t => AnchorsAre C t ∧ Good H t) (fun u o hu => ?_) (fun s _ t _ hs h => ?_) h
  · refine each_keeps (Φ := fun t => AnchorsAre C t ∧ Good H t) _ (fun w hw s t r hs h => ?_) _ _ _ hs hu
    exact ⟨anchorsAre_congr hs.1 (by cases h; rfl), (step_replaceAttachment s hs.2 _ _ t r h).1⟩
  exact ⟨anchorsAre_congr hs.1 (witnesses_consumeKit h), (step_consumeKit I s hs.2 _ t _ h).1⟩

end Rgb
