import Verif.Spec.Info
import Verif.Lemmas.PassStore
import Verif.Lemmas.AgainStash

/-! Lemmas about descriptions (C86). -/

namespace Rgb
open MemStash Stock

variable {H : Commit}

theorem pointwise_map {α β : Type} {R : α → β → Prop} (f : α → β) (l : List α) (h : ∀ a ∈ l, R a (f a)) : Pointwise R l (l.map f) := by
  refine ⟨by simp, fun n a b ha hb => ?_⟩
  simp only [List.getElem?_map, ha, Option.map_some, Option.some.injEq] at hb
  subst hb
  exact h a (List.mem_of_getElem? ha)

theorem fasciaBundles_writes {I : Ids} {r : Resolver} {w : WitnessId} (l : List (Nat × Bundle)) {k k' : Stock} {e : Option StockErr}
    (h : fasciaBundles H r w l k = some (k', e)) : Writes H I k.stash k'.stash := by
  induction l generalizing k with
  | nil => simp only [fasciaBundles] at h; cases h; exact .refl I _
  | cons x l ih =>
    obtain ⟨c, b⟩ := x
    simp only [fasciaBundles] at h
    by_cases hchk : (OMap.keys b.known).all (fun o => decide (o ∈ OMap.vals b.inputMap)) = false
    · rw [if_pos hchk] at h
      cases h; exact .refl I _
    rw [if_neg hchk] at h
    cases e2 : k.index.indexBundle H c b w with | mk x o
    simp only [e2] at h
    cases o with
    | some y => simp only at h; cases h; exact .refl I _
    | none =>
    simp only at h
    cases e1 : k.state.updateFromBundle H c b w r with
    | none => simp [e1] at h
    | some p =>
    obtain ⟨t, o⟩ := p
    cases o with
    | some y => simp only [e1] at h; cases h; exact .refl I _
    | none =>
    simp only [e1] at h
    cases e3 : k.stash.consumeBundle H b with
    | none => simp [e3] at h
    | some q =>
      obtain ⟨s, o⟩ := q
      have h1 := writes_consumeBundle (H := H) I k.stash b s o e3
      cases o with
      | error y => simp only [e3] at h; cases h; exact h1
      | ok y =>
        simp only [e3] at h
        exact h1.trans (ih h)

theorem event_writes {I : Ids} {M : Mpc} {G : SchemaDoc → SchemaGlobals} (e : StockEvent) {k k' : Stock} (h : e.exec H I M G k = some k') :
    Writes H I k.stash k'.stash := by
  cases e with
  | consignment con r =>
    obtain ⟨⟨k1, o⟩, h1, rfl⟩ := Option.map_eq_some_iff.mp h
    simp only [Stock.consumeConsignment] at h1
    cases e1 : k.stash.resolveSecrets H con with
    | error x => simp only [e1] at h1; cases h1; exact .refl I _
    | ok con' =>
      simp only [e1, storeTx_mem] at h1
      obtain ⟨⟨k2, o'⟩, h2, h3⟩ := Option.map_eq_some_iff.mp h1
      cases h3
      simp only [consumeBody] at h2
      cases e2 : k.state.updateFromConsignment H (G con'.schema) con'.data r with
      | none => simp [e2] at h2
      | some p =>
      obtain ⟨t, o⟩ := p
      cases o with
      | some x => simp only [e2] at h2; cases h2; exact .refl I _
      | none =>
      simp only [e2] at h2
      cases e3 : k.index.indexConsignment H con'.data with | mk x o
      simp only [e3] at h2
      cases o with
      | some y => simp only at h2; cases h2; exact .refl I _
      | none =>
      simp only at h2
      cases e4 : k.stash.consumeConsignment H I M con' with
      | none => simp [e4] at h2
      | some q =>
        obtain ⟨s, o⟩ := q
        have h5 := writes_consumeConsignment (H := H) I M k.stash con' s o e4
        cases o with
        | error y => simp only [e4] at h2; cases h2; exact h5
        | ok y => simp only [e4] at h2; cases h2; exact h5
  | fascia f r =>
    obtain ⟨⟨k1, o⟩, h1, rfl⟩ := Option.map_eq_some_iff.mp h
    simp only [consumeFascia, storeTx_mem] at h1
    obtain ⟨⟨k2, o'⟩, h2, h3⟩ := Option.map_eq_some_iff.mp h1
    cases h3
    simp only [fasciaBody] at h2
    cases e1 : k.stash.consumeWitness ⟨f.witness, f.anchor⟩ with
    | none => simp [e1] at h2
    | some q =>
      obtain ⟨s, x⟩ := q
      have hw := writes_consumeWitness (H := H) I k.stash _ s x e1
      cases x with
      | error y => simp only [e1] at h2; cases h2; exact hw
      | ok y =>
        simp only [e1] at h2
        exact hw.trans (fasciaBundles_writes (k := { k with stash := s }) _ h2)
  | kit x =>
    obtain ⟨⟨s, o⟩, h1, rfl⟩ := Option.map_eq_some_iff.mp h
    exact writes_consumeKit I k.stash x s o h1
  | secretSeal x =>
    simp only [StockEvent.exec] at h
    obtain ⟨⟨s, o⟩, h1, rfl⟩ := Option.map_eq_some_iff.mp h
    exact .one (.secretSeal x) (exec_of h1)
  | trust i t =>
    simp only [StockEvent.exec] at h
    obtain ⟨⟨s, o⟩, h1, rfl⟩ := Option.map_eq_some_iff.mp h
    exact .one (.trust i t) (exec_of h1)
  | update r n =>
    simp only [StockEvent.exec, Option.some.injEq] at h
    subst h
    exact .refl I _

/-- Whatever happens, the stash only gets writes. -/
theorem runStock_writes {I : Ids} {M : Mpc} {G : SchemaDoc → SchemaGlobals} (es : List StockEvent) {k k' : Stock}
    (h : runStock H I M G es k = some k') : Writes H I k.stash k'.stash := by
  induction es generalizing k with
  | nil => cases h; exact .refl I _
  | cons e es ih =>
    obtain ⟨u, hu, h⟩ := Option.bind_eq_some_iff.mp h
    exact (event_writes e hu).trans (ih h)

/-- What is needed of the stash. -/
structure MemStash.Listed (H : Commit) (I : Ids) (s : MemStash) : Prop where
  sorted : StSorted s
  impls : Impls s
  addressed : Addressed H I s

theorem Writes.listed {I : Ids} {s : MemStash} (h : Writes H I {} s) : MemStash.Listed H I s :=
  ⟨Writes.stSorted h stSorted_empty,
   writes_keep (Φ := Impls) (fun s t w hs ht => impls_exec I s t hs w ht) h ⟨.nil, by intro _ _ h; cases h⟩,
   writes_keep (Φ := Addressed H I) (fun s t w hs ht => addressed_exec H I s t hs w ht) h (addressed_empty H I)⟩

theorem writes_keeps {I : Ids} {s t : MemStash} (h : Writes H I s t) : Keeps s t := by
  obtain ⟨ws, h⟩ := h
  induction ws generalizing s with
  | nil => cases h; exact .refl _
  | cons w ws ih =>
    obtain ⟨u, hu, h⟩ := Option.bind_eq_some_iff.mp h
    exact (keeps_exec H I s u w hu).trans (ih h)

/-- The last entry with this key. -/
theorem get?_names (I : Ids) (l : List IfaceDoc) (m : OMap Nat Nat) (hinj : ∀ a ∈ l, ∀ b ∈ l, I.iface a = I.iface b → a.name = b.name) (i : Nat) :
    (∀ d ∈ l, I.iface d = i → OMap.get? (OMap.extend m (l.map (fun d => (I.iface d, d.name)))) i = some d.name) ∧
    ((∀ d ∈ l, I.iface d ≠ i) → OMap.get? (OMap.extend m (l.map (fun d => (I.iface d, d.name)))) i = OMap.get? m i) := by
  induction l generalizing m with
  | nil => exact ⟨by simp, fun _ => rfl⟩
  | cons a l ih =>
    obtain ⟨h1, h2⟩ := ih (OMap.insert m (I.iface a) a.name) (fun x hx y hy => hinj x (by simp [hx]) y (by simp [hy]))
    simp only [List.map_cons, OMap.extend_cons]
    refine ⟨fun d hd hi => ?_, fun hno => ?_⟩
    · by_cases hin : ∃ d' ∈ l, I.iface d' = i
      · obtain ⟨d', hd', hi'⟩ := hin
        rw [h1 d' hd' hi', hinj d' (by simp [hd']) d hd (hi'.trans hi.symm)]
      · have hno : ∀ d' ∈ l, I.iface d' ≠ i := fun d' hd' e => hin ⟨d', hd', e⟩
        rw [h2 hno]
        rcases List.mem_cons.mp hd with rfl | hd
        · rw [hi, OMap.get?_insert_self]
        · exact absurd hi (hno d hd)
    · rw [h2 (fun d hd => hno d (by simp [hd])), OMap.get?_insert_ne _ _ (fun e => hno a (by simp) e.symm)]

end Rgb
