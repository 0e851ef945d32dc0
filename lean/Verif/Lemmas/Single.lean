import Verif.Spec.Single
import Verif.Lemmas.Agree
import Verif.Props.Agree
import Verif.Props.Batch

/-!
Lemmas for C103.
-/

namespace Rgb

open Stock Index Props

variable {E : CEnv} {n : Nat} {M : Mpc} {G : SchemaDoc → SchemaGlobals} {L : Ledger} {closer : Outpoint → Option WitnessId} {es : List StockEvent} {k : Stock}

theorem Settled.honest (h : Settled E M G L closer es k) : Honest E M G L es k := by
  induction h with
  | new => exact .new
  | own _ he hd ih => exact .own ih he hd
  | issued _ hb hc hf hd ih => exact .issued ih hb hc hf hd
  | spent _ hb hf _ hu hs hl ha hd ih => exact .spent ih hb hf hu hs hl ha hd
  | received _ ht hoc _ hd ih₀ ih => exact .received ih₀ ht hoc ih hd

theorem mem_stateAt {c : Nat} {prevs : List OutSeal} {a : OutAssign} (ha : a ∈ k.stateAt c prevs) :
    ∃ v kind, k.state.contractState c = .ok v ∧ a ∈ v.all kind := by
  simp only [Stock.stateAt] at ha
  cases hv : k.state.contractState c with
  | error x => rw [hv] at ha; cases ha
  | ok v =>
    rw [hv] at ha
    obtain ⟨h1, -⟩ := List.mem_filter.mp ha
    simp only [List.mem_append] at h1
    rcases h1 with ((h1 | h1) | h1) | h1
    exacts [⟨v, _, rfl, h1⟩, ⟨v, _, rfl, h1⟩, ⟨v, _, rfl, h1⟩, ⟨v, _, rfl, h1⟩]

theorem mem_toList_of_transitions {b : Batch} {c : Nat} {t : BuiltTransition} (h : t ∈ b.transitionsOf c) : t.op.contract = c ∧ ∃ i ∈ b.toList, i.transition = t := by
  obtain ⟨h1, h2⟩ := List.mem_filter.1 h
  refine ⟨of_decide_eq_true h2, ?_⟩
  unfold Batch.toList
  rw [List.flatMap_append]
  rcases List.mem_append.1 h1 with h1 | h1
  · obtain ⟨i, hi, rfl⟩ := List.mem_map.1 h1
    exact ⟨i, List.mem_append_right _ (by simpa using hi), rfl⟩
  · obtain ⟨d, hd, h3⟩ := List.mem_flatMap.1 h1
    obtain ⟨i, hi, rfl⟩ := List.mem_map.1 h3
    exact ⟨i, List.mem_append_left _ (List.mem_flatMap.2 ⟨d, hd, hi⟩), rfl⟩

/-- A fascia made as the batch says closes the seals of what it spends. -/
theorem spends_closes (hE : E.Lawful n) (hT : E.TagMaps) (hTC : E.TagsCommitted) (hH : E.H.Binding) (hM : M.Lawful) (hG : ∀ d, OMap.Sorted (G d).maxItems)
    (hI : Ids.Lawful E.H E.I) (hSR : E.S.Restores M) (hO : L.Once) (h : Honest E M G L es k) {W : Wallet} {inv : Inv.Invoice} {prevs : List OutSeal} {b : Batch}
    (hb : compose E W k inv prevs = .ok b) {f : Fascia} (hf : f.MadeOf E.H b) (hcl : f.Spends closer b) {c : Nat} {bd : Bundle} (hm : (c, bd) ∈ f.bundles) :
    bd.Closes E M G L closer c f.witness.id := by
  intro t ht es' k' h' v' kind' a ha' ha hi
  obtain ⟨u, hu, rfl⟩ := (hf.batch _ hm).2 t ht
  obtain ⟨a₁, ha₁, ho⟩ := compose_inputs hE hb hu _ hi
  obtain ⟨v, kind, hv, hk⟩ := mem_stateAt ha₁
  obtain ⟨-, rfl⟩ := C102_allocations hE hT hTC hH hM hG hI hSR hO h h' hv ha' (List.mem_filter.1 hk).1 (List.mem_filter.1 ha).1 ho
  obtain ⟨rfl, i, hib, rfl⟩ := mem_toList_of_transitions hu
  have hw := C100_once hE hT hTC hH hM hG hI hSR hO _ _ _ _ _ _ h hb i.transition.op.contract
  have hr := (h.sane hE hT hTC hH hM hG hI).reachable hG
  obtain ⟨h1, h2⟩ := C56_outputs hE hb i hib (C38_apart hH hr hw)
  obtain ⟨h3, h4⟩ := hcl i hib _ hm ht
  exact ⟨h3 _ ((h1 _).2 ⟨_, ha₁, hi, rfl⟩), (h2 _ ha₁ hi).trans h4.symm⟩

/-- All bundles of a settled wallet close the seals of what they spend. -/
theorem Settled.closes (hE : E.Lawful n) (hT : E.TagMaps) (hTC : E.TagsCommitted) (hH : E.H.Binding) (hM : M.Lawful) (hG : ∀ d, OMap.Sorted (G d).maxItems)
    (hI : Ids.Lawful E.H E.I) (hSR : E.S.Restores M) (hO : L.Once) (h : Settled E M G L closer es k) :
    ∀ e ∈ es, ∀ c b w, e.Brings E.H c b w → b.Closes E M G L closer c w := by
  induction h with
  | new => intro e he; cases he
  | own h he hd ih =>
    intro e hm c b w hb
    rcases List.mem_append.1 hm with hm | hm
    · exact ih e hm c b w hb
    · rw [List.mem_singleton] at hm
      subst hm
      exfalso
      cases hb <;> exact he
  | issued h hb hc hf hd ih =>
    intro e hm c b w hbr
    rcases List.mem_append.1 hm with hm | hm
    · exact ih e hm c b w hbr
    · rw [List.mem_singleton] at hm
      subst hm
      exfalso
      cases hbr with
      | consignment _ _ wb _ hw _ => rw [hb] at hw; cases hw
  | spent h hb hf hcl hu hs hl ha hd ih =>
    intro e hm c b w hbr
    rcases List.mem_append.1 hm with hm | hm
    · exact ih e hm c b w hbr
    · rw [List.mem_singleton] at hm
      subst hm
      cases hbr with
      | fascia _ _ _ _ hm => exact spends_closes hE hT hTC hH hM hG hI hSR hO h.honest hb hf hcl hm
  | @received es es₀ k k' k₀ fuel c₀ outputs secret con r h₀ ht hoc h hd ih₀ ih =>
    intro e hm c b w hbr
    rcases List.mem_append.1 hm with hm | hm
    · exact ih e hm c b w hbr
    · rw [List.mem_singleton] at hm
      subst hm
      have hs₀ := h₀.honest.sane hE hT hTC hH hM hG hI
      obtain ⟨h1, -⟩ := consign_shape hH (hs₀.kept hH hG) ht
      have hwf := brought_wf (transfer_sound hH (hs₀.kept hH hG) ht r) hbr
      cases hbr with
      | consignment _ _ wb _ hw hb =>
        obtain ⟨x, hx, rfl⟩ := List.mem_map.mp hb
        obtain ⟨e, he, b', hb', e1, e2, e3⟩ := transfer_brought hH hM hG hs₀ ht hoc hw hx
        rw [h1]
        have := ih₀ e he _ b' _ hb'
        have hwf' := brought_wf (hs₀.furnished.sound e he) hb'
        intro t htk es' k' h' v kind a hv ha hi
        obtain ⟨⟨i, y⟩, hm, hy⟩ := List.mem_map.mp htk
        obtain rfl : y = t := hy
        have hg := hwf.sorted.get?_of_mem hm
        obtain ⟨t', ht'⟩ := OMap.contains_iff.mp ((e3 i).trans (OMap.contains_iff.mpr ⟨_, hg⟩))
        rw [← e2]
        refine this t' (List.mem_map.mpr ⟨_, OMap.mem_of_get? ht', rfl⟩) es' k' h' v kind a hv ha ?_
        rw [inputs_of_id hH ((hwf'.keyed _ _ ht').1.trans (hwf.keyed _ _ hg).1.symm)]
        exact hi

/-- No output is spent by two transitions. -/
theorem Settled.single (hE : E.Lawful n) (hT : E.TagMaps) (hTC : E.TagsCommitted) (hH : E.H.Binding) (hM : M.Lawful) (hG : ∀ d, OMap.Sorted (G d).maxItems)
    (hI : Ids.Lawful E.H E.I) (hSR : E.S.Restores M) (hO : L.Once) {ess : List (List StockEvent)} (hess : ∀ es ∈ ess, ∃ k, Settled E M G L closer es k) (c : Nat) :
    NoDoubleSpend E.H ess c := by
  have brought : ∀ {es : List StockEvent} {k : Stock}, Settled E M G L closer es k → ∀ {t : Op} {w : WitnessId}, Had E.H es c t (some w) →
      ∃ e ∈ es, ∃ b, e.Brings E.H c b w ∧ t ∈ OMap.vals b.known ∧ b.WF E.H ∧ e.OnLedger E.H L := by
    intro es k h t w ht
    have hs := h.honest.sane hE hT hTC hH hM hG hI
    cases ht with
    | extension con r t wb he ht hw => rw [hs.furnished.noExtensions con r he] at ht; cases ht
    | transition e _ b _ _ he hb htk => exact ⟨e, he, b, hb, htk, brought_wf (hs.furnished.sound e he) hb, hs.onLedger e he⟩
  rintro es hes es' hes' o t t' ⟨⟨w, ht⟩, ho⟩ ⟨⟨w', ht'⟩, ho'⟩
  obtain ⟨k, hk⟩ := hess es hes
  obtain ⟨k', hk'⟩ := hess es' hes'
  obtain ⟨or⟩ := hk.honest.origin hE hT hTC hH hM hG hI ht
  rw [inputs_of_id hH or.id.symm] at ho
  obtain ⟨a, ha, rfl⟩ := compose_inputs hE or.composed or.mem _ ho
  obtain ⟨v, kind, hv, hm⟩ := mem_stateAt ha
  rw [inputs_of_id hH or.id] at ho
  obtain ⟨e, he, b, hb, htb, hwf, hl⟩ := brought hk ht
  obtain ⟨e', he', b', hb', htb', hwf', hl'⟩ := brought hk' ht'
  obtain ⟨c1, m1⟩ := hk.closes hE hT hTC hH hM hG hI hSR hO e he c b w hb t htb _ _ or.honest v kind a hv hm ho
  obtain ⟨c2, m2⟩ := hk'.closes hE hT hTC hH hM hG hI hSR hO e' he' c b' w' hb' t' htb' _ _ or.honest v kind a hv hm ho'
  have hw : w = w' := Option.some.inj (c1.symm.trans c2)
  subst hw
  obtain ⟨l1, s1⟩ := hl c b w hb
  obtain ⟨l2, -⟩ := hl' c b' w hb'
  rw [← m2, m1, l1] at l2
  have hmap := (hH.bundle_inj _ _ _ _ (show E.H.bundleHash b.closeMethod b.inputMap = E.H.bundleHash b'.closeMethod b'.inputMap from l2)).2
  obtain ⟨⟨i, y⟩, hi, hy⟩ := List.mem_map.mp htb
  obtain rfl : y = t := hy
  obtain ⟨⟨i', y'⟩, hi', hy'⟩ := List.mem_map.mp htb'
  obtain rfl : y' = t' := hy'
  have g := hwf.sorted.get?_of_mem hi
  have g' := hwf'.sorted.get?_of_mem hi'
  rw [(hwf.keyed _ _ g).1, (hwf'.keyed _ _ g').1]
  exact s1 _ (hwf.spent _ _ g) _ (hmap ▸ hwf'.spent _ _ g')

end Rgb
