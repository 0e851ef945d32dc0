import Verif.Spec.Onward
import Verif.Lemmas.UsableHist
import Verif.Lemmas.Pass
import Verif.Props.Stock

/-!
Transferring what has a complete history.
-/

namespace Rgb

open MemStash Props Stock

variable {H : Commit} {I : Ids} {M : Mpc} {E : Env} {G : SchemaDoc → SchemaGlobals} {k : Stock}

/-! ## Termination -/

/-- The known history of the operation is finite. -/
inductive Anc (k : Stock) (c : Nat) : Nat → Prop
  | intro {o : Nat} (h : ∀ b t, Knows k o b t → ∀ p ∈ parents t, p ≠ c → Anc k c p) : Anc k c o

/-- The loop is finished from each state. -/
def Ends (H : Commit) (E : Env) (k : Stock) (c : Nat) (st : List Nat) : Prop :=
  ∀ acc, ∃ fuel r, consignLoop H E k c fuel st acc = some r

theorem ends_genesis {c : Nat} {st : List Nat} (h : Ends H E k c st) : Ends H E k c (c :: st) := by
  intro acc
  obtain ⟨f, r, hf⟩ := h acc
  exact ⟨f + 1, r, by simp only [consignLoop, if_true]; exact hf⟩

theorem ends_append {c : Nat} (l : List Nat) (hl : ∀ o ∈ l, ∀ st, Ends H E k c st → Ends H E k c (o :: st)) {st : List Nat}
    (h : Ends H E k c st) : Ends H E k c (l ++ st) := by
  induction l with
  | nil => exact h
  | cons o l ih => exact hl o (by simp) _ (ih (fun x hx => hl x (by simp [hx])))

theorem ends_anc {c o : Nat} (ho : Anc k c o) : ∀ st, Ends H E k c st → Ends H E k c (o :: st) := by
  induction ho with
  | @intro o _ ih =>
    intro st h acc
    by_cases hoc : o = c
    · subst hoc; exact ends_genesis h acc
    cases e : consignVisit H E k acc o with
    | error x => exact ⟨1, .error x, by simp only [consignLoop, hoc, if_false, e]⟩
    | ok q =>
      obtain ⟨acc1, ps⟩ := q
      obtain ⟨b, t, hk, rfl⟩ := consignVisit_parents e
      obtain ⟨f, r, hf⟩ := ends_append (parents t).reverse (fun p hp => by
        by_cases hpc : p = c
        · subst hpc; exact fun _ => ends_genesis
        · exact ih b t hk p (List.mem_reverse.mp hp) hpc) h acc1
      exact ⟨f + 1, r, by simp only [consignLoop, hoc, if_false, e]; exact hf⟩

/-- Making a transfer ends if the histories of the requested outputs are finite. -/
theorem transfer_ends (hh : Hist H k) {c : Nat} {outputs : List Outpoint} {secret : Option Nat}
    (h : ∀ o, Requested k c outputs secret o → o.op = c ∨ Anc k c o.op) :
    ∃ fuel r, ∀ fuel', fuel ≤ fuel' → k.transfer H I E fuel' c outputs secret = some r := by
  simp only [transfer, consign]
  cases e1 : consignOps k c outputs secret with
  | error e => exact ⟨0, _, fun _ _ => rfl⟩
  | ok ops =>
  simp only
  cases e2 : consignOpouts H E k c secret ops {} with
  | error e => exact ⟨0, _, fun _ _ => rfl⟩
  | ok acc =>
  simp only
  have hpub := fun l => public_nil hh.index c l
  obtain ⟨i1, -, -⟩ := consignOpouts_ok (N := fun x => x ∈ ops ∧ x ≠ c) hh.good ops ⟨.nil, .nil, by simp, by simp⟩ (fun _ h1 h2 => ⟨h1, h2⟩) e2
  have hst : Ends H E k c (((OMap.vals acc.transitions).flatMap parents).reverse ++ []) := by
    refine ends_append _ (fun p hp => ?_) (fun acc => ⟨0, _, rfl⟩)
    by_cases hpc : p = c
    · subst hpc; exact fun _ => ends_genesis
    simp only [List.mem_reverse, List.mem_flatMap] at hp
    obtain ⟨t, ht, hp⟩ := hp
    obtain ⟨o, ho⟩ := (mem_vals i1.sortedT).mp ht
    obtain ⟨⟨hm, hoc⟩, b, hk, -⟩ := i1.trans _ _ ho
    obtain ⟨x, hx, rfl⟩ := (mem_consignOps hpub e1 o).mp hm
    rcases h x hx with h1 | h1
    · exact absurd h1 hoc
    cases h1 with
    | intro h1 => exact ends_anc (h1 b t hk p hp hpc)
  rw [List.append_nil] at hst
  obtain ⟨fuel, r, hf⟩ := hst acc
  cases r with
  | error e =>
    refine ⟨fuel, .error e, fun f hle => ?_⟩
    rw [consignLoop_mono fuel _ acc _ hf f hle]
  | ok a =>
    refine ⟨fuel, consignFinish H I E k c a, fun f hle => ?_⟩
    rw [consignLoop_mono fuel _ acc _ hf f hle]

/-! ## Operations with a complete history -/

theorem brought_id {e : StockEvent} (he : e.Sound H) {c o : Nat} {b : Bundle} {w : WitnessId} {t : Op} (hb : e.Brings H c b w)
    (ht : OMap.get? b.known o = some t) : t.id H = o := by
  have hwf : b.WF H := by
    have hpr := he.proper
    cases hb with
    | consignment con r wb _ hw hb => exact hpr.1.bundles wb hw _ hb
    | fascia f r _ _ hb => exact (hpr _ hb).1
  exact (hwf.keyed _ _ ht).1

theorem inputs_id (hH : H.Binding) {t t' : Op} (h : t.id H = t'.id H) : t.inputs = t'.inputs :=
  by have := congrArg Op.inputs (id_conceal hH h); exact this

variable {es es' : List StockEvent} {V V' : WitnessId → Prop}

/-- One way in which it came is enough. -/
theorem Traced.of (hH : H.Binding) (hs : ∀ e ∈ es, e.Sound H) {c o : Nat} {e : StockEvent} (he : e ∈ es) {b : Bundle} {w : WitnessId} {t : Op}
    (hb : e.Brings H c b w) (ht : OMap.get? b.known o = some t) (hv : V w) (hi : ∀ i ∈ t.inputs, i.op ≠ c → Traced H es V c i.op) :
    Traced H es V c o := by
  refine .intro ⟨e, he, b, w, hb, OMap.contains_iff.mpr ⟨t, ht⟩, hv⟩ (fun e' he' b' w' t' hb' ht' i hm => ?_)
  refine hi i ?_
  rw [inputs_id hH ((brought_id (hs e he) hb ht).trans (brought_id (hs e' he') hb' ht').symm)]
  exact hm

/-- More may come, with more valid witnesses. -/
theorem Traced.mono (hH : H.Binding) (hs : ∀ e ∈ es', e.Sound H) (hle : ∀ e ∈ es, e ∈ es') (hV : ∀ w, V w → V' w) {c o : Nat}
    (h : Traced H es V c o) : Traced H es' V' c o := by
  induction h with
  | intro came _ ih =>
    obtain ⟨e, he, b, w, hb, ho, hv⟩ := came
    obtain ⟨t, ht⟩ := OMap.contains_iff.mp ho
    exact .of hH hs (hle e he) hb ht (hV w hv) (fun i hi hic => ih e he b w t hb ht i hi hic)

theorem Traced.anc (hH : H.Binding) (hs : ∀ e ∈ es, e.Sound H) (hg : k.stash.Good H) {c o : Nat} (h : Traced H es V c o) : Anc k c o := by
  induction h with
  | intro came _ ih =>
    obtain ⟨e, he, b, w, hb, ho, -⟩ := came
    obtain ⟨t, ht⟩ := OMap.contains_iff.mp ho
    refine .intro (fun b' t' hk p hp hpc => ?_)
    simp only [parents, List.mem_map] at hp
    obtain ⟨i, hi, rfl⟩ := hp
    refine ih e he b w t hb ht i ?_ hpc
    rw [inputs_id hH ((brought_id (hs e he) hb ht).trans (hk.id hg).symm)]
    exact hi

/-- What has a complete history can be transferred. -/
theorem transfer_traced (hH : H.Binding) (hM : M.Lawful) (hG : ∀ d, OMap.Sorted (G d).maxItems) (hI : Ids.Lawful H I) (hE : E.Lawful)
    (hc : Furnished H I E es) (h : AllDone H I M G es .empty k) {c : Nat} (himp : Imported H es c) (hu : OneCommitted H es c) (hfew : FewIfaces I k c)
    {outputs : List Outpoint} {l : OSet Opout} (hl : k.index.opoutsByOutputs c outputs = .ok l) {secret : Option Nat}
    (hreq : ∀ o, Requested k c outputs secret o → o.op = c ∨ Traced H es k.Valid c o.op) (hone : ∀ s, secret = some s → OncePerBundle H k c outputs s) :
    ∃ fuel con, ∀ fuel', fuel ≤ fuel' → k.transfer H I E fuel' c outputs secret = some (.ok con) := by
  have hf := complete_facts hH hM hG hc h
  obtain ⟨fuel, r, hr⟩ := transfer_ends (I := I) (E := E) hf.hist (fun o ho => (hreq o ho).imp_right (Traced.anc hH hc.sound hf.hist.good))
  have := (transfer_ready hH hM hG hI hE hc h himp (N := Traced H es k.Valid c) (fun o ho => by
    cases ho with
    | intro came _ =>
      obtain ⟨e, he, b, w, hb, ho, hv⟩ := came
      exact ⟨e, he, b, w, hb, ho, e, he, b, w, hb, rfl, hv⟩) (fun o ho e he b w t hb ht i hi => by
    cases ho with
    | intro _ inputs => exact Decidable.or_iff_not_imp_left.mpr (inputs e he b w t hb ht i hi)) hu hl hreq hfew fuel).1 hone
  cases r with
  | error x => exact absurd (hr fuel (Nat.le_refl _)) (this x)
  | ok con => exact ⟨fuel, con, hr⟩

/-! ## Receiving -/

theorem needed_ne {c : Nat} {outputs : List Outpoint} {secret : Option Nat} {o : Nat} (h : Needed k c outputs secret o) : o ≠ c := by
  cases h with
  | output _ h => exact h
  | input _ _ _ h => exact h

/-- A transfer is made only of operations with finite histories. -/
theorem needed_anc (hk : Kept H I k) {fuel c : Nat} {outputs : List Outpoint} {secret : Option Nat} {con : Consignment}
    (h : k.transfer H I E fuel c outputs secret = some (.ok con)) {o : Nat} (ho : Needed k c outputs secret o) : Anc k c o := by
  refine Classical.byContradiction fun hn => consign_trap hk h (S := fun o => o ≠ c ∧ ¬ Anc k c o) (fun _ h => h.1) ?_ ho ⟨needed_ne ho, hn⟩
  rintro o b t ⟨-, hn⟩ hkn
  refine Classical.byContradiction fun hx => hn (.intro fun b' t' hk' p hp hpc => Classical.byContradiction fun hp' => hx ⟨p, ?_, hpc, hp'⟩)
  obtain ⟨-, rfl⟩ := hkn.unique hk'
  exact hp

theorem needed_traced (hH : H.Binding) (hr : k.Reachable H) (hk : Kept H I k) {fuel c : Nat} {outputs : List Outpoint} {secret : Option Nat} {con : Consignment}
    (h : k.transfer H I E fuel c outputs secret = some (.ok con)) (hs : ∀ e ∈ es, e.Sound H) {r : Resolver} (he : .consignment con r ∈ es)
    (hv : ∀ wb ∈ con.data.bundles, V wb.id) {o : Nat} (ho : Needed k c outputs secret o) : Traced H es V c o := by
  obtain ⟨-, h1, h2⟩ := C36_full_history_partial hH hr h
  have ha := needed_anc hk h ho
  induction ha with
  | intro _ ih =>
    obtain ⟨b, t, wb, cb, h3, -, h5, h6, h7⟩ := h2 _ ho
    refine .of hH hs he (h1 ▸ .consignment con r wb cb.bundle h5 (List.mem_map.mpr ⟨cb, h7.listed, rfl⟩)) h6 (hv wb h5) (fun i hi hic => ?_)
    exact ih b t h3 i.op (List.mem_map.mpr ⟨i, hi, rfl⟩) hic (.input ho h3 hi hic)

theorem transfer_sound (hH : H.Binding) (hk : Kept H I k) {fuel c : Nat} {outputs : List Outpoint} {secret : Option Nat} {con : Consignment}
    (h : k.transfer H I E fuel c outputs secret = some (.ok con)) (r : Resolver) : StockEvent.Sound H (.consignment con r) := by
  obtain ⟨-, -, -, -, -, hcb, -, -⟩ := consign_shape hH hk h
  refine ⟨consign_proper hH hk r h, ?_, ?_, (by intro f r h; cases h)⟩
  · intro c b w hb
    cases hb with
    | consignment _ _ wb _ hw hb =>
      obtain ⟨x, hx, rfl⟩ := List.mem_map.mp hb
      obtain ⟨h1, o, t, -, -, y, h3, h4⟩ := hcb wb hw x hx
      rw [(clientBundle_ok h1).1] at h3
      cases h3
      intro hn
      rw [hn] at h4
      cases h4
  · intro con r he wb hw x hx
    cases he
    exact client_method (hcb wb hw x hx).1

/-- All the bundles of a consignment. -/
theorem mem_flat {con : Consignment} {wb : WitnessBundle} {b : Bundle} (hw : wb ∈ con.data.bundles) (hb : b ∈ wb.anchored.bundles) :
    b ∈ con.data.bundles.flatMap (fun wb => wb.anchored.bundles) := List.mem_flatMap.mpr ⟨wb, hw, hb⟩

theorem pairwise_same {α β : Type} {f : α → β} {l : List α} (h : l.Pairwise (fun a b => f a ≠ f b)) {a b : α} (ha : a ∈ l) (hb : b ∈ l) (hf : f a = f b) :
    a = b := by
  induction l with
  | nil => cases ha
  | cons x l ih =>
    rw [List.pairwise_cons] at h
    rcases List.mem_cons.mp ha with ha | ha <;> rcases List.mem_cons.mp hb with hb | hb
    · rw [ha, hb]
    · exact absurd (ha ▸ hf) (h.1 _ hb)
    · exact absurd (hb ▸ hf).symm (h.1 _ ha)
    · exact ih h.2 ha hb

theorem furnished_transfer (hH : H.Binding) (hr : k.Reachable H) (hk : Kept H I k) {fuel c : Nat} {outputs : List Outpoint} {secret : Option Nat} {con : Consignment}
    (h : k.transfer H I E fuel c outputs secret = some (.ok con)) (r : Resolver) (hc : Furnished H I E es) (hs : SameBundles H es con) :
    Furnished H I E (es ++ [.consignment con r]) := by
  obtain ⟨-, -, -, hex, -, -, hp, -⟩ := consign_shape hH hk h
  obtain ⟨si, d1, d2, d3, d4, d5, -⟩ := C36_documents hH hr h
  have mem : ∀ {e}, e ∈ es ++ [StockEvent.consignment con r] → e ∈ es ∨ e = .consignment con r := by
    intro e he
    simpa using he
  refine ⟨?_, ?_, ?_, ?_, ?_, ?_, ?_⟩
  · intro e he
    rcases mem he with he | rfl
    · exact hc.sound e he
    · exact transfer_sound hH hk h r
  · intro e he e' he' c b w c' b' w' hb hb' hid o ho
    rcases mem he with he | rfl <;> rcases mem he' with he' | rfl
    · exact hc.same e he e' he' c b w c' b' w' hb hb' hid o ho
    · cases hb' with
      | consignment _ _ wb _ hw hb' => rw [← hs e he c b w hb wb hw b' hb' hid.symm]; exact ho
    · cases hb with
      | consignment _ _ wb _ hw hb => rw [hs e' he' c' b' w' hb' wb hw b hb hid]; exact ho
    · cases hb with
      | consignment _ _ wb _ hw hb =>
        cases hb' with
        | consignment _ _ wb' _ hw' hb' =>
          rw [← pairwise_same (f := Bundle.id H) hp (mem_flat hw hb) (mem_flat hw' hb') hid]; exact ho
  · intro con' r' he
    rcases mem he with he | he
    · exact hc.noExtensions con' r' he
    · cases he; exact hex
  · intro con' r' he
    rcases mem he with he | he
    · exact hc.schema con' r' he
    · cases he; rw [d2]; exact hk.addressed.schema _ _ d1
  · intro con' r' he ty hty
    rcases mem he with he | he
    · exact hc.types con' r' he ty hty
    · cases he
      rcases hty with hty | ⟨d, hd, hty⟩
      · exact d3 ty hty
      · exact d4 d.1 d.2 hd ty hty
  · intro con' r' he l hl
    rcases mem he with he | he
    · exact hc.libs con' r' he l hl
    · cases he
      obtain ⟨x, h1, h2⟩ := d5 l hl
      exact List.mem_map.mpr ⟨x, h2, hk.addressed.lib _ _ h1⟩
  · intro x he
    rcases mem he with he | he
    · exact hc.kitTypes x he
    · cases he

theorem oneCommitted_transfer (hH : H.Binding) (hk : Kept H I k) {fuel c : Nat} {outputs : List Outpoint} {secret : Option Nat} {con : Consignment}
    (h : k.transfer H I E fuel c outputs secret = some (.ok con)) (r : Resolver) (hu : OneCommitted H es c) (hs : SameWitnesses H es con) :
    OneCommitted H (es ++ [.consignment con r]) c := by
  obtain ⟨h1, -, -, -, hwf, -, -, hp⟩ := consign_shape hH hk h
  have mem : ∀ {e}, e ∈ es ++ [StockEvent.consignment con r] → e ∈ es ∨ e = .consignment con r := by
    intro e he
    simpa using he
  have inv : ∀ {c' b w}, StockEvent.Brings H (.consignment con r) c' b w → ∃ wb ∈ con.data.bundles, wb.id = w ∧ b ∈ wb.anchored.bundles := by
    intro c' b w hb
    cases hb with
    | consignment _ _ wb _ hw hb => exact ⟨wb, hw, rfl, hb⟩
  intro e he e' he' b b' w hb hb' hm
  rcases mem he with he | rfl <;> rcases mem he' with he' | rfl
  · exact hu e he e' he' b b' w hb hb' hm
  · obtain ⟨wb, hw, hid, hx⟩ := inv hb'
    exact (hs e he b w (h1 ▸ hb) wb hw hid b' hx hm.symm).symm
  · obtain ⟨wb, hw, hid, hx⟩ := inv hb
    exact hs e' he' b' w (h1 ▸ hb') wb hw hid b hx hm
  · obtain ⟨wb, hw, hid, hx⟩ := inv hb
    obtain ⟨wb', hw', hid', hx'⟩ := inv hb'
    have hwid : wb = wb' := pairwise_same (f := WitnessBundle.id) hp hw hw' (hid.trans hid'.symm)
    subst hwid
    have h3 := hwf wb hw
    simp only [WitnessBundle.WF] at h3
    simp only [AnchoredBundles.bundles] at hx hx'
    split at h3
    · rename_i t ea
      simp only [ea, AnchoredBundles.list, List.map_cons, List.map_nil, List.mem_singleton] at hx hx'
      rw [hx, hx']
    · rename_i t ea
      simp only [ea, AnchoredBundles.list, List.map_cons, List.map_nil, List.mem_singleton] at hx hx'
      rw [hx, hx']
    · rename_i t o ea
      simp only [ea, AnchoredBundles.list, List.map_cons, List.map_nil, List.mem_cons, List.not_mem_nil, or_false] at hx hx'
      rcases hx with rfl | rfl <;> rcases hx' with rfl | rfl
      · rfl
      · rw [h3.1, h3.2] at hm; cases hm
      · rw [h3.1, h3.2] at hm; cases hm
      · rfl

theorem allDone_append {es₁ es₂ : List StockEvent} {k₀ k₁ k₂ : Stock} (h1 : AllDone H I M G es₁ k₀ k₁) (h2 : AllDone H I M G es₂ k₁ k₂) :
    AllDone H I M G (es₁ ++ es₂) k₀ k₂ := by
  induction es₁ generalizing k₀ with
  | nil => cases h1; exact h2
  | cons e es₁ ih =>
    obtain ⟨k, h3, h4⟩ := h1
    exact ⟨k, h3, ih h4⟩

end Rgb
