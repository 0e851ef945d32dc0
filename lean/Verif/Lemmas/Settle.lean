import Verif.Spec.Settle
import Verif.Lemmas.Targets
import Verif.Lemmas.Payment
import Verif.Lemmas.ResumeStock
import Verif.Lemmas.Onward

/-!
From composing a payment to its transfer: what the fascia with the payment brings.
-/

namespace Rgb

/-- The secret seal. -/
def BSeal.hash (H : Commit) : BSeal → Nat
  | .revealed s => H.sealHash s
  | .concealed c x => 2 * x + c.num

theorem Assign.target_hash {H : Commit} {a : Assign} {sl : BSeal} (h : a.target = some sl) : a.secret H = sl.hash H := by
  cases a <;> simp only [Assign.target, Option.some.injEq] at h <;> subst h <;> simp only [Assign.secret, BSeal.hash]
  all_goals (rename_i x _; by_cases hx : x % 2 = 0 <;> simp [hx, Layer1.num] <;> omega)

theorem length_flat_le {l : List (Nat × TypedAssigns)} {p : Assign → Bool} {ty : Nat} (hn : (l.map Prod.fst).Nodup)
    (h1 : ∀ e ∈ l, e.1 ≠ ty → ∀ a ∈ e.2.items, p a = false) (h2 : ∀ e ∈ l, e.1 = ty → (e.2.items.filter p).length ≤ 1) :
    ((l.flatMap (fun e => e.2.items)).filter p).length ≤ 1 := by
  induction l with
  | nil => simp
  | cons e l ih =>
    rw [List.map_cons, List.nodup_cons] at hn
    rw [List.flatMap_cons, List.filter_append, List.length_append]
    by_cases he : e.1 = ty
    · have : (l.flatMap (fun e => e.2.items)).filter p = [] := by
        rw [List.filter_eq_nil_iff]
        intro a ha
        obtain ⟨e', he', ha⟩ := List.mem_flatMap.1 ha
        rw [h1 e' (by simp [he']) (fun h => hn.1 (List.mem_map.2 ⟨e', he', h.trans he.symm⟩)) a ha]
        simp
      rw [this]
      exact h2 e (by simp) he
    · have : e.2.items.filter p = [] := by
        rw [List.filter_eq_nil_iff]
        intro a ha
        rw [h1 e (by simp) he a ha]
        simp
      rw [this]
      simp only [List.length_nil, Nat.zero_add]
      exact ih hn.2 (fun e he => h1 e (by simp [he])) (fun e he => h2 e (by simp [he]))

theorem length_filter_le_one {α β : Type} {f : α → β} {l : List α} {p : α → Bool} {y : β} (hn : (l.map f).Nodup) (h : ∀ a ∈ l, p a = true → f a = y) :
    (l.filter p).length ≤ 1 := by
  have h1 : ((l.filter p).map f).Nodup := hn.sublist (List.filter_sublist.map f)
  have h2 : (l.filter p).map f = List.replicate (l.filter p).length y := by
    rw [List.eq_replicate_iff]
    refine ⟨List.length_map .., fun b hb => ?_⟩
    obtain ⟨a, ha, rfl⟩ := List.mem_map.1 hb
    obtain ⟨ha, hp⟩ := List.mem_filter.1 ha
    exact h a ha hp
  rw [h2, List.nodup_replicate] at h1
  exact h1

namespace Stock

theorem payment_apart {E : CEnv} {W : Wallet} {k : Stock} {inv : Inv.Invoice} {prevs : List OutSeal} {b : Batch}
    (C : Composed E W k inv prevs b) {t : BuiltTransition} (ht : t ∈ b.payments) (aty : Nat) : ((t.outs aty).map Prod.fst).Nodup := by
  have side : ∀ {l pays ts}, Side E W k C.p (inv.operation.map E.name) C.s l pays ts → t ∈ ts → ((t.outs aty).map Prod.fst).Nodup := by
    intro l pays ts hs ht
    rcases hs with ⟨-, rfl⟩ | ⟨-, t', rfl, hb⟩
    · cases ht
    · cases List.mem_singleton.mp ht; exact hb.apart aty
  rw [C.payments] at ht
  rcases List.mem_append.mp ht with ht | ht
  · exact side C.main ht
  · exact side C.alt ht

theorem mem_outs {t : BuiltTransition} (hs : OMap.Sorted t.op.assigns) {e : Nat × TypedAssigns} (he : e ∈ t.op.assigns) :
    t.outs e.1 = e.2.items.map (fun a => (a.target, a.state?)) := by
  unfold BuiltTransition.outs
  rw [hs.get?_of_mem he]
  rfl

/-- Which assignments of a batch are to the secret seal of the invoice: in a payment, of the invoiced type, and to the beneficiary. -/
theorem to_secret {E : CEnv} {n : Nat} (hE : E.Lawful n) (hH : E.H.Binding) {W : Wallet} {k : Stock} {inv : Inv.Invoice} {prevs : List OutSeal} {b : Batch}
    (C : Composed E W k inv prevs b) {x : Seal} (hx : x.txid.isSome = true) {t : BuiltTransition} (ht : t ∈ b.payments ++ b.blankTransitions)
    (hs : OMap.Sorted t.op.assigns) {e : Nat × TypedAssigns} (he : e ∈ t.op.assigns) {a : Assign} (ha : a ∈ e.2.items)
    (h : a.secret E.H = E.H.sealHash x) : t ∈ b.payments ∧ e.1 = C.p.ty ∧ a.target = some (W.benSeal inv) := by
  have hm : (a.target, a.state?) ∈ t.outs e.1 := by rw [mem_outs hs he]; exact List.mem_map.2 ⟨a, ha, rfl⟩
  have no : ∀ {site : Site} {c ty : Nat}, a.target = some (W.outSeal E k inv.layer site c ty) → False := by
    intro site c ty hh
    have := Assign.target_hash (H := E.H) hh
    rw [h] at this
    have := hH.seal_inj _ _ this
    rw [this] at hx
    cases hx
  rcases List.mem_append.1 ht with ht | ht
  · obtain ⟨-, -, h2⟩ := payment_targets hE C ht
    obtain ⟨sl, g1, g2⟩ := h2 _ _ hm
    rcases g2 with ⟨g2, rfl | rfl⟩ | ⟨-, y, -, -, -, rfl⟩
    · exact ⟨ht, g2, g1⟩
    · exact (no g1).elim
    · exact (no g1).elim
  · obtain ⟨-, -, h2⟩ := blank_targets hE C ht
    obtain ⟨sl, g1, y, -, -, -, rfl⟩ := h2 _ _ hm
    exact (no g1).elim

/-- A payment assigns to the secret seal at most once. -/
theorem times_le {E : CEnv} {n : Nat} (hE : E.Lawful n) (hH : E.H.Binding) {W : Wallet} {k : Stock} {inv : Inv.Invoice} {prevs : List OutSeal} {b : Batch}
    (C : Composed E W k inv prevs b) {x : Seal} (hx : x.txid.isSome = true) {t : BuiltTransition} (ht : t ∈ b.payments)
    (hs : OMap.Sorted t.op.assigns) : t.op.timesTo E.H (E.H.sealHash x) ≤ 1 := by
  unfold Op.timesTo
  refine length_flat_le (ty := C.p.ty) hs.nodup (fun e he hne a ha => ?_) (fun e he hty => ?_)
  · rw [decide_eq_false_iff_not]
    intro h
    exact hne (to_secret hE hH C hx (List.mem_append_left _ ht) hs he ha h).2.1
  · refine length_filter_le_one (f := Assign.target) (y := some (W.benSeal inv)) ?_ (fun a ha h => ?_)
    · have := payment_apart C ht e.1
      rw [mem_outs hs he, List.map_map] at this
      exact this
    · exact (to_secret hE hH C hx (List.mem_append_left _ ht) hs he ha (of_decide_eq_true h)).2.2

/-- Nothing but the payments in the fascia assigns to the secret seal. -/
theorem packs_only {E : CEnv} {n : Nat} (hE : E.Lawful n) (hH : E.H.Binding) {W : Wallet} {k : Stock} {inv : Inv.Invoice} {prevs : List OutSeal} {b : Batch}
    (h : compose E W k inv prevs = .ok b) {c : Nat} (hc : inv.contract = some c) {x : Seal} (hx : x.txid.isSome = true) {f : Fascia} {r : Resolver}
    (hp : StockEvent.Proper E.H (.fascia f r)) (hf : f.Packs E.H b) : f.PaysOnly E.H c (b.payments.map (fun t => t.op)) (E.H.sealHash x) := by
  obtain ⟨C⟩ := compose_ok hE h
  obtain rfl : C.p.contract = c := Option.some.inj (C.prepared.contract.symm.trans hc)
  have key : ∀ e ∈ f.bundles, ∀ u ∈ OMap.vals e.2.known, u.AssignsTo E.H (E.H.sealHash x) →
      ∃ t ∈ b.payments, t.op = u ∧ t.op.contract = e.1 ∧ OMap.Sorted t.op.assigns := by
    rintro e he u hu ⟨ty, ta, a, h1, h2, h3⟩
    obtain ⟨t, ht, rfl⟩ := (hf.batch e he).2 u hu
    obtain ⟨hm, hid⟩ := List.mem_filter.1 ht
    have hs : OMap.Sorted t.op.assigns := ((hp e he).2 t.op hu).1.1
    exact ⟨t, (to_secret hE hH C hx hm hs h1 h2 h3).1, rfl, by simpa using hid, hs⟩
  intro e he u hu ha
  obtain ⟨t, ht, rfl, hid, hs⟩ := key e he u hu ha
  refine ⟨?_, List.mem_map.2 ⟨t, ht, rfl⟩, ?_, ?_⟩
  · rw [← hid]; exact (payment_targets hE C ht).1
  · have h1 := times_le hE hH C hx ht hs
    have h2 := assignsTo_iff.mp ha
    omega
  · intro u' hu' ha'
    obtain ⟨t', ht', rfl, -, -⟩ := key e he u' hu' ha'
    exact hf.apart e he t' ht' t ht hu' hu

variable {H : Commit} {I : Ids} {M : Mpc} {G : SchemaDoc → SchemaGlobals} {S : Env} {k k' : Stock} {es : List StockEvent} {f : Fascia} {r : Resolver}

/-- The stash has no bundles which didn't come. -/
theorem bundle_came (hH : H.Binding) (hG : ∀ d, OMap.Sorted (G d).maxItems) (hc : Furnished H I S es) (h : AllDone H I M G es .empty k)
    {i : Nat} {g : Bundle} (hg : k.stash.bundle i = some g) : ∃ e ∈ es, ∃ c b w, StockEvent.Brings H e c b w ∧ b.id H = i := by
  have hk : Hist H .empty := Stock.Reachable.hist hH ⟨I, M, G, [], hG, by simp, rfl⟩
  exact (allDone_only (I := I) (E := S) (bf := fun _ _ _ _ => True) (ofs := fun _ _ _ => True)
    (K := fun i _ => ∃ e ∈ es, ∃ c b w, StockEvent.Brings H e c b w ∧ b.id H = i) hH hG es hc.sound hk .empty
    (fun _ _ _ _ _ _ => trivial) (fun _ _ _ _ _ _ _ _ => trivial) (fun e he c b w hb => ⟨e, he, c, b, w, hb, rfl⟩)
    (fun con r he => ⟨hc.noExtensions con r he, fun d hd ty hty => hc.types con r he ty (.inr ⟨d, hd, hty⟩)⟩) hc.kitTypes h).keys _ _ hg

/-- The bundles of a fascia which the index doesn't know didn't come before. -/
theorem Unknown.fresh (hH : H.Binding) (hM : M.Lawful) (hG : ∀ d, OMap.Sorted (G d).maxItems) (hc : Furnished H I S es) (h : AllDone H I M G es .empty k)
    (hu : k.Unknown H f) {e : Nat × Bundle} (he : e ∈ f.bundles) {e' : StockEvent} (he' : e' ∈ es) {c : Nat} {b : Bundle} {w : WitnessId}
    (hb : e'.Brings H c b w) : b.id H ≠ e.2.id H := by
  intro hid
  have := ((complete_facts hH hM hG hc h).index he' hb).1
  rw [hid, hu.bundles e he] at this
  cases this

/-- Nothing came with its witness. -/
theorem Unknown.unwitnessed (hH : H.Binding) (hM : M.Lawful) (hG : ∀ d, OMap.Sorted (G d).maxItems) (hc : Furnished H I S es) (h : AllDone H I M G es .empty k)
    (hu : k.Unknown H f) {e' : StockEvent} (he' : e' ∈ es) {c : Nat} {b : Bundle} {w : WitnessId}
    (hb : e'.Brings H c b w) : w ≠ f.witness.id := by
  intro hid
  obtain ⟨k₁, hh⟩ := (complete_facts hH hM hG hc h).has e' he'
  obtain ⟨sw, h1, -⟩ := hh.stash.wit c _ _ _ ⟨b, hb, rfl, rfl⟩
  rw [hid, hu.witness] at h1
  cases h1

theorem packs_carries (hH : H.Binding) (hM : M.Lawful) (hG : ∀ d, OMap.Sorted (G d).maxItems) (hc : Furnished H I S es) (h : AllDone H I M G es .empty k)
    (hu : k.Unknown H f) (hp : StockEvent.Proper H (.fascia f r)) {b : Batch} (hf : f.Packs H b) {t : BuiltTransition} (ht : t ∈ b.payments) :
    f.Carries H k t.op.contract t.op := by
  obtain ⟨e, he, h1, h2⟩ := hf.all t ht
  have hwf := (hp e he).1
  obtain ⟨y, hy, hyt⟩ := List.mem_map.1 h2
  have hg := OMap.Sorted.get?_of_mem hwf.sorted hy
  have hid := (hwf.keyed _ _ hg).1
  rw [hyt] at hg hid
  rw [← hid] at hg
  refine ⟨e.2, by rw [← h1]; exact he, hg, ?_, fun e' he' hid' => ?_⟩
  · cases hs : k.stash.bundle (e.2.id H) with
    | none => rfl
    | some g =>
      obtain ⟨e', he', c, b', w, hb, hid'⟩ := bundle_came hH hG hc h hs
      exact absurd hid' (hu.fresh hH hM hG hc h he he' hb)
  · have : ∀ (l : List (Nat × Bundle)), (l.map (fun e => e.2.id H)).Nodup → ∀ x ∈ l, ∀ y ∈ l, x.2.id H = y.2.id H → x = y := by
      intro l hn x hx y hy hxy
      exact pairwise_same (f := fun e : Nat × Bundle => e.2.id H) (List.pairwise_map.1 hn) hx hy hxy
    rw [this _ hf.ids _ he' _ he hid']

theorem furnished_fascia (hH : H.Binding) (hM : M.Lawful) (hG : ∀ d, OMap.Sorted (G d).maxItems) (hc : Furnished H I S es) (h : AllDone H I M G es .empty k)
    (hu : k.Unknown H f) (hf : StockEvent.Sound H (.fascia f r)) (hn : (f.bundles.map (fun e => e.2.id H)).Nodup) :
    Furnished H I S (es ++ [.fascia f r]) := by
  have mem : ∀ {e}, e ∈ es ++ [StockEvent.fascia f r] → e ∈ es ∨ e = .fascia f r := by
    intro e he
    simpa using he
  refine ⟨?_, ?_, ?_, ?_, ?_, ?_, ?_⟩
  · intro e he
    rcases mem he with he | rfl
    · exact hc.sound e he
    · exact hf
  · intro e he e' he' c b w c' b' w' hb hb' hid o ho
    rcases mem he with he | rfl <;> rcases mem he' with he' | rfl
    · exact hc.same e he e' he' c b w c' b' w' hb hb' hid o ho
    · cases hb' with
      | fascia _ _ _ _ hm => exact absurd hid (hu.fresh hH hM hG hc h hm he hb)
    · cases hb with
      | fascia _ _ _ _ hm => exact absurd hid.symm (hu.fresh hH hM hG hc h hm he' hb')
    · cases hb with
      | fascia _ _ _ _ hm =>
        cases hb' with
        | fascia _ _ _ _ hm' =>
          have := pairwise_same (f := fun e : Nat × Bundle => e.2.id H) (List.pairwise_map.1 hn) hm hm' hid
          cases this
          exact ho
  · intro con' r' he
    rcases mem he with he | he
    · exact hc.noExtensions con' r' he
    · cases he
  · intro con' r' he
    rcases mem he with he | he
    · exact hc.schema con' r' he
    · cases he
  · intro con' r' he ty hty
    rcases mem he with he | he
    · exact hc.types con' r' he ty hty
    · cases he
  · intro con' r' he l hl
    rcases mem he with he | he
    · exact hc.libs con' r' he l hl
    · cases he
  · intro x he
    rcases mem he with he | he
    · exact hc.kitTypes x he
    · cases he

theorem oneCommitted_fascia (hH : H.Binding) (hM : M.Lawful) (hG : ∀ d, OMap.Sorted (G d).maxItems) (hc : Furnished H I S es) (h : AllDone H I M G es .empty k)
    (hu : k.Unknown H f) {c : Nat} (ho : OneCommitted H es c)
    (hm : ∀ e ∈ f.bundles, ∀ e' ∈ f.bundles, e.1 = e'.1 → e.2.closeMethod = e'.2.closeMethod → e = e') : OneCommitted H (es ++ [.fascia f r]) c := by
  have mem : ∀ {e}, e ∈ es ++ [StockEvent.fascia f r] → e ∈ es ∨ e = .fascia f r := by
    intro e he
    simpa using he
  intro e he e' he' b b' w hb hb' hcm
  rcases mem he with he | rfl <;> rcases mem he' with he' | rfl
  · exact ho e he e' he' b b' w hb hb' hcm
  · cases hb' with
    | fascia _ _ _ _ _ => exact absurd rfl (hu.unwitnessed hH hM hG hc h he hb)
  · cases hb with
    | fascia _ _ _ _ _ => exact absurd rfl (hu.unwitnessed hH hM hG hc h he' hb')
  · cases hb with
    | fascia _ _ _ _ h1 =>
      cases hb' with
      | fascia _ _ _ _ h2 =>
        have := hm _ h1 _ h2 rfl hcm
        cases this
        rfl

/-- A fascia changes nothing in the documents. -/
theorem fascia_docs (h : StockEvent.Done H I M G k k' (.fascia f r)) :
    k'.stash.schemata = k.stash.schemata ∧ k'.stash.ifaces = k.stash.ifaces ∧ k'.stash.geneses = k.stash.geneses := by
  obtain ⟨s, u, h1, h2⟩ := fascia_done h
  obtain ⟨-, -, -, b4⟩ := fasciaBundles_iff.mp h2
  have hw : s.schemata = k.stash.schemata ∧ s.ifaces = k.stash.ifaces ∧ s.geneses = k.stash.geneses := by
    simp only [MemStash.consumeWitness] at h1
    split at h1
    · cases h1; exact ⟨rfl, rfl, rfl⟩
    · split at h1
      · cases h1
      · split at h1 <;> cases h1 <;> exact ⟨rfl, rfl, rfl⟩
  simp only at b4
  revert b4 hw
  generalize k'.stash = s'
  clear h1 h2
  generalize f.bundles = l
  intro b4 hw
  induction l generalizing s with
  | nil => cases b4; exact hw
  | cons e l ih =>
    obtain ⟨s1, u, e1, e2⟩ := b4
    refine ih s1 e2 ?_
    simp only [MemStash.consumeBundle] at e1
    split at e1
    · cases e1; exact hw
    · split at e1 <;> cases e1 <;> exact hw

/-- It changes the order of its witness only. -/
theorem fascia_witnesses (hp : StockEvent.Proper H (.fascia f r)) (h : StockEvent.Done H I M G k k' (.fascia f r)) {w : WitnessId} (hw : w ≠ f.witness.id) :
    OMap.get? k'.state.witnesses w = OMap.get? k.state.witnesses w := by
  obtain ⟨s, u, h1, h2⟩ := fascia_done h
  obtain ⟨-, -, b3, -⟩ := fasciaBundles_iff.mp h2
  simp only at b3
  revert b3
  generalize k'.state = t'
  generalize k.state = t
  have hp' : ∀ e ∈ f.bundles, ∀ t ∈ OMap.vals e.2.known, t.Proper ∧ t.kind = .transition := fun e he => (hp e he).2
  revert hp'
  clear h1 h2 hp h
  generalize f.bundles = l
  intro hp b3
  induction l generalizing t with
  | nil => cases b3; rfl
  | cons e l ih =>
    obtain ⟨s1, e1, e2⟩ := b3
    rw [ih s1 (fun e he => hp e (by simp [he])) e2]
    simp only [MemState.updateFromBundle] at e1
    split at e1
    swap; · cases e1
    rename_i hcontract
    clear hcontract
    split at e1
    · cases e1; rfl
    split at e1
    · cases e1
    rename_i hempty ord _
    clear hempty
    have hq : ∀ y ∈ e.2.known, y.2.Proper ∧ y.2.kind = .transition := fun y hy => hp e (by simp) _ (List.mem_map.2 ⟨y, hy, rfl⟩)
    revert e1 hq
    generalize e.2.known = q
    intro e1 hq
    induction q generalizing t with
    | nil => cases e1; rfl
    | cons y q ihq =>
      rw [List.map_cons] at e1
      simp only [StCall.execAll] at e1
      cases hx : StCall.exec H t (.transition e.1 y.2 f.witness.id ord) with
      | none => rw [hx] at e1; cases e1
      | some z =>
        obtain ⟨t1, o⟩ := z
        rw [hx] at e1
        cases o with
        | some o => cases e1
        | none =>
          rw [ihq t1 e1 (fun y hy => hq y (by simp [hy]))]
          rcases exec_spec (call := .transition e.1 y.2 f.witness.id ord) (hq y (by simp)) hx with ⟨-, hc⟩ | ⟨hc, -⟩
          · rw [hc.witnesses]
            simp [StCall.witnessOrd?, hw]
          · exact absurd rfl hc

/-- Valid witnesses stay valid, if that of the fascia is. -/
theorem fascia_valid (hp : StockEvent.Proper H (.fascia f r)) (h : StockEvent.Done H I M G k k' (.fascia f r))
    (hv : k'.Valid f.witness.id) {w : WitnessId} (hw : k.Valid w) : k'.Valid w := by
  by_cases he : w = f.witness.id
  · rw [he]; exact hv
  · unfold Stock.Valid MemState.isValidWitness at hw ⊢
    rw [fascia_witnesses hp h he]
    exact hw

/-- More time doesn't change the transfer. -/
theorem transfer_mono {fuel c : Nat} {outputs : List Outpoint} {secret : Option Nat} {x : Except StockErr Consignment}
    (h : k.transfer H I S fuel c outputs secret = some x) {fuel' : Nat} (hf : fuel ≤ fuel') : k.transfer H I S fuel' c outputs secret = some x := by
  simp only [Stock.transfer, Stock.consign] at h ⊢
  cases e1 : consignOps k c outputs secret with
  | error e => rw [e1] at h; exact h
  | ok ops =>
    rw [e1] at h
    simp only at h ⊢
    cases e2 : consignOpouts H S k c secret ops {} with
    | error e => rw [e2] at h; exact h
    | ok acc =>
      rw [e2] at h
      simp only at h ⊢
      cases e3 : consignLoop H S k c fuel ((OMap.vals acc.transitions).flatMap parents).reverse acc with
      | none => rw [e3] at h; cases h
      | some y =>
        rw [e3] at h
        rw [consignLoop_mono fuel _ acc _ e3 fuel' hf]
        exact h

/-- The operations needed for a transfer of outputs with complete histories are of the contract. -/
theorem traced_of (hH : H.Binding) (hM : M.Lawful) (hG : ∀ d, OMap.Sorted (G d).maxItems) (hc : Furnished H I S es) (h : AllDone H I M G es .empty k)
    {V : WitnessId → Prop} {c : Nat} {outputs : List Outpoint} {secret : Option Nat}
    (hreq : ∀ o, Requested k c outputs secret o → o.op = c ∨ Traced H es V c o.op) : k.OfContract c outputs secret := by
  have hf := complete_facts hH hM hG hc h
  have key : ∀ o, Needed k c outputs secret o → Traced H es V c o := by
    intro o ho
    induction ho with
    | @output o hr hne => exact (hreq _ hr).resolve_left hne
    | @input o b t i _ hk hi hne ih =>
      cases ih with
      | intro came inputs =>
        obtain ⟨e, he, b', w, hb, ho, -⟩ := came
        obtain ⟨t', ht'⟩ := OMap.contains_iff.mp ho
        refine inputs e he b' w t' hb ht' i ?_ hne
        rw [inputs_id hH ((brought_id (hc.sound e he) hb ht').trans (hk.id hf.hist.good).symm)]
        exact hi
  intro o b t ho hk
  cases key o ho with
  | intro came _ =>
    obtain ⟨e, he, b', w, hb, ho', -⟩ := came
    obtain ⟨k₁, hh⟩ := hf.has e he
    have h1 := hh.idx.opC c (b'.id H) o ⟨b', w, hb, rfl, ho'⟩
    have : b = b'.id H := Option.some.inj (hk.1.symm.trans h1)
    rw [this]
    exact (hf.index he hb).1

end Stock

end Rgb
