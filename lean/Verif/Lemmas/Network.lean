import Verif.Lemmas.Honest
import Verif.Lemmas.Recover
import Verif.Lemmas.RecoverStash

/-!
Wallets of a network never contradict each other.
-/

namespace Rgb

open MemStash Props Stock

variable {E : CEnv} {M : Mpc} {G : SchemaDoc → SchemaGlobals} {L : Ledger} {es es₀ : List StockEvent} {k k' k₀ : Stock}

/-! ## Stored witnesses -/

/-- The stored witness is the whole transaction, and its anchors are what it commits to. -/
def SealWitness.Attested (L : Ledger) (w : WitnessId) (sw : SealWitness) : Prop :=
  sw.pub.pub.tx?.isSome = true ∧ ∀ m a, anchorOf sw.anchors m = some a → L.Attests w m a

/-- All stored witnesses are. -/
def WitsAttested (L : Ledger) (s : MemStash) : Prop := ∀ w sw, s.witness w = some sw → sw.Attested L w

theorem witsAttested_congr {s t : MemStash} (h : WitsAttested L s) (e : t.witnesses = s.witnesses) : WitsAttested L t := by
  intro w sw hw
  simp only [witness, e] at hw
  exact h w sw hw

theorem attests_merge {w : WitnessId} {m : CloseMethod} {a b c : Anchor} (h : a.merge b = .ok c) (ha : L.Attests w m a) (hb : L.Attests w m b) : L.Attests w m c := by
  refine ⟨?_, fun x i hi => ?_⟩
  · simp only [Anchor.merge] at h
    split at h
    · cases h
    split at h
    · cases h
    cases h
    exact ha.anchor
  · simp only [Anchor.merge] at h
    split at h
    · cases h
    split at h
    · cases h
    cases h
    simp only at hi
    rcases mem_of_extend hi with hi | hi
    · exact ha.known x i hi
    · exact hb.known x i hi

theorem attests_merge_set {w : WitnessId} {a b r : AnchorSet} (h : a.merge b = .ok r) (ha : ∀ m x, anchorOf a m = some x → L.Attests w m x)
    (hb : ∀ m x, anchorOf b m = some x → L.Attests w m x) (m : CloseMethod) (x : Anchor) (hr : anchorOf r m = some x) : L.Attests w m x := by
  cases a <;> cases b <;> simp only [AnchorSet.merge] at h
  case double.double x₁ y₁ x₂ y₂ =>
    split at h
    · cases h
    · rename_i z hz
      obtain ⟨u, hu, rfl⟩ := Except.map_ok h
      cases m <;> cases hr
      · exact attests_merge hu (ha _ _ rfl) (hb _ _ rfl)
      · exact attests_merge hz (ha _ _ rfl) (hb _ _ rfl)
  case tapret.opret => cases h; cases m <;> cases hr <;> first | exact ha _ _ rfl | exact hb _ _ rfl
  case opret.tapret => cases h; cases m <;> cases hr <;> first | exact ha _ _ rfl | exact hb _ _ rfl
  all_goals
    obtain ⟨u, hu, rfl⟩ := Except.map_ok h
    cases m <;> cases hr <;> first | exact attests_merge hu (ha _ _ rfl) (hb _ _ rfl) | exact attests_merge hu (hb _ _ rfl) (ha _ _ rfl) | exact ha _ _ rfl | exact hb _ _ rfl

theorem witsAttested_witness {s t : MemStash} (hs : WitsAttested L s) {g : SealWitness} (hg : g.Attested L g.id) {r : Except StashErr Bool}
    (h : s.consumeWitness g = some (t, r)) : WitsAttested L t := by
  simp only [consumeWitness] at h
  split at h
  · cases h
    intro w sw hw
    simp only [witness, OMap.get?_insert] at hw
    split at hw
    · rename_i e; subst e; cases hw; exact hg
    · exact hs w sw hw
  · rename_i old ho
    split at h
    · cases h; exact hs
    rename_i p hp
    split at h
    · cases h; exact hs
    rename_i a ha
    have hid : (⟨p, a⟩ : SealWitness).id = g.id := (merge_pub_shown hp).2.1
    cases h
    intro w sw hw
    simp only [witness, OMap.get?_insert] at hw
    split at hw
    · rename_i e; subst e; cases hw
      rw [hid]
      exact ⟨(merge_pub_shown hp).2.2.1 (hs _ _ ho).1, attests_merge_set ha (hs _ _ ho).2 hg.2⟩
    · exact hs w sw hw

/-- The collected anchors are those of the proofs. -/
theorem anchored_all {H : Commit} {c : Nat} (l : List ClientBundle) {s t : MemStash} {as : List (CloseMethod × Anchor)}
    (h : consumeAnchored H M c l s = some (t, .ok as)) : ∀ e ∈ as, ∃ x ∈ l, ∃ p, M.block x.mpc c (x.bundle.id H) = some p ∧ e = (x.dbc.method, ⟨x.dbc.data, p.1, p.2⟩) := by
  induction l generalizing s t as with
  | nil => cases h; simp
  | cons b l ih =>
    simp only [consumeAnchored] at h
    cases hb : s.consumeBundle H b.bundle with
    | none => rw [hb] at h; cases h
    | some p =>
    obtain ⟨u, o⟩ := p
    rw [hb] at h
    cases o with
    | error e => cases h
    | ok y =>
    simp only [SR.bind] at h
    cases hm : M.block b.mpc c (b.bundle.id H) with
    | none => simp only [hm] at h; cases h
    | some q =>
      obtain ⟨root, known⟩ := q
      simp only [hm] at h
      cases hr : consumeAnchored H M c l u with
      | none => rw [hr] at h; cases h
      | some z =>
        obtain ⟨v, o⟩ := z
        rw [hr] at h
        cases o with
        | error e => cases h
        | ok as' =>
          cases h
          intro e he
          rcases List.mem_cons.mp he with rfl | he
          · exact ⟨b, by simp, _, hm, rfl⟩
          · obtain ⟨x, hx, j⟩ := ih hr e he
            exact ⟨x, by simp [hx], j⟩

theorem anchorSetOf_mem {as : List (CloseMethod × Anchor)} {a : AnchorSet} (h : anchorSetOf as = some a) {m : CloseMethod} {x : Anchor}
    (hx : anchorOf a m = some x) : (m, x) ∈ as := by
  unfold anchorSetOf at h
  split at h <;> cases h <;> cases m <;> cases hx <;> simp

/-- What a consignment in the network is like: the transactions are whole, and the anchors are what they commit to. -/
def Consignment.Attested (H : Commit) (M : Mpc) (L : Ledger) (con : Consignment) : Prop :=
  ∀ wb ∈ con.data.bundles, wb.pub.pub.tx?.isSome = true ∧ ∀ x ∈ wb.anchored.list, ∀ p, M.block x.mpc (con.data.genesis.contractId H) (x.bundle.id H) = some p →
    L.Attests wb.id x.dbc.method ⟨x.dbc.data, p.1, p.2⟩

theorem witsAttested_consignment {H : Commit} {I : Ids} {s t : MemStash} {con : Consignment} (hC : con.Attested H M L)
    (hs : WitsAttested L s) {r : Except StashErr Unit} (h : s.consumeConsignment H I M con = some (t, r)) : WitsAttested L t := by
  refine bind_keeps (Φ := WitsAttested L) (fun u o hu => ?_) (fun s _ t _ hs h => ?_) h
  · exact witsAttested_congr hs (witnesses_consumeGenesis hu)
  refine bind_keeps (Φ := WitsAttested L) (fun u o hu => ?_) (fun s _ t _ hs h => ?_) h
  · exact each_keeps (Φ := WitsAttested L) _ (fun a ha s t r hs h => witsAttested_congr hs (witnesses_consumeExtension h)) _ _ _ hs hu
  refine bind_keeps (Φ := WitsAttested L) (fun u o hu => ?_) (fun s _ t _ hs h => ?_) h
  · refine each_keeps (Φ := WitsAttested L) _ (fun w hw s t r hs h => ?_) _ _ _ hs hu
    simp only [consumeWitnessBundle] at h
    cases ha : consumeAnchored H M (con.data.genesis.contractId H) w.anchored.list s with
    | none => rw [ha] at h; cases h
    | some z =>
      obtain ⟨v, o⟩ := z
      have i1 := (anchored_of _ ha).1
      rw [ha] at h
      cases o with
      | error e => cases h; exact witsAttested_congr hs i1
      | ok as =>
        simp only [SR.bind] at h
        cases hset : anchorSetOf as with
        | none => rw [hset] at h; cases h
        | some a =>
          rw [hset] at h
          refine witsAttested_witness (witsAttested_congr hs i1) ⟨(hC w hw).1, fun m x hx => ?_⟩ h
          obtain ⟨y, hy, p, j1, j2⟩ := anchored_all _ ha _ (anchorSetOf_mem hset hx)
          cases j2
          exact (hC w hw).2 y hy p j1
  refine bind_keeps (Φ := WitsAttested L) (fun u o hu => ?_) (fun s _ t _ hs h => ?_) h
  · exact each_keeps (Φ := WitsAttested L) _ (fun w hw s t r hs h => witsAttested_congr hs (by cases h; rfl)) _ _ _ hs hu
  exact witsAttested_congr hs (witnesses_consumeKit h)

theorem witsAttested_fascia {H : Commit} {r : Resolver} {w : WitnessId} (l : List (Nat × Bundle)) {e : Option StockErr}
    (hs : WitsAttested L k.stash) (h : fasciaBundles H r w l k = some (k', e)) : WitsAttested L k'.stash := by
  induction l generalizing k with
  | nil => simp only [fasciaBundles] at h; cases h; exact hs
  | cons x l ih =>
    obtain ⟨c, b⟩ := x
    simp only [fasciaBundles] at h
    split at h
    · cases h; exact hs
    cases e2 : k.index.indexBundle H c b w with | mk x o
    simp only [e2] at h
    cases o with
    | some y => simp only at h; cases h; exact hs
    | none =>
    simp only at h
    cases e1 : k.state.updateFromBundle H c b w r with
    | none => simp [e1] at h
    | some p =>
    obtain ⟨t, o⟩ := p
    cases o with
    | some y => simp only [e1] at h; cases h; exact hs
    | none =>
    simp only [e1] at h
    cases e3 : k.stash.consumeBundle H b with
    | none => simp [e3] at h
    | some q =>
      obtain ⟨s, o⟩ := q
      have hse : WitsAttested L s := witsAttested_congr hs (witnesses_consumeBundle e3)
      cases o with
      | error y => simp only [e3] at h; cases h; exact hse
      | ok y => simp only [e3] at h; exact ih (k := ⟨s, t, x⟩) hse h

/-- Events of which the witnesses are attested. -/
def StockEvent.Attested (H : Commit) (M : Mpc) (L : Ledger) : StockEvent → Prop
  | .consignment con _ => con.Attested H M L
  | .fascia f _ => (⟨f.witness, f.anchor⟩ : SealWitness).Attested L f.witness.id
  | _ => True

theorem Consignment.Attested.revealed {H : Commit} {s : MemStash} {con : Consignment} (hC : con.Attested H M L) {g : WitnessBundle → WitnessBundle}
    (hg : ∀ w ∈ con.data.bundles, RevealedIn H s w (g w)) : (withBundles con g).Attested H M L := by
  intro wb hwb
  obtain ⟨wb', h4, rfl⟩ := List.mem_map.mp hwb
  have hr := hg wb' h4
  refine ⟨by rw [hr.pub]; exact (hC wb' h4).1, fun x hx p hp => ?_⟩
  obtain ⟨y, hy, e1, e2, -, e4, -⟩ := hr.client hx
  rw [hr.id, e2]
  exact (hC wb' h4).2 y hy p (by rw [← e1, ← e4]; exact hp)

theorem witsAttested_event {H : Commit} {I : Ids} (hH : H.Binding) {e : StockEvent} (he : e.Proper H) (ha : e.Attested H M L) (hi : WitsAttested L k.stash)
    (h : e.exec H I M G k = some k') : WitsAttested L k'.stash := by
  cases e with
  | consignment con r =>
    simp only [StockEvent.exec] at h
    obtain ⟨⟨k1, o⟩, h1, rfl⟩ := Option.map_eq_some_iff.mp h
    obtain ⟨g, hg, hr⟩ := resolve_ok hH k.stash con he.2.1
    simp only [Stock.consumeConsignment, hr, storeTx_mem] at h1
    obtain ⟨⟨k2, o'⟩, h2, h3⟩ := Option.map_eq_some_iff.mp h1
    cases h3
    have key : ∀ (s : MemStash) (o : Except StashErr Unit), k.stash.consumeConsignment H I M (withBundles con g) = some (s, o) → WitsAttested L s :=
      fun s o e3 => witsAttested_consignment (Consignment.Attested.revealed ha hg) hi e3
    simp only [consumeBody] at h2
    split at h2
    · cases h2
    · cases h2; exact hi
    · split at h2
      · cases h2; exact hi
      · split at h2
        · cases h2
        · cases h2; rename_i e3; exact key _ _ e3
        · cases h2; rename_i e3; exact key _ _ e3
  | fascia f r =>
    obtain ⟨⟨k1, o⟩, h1, rfl⟩ := Option.map_eq_some_iff.mp h
    simp only [consumeFascia, storeTx_mem] at h1
    obtain ⟨⟨k2, o'⟩, h2, h3⟩ := Option.map_eq_some_iff.mp h1
    cases h3
    simp only [fasciaBody] at h2
    cases e1 : k.stash.consumeWitness ⟨f.witness, f.anchor⟩ with
    | none => simp [e1] at h2
    | some q =>
      obtain ⟨s, x⟩ := q
      have hi' : WitsAttested L s := witsAttested_witness hi ha e1
      cases x with
      | error y => simp only [e1] at h2; cases h2; exact hi'
      | ok y =>
        simp only [e1] at h2
        exact witsAttested_fascia _ (k := { k with stash := s }) hi' h2
  | kit x =>
    obtain ⟨⟨s, o⟩, h1, rfl⟩ := Option.map_eq_some_iff.mp h
    exact witsAttested_congr hi (witnesses_consumeKit h1)
  | secretSeal x =>
    simp only [StockEvent.exec] at h
    obtain ⟨⟨s, o⟩, h1, rfl⟩ := Option.map_eq_some_iff.mp h
    simp only [addSecretSeal] at h1
    cases h1
    exact hi
  | trust i t =>
    simp only [StockEvent.exec] at h
    obtain ⟨⟨s, o⟩, h1, rfl⟩ := Option.map_eq_some_iff.mp h
    simp only [setTrust] at h1
    cases h1
    exact hi
  | update r n =>
    simp only [StockEvent.exec, Option.some.injEq] at h
    subst h
    exact hi

/-! ## Wallets of the network -/

/-- The bundles in a transfer are proved by what the stock has. -/
theorem transfer_proved {H : Commit} {I : Ids} {S : Stock.Env} (hH : H.Binding) (hk : Kept H I k) (hr : k.Reachable H) {fuel c : Nat} {outputs : List Outpoint} {secret : Option Nat} {con : Consignment}
    (ht : k.transfer H I S fuel c outputs secret = some (.ok con)) (hoc : k.OfContract c outputs secret) {wb : WitnessBundle} (hw : wb ∈ con.data.bundles)
    {x : ClientBundle} (hx : x ∈ wb.anchored.list) : Proves S k (x.bundle.id H) x wb ∧ OMap.get? k.index.bundleContract (x.bundle.id H) = some c := by
  obtain ⟨-, -, -, -, -, hcl, hpw, -⟩ := consign_shape hH hk ht
  obtain ⟨-, -, hall⟩ := C36_full_history_partial hH hr ht
  obtain ⟨h2, o, t, h3, h4⟩ := hcl wb hw x hx
  obtain ⟨i, t', wb', cb, h5, -, h7, -, h9⟩ := hall o h3
  have hi : i = x.bundle.id H := Option.some.inj (h5.1.symm.trans h4.1)
  subst hi
  have hcx : x.bundle = cb.bundle := Option.some.inj ((clientBundle_ok h2).1.symm.trans h9.bundle)
  have hwb : wb = wb' := by
    by_contra hne
    have hpw' := (List.pairwise_flatMap.mp hpw).2
    exact pairwise_apart (fun _ _ h a ha b hb => (h b hb a ha).symm) hpw' hw h7 hne x.bundle (List.mem_map.mpr ⟨x, hx, rfl⟩) cb.bundle (List.mem_map.mpr ⟨cb, h9.listed, rfl⟩) (by rw [hcx])
  subst hwb
  have h2' := (hcl wb hw cb h9.listed).1
  rw [← hcx, h2] at h2'
  cases h2'
  exact ⟨h9, hoc o _ t h3 h4⟩

/-- What a wallet of the network has is on the ledger. -/
structure Attd (E : CEnv) (L : Ledger) (es : List StockEvent) (k : Stock) : Prop where
  wits : WitsAttested L k.stash
  homes : ∀ e ∈ es, ∀ c b w, e.Brings E.H c b w → ∀ o, OMap.contains b.known o = true → L.home o = (c, b.id E.H)

theorem transfer_brought (hH : E.H.Binding) (hM : M.Lawful) (hG : ∀ d, OMap.Sorted (G d).maxItems) (h : Sane E M G L es k) {fuel c : Nat} {outputs : List Outpoint}
    {secret : Option Nat} {con : Consignment} (ht : k.transfer E.H E.I E.S fuel c outputs secret = some (.ok con)) (hoc : k.OfContract c outputs secret)
    {wb : WitnessBundle} (hw : wb ∈ con.data.bundles) {x : ClientBundle} (hx : x ∈ wb.anchored.list) :
    ∃ e ∈ es, ∃ b, e.Brings E.H c b wb.id ∧ b.id E.H = x.bundle.id E.H ∧ b.closeMethod = x.bundle.closeMethod ∧
      ∀ o, OMap.contains b.known o = OMap.contains x.bundle.known o := by
  have hf := complete_facts hH hM hG h.furnished h.done
  obtain ⟨h9, hc⟩ := transfer_proved hH (h.kept hH hG) (h.reachable hG) ht hoc hw hx
  obtain ⟨ws, hws, hmem⟩ := h9.witness
  obtain ⟨c₁, m, e, he, b', hb', hid, -⟩ := hf.only.idx.bwS (x.bundle.id E.H) wb.id (by simp only [mset, hws, Option.getD_some]; exact hmem)
  have hc' := (hf.index he hb').1
  rw [hid, hc] at hc'
  cases hc'
  obtain ⟨m1, -⟩ := hH.bundle_inj _ _ _ _ (show E.H.bundleHash b'.closeMethod b'.inputMap = E.H.bundleHash x.bundle.closeMethod x.bundle.inputMap from hid)
  exact ⟨e, he, b', hb', hid, m1, transfer_same hH hG h h ht e he c b' wb.id hb' wb hw x.bundle (List.mem_map.mpr ⟨x, hx, rfl⟩) hid.symm⟩

theorem transfer_attested (hH : E.H.Binding) (hM : M.Lawful) (hG : ∀ d, OMap.Sorted (G d).maxItems) (hSR : E.S.Restores M) (h : Sane E M G L es k) (ha : Attd E L es k)
    {fuel c : Nat} {outputs : List Outpoint} {secret : Option Nat} {con : Consignment} (ht : k.transfer E.H E.I E.S fuel c outputs secret = some (.ok con))
    (hoc : k.OfContract c outputs secret) : con.Attested E.H M L := by
  intro wb hw
  obtain ⟨h1, -, -, -, -, -, -, -⟩ := consign_shape hH (h.kept hH hG) ht
  have hone : ∃ x, x ∈ wb.anchored.list := by cases wb.anchored <;> exact ⟨_, .head _⟩
  refine ⟨?_, fun x hx p hp => ?_⟩
  · obtain ⟨x, hx⟩ := hone
    obtain ⟨h9, -⟩ := transfer_proved hH (h.kept hH hG) (h.reachable hG) ht hoc hw hx
    obtain ⟨c', sw, a, -, p2, p3, -⟩ := h9.proofs
    rw [p3]
    exact (ha.wits _ _ p2).1
  · obtain ⟨h9, hc⟩ := transfer_proved hH (h.kept hH hG) (h.reachable hG) ht hoc hw hx
    obtain ⟨c', sw, a, p1, p2, -, p4, p5, p6⟩ := h9.proofs
    rw [hc] at p1
    cases p1
    obtain ⟨g1, g2⟩ := (ha.wits _ _ p2).2 _ _ p4
    obtain ⟨b, q1, q2⟩ := hSR _ _ _ _ p6
    obtain ⟨e, he, b', hb', e1, e2, -⟩ := transfer_brought hH hM hG h ht hoc hw hx
    have hb : b = x.bundle.id E.H := by
      have := g2 c b (OMap.mem_of_get? q1)
      rw [← this, ← e1, ← e2]
      exact (h.onLedger e he c b' wb.id hb').1
    rw [h1, ← hb, q2] at hp
    cases hp
    rw [p5]
    refine ⟨g1, fun c' b' hm => ?_⟩
    simp only [List.mem_singleton, Prod.mk.injEq] at hm
    rw [hm.1, hm.2]
    exact g2 c b (OMap.mem_of_get? q1)

theorem transfer_homes (hH : E.H.Binding) (hM : M.Lawful) (hG : ∀ d, OMap.Sorted (G d).maxItems) (h : Sane E M G L es k) (ha : Attd E L es k)
    {fuel c : Nat} {outputs : List Outpoint} {secret : Option Nat} {con : Consignment} (ht : k.transfer E.H E.I E.S fuel c outputs secret = some (.ok con))
    (hoc : k.OfContract c outputs secret) {wb : WitnessBundle} (hw : wb ∈ con.data.bundles) {b : Bundle} (hb : b ∈ wb.anchored.bundles) {o : Nat}
    (ho : OMap.contains b.known o = true) : L.home o = (con.data.genesis.contractId E.H, b.id E.H) := by
  obtain ⟨h1, -, -, -, -, -, -, -⟩ := consign_shape hH (h.kept hH hG) ht
  obtain ⟨x, hx, rfl⟩ := List.mem_map.mp hb
  obtain ⟨e, he, b', hb', e1, -, e3⟩ := transfer_brought hH hM hG h ht hoc hw hx
  rw [h1, ← e1]
  exact ha.homes e he c b' _ hb' o ((e3 o).trans ho)

theorem Attd.append {e : StockEvent} {I : Ids} (hH : E.H.Binding) (h : Attd E L es k) (hd : e.Done E.H I M G k k') (hp : e.Proper E.H) (ha : e.Attested E.H M L)
    (hh : ∀ c b w, e.Brings E.H c b w → ∀ o, OMap.contains b.known o = true → L.home o = (c, b.id E.H)) : Attd E L (es ++ [e]) k' := by
  refine ⟨witsAttested_event hH hp ha h.wits (done_exec hd), fun x hx => ?_⟩
  rcases List.mem_append.mp hx with hx | hx
  · exact h.homes x hx
  · rw [List.mem_singleton] at hx
    subst hx
    exact hh

theorem Honest.attd {n : Nat} (hE : E.Lawful n) (hT : E.TagMaps) (hTC : E.TagsCommitted) (hH : E.H.Binding) (hM : M.Lawful) (hG : ∀ d, OMap.Sorted (G d).maxItems)
    (hI : Ids.Lawful E.H E.I) (hSR : E.S.Restores M) (h : Honest E M G L es k) : Attd E L es k := by
  induction h with
  | new => exact ⟨(fun _ _ h => by cases h), (fun _ h => by cases h)⟩
  | own h he hd ih =>
    have hs := (Honest.own h he hd).sane hE hT hTC hH hM hG hI
    refine ih.append hH hd (hs.furnished.sound _ (List.mem_append_right _ (.head _))).proper ?_ ?_
    · revert he; cases ‹StockEvent› <;> intro he <;> first | exact he.elim | trivial
    · intro c b w hb; cases hb <;> exact he.elim
  | issued h hb hc hf hd ih =>
    refine ih.append hH hd (hc.sound _ (.head _)).proper (fun wb hw => by rw [hb] at hw; cases hw) ?_
    intro c b w hbr
    cases hbr with
    | consignment _ _ wb _ hw _ => rw [hb] at hw; cases hw
  | spent h hb hf hu hs hl ha hd ih =>
    refine ih.append hH hd hs.proper ⟨ha.tx, ha.anchors⟩ ?_
    intro c b w hbr
    cases hbr with
    | fascia _ _ _ _ hm => exact ha.homes c b hm
  | received h₀ ht hoc h hd ih₀ ih =>
    have hs := (Honest.received h₀ ht hoc h hd).sane hE hT hTC hH hM hG hI
    have hs₀ := h₀.sane hE hT hTC hH hM hG hI
    refine ih.append hH hd (hs.furnished.sound _ (List.mem_append_right _ (.head _))).proper (transfer_attested hH hM hG hSR hs₀ ih₀ ht hoc) ?_
    intro c b w hbr
    cases hbr with
    | consignment _ _ wb _ hw hb => exact fun o ho => transfer_homes hH hM hG hs₀ ih₀ ht hoc hw hb ho

/-! ## Bundles of a contract have witnesses -/

/-- Each bundle registered for a contract has a witness. -/
def Witnessed (x : Index) : Prop := ∀ b, (OMap.get? x.bundleContract b).isSome = true → ∃ w, w ∈ mset x.bundleWitness b

theorem witnessed_exec {x : Index} (h : Witnessed x) (call : IdxCall) : Witnessed (call.exec x).1 := by
  intro b hb
  have e := exec_effect x call
  obtain ⟨c, hc⟩ := Option.isSome_iff_exists.mp hb
  have old : (OMap.get? x.bundleContract b).isSome = true → ∃ w, w ∈ mset (call.exec x).1.bundleWitness b := by
    intro h1
    obtain ⟨w, hw⟩ := h b h1
    exact ⟨w, e.bwMono _ _ hw⟩
  rcases e.bcSound _ _ hc with h1 | ⟨w, hw⟩
  · exact old (by rw [h1]; rfl)
  · cases hn : (call.exec x).2 with
    | none => exact ⟨w, (e.bComplete hn _ _ _ hw).2⟩
    | some y =>
      refine old ?_
      cases call with
      | registerBundle b' w' c' =>
        simp only [IdxCall.exec, Index.registerBundle] at hn hb
        split at hn
        · rename_i h1; simp only [h1] at hb; exact hb
        · rename_i h1
          simp only [h1] at hb
          split at hn
          · rename_i h2; simp only [h2] at hb; exact hb
          · cases hn
      | _ => exact hw.elim

theorem witnessed_execAll (calls : List IdxCall) {x : Index} (h : Witnessed x) : Witnessed (IdxCall.execAll x calls).1 := by
  induction calls generalizing x with
  | nil => exact h
  | cons call calls ih =>
    have h1 := witnessed_exec h call
    simp only [IdxCall.execAll]
    split
    · rename_i e; rw [e] at h1; exact h1
    · rename_i e; rw [e] at h1; exact ih h1

theorem witnessed_run {H : Commit} (ops : List IdxOp) {x : Index} (h : Witnessed x) : Witnessed (runIdx H x ops) := by
  induction ops generalizing x with
  | nil => exact h
  | cons op ops ih => exact ih (by rw [IdxOp.exec_eq]; exact witnessed_execAll _ h)

/-- Whatever the index knows to be a bundle of a contract was brought as such. -/
theorem Sane.contract (h : Sane E M G L es k) (hH : E.H.Binding) (hM : M.Lawful) (hG : ∀ d, OMap.Sorted (G d).maxItems) {i c : Nat}
    (hc : OMap.get? k.index.bundleContract i = some c) : ∃ e ∈ es, ∃ b w, e.Brings E.H c b w ∧ b.id E.H = i := by
  have hf := complete_facts hH hM hG h.furnished h.done
  obtain ⟨ops, hops⟩ := hf.hist.index
  have hwit : Witnessed k.index := by rw [hops]; exact witnessed_run ops (by intro b hb; cases hb)
  obtain ⟨w, hwm⟩ := hwit i (by rw [hc]; rfl)
  obtain ⟨c₁, m, e, he, b, hb, hid, -⟩ := hf.only.idx.bwS _ _ hwm
  have hc₁ := (hf.index he hb).1
  rw [hid, hc] at hc₁
  cases hc₁
  exact ⟨e, he, b, w, hb, hid⟩

/-- Wallets of the network don't contradict each other. -/
theorem agrees_of (hH : E.H.Binding) (hM : M.Lawful) (hG : ∀ d, OMap.Sorted (G d).maxItems) (hI : Ids.Lawful E.H E.I) (hSR : E.S.Restores M)
    (h₀ : Sane E M G L es₀ k₀) (ha₀ : Attd E L es₀ k₀) (h : Sane E M G L es k) (ha : Attd E L es k)
    {fuel c : Nat} {outputs : List Outpoint} {secret : Option Nat} {con : Consignment} (ht : k₀.transfer E.H E.I E.S fuel c outputs secret = some (.ok con))
    (hoc : k₀.OfContract c outputs secret) {r : Resolver} (hck : con.Checked G r)
    (hseals : ∀ x ∈ k.stash.secretSeals, ∀ wb ∈ con.data.bundles, (x.toOutputWith wb.id).isSome = true) : k.Agrees E.H M con where
  seals := hseals
  globals := by
    intro cs hcs op hop e he
    obtain ⟨-, hkind, -⟩ := consign_shape hH (h₀.kept hH hG) ht
    have hfur := furnished_transfer hH (h₀.reachable hG) (h₀.kept hH hG) ht r h.furnished (transfer_same hH hG h₀ h ht)
    have hsch := runStock_schemas hH hI hG es (fun e he => (h.furnished.sound e he).proper) (fun e he con r hcon => h.furnished.schema con r (hcon ▸ he)) (k := .empty)
      (by intro c cs h; cases h) (allDone_run _ h.done)
    obtain ⟨sd, -, s2, s3⟩ := hsch _ cs hcs
    have hsd : con.schema = sd := hI.schema_inj _ _ ((hfur.schema con r (List.mem_append_right _ (.head _))).trans (s3 _ hkind rfl))
    have hg := hck.globals op hop e he
    rw [hsd] at hg
    have := s2 e.1
    simp only [OMap.contains] at hg ⊢
    rw [← this] at hg
    simpa using hg
  bundles := by
    intro wb hw b hb
    have hf := complete_facts hH hM hG h.furnished h.done
    have hs₀ := transfer_sound hH (h₀.kept hH hG) ht r
    have hbr : StockEvent.Brings E.H (.consignment con r) (con.data.genesis.contractId E.H) b wb.id := .consignment con r wb b hw hb
    refine ⟨fun c' hc' => ?_, fun o i ho hi => ?_⟩
    · obtain ⟨e, he, b', w, hb', hid⟩ := h.contract hH hM hG hc'
      have hsame := transfer_same hH hG h₀ h ht e he _ b' w hb' wb hw b hb hid.symm
      obtain ⟨o, ho⟩ : ∃ o, OMap.contains b.known o = true := by
        cases hk : b.known with
        | nil => exact absurd hk (hs₀.nonempty _ _ _ hbr)
        | cons p l => exact ⟨p.1, OMap.mem_keys_iff.mp (by rw [OMap.keys]; simp)⟩
      have h1 := ha.homes e he _ b' w hb' o ((hsame o).trans ho)
      have h2 := transfer_homes hH hM hG h₀ ha₀ ht hoc hw hb ho
      rw [h1] at h2
      exact congrArg Prod.fst h2
    · obtain ⟨c', e, he, b', w', hb', rfl, ho'⟩ := hf.only.idx.opS o i hi
      have h1 := ha.homes e he c' b' w' hb' o ho'
      have h2 := transfer_homes hH hM hG h₀ ha₀ ht hoc hw hb ho
      rw [h1] at h2
      exact congrArg Prod.snd h2
  witnesses := by
    intro wb hw sw hsw
    have hat := transfer_attested hH hM hG hSR h₀ ha₀ ht hoc wb hw
    refine ⟨.inr hat.1, fun x hx p hp a ha' => ?_⟩
    have h1 := (hat.2 x hx p hp).anchor
    have h2 := ((ha.wits _ _ hsw).2 _ _ ha').anchor
    rw [h1] at h2
    simp only [Prod.mk.injEq] at h2
    exact ⟨h2.1.symm, h2.2.symm⟩

end Rgb
