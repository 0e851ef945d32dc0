import Verif.Lemmas.Network
import Verif.Lemmas.AgainStock
import Verif.Lemmas.BuilderCalls
import Verif.Lemmas.Spent
import Verif.Props.Agree

/-! # C105: what the anchors of witnesses commit to can be read back -/

namespace Rgb.Props
open Rgb Stock MemStash PaidWorld

theorem mem_taprets {s : MemStash} (hs : OMap.Sorted s.witnesses) {w : WitnessId} {r p : Nat} :
    (w, r, p) ∈ s.taprets ↔ ∃ sw a, s.witness w = some sw ∧ anchorOf sw.anchors .tapretFirst = some a ∧ r = a.root ∧ p = a.proof := by
  unfold taprets
  rw [List.mem_filterMap]
  constructor
  · rintro ⟨⟨w', sw⟩, hm, h⟩
    have hg := hs.get?_of_mem hm
    cases ha : sw.anchors with
    | tapret a => simp only [ha, Option.some.injEq, Prod.mk.injEq] at h; obtain ⟨rfl, rfl, rfl⟩ := h; exact ⟨sw, a, hg, by rw [ha]; rfl, rfl, rfl⟩
    | double a b => simp only [ha, Option.some.injEq, Prod.mk.injEq] at h; obtain ⟨rfl, rfl, rfl⟩ := h; exact ⟨sw, a, hg, by rw [ha]; rfl, rfl, rfl⟩
    | opret a => simp only [ha] at h; cases h
  · rintro ⟨sw, a, hw, ha, rfl, rfl⟩
    refine ⟨(w, sw), OMap.mem_of_get? hw, ?_⟩
    cases hb : sw.anchors <;> rw [hb] at ha <;> cases ha <;> rfl

section
variable {H : Commit} {I : Ids} {M : Mpc} {G : SchemaDoc → SchemaGlobals}

/-- **C105** (taprets). The tapret commitments which a stock lists are exactly the Merkle roots and proofs of the tapret anchors of the witnesses in it; no witness is listed twice. -/
theorem C105_taprets (hH : H.Binding) {k : Stock} (hk : k.Reachable H) :
    (∀ w r p, (w, r, p) ∈ k.stash.taprets ↔ ∃ sw a, k.stash.witness w = some sw ∧ anchorOf sw.anchors .tapretFirst = some a ∧ r = a.root ∧ p = a.proof) ∧
    (k.stash.taprets.map (fun e => e.1)).Nodup := by
  have hs := (hk.stSorted hH).witnesses
  refine ⟨fun w r p => mem_taprets hs, ?_⟩
  have hn : (k.stash.witnesses.map (fun e => e.1)).Nodup := hs.nodup
  refine List.Sublist.nodup ?_ hn
  unfold taprets
  generalize k.stash.witnesses = l
  induction l with
  | nil => exact .slnil
  | cons e l ih =>
    rw [List.filterMap_cons]
    split
    · exact ih.cons _
    · rename_i x hx
      have : x.1 = e.1 := by split at hx <;> cases hx <;> rfl
      rw [List.map_cons, List.map_cons, this]
      exact ih.cons_cons _

/-- **C105** (kept). A tapret commitment which is once listed stays listed, and the same, whatever happens later, also if it fails. -/
theorem C105_kept (hH : H.Binding) (hG : ∀ d, OMap.Sorted (G d).maxItems) {k k' : Stock} {es es' : List StockEvent} (he : ∀ e ∈ es, e.Proper H) (he' : ∀ e ∈ es', e.Proper H)
    (h : runStock H I M G es .empty = some k) (h' : runStock H I M G es' k = some k') : ∀ x, x ∈ k.stash.taprets → x ∈ k'.stash.taprets := by
  rintro ⟨w, r, p⟩ hx
  have hk : k.Reachable H := ⟨I, M, G, es, hG, he, h⟩
  have hk' : k'.Reachable H := ⟨I, M, G, es ++ es', hG, fun x hx => (List.mem_append.1 hx).elim (he x) (he' x), runStock_append _ h h'⟩
  obtain ⟨sw, a, hw, ha, rfl, rfl⟩ := (mem_taprets (hk.stSorted hH).witnesses).1 hx
  obtain ⟨sw', hw', hsh⟩ := (runStock_ext hH hG es' he' (hk.hist hH) h').stash.witness _ _ hw
  obtain ⟨y, hy, e1, e2⟩ := hsh.proofs _ _ ha
  exact (mem_taprets (hk'.stSorted hH).witnesses).2 ⟨sw', y, hw', hy, e2.symm, e1.symm⟩

/-- **C105** (fascia). After a fascia with a tapret anchor is consumed, its commitment is listed for its transaction. -/
theorem C105_fascia (hH : H.Binding) (hG : ∀ d, OMap.Sorted (G d).maxItems) {k k' : Stock} {es : List StockEvent} (he : ∀ e ∈ es, e.Proper H)
    (hr : runStock H I M G es .empty = some k) {f : Stock.Fascia} {r : Resolver} (hp : StockEvent.Proper H (.fascia f r)) (h : StockEvent.Done H I M G k k' (.fascia f r)) {a : Anchor} (ha : anchorOf f.anchor .tapretFirst = some a) :
    (f.witness.id, a.root, a.proof) ∈ k'.stash.taprets := by
  have hk : k.Reachable H := ⟨I, M, G, es, hG, he, hr⟩
  have hh := hk.hist hH
  have hk' : k'.Reachable H := ⟨I, M, G, es ++ [.fascia f r], hG, fun x hx => (List.mem_append.1 hx).elim (he x) (fun h => by rw [List.mem_singleton.1 h]; exact hp),
    runStock_append _ hr (allDone_run _ ⟨k', h, rfl⟩)⟩
  obtain ⟨s, u, h1, h2⟩ := fascia_done h
  obtain ⟨s1, s2, s3⟩ := step_consumeWitness k.stash hh.good ⟨f.witness, f.anchor⟩
  obtain ⟨sw, hsw, hsh⟩ := s2 s u h1
  obtain ⟨y, hy, e1, e2⟩ := hsh.proofs _ _ ha
  obtain ⟨sw', hw', hsh'⟩ := (fasciaBundles_ext hH f.bundles hp (hh.withStash (s1 s _ h1).1) h2).stash.witness _ _ hsw
  obtain ⟨z, hz, e3, e4⟩ := hsh'.proofs _ _ hy
  exact (mem_taprets (hk'.stSorted hH).witnesses).2 ⟨sw', z, hw', hz, (e4.trans e2).symm, (e3.trans e1).symm⟩

/-- **C105** (received). Each transaction with which a bundle of the tapret method came, in a consignment or a fascia, has a commitment listed. -/
theorem C105_brought (hH : H.Binding) (hM : M.Lawful) (hG : ∀ d, OMap.Sorted (G d).maxItems) {es : List StockEvent} (hp : ∀ e ∈ es, e.Sound H) {k : Stock}
    (h : AllDone H I M G es .empty k) {e : StockEvent} (he : e ∈ es) {c : Nat} {b : Bundle} {w : WitnessId} (hb : e.Brings H c b w) (hm : b.closeMethod = .tapretFirst) :
    ∃ r p, (w, r, p) ∈ k.stash.taprets := by
  have hk : k.Reachable H := ⟨I, M, G, es, hG, fun x hx => (hp x hx).proper, allDone_run _ h⟩
  obtain ⟨k₁, hh⟩ := allDone_has hH hM hG es hp (Stock.Reachable.hist hH ⟨I, M, G, [], hG, by simp, rfl⟩) h e he
  obtain ⟨sw, h1, h2⟩ := hh.stash.wit c (b.id H) .tapretFirst w ⟨b, hb, rfl, hm⟩
  obtain ⟨a, h3, -⟩ := anchorOf_knows h2
  exact ⟨_, _, (mem_taprets (hk.stSorted hH).witnesses).2 ⟨sw, a, h1, h3, rfl, rfl⟩⟩

end

/-- **C105** (network). What a wallet of a network lists for a transaction is what the transaction commits to; so all wallets list the same for it. -/
theorem C105_network {E : CEnv} {n : Nat} {M : Mpc} {G : SchemaDoc → SchemaGlobals} {L : Ledger} {es : List StockEvent} {k : Stock} (hE : E.Lawful n) (hT : E.TagMaps) (hTC : E.TagsCommitted)
    (hH : E.H.Binding) (hM : M.Lawful) (hG : ∀ d, OMap.Sorted (G d).maxItems) (hI : Ids.Lawful E.H E.I) (hSR : E.S.Restores M) (h : Honest E M G L es k) {w : WitnessId} {r p : Nat}
    (hx : (w, r, p) ∈ k.stash.taprets) : L.anchor w .tapretFirst = (p, r) := by
  have hs := h.sane hE hT hTC hH hM hG hI
  obtain ⟨sw, a, h1, h2, rfl, rfl⟩ := (mem_taprets ((hs.reachable hG).stSorted hH).witnesses).1 hx
  exact ((h.attd hE hT hTC hH hM hG hI hSR).wits w sw h1).2 _ _ h2 |>.anchor

/-- **C105** (known bundles), as far as it's true: the ids listed for a set of anchors are only of bundles known in one of them, and all of these, if no contract has bundles in both. Missing: bundles of one contract in
both anchors. -/
theorem C105_known_partial (s : AnchorSet) (hs : ∀ m a, anchorOf s m = some a → OMap.Sorted a.known) :
    (∀ i ∈ s.knownBundleIds, ∃ m a c, anchorOf s m = some a ∧ (c, i) ∈ a.known) ∧
    ((∀ t o, anchorOf s .tapretFirst = some t → anchorOf s .opretFirst = some o → ∀ c ∈ OMap.keys t.known, c ∉ OMap.keys o.known) →
      ∀ m a c i, anchorOf s m = some a → (c, i) ∈ a.known → i ∈ s.knownBundleIds) := by
  cases s with
  | tapret t =>
    refine ⟨fun i hi => ?_, fun _ m a c i ha hi => ?_⟩
    · obtain ⟨⟨c, i'⟩, hm, rfl⟩ := List.mem_map.1 hi
      exact ⟨.tapretFirst, t, c, rfl, hm⟩
    · cases m <;> cases ha
      exact List.mem_map.2 ⟨_, hi, rfl⟩
  | opret o =>
    refine ⟨fun i hi => ?_, fun _ m a c i ha hi => ?_⟩
    · obtain ⟨⟨c, i'⟩, hm, rfl⟩ := List.mem_map.1 hi
      exact ⟨.opretFirst, o, c, rfl, hm⟩
    · cases m <;> cases ha
      exact List.mem_map.2 ⟨_, hi, rfl⟩
  | double t o =>
    refine ⟨fun i hi => ?_, fun hd m a c i ha hi => ?_⟩
    · obtain ⟨⟨c, i'⟩, hm, rfl⟩ := List.mem_map.1 hi
      rcases mem_of_extend hm with h | h
      · exact ⟨.tapretFirst, t, c, rfl, h⟩
      · exact ⟨.opretFirst, o, c, rfl, h⟩
    · have key : OMap.get? (OMap.extend t.known o.known) c = some i := by
        have ht := hs .tapretFirst t rfl
        have ho := hs .opretFirst o rfl
        rw [get?_extend, lastFor_sorted ho]
        cases m <;> cases ha
        · rw [ho.get?_of_mem hi]; rfl
        · have hn : OMap.get? o.known c = none := by
            cases hg : OMap.get? o.known c with
            | none => rfl
            | some x => exact absurd (List.mem_map.2 ⟨_, OMap.mem_of_get? hg, rfl⟩) (hd t o rfl rfl c (List.mem_map.2 ⟨_, hi, rfl⟩))
          rw [hn, ht.get?_of_mem hi]; rfl
      exact List.mem_map.2 ⟨_, OMap.mem_of_get? key, rfl⟩

/-- **C105** fails for known bundles: a fascia with two bundles of one contract, one for each closing method, is consumed, its anchors know both of them, and one isn't among the known bundle ids which they list. -/
theorem C105_known_fails : ∃ (k : Stock) (f : Stock.Fascia) (e : Nat × Bundle) (a : Anchor), k.Reachable H ∧ StockEvent.Sound H (.fascia f World.r) ∧
    (k.consumeFascia H World.r f).map Prod.snd = some none ∧ e ∈ f.bundles ∧ anchorOf f.anchor e.2.closeMethod = some a ∧ (e.1, e.2.id H) ∈ a.known ∧ e.2.id H ∉ f.anchor.knownBundleIds := by
  refine ⟨k, fascia, (0, b1), ⟨0, 8, [(0, 2)]⟩, ⟨_, _, _, PayWorld.events, World.G_sorted, events_proper, k_run⟩, fascia_sound, by decide +kernel, by simp [fascia], rfl, ?_, ?_⟩
  · rw [ids.2.2.1]; exact .head _
  · rw [ids.2.2.1]; decide +kernel

/-- The fascia of the payment is consumed, and its tapret commitment is listed afterwards. -/
example : ∃ k', Honest E World.M World.G exLedger (PayWorld.events ++ [.fascia fascia World.r]) k' ∧ (fascia.witness.id, 8, 0) ∈ k'.stash.taprets ∧
    StockEvent.Brings H (.fascia fascia World.r) 0 b1 fascia.witness.id ∧ b1.closeMethod = .tapretFirst := by
  obtain ⟨b, hb, hp⟩ := exComposed
  have hc : (k.consumeFascia H World.r fascia).map (fun x => decide (x.2 = none ∧ (fascia.witness.id, 8, 0) ∈ x.1.stash.taprets)) = some true := by decide +kernel
  obtain ⟨⟨k', o⟩, h2, hc⟩ := Option.map_eq_some_iff.mp hc
  obtain ⟨rfl, h3⟩ := of_decide_eq_true hc
  exact ⟨k', .spent exHonest hb (exPacks hp).toMadeOf exPaidUnknown fascia_sound exOnLedger exAttested h2, h3, .fascia _ _ _ _ (by simp [fascia]), rfl⟩

/-- Two contracts, one in each anchor: both bundles are listed. -/
example : (AnchorSet.double ⟨0, 8, [(1, 2)]⟩ ⟨0, 9, [(0, 5)]⟩).knownBundleIds = [5, 2] := by decide +kernel

end Rgb.Props
