import Verif.Spec.Indexed
import Verif.Lemmas.BuilderCalls

namespace Rgb
namespace Indexed

theorem addOps_eq (w : WitnessId) (bid : Nat) (l : List Nat) (x : Indexed) :
    addOps w bid l x = { x with
      opWitnessIdx := OMap.extend x.opWitnessIdx (l.map (fun o => (o, w)))
      opBundleIdx := OMap.extend x.opBundleIdx (l.map (fun o => (o, bid))) } := by
  induction l generalizing x with
  | nil => rfl
  | cons o l ih => rw [addOps, ih]; simp [OMap.extend_cons]

theorem addBundles_eq (H : Commit) (w : WitnessId) (l : List ClientBundle) (x : Indexed) :
    addBundles H w l x = { x with
      bundleIdx := OMap.extend x.bundleIdx (l.map (fun c => (c.bundle.id H, c.bundle)))
      anchorIdx := OMap.extend x.anchorIdx (l.map (fun c => (c.bundle.id H, (w, c.anchor))))
      opWitnessIdx := OMap.extend x.opWitnessIdx (l.flatMap (fun c => (OMap.keys c.bundle.known).map (fun o => (o, w))))
      opBundleIdx := OMap.extend x.opBundleIdx (l.flatMap (fun c => (OMap.keys c.bundle.known).map (fun o => (o, c.bundle.id H)))) } := by
  induction l generalizing x with
  | nil => rfl
  | cons c l ih => rw [addBundles, ih, addOps_eq]; simp [OMap.extend_cons, OMap.extend_append]

theorem addWitnesses_eq (H : Commit) (l : List WitnessBundle) (x : Indexed) :
    addWitnesses H l x = { x with
      witnessIdx := OMap.extend x.witnessIdx (l.map (fun wb => (wb.pub.id, wb.pub)))
      bundleIdx := OMap.extend x.bundleIdx (l.flatMap (fun wb => wb.anchored.list.map (fun c => (c.bundle.id H, c.bundle))))
      anchorIdx := OMap.extend x.anchorIdx (l.flatMap (fun wb => wb.anchored.list.map (fun c => (c.bundle.id H, (wb.id, c.anchor)))))
      opWitnessIdx := OMap.extend x.opWitnessIdx
        (l.flatMap (fun wb => wb.anchored.list.flatMap (fun c => (OMap.keys c.bundle.known).map (fun o => (o, wb.id)))))
      opBundleIdx := OMap.extend x.opBundleIdx
        (l.flatMap (fun wb => wb.anchored.list.flatMap (fun c => (OMap.keys c.bundle.known).map (fun o => (o, c.bundle.id H))))) } := by
  induction l generalizing x with
  | nil => rfl
  | cons c l ih => rw [addWitnesses, ih, addBundles_eq]; simp [OMap.extend_cons, OMap.extend_append]

theorem addExtensions_eq (H : Commit) (l : List Op) (x : Indexed) :
    addExtensions H l x = { x with extensionIdx := OMap.extend x.extensionIdx (l.map (fun e => (e.id H, e))) } := by
  induction l generalizing x with
  | nil => rfl
  | cons o l ih => rw [addExtensions, ih]; simp [OMap.extend_cons]

theorem new_eq (H : Commit) (I : Ids) (c : Consignment) :
    new H I c =
      { genesis := c.data.genesis
        scripts := OMap.ofList (c.scripts.map (fun l => (I.lib l, l)))
        witnessIdx := OMap.extend [] (c.data.bundles.map (fun wb => (wb.pub.id, wb.pub)))
        bundleIdx := OMap.extend [] (c.data.bundles.flatMap (fun wb => wb.anchored.list.map (fun a => (a.bundle.id H, a.bundle))))
        anchorIdx := OMap.extend [] (c.data.bundles.flatMap (fun wb => wb.anchored.list.map (fun a => (a.bundle.id H, (wb.id, a.anchor)))))
        opWitnessIdx := OMap.extend []
          (c.data.bundles.flatMap (fun wb => wb.anchored.list.flatMap (fun a => (OMap.keys a.bundle.known).map (fun o => (o, wb.id)))))
        opBundleIdx := OMap.extend []
          (c.data.bundles.flatMap (fun wb => wb.anchored.list.flatMap (fun a => (OMap.keys a.bundle.known).map (fun o => (o, a.bundle.id H)))))
        extensionIdx := OMap.extend [] (c.data.extensions.map (fun e => (e.id H, e))) } := by
  rw [new, addExtensions_eq, addWitnesses_eq]

theorem get?_extend_nil {κ ν : Type} [Key κ] [DecidableEq κ] (es : List (κ × ν)) (k : κ) :
    OMap.get? (OMap.extend [] es) k = lastFor k es := by
  rw [get?_extend, OMap.get?_nil, Option.or_none]

end Indexed

theorem lastFor_exists {κ ν : Type} [DecidableEq κ] {k : κ} {v : ν} {l : List (κ × ν)} (h : (k, v) ∈ l) :
    ∃ v' : ν, lastFor k l = some v' := by
  cases hl : lastFor k l with
  | some v' => exact ⟨v', rfl⟩
  | none => exact absurd rfl (lastFor_none.1 hl _ h)

/-- Two maps filled from the same elements with the same keys agree on which element was the last. -/
theorem lastFor_pair {α κ ν μ : Type} [DecidableEq κ] (f : α → κ) (g : α → ν) (g' : α → μ) (l : List α) (k : κ) :
    (∃ a : α, a ∈ l ∧ f a = k ∧ lastFor k (l.map (fun a => (f a, g a))) = some (g a) ∧
      lastFor k (l.map (fun a => (f a, g' a))) = some (g' a)) ∨
    (lastFor k (l.map (fun a => (f a, g a))) = none ∧ lastFor k (l.map (fun a => (f a, g' a))) = none ∧ ∀ a ∈ l, f a ≠ k) := by
  induction l with
  | nil => exact .inr ⟨rfl, rfl, by simp⟩
  | cons a l ih =>
    simp only [List.map_cons]
    rw [show ((f a, g a) :: l.map (fun a => (f a, g a))) = [(f a, g a)] ++ l.map (fun a => (f a, g a)) from rfl,
      show ((f a, g' a) :: l.map (fun a => (f a, g' a))) = [(f a, g' a)] ++ l.map (fun a => (f a, g' a)) from rfl, lastFor_cat, lastFor_cat]
    rcases ih with ⟨b, hb, hf, h1, h2⟩ | ⟨h1, h2, hn⟩
    · exact .inl ⟨b, .tail _ hb, hf, by rw [h1]; rfl, by rw [h2]; rfl⟩
    · by_cases hk : f a = k
      · exact .inl ⟨a, .head _, hk, by rw [h1]; simp [lastFor, hk], by rw [h2]; simp [lastFor, hk]⟩
      · refine .inr ⟨by rw [h1]; simp [lastFor, hk], by rw [h2]; simp [lastFor, hk], ?_⟩
        intro b hb
        rcases List.mem_cons.1 hb with rfl | hb
        · exact hk
        · exact hn b hb

/-- All anchored bundles of a consignment in order. -/
def Consignment.occs (c : Consignment) : List (WitnessBundle × ClientBundle) :=
  c.data.bundles.flatMap (fun wb => wb.anchored.list.map (fun a => (wb, a)))

theorem Consignment.mem_occs {c : Consignment} {p : WitnessBundle × ClientBundle} : p ∈ c.occs ↔ c.Holds p.1 p.2 := by
  unfold Consignment.occs
  simp only [List.mem_flatMap, List.mem_map]
  constructor
  · rintro ⟨w, hw, a, ha, rfl⟩; exact ⟨hw, ha⟩
  · rintro ⟨h1, h2⟩; exact ⟨p.1, h1, p.2, h2, rfl⟩

/-- All (witness bundle, anchored bundle, operation id). -/
def Consignment.opOccs (c : Consignment) : List ((WitnessBundle × ClientBundle) × Nat) :=
  c.occs.flatMap (fun p => (OMap.keys p.2.bundle.known).map (fun o => (p, o)))

theorem Consignment.mem_opOccs {c : Consignment} {q : (WitnessBundle × ClientBundle) × Nat} :
    q ∈ c.opOccs ↔ c.Holds q.1.1 q.1.2 ∧ q.2 ∈ OMap.keys q.1.2.bundle.known := by
  unfold Consignment.opOccs
  simp only [List.mem_flatMap, List.mem_map, Consignment.mem_occs]
  constructor
  · rintro ⟨p, hp, o, ho, rfl⟩; exact ⟨hp, ho⟩
  · rintro ⟨h1, h2⟩; exact ⟨q.1, h1, q.2, h2, rfl⟩

namespace Indexed

variable (H : Commit) (I : Ids) (c : Consignment)

theorem bundle_eq (bid : Nat) : (new H I c).bundle bid = lastFor bid (c.occs.map (fun p => (p.2.bundle.id H, p.2.bundle))) := by
  rw [bundle, new_eq, get?_extend_nil]
  simp only [Consignment.occs, List.map_flatMap, List.map_map]
  rfl

theorem anchor_eq (bid : Nat) :
    (new H I c).anchor bid = lastFor bid (c.occs.map (fun p => (p.2.bundle.id H, (p.1.id, p.2.anchor)))) := by
  rw [anchor, new_eq, get?_extend_nil]
  simp only [Consignment.occs, List.map_flatMap, List.map_map]
  rfl

theorem opWitnessId_eq (o : Nat) : (new H I c).opWitnessId o = lastFor o (c.opOccs.map (fun q => (q.2, q.1.1.id))) := by
  rw [opWitnessId, new_eq, get?_extend_nil]
  simp only [Consignment.opOccs, Consignment.occs, List.map_flatMap, List.map_map, List.flatMap_assoc, List.flatMap_map]
  rfl

theorem opBundle_eq (o : Nat) :
    OMap.get? (new H I c).opBundleIdx o = lastFor o (c.opOccs.map (fun q => (q.2, q.1.2.bundle.id H))) := by
  rw [new_eq, get?_extend_nil]
  simp only [Consignment.opOccs, Consignment.occs, List.map_flatMap, List.map_map, List.flatMap_assoc, List.flatMap_map]
  rfl

theorem pubWitness_eq (w : WitnessId) : (new H I c).pubWitness w = lastFor w (c.data.bundles.map (fun wb => (wb.pub.id, wb.pub))) := by
  rw [pubWitness, new_eq, get?_extend_nil]

theorem extension_eq (o : Nat) : (new H I c).extension o = lastFor o (c.data.extensions.map (fun e => (e.id H, e))) := by
  rw [extension, new_eq, get?_extend_nil]

/-- Lookups of a bundle and of its anchor go to the same anchored bundle. -/
theorem bundle_cases (bid : Nat) :
    (∃ (w : WitnessBundle) (a : ClientBundle), c.Holds w a ∧ a.bundle.id H = bid ∧ (new H I c).bundle bid = some a.bundle ∧
      (new H I c).anchor bid = some (w.id, a.anchor)) ∨
    ((new H I c).bundle bid = none ∧ (new H I c).anchor bid = none ∧
      ∀ (w : WitnessBundle) (a : ClientBundle), c.Holds w a → a.bundle.id H ≠ bid) := by
  rw [bundle_eq, anchor_eq]
  rcases lastFor_pair (fun p : WitnessBundle × ClientBundle => p.2.bundle.id H) (fun p => p.2.bundle) (fun p => (p.1.id, p.2.anchor)) c.occs bid
    with ⟨p, hp, hf, h1, h2⟩ | ⟨h1, h2, hn⟩
  · exact .inl ⟨p.1, p.2, Consignment.mem_occs.1 hp, hf, h1, h2⟩
  · exact .inr ⟨h1, h2, fun w a h => hn (w, a) (Consignment.mem_occs.2 h)⟩

/-- Lookups of the bundle and of the witness of a transition go to the same anchored bundle. -/
theorem op_cases (o : Nat) :
    (∃ (w : WitnessBundle) (a : ClientBundle), c.Holds w a ∧ o ∈ OMap.keys a.bundle.known ∧
      OMap.get? (new H I c).opBundleIdx o = some (a.bundle.id H) ∧ (new H I c).opWitnessId o = some w.id) ∨
    (OMap.get? (new H I c).opBundleIdx o = none ∧ (new H I c).opWitnessId o = none ∧
      ∀ (w : WitnessBundle) (a : ClientBundle), c.Holds w a → o ∉ OMap.keys a.bundle.known) := by
  rw [opBundle_eq, opWitnessId_eq]
  rcases lastFor_pair (fun q : (WitnessBundle × ClientBundle) × Nat => q.2) (fun q => q.1.2.bundle.id H) (fun q => q.1.1.id) c.opOccs o
    with ⟨q, hq, hf, h1, h2⟩ | ⟨h1, h2, hn⟩
  · have := Consignment.mem_opOccs.1 hq
    exact .inl ⟨q.1.1, q.1.2, this.1, hf ▸ this.2, h1, h2⟩
  · exact .inr ⟨h1, h2, fun w a h hk => hn ((w, a), o) (Consignment.mem_opOccs.2 ⟨h, hk⟩) rfl⟩

theorem transition_knows {o : Nat} {op : Op} (h : (new H I c).transition o = some op) : c.Knows o op := by
  unfold transition at h
  rw [Option.bind_eq_some_iff] at h
  obtain ⟨bid, _, h⟩ := h
  rw [Option.bind_eq_some_iff] at h
  obtain ⟨b, hb, h⟩ := h
  rcases bundle_cases H I c bid with ⟨w, a, hh, _, hb', _⟩ | ⟨hb', _⟩
  · rw [bundle] at hb'; rw [hb'] at hb; cases hb
    exact ⟨w, a, hh, OMap.mem_of_get? h⟩
  · rw [bundle] at hb'; rw [hb'] at hb; cases hb

theorem transition_found (hd : c.SameDisclosure H) {o : Nat} {op : Op} (h : c.Knows o op) :
    ∃ op' : Op, (new H I c).transition o = some op' := by
  obtain ⟨w, a, hh, hm⟩ := h
  have hk : o ∈ OMap.keys a.bundle.known := List.mem_map.2 ⟨_, hm, rfl⟩
  rcases op_cases H I c o with ⟨w1, a1, hh1, hk1, hb1, _⟩ | ⟨_, _, hn⟩
  · rcases bundle_cases H I c (a1.bundle.id H) with ⟨w2, a2, hh2, hid, hb2, _⟩ | ⟨_, _, hn⟩
    · rw [hd w1 w2 a1 a2 hh1 hh2 hid.symm] at hk1
      have hg := OMap.get?_isSome_iff.2 hk1
      obtain ⟨op', hop⟩ := Option.isSome_iff_exists.1 hg
      rw [bundle] at hb2
      exact ⟨op', by simp [transition, hb1, hb2, hop]⟩
    · exact absurd rfl (hn w1 a1 hh1)
  · exact absurd hk (hn w a hh)

end Indexed
end Rgb
