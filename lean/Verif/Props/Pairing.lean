import Verif.Lemmas.Merge
import Verif.Spec.StockWorld

/-!
# C57: pairing bundles of one witness, revealing transitions in a bundle
-/

namespace Rgb.Props
open Rgb

/-- What the types `ClientBundle<TapretProof>` and `ClientBundle<OpretProof>` say about the proofs. -/
def WellTyped : AnchoredBundles → Prop
  | .tapret t => t.dbc.method = .tapretFirst
  | .opret o => o.dbc.method = .opretFirst
  | .double t o => t.dbc.method = .tapretFirst ∧ o.dbc.method = .opretFirst

/-- A tapret and an opret bundle of one witness make the same double bundle in both orders, and it has exactly these two. -/
theorem C57_pair (p : XPubWitness) {t o : ClientBundle} (ht : t.dbc.method = .tapretFirst) (ho : o.dbc.method = .opretFirst) :
    ∃ w : WitnessBundle,
      (WitnessBundle.with_ p t).intoDouble o = .ok w ∧ (WitnessBundle.with_ p o).intoDouble t = .ok w ∧
      w.pub = p ∧ w.anchored.list = [t, o] ∧ WellTyped w.anchored := by
  refine ⟨⟨p, .double t o⟩, ?_, ?_, rfl, rfl, ht, ho⟩ <;>
    simp [WitnessBundle.with_, AnchoredBundles.of, WitnessBundle.intoDouble, ht, ho]

/-- A bundle can be added exactly to a witness bundle having a single bundle of the other kind. -/
theorem C57_accepted (w w' : WitnessBundle) (c : ClientBundle) (ht : WellTyped w.anchored) :
    w.intoDouble c = .ok w' ↔
      w'.pub = w.pub ∧ WellTyped w'.anchored ∧
        ∃ d : ClientBundle, w.anchored.list = [d] ∧ d.dbc.method ≠ c.dbc.method ∧ w'.anchored.list.Perm [d, c] := by
  obtain ⟨p, a⟩ := w
  obtain ⟨p', a'⟩ := w'
  constructor
  · intro h
    cases a <;> cases hm : c.dbc.method <;> simp [WitnessBundle.intoDouble, hm] at h <;> obtain ⟨rfl, rfl⟩ := h
    · rename_i t; exact ⟨rfl, ⟨ht, hm⟩, t, rfl, by rw [show t.dbc.method = _ from ht]; simp, .refl _⟩
    · rename_i o; exact ⟨rfl, ⟨hm, ht⟩, o, rfl, by rw [show o.dbc.method = _ from ht]; simp, .swap _ _ _⟩
  · rintro ⟨hp, hty, d, hl, hne, hperm⟩
    have hp : p' = p := hp
    subst hp
    cases a with
    | double x y => simp [AnchoredBundles.list] at hl
    | tapret t =>
      simp only [AnchoredBundles.list, List.cons.injEq, and_true] at hl; subst hl
      have ht : t.dbc.method = .tapretFirst := ht
      have hc : c.dbc.method = .opretFirst := by cases h : c.dbc.method <;> simp_all
      cases a' with
      | tapret x => have := hperm.length_eq; simp [AnchoredBundles.list] at this
      | opret x => have := hperm.length_eq; simp [AnchoredBundles.list] at this
      | double x y =>
        obtain ⟨hx, hy⟩ := hty
        have h1 : x ∈ [t, c] := hperm.mem_iff.1 (.head _)
        have h2 : y ∈ [t, c] := hperm.mem_iff.1 (.tail _ (.head _))
        have ex : x = t := by
          rcases List.mem_cons.1 h1 with h | h
          · exact h
          · rw [List.mem_singleton] at h; subst h; rw [hx] at hc; cases hc
        have ey : y = c := by
          rcases List.mem_cons.1 h2 with h | h
          · subst h; rw [hy] at ht; cases ht
          · exact List.mem_singleton.1 h
        simp [WitnessBundle.intoDouble, hc, ex, ey]
    | opret t =>
      simp only [AnchoredBundles.list, List.cons.injEq, and_true] at hl; subst hl
      have ht : t.dbc.method = .opretFirst := ht
      have hc : c.dbc.method = .tapretFirst := by cases h : c.dbc.method <;> simp_all
      cases a' with
      | tapret x => have := hperm.length_eq; simp [AnchoredBundles.list] at this
      | opret x => have := hperm.length_eq; simp [AnchoredBundles.list] at this
      | double x y =>
        obtain ⟨hx, hy⟩ := hty
        have h1 : x ∈ [t, c] := hperm.mem_iff.1 (.head _)
        have h2 : y ∈ [t, c] := hperm.mem_iff.1 (.tail _ (.head _))
        have ex : x = c := by
          rcases List.mem_cons.1 h1 with h | h
          · subst h; rw [hx] at ht; cases ht
          · exact List.mem_singleton.1 h
        have ey : y = t := by
          rcases List.mem_cons.1 h2 with h | h
          · exact h
          · rw [List.mem_singleton] at h; subst h; rw [hy] at hc; cases hc
        simp [WitnessBundle.intoDouble, hc, ex, ey]

/-- A third bundle is refused, naming the witness. -/
theorem C57_third (w : WitnessBundle) (c : ClientBundle) (h : w.anchored.list.length = 2) :
    w.intoDouble c = .error (.alreadyDouble w.pub.id) := by
  obtain ⟨p, a⟩ := w
  cases a <;> simp [AnchoredBundles.list] at h
  cases c.dbc.method <;> simp [WitnessBundle.intoDouble] <;> rfl

/-- A second bundle of the same kind is refused, naming the witness. -/
theorem C57_same (w : WitnessBundle) (c d : ClientBundle) (ht : WellTyped w.anchored) (hl : w.anchored.list = [d])
    (h : d.dbc.method = c.dbc.method) : w.intoDouble c = .error (.sameBundleType w.pub.id) := by
  obtain ⟨p, a⟩ := w
  cases a with
  | double x y => simp [AnchoredBundles.list] at hl
  | tapret x =>
    simp only [AnchoredBundles.list, List.cons.injEq, and_true] at hl
    rw [← hl, show x.dbc.method = .tapretFirst from ht] at h; simp [WitnessBundle.intoDouble, ← h]; rfl
  | opret x =>
    simp only [AnchoredBundles.list, List.cons.injEq, and_true] at hl
    rw [← hl, show x.dbc.method = .opretFirst from ht] at h; simp [WitnessBundle.intoDouble, ← h]; rfl

/-- A transition can be revealed exactly if the bundle assigns some input to it; otherwise the error names it. -/
theorem C57_reveal_refused (H : Commit) (c : ClientBundle) (t : Op) (e : Nat) :
    c.revealTransition H t = .error e ↔ e = t.id H ∧ ∀ vin opid : Nat, (vin, opid) ∈ c.bundle.inputMap → opid ≠ t.id H := by
  have hall : (OMap.vals c.bundle.inputMap).all (fun i => i ≠ t.id H) = true ↔
      ∀ vin opid : Nat, (vin, opid) ∈ c.bundle.inputMap → opid ≠ t.id H := by
    simp only [OMap.vals, List.all_eq_true, decide_eq_true_eq, List.mem_map]
    exact ⟨fun h vin opid hm => h opid ⟨_, hm, rfl⟩, fun h x ⟨p, hp, hx⟩ => hx ▸ h p.1 p.2 hp⟩
  unfold ClientBundle.revealTransition
  simp only
  split
  · rename_i hh
    simp only [Except.error.injEq]
    exact ⟨fun h => ⟨h.symm, hall.1 hh⟩, fun h => h.1.symm⟩
  · rename_i hh
    split <;> exact ⟨fun h => (by cases h), fun h => absurd (hall.2 h.2) hh⟩

/-- Revealing keeps the anchor, the id of the bundle and what it commits to, and adds exactly the transition unless one was there with the
same id. -/
theorem C57_reveal (H : Commit) (c c' : ClientBundle) (t : Op) (b : Bool) (h : c.revealTransition H t = .ok (b, c')) :
    (∃ vin : Nat, (vin, t.id H) ∈ c.bundle.inputMap) ∧
    c'.mpc = c.mpc ∧ c'.dbc = c.dbc ∧ c'.bundle.id H = c.bundle.id H ∧
    c'.bundle.closeMethod = c.bundle.closeMethod ∧ c'.bundle.inputMap = c.bundle.inputMap ∧
    (b = true ↔ OMap.get? c.bundle.known (t.id H) = none) ∧
    (∀ opid : Nat, OMap.get? c'.bundle.known opid = (OMap.get? c.bundle.known opid).or (if opid = t.id H then some t else none)) := by
  unfold ClientBundle.revealTransition at h
  simp only at h
  split at h
  · cases h
  · rename_i hh
    have hin : ∃ vin : Nat, (vin, t.id H) ∈ c.bundle.inputMap := by
      simp only [OMap.vals, List.all_eq_true, decide_eq_true_eq, List.mem_map, not_forall, Classical.not_not] at hh
      obtain ⟨x, ⟨p, hp, hx⟩, he⟩ := hh
      exact ⟨p.1, by rw [← he, ← hx]; exact hp⟩
    refine ⟨hin, ?_⟩
    split at h
    · rename_i hc
      cases h
      rw [OMap.contains_iff] at hc
      obtain ⟨v, hv⟩ := hc
      refine ⟨rfl, rfl, rfl, rfl, rfl, by simp [hv], fun opid => ?_⟩
      by_cases ho : opid = t.id H
      · subst ho; simp [hv]
      · simp [ho]
    · rename_i hc
      cases h
      have hn : OMap.get? c.bundle.known (t.id H) = none := by
        cases hg : OMap.get? c.bundle.known (t.id H) with
        | none => rfl
        | some v => exact absurd (OMap.contains_iff.2 ⟨v, hg⟩) hc
      refine ⟨rfl, rfl, rfl, rfl, rfl, by simp [hn], fun opid => ?_⟩
      simp only [OMap.get?_insert]
      by_cases ho : opid = t.id H
      · subst ho; simp [hn]
      · simp [ho]

/-! ## Examples -/

def pairT : ClientBundle := ⟨1, ⟨.tapretFirst, 5⟩, ⟨.tapretFirst, [(0, 2)], []⟩⟩
def pairO : ClientBundle := ⟨1, ⟨.opretFirst, 6⟩, ⟨.opretFirst, [(1, 4), (2, 6)], [(6, World.t3)]⟩⟩
def pairP : XPubWitness := ⟨.bitcoin, .txid 62⟩

example : (WitnessBundle.with_ pairP pairT).intoDouble pairO = .ok ⟨pairP, .double pairT pairO⟩ ∧
    (WitnessBundle.with_ pairP pairO).intoDouble pairT = .ok ⟨pairP, .double pairT pairO⟩ ∧
    (WitnessBundle.with_ pairP pairO).intoDouble pairO = .error (.sameBundleType ⟨.bitcoin, 62⟩) ∧
    (⟨pairP, .double pairT pairO⟩ : WitnessBundle).intoDouble pairO = .error (.alreadyDouble ⟨.bitcoin, 62⟩) := by decide +kernel
example : WellTyped (AnchoredBundles.of pairT) ∧ WellTyped (AnchoredBundles.of pairO) := ⟨rfl, rfl⟩
example : pairO.revealTransition World.H World.t2 = .ok (true, { pairO with bundle := { pairO.bundle with known := [(4, World.t2), (6, World.t3)] } }) := by
  decide +kernel
example : pairO.revealTransition World.H World.t3 = .ok (false, pairO) ∧ pairO.revealTransition World.H World.t1 = .error 2 ∧
    pairT.revealTransition World.H World.t1 = .ok (true, { pairT with bundle := { pairT.bundle with known := [(2, World.t1)] } }) := by
  decide +kernel

end Rgb.Props
