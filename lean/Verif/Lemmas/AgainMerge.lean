import Verif.Lemmas.Stash
import Verif.Spec.Again
import Verif.Lemmas.ResumeStock
import Verif.Lemmas.Issue

/-!
Merging again what was merged changes nothing.
-/

namespace Rgb

open MemStash

variable {H : Commit}

/-! ### Operations -/

/-- Everything shown of `b` is shown in `r`. -/
def Op.Absorbs (H : Commit) (r b : Op) : Prop := r.id H = b.id H ∧ joinOp r b = r

theorem Op.Absorbs.merge (hH : H.Binding) {r b : Op} (h : Op.Absorbs H r b) (hr : r.WF) : r.merge H b = .ok r := by
  rw [merge_joinOp hH h.1 hr, h.2]

theorem Op.absorbs_self (a : Op) : Op.Absorbs H a a := ⟨rfl, joinOp_self a⟩

theorem Op.absorbs_join (hH : H.Binding) {a b : Op} (h : a.id H = b.id H) : Op.Absorbs H (joinOp a b) b :=
  ⟨(joinOp_id hH h).trans h, by rw [joinOp_assoc hH h rfl, joinOp_self]⟩

theorem Op.Absorbs.join (hH : H.Binding) {a b x : Op} (h : Op.Absorbs H a b) (hx : a.id H = x.id H) : Op.Absorbs H (joinOp a x) b := by
  refine ⟨(joinOp_id hH hx).trans h.1, ?_⟩
  rw [joinOp_assoc hH hx (hx.symm.trans h.1), joinOp_comm hH (hx.symm.trans h.1), ← joinOp_assoc hH h.1 (h.1.symm.trans hx), h.2]

theorem Op.merge_join (hH : H.Binding) {a b r : Op} (ha : a.WF) (h : a.merge H b = .ok r) : a.id H = b.id H ∧ r = joinOp a b := by
  by_cases hid : a.id H = b.id H
  · rw [merge_joinOp hH hid ha] at h; cases h; exact ⟨hid, rfl⟩
  · simp [Op.merge, hid] at h

/-! ### Bundles -/

/-- Everything shown of the transitions of `b` is shown in `r`, if `r` has them. -/
def Bundle.Absorbs (H : Commit) (r b : Bundle) : Prop :=
  ∀ i t u, OMap.get? r.known i = some t → OMap.get? b.known i = some u → joinOp t u = t

theorem Bundle.Absorbs.merge (hH : H.Binding) {r b : Bundle} (h : Bundle.Absorbs H r b) (hr : r.WF H) (hb : b.WF H) : r.merge H b = .ok r := by
  obtain ⟨r', h1, h2, h3, h4, h5⟩ := bundle_merge_eq hH hr hb
  rw [h1]
  have : r'.known = r.known := by
    refine OMap.Sorted.ext h4 hr.sorted (fun i => ?_)
    rw [h5]
    cases e : OMap.get? r.known i with
    | none => rfl
    | some t =>
      simp only [Option.map_some]
      cases e' : OMap.get? b.known i with
      | none => rfl
      | some u => simp only [h i t u e e']
  cases r; cases r'
  simp only at this h2 h3
  subst this h2 h3
  rfl

theorem Bundle.absorbs_self (a : Bundle) : Bundle.Absorbs H a a := by
  intro i t u h1 h2
  rw [h1] at h2; cases h2
  exact joinOp_self _

theorem Bundle.absorbs_merge (hH : H.Binding) {a b r : Bundle} (ha : a.WF H) (hb : b.WF H) (h : a.merge H b = .ok r) : Bundle.Absorbs H r b := by
  obtain ⟨r', h1, h2, h3, h4, h5⟩ := bundle_merge_eq hH ha hb
  rw [h1] at h; cases h
  intro i t u e1 e2
  rw [h5] at e1
  obtain ⟨t0, e3, e4⟩ := Option.map_eq_some_iff.mp e1
  rw [e2] at e4
  simp only at e4
  subst e4
  exact (Op.absorbs_join hH ((ha.keyed _ _ e3).1.trans (hb.keyed _ _ e2).1.symm)).2

theorem Bundle.Absorbs.join (hH : H.Binding) {a b x r : Bundle} (h : Bundle.Absorbs H a b) (ha : a.WF H) (hb : b.WF H) (hx : x.WF H)
    (hm : a.merge H x = .ok r) : Bundle.Absorbs H r b := by
  obtain ⟨r', h1, h2, h3, h4, h5⟩ := bundle_merge_eq hH ha hx
  rw [h1] at hm; cases hm
  intro i t u e1 e2
  rw [h5] at e1
  obtain ⟨t0, e3, e4⟩ := Option.map_eq_some_iff.mp e1
  have a0 : Op.Absorbs H t0 u := ⟨(ha.keyed _ _ e3).1.trans (hb.keyed _ _ e2).1.symm, h i t0 u e3 e2⟩
  cases e5 : OMap.get? x.known i with
  | none => rw [e5] at e4; simp only at e4; subst e4; exact a0.2
  | some y =>
    rw [e5] at e4
    simp only at e4
    subst e4
    exact (a0.join hH ((ha.keyed _ _ e3).1.trans (hx.keyed _ _ e5).1.symm)).2

/-! ### Witnesses -/

theorem XPubWitness.merge_self (a : XPubWitness) : a.merge a = .ok a := by
  obtain ⟨c, p⟩ := a
  cases c <;> cases p <;> simp [XPubWitness.merge, PubWitness.merge]

theorem XPubWitness.merge_again {a b p : XPubWitness} (h : a.merge b = .ok p) : p.merge b = .ok p := by
  obtain ⟨c, x⟩ := a
  obtain ⟨d, y⟩ := b
  cases c <;> cases d <;> cases x <;> cases y <;> simp only [XPubWitness.merge, PubWitness.merge] at h <;>
    first
      | (cases h; done)
      | (split at h
         · cases h
         · rename_i e
           cases h
           split at e
           · cases e; rename_i e'; simp [XPubWitness.merge, PubWitness.merge, e']
           · cases e)

theorem Anchor.merge_self {t : Nat → Nat → Option Nat} {a : Anchor} (ha : a.In t) : a.merge a = .ok a := by
  have : OMap.extend a.known a.known = a.known := by
    refine OMap.Sorted.ext (ha.sorted.extend _) ha.sorted (fun i => ?_)
    rw [get?_extend]
    cases e : lastFor i a.known with
    | none => rfl
    | some v => rw [(ha.sorted.get?_of_mem (lastFor_mem e))]; rfl
  simp [Anchor.merge, this]

theorem Anchor.merge_in {t : Nat → Nat → Option Nat} {a b c : Anchor} (ha : a.In t) (hb : b.In t) (h : a.merge b = .ok c) : c.In t := by
  simp only [Anchor.merge] at h
  split at h
  · cases h
  · split at h
    · cases h
    · rename_i h1 h2
      have h2 : a.root = b.root := by simpa using h2
      cases h
      refine ⟨ha.sorted.extend _, fun p m hm => ?_⟩
      rw [get?_extend] at hm
      cases e : lastFor p b.known with
      | none => rw [e] at hm; exact ha.agrees p m hm
      | some v =>
        rw [e] at hm
        cases hm
        show t a.root p = _
        rw [h2]
        exact hb.agrees _ _ (hb.sorted.get?_of_mem (lastFor_mem e))

theorem Anchor.merge_again {t : Nat → Nat → Option Nat} {a b c : Anchor} (ha : a.In t) (hb : b.In t) (h : a.merge b = .ok c) :
    c.merge b = .ok c ∧ c.merge a = .ok c := by
  have hc := Anchor.merge_in ha hb h
  simp only [Anchor.merge] at h
  split at h
  · cases h
  · split at h
    · cases h
    · rename_i h1 h2
      have h1 : a.proof = b.proof := by simpa using h1
      have h2 : a.root = b.root := by simpa using h2
      cases h
      have key : ∀ d : Anchor, d.In t → d.root = a.root → (∀ p m, OMap.get? d.known p = some m → (OMap.get? (OMap.extend a.known b.known) p).isSome = true) →
          OMap.extend (OMap.extend a.known b.known) d.known = OMap.extend a.known b.known := by
        intro d hd hr hs
        refine OMap.Sorted.ext (hc.sorted.extend _) hc.sorted (fun i => ?_)
        rw [get?_extend]
        cases e : lastFor i d.known with
        | none => rfl
        | some v =>
          have h3 := hd.sorted.get?_of_mem (lastFor_mem e)
          obtain ⟨v', h4⟩ := Option.isSome_iff_exists.mp (hs i v h3)
          have h5 := hc.agrees i v' h4
          have h6 := hd.agrees i v h3
          rw [hr] at h6
          simp only at h5
          rw [h6] at h5
          cases h5
          rw [h4]; rfl
      refine ⟨?_, ?_⟩
      · simp only [Anchor.merge, h1, h2, ne_eq, not_true_eq_false, if_false]
        rw [key b hb h2.symm]
        intro p m hm
        rw [get?_extend]
        cases e : lastFor p b.known with
        | none => exact absurd rfl ((lastFor_none.mp e) _ (OMap.mem_of_get? hm))
        | some v => rfl
      · simp only [Anchor.merge, h1, h2, ne_eq, not_true_eq_false, if_false]
        rw [key a ha rfl]
        intro p m hm
        rw [get?_extend]
        cases e : lastFor p b.known with
        | none => rw [hm]; rfl
        | some v => rfl

theorem AnchorSet.merge_self {t : Nat → Nat → Option Nat} {a : AnchorSet} (ha : a.In t) : a.merge a = .ok a := by
  cases a with
  | tapret a => simp [AnchorSet.merge, Anchor.merge_self ha, Except.map]
  | opret a => simp [AnchorSet.merge, Anchor.merge_self ha, Except.map]
  | double a b => simp [AnchorSet.merge, Anchor.merge_self ha.1, Anchor.merge_self ha.2, Except.map]

theorem AnchorSet.merge_again {t : Nat → Nat → Option Nat} {a b c : AnchorSet} (ha : a.In t) (hb : b.In t) (h : a.merge b = .ok c) :
    c.merge b = .ok c ∧ c.In t := by
  cases a with
  | tapret x =>
    cases b with
    | tapret y =>
      obtain ⟨z, h1, rfl⟩ := Except.map_ok h
      exact ⟨by simp [AnchorSet.merge, (Anchor.merge_again ha hb h1).1, Except.map], Anchor.merge_in ha hb h1⟩
    | opret y => cases h; exact ⟨by simp [AnchorSet.merge, Anchor.merge_self hb, Except.map], ha, hb⟩
    | double y y' =>
      obtain ⟨z, h1, rfl⟩ := Except.map_ok h
      exact ⟨by simp [AnchorSet.merge, (Anchor.merge_again hb.1 ha h1).2, Anchor.merge_self hb.2, Except.map], Anchor.merge_in hb.1 ha h1, hb.2⟩
  | opret x =>
    cases b with
    | tapret y => cases h; exact ⟨by simp [AnchorSet.merge, Anchor.merge_self hb, Except.map], hb, ha⟩
    | opret y =>
      obtain ⟨z, h1, rfl⟩ := Except.map_ok h
      exact ⟨by simp [AnchorSet.merge, (Anchor.merge_again ha hb h1).1, Except.map], Anchor.merge_in ha hb h1⟩
    | double y y' =>
      obtain ⟨z, h1, rfl⟩ := Except.map_ok h
      exact ⟨by simp [AnchorSet.merge, (Anchor.merge_again hb.2 ha h1).2, Anchor.merge_self hb.1, Except.map], hb.1, Anchor.merge_in hb.2 ha h1⟩
  | double x x' =>
    cases b with
    | tapret y =>
      obtain ⟨z, h1, rfl⟩ := Except.map_ok h
      exact ⟨by simp [AnchorSet.merge, (Anchor.merge_again ha.1 hb h1).1, Except.map], Anchor.merge_in ha.1 hb h1, ha.2⟩
    | opret y =>
      obtain ⟨z, h1, rfl⟩ := Except.map_ok h
      exact ⟨by simp [AnchorSet.merge, (Anchor.merge_again ha.2 hb h1).1, Except.map], ha.1, Anchor.merge_in ha.2 hb h1⟩
    | double y y' =>
      simp only [AnchorSet.merge] at h
      split at h
      · cases h
      · rename_i z h1
        obtain ⟨z', h2, rfl⟩ := Except.map_ok h
        exact ⟨by simp [AnchorSet.merge, (Anchor.merge_again ha.1 hb.1 h1).1, (Anchor.merge_again ha.2 hb.2 h2).1, Except.map],
          Anchor.merge_in ha.1 hb.1 h1, Anchor.merge_in ha.2 hb.2 h2⟩

end Rgb
