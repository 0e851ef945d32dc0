import Verif.Spec.Index
import Verif.Lemmas.Base

namespace Rgb
open Index

/-- Members stored under a key (none if there is no entry). -/
def mset {κ α : Type} [DecidableEq κ] (m : OMap κ (OSet α)) (k : κ) : OSet α := (OMap.get? m k).getD []

theorem mset_insert {κ α : Type} [Key κ] [DecidableEq κ] (m : OMap κ (OSet α)) (k k' : κ) (v : OSet α) :
    mset (OMap.insert m k v) k' = if k' = k then v else mset m k' := by
  simp only [mset, OMap.get?_insert]; split <;> rfl

theorem mset_erase {κ α : Type} [Key κ] [DecidableEq κ] (m : OMap κ (OSet α)) (k k' : κ) :
    mset (OMap.erase m k) k' = if k' = k then [] else mset m k' := by
  simp only [mset, OMap.get?_erase]; split <;> rfl

/-! ### indexOuts -/

def ItemOut (w : Option WitnessId) (opid ty no : Nat) (items : List Assign) (s : OutSeal) (o : Opout) : Prop :=
  ∃ i a sl, items[i]? = some a ∧ a.seal? = some sl ∧ outputSeal w sl = some s ∧ o = ⟨opid, ty, no + i⟩

theorem itemOut_cons {w : Option WitnessId} {opid ty no : Nat} {a : Assign} {items : List Assign} {s : OutSeal} {o : Opout} :
    ItemOut w opid ty no (a :: items) s o ↔
      (∃ sl, a.seal? = some sl ∧ outputSeal w sl = some s ∧ o = ⟨opid, ty, no⟩) ∨
      ItemOut w opid ty (no + 1) items s o := by
  constructor
  · rintro ⟨i, b, sl, h1, h2, h3, h4⟩
    cases i with
    | zero => simp at h1; subst h1; exact .inl ⟨sl, h2, h3, by simpa using h4⟩
    | succ i => exact .inr ⟨i, b, sl, by simpa using h1, h2, h3, by rw [h4]; congr 1; omega⟩
  · rintro (⟨sl, h1, h2, h3⟩ | ⟨i, b, sl, h1, h2, h3, h4⟩)
    · exact ⟨0, a, sl, rfl, h1, h2, by simpa using h3⟩
    · exact ⟨i + 1, b, sl, by simpa using h1, h2, h3, by rw [h4]; congr 1; omega⟩

structure OutsStep (w : Option WitnessId) (opid ty no : Nat) (items : List Assign)
    (m m' : OMap OutSeal (OSet Opout)) (e : Option IdxErr) : Prop where
  mono : ∀ s o, o ∈ mset m s → o ∈ mset m' s
  sound : ∀ s o, o ∈ mset m' s → o ∈ mset m s ∨ ItemOut w opid ty no items s o
  complete : e = none → ∀ s o, ItemOut w opid ty no items s o → o ∈ mset m' s
  sorted : OMap.Sorted m → OMap.Sorted m'
  nonempty : (∀ s set, OMap.get? m s = some set → set ≠ []) → ∀ s set, OMap.get? m' s = some set → set ≠ []

theorem indexOuts_step (w : Option WitnessId) (opid ty : Nat) (items : List Assign) (no : Nat)
    (m : OMap OutSeal (OSet Opout)) :
    OutsStep w opid ty no items m (indexOuts w opid ty items no m).1 (indexOuts w opid ty items no m).2 := by
  induction items generalizing no m with
  | nil =>
    exact ⟨fun _ _ h => h, fun _ _ h => .inl h, fun _ s o h => by obtain ⟨i, a, sl, h1, -⟩ := h; simp at h1,
      id, id⟩
  | cons a items ih =>
    simp only [indexOuts]
    cases hs : a.seal? with
    | none =>
      have := ih (no + 1) m
      refine ⟨this.mono, fun s o h => ?_, fun he s o h => ?_, this.sorted, this.nonempty⟩
      · rcases this.sound s o h with h | h
        · exact .inl h
        · exact .inr (itemOut_cons.mpr (.inr h))
      · rcases itemOut_cons.mp h with ⟨sl, h1, -⟩ | h
        · rw [hs] at h1; cases h1
        · exact this.complete he s o h
    | some sl =>
      simp only
      cases ho : outputSeal w sl with
      | none =>
        simp only
        exact ⟨fun _ _ h => h, fun _ _ h => .inl h, fun h => by simp at h, id, id⟩
      | some out =>
        simp only
        have := ih (no + 1) (OMap.insert m out (OSet.insert ((OMap.get? m out).getD []) ⟨opid, ty, no⟩))
        have hset : ∀ s o, o ∈ mset (OMap.insert m out (OSet.insert ((OMap.get? m out).getD []) ⟨opid, ty, no⟩)) s ↔
            o ∈ mset m s ∨ (s = out ∧ o = ⟨opid, ty, no⟩) := by
          intro s o
          rw [mset_insert]
          split
          · rename_i h; subst h; rw [OSet.mem_insert]; simp only [mset, true_and]; exact or_comm
          · rename_i h; simp [h]
        refine ⟨fun s o h => this.mono s o ((hset s o).mpr (.inl h)), fun s o h => ?_, fun he s o h => ?_,
          fun h => this.sorted (h.insert _ _), fun h => this.nonempty ?_⟩
        · rcases this.sound s o h with h | h
          · rcases (hset s o).mp h with h | ⟨h1, h2⟩
            · exact .inl h
            · exact .inr (itemOut_cons.mpr (.inl ⟨sl, hs, by rw [ho, h1], h2⟩))
          · exact .inr (itemOut_cons.mpr (.inr h))
        · rcases itemOut_cons.mp h with ⟨sl', h1, h2, h3⟩ | h
          · rw [hs] at h1; cases h1
            rw [ho] at h2; cases h2
            exact this.mono _ _ ((hset _ _).mpr (.inr ⟨rfl, h3⟩))
          · exact this.complete he s o h
        · intro s set hg
          rw [OMap.get?_insert] at hg
          split at hg
          · cases hg
            intro hnil
            have : (⟨opid, ty, no⟩ : Opout) ∈ OSet.insert ((OMap.get? m out).getD []) ⟨opid, ty, no⟩ :=
              OSet.mem_insert.mpr (.inl rfl)
            rw [hnil] at this; cases this
          · exact h s set hg

/-! ### terminals -/

def ItemSecret (opid ty no : Nat) (items : List Assign) (sec : Nat) (o : Opout) : Prop :=
  ∃ i a, items[i]? = some a ∧ hidden? a = some sec ∧ o = ⟨opid, ty, no + i⟩

theorem itemSecret_cons {opid ty no : Nat} {a : Assign} {items : List Assign} {s : Nat} {o : Opout} :
    ItemSecret opid ty no (a :: items) s o ↔
      (hidden? a = some s ∧ o = ⟨opid, ty, no⟩) ∨ ItemSecret opid ty (no + 1) items s o := by
  constructor
  · rintro ⟨i, b, h1, h2, h4⟩
    cases i with
    | zero => simp at h1; subst h1; exact .inl ⟨h2, by simpa using h4⟩
    | succ i => exact .inr ⟨i, b, by simpa using h1, h2, by rw [h4]; congr 1; omega⟩
  · rintro (⟨h1, h3⟩ | ⟨i, b, h1, h2, h4⟩)
    · exact ⟨0, a, rfl, h1, by simpa using h3⟩
    · exact ⟨i + 1, b, by simpa using h1, h2, by rw [h4]; congr 1; omega⟩

theorem addTerminal_spec (m : OMap Nat (OSet Opout)) (secret : Nat) (o : Opout) :
    (∀ s o', o' ∈ mset (addTerminal m secret o).1 s → o' ∈ mset m s ∨ (s = secret ∧ o' = o)) ∧
    ((addTerminal m secret o).2 = none →
      ∀ s o', (o' ∈ mset m s ∨ (s = secret ∧ o' = o)) → o' ∈ mset (addTerminal m secret o).1 s) ∧
    ((addTerminal m secret o).2 = none ∨ (addTerminal m secret o).2 = some .confinement) ∧
    (OMap.Sorted m → OMap.Sorted (addTerminal m secret o).1) := by
  unfold addTerminal
  cases hg : OMap.get? m secret with
  | none =>
    have hm : mset m secret = [] := by simp [mset, hg]
    simp only
    refine ⟨?_, ?_, .inl trivial, fun h => (h.erase _).insert _ _⟩
    · intro s o' h
      rw [mset_insert, mset_erase] at h
      split at h
      · simp at h; exact .inr ⟨by assumption, h⟩
      · exact .inl h
    · rintro - s o' (h | ⟨rfl, rfl⟩)
      · rw [mset_insert, mset_erase]
        split
        · rename_i hs; subst hs; rw [hm] at h; cases h
        · exact h
      · rw [mset_insert]; simp
  | some existing =>
    have hm : mset m secret = existing := by simp [mset, hg]
    simp only [tinyPush]
    split
    · rename_i hp
      simp only
      refine ⟨?_, (by intro h; simp at h), .inr trivial, fun h => h.erase _⟩
      intro s o' h
      rw [mset_erase] at h
      split at h
      · cases h
      · exact .inl h
    · rename_i set hp
      split at hp
      · cases hp
      · cases hp
        simp only
        refine ⟨?_, ?_, .inl trivial, fun h => (h.erase _).insert _ _⟩
        · intro s o' h
          rw [mset_insert, mset_erase] at h
          split at h
          · rename_i hs; subst hs
            rcases OSet.mem_insert.mp h with h | h
            · exact .inr ⟨rfl, h⟩
            · rw [hm]; exact .inl h
          · exact .inl h
        · rintro - s o' h
          rw [mset_insert, mset_erase]
          split
          · rename_i hs; subst hs
            rw [OSet.mem_insert, ← hm]
            rcases h with h | ⟨-, h⟩
            · exact .inr h
            · exact .inl h
          · rename_i hs
            rcases h with h | ⟨h, -⟩
            · exact h
            · exact absurd h hs

structure TermStep (F : Nat → Opout → Prop) (m m' : OMap Nat (OSet Opout)) (e : Option IdxErr) : Prop where
  mono : e ≠ some .confinement → ∀ s o, o ∈ mset m s → o ∈ mset m' s
  sound : ∀ s o, o ∈ mset m' s → o ∈ mset m s ∨ F s o
  complete : e = none → ∀ s o, F s o → o ∈ mset m' s
  sorted : OMap.Sorted m → OMap.Sorted m'

theorem extendTerminals_step (opid ty : Nat) (items : List Assign) (no : Nat) (m : OMap Nat (OSet Opout)) :
    TermStep (ItemSecret opid ty no items) m (extendTerminals opid ty items no m).1
      (extendTerminals opid ty items no m).2 := by
  induction items generalizing no m with
  | nil =>
    exact ⟨fun _ _ _ h => h, fun _ _ h => .inl h, fun _ s o h => by obtain ⟨i, a, h1, -⟩ := h; simp at h1, id⟩
  | cons a items ih =>
    simp only [extendTerminals]
    cases hs : hidden? a with
    | none =>
      have := ih (no + 1) m
      refine ⟨this.mono, fun s o h => ?_, fun he s o h => ?_, this.sorted⟩
      · rcases this.sound s o h with h | h
        · exact .inl h
        · exact .inr (itemSecret_cons.mpr (.inr h))
      · rcases itemSecret_cons.mp h with ⟨h1, -⟩ | h
        · rw [hs] at h1; cases h1
        · exact this.complete he s o h
    | some secret =>
      simp only
      obtain ⟨a1, a2, a3, a4⟩ := addTerminal_spec m secret ⟨opid, ty, no⟩
      cases ha : addTerminal m secret ⟨opid, ty, no⟩ with
      | mk m' e =>
        rw [ha] at a1 a2 a3 a4
        cases e with
        | some e =>
          simp only at a1 a2 a3 a4 ⊢
          refine ⟨fun he => ?_, fun s o h => ?_, fun he => by simp at he, a4⟩
          · rcases a3 with h | h
            · simp at h
            · exact absurd h he
          · rcases a1 s o h with h | ⟨rfl, h⟩
            · exact .inl h
            · exact .inr (itemSecret_cons.mpr (.inl ⟨hs, h⟩))
        | none =>
          simp only at a1 a2 a3 a4 ⊢
          have := ih (no + 1) m'
          refine ⟨fun he s o h => this.mono he s o (a2 trivial s o (.inl h)), fun s o h => ?_, fun he s o h => ?_,
            fun h => this.sorted (a4 h)⟩
          · rcases this.sound s o h with h | h
            · rcases a1 s o h with h | ⟨rfl, h⟩
              · exact .inl h
              · exact .inr (itemSecret_cons.mpr (.inl ⟨hs, h⟩))
            · exact .inr (itemSecret_cons.mpr (.inr h))
          · rcases itemSecret_cons.mp h with ⟨h1, h2⟩ | h
            · rw [hs] at h1; cases h1
              have hm := a2 trivial secret o (.inr ⟨rfl, h2⟩)
              exact this.mono (by rw [he]; simp) _ o hm
            · exact this.complete he s o h

/-! ### calls -/

/-- Output members of a contract's index. -/
def outSet (x : Index) (c : Nat) (s : OutSeal) : OSet Opout :=
  ((OMap.get? x.contracts c).map (fun ci => mset ci.outs s)).getD []

def callOut : IdxCall → Nat → OutSeal → Opout → Prop
  | .assignments c w items opid ty, c', s, o => c = c' ∧ ItemOut w opid ty 0 items s o
  | _, _, _, _ => False

def callSecret : IdxCall → Nat → Opout → Prop
  | .assignments _ _ items opid ty, s, o => ItemSecret opid ty 0 items s o
  | _, _, _ => False

def callContract : IdxCall → Nat → Prop
  | .registerContract c, c' => c = c'
  | _, _ => False

def callBundle : IdxCall → Nat → WitnessId → Nat → Prop
  | .registerBundle b w c, b', w', c' => b = b' ∧ w = w' ∧ c = c'
  | _, _, _, _ => False

def callOp : IdxCall → Nat → Nat → Prop
  | .registerOperation o b, o', b' => o = o' ∧ b = b'
  | _, _, _ => False

/-- Invariant of the index. -/
structure IdxInv (x : Index) : Prop where
  sortedC : OMap.Sorted x.contracts
  sortedT : OMap.Sorted x.terminals
  sorted : ∀ c ci, OMap.get? x.contracts c = some ci → OMap.Sorted ci.outs
  nonempty : ∀ c ci, OMap.get? x.contracts c = some ci → ∀ s set, OMap.get? ci.outs s = some set → set ≠ []
  pub : ∀ c ci, OMap.get? x.contracts c = some ci → ci.publicOpouts = []
  both : ∀ b, (OMap.get? x.bundleContract b).isSome → (OMap.get? x.bundleWitness b).isSome

/-- The effect of one or several calls, which would add the given facts. -/
structure Effect (FO : Nat → OutSeal → Opout → Prop) (FS : Nat → Opout → Prop) (FC : Nat → Prop)
    (FB : Nat → WitnessId → Nat → Prop) (FP : Nat → Nat → Prop) (x x' : Index) (e : Option IdxErr) : Prop where
  outMono : ∀ c s o, o ∈ outSet x c s → o ∈ outSet x' c s
  outSound : ∀ c s o, o ∈ outSet x' c s → o ∈ outSet x c s ∨ FO c s o
  outComplete : e = none → ∀ c s o, FO c s o → o ∈ outSet x' c s
  tm : TermStep FS x.terminals x'.terminals e
  conMono : ∀ c, OMap.contains x.contracts c = true → OMap.contains x'.contracts c = true
  conSound : ∀ c, OMap.contains x'.contracts c = true → OMap.contains x.contracts c = true ∨ FC c
  conComplete : e = none → ∀ c, FC c → OMap.contains x'.contracts c = true
  bcMono : ∀ b c, OMap.get? x.bundleContract b = some c → OMap.get? x'.bundleContract b = some c
  bwMono : ∀ b w, w ∈ mset x.bundleWitness b → w ∈ mset x'.bundleWitness b
  bComplete : e = none → ∀ b w c, FB b w c →
    OMap.get? x'.bundleContract b = some c ∧ w ∈ mset x'.bundleWitness b
  bwSound : ∀ b w, w ∈ mset x'.bundleWitness b → w ∈ mset x.bundleWitness b ∨ ∃ c, FB b w c
  bcSound : ∀ b c, OMap.get? x'.bundleContract b = some c → OMap.get? x.bundleContract b = some c ∨ ∃ w, FB b w c
  opMono : ∀ o b, OMap.get? x.opBundle o = some b → OMap.get? x'.opBundle o = some b
  opComplete : e = none → ∀ o b, FP o b → OMap.get? x'.opBundle o = some b
  opSound : ∀ o b, OMap.get? x'.opBundle o = some b → OMap.get? x.opBundle o = some b ∨ FP o b
  inv : IdxInv x → IdxInv x'

theorem TermStep.refl {F : Nat → Opout → Prop} (hF : ∀ s o, ¬ F s o) (m : OMap Nat (OSet Opout)) (e : Option IdxErr) :
    TermStep F m m e := ⟨fun _ _ _ h => h, fun _ _ h => .inl h, fun _ s o h => absurd h (hF s o), id⟩

theorem TermStep.fail {F : Nat → Opout → Prop} (m : OMap Nat (OSet Opout)) (e : IdxErr) :
    TermStep F m m (some e) := ⟨fun _ _ _ h => h, fun _ _ h => .inl h, fun h => by simp at h, id⟩

theorem Effect.fail {FO FS FC FB FP} (x : Index) (e : IdxErr) : Effect FO FS FC FB FP x x (some e) where
  outMono _ _ _ h := h
  outSound _ _ _ h := .inl h
  outComplete h := by simp at h
  tm := TermStep.fail _ _
  conMono _ h := h
  conSound _ h := .inl h
  conComplete h := by simp at h
  bcMono _ _ h := h
  bwMono _ _ h := h
  bComplete h := by simp at h
  bwSound _ _ h := .inl h
  bcSound _ _ h := .inl h
  opMono _ _ h := h
  opComplete h := by simp at h
  opSound _ _ h := .inl h
  inv := id

theorem outSet_congr {x y : Index} (h : x.contracts = y.contracts) (c : Nat) (s : OutSeal) :
    outSet x c s = outSet y c s := by simp [outSet, h]

theorem registerContract_effect (x : Index) (c : Nat) :
    Effect (callOut (.registerContract c)) (callSecret (.registerContract c)) (callContract (.registerContract c))
      (callBundle (.registerContract c)) (callOp (.registerContract c))
      x (x.registerContract c).1 (x.registerContract c).2 := by
  unfold Index.registerContract
  split
  · rename_i hc
    exact {
      outMono := fun _ _ _ h => h, outSound := fun _ _ _ h => .inl h, outComplete := fun _ _ _ _ h => h.elim,
      tm := TermStep.refl (fun _ _ h => h) _ _, conMono := fun _ h => h, conSound := fun _ h => .inl h,
      conComplete := by rintro - c' rfl; exact hc,
      bcMono := fun _ _ h => h, bwMono := fun _ _ h => h, bComplete := fun _ _ _ _ h => h.elim,
      bwSound := fun _ _ h => .inl h, bcSound := fun _ _ h => .inl h,
      opMono := fun _ _ h => h, opComplete := fun _ _ _ h => h.elim, opSound := fun _ _ h => .inl h, inv := id }
  · rename_i hc
    split
    · exact Effect.fail _ _
    · have hout : ∀ c' s, outSet { x with contracts := OMap.insert x.contracts c {} } c' s = outSet x c' s := by
        intro c' s
        simp only [outSet, OMap.get?_insert]
        split
        · rename_i h; subst h
          have : OMap.get? x.contracts c' = none := by simpa [OMap.contains] using hc
          simp [this, mset]
        · rfl
      exact {
        outMono := fun c s o h => by rw [hout]; exact h, outSound := fun c s o h => by rw [hout] at h; exact .inl h,
        outComplete := fun _ _ _ _ h => h.elim,
        tm := TermStep.refl (fun _ _ h => h) _ _,
        conMono := by intro c' h; simp only [OMap.contains, OMap.get?_insert] at h ⊢; split <;> simp_all
        conSound := by
          intro c' h; simp only [OMap.contains, OMap.get?_insert] at h ⊢
          split at h
          · exact .inr (by simp [callContract]; exact (by assumption : c' = c).symm)
          · exact .inl h
        conComplete := by rintro - c' rfl; simp [OMap.contains],
        bcMono := fun _ _ h => h, bwMono := fun _ _ h => h, bComplete := fun _ _ _ _ h => h.elim,
        bwSound := fun _ _ h => .inl h, bcSound := fun _ _ h => .inl h,
        opMono := fun _ _ h => h, opComplete := fun _ _ _ h => h.elim, opSound := fun _ _ h => .inl h,
        inv := fun hi => ⟨hi.sortedC.insert _ _, hi.sortedT, by
            intro c' ci h; simp only [OMap.get?_insert] at h; split at h
            · cases h; exact OMap.Sorted.nil
            · exact hi.sorted _ _ h, by
            intro c' ci h; simp only [OMap.get?_insert] at h; split at h
            · cases h; intro s set h'; cases h'
            · exact hi.nonempty _ _ h, by
            intro c' ci h; simp only [OMap.get?_insert] at h; split at h
            · cases h; rfl
            · exact hi.pub _ _ h, hi.both⟩ }

theorem registerBundle_effect (x : Index) (b : Nat) (w : WitnessId) (c : Nat) :
    Effect (callOut (.registerBundle b w c)) (callSecret (.registerBundle b w c)) (callContract (.registerBundle b w c))
      (callBundle (.registerBundle b w c)) (callOp (.registerBundle b w c))
      x (x.registerBundle b w c).1 (x.registerBundle b w c).2 := by
  unfold Index.registerBundle
  split
  · exact Effect.fail _ _
  · rename_i hf
    have hbc : ∀ c', OMap.get? x.bundleContract b = some c' → c' = c := by
      intro c' h
      refine Decidable.byContradiction fun hne => ?_
      rw [h] at hf
      simp [Option.filter, hne] at hf
    simp only [tinyPush]
    split
    · rename_i hp
      have hbw : ∀ b', mset (OMap.insert x.bundleWitness b ((OMap.get? x.bundleWitness b).getD [])) b' =
          mset x.bundleWitness b' := by
        intro b'; rw [mset_insert]; split
        · rename_i h; subst h; rfl
        · rfl
      exact {
        outMono := fun _ _ _ h => h, outSound := fun _ _ _ h => .inl h, outComplete := fun h => by simp at h,
        tm := TermStep.fail _ _, conMono := fun _ h => h, conSound := fun _ h => .inl h,
        conComplete := fun h => by simp at h,
        bcMono := fun _ _ h => h, bwMono := fun b' w' h => by simp only [hbw]; exact h, bComplete := fun h => by simp at h,
        bwSound := fun b' w' h => by simp only [hbw] at h; exact .inl h, bcSound := fun _ _ h => .inl h,
        opMono := fun _ _ h => h, opComplete := fun h => by simp at h, opSound := fun _ _ h => .inl h,
        inv := fun hi => ⟨hi.sortedC, hi.sortedT, hi.sorted, hi.nonempty, hi.pub, by
          intro b' h; simp only [OMap.get?_insert]; split
          · rfl
          · exact hi.both b' h⟩ }
    · rename_i ws' hp
      split at hp
      · cases hp
      · cases hp
        exact {
          outMono := fun _ _ _ h => h, outSound := fun _ _ _ h => .inl h, outComplete := fun _ _ _ _ h => h.elim,
          tm := TermStep.refl (fun _ _ h => h) _ _, conMono := fun _ h => h, conSound := fun _ h => .inl h,
          conComplete := fun _ _ h => h.elim,
          bcMono := by
            intro b' c' h; simp only [OMap.get?_insert]; split
            · rename_i hb; subst hb; rw [hbc _ h]
            · exact h
          bwMono := by
            intro b' w' h; simp only [mset_insert]; split
            · rename_i hb; subst hb; exact OSet.mem_insert.mpr (.inr h)
            · exact h
          bComplete := by
            rintro - b' w' c' ⟨rfl, rfl, rfl⟩
            simp only [OMap.get?_insert_self, mset_insert, if_true, true_and]
            exact OSet.mem_insert.mpr (.inl rfl)
          bwSound := by
            intro b' w' h; simp only [mset_insert] at h; split at h
            · rename_i hb; subst hb
              rcases OSet.mem_insert.mp h with rfl | h
              · exact .inr ⟨c, rfl, rfl, rfl⟩
              · exact .inl h
            · exact .inl h
          bcSound := by
            intro b' c' h; simp only [OMap.get?_insert] at h; split at h
            · rename_i hb; subst hb; cases h; exact .inr ⟨w, rfl, rfl, rfl⟩
            · exact .inl h
          opMono := fun _ _ h => h, opComplete := fun _ _ _ h => h.elim, opSound := fun _ _ h => .inl h,
          inv := fun hi => ⟨hi.sortedC, hi.sortedT, hi.sorted, hi.nonempty, hi.pub, by
            intro b' h; simp only [OMap.get?_insert] at h ⊢; split
            · rfl
            · rename_i hb; rw [if_neg hb] at h; exact hi.both b' h⟩ }

theorem registerOperation_effect (x : Index) (op b : Nat) :
    Effect (callOut (.registerOperation op b)) (callSecret (.registerOperation op b)) (callContract (.registerOperation op b))
      (callBundle (.registerOperation op b)) (callOp (.registerOperation op b))
      x (x.registerOperation op b).1 (x.registerOperation op b).2 := by
  unfold Index.registerOperation
  split
  · exact Effect.fail _ _
  · rename_i hf
    have hob : ∀ b', OMap.get? x.opBundle op = some b' → b' = b := by
      intro b' h
      refine Decidable.byContradiction fun hne => ?_
      rw [h] at hf
      simp [Option.filter, hne] at hf
    exact {
      outMono := fun _ _ _ h => h, outSound := fun _ _ _ h => .inl h, outComplete := fun _ _ _ _ h => h.elim,
      tm := TermStep.refl (fun _ _ h => h) _ _, conMono := fun _ h => h, conSound := fun _ h => .inl h,
      conComplete := fun _ _ h => h.elim,
      bcMono := fun _ _ h => h, bwMono := fun _ _ h => h, bComplete := fun _ _ _ _ h => h.elim,
      bwSound := fun _ _ h => .inl h, bcSound := fun _ _ h => .inl h,
      opMono := by
        intro o b' h; simp only [OMap.get?_insert]; split
        · rename_i ho; subst ho; rw [hob _ h]
        · exact h
      opComplete := by rintro - o b' ⟨rfl, rfl⟩; simp
      opSound := by
        intro o b' h; simp only [OMap.get?_insert] at h; split at h
        · rename_i ho; subst ho; cases h; exact .inr ⟨rfl, rfl⟩
        · exact .inl h
      inv := fun hi => ⟨hi.sortedC, hi.sortedT, hi.sorted, hi.nonempty, hi.pub, hi.both⟩ }

theorem assignments_effect (x : Index) (c : Nat) (w : Option WitnessId) (items : List Assign) (opid ty : Nat) :
    Effect (callOut (.assignments c w items opid ty)) (callSecret (.assignments c w items opid ty))
      (callContract (.assignments c w items opid ty))
      (callBundle (.assignments c w items opid ty)) (callOp (.assignments c w items opid ty))
      x (x.indexAssignments c w items opid ty).1 (x.indexAssignments c w items opid ty).2 := by
  unfold Index.indexAssignments
  cases hc : OMap.get? x.contracts c with
  | none => exact Effect.fail _ _
  | some ci =>
    simp only
    have hr := indexOuts_step w opid ty items 0 ci.outs
    generalize hrr : indexOuts w opid ty items 0 ci.outs = r at hr
    obtain ⟨m', e⟩ := r
    simp only at hr ⊢
    have hout : ∀ (t : OMap Nat (OSet Opout)) c' s,
        outSet { x with contracts := OMap.insert x.contracts c { ci with outs := m' }, terminals := t } c' s =
        if c' = c then mset m' s else outSet x c' s := by
      intro t c' s
      simp only [outSet, OMap.get?_insert]
      split <;> rfl
    have hold : ∀ s, outSet x c s = mset ci.outs s := by intro s; simp [outSet, hc]
    have hmono : ∀ t c' s o, o ∈ outSet x c' s →
        o ∈ outSet { x with contracts := OMap.insert x.contracts c { ci with outs := m' }, terminals := t } c' s := by
      intro t c' s o h
      rw [hout]; split
      · rename_i h'; subst h'; rw [hold] at h; exact hr.mono s o h
      · exact h
    have hsound : ∀ t c' s o,
        o ∈ outSet { x with contracts := OMap.insert x.contracts c { ci with outs := m' }, terminals := t } c' s →
        o ∈ outSet x c' s ∨ callOut (.assignments c w items opid ty) c' s o := by
      intro t c' s o h
      rw [hout] at h; split at h
      · rename_i h'; subst h'; rw [hold]
        rcases hr.sound s o h with h | h
        · exact .inl h
        · exact .inr ⟨rfl, h⟩
      · exact .inl h
    have hcon : ∀ c', OMap.contains (OMap.insert x.contracts c { ci with outs := m' }) c' = OMap.contains x.contracts c' := by
      intro c'; simp only [OMap.contains, OMap.get?_insert]; split
      · rename_i h; subst h; simp [hc]
      · rfl
    have hinv : ∀ t, (OMap.Sorted x.terminals → OMap.Sorted t) → IdxInv x →
        IdxInv { x with contracts := OMap.insert x.contracts c { ci with outs := m' }, terminals := t } := by
      intro t ht hi
      refine ⟨hi.sortedC.insert _ _, ht hi.sortedT, ?_, ?_, ?_, hi.both⟩
      · intro c' ci' h; simp only [OMap.get?_insert] at h; split at h
        · cases h; exact hr.sorted (hi.sorted _ _ hc)
        · exact hi.sorted _ _ h
      · intro c' ci' h; simp only [OMap.get?_insert] at h; split at h
        · cases h; exact hr.nonempty (hi.nonempty _ _ hc)
        · exact hi.nonempty _ _ h
      · intro c' ci' h; simp only [OMap.get?_insert] at h; split at h
        · cases h; exact hi.pub c ci hc
        · exact hi.pub _ _ h
    cases e with
    | some e =>
      simp only
      exact {
        outMono := hmono _, outSound := hsound _, outComplete := fun h => by simp at h,
        tm := TermStep.fail _ _, conMono := fun c' h => by rw [hcon]; exact h,
        conSound := fun c' h => by rw [hcon] at h; exact .inl h,
        conComplete := fun h => by simp at h,
        bcMono := fun _ _ h => h, bwMono := fun _ _ h => h, bComplete := fun h => by simp at h,
        bwSound := fun _ _ h => .inl h, bcSound := fun _ _ h => .inl h,
        opMono := fun _ _ h => h, opComplete := fun h => by simp at h, opSound := fun _ _ h => .inl h,
        inv := hinv _ id }
    | none =>
      simp only
      have ht := extendTerminals_step opid ty items 0 x.terminals
      exact {
        outMono := hmono _, outSound := hsound _,
        outComplete := by
          rintro - c' s o ⟨rfl, h⟩
          rw [hout, if_pos rfl]; exact hr.complete rfl s o h
        tm := ht, conMono := fun c' h => by simp only [hcon]; exact h,
        conSound := fun c' h => by simp only [hcon] at h; exact .inl h,
        conComplete := fun _ _ h => h.elim,
        bcMono := fun _ _ h => h, bwMono := fun _ _ h => h, bComplete := fun _ _ _ _ h => h.elim,
        bwSound := fun _ _ h => .inl h, bcSound := fun _ _ h => .inl h,
        opMono := fun _ _ h => h, opComplete := fun _ _ _ h => h.elim, opSound := fun _ _ h => .inl h,
        inv := hinv _ ht.sorted }

theorem exec_effect (x : Index) (call : IdxCall) :
    Effect (callOut call) (callSecret call) (callContract call) (callBundle call) (callOp call)
      x (call.exec x).1 (call.exec x).2 := by
  cases call with
  | registerContract c => exact registerContract_effect x c
  | registerBundle b w c => exact registerBundle_effect x b w c
  | registerOperation o b => exact registerOperation_effect x o b
  | assignments c w items opid ty => exact assignments_effect x c w items opid ty

def anyOut (calls : List IdxCall) (c : Nat) (s : OutSeal) (o : Opout) : Prop := ∃ call ∈ calls, callOut call c s o
def anySecret (calls : List IdxCall) (s : Nat) (o : Opout) : Prop := ∃ call ∈ calls, callSecret call s o
def anyContract (calls : List IdxCall) (c : Nat) : Prop := ∃ call ∈ calls, callContract call c
def anyBundle (calls : List IdxCall) (b : Nat) (w : WitnessId) (c : Nat) : Prop := ∃ call ∈ calls, callBundle call b w c
def anyOp (calls : List IdxCall) (o b : Nat) : Prop := ∃ call ∈ calls, callOp call o b

theorem execAll_effect (calls : List IdxCall) (x : Index) :
    Effect (anyOut calls) (anySecret calls) (anyContract calls) (anyBundle calls) (anyOp calls)
      x (IdxCall.execAll x calls).1 (IdxCall.execAll x calls).2 := by
  induction calls generalizing x with
  | nil =>
    exact {
      outMono := fun _ _ _ h => h, outSound := fun _ _ _ h => .inl h,
      outComplete := fun _ _ _ _ ⟨_, h, _⟩ => (by cases h),
      tm := TermStep.refl (fun _ _ ⟨_, h, _⟩ => by cases h) _ _, conMono := fun _ h => h, conSound := fun _ h => .inl h,
      conComplete := fun _ _ ⟨_, h, _⟩ => (by cases h),
      bcMono := fun _ _ h => h, bwMono := fun _ _ h => h, bComplete := fun _ _ _ _ ⟨_, h, _⟩ => (by cases h),
      bwSound := fun _ _ h => .inl h, bcSound := fun _ _ h => .inl h,
      opMono := fun _ _ h => h, opComplete := fun _ _ _ ⟨_, h, _⟩ => (by cases h), opSound := fun _ _ h => .inl h, inv := id }
  | cons call calls ih =>
    have h1 := exec_effect x call
    simp only [IdxCall.execAll]
    cases hx : call.exec x with
    | mk x' e =>
      rw [hx] at h1
      have inj : ∀ {P : IdxCall → Prop}, P call → ∃ c ∈ call :: calls, P c := fun h => ⟨call, List.mem_cons_self, h⟩
      have tl : ∀ {P : IdxCall → Prop}, (∃ c ∈ calls, P c) → ∃ c ∈ call :: calls, P c :=
        fun ⟨c, h, h'⟩ => ⟨c, List.mem_cons_of_mem _ h, h'⟩
      cases e with
      | some e =>
        simp only at h1 ⊢
        exact {
          outMono := h1.outMono, outSound := fun c s o h => (h1.outSound c s o h).imp id inj,
          outComplete := fun h => by simp at h,
          tm := ⟨h1.tm.mono, fun s o h => (h1.tm.sound s o h).imp id inj, fun h => by simp at h, h1.tm.sorted⟩,
          conMono := h1.conMono, conSound := fun c h => (h1.conSound c h).imp id inj,
          conComplete := fun h => by simp at h,
          bcMono := h1.bcMono, bwMono := h1.bwMono, bComplete := fun h => by simp at h,
          bwSound := fun b w h => (h1.bwSound b w h).imp id (fun ⟨c, h⟩ => ⟨c, inj h⟩),
          bcSound := fun b w h => (h1.bcSound b w h).imp id (fun ⟨c, h⟩ => ⟨c, inj h⟩),
          opMono := h1.opMono, opComplete := fun h => by simp at h,
          opSound := fun o b h => (h1.opSound o b h).imp id inj, inv := h1.inv }
      | none =>
        simp only at h1 ⊢
        have h2 := ih x'
        have key : ∀ {P : IdxCall → Prop}, (∃ c ∈ call :: calls, P c) → P call ∨ ∃ c ∈ calls, P c := by
          rintro P ⟨c, hc, h⟩
          rcases List.mem_cons.mp hc with rfl | hc
          · exact .inl h
          · exact .inr ⟨c, hc, h⟩
        exact {
          outMono := fun c s o h => h2.outMono c s o (h1.outMono c s o h),
          outSound := fun c s o h => (h2.outSound c s o h).elim
            (fun h => (h1.outSound c s o h).imp id inj) (fun h => .inr (tl h)),
          outComplete := fun he c s o h => (key h).elim
            (fun h => h2.outMono _ _ _ (h1.outComplete rfl c s o h)) (fun h => h2.outComplete he c s o h),
          tm := ⟨fun he s o h => h2.tm.mono he s o (h1.tm.mono (by simp) s o h),
            fun s o h => (h2.tm.sound s o h).elim (fun h => (h1.tm.sound s o h).imp id inj) (fun h => .inr (tl h)),
            fun he s o h => (key h).elim
              (fun h => h2.tm.mono (by rw [he]; simp) _ _ (h1.tm.complete rfl s o h)) (fun h => h2.tm.complete he s o h),
            fun h => h2.tm.sorted (h1.tm.sorted h)⟩,
          conMono := fun c h => h2.conMono c (h1.conMono c h),
          conSound := fun c h => (h2.conSound c h).elim (fun h => (h1.conSound c h).imp id inj) (fun h => .inr (tl h)),
          conComplete := fun he c h => (key h).elim (fun h => h2.conMono _ (h1.conComplete rfl c h)) (fun h => h2.conComplete he c h),
          bcMono := fun b c h => h2.bcMono b c (h1.bcMono b c h),
          bwMono := fun b c h => h2.bwMono b c (h1.bwMono b c h),
          bComplete := fun he b w c h => (key h).elim
            (fun h => ⟨h2.bcMono _ _ (h1.bComplete rfl b w c h).1, h2.bwMono _ _ (h1.bComplete rfl b w c h).2⟩)
            (fun h => h2.bComplete he b w c h),
          bwSound := fun b w h => (h2.bwSound b w h).elim
            (fun h => (h1.bwSound b w h).imp id (fun ⟨c, h⟩ => ⟨c, inj h⟩)) (fun ⟨c, h⟩ => .inr ⟨c, tl h⟩),
          bcSound := fun b w h => (h2.bcSound b w h).elim
            (fun h => (h1.bcSound b w h).imp id (fun ⟨c, h⟩ => ⟨c, inj h⟩)) (fun ⟨c, h⟩ => .inr ⟨c, tl h⟩),
          opMono := fun o b h => h2.opMono o b (h1.opMono o b h),
          opComplete := fun he o b h => (key h).elim (fun h => h2.opMono _ _ (h1.opComplete rfl o b h)) (fun h => h2.opComplete he o b h),
          opSound := fun o b h => (h2.opSound o b h).elim (fun h => (h1.opSound o b h).imp id inj) (fun h => .inr (tl h)),
          inv := fun h => h2.inv (h1.inv h) }

/-! ### histories -/

def IdxOp.calls (H : Commit) : IdxOp → List IdxCall
  | .consignment d => Index.consignmentCalls H d
  | .bundle c b w => Index.bundleCalls H c b w

theorem IdxOp.exec_eq (H : Commit) (x : Index) (op : IdxOp) : op.exec H x = IdxCall.execAll x (op.calls H) := by
  cases op <;> rfl

theorem hidden_iff (a : Assign) (sec : Nat) : hidden? a = some sec ↔
    (∃ st, a = .confidential sec st) ∨ (∃ st, a = .confidentialSeal sec st) := by
  cases a <;> simp [hidden?]

theorem opCalls_out {H : Commit} {c : Nat} {op : Op} {c' : Nat} {s : OutSeal} {o : Opout} :
    anyOut (Index.opCalls H c op) c' s o ↔ c = c' ∧ op.AssignsOut (op.id H) none s o := by
  constructor
  · rintro ⟨call, hc, h⟩
    simp only [Index.opCalls, List.mem_map] at hc
    obtain ⟨⟨ty, t⟩, he, rfl⟩ := hc
    obtain ⟨rfl, i, a, sl, h1, h2, h3, h4⟩ := h
    exact ⟨rfl, ty, t, i, a, sl, he, h1, h2, h3, by simpa using h4⟩
  · rintro ⟨rfl, ty, t, i, a, sl, he, h1, h2, h3, h4⟩
    exact ⟨.assignments c none t.items (op.id H) ty, List.mem_map.mpr ⟨(ty, t), he, rfl⟩, rfl, i, a, sl, h1, h2, h3,
      by simpa using h4⟩

theorem opCalls_secret {H : Commit} {c : Nat} {op : Op} {s : Nat} {o : Opout} :
    anySecret (Index.opCalls H c op) s o ↔ op.AssignsSecret (op.id H) s o := by
  constructor
  · rintro ⟨call, hc, h⟩
    simp only [Index.opCalls, List.mem_map] at hc
    obtain ⟨⟨ty, t⟩, he, rfl⟩ := hc
    obtain ⟨i, a, h1, h2, h4⟩ := h
    exact ⟨ty, t, i, a, he, h1, (hidden_iff _ _).mp h2, by simpa using h4⟩
  · rintro ⟨ty, t, i, a, he, h1, h2, h4⟩
    exact ⟨.assignments c none t.items (op.id H) ty, List.mem_map.mpr ⟨(ty, t), he, rfl⟩, i, a, h1,
      (hidden_iff _ _).mpr h2, by simpa using h4⟩

theorem bundleCalls_out {H : Commit} {c : Nat} {b : Bundle} {w : WitnessId} {c' : Nat} {s : OutSeal} {o : Opout} :
    anyOut (Index.bundleCalls H c b w) c' s o ↔ c = c' ∧ ∃ k t, (k, t) ∈ b.known ∧ t.AssignsOut k (some w) s o := by
  constructor
  · rintro ⟨call, hc, h⟩
    simp only [Index.bundleCalls, List.mem_cons, List.mem_flatMap, List.mem_map] at hc
    rcases hc with rfl | ⟨⟨k, op⟩, hk, rfl | ⟨⟨ty, t⟩, he, rfl⟩⟩
    · exact h.elim
    · exact h.elim
    · obtain ⟨rfl, i, a, sl, h1, h2, h3, h4⟩ := h
      exact ⟨rfl, k, op, hk, ty, t, i, a, sl, he, h1, h2, h3, by simpa using h4⟩
  · rintro ⟨rfl, k, op, hk, ty, t, i, a, sl, he, h1, h2, h3, h4⟩
    refine ⟨.assignments c (some w) t.items k ty, ?_, rfl, i, a, sl, h1, h2, h3, by simpa using h4⟩
    simp only [Index.bundleCalls, List.mem_cons, List.mem_flatMap, List.mem_map]
    exact .inr ⟨(k, op), hk, .inr ⟨(ty, t), he, rfl⟩⟩

theorem bundleCalls_secret {H : Commit} {c : Nat} {b : Bundle} {w : WitnessId} {s : Nat} {o : Opout} :
    anySecret (Index.bundleCalls H c b w) s o ↔ ∃ k t, (k, t) ∈ b.known ∧ t.AssignsSecret k s o := by
  constructor
  · rintro ⟨call, hc, h⟩
    simp only [Index.bundleCalls, List.mem_cons, List.mem_flatMap, List.mem_map] at hc
    rcases hc with rfl | ⟨⟨k, op⟩, hk, rfl | ⟨⟨ty, t⟩, he, rfl⟩⟩
    · exact h.elim
    · exact h.elim
    · obtain ⟨i, a, h1, h2, h4⟩ := h
      exact ⟨k, op, hk, ty, t, i, a, he, h1, (hidden_iff _ _).mp h2, by simpa using h4⟩
  · rintro ⟨k, op, hk, ty, t, i, a, he, h1, h2, h4⟩
    refine ⟨.assignments c (some w) t.items k ty, ?_, i, a, h1, (hidden_iff _ _).mpr h2, by simpa using h4⟩
    simp only [Index.bundleCalls, List.mem_cons, List.mem_flatMap, List.mem_map]
    exact .inr ⟨(k, op), hk, .inr ⟨(ty, t), he, rfl⟩⟩

theorem any_append {P : IdxCall → Prop} {a b : List IdxCall} :
    (∃ c ∈ a ++ b, P c) ↔ (∃ c ∈ a, P c) ∨ (∃ c ∈ b, P c) := by
  simp only [List.mem_append]
  constructor
  · rintro ⟨c, h | h, hp⟩
    · exact .inl ⟨c, h, hp⟩
    · exact .inr ⟨c, h, hp⟩
  · rintro (⟨c, h, hp⟩ | ⟨c, h, hp⟩)
    · exact ⟨c, .inl h, hp⟩
    · exact ⟨c, .inr h, hp⟩

theorem any_flatMap {α : Type} {P : IdxCall → Prop} {l : List α} {f : α → List IdxCall} :
    (∃ c ∈ l.flatMap f, P c) ↔ ∃ x ∈ l, ∃ c ∈ f x, P c := by
  simp only [List.mem_flatMap]
  constructor
  · rintro ⟨c, ⟨x, hx, hc⟩, hp⟩; exact ⟨x, hx, c, hc, hp⟩
  · rintro ⟨x, hx, c, hc, hp⟩; exact ⟨c, ⟨x, hx, hc⟩, hp⟩

theorem calls_out {H : Commit} {op : IdxOp} {c : Nat} {s : OutSeal} {o : Opout} :
    anyOut (op.calls H) c s o ↔ op.Out H c s o := by
  cases op with
  | bundle c₀ b w =>
    rw [IdxOp.calls, bundleCalls_out]
    constructor
    · rintro ⟨rfl, k, t, hk, h⟩; exact ⟨k, t, _, .single _ b w k t hk, h⟩
    · rintro ⟨k, t, w', hc, h⟩; cases hc with
      | single _ _ _ _ _ hk => exact ⟨rfl, k, t, hk, h⟩
  | consignment d =>
    rw [IdxOp.calls, anyOut, Index.consignmentCalls]
    constructor
    · rintro ⟨call, hc, h⟩
      rcases List.mem_cons.mp hc with rfl | hc
      · exact h.elim
      · have : ∃ x ∈ Index.opCalls H (d.genesis.contractId H) d.genesis ++ (d.extensions.flatMap (Index.opCalls H (d.genesis.contractId H)) ++
            d.bundles.flatMap (fun wb => wb.anchored.bundles.flatMap (fun b => Index.bundleCalls H (d.genesis.contractId H) b wb.id))),
            callOut x c s o := ⟨call, hc, h⟩
        rw [any_append, any_append, any_flatMap, any_flatMap] at this
        rcases this with h | ⟨e, he, h⟩ | ⟨wb, hwb, h⟩
        · obtain ⟨rfl, h'⟩ := opCalls_out.mp h
          exact ⟨_, _, _, .genesis d, h'⟩
        · obtain ⟨rfl, h'⟩ := opCalls_out.mp h
          exact ⟨_, _, _, .extension d e he, h'⟩
        · obtain ⟨b, hb, h'⟩ := any_flatMap.mp h
          obtain ⟨rfl, k, t, hk, h''⟩ := bundleCalls_out.mp h'
          exact ⟨_, _, _, .transition d wb b k t hwb hb hk, h''⟩
    · rintro ⟨k, t, w, hc, h⟩
      have : ∃ x ∈ Index.opCalls H (d.genesis.contractId H) d.genesis ++ (d.extensions.flatMap (Index.opCalls H (d.genesis.contractId H)) ++
            d.bundles.flatMap (fun wb => wb.anchored.bundles.flatMap (fun b => Index.bundleCalls H (d.genesis.contractId H) b wb.id))),
            callOut x c s o := by
        rw [any_append, any_append, any_flatMap, any_flatMap]
        cases hc with
        | genesis => exact .inl (opCalls_out.mpr ⟨rfl, h⟩)
        | extension _ e he => exact .inr (.inl ⟨_, he, opCalls_out.mpr ⟨rfl, h⟩⟩)
        | transition _ wb b _ _ hwb hb hk =>
          exact .inr (.inr ⟨wb, hwb, any_flatMap.mpr ⟨b, hb, bundleCalls_out.mpr ⟨rfl, _, _, hk, h⟩⟩⟩)
      obtain ⟨x, hx, h⟩ := this
      exact ⟨x, List.mem_cons_of_mem _ hx, h⟩

theorem calls_secret {H : Commit} {op : IdxOp} {s : Nat} {o : Opout} :
    anySecret (op.calls H) s o ↔ op.Secret H s o := by
  cases op with
  | bundle c₀ b w =>
    rw [IdxOp.calls, bundleCalls_secret]
    constructor
    · rintro ⟨k, t, hk, h⟩; exact ⟨_, k, t, _, .single c₀ b w k t hk, h⟩
    · rintro ⟨c, k, t, w', hc, h⟩; cases hc with
      | single _ _ _ _ _ hk => exact ⟨k, t, hk, h⟩
  | consignment d =>
    rw [IdxOp.calls, anySecret, Index.consignmentCalls]
    constructor
    · rintro ⟨call, hc, h⟩
      rcases List.mem_cons.mp hc with rfl | hc
      · exact h.elim
      · have : ∃ x ∈ Index.opCalls H (d.genesis.contractId H) d.genesis ++ (d.extensions.flatMap (Index.opCalls H (d.genesis.contractId H)) ++
            d.bundles.flatMap (fun wb => wb.anchored.bundles.flatMap (fun b => Index.bundleCalls H (d.genesis.contractId H) b wb.id))),
            callSecret x s o := ⟨call, hc, h⟩
        rw [any_append, any_append, any_flatMap, any_flatMap] at this
        rcases this with h | ⟨e, he, h⟩ | ⟨wb, hwb, h⟩
        · exact ⟨_, _, _, _, .genesis d, opCalls_secret.mp h⟩
        · exact ⟨_, _, _, _, .extension d e he, opCalls_secret.mp h⟩
        · obtain ⟨b, hb, h⟩ := any_flatMap.mp h
          obtain ⟨k, t, hk, h⟩ := bundleCalls_secret.mp h
          exact ⟨_, _, _, _, .transition d wb b k t hwb hb hk, h⟩
    · rintro ⟨c, k, t, w, hc, h⟩
      have : ∃ x ∈ Index.opCalls H (d.genesis.contractId H) d.genesis ++ (d.extensions.flatMap (Index.opCalls H (d.genesis.contractId H)) ++
            d.bundles.flatMap (fun wb => wb.anchored.bundles.flatMap (fun b => Index.bundleCalls H (d.genesis.contractId H) b wb.id))),
            callSecret x s o := by
        rw [any_append, any_append, any_flatMap, any_flatMap]
        cases hc with
        | genesis => exact .inl (opCalls_secret.mpr h)
        | extension _ e he => exact .inr (.inl ⟨_, he, opCalls_secret.mpr h⟩)
        | transition _ wb b _ _ hwb hb hk =>
          exact .inr (.inr ⟨wb, hwb, any_flatMap.mpr ⟨b, hb, bundleCalls_secret.mpr ⟨_, _, hk, h⟩⟩⟩)
      obtain ⟨x, hx, h⟩ := this
      exact ⟨x, List.mem_cons_of_mem _ hx, h⟩

theorem calls_bundle {H : Commit} {op : IdxOp} {c : Nat} {b : Bundle} {w : WitnessId} (h : op.HasBundle H c b w) :
    ∀ call ∈ Index.bundleCalls H c b w, call ∈ op.calls H := by
  intro call hc
  cases h with
  | single => exact hc
  | inConsignment d wb _ hwb hb =>
    simp only [IdxOp.calls, Index.consignmentCalls, List.mem_cons, List.mem_append, List.mem_flatMap]
    exact .inr (.inr (.inr ⟨wb, hwb, b, hb, hc⟩))

theorem op_effect (H : Commit) (x : Index) (op : IdxOp) :
    Effect (op.Out H) (op.Secret H) (anyContract (op.calls H)) (anyBundle (op.calls H)) (anyOp (op.calls H))
      x (op.exec H x).1 (op.exec H x).2 := by
  have := execAll_effect (op.calls H) x
  rw [← IdxOp.exec_eq] at this
  have h1 : anyOut (op.calls H) = op.Out H := by funext c s o; exact propext calls_out
  have h2 : anySecret (op.calls H) = op.Secret H := by funext s o; exact propext calls_secret
  rwa [h1, h2] at this

theorem idxInv_empty : IdxInv {} :=
  ⟨OMap.Sorted.nil, OMap.Sorted.nil, (by intro _ _ h; cases h), (by intro _ _ h; cases h), (by intro _ _ h; cases h),
    (by intro b h; simp at h)⟩

theorem run_inv (H : Commit) (ops : List IdxOp) (x : Index) (h : IdxInv x) : IdxInv (runIdx H x ops) := by
  induction ops generalizing x with
  | nil => exact h
  | cons op ops ih => exact ih _ ((op_effect H x op).inv h)

theorem run_append (H : Commit) (a b : List IdxOp) (x : Index) : runIdx H x (a ++ b) = runIdx H (runIdx H x a) b := by
  induction a generalizing x with
  | nil => rfl
  | cons op a ih => exact ih _

theorem run_mono (H : Commit) (ops : List IdxOp) (x : Index) :
    (∀ c s o, o ∈ outSet x c s → o ∈ outSet (runIdx H x ops) c s) ∧
    (∀ b c, OMap.get? x.bundleContract b = some c → OMap.get? (runIdx H x ops).bundleContract b = some c) ∧
    (∀ b w, w ∈ mset x.bundleWitness b → w ∈ mset (runIdx H x ops).bundleWitness b) ∧
    (∀ o b, OMap.get? x.opBundle o = some b → OMap.get? (runIdx H x ops).opBundle o = some b) := by
  induction ops generalizing x with
  | nil => exact ⟨fun _ _ _ h => h, fun _ _ h => h, fun _ _ h => h, fun _ _ h => h⟩
  | cons op ops ih =>
    obtain ⟨h1, h2, h3, h4⟩ := ih (op.exec H x).1
    have e := op_effect H x op
    exact ⟨fun c s o h => h1 c s o (e.outMono c s o h), fun b c h => h2 b c (e.bcMono b c h),
      fun b c h => h3 b c (e.bwMono b c h), fun b c h => h4 b c (e.opMono b c h)⟩

theorem run_out_sound (H : Commit) (ops : List IdxOp) (x : Index) (c : Nat) (s : OutSeal) (o : Opout)
    (h : o ∈ outSet (runIdx H x ops) c s) : o ∈ outSet x c s ∨ ∃ op ∈ ops, op.Out H c s o := by
  induction ops generalizing x with
  | nil => exact .inl h
  | cons op ops ih =>
    rcases ih _ h with h | ⟨op', ho, h⟩
    · rcases (op_effect H x op).outSound c s o h with h | h
      · exact .inl h
      · exact .inr ⟨op, List.mem_cons_self, h⟩
    · exact .inr ⟨op', List.mem_cons_of_mem _ ho, h⟩

theorem run_out_complete (H : Commit) (ops : List IdxOp) (x : Index) (c : Nat) (s : OutSeal) (o : Opout) (op : IdxOp)
    (hs : (op, none) ∈ resultsIdx H x ops) (h : op.Out H c s o) : o ∈ outSet (runIdx H x ops) c s := by
  induction ops generalizing x with
  | nil => cases hs
  | cons op' ops ih =>
    rcases List.mem_cons.mp hs with he | hs
    · simp only [Prod.mk.injEq] at he
      obtain ⟨rfl, he⟩ := he
      exact (run_mono H ops _).1 _ _ _ ((op_effect H x op).outComplete he.symm c s o h)
    · exact ih _ hs

theorem run_term_sound (H : Commit) (ops : List IdxOp) (x : Index) (s : Nat) (o : Opout)
    (h : o ∈ mset (runIdx H x ops).terminals s) : o ∈ mset x.terminals s ∨ ∃ op ∈ ops, op.Secret H s o := by
  induction ops generalizing x with
  | nil => exact .inl h
  | cons op ops ih =>
    rcases ih _ h with h | ⟨op', ho, h⟩
    · rcases (op_effect H x op).tm.sound s o h with h | h
      · exact .inl h
      · exact .inr ⟨op, List.mem_cons_self, h⟩
    · exact .inr ⟨op', List.mem_cons_of_mem _ ho, h⟩

theorem run_term_complete (H : Commit) (ops : List IdxOp) (x : Index)
    (hno : ∀ op, (op, some IdxErr.confinement) ∉ resultsIdx H x ops) (s : Nat) (o : Opout)
    (h : o ∈ mset x.terminals s ∨ ∃ op, (op, none) ∈ resultsIdx H x ops ∧ op.Secret H s o) :
    o ∈ mset (runIdx H x ops).terminals s := by
  induction ops generalizing x with
  | nil =>
    rcases h with h | ⟨op, hs, -⟩
    · exact h
    · cases hs
  | cons op' ops ih =>
    have hno' : ∀ op, (op, some IdxErr.confinement) ∉ resultsIdx H (op'.exec H x).1 ops :=
      fun op hm => hno op (List.mem_cons_of_mem _ hm)
    have hne : (op'.exec H x).2 ≠ some .confinement := fun he => hno op' (by rw [resultsIdx, he]; exact List.mem_cons_self)
    refine ih _ hno' ?_
    rcases h with h | ⟨op, hs, h⟩
    · exact .inl ((op_effect H x op').tm.mono hne s o h)
    · rcases List.mem_cons.mp hs with he | hs
      · simp only [Prod.mk.injEq] at he
        obtain ⟨rfl, he⟩ := he
        exact .inl ((op_effect H x op).tm.complete he.symm s o h)
      · exact .inr ⟨op, hs, h⟩

theorem OutSeal.eq_of_outpoint {s s' : OutSeal} (h : s.outpoint = s'.outpoint) (hm : s.method = s'.method) : s = s' := by
  cases s; cases s'; simp [OutSeal.outpoint] at h hm ⊢; exact ⟨h.1, hm, h.2.1, h.2.2⟩

theorem byOutputs_sound {outs : OMap OutSeal (OSet Opout)} {c : Nat} {ps : List Outpoint} {acc r : OSet Opout}
    (h : byOutputsLoop outs c ps acc = .ok r) :
    ∀ o ∈ r, o ∈ acc ∨ ∃ s set, (s, set) ∈ outs ∧ s.outpoint ∈ ps ∧ o ∈ set := by
  induction ps generalizing acc with
  | nil => simp only [byOutputsLoop, Except.ok.injEq] at h; subst h; exact fun o ho => .inl ho
  | cons p ps ih =>
    simp only [byOutputsLoop] at h
    split at h
    · cases h
    · rename_i e hf
      intro o ho
      rcases ih h o ho with h' | ⟨s, set, h1, h2, h3⟩
      · rcases OSet.mem_extend.mp h' with h' | h'
        · exact .inl h'
        · have := List.find?_some hf
          simp only [decide_eq_true_eq] at this
          exact .inr ⟨e.1, e.2, List.mem_of_find?_eq_some hf, by simp [this], h'⟩
      · exact .inr ⟨s, set, h1, List.mem_cons_of_mem _ h2, h3⟩

theorem byOutputs_complete {outs : OMap OutSeal (OSet Opout)} {c : Nat} {ps : List Outpoint} {acc r : OSet Opout}
    (h : byOutputsLoop outs c ps acc = .ok r) :
    (∀ o ∈ acc, o ∈ r) ∧
    ∀ p ∈ ps, ∃ s set, (s, set) ∈ outs ∧ s.outpoint = p ∧ ∀ o ∈ set, o ∈ r := by
  induction ps generalizing acc with
  | nil =>
    simp only [byOutputsLoop, Except.ok.injEq] at h; subst h
    exact ⟨fun o ho => ho, fun p hp => by cases hp⟩
  | cons p ps ih =>
    simp only [byOutputsLoop] at h
    split at h
    · cases h
    · rename_i e hf
      obtain ⟨h1, h2⟩ := ih h
      refine ⟨fun o ho => h1 o (OSet.mem_extend.mpr (.inl ho)), fun p' hp => ?_⟩
      rcases List.mem_cons.mp hp with rfl | hp
      · have := List.find?_some hf
        simp only [decide_eq_true_eq] at this
        exact ⟨e.1, e.2, List.mem_of_find?_eq_some hf, this, fun o ho => h1 o (OSet.mem_extend.mpr (.inr ho))⟩
      · exact h2 p' hp

theorem byOutputs_error {outs : OMap OutSeal (OSet Opout)} {c : Nat} {ps : List Outpoint} {acc : OSet Opout} {e : IdxErr}
    (h : byOutputsLoop outs c ps acc = .error e) :
    ∃ p ∈ ps, e = .outpointUnknown p c ∧ ∀ q ∈ outs, q.1.outpoint ≠ p := by
  induction ps generalizing acc with
  | nil => cases h
  | cons p ps ih =>
    simp only [byOutputsLoop] at h
    split at h
    · rename_i hf
      cases h
      exact ⟨p, List.mem_cons_self, rfl, fun q hq => by simpa using List.find?_eq_none.mp hf q hq⟩
    · obtain ⟨p', hp, h1, h2⟩ := ih h
      exact ⟨p', List.mem_cons_of_mem _ hp, h1, h2⟩

theorem anyBundle_calls {H : Commit} {op : IdxOp} {bid : Nat} {w : WitnessId} {c : Nat}
    (h : anyBundle (op.calls H) bid w c) : ∃ b, op.HasBundle H c b w ∧ b.id H = bid := by
  have hb : ∀ {c₀ b₀ w₀}, anyBundle (Index.bundleCalls H c₀ b₀ w₀) bid w c → c₀ = c ∧ w₀ = w ∧ b₀.id H = bid := by
    rintro c₀ b₀ w₀ ⟨call, hc, h⟩
    simp only [Index.bundleCalls, List.mem_cons, List.mem_flatMap, List.mem_map] at hc
    rcases hc with rfl | ⟨⟨k, op⟩, hk, rfl | ⟨⟨ty, t⟩, he, rfl⟩⟩
    · obtain ⟨h1, h2, h3⟩ := h; exact ⟨h3, h2, h1⟩
    · exact h.elim
    · exact h.elim
  cases op with
  | bundle c₀ b₀ w₀ =>
    obtain ⟨rfl, rfl, h'⟩ := hb h
    exact ⟨b₀, .single _ _ _, h'⟩
  | consignment d =>
    obtain ⟨call, hc, h⟩ := h
    simp only [IdxOp.calls, Index.consignmentCalls, List.mem_cons, List.mem_append, List.mem_flatMap, Index.opCalls,
      List.mem_map] at hc
    rcases hc with rfl | ⟨⟨ty, t⟩, he, rfl⟩ | ⟨_, _, ⟨ty, t⟩, he, rfl⟩ | ⟨wb, hwb, b, hb', hc⟩
    · exact h.elim
    · exact h.elim
    · exact h.elim
    · obtain ⟨rfl, rfl, h'⟩ := hb ⟨call, hc, h⟩
      exact ⟨b, .inConsignment d wb b hwb hb', h'⟩

theorem run_bw_sound (H : Commit) (ops : List IdxOp) (x : Index) (bid : Nat) (w : WitnessId)
    (h : w ∈ mset (runIdx H x ops).bundleWitness bid) :
    w ∈ mset x.bundleWitness bid ∨ ∃ op ∈ ops, ∃ c b, op.HasBundle H c b w ∧ b.id H = bid := by
  induction ops generalizing x with
  | nil => exact .inl h
  | cons op ops ih =>
    rcases ih _ h with h | ⟨op', ho, h⟩
    · rcases (op_effect H x op).bwSound bid w h with h | ⟨c, h⟩
      · exact .inl h
      · exact .inr ⟨op, List.mem_cons_self, c, anyBundle_calls h⟩
    · exact .inr ⟨op', List.mem_cons_of_mem _ ho, h⟩

theorem OSet.length_insert {α : Type} [Key α] [DecidableEq α] {s : OSet α} {a : α} (h : a ∉ s) :
    (OSet.insert s a).length = s.length + 1 := by
  induction s with
  | nil => rfl
  | cons b s ih =>
    simp only [List.mem_cons, not_or] at h
    simp only [OSet.insert, if_neg h.1]
    split
    · simp
    · simp [ih h.2]

/-- Adding more outputs than fit loses the entry. -/
theorem extendTerminals_overflow {opid ty secret : Nat} {st : RState} {n : Nat} {no : Nat} {m : OMap Nat (OSet Opout)}
    {set : OSet Opout} (hg : OMap.get? m secret = some set) (hno : ∀ o ∈ set, o.op = opid → o.no < no)
    (hlen : set.length + n > 255) (hle : set.length ≤ 255) :
    (extendTerminals opid ty (List.replicate n (.confidentialSeal secret st)) no m).2 = some .confinement ∧
    OMap.get? (extendTerminals opid ty (List.replicate n (.confidentialSeal secret st)) no m).1 secret = none := by
  induction n generalizing no m set with
  | zero => omega
  | succ n ih =>
    simp only [List.replicate_succ, extendTerminals, hidden?, addTerminal, hg, tinyPush]
    by_cases h : set.length ≥ tinyMax
    · simp [h, OMap.get?_erase]
    · rw [if_neg h]
      simp only
      have hni : (⟨opid, ty, no⟩ : Opout) ∉ set := fun hm => by have := hno _ hm rfl; simp at this
      refine ih (set := OSet.insert set ⟨opid, ty, no⟩) (by simp) ?_ ?_ ?_
      · intro o ho hop
        rcases OSet.mem_insert.mp ho with rfl | ho
        · simp
        · have := hno o ho hop; omega
      · rw [OSet.length_insert hni]; omega
      · rw [OSet.length_insert hni]; simp only [tinyMax] at h; omega

theorem run_both (H : Commit) (ops : List IdxOp) (x : Index) (h : IdxInv x) (b : Nat)
    (hb : (OMap.get? (runIdx H x ops).bundleContract b).isSome) : (OMap.get? (runIdx H x ops).bundleWitness b).isSome :=
  (run_inv H ops x h).both b hb

end Rgb
