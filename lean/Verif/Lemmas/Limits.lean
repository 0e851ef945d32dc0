import Verif.Spec.Limits
import Verif.Lemmas.Resume
import Verif.Lemmas.AgainKit
import Verif.Lemmas.UsableConsign
import Verif.Lemmas.Info

/-!
The limits of collections are kept by every call.
-/

namespace Rgb
open MemStash Index

variable {H : Commit}

theorem oset_length_insert {α : Type} [Key α] [DecidableEq α] (l : OSet α) (a : α) : (OSet.insert l a).length ≤ l.length + 1 := by
  induction l with
  | nil => simp [OSet.insert]
  | cons b l ih =>
    simp only [OSet.insert]
    split
    · simp
    · split
      · simp
      · simp only [List.length_cons]; omega

/-! ### The stash -/

structure StLimits (s : MemStash) : Prop where
  schemata : s.schemata.length ≤ 255
  impls : ∀ i si, s.schema i = some si → si.iimpls.length ≤ 255
  ifaces : s.ifaces.length ≤ 255
  geneses : s.geneses.length ≤ 255
  supplemented : s.suppl.length ≤ 255
  supplements : ∀ r l, OMap.get? s.suppl r = some l → l.length ≤ 255
  sigs : ∀ c l, s.sigsFor c = some l → 1 ≤ l.length ∧ l.length ≤ 10

theorem stLimits_empty : StLimits {} :=
  ⟨by simp, (by intro _ _ h; cases h), by simp, by simp, by simp, (by intro _ _ h; cases h), (by intro _ _ h; cases h)⟩

theorem pushSigs_limits (l : List (Nat × Nat)) {ids : OMap Nat TrustLevel} {m : OMap Nat Nat} (hm : m.length ≤ 10) :
    (pushSigs ids m l).2.1.length ≤ 10 ∧ (1 ≤ m.length → 1 ≤ (pushSigs ids m l).2.1.length) := by
  induction l generalizing ids m with
  | nil => exact ⟨hm, id⟩
  | cons e l ih =>
    obtain ⟨i, sg⟩ := e
    simp only [pushSigs]
    split
    · split
      · exact ⟨hm, id⟩
      · rename_i h
        have h1 := Stock.length_insert_le m i sg
        have h2 : 1 ≤ (OMap.insert m i sg).length := by
          have : (OMap.insert m i sg) ≠ [] := by
            intro he
            have := OMap.get?_insert_self m i sg
            rw [he] at this; cases this
          cases hh : OMap.insert m i sg with
          | nil => exact absurd hh this
          | cons _ _ => simp
        obtain ⟨h3, h4⟩ := ih (ids := (acceptSigner ids i).1) (m := OMap.insert m i sg) (by simp only [sigsMax] at h; omega)
        exact ⟨h3, fun _ => h4 h2⟩
    · exact ih hm

theorem stLimits_exec (I : Ids) (s t : MemStash) (hs : StSorted s ∧ StLimits s) (w : StashWrite) (h : w.exec H I s = some t) : StSorted t ∧ StLimits t := by
  refine ⟨stSorted_exec I s t hs.1 w h, ?_⟩
  obtain ⟨ho, hs⟩ := hs
  cases w with
  | schema d =>
    simp only [StashWrite.exec, replaceSchema] at h
    split at h
    · cases h; exact hs
    · split at h <;> cases h
      · exact hs
      · rename_i hl
        have := Stock.length_insert_le s.schemata (I.schema d) ⟨d, []⟩
        exact { hs with
          schemata := (by simp only [tinyMax] at hl; show (OMap.insert _ _ _).length ≤ 255; omega)
          impls := insert_all (P := fun (si : SchemaIfaces) => si.iimpls.length ≤ 255) hs.impls (by simp) }
  | iface d =>
    simp only [StashWrite.exec, replaceIface] at h
    split at h
    · cases h; exact hs
    · split at h <;> cases h
      · exact hs
      · rename_i hl
        have := Stock.length_insert_le s.ifaces (I.iface d) d
        exact { hs with ifaces := (by simp only [tinyMax] at hl; show (OMap.insert _ _ _).length ≤ 255; omega) }
  | iimpl x =>
    simp only [StashWrite.exec, replaceIimpl] at h
    split at h
    · rename_i si d e1 e2
      split at h <;> cases h
      · exact hs
      · rename_i hl
        have h1 := Stock.length_insert_le si.iimpls d.name x
        have h2 : (OMap.insert s.schemata x.schemaId { si with iimpls := OMap.insert si.iimpls d.name x }).length = s.schemata.length :=
          length_insert_same ho.schemata (by simp [OMap.contains, e1])
        exact { hs with
          schemata := (by show (OMap.insert _ _ _).length ≤ 255; rw [h2]; exact hs.schemata)
          impls := insert_all (P := fun (si : SchemaIfaces) => si.iimpls.length ≤ 255) hs.impls
            (by simp only [tinyMax] at hl; show (OMap.insert _ _ _).length ≤ 255; omega) }
    · cases h
  | trust i t => cases h; exact { hs with }
  | supplement x =>
    simp only [StashWrite.exec, addSupplement] at h
    split at h
    · split at h <;> cases h
      · exact hs
      · rename_i hl
        have := Stock.length_insert_le s.suppl x.ref [x]
        exact { hs with
          supplemented := (by simp only [tinyMax] at hl; show (OMap.insert _ _ _).length ≤ 255; omega)
          supplements := insert_all (P := fun (l : OSet SupplDoc) => List.length l ≤ 255) hs.supplements (by simp) }
    · rename_i l e
      split at h <;> cases h
      · exact hs
      · rename_i l' e'
        simp only [tinyPush] at e'
        split at e'
        · cases e'
        · rename_i hl
          cases e'
          have h1 := oset_length_insert l x
          have h2 : (OMap.insert s.suppl x.ref (OSet.insert l x)).length = s.suppl.length := length_insert_same ho.suppl (by simp [OMap.contains, e])
          exact { hs with
            supplemented := (by show (OMap.insert _ _ _).length ≤ 255; rw [h2]; exact hs.supplemented)
            supplements := insert_all (P := fun (l : OSet SupplDoc) => List.length l ≤ 255) hs.supplements (by simp only [tinyMax] at hl; omega) }
  | genesis g =>
    simp only [StashWrite.exec, replaceGenesis] at h
    split at h <;> cases h
    · exact hs
    · rename_i hl
      have := Stock.length_insert_le s.geneses (g.contractId H) g
      exact { hs with geneses := (by simp only [tinyMax] at hl; show (OMap.insert _ _ _).length ≤ 255; omega) }
  | extension e => cases h; exact { hs with }
  | bundle b => cases h; exact { hs with }
  | witness w => cases h; exact { hs with }
  | attachment i b => cases h; exact { hs with }
  | types ts => cases h; exact { hs with }
  | lib l => cases h; exact { hs with }
  | sigs c l =>
    simp only [StashWrite.exec, importSigs] at h
    split at h
    · rename_i m e
      cases h
      have hm := hs.sigs _ _ e
      obtain ⟨h1, h2⟩ := pushSigs_limits l (ids := s.identities) hm.2
      exact { hs with sigs := insert_all (P := fun (l : OMap Nat Nat) => 1 ≤ List.length l ∧ List.length l ≤ 10) hs.sigs ⟨h2 hm.1, h1⟩ }
    · obtain ⟨h1, -⟩ := pushSigs_limits l (ids := s.identities) (m := []) (by simp)
      split at h
      · rename_i hc
        cases h
        simp only [Bool.and_eq_true, Bool.not_eq_true', List.isEmpty_eq_false_iff] at hc
        refine { hs with sigs := insert_all (P := fun (l : OMap Nat Nat) => 1 ≤ List.length l ∧ List.length l ≤ 10) hs.sigs ⟨?_, h1⟩ }
        exact List.length_pos_iff.mpr hc.2
      · cases h
        exact { hs with }
  | secretSeal x => cases h; exact { hs with }

/-! ### The index -/

structure IdxLimits (x : Index) : Prop where
  contracts : x.contracts.length ≤ 255
  witnesses : ∀ b l, OMap.get? x.bundleWitness b = some l → l.length ≤ 255
  terminals : ∀ s l, OMap.get? x.terminals s = some l → l.length ≤ 255

theorem idxLimits_empty : IdxLimits {} := ⟨by simp, fun _ _ h => (by cases h), fun _ _ h => (by cases h)⟩

theorem addTerminal_limits (m : OMap Nat (OSet Opout)) (secret : Nat) (o : Opout) (h : ∀ s l, OMap.get? m s = some l → l.length ≤ 255) :
    ∀ s l, OMap.get? (addTerminal m secret o).1 s = some l → l.length ≤ 255 := by
  simp only [addTerminal, tinyPush]
  split
  · rename_i ex hex
    split
    · exact erase_all (P := fun (l : OSet Opout) => List.length l ≤ 255) h _
    · rename_i set hset
      split at hset
      · cases hset
      · rename_i hl
        cases hset
        have := oset_length_insert ex o
        exact insert_all (P := fun (l : OSet Opout) => List.length l ≤ 255) (erase_all h _) (by simp only [tinyMax] at hl; omega)
  · exact insert_all (P := fun (l : OSet Opout) => List.length l ≤ 255) (erase_all h _) (by simp)

theorem extendTerminals_limits (opid ty : Nat) (items : List Assign) (no : Nat) (m : OMap Nat (OSet Opout))
    (h : ∀ s l, OMap.get? m s = some l → l.length ≤ 255) :
    ∀ s l, OMap.get? (extendTerminals opid ty items no m).1 s = some l → l.length ≤ 255 := by
  induction items generalizing no m with
  | nil => exact h
  | cons a items ih =>
    simp only [extendTerminals]
    split
    · exact ih _ _ h
    · rename_i secret _
      have hs := addTerminal_limits m secret ⟨opid, ty, no⟩ h
      split
      · rename_i e; rw [e] at hs; exact hs
      · rename_i e; rw [e] at hs; exact ih _ _ hs

theorem call_limits {x : Index} (ho : IdxSorted x) (h : IdxLimits x) (call : IdxCall) : IdxLimits (call.exec x).1 := by
  cases call with
  | registerContract c =>
    simp only [IdxCall.exec, registerContract]
    split
    · exact h
    · split
      · exact h
      · rename_i hl
        have := Stock.length_insert_le x.contracts c {}
        exact { h with contracts := (by simp only [tinyMax] at hl; show (OMap.insert _ _ _).length ≤ 255; omega) }
  | registerBundle b w c =>
    simp only [IdxCall.exec, registerBundle, tinyPush]
    split
    · exact h
    · have hw : ((OMap.get? x.bundleWitness b).getD []).length ≤ 255 := by
        cases e : OMap.get? x.bundleWitness b with
        | none => simp
        | some l => exact h.witnesses b l e
      split
      · exact { h with witnesses := insert_all (P := fun (l : OSet WitnessId) => List.length l ≤ 255) h.witnesses hw }
      · rename_i ws' hws
        split at hws
        · cases hws
        · rename_i hl
          cases hws
          have := oset_length_insert ((OMap.get? x.bundleWitness b).getD []) w
          exact { h with witnesses := insert_all (P := fun (l : OSet WitnessId) => List.length l ≤ 255) h.witnesses (by simp only [tinyMax] at hl; omega) }
  | registerOperation o b =>
    simp only [IdxCall.exec, registerOperation]
    split
    · exact h
    · exact { h with }
  | assignments c w items opid ty =>
    simp only [IdxCall.exec, indexAssignments]
    split
    · exact h
    · rename_i ci hci
      have ht := extendTerminals_limits opid ty items 0 x.terminals h.terminals
      have hx : (OMap.insert x.contracts c { ci with outs := (indexOuts w opid ty items 0 ci.outs).1 }).length ≤ 255 := by
        rw [length_insert_same ho.con (by simp [OMap.contains, hci])]; exact h.contracts
      split
      · exact { h with contracts := hx }
      · exact { h with contracts := hx, terminals := ht }

theorem calls_limits (calls : List IdxCall) {x : Index} (ho : IdxSorted x) (h : IdxLimits x) : IdxLimits (IdxCall.execAll x calls).1 := by
  induction calls generalizing x with
  | nil => exact h
  | cons call calls ih =>
    have h1 := call_limits ho h call
    have h2 := call_sorted ho call
    simp only [IdxCall.execAll]
    split
    · rename_i e; rw [e] at h1; exact h1
    · rename_i e; rw [e] at h1 h2; exact ih h2 h1

theorem run_limits (H : Commit) (ops : List IdxOp) {x : Index} (ho : IdxSorted x) (h : IdxLimits x) : IdxLimits (runIdx H x ops) := by
  induction ops generalizing x with
  | nil => exact h
  | cons op ops ih =>
    simp only [runIdx]
    refine ih ?_ ?_
    · rw [IdxOp.exec_eq]; exact calls_sorted _ ho
    · rw [IdxOp.exec_eq]; exact calls_limits _ ho h

/-! ### The state -/

theorem stCall_limits {s t : MemState} {call : StCall} {e : Option StErr} (hs : OMap.Sorted s.contracts) (hl : s.contracts.length ≤ 255)
    (h : call.exec H s = some (t, e)) : t.contracts.length ≤ 255 := by
  have key : ∀ c op w ord ow, s.addOp H c op w ord ow = some (t, e) → t.contracts.length ≤ 255 := by
    intro c op w ord ow h
    simp only [MemState.addOp] at h
    split at h
    · cases h; exact hl
    · rename_i cs hcs
      obtain ⟨cs', -, h⟩ := Option.map_eq_some_iff.mp h
      cases h
      show (OMap.insert _ _ _).length ≤ 255
      rw [length_insert_same hs (by simp [OMap.contains, hcs])]; exact hl
  cases call with
  | register sch g =>
    simp only [StCall.exec, MemState.registerContract] at h
    split at h
    · rename_i cs hcs
      obtain ⟨cs', -, h⟩ := Option.map_eq_some_iff.mp h
      cases h
      show (OMap.insert _ _ _).length ≤ 255
      rw [length_insert_same hs (by simp [OMap.contains, hcs])]; exact hl
    · split at h
      · cases h; exact hl
      · rename_i hn
        obtain ⟨cs', -, h⟩ := Option.map_eq_some_iff.mp h
        cases h
        have := Stock.length_insert_le s.contracts (g.contractId H) cs'
        simp only [tinyMax] at hn
        show (OMap.insert _ _ _).length ≤ 255
        omega
  | transition c op w ord => exact key _ _ _ _ _ h
  | extension c op w ord => exact key _ _ _ _ _ h

theorem runSt_limits {s t : MemState} {es : List StEvent} (hp : EventsProper es) (hs : StInv s) (hl : s.contracts.length ≤ 255)
    (h : runSt H s es = some t) : t.contracts.length ≤ 255 := by
  induction es generalizing s with
  | nil => simp only [runSt, Option.some.injEq] at h; subst h; exact hl
  | cons e es ih =>
    have hp' : EventsProper es := fun c hc => hp c (List.mem_cons_of_mem _ hc)
    cases e with
    | update r after => exact ih hp' (update_inv hs r after) hl h
    | call call =>
      obtain ⟨s₁, e, he, hr⟩ := run_cons_call h
      refine ih hp' ?_ (stCall_limits hs.contracts hl he) hr
      rcases exec_spec (hp call List.mem_cons_self) he with ⟨-, hc⟩ | ⟨-, rfl⟩
      · exact hc.inv hs
      · exact hs

/-! ### Refusing only if full -/

def StFull (s : MemStash) : Prop := ∀ t x, Stock.Full ⟨s, t, x⟩

/-- An error for a lack of room is returned only with a full collection. -/
def Refuses {α : Type} (x : SR α) : Prop := ∀ t, x = some (t, .error .confinement) → StSorted t ∧ StLimits t → StFull t

theorem Refuses.bind {α β : Type} {x : SR α} {f : MemStash → α → SR β} (hx : Refuses x) (hf : ∀ s a, Refuses (f s a)) : Refuses (SR.bind x f) := by
  intro t h
  cases x with
  | none => cases h
  | some p =>
    obtain ⟨s, r⟩ := p
    cases r with
    | error e =>
      simp only [SR.bind, Option.some.injEq, Prod.mk.injEq, Except.error.injEq] at h
      obtain ⟨rfl, rfl⟩ := h
      exact hx _ rfl
    | ok a => exact hf s a t h

theorem Refuses.each {α β : Type} {f : MemStash → α → SR β} (hf : ∀ s a, Refuses (f s a)) (l : List α) (s : MemStash) : Refuses (SR.each f l s) := by
  induction l generalizing s with
  | nil => intro t h; cases h
  | cons a l ih => exact (hf s a).bind (fun s _ => ih s)

theorem Refuses.never {α : Type} {x : SR α} (h : ∀ t, x ≠ some (t, .error .confinement)) : Refuses x := fun t ht => absurd ht (h t)

theorem refuses_genesis (s : MemStash) (g : Op) : Refuses (s.replaceGenesis H g) := by
  intro t h hl
  simp only [replaceGenesis] at h
  split at h <;> cases h
  rename_i hn
  have := hl.2.geneses
  simp only [tinyMax] at hn
  exact fun _ _ => .geneses (Nat.le_antisymm this hn)

theorem refuses_schema (I : Ids) (s : MemStash) (d : SchemaDoc) : Refuses (s.replaceSchema I d) := by
  intro t h hl
  simp only [replaceSchema] at h
  split at h
  · cases h
  · split at h <;> cases h
    rename_i hn
    have := hl.2.schemata
    simp only [tinyMax] at hn
    exact fun _ _ => .schemata (Nat.le_antisymm this hn)

theorem refuses_iface (I : Ids) (s : MemStash) (d : IfaceDoc) : Refuses (s.replaceIface I d) := by
  intro t h hl
  simp only [replaceIface] at h
  split at h
  · cases h
  · split at h <;> cases h
    rename_i hn
    have := hl.2.ifaces
    simp only [tinyMax] at hn
    exact fun _ _ => .ifaces (Nat.le_antisymm this hn)

theorem refuses_iimpl (s : MemStash) (x : IimplDoc) : Refuses (s.replaceIimpl x) := by
  intro t h hl
  simp only [replaceIimpl] at h
  split at h
  · rename_i si d e1 e2
    split at h <;> cases h
    rename_i hn
    have := hl.2.impls _ _ e1
    simp only [tinyMax] at hn
    exact fun _ _ => .impls _ si e1 (by omega)
  · cases h

theorem refuses_supplement (s : MemStash) (x : SupplDoc) : Refuses (s.addSupplement x) := by
  intro t h hl
  simp only [addSupplement] at h
  split at h
  · split at h <;> cases h
    rename_i hn
    have := hl.2.supplemented
    simp only [tinyMax] at hn
    exact fun _ _ => .supplemented (Nat.le_antisymm this hn)
  · rename_i l e
    split at h <;> cases h
    rename_i e'
    simp only [tinyPush] at e'
    split at e'
    · rename_i hn
      have := hl.2.supplements _ _ e
      simp only [tinyMax] at hn
      exact fun _ _ => .supplements x.ref (by show ((OMap.get? s.suppl x.ref).getD []).length = 255; rw [e]; simp only [Option.getD_some]; omega)
    · cases e'

theorem refuses_importAllSigs (l : List (Nat × List (Nat × Nat))) (s : MemStash) : Refuses (importAllSigs l s) := by
  induction l generalizing s with
  | nil => intro t h; cases h
  | cons e l ih =>
    obtain ⟨c, m⟩ := e
    intro t h
    simp only [importAllSigs] at h
    split at h
    · cases h
    · exact ih _ t h

theorem refuses_kit (I : Ids) (s : MemStash) (k : Kit) : Refuses (s.consumeKit I k) := by
  refine Refuses.bind (.never (by intro t h; cases h)) fun _ _ => ?_
  refine Refuses.bind (.each (fun _ _ => .never (by intro t h; cases h)) _ _) fun _ _ => ?_
  refine Refuses.bind (.each (refuses_schema I) _ _) fun _ _ => ?_
  refine Refuses.bind (.each (refuses_iface I) _ _) fun _ _ => ?_
  refine Refuses.bind (.each refuses_iimpl _ _) fun _ _ => ?_
  refine Refuses.bind (.each refuses_supplement _ _) fun _ _ => ?_
  exact refuses_importAllSigs _ _

theorem refuses_bundle (s : MemStash) (b : Bundle) : Refuses (s.consumeBundle H b) := by
  refine .never fun t h => ?_
  simp only [consumeBundle] at h
  split at h
  · cases h
  · split at h <;> cases h

theorem refuses_witness (s : MemStash) (w : SealWitness) : Refuses (s.consumeWitness w) := by
  refine .never fun t h => ?_
  simp only [consumeWitness] at h
  split at h
  · cases h
  · split at h
    · cases h
    · split at h <;> cases h

theorem refuses_anchored (M : Mpc) (c : Nat) (l : List ClientBundle) (s : MemStash) : Refuses (consumeAnchored H M c l s) := by
  induction l generalizing s with
  | nil => intro t h; cases h
  | cons b l ih =>
    refine Refuses.bind (refuses_bundle _ _) fun s a => ?_
    cases M.block b.mpc c (b.bundle.id H) with
    | none => exact .never (by intro t h; cases h)
    | some p => exact Refuses.bind (ih _) fun _ _ => .never (by intro t h; cases h)

theorem refuses_consignment (I : Ids) (M : Mpc) (s : MemStash) (con : Consignment) : Refuses (s.consumeConsignment H I M con) := by
  refine Refuses.bind ?_ fun _ _ => ?_
  · intro t h
    simp only [consumeGenesis] at h
    split at h
    · exact refuses_genesis _ _ t h
    · split at h
      · cases h
      · exact refuses_genesis _ _ t h
  refine Refuses.bind (.each (fun s e => ?_) _ _) fun _ _ => ?_
  · refine .never fun t h => ?_
    simp only [consumeExtension] at h
    split at h
    · cases h
    · split at h <;> cases h
  refine Refuses.bind (.each (fun s w => ?_) _ _) fun _ _ => ?_
  · refine Refuses.bind (refuses_anchored _ _ _ _) fun s a => ?_
    cases anchorSetOf a with
    | none => exact .never (by intro t h; cases h)
    | some y => exact refuses_witness _ _
  refine Refuses.bind (.each (fun _ _ => .never (by intro t h; cases h)) _ _) fun _ _ => ?_
  exact refuses_kit _ _ _

/-- There are 255 different outputs, hidden under one secret, of those in the index and the new ones. -/
def ManyHidden (F : Nat → Opout → Prop) (m : OMap Nat (OSet Opout)) : Prop :=
  ∃ (s : Nat) (l : List Opout), l.Nodup ∧ l.length = 255 ∧ ∀ o ∈ l, o ∈ mset m s ∨ F s o

theorem addTerminal_full {m : OMap Nat (OSet Opout)} {s : Nat} {o : Opout} (hs : ∀ s l, OMap.get? m s = some l → OSet.Sorted l) (hl : ∀ s l, OMap.get? m s = some l → l.length ≤ 255)
    {m' : OMap Nat (OSet Opout)} {e : IdxErr} (h : addTerminal m s o = (m', some e)) : (mset m s).Nodup ∧ (mset m s).length = 255 := by
  simp only [addTerminal, tinyPush] at h
  split at h
  · rename_i ex hex
    split at h
    · rename_i hn
      split at hn
      · rename_i hge
        have := hl _ _ hex
        simp only [tinyMax] at hge
        simp only [mset, hex, Option.getD_some]
        exact ⟨(hs _ _ hex).imp (fun h e => (Key.lt_ne h e).elim), by omega⟩
      · cases hn
    · cases h
  · cases h

theorem extendTerminals_full (opid ty : Nat) (items : List Assign) (no : Nat) {m : OMap Nat (OSet Opout)}
    (hs : OMap.Sorted m ∧ ∀ s l, OMap.get? m s = some l → OSet.Sorted l) (hl : ∀ s l, OMap.get? m s = some l → l.length ≤ 255)
    (h : (extendTerminals opid ty items no m).2 ≠ none) : ManyHidden (ItemSecret opid ty no items) m := by
  induction items generalizing no m with
  | nil => exact absurd rfl h
  | cons a items ih =>
    simp only [extendTerminals] at h
    split at h
    · obtain ⟨s, l, h1, h2, h3⟩ := ih (no + 1) hs hl h
      exact ⟨s, l, h1, h2, fun o ho => (h3 o ho).imp id (fun h => itemSecret_cons.mpr (.inr h))⟩
    · rename_i secret hsec
      have h1 := addTerminal_sorted m secret ⟨opid, ty, no⟩ hs
      have h2 := addTerminal_limits m secret ⟨opid, ty, no⟩ hl
      split at h
      · rename_i m' e he
        obtain ⟨h3, h4⟩ := addTerminal_full hs.2 hl he
        exact ⟨secret, _, h3, h4, fun o ho => .inl ho⟩
      · rename_i m' he
        rw [he] at h1 h2
        obtain ⟨s, l, g1, g2, g3⟩ := ih (no + 1) h1 h2 h
        refine ⟨s, l, g1, g2, fun o ho => ?_⟩
        rcases g3 o ho with g | g
        · have hm : o ∈ mset m s ∨ (s = secret ∧ o = ⟨opid, ty, no⟩) := by
            simp only [addTerminal, tinyPush] at he
            split at he
            · rename_i ex hex
              split at he
              · cases he
              · rename_i set hset
                split at hset
                · cases hset
                · cases hset
                  simp only [Prod.mk.injEq, and_true] at he
                  subst he
                  rw [mset_insert] at g
                  split at g
                  · rename_i hss
                    subst hss
                    rcases OSet.mem_insert.mp g with g | g
                    · exact .inr ⟨rfl, g⟩
                    · exact .inl (by simp [mset, hex, g])
                  · rename_i hss
                    rw [mset_erase, if_neg hss] at g
                    exact .inl g
            · simp only [Prod.mk.injEq, and_true] at he
              subst he
              rw [mset_insert] at g
              split at g
              · rename_i hss
                exact .inr ⟨hss, List.mem_singleton.mp g⟩
              · rename_i hss
                rw [mset_erase, if_neg hss] at g
                exact .inl g
          rcases hm with hm | ⟨rfl, rfl⟩
          · exact .inl hm
          · exact .inr (itemSecret_cons.mpr (.inl ⟨hsec, rfl⟩))
        · exact .inr (itemSecret_cons.mpr (.inr g))

def IdxFull (x : Index) : Prop := ∀ s t, Stock.Full ⟨s, t, x⟩

theorem call_full {x : Index} (ho : IdxSorted x) (hl : IdxLimits x) {call : IdxCall} (h : (call.exec x).2 = some .confinement) :
    IdxFull (call.exec x).1 ∨ ManyHidden (callSecret call) x.terminals := by
  cases call with
  | registerContract c =>
    simp only [IdxCall.exec, registerContract] at h ⊢
    split at h
    · cases h
    · rename_i h1
      split at h
      · rename_i hn
        have := hl.contracts
        simp only [tinyMax] at hn
        rw [if_neg h1, if_pos (show x.contracts.length ≥ tinyMax from hn)]
        exact .inl fun _ _ => .indexed (Nat.le_antisymm this hn)
      · cases h
  | registerBundle b w c =>
    left
    simp only [IdxCall.exec, registerBundle] at h ⊢
    split at h
    · cases h
    · rename_i h1
      split at h
      · rename_i hn
        simp only [tinyPush] at hn
        split at hn
        · rename_i hge
          have hw : ((OMap.get? x.bundleWitness b).getD []).length ≤ 255 := by
            cases e : OMap.get? x.bundleWitness b with
            | none => simp
            | some l => exact hl.witnesses b l e
          simp only [tinyMax] at hge
          exact fun _ _ => .witnesses b _ (OMap.get?_insert_self _ _ _) (by show List.length _ = 255; omega)
        · cases hn
      · cases h
  | registerOperation o b =>
    simp only [IdxCall.exec, registerOperation] at h
    split at h <;> cases h
  | assignments c w items opid ty =>
    right
    simp only [IdxCall.exec, indexAssignments] at h
    split at h
    · cases h
    · rename_i ci hci
      split at h
      · rename_i e he
        exfalso
        have key : ∀ (items : List Assign) no m, (indexOuts w opid ty items no m).2 ≠ some .confinement := by
          intro items
          induction items with
          | nil => intro no m h; cases h
          | cons a items ih =>
            intro no m h
            simp only [indexOuts] at h
            split at h
            · exact ih _ _ h
            · split at h
              · cases h
              · exact ih _ _ h
        simp only [Option.some.injEq] at h
        rw [h] at he
        exact key _ _ _ he
      · exact extendTerminals_full opid ty items 0 ⟨ho.term, ho.secrets⟩ hl.terminals (by simp only at h; rw [h]; simp)

theorem calls_full (calls : List IdxCall) {x : Index} (ho : IdxSorted x) (hl : IdxLimits x) (h : (IdxCall.execAll x calls).2 = some .confinement) :
    IdxFull (IdxCall.execAll x calls).1 ∨ ManyHidden (anySecret calls) x.terminals := by
  induction calls generalizing x with
  | nil => cases h
  | cons call calls ih =>
    have h1 := call_limits ho hl call
    have h2 := call_sorted ho call
    have h3 := exec_effect x call
    simp only [IdxCall.execAll] at h ⊢
    split at h
    · rename_i x' e he
      have := call_full ho hl (call := call) (by rw [he]; exact h)
      simp only [he] at this ⊢
      exact this.imp id fun ⟨s, l, g1, g2, g3⟩ => ⟨s, l, g1, g2, fun o hm => (g3 o hm).imp id fun g => ⟨call, .head _, g⟩⟩
    · rename_i x' he
      rw [he] at h1 h2 h3
      refine (ih h2 h1 h).imp id fun ⟨s, l, g1, g2, g3⟩ => ⟨s, l, g1, g2, fun o hm => ?_⟩
      rcases g3 o hm with g | ⟨c, hc, g⟩
      · exact (h3.tm.sound s o g).imp id fun g => ⟨call, .head _, g⟩
      · exact .inr ⟨c, .tail _ hc, g⟩

/-- An operation of the index is refused for a lack of room. -/
theorem op_full {x : Index} (ho : IdxSorted x) (hl : IdxLimits x) (op : IdxOp) (h : (op.exec H x).2 = some .confinement) :
    IdxFull (op.exec H x).1 ∨ ManyHidden (op.Secret H) x.terminals := by
  rw [IdxOp.exec_eq] at h ⊢
  have h2 : anySecret (op.calls H) = op.Secret H := by funext s o; exact propext calls_secret
  rw [← h2]
  exact calls_full _ ho hl h

theorem stCall_full {s t : MemState} {call : StCall} (h : call.exec H s = some (t, some .confinement)) : 255 ≤ t.contracts.length := by
  have key : ∀ c op w ord ow, s.addOp H c op w ord ow ≠ some (t, some .confinement) := by
    intro c op w ord ow h
    simp only [MemState.addOp] at h
    split at h
    · cases h
    · obtain ⟨cs', -, h⟩ := Option.map_eq_some_iff.mp h
      cases h
  cases call with
  | register sch g =>
    simp only [StCall.exec, MemState.registerContract] at h
    split at h
    · obtain ⟨cs', -, h⟩ := Option.map_eq_some_iff.mp h
      cases h
    · split at h
      · rename_i hn
        cases h
        exact hn
      · obtain ⟨cs', -, h⟩ := Option.map_eq_some_iff.mp h
        cases h
  | transition c op w ord => exact absurd h (key _ _ _ _ _)
  | extension c op w ord => exact absurd h (key _ _ _ _ _)

theorem stCalls_full (calls : List StCall) {s t : MemState} (h : StCall.execAll H s calls = some (t, some .confinement)) : 255 ≤ t.contracts.length := by
  induction calls generalizing s with
  | nil => cases h
  | cons call calls ih =>
    simp only [StCall.execAll] at h
    split at h
    · cases h
    · rename_i s' e he
      cases h
      exact stCall_full he
    · exact ih h

theorem transitionLoop_err (c : Nat) (exts : List Nat) (r : Resolver) (l : List (Op × WitnessId)) (used : OMap Nat (WitnessId × WitnessOrd)) :
    (transitionLoop H c exts r l used).2.2 ≠ some .confinement := by
  induction l generalizing used with
  | nil => intro h; cases h
  | cons a l ih =>
    obtain ⟨t, w⟩ := a
    simp only [transitionLoop]
    split
    · intro h; cases h
    · exact ih _

theorem consignmentSt_full {s t : MemState} {sch : SchemaGlobals} {d : ConsignmentData} {r : Resolver}
    (h : s.updateFromConsignment H sch d r = some (t, some .confinement)) : 255 ≤ t.contracts.length := by
  simp only [MemState.updateFromConsignment] at h
  obtain ⟨⟨t', o⟩, h1, h2⟩ := Option.map_eq_some_iff.mp h
  simp only [Prod.mk.injEq] at h2
  obtain ⟨rfl, h2⟩ := h2
  cases o with
  | some e =>
    simp only [Option.some_or, Option.some.injEq] at h2
    subst h2
    exact stCalls_full _ h1
  | none =>
    simp only [Option.none_or, consignmentStCalls] at h2
    split at h2
    · rename_i e he
      exact absurd (he.trans h2) (transitionLoop_err _ _ _ _ _)
    · cases h2

theorem bundleSt_full {s t : MemState} {c : Nat} {b : Bundle} {w : WitnessId} {r : Resolver}
    (h : s.updateFromBundle H c b w r = some (t, some .confinement)) : 255 ≤ t.contracts.length := by
  simp only [MemState.updateFromBundle] at h
  split at h
  · split at h
    · cases h
    · split at h
      · cases h
      · exact stCalls_full _ h
  · cases h

theorem resolve_never (s : MemStash) (con : Consignment) (e : StashErr) : s.resolveSecrets H con ≠ .error e := by
  have h1 : ∀ (ts : List (Nat × Nat)) (w : WitnessBundle), w.revealTerminals H (fun sec => Except.ok (ε := StashErr) (s.sealSecret H sec)) ts ≠ .error e := by
    intro ts
    induction ts with
    | nil => intro w h; cases h
    | cons t ts ih =>
      obtain ⟨b, sec⟩ := t
      intro w h
      simp only [WitnessBundle.revealTerminals] at h
      cases e1 : s.sealSecret H sec with
      | none => simp only [e1] at h; exact ih _ h
      | some sl => simp only [e1] at h; exact ih _ h
  have h2 : ∀ ws : List WitnessBundle, revealTerminalSeals H (fun sec => Except.ok (ε := StashErr) (s.sealSecret H sec)) con.terminals ws ≠ .error e := by
    intro ws
    induction ws with
    | nil => intro h; cases h
    | cons w ws ih =>
      intro h
      simp only [revealTerminalSeals] at h
      split at h
      · rename_i e' he; cases h; exact h1 _ _ he
      · split at h
        · rename_i e' he; cases h; exact ih he
        · cases h
  intro h
  simp only [resolveSecrets] at h
  split at h
  · rename_i e' he; cases h; exact h2 _ he
  · cases h

/-- What holds for a stock as long as nothing has outgrown its limit. -/
structure Roomy (k : Stock) : Prop where
  stash : StSorted k.stash ∧ StLimits k.stash
  idx : IdxSorted k.index
  index : IdxLimits k.index
  state : k.state.contracts.length ≤ 255

theorem history_roomy (hH : H.Binding) {I : Ids} {M : Mpc} {G : SchemaDoc → SchemaGlobals} (hG : ∀ d, OMap.Sorted (G d).maxItems)
    {es : List StockEvent} (he : ∀ e ∈ es, StockEvent.Proper H e) {k : Stock} (hr : runStock H I M G es .empty = some k) : Roomy k := by
  have hh := Stock.Reachable.hist hH ⟨I, M, G, es, hG, he, hr⟩
  obtain ⟨ops, ho⟩ := hh.index
  obtain ⟨es', hp, ht⟩ := hh.state
  refine ⟨?_, ?_, ?_, ?_⟩
  · exact writes_keep (Φ := fun s => StSorted s ∧ StLimits s) (fun s t w h1 h2 => stLimits_exec I s t h1 w h2) (runStock_writes es hr) ⟨stSorted_empty, stLimits_empty⟩
  · rw [ho]; exact run_sorted H ops idxSorted_empty
  · rw [ho]; exact run_limits H ops idxSorted_empty idxLimits_empty
  · exact runSt_limits hp stInv_empty (by simp) ht

theorem fasciaBundles_full (r : Resolver) (w : WitnessId) (bs : List (Nat × Bundle)) {k k' : Stock} (ho : IdxSorted k.index) (hl : IdxLimits k.index)
    (hs : StSorted k'.stash ∧ StLimits k'.stash) (ht : k'.state.contracts.length ≤ 255) {e : StockErr}
    (h : Stock.fasciaBundles H r w bs k = some (k', some e)) (hn : e.noRoom = true) :
    k'.Full ∨ ManyHidden (fun s o => ∃ c b, (c, b) ∈ bs ∧ IdxOp.Secret H (.bundle c b w) s o) k.index.terminals := by
  induction bs generalizing k with
  | nil => cases h
  | cons cb bs ih =>
    obtain ⟨c, b⟩ := cb
    simp only [Stock.fasciaBundles] at h
    split at h
    · cases h; cases hn
    · have h1 : IdxSorted ((IdxOp.bundle c b w).exec H k.index).1 := by rw [IdxOp.exec_eq]; exact calls_sorted _ ho
      have h2 : IdxLimits ((IdxOp.bundle c b w).exec H k.index).1 := by rw [IdxOp.exec_eq]; exact calls_limits _ ho hl
      have h3 := op_effect H k.index (.bundle c b w)
      have h4 := op_full ho hl (.bundle c b w) (H := H)
      simp only [IdxOp.exec] at h1 h2 h3 h4
      split at h
      · rename_i x e' he
        cases h
        rw [he] at h4
        cases e' <;> simp [StockErr.noRoom] at hn
        exact (h4 rfl).imp (fun g => g _ _) fun ⟨s, l, g1, g2, g3⟩ => ⟨s, l, g1, g2, fun o ho => (g3 o ho).imp id fun g => ⟨c, b, .head _, g⟩⟩
      · rename_i x he
        rw [he] at h1 h2 h3
        split at h
        · cases h
        · rename_i t e' he'
          cases h
          left
          cases e' <;> simp [StockErr.noRoom] at hn
          exact .contracts (Nat.le_antisymm ht (bundleSt_full he'))
        · split at h
          · cases h
          · rename_i s e' he'
            cases h
            left
            cases e' <;> simp [StockErr.noRoom] at hn
            exact refuses_bundle _ _ _ he' hs _ _
          · refine (ih h1 h2 h).imp id fun ⟨s, l, g1, g2, g3⟩ => ⟨s, l, g1, g2, fun o hm => ?_⟩
            rcases g3 o hm with g | ⟨c', b', g, g'⟩
            · exact (h3.tm.sound s o g).imp id fun g => ⟨c, b, .head _, g⟩
            · exact .inr ⟨c', b', .tail _ g, g'⟩

end Rgb
