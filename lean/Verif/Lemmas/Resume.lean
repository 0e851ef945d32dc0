import Verif.Lemmas.Issue
import Verif.Lemmas.ReceiveIndex

/-!
Indexing and adding to the state what is there already.
-/

namespace Rgb
open Index

theorem OSet.insert_mem {α : Type} [Key α] [DecidableEq α] {s : OSet α} (hs : OSet.Sorted s) {a : α} (h : a ∈ s) : OSet.insert s a = s :=
  OSet.Sorted.ext (hs.insert a) hs (fun x => by rw [OSet.mem_insert]; exact ⟨fun h' => h'.elim (fun e => e ▸ h) id, .inr⟩)

/-! ### Order of everything in the index -/

/-- All maps and sets of the index are ordered. -/
structure IdxSorted (x : Index) : Prop where
  op : OMap.Sorted x.opBundle
  bc : OMap.Sorted x.bundleContract
  bw : OMap.Sorted x.bundleWitness
  con : OMap.Sorted x.contracts
  term : OMap.Sorted x.terminals
  ws : ∀ b ws, OMap.get? x.bundleWitness b = some ws → OSet.Sorted ws
  outs : ∀ c ci, OMap.get? x.contracts c = some ci → OMap.Sorted ci.outs ∧ ∀ s l, OMap.get? ci.outs s = some l → OSet.Sorted l
  secrets : ∀ s l, OMap.get? x.terminals s = some l → OSet.Sorted l

theorem idxSorted_empty : IdxSorted {} :=
  ⟨.nil, .nil, .nil, .nil, .nil, fun _ _ h => (by cases h), fun _ _ h => (by cases h), fun _ _ h => (by cases h)⟩

theorem getD_sorted {κ α : Type} [Key κ] [DecidableEq κ] [Key α] {m : OMap κ (OSet α)} (h : ∀ k l, OMap.get? m k = some l → OSet.Sorted l) (k : κ) :
    OSet.Sorted ((OMap.get? m k).getD []) := by
  cases e : OMap.get? m k with
  | none => exact List.Pairwise.nil
  | some l => exact h k l e

theorem insert_all {κ ν : Type} [Key κ] [DecidableEq κ] {P : ν → Prop} {m : OMap κ ν} (h : ∀ k l, OMap.get? m k = some l → P l) {k : κ} {v : ν}
    (hv : P v) : ∀ k' l, OMap.get? (OMap.insert m k v) k' = some l → P l := by
  intro k' l hl
  rw [OMap.get?_insert] at hl
  split at hl
  · cases hl; exact hv
  · exact h k' l hl

theorem erase_all {κ ν : Type} [Key κ] [DecidableEq κ] {P : ν → Prop} {m : OMap κ ν} (h : ∀ k l, OMap.get? m k = some l → P l) (k : κ) :
    ∀ k' l, OMap.get? (OMap.erase m k) k' = some l → P l := by
  intro k' l hl
  rw [OMap.get?_erase] at hl
  split at hl
  · cases hl
  · exact h k' l hl

theorem indexOuts_sorted (w : Option WitnessId) (opid ty : Nat) (items : List Assign) (no : Nat) (m : OMap OutSeal (OSet Opout))
    (h : OMap.Sorted m ∧ ∀ s l, OMap.get? m s = some l → OSet.Sorted l) :
    OMap.Sorted (indexOuts w opid ty items no m).1 ∧ ∀ s l, OMap.get? (indexOuts w opid ty items no m).1 s = some l → OSet.Sorted l := by
  induction items generalizing no m with
  | nil => exact h
  | cons a items ih =>
    simp only [indexOuts]
    split
    · exact ih _ _ h
    · split
      · exact h
      · exact ih _ _ ⟨h.1.insert _ _, insert_all h.2 ((getD_sorted h.2 _).insert _)⟩

theorem addTerminal_sorted (m : OMap Nat (OSet Opout)) (secret : Nat) (o : Opout)
    (h : OMap.Sorted m ∧ ∀ s l, OMap.get? m s = some l → OSet.Sorted l) :
    OMap.Sorted (addTerminal m secret o).1 ∧ ∀ s l, OMap.get? (addTerminal m secret o).1 s = some l → OSet.Sorted l := by
  simp only [addTerminal, tinyPush]
  split
  · rename_i ex hex
    split
    · exact ⟨h.1.erase _, erase_all h.2 _⟩
    · rename_i set hset
      split at hset
      · cases hset
      · cases hset
        exact ⟨(h.1.erase _).insert _ _, insert_all (erase_all h.2 _) ((h.2 _ _ hex).insert _)⟩
  · exact ⟨(h.1.erase _).insert _ _, insert_all (erase_all h.2 _) (List.pairwise_singleton _ _)⟩

theorem extendTerminals_sorted (opid ty : Nat) (items : List Assign) (no : Nat) (m : OMap Nat (OSet Opout))
    (h : OMap.Sorted m ∧ ∀ s l, OMap.get? m s = some l → OSet.Sorted l) :
    OMap.Sorted (extendTerminals opid ty items no m).1 ∧ ∀ s l, OMap.get? (extendTerminals opid ty items no m).1 s = some l → OSet.Sorted l := by
  induction items generalizing no m with
  | nil => exact h
  | cons a items ih =>
    simp only [extendTerminals]
    split
    · exact ih _ _ h
    · rename_i secret _
      have hs := addTerminal_sorted m secret ⟨opid, ty, no⟩ h
      split
      · rename_i e; rw [e] at hs; exact hs
      · rename_i e; rw [e] at hs; exact ih _ _ hs

theorem call_sorted {x : Index} (h : IdxSorted x) (call : IdxCall) : IdxSorted (call.exec x).1 := by
  cases call with
  | registerContract c =>
    simp only [IdxCall.exec, registerContract]
    split
    · exact h
    · split
      · exact h
      · exact { h with con := h.con.insert _ _, outs := insert_all (P := fun ci : ContractIndex => OMap.Sorted ci.outs ∧ ∀ s l, OMap.get? ci.outs s = some l → OSet.Sorted l) h.outs ⟨.nil, fun _ _ h => (by cases h)⟩ }
  | registerBundle b w c =>
    simp only [IdxCall.exec, registerBundle, tinyPush]
    split
    · exact h
    · have hw := getD_sorted h.ws b
      split
      · exact { h with bw := h.bw.insert _ _, ws := insert_all h.ws hw }
      · rename_i ws' hws
        split at hws
        · cases hws
        · cases hws
          exact { h with bw := h.bw.insert _ _, bc := h.bc.insert _ _, ws := insert_all h.ws (hw.insert _) }
  | registerOperation o b =>
    simp only [IdxCall.exec, registerOperation]
    split
    · exact h
    · exact { h with op := h.op.insert _ _ }
  | assignments c w items opid ty =>
    simp only [IdxCall.exec, indexAssignments]
    split
    · exact h
    · rename_i ci hci
      have ho := indexOuts_sorted w opid ty items 0 ci.outs (h.outs c ci hci)
      have ht := extendTerminals_sorted opid ty items 0 x.terminals ⟨h.term, h.secrets⟩
      have hx : IdxSorted { x with contracts := OMap.insert x.contracts c { ci with outs := (indexOuts w opid ty items 0 ci.outs).1 } } :=
        { h with con := h.con.insert _ _, outs := insert_all (P := fun ci : ContractIndex => OMap.Sorted ci.outs ∧ ∀ s l, OMap.get? ci.outs s = some l → OSet.Sorted l) h.outs ho }
      split
      · exact hx
      · exact { hx with term := ht.1, secrets := ht.2 }

theorem calls_sorted (calls : List IdxCall) {x : Index} (h : IdxSorted x) : IdxSorted (IdxCall.execAll x calls).1 := by
  induction calls generalizing x with
  | nil => exact h
  | cons call calls ih =>
    have h1 := call_sorted h call
    simp only [IdxCall.execAll]
    split
    · rename_i e; rw [e] at h1; exact h1
    · rename_i e; rw [e] at h1; exact ih h1

theorem run_sorted (H : Commit) (ops : List IdxOp) {x : Index} (h : IdxSorted x) : IdxSorted (runIdx H x ops) := by
  induction ops generalizing x with
  | nil => exact h
  | cons op ops ih =>
    simp only [runIdx]
    refine ih ?_
    rw [IdxOp.exec_eq]
    exact calls_sorted _ h

/-! ### Repeating the calls -/

/-- There is room in the sets which the call adds to. -/
def CallRoom (x : Index) : IdxCall → Prop
  | .registerBundle b _ _ => (mset x.bundleWitness b).length < 255
  | .assignments _ _ items _ _ => ∀ a ∈ items, ∀ s, hidden? a = some s → (mset x.terminals s).length < 255
  | _ => True

theorem indexOuts_seals {w : Option WitnessId} {opid ty : Nat} {items : List Assign} {no : Nat} {m : OMap OutSeal (OSet Opout)}
    (h : (indexOuts w opid ty items no m).2 = none) : ∀ a ∈ items, ∀ s, a.seal? = some s → (outputSeal w s).isSome = true := by
  induction items generalizing no m with
  | nil => intro a ha; cases ha
  | cons a items ih =>
    simp only [indexOuts] at h
    intro b hb s hs
    split at h
    · rename_i hn
      rcases List.mem_cons.mp hb with rfl | hb
      · rw [hn] at hs; cases hs
      · exact ih h b hb s hs
    · rename_i s' hs'
      split at h
      · cases h
      · rename_i out hout
        rcases List.mem_cons.mp hb with rfl | hb
        · rw [hs'] at hs; cases hs; rw [hout]; rfl
        · exact ih h b hb s hs

theorem indexOuts_known {w : Option WitnessId} {opid ty : Nat} {items : List Assign} {no : Nat} {m : OMap OutSeal (OSet Opout)}
    (hm : OMap.Sorted m ∧ ∀ s l, OMap.get? m s = some l → OSet.Sorted l)
    (hs : ∀ a ∈ items, ∀ s, a.seal? = some s → (outputSeal w s).isSome = true)
    (h : ∀ s o, ItemOut w opid ty no items s o → o ∈ mset m s) : indexOuts w opid ty items no m = (m, none) := by
  induction items generalizing no with
  | nil => rfl
  | cons a items ih =>
    have h2 := ih (no := no + 1) (fun b hb => hs b (List.mem_cons_of_mem _ hb)) (fun s o ho => h s o (itemOut_cons.mpr (.inr ho)))
    simp only [indexOuts]
    split
    · exact h2
    · rename_i s hse
      obtain ⟨out, hout⟩ := Option.isSome_iff_exists.mp (hs a List.mem_cons_self s hse)
      simp only [hout]
      have hmem := h out ⟨opid, ty, no⟩ (itemOut_cons.mpr (.inl ⟨s, hse, hout, rfl⟩))
      simp only [mset] at hmem
      cases hg : OMap.get? m out with
      | none => rw [hg] at hmem; cases hmem
      | some l =>
        rw [hg] at hmem
        simp only [Option.getD_some] at hmem ⊢
        rw [OSet.insert_mem (hm.2 _ _ hg) hmem, OMap.insert_known hm.1 hg]
        exact h2

theorem addTerminal_known {m : OMap Nat (OSet Opout)} {secret : Nat} {o : Opout} (hm : OMap.Sorted m ∧ ∀ s l, OMap.get? m s = some l → OSet.Sorted l)
    (h : o ∈ mset m secret) (hr : (mset m secret).length < 255) : addTerminal m secret o = (m, none) := by
  simp only [mset] at h hr
  unfold addTerminal
  cases hg : OMap.get? m secret with
  | none => rw [hg] at h; cases h
  | some l =>
    rw [hg] at h hr
    simp only [Option.getD_some] at h hr
    have hn : ¬ l.length ≥ tinyMax := by simp only [tinyMax]; omega
    simp only [tinyPush, hn, if_false, OSet.insert_mem (hm.2 _ _ hg) h]
    congr 1
    refine OMap.Sorted.ext ((hm.1.erase _).insert _ _) hm.1 (fun k => ?_)
    rw [OMap.get?_insert, OMap.get?_erase]
    split
    · rename_i e; subst e; exact hg.symm
    · rfl

theorem extendTerminals_known {opid ty : Nat} {items : List Assign} {no : Nat} {m : OMap Nat (OSet Opout)}
    (hm : OMap.Sorted m ∧ ∀ s l, OMap.get? m s = some l → OSet.Sorted l)
    (hr : ∀ a ∈ items, ∀ s, hidden? a = some s → (mset m s).length < 255)
    (h : ∀ s o, ItemSecret opid ty no items s o → o ∈ mset m s) : extendTerminals opid ty items no m = (m, none) := by
  induction items generalizing no with
  | nil => rfl
  | cons a items ih =>
    have h2 := ih (no := no + 1) (fun b hb => hr b (List.mem_cons_of_mem _ hb)) (fun s o ho => h s o (itemSecret_cons.mpr (.inr ho)))
    simp only [extendTerminals]
    split
    · exact h2
    · rename_i s hse
      simp only [addTerminal_known hm (h s ⟨opid, ty, no⟩ (itemSecret_cons.mpr (.inl ⟨hse, rfl⟩))) (hr a List.mem_cons_self s hse)]
      exact h2

/-- What a call would add is there. -/
structure CallDone (x : Index) (call : IdxCall) : Prop where
  out : ∀ c s o, callOut call c s o → o ∈ outSet x c s
  secret : ∀ s o, callSecret call s o → o ∈ mset x.terminals s
  contract : ∀ c, callContract call c → OMap.contains x.contracts c = true
  bundle : ∀ b w c, callBundle call b w c → OMap.get? x.bundleContract b = some c ∧ w ∈ mset x.bundleWitness b
  op : ∀ o b, callOp call o b → OMap.get? x.opBundle o = some b
  seals : ∀ c w items opid ty, call = .assignments c w items opid ty → OMap.contains x.contracts c = true ∧
    ∀ a ∈ items, ∀ s, a.seal? = some s → (outputSeal w s).isSome = true

theorem call_known {x : Index} (hx : IdxSorted x) {call : IdxCall} (h : CallDone x call) (hr : CallRoom x call) : call.exec x = (x, none) := by
  cases call with
  | registerContract c => simp only [IdxCall.exec, registerContract, h.contract c rfl, if_true]
  | registerBundle b w c =>
    obtain ⟨h1, h2⟩ := h.bundle b w c ⟨rfl, rfl, rfl⟩
    simp only [mset] at h2
    simp only [CallRoom, mset] at hr
    simp only [IdxCall.exec, registerBundle, h1, Option.filter_some]
    cases hg : OMap.get? x.bundleWitness b with
    | none => rw [hg] at h2; cases h2
    | some ws =>
      rw [hg] at h2 hr
      simp only [Option.getD_some] at h2 hr
      have hn : ¬ ws.length ≥ tinyMax := by simp only [tinyMax]; omega
      simp only [ne_eq, not_true_eq_false, decide_false, Bool.false_eq_true, if_false, Option.getD_some, tinyPush, hn,
        OSet.insert_mem (hx.ws _ _ hg) h2, OMap.insert_known hx.bw hg, OMap.insert_known hx.bc h1]
  | registerOperation o b =>
    have h1 := h.op o b ⟨rfl, rfl⟩
    simp [IdxCall.exec, registerOperation, h1, Option.filter_some, OMap.insert_known hx.op h1]
  | assignments c w items opid ty =>
    obtain ⟨h1, h2⟩ := h.seals c w items opid ty rfl
    obtain ⟨ci, hci⟩ := OMap.contains_iff.mp h1
    simp only [IdxCall.exec, indexAssignments, hci]
    have ho : indexOuts w opid ty items 0 ci.outs = (ci.outs, none) := indexOuts_known (hx.outs c ci hci) h2 (fun s o hs => by
      have := h.out c s o ⟨rfl, hs⟩
      simpa [outSet, hci] using this)
    simp only [ho]
    have ht : extendTerminals opid ty items 0 x.terminals = (x.terminals, none) := extendTerminals_known ⟨hx.term, hx.secrets⟩ hr h.secret
    have he : ({ x with contracts := OMap.insert x.contracts c { ci with outs := ci.outs } } : Index) = x := by
      have : OMap.insert x.contracts c ci = x.contracts := OMap.insert_known hx.con hci
      rw [this]
    simp only [he, ht]

theorem seals_done {x : Index} {c : Nat} {w : Option WitnessId} {items : List Assign} {opid ty : Nat}
    (h : ((IdxCall.assignments c w items opid ty).exec x).2 = none) : OMap.contains x.contracts c = true ∧
    ∀ a ∈ items, ∀ s, a.seal? = some s → (outputSeal w s).isSome = true := by
  simp only [IdxCall.exec, indexAssignments] at h
  split at h
  · cases h
  · rename_i ci hci
    refine ⟨OMap.contains_iff.mpr ⟨ci, hci⟩, ?_⟩
    split at h
    · cases h
    · rename_i e; exact indexOuts_seals e

/-- After calls without an error all of them are done. -/
theorem calls_done {calls : List IdxCall} {x : Index} (h : (IdxCall.execAll x calls).2 = none) : ∀ call ∈ calls, CallDone (IdxCall.execAll x calls).1 call := by
  have E := execAll_effect calls x
  have hs : ∀ call ∈ calls, ∀ c w items opid ty, call = .assignments c w items opid ty → OMap.contains (IdxCall.execAll x calls).1.contracts c = true ∧
      ∀ a ∈ items, ∀ s, a.seal? = some s → (outputSeal w s).isSome = true := by
    clear E
    induction calls generalizing x with
    | nil => intro c hc; cases hc
    | cons a calls ih =>
      simp only [IdxCall.execAll] at h ⊢
      cases e : a.exec x with
      | mk x' r =>
        rw [e] at h
        cases r with
        | some r => cases h
        | none =>
          simp only at h ⊢
          intro call hc c w items opid ty he
          rcases List.mem_cons.mp hc with rfl | hc
          · subst he
            have hd := seals_done (x := x) (by rw [e])
            refine ⟨(execAll_effect calls x').conMono _ ?_, hd.2⟩
            have h1 := (exec_effect x (.assignments c w items opid ty)).conMono _ hd.1
            rw [e] at h1
            exact h1
          · exact ih h call hc c w items opid ty he
  intro call hc
  exact ⟨fun c s o ho => E.outComplete h c s o ⟨call, hc, ho⟩, fun s o ho => E.tm.complete h s o ⟨call, hc, ho⟩,
    fun c ho => E.conComplete h c ⟨call, hc, ho⟩, fun b w c ho => E.bComplete h b w c ⟨call, hc, ho⟩,
    fun o b ho => E.opComplete h o b ⟨call, hc, ho⟩, hs call hc⟩

theorem calls_known {x : Index} (hx : IdxSorted x) {calls : List IdxCall} (h : ∀ call ∈ calls, CallDone x call) (hr : ∀ call ∈ calls, CallRoom x call) :
    IdxCall.execAll x calls = (x, none) := by
  induction calls with
  | nil => rfl
  | cons call calls ih =>
    simp only [IdxCall.execAll, call_known hx (h call List.mem_cons_self) (hr call List.mem_cons_self)]
    exact ih (fun c hc => h c (List.mem_cons_of_mem _ hc)) (fun c hc => hr c (List.mem_cons_of_mem _ hc))

end Rgb
