import Verif.Lemmas.UsableConsign
import Verif.Spec.Receive

/-!
When indexing succeeds.
-/

namespace Rgb

open Index

/-- Hidden assignments to a secret seal. -/
def hid (s : Nat) (items : List Assign) : Nat := items.countP (fun a => decide (hidden? a = some s))

def callHid (s : Nat) : IdxCall → Nat
  | .assignments _ _ items _ _ => hid s items
  | _ => 0

def callReg (b : Nat) : IdxCall → Nat
  | .registerBundle b' _ _ => if b' = b then 1 else 0
  | _ => 0

theorem indexOuts_ok (w : Option WitnessId) (opid ty : Nat) (items : List Assign) (no : Nat) (m : OMap OutSeal (OSet Opout))
    (h : ∀ a ∈ items, ∀ x, a.seal? = some x → (outputSeal w x).isSome = true) : (indexOuts w opid ty items no m).2 = none := by
  induction items generalizing no m with
  | nil => rfl
  | cons a items ih =>
    simp only [indexOuts]
    have h' := fun b hb => h b (List.mem_cons_of_mem _ hb)
    cases hs : a.seal? with
    | none => exact ih _ _ h'
    | some x =>
      obtain ⟨o, ho⟩ := Option.isSome_iff_exists.mp (h a (by simp) x hs)
      simp only [ho]
      exact ih _ _ h'

theorem addTerminal_ok (m : OMap Nat (OSet Opout)) (secret : Nat) (o : Opout) (h : (mset m secret).length < 255) :
    (addTerminal m secret o).2 = none ∧ (mset (addTerminal m secret o).1 secret).length ≤ (mset m secret).length + 1 ∧
    ∀ s, s ≠ secret → mset (addTerminal m secret o).1 s = mset m s := by
  unfold addTerminal
  cases hg : OMap.get? m secret with
  | none =>
    have hm : mset m secret = [] := by simp [mset, hg]
    refine ⟨rfl, by simp [mset_insert], fun s hs => by rw [mset_insert, mset_erase]; simp [hs]⟩
  | some ex =>
    have hm : mset m secret = ex := by simp [mset, hg]
    rw [hm] at h
    have hn : ¬ ex.length ≥ tinyMax := by simp only [tinyMax]; omega
    simp only [tinyPush, hn, if_false]
    refine ⟨trivial, ?_, fun s hs => by rw [mset_insert, mset_erase]; simp [hs]⟩
    rw [mset_insert, hm]
    simpa using Stock.length_oset_insert_le ex o

theorem extendTerminals_ok (opid ty : Nat) (items : List Assign) (no : Nat) (m : OMap Nat (OSet Opout))
    (h : ∀ s, (mset m s).length + hid s items ≤ 255) : (extendTerminals opid ty items no m).2 = none ∧
    ∀ s, (mset (extendTerminals opid ty items no m).1 s).length ≤ (mset m s).length + hid s items := by
  induction items generalizing no m with
  | nil => exact ⟨rfl, fun s => by simp [extendTerminals, hid]⟩
  | cons a items ih =>
    simp only [extendTerminals]
    cases hs : hidden? a with
    | none =>
      have he : ∀ s, hid s (a :: items) = hid s items := by intro s; simp [hid, List.countP_cons, hs]
      obtain ⟨h1, h2⟩ := ih (no + 1) m (fun s => by rw [← he]; exact h s)
      exact ⟨h1, fun s => by rw [he]; exact h2 s⟩
    | some sec =>
      have he : ∀ s, hid s (a :: items) = hid s items + if sec = s then 1 else 0 := by intro s; simp [hid, List.countP_cons, hs]
      have hlt : (mset m sec).length < 255 := by
        have := h sec
        rw [he, if_pos rfl] at this; omega
      obtain ⟨t1, t2, t3⟩ := addTerminal_ok m sec ⟨opid, ty, no⟩ hlt
      cases ht : addTerminal m sec ⟨opid, ty, no⟩ with
      | mk m' e =>
        rw [ht] at t1 t2 t3
        simp only at t1 t2 t3 ⊢
        subst t1
        simp only [ht]
        have hl : ∀ s, (mset m' s).length ≤ (mset m s).length + if sec = s then 1 else 0 := by
          intro s
          by_cases hss : sec = s
          · subst hss; simpa using t2
          · rw [t3 s (fun e => hss e.symm)]; omega
        obtain ⟨h1, h2⟩ := ih (no + 1) m' (fun s => by have := h s; have := hl s; rw [he] at *; omega)
        exact ⟨h1, fun s => by have := h2 s; have := hl s; rw [he]; omega⟩

/-- Calls none of which fails. -/
structure Runs (x : Index) (l : List IdxCall) : Prop where
  con : ∀ c w items opid ty, IdxCall.assignments c w items opid ty ∈ l → OMap.contains x.contracts c = true
  res : ∀ c w items opid ty, IdxCall.assignments c w items opid ty ∈ l → ∀ a ∈ items, ∀ sl, a.seal? = some sl → (outputSeal w sl).isSome = true
  reg : ∀ c, IdxCall.registerContract c ∉ l
  bc : ∀ b w c, IdxCall.registerBundle b w c ∈ l → ∀ c', OMap.get? x.bundleContract b = some c' → c' = c
  bc2 : ∀ b w c w' c', IdxCall.registerBundle b w c ∈ l → IdxCall.registerBundle b w' c' ∈ l → c' = c
  bw : ∀ b, (mset x.bundleWitness b).length + (l.map (callReg b)).sum ≤ 255
  op : ∀ o b, IdxCall.registerOperation o b ∈ l → ∀ b', OMap.get? x.opBundle o = some b' → b' = b
  op2 : ∀ o b b', IdxCall.registerOperation o b ∈ l → IdxCall.registerOperation o b' ∈ l → b' = b
  tm : ∀ s, (mset x.terminals s).length + (l.map (callHid s)).sum ≤ 255

theorem call_runs {x : Index} {call : IdxCall} {l : List IdxCall} (h : Runs x (call :: l)) :
    (call.exec x).2 = none ∧ (∀ b, (mset (call.exec x).1.bundleWitness b).length ≤ (mset x.bundleWitness b).length + callReg b call) ∧
    (∀ s, (mset (call.exec x).1.terminals s).length ≤ (mset x.terminals s).length + callHid s call) := by
  cases call with
  | registerContract c => exact absurd (by simp) (h.reg c)
  | registerBundle b w c =>
    have h1 : (OMap.get? x.bundleContract b).filter (fun alt => alt ≠ c) = none := by
      cases hg : OMap.get? x.bundleContract b with
      | none => rfl
      | some c' => have := h.bc b w c (by simp) c' hg; simp [this]
    have h2 := h.bw b
    simp only [List.map_cons, List.sum_cons, callReg, if_true] at h2
    have h3 : ¬ ((OMap.get? x.bundleWitness b).getD []).length ≥ tinyMax := by simp only [tinyMax]; simp only [mset] at h2; omega
    simp only [IdxCall.exec, registerBundle, h1, tinyPush, h3, if_false]
    refine ⟨trivial, fun b' => ?_, fun s => by simp⟩
    rw [mset_insert]
    by_cases hb : b' = b
    · subst hb
      have := Stock.length_oset_insert_le ((OMap.get? x.bundleWitness b').getD []) w
      simpa [mset, callReg] using this
    · simp [hb]
  | registerOperation o b =>
    have h1 : (OMap.get? x.opBundle o).filter (fun alt => alt ≠ b) = none := by
      cases hg : OMap.get? x.opBundle o with
      | none => rfl
      | some c' => have := h.op o b (by simp) c' hg; simp [this]
    simp only [IdxCall.exec, registerOperation, h1]
    exact ⟨trivial, fun _ => by simp, fun _ => by simp⟩
  | assignments c w items opid ty =>
    obtain ⟨ci, hci⟩ := OMap.contains_iff.mp (h.con c w items opid ty (by simp))
    have h1 := indexOuts_ok w opid ty items 0 ci.outs (h.res c w items opid ty (by simp))
    have h2 := extendTerminals_ok opid ty items 0 x.terminals (fun s => by
      have := h.tm s
      simp only [List.map_cons, List.sum_cons, callHid] at this; omega)
    simp only [IdxCall.exec, indexAssignments, hci, h1]
    exact ⟨h2.1, fun _ => by simp, fun s => by simpa [callHid] using h2.2 s⟩

theorem runs_tail {x : Index} {call : IdxCall} {l : List IdxCall} (h : Runs x (call :: l)) : Runs (call.exec x).1 l := by
  obtain ⟨h1, h2, h3⟩ := call_runs h
  have he := exec_effect x call
  refine ⟨?_, ?_, ?_, ?_, ?_, ?_, ?_, ?_, ?_⟩
  · exact fun c w items opid ty hm => he.conMono c (h.con c w items opid ty (.tail _ hm))
  · exact fun c w items opid ty hm => h.res c w items opid ty (.tail _ hm)
  · exact fun c hm => h.reg c (.tail _ hm)
  · intro b w c hm c' hc'
    rcases he.bcSound b c' hc' with hc' | ⟨w', hw'⟩
    · exact h.bc b w c (.tail _ hm) c' hc'
    · cases call with
      | registerBundle b₀ w₀ c₀ =>
        obtain ⟨rfl, rfl, rfl⟩ := hw'
        exact h.bc2 b₀ w c w₀ c₀ (.tail _ hm) (by simp)
      | _ => exact hw'.elim
  · exact fun b w c w' c' hm hm' => h.bc2 b w c w' c' (.tail _ hm) (.tail _ hm')
  · intro b
    have a1 := h.bw b
    have a2 := h2 b
    simp only [List.map_cons, List.sum_cons] at a1; omega
  · intro o b hm b' hb'
    rcases he.opSound o b' hb' with hb' | hw'
    · exact h.op o b (.tail _ hm) b' hb'
    · cases call with
      | registerOperation o₀ b₀ =>
        obtain ⟨rfl, rfl⟩ := hw'
        exact h.op2 o₀ b b₀ (.tail _ hm) (by simp)
      | _ => exact hw'.elim
  · exact fun o b b' hm hm' => h.op2 o b b' (.tail _ hm) (.tail _ hm')
  · intro s
    have a1 := h.tm s
    have a2 := h3 s
    simp only [List.map_cons, List.sum_cons] at a1; omega

theorem execAll_runs (l : List IdxCall) {x : Index} (h : Runs x l) : (IdxCall.execAll x l).2 = none := by
  induction l generalizing x with
  | nil => rfl
  | cons call l ih =>
    simp only [IdxCall.execAll]
    have h1 := (call_runs h).1
    have h2 := ih (runs_tail h)
    cases he : call.exec x with
    | mk x' e =>
      rw [he] at h1 h2
      simp only at h1 h2
      subst h1
      exact h2

/-! ## The calls for a consignment -/

/-- The calls after registering the contract. -/
def restCalls (H : Commit) (d : ConsignmentData) : List IdxCall :=
  Index.opCalls H (d.genesis.contractId H) d.genesis ++ (d.extensions.flatMap (Index.opCalls H (d.genesis.contractId H)) ++
    d.bundles.flatMap (fun wb => wb.anchored.bundles.flatMap (fun b => Index.bundleCalls H (d.genesis.contractId H) b wb.id)))

theorem restCalls_mem {H : Commit} {d : ConsignmentData} {call : IdxCall} (h : call ∈ restCalls H d) :
    (∃ op ∈ d.plainOps, ∃ e ∈ op.assigns, call = .assignments (d.genesis.contractId H) none e.2.items (op.id H) e.1) ∨
    (∃ wb ∈ d.bundles, ∃ b ∈ wb.anchored.bundles, call = .registerBundle (b.id H) wb.id (d.genesis.contractId H) ∨
      ∃ k ∈ b.known, call = .registerOperation k.1 (b.id H) ∨
        ∃ e ∈ k.2.assigns, call = .assignments (d.genesis.contractId H) (some wb.id) e.2.items k.1 e.1) := by
  simp only [restCalls, List.mem_append, List.mem_flatMap, opCalls, List.mem_map, bundleCalls, List.mem_cons] at h
  rcases h with ⟨e, he, rfl⟩ | ⟨op, hop, e, he, rfl⟩ | ⟨wb, hwb, b, hb, rfl | ⟨k, hk, rfl | ⟨e, he, rfl⟩⟩⟩
  · exact .inl ⟨_, by simp [ConsignmentData.plainOps], e, he, rfl⟩
  · exact .inl ⟨op, by simp [ConsignmentData.plainOps, hop], e, he, rfl⟩
  · exact .inr ⟨wb, hwb, b, hb, .inl rfl⟩
  · exact .inr ⟨wb, hwb, b, hb, .inr ⟨k, hk, .inl rfl⟩⟩
  · exact .inr ⟨wb, hwb, b, hb, .inr ⟨k, hk, .inr ⟨e, he, rfl⟩⟩⟩

theorem hidden?_iff (H : Commit) (a : Assign) (s : Nat) : (decide (hidden? a = some s)) = (a.seal?.isNone && decide (a.secret H = s)) := by
  rw [Bool.eq_iff_iff, Bool.and_eq_true, decide_eq_true_iff, decide_eq_true_iff]
  cases a <;> simp [hidden?, Assign.seal?, Assign.secret]

theorem hid_eq (H : Commit) (s : Nat) (items : List Assign) : hid s items = items.countP (fun a => a.seal?.isNone && decide (a.secret H = s)) := by
  simp only [hid, hidden?_iff H]

theorem sum_flatMap {α β : Type} (f : β → Nat) (g : α → List β) (l : List α) :
    ((l.flatMap g).map f).sum = (l.map (fun a => ((g a).map f).sum)).sum := by
  induction l with
  | nil => rfl
  | cons a l ih => simp [List.flatMap_cons, ih]

theorem sum_map_congr {α : Type} {f g : α → Nat} {l : List α} (h : ∀ a ∈ l, f a = g a) : (l.map f).sum = (l.map g).sum := by
  rw [List.map_congr_left h]

theorem sum_map_zero {α : Type} {f : α → Nat} {l : List α} (h : ∀ a ∈ l, f a = 0) : (l.map f).sum = 0 := by
  induction l with
  | nil => rfl
  | cons a l ih => simp [h a (by simp), ih (fun b hb => h b (by simp [hb]))]

theorem opCalls_hid (H : Commit) (c : Nat) (op : Op) (s : Nat) : ((Index.opCalls H c op).map (callHid s)).sum = op.hiddenTo H s := by
  simp only [opCalls, List.map_map, Function.comp_def, callHid, hid_eq H, Op.hiddenTo, Op.assigned, List.countP_flatMap]

theorem bundleCalls_hid (H : Commit) (c : Nat) (b : Bundle) (w : WitnessId) (s : Nat) :
    ((Index.bundleCalls H c b w).map (callHid s)).sum = ((OMap.vals b.known).map (Op.hiddenTo H s)).sum := by
  simp only [bundleCalls, List.map_cons, List.sum_cons, callHid, sum_flatMap, List.map_map, Function.comp_def, OMap.vals, Nat.zero_add, hid_eq H, Op.hiddenTo,
    Op.assigned, List.countP_flatMap]

theorem restCalls_hid (H : Commit) (d : ConsignmentData) (s : Nat) : ((restCalls H d).map (callHid s)).sum = d.hiddenTo H s := by
  simp only [restCalls, List.map_append, List.sum_append_nat, opCalls_hid, sum_flatMap, bundleCalls_hid, ConsignmentData.hiddenTo, ConsignmentData.ops,
    ConsignmentData.plainOps, ConsignmentData.transitions, WitnessBundle.knownTransitions, List.cons_append, List.map_cons, List.sum_cons, List.map_map,
    Function.comp_def]

theorem opCalls_reg (H : Commit) (c : Nat) (op : Op) (b : Nat) : ((Index.opCalls H c op).map (callReg b)).sum = 0 := by
  simp only [opCalls, List.map_map]
  exact sum_map_zero (fun _ _ => rfl)

theorem bundleCalls_reg (H : Commit) (c : Nat) (x : Bundle) (w : WitnessId) (b : Nat) :
    ((Index.bundleCalls H c x w).map (callReg b)).sum = if x.id H = b then 1 else 0 := by
  have h : ∀ k ∈ x.known, (((IdxCall.registerOperation k.1 (x.id H) ::
      k.2.assigns.map (fun e => IdxCall.assignments c (some w) e.2.items k.1 e.1))).map (callReg b)).sum = 0 := by
    intro k _
    refine sum_map_zero (fun a ha => ?_)
    simp only [List.mem_cons, List.mem_map] at ha
    rcases ha with rfl | ⟨e, -, rfl⟩ <;> rfl
  simp only [bundleCalls]
  rw [List.map_cons, List.sum_cons, sum_flatMap, sum_map_zero (f := fun k => _) (fun k hk => h k hk)]
  rfl

theorem restCalls_reg (H : Commit) (d : ConsignmentData) (b : Nat) : ((restCalls H d).map (callReg b)).sum = d.timesBundle H b := by
  simp only [restCalls, List.map_append, List.sum_append_nat, opCalls_reg, sum_flatMap, bundleCalls_reg, ConsignmentData.timesBundle]
  rw [sum_map_zero (fun _ _ => rfl), Nat.zero_add, Nat.zero_add, ← List.countP_eq_length_filter, List.countP_flatMap]
  refine sum_map_congr (fun wb _ => ?_)
  rw [Function.comp_apply]
  induction wb.anchored.bundles with
  | nil => rfl
  | cons x l ih => simp only [List.map_cons, List.sum_cons, ih, List.countP_cons]; simp [Nat.add_comm]

theorem contains_of_mem {κ ν : Type} [Key κ] [DecidableEq κ] {m : OMap κ ν} {e : κ × ν} (h : e ∈ m) : OMap.contains m e.1 = true :=
  OMap.mem_keys_iff.mp (List.mem_map.mpr ⟨e, h, rfl⟩)

theorem op_of_known {d : ConsignmentData} {wb : WitnessBundle} {b : Bundle} {k : Nat × Op} (h1 : wb ∈ d.bundles) (h2 : b ∈ wb.anchored.bundles)
    (h3 : k ∈ b.known) : (k.2, wb.id) ∈ d.transitions := by
  simp only [ConsignmentData.transitions, WitnessBundle.knownTransitions, OMap.vals, List.mem_flatMap, List.mem_map]
  exact ⟨wb, h1, k.2, ⟨b, h2, k, h3, rfl⟩, rfl⟩

theorem mem_assigned {op : Op} {e : Nat × TypedAssigns} {a : Assign} (h1 : e ∈ op.assigns) (h2 : a ∈ e.2.items) : a ∈ op.assigned := by
  simp only [Op.assigned, List.mem_flatMap]
  exact ⟨e, h1, h2⟩

theorem toOutput_isSome (x : Seal) : x.toOutput.isSome = x.txid.isSome := by simp [Seal.toOutput]

/-- Indexing a consignment succeeds. -/
theorem index_accepts {H : Commit} {I : Ids} {M : Mpc} {G : SchemaDoc → SchemaGlobals} {r : Resolver} {con : Consignment} {k : Stock}
    (hc : con.Coherent H I M G r) (ha : k.Agrees H M con) (hr : k.Room H I con) : (k.index.indexConsignment H con.data).2 = none := by
  have h1 : (k.index.registerContract (con.data.genesis.contractId H)).2 = none ∧
      (k.index.registerContract (con.data.genesis.contractId H)).1.bundleContract = k.index.bundleContract ∧
      (k.index.registerContract (con.data.genesis.contractId H)).1.bundleWitness = k.index.bundleWitness ∧
      (k.index.registerContract (con.data.genesis.contractId H)).1.opBundle = k.index.opBundle ∧
      (k.index.registerContract (con.data.genesis.contractId H)).1.terminals = k.index.terminals ∧
      OMap.contains (k.index.registerContract (con.data.genesis.contractId H)).1.contracts (con.data.genesis.contractId H) = true := by
    simp only [registerContract]
    split
    · rename_i h; exact ⟨rfl, rfl, rfl, rfl, rfl, h⟩
    · rename_i h
      have h2 : ¬ k.index.contracts.length ≥ tinyMax := by
        rcases hr.index with h3 | h3
        · exact absurd h3 h
        · simp only [tinyMax]; omega
      rw [if_neg h2]
      exact ⟨rfl, rfl, rfl, rfl, rfl, OMap.contains_iff.mpr ⟨_, OMap.get?_insert_self ..⟩⟩
  have h2 : (IdxCall.execAll (k.index.registerContract (con.data.genesis.contractId H)).1 (restCalls H con.data)).2 = none := by
    obtain ⟨-, e1, e2, e3, e4, e5⟩ := h1
    refine execAll_runs _ ⟨?_, ?_, ?_, ?_, ?_, ?_, ?_, ?_, ?_⟩
    · intro c w items opid ty h
      rcases restCalls_mem h with ⟨op, hop, e, he, h⟩ | ⟨wb, hwb, b, hb, h | ⟨kn, hkn, h | ⟨e, he, h⟩⟩⟩ <;> cases h <;> exact e5
    · intro c w items opid ty h a ham sl hsl
      rcases restCalls_mem h with ⟨op, hop, e, he, h⟩ | ⟨wb, hwb, b, hb, h | ⟨kn, hkn, h | ⟨e, he, h⟩⟩⟩ <;> cases h
      · simpa [outputSeal, toOutput_isSome] using hc.plainSeals op hop a (mem_assigned he ham) sl hsl
      · exact hc.seals _ (op_of_known hwb hb hkn) a (mem_assigned he ham) sl hsl
    · intro c h
      rcases restCalls_mem h with ⟨op, hop, e, he, h⟩ | ⟨wb, hwb, b, hb, h | ⟨kn, hkn, h | ⟨e, he, h⟩⟩⟩ <;> cases h
    · intro b w c h c' hc'
      rw [e1] at hc'
      rcases restCalls_mem h with ⟨op, hop, e, he, h⟩ | ⟨wb, hwb, b', hb, h | ⟨kn, hkn, h | ⟨e, he, h⟩⟩⟩ <;> cases h
      exact (ha.bundles wb hwb b' hb).1 c' hc'
    · intro b w c w' c' h h'
      rcases restCalls_mem h with ⟨op, hop, e, he, h⟩ | ⟨wb, hwb, b', hb, h | ⟨kn, hkn, h | ⟨e, he, h⟩⟩⟩ <;> cases h
      rcases restCalls_mem h' with ⟨op, hop, e, he, h⟩ | ⟨wb', hwb', b'', hb', h | ⟨kn, hkn, h | ⟨e, he, h⟩⟩⟩
      · cases h
      · injection h
      · cases h
      · cases h
    · intro b
      rw [e2, restCalls_reg]
      exact hr.witnesses b
    · intro o b h b' hb'
      rw [e3] at hb'
      rcases restCalls_mem h with ⟨op, hop, e, he, h⟩ | ⟨wb, hwb, b'', hb, h | ⟨kn, hkn, h | ⟨e, he, h⟩⟩⟩ <;> cases h
      exact (ha.bundles wb hwb b'' hb).2 _ b' (contains_of_mem hkn) hb'
    · intro o b b' h h'
      rcases restCalls_mem h with ⟨op, hop, e, he, h⟩ | ⟨wb, hwb, b₁, hb, h | ⟨kn, hkn, h | ⟨e, he, h⟩⟩⟩ <;> cases h
      rcases restCalls_mem h' with ⟨op, hop, e, he, h⟩ | ⟨wb', hwb', b₂, hb', h | ⟨kn', hkn', h | ⟨e, he, h⟩⟩⟩
      · cases h
      · cases h
      rotate_left
      · cases h
      injection h with h3 h4
      rw [h4]
      exact hc.ops wb' hwb' wb hwb b₂ hb' b₁ hb kn.1 (h3 ▸ contains_of_mem hkn') (contains_of_mem hkn)
    · intro s
      rw [e4, restCalls_hid]
      exact hr.terminals s
  have h3 : Index.consignmentCalls H con.data = .registerContract (con.data.genesis.contractId H) :: restCalls H con.data := rfl
  simp only [indexConsignment, h3, IdxCall.execAll, IdxCall.exec]
  cases he : k.index.registerContract (con.data.genesis.contractId H) with
  | mk x' e =>
    rw [he] at h1 h2
    obtain ⟨h1, -⟩ := h1
    simp only at h1 h2
    subst h1
    exact h2

end Rgb
