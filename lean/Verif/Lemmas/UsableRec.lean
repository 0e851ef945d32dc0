import Verif.Lemmas.Usable

/-!
The records which successful events leave in each of the stores.
-/

namespace Rgb

open MemStash Props

variable {H : Commit}

/-! ## Records -/

/-- What was brought: bundles (contract, bundle, closing method, witness), transitions (contract, bundle, operation), contracts, documents
(genesis, schema, types, libraries), assignments (contract, kind, key), bundles which are shown. -/
structure Facts where
  b : Nat → Nat → CloseMethod → WitnessId → Prop
  o : Nat → Nat → Nat → Prop
  c : Nat → Prop
  d : Op → SchemaDoc → List Nat → List Nat → Prop
  e : Nat → StateKind → OutKey → Prop
  s : Bundle → Prop

/-! ## Index -/

/-- The index has what was brought. -/
structure IdxHas (F : Facts) (x : Index) : Prop where
  opC : ∀ c i o, F.o c i o → OMap.get? x.opBundle o = some i
  bC : ∀ c i m w, F.b c i m w → OMap.get? x.bundleContract i = some c ∧ w ∈ mset x.bundleWitness i
  conC : ∀ c, F.c c → OMap.contains x.contracts c = true

/-- The index has nothing else. -/
structure IdxOnly (bf : Nat → Nat → CloseMethod → WitnessId → Prop) (ofs : Nat → Nat → Nat → Prop) (x : Index) : Prop where
  opS : ∀ o i, OMap.get? x.opBundle o = some i → ∃ c, ofs c i o
  bwS : ∀ i w, w ∈ mset x.bundleWitness i → ∃ c m, bf c i m w
  outS : ∀ c s o, o ∈ outSet x c s → o.op = c ∨ ∃ i, ofs c i o.op

/-- The bundles of an indexing operation. -/
def IdxOp.bf (H : Commit) (op : IdxOp) (c i : Nat) (m : CloseMethod) (w : WitnessId) : Prop :=
  ∃ b, op.HasBundle H c b w ∧ b.id H = i ∧ b.closeMethod = m

/-- The transitions of an indexing operation. -/
def IdxOp.ofs (H : Commit) (op : IdxOp) (c i o : Nat) : Prop :=
  ∃ b w, op.HasBundle H c b w ∧ b.id H = i ∧ OMap.contains b.known o = true

def IdxOp.cf (H : Commit) (op : IdxOp) (c : Nat) : Prop := ∃ d, op = .consignment d ∧ c = d.genesis.contractId H

theorem IdxHas.step {F : Facts} {x : Index} (h : IdxHas F x) (op : IdxOp) : IdxHas F (op.exec H x).1 := by
  have e := op_effect H x op
  refine ⟨fun c i o ho => e.opMono _ _ (h.opC _ _ _ ho), fun c i m w hb => ?_, fun c hc => e.conMono _ (h.conC _ hc)⟩
  obtain ⟨h1, h2⟩ := h.bC _ _ _ _ hb
  exact ⟨e.bcMono _ _ h1, e.bwMono _ _ h2⟩

theorem IdxHas.run {F : Facts} {x : Index} (h : IdxHas F x) (ops : List IdxOp) : IdxHas F (runIdx H x ops) := by
  induction ops generalizing x with
  | nil => exact h
  | cons op ops ih => exact ih (h.step op)

theorem idxHas_op {F : Facts} {x y : Index} (op : IdxOp) (he : op.exec H x = (y, none)) (hb : ∀ c i m w, F.b c i m w → op.bf H c i m w)
    (ho : ∀ c i o, F.o c i o → op.ofs H c i o) (hc : ∀ c, F.c c → op.cf H c) : IdxHas F y := by
  have e := op_effect H x op
  rw [he] at e
  refine ⟨fun c i o h => ?_, fun c i m w h => ?_, fun c h => e.conComplete rfl _ (anyContract_iff.mpr (hc c h))⟩
  · obtain ⟨b, w, h1, rfl, h2⟩ := ho _ _ _ h
    exact e.opComplete rfl _ _ (anyOp_iff.mpr ⟨c, b, w, h1, rfl, OMap.mem_keys_iff.mpr h2⟩)
  · obtain ⟨b, h1, rfl, rfl⟩ := hb _ _ _ _ h
    exact e.bComplete rfl _ _ _ (anyBundle_iff.mpr ⟨b, h1, rfl⟩)

theorem IdxOnly.step {bf : Nat → Nat → CloseMethod → WitnessId → Prop} {ofs : Nat → Nat → Nat → Prop} {x : Index} (h : IdxOnly bf ofs x) (op : IdxOp)
    (hop : ∀ d, op = .consignment d → d.genesis.kind = .genesis ∧ d.extensions = [])
    (hb : ∀ c i m w, op.bf H c i m w → bf c i m w) (ho : ∀ c i o, op.ofs H c i o → ofs c i o) : IdxOnly bf ofs (op.exec H x).1 := by
  have e := op_effect H x op
  refine ⟨?_, ?_, ?_⟩
  · intro o i h1
    rcases e.opSound _ _ h1 with h1 | h1
    · exact h.opS _ _ h1
    · obtain ⟨c, b, w, h3, rfl, h2⟩ := anyOp_iff.mp h1
      exact ⟨c, ho _ _ _ ⟨b, w, h3, rfl, OMap.mem_keys_iff.mp h2⟩⟩
  · intro i w hw
    rcases e.bwSound _ _ hw with hw | ⟨c, hw⟩
    · exact h.bwS _ _ hw
    · obtain ⟨b, h1, rfl⟩ := anyBundle_iff.mp hw
      exact ⟨c, _, hb _ _ _ _ ⟨b, h1, rfl, rfl⟩⟩
  · intro c s o h1
    rcases e.outSound _ _ _ h1 with h1 | ⟨k, t, w, h3, ty, ta, i, a, sl, -, -, -, -, rfl⟩
    · exact h.outS _ _ _ h1
    · cases h3 with
      | genesis d => left; simp only [Op.contractId, (hop d rfl).1]
      | extension d e he => rw [(hop d rfl).2] at he; cases he
      | transition d wb b _ _ hwb hb' hk =>
        exact .inr ⟨b.id H, ho _ _ _ ⟨b, wb.id, .inConsignment d wb b hwb hb', rfl, OMap.mem_keys_iff.mp (List.mem_map.mpr ⟨_, hk, rfl⟩)⟩⟩
      | single _ b _ _ _ hk =>
        exact .inr ⟨b.id H, ho _ _ _ ⟨b, _, .single _ _ _, rfl, OMap.mem_keys_iff.mp (List.mem_map.mpr ⟨_, hk, rfl⟩)⟩⟩

/-! ## State -/

theorem execAll_witnesses {s s' : MemState} {calls : List StCall} (hp : ∀ c ∈ calls, c.Proper) (h : StCall.execAll H s calls = some (s', none)) :
    (∀ w, OMap.contains s.witnesses w = true → OMap.contains s'.witnesses w = true) ∧
    (∀ w, (∃ c ∈ calls, c.witness? = some w) → OMap.contains s'.witnesses w = true) ∧
    (∀ w ord, (∀ c ∈ calls, ∀ o, c.witnessOrd? = some (w, o) → o = ord) → (∃ c ∈ calls, c.witness? = some w) ∨ OMap.get? s.witnesses w = some ord →
      OMap.get? s'.witnesses w = some ord) ∧
    (∀ c k key x, entry s c k key = some x → entry s' c k key = some x) ∧
    (∀ call ∈ calls, ∀ k key x, call.assigned H k key = some x → ∃ y, entry s' (call.contract H) k key = some y) ∧
    (∀ c, OMap.contains s.contracts c = true → OMap.contains s'.contracts c = true) ∧
    (∀ call ∈ calls, OMap.contains s'.contracts (call.contract H) = true) := by
  induction calls generalizing s with
  | nil =>
    simp only [StCall.execAll, Option.some.injEq, Prod.mk.injEq] at h
    obtain ⟨rfl, -⟩ := h
    exact ⟨fun _ h => h, by simp, by simp, fun _ _ _ _ h => h, by simp, fun _ h => h, by simp⟩
  | cons call calls ih =>
    simp only [StCall.execAll] at h
    split at h
    · cases h
    · simp at h
    · rename_i s₁ he
      obtain ⟨i1, i2, i3, i4, i5, i6, i7⟩ := ih (fun c hc => hp c (by simp [hc])) h
      rcases exec_spec (hp call (by simp)) he with ⟨-, sp⟩ | ⟨hne, -⟩
      swap; · exact absurd rfl hne
      have hw : ∀ w, OMap.contains s.witnesses w = true → OMap.contains s₁.witnesses w = true := by
        intro w hw
        obtain ⟨v, hv⟩ := OMap.contains_iff.mp hw
        rw [OMap.contains_iff, sp.witnesses, hv]
        cases (call.witnessOrd?.bind (fun p => if w = p.1 then some p.2 else none)) <;> simp
      have hnew : ∀ w o, call.witnessOrd? = some (w, o) → OMap.get? s₁.witnesses w = some o := by
        intro w o ho; rw [sp.witnesses, ho]; simp
      have hold : ∀ w, call.witness? ≠ some w → OMap.get? s₁.witnesses w = OMap.get? s.witnesses w := by
        intro w hne
        rw [sp.witnesses]
        cases ho : call.witnessOrd? with
        | none => simp
        | some p =>
          simp only [StCall.witness?, ho, Option.map_some, ne_eq, Option.some.injEq] at hne
          have hne' : ¬ w = p.1 := fun e => hne e.symm
          simp [hne']
      have hwit : ∀ w, call.witness? = some w → ∃ o, call.witnessOrd? = some (w, o) := by
        intro w h
        simp only [StCall.witness?, Option.map_eq_some_iff] at h
        obtain ⟨⟨w', o⟩, h1, rfl⟩ := h
        exact ⟨o, h1⟩
      have hent : ∀ c k key x, entry s c k key = some x → entry s₁ c k key = some x := by
        intro c k key x hx; rw [sp.entry, hx]; rfl
      refine ⟨fun w h => i1 w (hw w h), ?_, ?_, fun c k key x h => i4 _ _ _ _ (hent _ _ _ _ h), ?_, fun c h => i6 c (sp.mono c h), ?_⟩
      · rintro w ⟨c, hc, h⟩
        rcases List.mem_cons.mp hc with rfl | hc
        · obtain ⟨o, ho⟩ := hwit w h
          exact i1 w (OMap.contains_iff.mpr ⟨o, hnew w o ho⟩)
        · exact i2 w ⟨c, hc, h⟩
      · intro w ord hall hor
        refine i3 w ord (fun c hc => hall c (by simp [hc])) ?_
        by_cases hcw : call.witness? = some w
        · obtain ⟨o, ho⟩ := hwit w hcw
          rw [hall call (by simp) o ho] at ho
          exact .inr (hnew w _ ho)
        · rcases hor with ⟨c, hc, h⟩ | h
          · rcases List.mem_cons.mp hc with rfl | hc
            · exact absurd h hcw
            · exact .inl ⟨c, hc, h⟩
          · exact .inr (by rw [hold w hcw]; exact h)
      · intro c hc k key x hx
        rcases List.mem_cons.mp hc with rfl | hc
        · have h1 := sp.entry (c.contract H) k key
          simp only [if_true, hx] at h1
          cases he : entry s (c.contract H) k key with
          | some y => rw [he] at h1; exact ⟨y, i4 _ _ _ _ h1⟩
          | none => rw [he] at h1; exact ⟨x, i4 _ _ _ _ h1⟩
        · exact i5 c hc k key x hx
      · intro c hc
        rcases List.mem_cons.mp hc with rfl | hc
        · exact i6 _ sp.mem
        · exact i7 c hc

/-- The state has what was brought. -/
structure StHas (F : Facts) (t : MemState) : Prop where
  wit : ∀ c i m w, F.b c i m w → OMap.contains t.witnesses w = true
  ent : ∀ c k key, F.e c k key → ∃ y, entry t c k key = some y
  con : ∀ c, F.c c → OMap.contains t.contracts c = true

theorem contains_of_keys {κ ν μ : Type} [Key κ] [DecidableEq κ] {m : OMap κ ν} {n : OMap κ μ} (h : OMap.keys m = OMap.keys n) (k : κ) :
    OMap.contains m k = OMap.contains n k := by
  have : OMap.contains m k = true ↔ OMap.contains n k = true := by rw [← OMap.mem_keys_iff, ← OMap.mem_keys_iff, h]
  cases h1 : OMap.contains m k <;> cases h2 : OMap.contains n k <;> simp_all

theorem StHas.run {F : Facts} {s t : MemState} (h : StHas F s) (es : List StEvent) (hp : EventsProper es) (hr : runSt H s es = some t) : StHas F t := by
  refine ⟨?_, fun c k key he => ?_, fun c hc => ((runSt_contracts hp hr).2.1 c (h.con c hc)).1⟩
  · intro c i m w hb
    have := h.wit _ _ _ _ hb
    clear hb
    revert this
    clear h
    induction es generalizing s with
    | nil => cases hr; exact fun h => h
    | cons e es ih =>
      intro hw
      have hp' : EventsProper es := fun c hc => hp c (List.mem_cons_of_mem _ hc)
      cases e with
      | update r n =>
        refine ih hp' hr ?_
        rw [← hw]
        simp only [MemState.updateWitnesses]
        exact contains_of_keys (updateLoop_keys r _ s.witnesses) w
      | call call =>
        obtain ⟨s₁, e, he, hr⟩ := run_cons_call hr
        refine ih hp' hr ?_
        rcases exec_spec (hp call List.mem_cons_self) he with ⟨-, sp⟩ | ⟨-, rfl⟩
        · obtain ⟨v, hv⟩ := OMap.contains_iff.mp hw
          rw [OMap.contains_iff, sp.witnesses, hv]
          cases (call.witnessOrd?.bind (fun p => if w = p.1 then some p.2 else none)) <;> simp
        · exact hw
  · obtain ⟨y, hy⟩ := h.ent _ _ _ he
    exact ⟨y, by rw [runSt_entry hp hr, hy]; rfl⟩

/-! ## Stash -/

/-- The stash has what was brought. -/
structure StashHas (H : Commit) (I : Ids) (F : Facts) (s : MemStash) : Prop where
  bundle : ∀ c i m w, F.b c i m w → ∃ g, s.bundle i = some g
  wit : ∀ c i m w, F.b c i m w → ∃ sw, s.witness w = some sw ∧ sw.anchors.knows m c
  gen : ∀ g sd ts ls, F.d g sd ts ls → ∃ g', s.genesis (g.contractId H) = some g' ∧ g.ShownBy H g'
  schema : ∀ g sd ts ls, F.d g sd ts ls → (s.schema (I.schema sd)).isSome = true
  types : ∀ g sd ts ls, F.d g sd ts ls → ∀ ty ∈ ts, ty ∈ s.types
  libs : ∀ g sd ts ls, F.d g sd ts ls → ∀ l ∈ ls, (s.lib (I.lib l)).isSome = true
  shown : ∀ b, F.s b → ∃ g, s.bundle (b.id H) = some g ∧ b.ShownBy H g

theorem StashHas.grows {I : Ids} {F : Facts} {s t : MemStash} (h : StashHas H I F s) (g : Grows H s t) : StashHas H I F t := by
  refine ⟨fun c i m w hb => ?_, fun c i m w hb => ?_, fun g sd ts ls hd => ?_, fun g sd ts ls hd => ?_, fun g sd ts ls hd ty hty => ?_,
    fun g sd ts ls hd l hl => ?_, fun b hb => ?_⟩
  · obtain ⟨x, hx⟩ := h.bundle c i m w hb
    obtain ⟨y, hy, -⟩ := g.bundle _ _ hx
    exact ⟨y, hy⟩
  · obtain ⟨x, hx, h1⟩ := h.wit c i m w hb
    obtain ⟨y, hy, h2⟩ := g.witness _ _ hx
    exact ⟨y, hy, h2.anchors _ _ h1⟩
  · obtain ⟨x, hx, h1⟩ := h.gen _ _ _ _ hd
    obtain ⟨y, hy, h2⟩ := Grows.genesis ‹_› _ _ hx
    exact ⟨y, hy, h1.trans h2⟩
  · obtain ⟨x, hx⟩ := Option.isSome_iff_exists.mp (h.schema _ _ _ _ hd)
    obtain ⟨y, hy, -⟩ := Grows.schema ‹_› _ _ hx
    rw [hy]; rfl
  · exact Grows.types ‹_› _ (h.types _ _ _ _ hd _ hty)
  · exact Grows.lib ‹_› _ (h.libs _ _ _ _ hd _ hl)
  · obtain ⟨x, hx, h1⟩ := h.shown b hb
    obtain ⟨y, hy, h2⟩ := g.bundle _ _ hx
    exact ⟨y, hy, h1.trans h2⟩

end Rgb
