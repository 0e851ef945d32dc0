import Verif.Lemmas.Settle
import Verif.Lemmas.Change

/-!
From composing a payment to an output of the new transaction to its transfer.
-/

namespace Rgb.Stock

open Index Props

variable {H : Commit} {I : Ids} {M : Mpc} {G : SchemaDoc → SchemaGlobals} {S : Env} {k k' : Stock} {es : List StockEvent} {f : Fascia} {r : Resolver}

/-- Where what is assigned to an output comes from. -/
theorem outs_from (hd : StockEvent.Done H I M G k k' (.fascia f r)) {c : Nat} {s : OutSeal} {o : Opout} (h : o ∈ outSet k'.index c s) :
    o ∈ outSet k.index c s ∨ ∃ bd, (c, bd) ∈ f.bundles ∧ ∃ i t, (i, t) ∈ bd.known ∧ t.AssignsOut i (some f.witness.id) s o := by
  obtain ⟨calls, h1, h2⟩ := done_index hd
  have hc := h2 _ _ rfl
  have hs := (execAll_effect calls k.index).outSound c s o
  rw [h1] at hs
  rcases hs h with hs | ⟨call, hm, hs⟩
  · exact .inl hs
  · rw [hc] at hm
    obtain ⟨⟨c', bd⟩, he, hm⟩ := List.mem_flatMap.mp hm
    obtain ⟨rfl, i, t, g1, g2⟩ := bundleCalls_out.mp ⟨call, hm, hs⟩
    exact .inr ⟨bd, he, i, t, g1, g2⟩

/-- An output is found if something is assigned to it. -/
theorem found_one {c : Nat} {p : Outpoint} {s : OutSeal} {o : Opout} (h : o ∈ outSet k.index c s) (hp : s.outpoint = p) : ∃ l, k.index.opoutsByOutputs c [p] = .ok l := by
  simp only [outSet] at h
  simp only [opoutsByOutputs]
  cases hc : OMap.get? k.index.contracts c with
  | none => simp [hc] at h
  | some ci =>
    simp only [hc, Option.map_some, Option.getD_some, mset] at h
    simp only [byOutputsLoop]
    cases hf : ci.outs.find? (fun e => decide (e.1.outpoint = p)) with
    | some e => exact ⟨_, rfl⟩
    | none =>
      cases hs : OMap.get? ci.outs s with
      | none => simp [hs] at h
      | some set =>
        have := List.find?_eq_none.mp hf _ (OMap.mem_of_get? hs)
        simp [hp] at this

/-- What is found at an output is assigned to it. -/
theorem found_at (hx : IdxInv k.index) {c : Nat} {p : Outpoint} {l : OSet Opout} (h : k.index.opoutsByOutputs c [p] = .ok l) {o : Opout} (ho : o ∈ l) :
    ∃ s : OutSeal, s.outpoint = p ∧ o ∈ outSet k.index c s := by
  simp only [opoutsByOutputs] at h
  cases hc : OMap.get? k.index.contracts c with
  | none => rw [hc] at h; cases h
  | some ci =>
    rw [hc] at h
    simp only [byOutputsLoop] at h
    cases hf : ci.outs.find? (fun e => decide (e.1.outpoint = p)) with
    | none => rw [hf] at h; cases h
    | some e =>
      rw [hf] at h
      simp only [Except.ok.injEq] at h
      subst h
      rw [OSet.mem_extend] at ho
      rcases ho with ho | ho
      · cases ho
      · refine ⟨e.1, of_decide_eq_true (List.find?_some hf :), ?_⟩
        simp only [outSet, hc, Option.map_some, Option.getD_some, mset, (hx.sorted _ _ hc).get?_of_mem (List.mem_of_find?_eq_some hf)]
        exact ho

/-- Nothing is at an output which isn't found. -/
theorem free_outs {c : Nat} {p : Outpoint} (hfree : ∀ l, k.index.opoutsByOutputs c [p] ≠ .ok l) {s : OutSeal} {o : Opout} (hp : s.outpoint = p) : ¬ o ∈ outSet k.index c s := by
  intro h
  obtain ⟨l, hl⟩ := found_one h hp
  exact hfree l hl

/-- What a batch assigns to the output of the payee is of one closing method. -/
theorem seal_at {E : CEnv} {n : Nat} (hE : E.Lawful n) {W : Wallet} {inv : Inv.Invoice} {prevs : List OutSeal} {b : Batch}
    (C : Composed E W k inv prevs b) {s : Seal} (hb : W.benSeal inv = .revealed s) (halloc : ∀ site c ty v, (W.alloc site c ty v).isSome = true)
    (hm : s.method = W.method ∨ ∀ site c ty v, W.alloc site c ty v ≠ some s.vout) {t : BuiltTransition} (ht : t ∈ b.payments)
    (hs : OMap.Sorted t.op.assigns) {i : Nat} {w : WitnessId} {sl : OutSeal} {o : Opout} (ha : t.op.AssignsOut i (some w) sl o)
    (hp : sl.outpoint = ⟨inv.layer, w.txid, s.vout⟩) : sl = ⟨inv.layer, s.method, w.txid, s.vout⟩ := by
  obtain ⟨ty, ta, no, a, x, h1, h2, h3, h4, -⟩ := ha
  have hmem : (a.target, a.state?) ∈ t.outs ty := by rw [mem_outs hs h1]; exact List.mem_map.2 ⟨a, List.mem_of_getElem? h2, rfl⟩
  have htar : a.target = some (.revealed x) := by cases a <;> simp_all [Assign.seal?, Assign.target]
  have hx : x = s ∨ ∃ site c ty, BSeal.revealed x = W.outSeal E k inv.layer site c ty := by
    obtain ⟨-, -, h5⟩ := payment_targets hE C ht
    obtain ⟨y, g1, g2⟩ := h5 _ _ hmem
    rw [htar] at g1
    cases g1
    rcases g2 with ⟨-, g | g⟩ | ⟨-, y, -, -, -, g⟩
    · rw [hb] at g; cases g; exact .inl rfl
    · exact .inr ⟨_, _, _, g⟩
    · exact .inr ⟨_, _, _, g⟩
  have hs0 : s.txid = none := by
    simp only [Wallet.benSeal] at hb
    split at hb
    · cases hb
    · cases hb; rfl
  have hout : x.txid = none → sl = ⟨x.chain, x.method, w.txid, x.vout⟩ := by
    intro hn
    simp only [Seal.toOutputWith, hn] at h4
    split at h4
    · exact (Option.some.inj h4).symm
    · cases h4
  have fin : x.txid = none → x.method = s.method → sl = ⟨inv.layer, s.method, w.txid, s.vout⟩ := by
    intro hn hme
    have := hout hn
    subst this
    simp only [OutSeal.outpoint, Outpoint.mk.injEq] at hp
    simp [hp.1, hp.2.2, hme]
  rcases hx with rfl | ⟨site, c, ty, g⟩
  · exact fin hs0 rfl
  · cases g
    rcases hm with hm | hm
    · exact fin rfl hm.symm
    · have := hout rfl
      subst this
      simp only [OutSeal.outpoint, Outpoint.mk.injEq] at hp
      have h2 := hp.2.2
      obtain ⟨v, hv⟩ := Option.isSome_iff_exists.mp (halloc site c ty (E.velocity (k.stash.supplements (E.genesisRef c)).head? ty))
      rw [hv, Option.getD_some] at h2
      exact absurd (by rw [hv, h2]) (hm site c ty (E.velocity (k.stash.supplements (E.genesisRef c)).head? ty))

/-- The witness of a transition which came in a new bundle is that of the fascia. -/
theorem carried_witness (hH : H.Binding) (hM : M.Lawful) (hG : ∀ d, OMap.Sorted (G d).maxItems) (hc : Furnished H I S es) (h : AllDone H I M G es .empty k)
    (hu : k.Unknown H f) (hf : StockEvent.Sound H (.fascia f r)) (hn : (f.bundles.map (fun e => e.2.id H)).Nodup) (hd : StockEvent.Done H I M G k k' (.fascia f r))
    {c : Nat} {t : Op} (ht : f.Carries H k c t) {i : Nat} {cb : ClientBundle} {wb : WitnessBundle} (hi : k'.index.bundleIdForOp (t.id H) = .ok i)
    (hp : Proves S k' i cb wb) : wb.id = f.witness.id := by
  have hfur' := furnished_fascia (r := r) hH hM hG hc h hu hf hn
  have hdone : AllDone H I M G (es ++ [.fascia f r]) .empty k' := allDone_append h ⟨k', hd, rfl⟩
  have facts := complete_facts hH hM hG hfur' hdone
  obtain ⟨bd, c1, c2, -⟩ := ht
  have hbr : StockEvent.Brings H (.fascia f r) c bd f.witness.id := .fascia f r c bd c1
  obtain ⟨k₁, hh⟩ := facts.has _ (List.mem_append_right _ (.head _))
  have h1 := hh.idx.opC c (bd.id H) (t.id H) ⟨bd, f.witness.id, hbr, rfl, OMap.contains_iff.mpr ⟨_, c2⟩⟩
  rw [Stock.bundleIdForOp_ok, h1] at hi
  cases hi
  obtain ⟨ws, g1, g2⟩ := hp.witness
  obtain ⟨c', m, e, he, b', hb', hid, -⟩ := facts.only.idx.bwS (bd.id H) wb.id (by simp only [mset, g1, Option.getD_some]; exact g2)
  rcases List.mem_append.mp he with he | he
  · exact absurd hid (hu.fresh hH hM hG hc h c1 he hb')
  · rw [List.mem_singleton] at he
    subst he
    have : ∀ w, StockEvent.Brings H (.fascia f r) c' b' w → w = f.witness.id := by
      intro w hw
      cases hw with
      | fascia _ _ _ _ _ => rfl
    exact this _ hb'

end Rgb.Stock
