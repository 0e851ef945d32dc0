import Verif.Lemmas.UsableHist

/-! Global state of what was consumed stays in the state of its contract. -/

namespace Rgb
open MemStash Props Stock

variable {H : Commit}

theorem gentry_run {s t : MemState} {es : List StEvent} (hp : EventsProper es) (hr : runSt H s es = some t) {c ty : Nat} {key : GlobalOut}
    (h : ∃ y, gentry s c ty key = some y) : ∃ y, gentry t c ty key = some y := by
  obtain ⟨y, h⟩ := h
  rw [runSt_gentry hp hr, h]
  cases (accepted H s es).reverse.findSome? (fun call => if c = call.contract H then call.globals H ty key else none) with
  | none => exact ⟨y, rfl⟩
  | some z => exact ⟨z, rfl⟩

theorem gentry_calls {s t : MemState} {calls : List StCall} (hp : ∀ c ∈ calls, c.Proper) (h : StCall.execAll H s calls = some (t, none)) {ty : Nat} {key : GlobalOut} :
    (∀ c, (∃ y, gentry s c ty key = some y) → ∃ y, gentry t c ty key = some y) ∧
    ∀ call ∈ calls, (∃ d, call.globals H ty key = some d) → ∃ y, gentry t (call.contract H) ty key = some y := by
  induction calls generalizing s with
  | nil =>
    simp only [StCall.execAll, Option.some.injEq, Prod.mk.injEq] at h
    obtain ⟨rfl, -⟩ := h
    exact ⟨fun _ h => h, by simp⟩
  | cons call calls ih =>
    simp only [StCall.execAll] at h
    split at h
    · cases h
    · simp at h
    · rename_i s₁ he
      obtain ⟨i1, i2⟩ := ih (fun c hc => hp c (by simp [hc])) h
      rcases exec_spec (hp call (by simp)) he with ⟨-, sp⟩ | ⟨hne, -⟩
      swap; · exact absurd rfl hne
      refine ⟨fun c ⟨y, hy⟩ => i1 c ?_, fun c hc hd => ?_⟩
      · rw [sp.gentry, hy]
        cases (if c = call.contract H then call.globals H ty key else none) with
        | none => exact ⟨y, rfl⟩
        | some z => exact ⟨z, rfl⟩
      · rcases List.mem_cons.mp hc with rfl | hc
        · obtain ⟨d, hd⟩ := hd
          refine i1 _ ⟨d, ?_⟩
          rw [sp.gentry, if_pos rfl, hd]; rfl
        · exact i2 c hc hd

theorem gentry_fascia (hH : H.Binding) {r : Resolver} {w : WitnessId} (l : List (Nat × Bundle))
    (hp : ∀ e ∈ l, e.2.WF H ∧ ∀ t ∈ OMap.vals e.2.known, t.Proper ∧ t.kind = .transition)
    {k k' : Stock} (hk : Hist H k) (h : fasciaBundles H r w l k = some (k', none)) {c : Nat} {b : Bundle} (hb : (c, b) ∈ l) {o : Nat} {x : Op}
    (hx : OMap.get? b.known o = some x) {ty : Nat} {key : GlobalOut} (hd : ∃ d, globalAt (x.id H) x.nonce (.transition w x.ty) x.globals ty key = some d) :
    ∃ y, gentry k'.state c ty key = some y := by
  induction l generalizing k with
  | nil => cases hb
  | cons z l ih =>
    obtain ⟨c₀, b₀⟩ := z
    simp only [fasciaBundles] at h
    split at h
    · cases h
    have k1 := hk.withIndex (.bundle c₀ b₀ w)
    simp only [IdxOp.exec] at k1
    cases e2 : k.index.indexBundle H c₀ b₀ w with | mk x o
    rw [e2] at k1
    simp only [e2] at h
    cases o with
    | some y => simp only at h; cases h
    | none =>
    simp only at h
    cases e1 : k.state.updateFromBundle H c₀ b₀ w r with
    | none => simp [e1] at h
    | some p =>
    obtain ⟨t, o⟩ := p
    have hpt := (hp (c₀, b₀) (by simp)).2
    obtain ⟨es, he, hr⟩ := updateFromBundle_run hpt e1
    have k2 := k1.withState he hr
    cases o with
    | some y => simp only [e1] at h; cases h
    | none =>
    simp only [e1] at h
    cases e3 : k.stash.consumeBundle H b₀ with
    | none => simp [e3] at h
    | some q =>
    obtain ⟨s, o⟩ := q
    obtain ⟨s1, -, -⟩ := step_consumeBundle hH k.stash hk.good b₀ (hp (c₀, b₀) (by simp)).1
    have k3 := k2.withStash (s1 s o e3).1
    cases o with
    | error y => simp only [e3] at h; cases h
    | ok y =>
    simp only [e3] at h
    rcases List.mem_cons.mp hb with hb | hb
    · cases hb
      obtain ⟨es', h1, h2⟩ := (fasciaBundles_ext hH l (fun x hx => hp x (by simp [hx])) k3 h).state
      refine gentry_run h1 h2 ?_
      simp only [MemState.updateFromBundle] at e1
      split at e1
      swap; · cases e1
      split at e1
      · rename_i hemp; rw [List.isEmpty_iff.mp hemp] at hx; cases hx
      split at e1
      · cases e1
      rename_i ord hord
      have hp' : ∀ c' ∈ b.known.map (fun k => StCall.transition c k.2 w ord), c'.Proper := by
        intro c' hc'
        obtain ⟨z, hz, rfl⟩ := List.mem_map.mp hc'
        exact hpt z.2 (List.mem_map.mpr ⟨z, hz, rfl⟩)
      exact (gentry_calls hp' e1).2 (.transition c _ w ord) (List.mem_map.mpr ⟨_, OMap.mem_of_get? hx, rfl⟩) hd
    · exact ih (fun x hx => hp x (by simp [hx])) k3 h hb

theorem globalAt_revealWith {g : Nat → Option Seal} (hg : Right H g) {t : Op} {ow : OpWitness} {ty : Nat} {key : GlobalOut} :
    globalAt ((t.revealWith g).id H) (t.revealWith g).nonce ow (t.revealWith g).globals ty key = globalAt (t.id H) t.nonce ow t.globals ty key := by
  rw [Op.revealWith_id hg]; rfl

/-- The global state of an operation which an event brought is in the state of the contract after it. -/
theorem gentry_event (hH : H.Binding) {I : Ids} {M : Mpc} {G : SchemaDoc → SchemaGlobals} (hG : ∀ d, OMap.Sorted (G d).maxItems)
    {e : StockEvent} (hp : e.Sound H) {k k' : Stock} (hk : Hist H k) (h : e.Done H I M G k k') {c ty : Nat} {key : GlobalOut} :
    (∀ b w o t, e.Brings H c b w → OMap.get? b.known o = some t → (∃ d, globalAt (t.id H) t.nonce (.transition w t.ty) t.globals ty key = some d) →
      ∃ y, gentry k'.state c ty key = some y) ∧
    (∀ con r, e = .consignment con r → con.data.genesis.contractId H = c →
      (∃ d, globalAt (con.data.genesis.id H) con.data.genesis.nonce .genesis con.data.genesis.globals ty key = some d) → ∃ y, gentry k'.state c ty key = some y) := by
  cases e with
  | consignment con r =>
    obtain ⟨con', hc, hbd⟩ := consignment_done h
    have hs := resolve_sound hH hp hc
    obtain ⟨-, hgen, -, -, -⟩ := resolve_proper hH _ con con' r hp.proper hc
    obtain ⟨b1, -⟩ := resolve_brings hH hp.proper hc
    simp only [consumeBody] at hbd
    cases e1 : k.state.updateFromConsignment H (G con'.schema) con'.data r with
    | none => simp [e1] at hbd
    | some p =>
    obtain ⟨t, o⟩ := p
    cases o with
    | some x => simp only [e1] at hbd; cases hbd
    | none =>
    obtain ⟨calls, c1, c2, c3, c4, -⟩ := updateFromConsignment_done (hG _) hs.proper e1
    have hst : k'.state = t := by
      simp only [e1] at hbd
      split at hbd
      · cases hbd
      · split at hbd
        · cases hbd
        · cases hbd
        · cases hbd; rfl
    have hcalls := (gentry_calls (ty := ty) (key := key) c1 c2).2
    rw [hst]
    constructor
    · intro b w o x hb hx hd
      obtain ⟨b', hb', hr⟩ := b1 c b w hb
      obtain ⟨g, hg, hx'⟩ := hr.get? hx
      obtain ⟨ord, -, hcall⟩ := c4 c b' w _ _ hb' hx'
      refine hcalls _ hcall ?_
      show ∃ d, globalAt ((x.revealWith g).id H) (x.revealWith g).nonce (.transition w x.ty) (x.revealWith g).globals ty key = some d
      rw [globalAt_revealWith hg]
      exact hd
    · intro con₁ r₁ he hcid hd
      cases he
      have := hcalls _ c3
      rw [hgen] at this
      rw [← hcid]
      exact this hd
  | fascia f r =>
    obtain ⟨s, u, h1, h2⟩ := fascia_done h
    obtain ⟨s1, -, -⟩ := step_consumeWitness k.stash hk.good ⟨f.witness, f.anchor⟩
    refine ⟨fun b w o t hb ht hd => ?_, fun con r he => nomatch he⟩
    cases hb with
    | fascia _ _ _ _ hb => exact gentry_fascia hH f.bundles hp.proper (hk.withStash (s1 s _ h1).1) h2 hb ht hd
  | kit x => exact ⟨fun b w o t hb => (nomatch hb), fun con r he => (nomatch he)⟩
  | secretSeal x => exact ⟨fun b w o t hb => (nomatch hb), fun con r he => (nomatch he)⟩
  | trust i t => exact ⟨fun b w o t hb => (nomatch hb), fun con r he => (nomatch he)⟩
  | update r n => exact ⟨fun b w o t hb => (nomatch hb), fun con r he => (nomatch he)⟩

end Rgb
