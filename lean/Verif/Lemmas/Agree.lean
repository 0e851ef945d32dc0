import Verif.Spec.Agree
import Verif.Lemmas.Supply
import Verif.Props.Change

/-!
Lemmas for C102: what the wallets of a network show agrees.
-/

namespace Rgb

open Stock Index Props

variable {E : CEnv} {n : Nat} {M : Mpc} {G : SchemaDoc → SchemaGlobals} {L : Ledger} {es es' : List StockEvent} {k k' : Stock}

/-- Where no bundle is in two transactions, wallets have operations with the same witness. -/
theorem one_witness (hE : E.Lawful n) (hT : E.TagMaps) (hTC : E.TagsCommitted) (hH : E.H.Binding) (hM : M.Lawful) (hG : ∀ d, OMap.Sorted (G d).maxItems)
    (hI : Ids.Lawful E.H E.I) (hSR : E.S.Restores M) (hO : L.Once) (h : Honest E M G L es k) (h' : Honest E M G L es' k') {c : Nat} {t t' : Op} {w w' : Option WitnessId}
    (ht : Had E.H es c t w) (ht' : Had E.H es' c t' w') (hid : t.id E.H = t'.id E.H) : w = w' := by
  have hk : t.kind = t'.kind := by
    have := congrArg (fun o : Op => o.kind) (Op.conceal_of_id hH hid)
    exact this
  have kinds : ∀ {es : List StockEvent} {k : Stock}, Honest E M G L es k → ∀ {t : Op} {w : Option WitnessId}, Had E.H es c t w → (w = none ∧ t.kind = .genesis) ∨
      ∃ e ∈ es, ∃ b v, w = some v ∧ t.kind = .transition ∧ e.Brings E.H c b v ∧ OMap.contains b.known (t.id E.H) = true := by
    intro es k h t w ht
    have hs := h.sane hE hT hTC hH hM hG hI
    have hp : ∀ e ∈ es, e.Proper E.H := fun e he => (hs.furnished.sound e he).proper
    cases ht with
    | genesis con r he => exact .inl ⟨rfl, (hp _ he).1.genesisKind⟩
    | extension con r t wb he ht hw => rw [hs.furnished.noExtensions con r he] at ht; cases ht
    | transition e _ b w _ he hb htk =>
      have hwf := brought_wf (hs.furnished.sound e he) hb
      refine .inr ⟨e, he, b, w, rfl, ?_, hb, ?_⟩
      · have := hp e he
        cases hb with
        | consignment con r wb _ hw hb => exact (this.2.2.2.2 wb hw b hb t htk).2
        | fascia f r _ _ hb => exact ((this _ hb).2 t htk).2
      · obtain ⟨⟨i, y⟩, hi, hy⟩ := List.mem_map.1 htk
        obtain rfl : y = t := hy
        have hg := hwf.sorted.get?_of_mem hi
        rw [(hwf.keyed _ _ hg).1]
        exact OMap.contains_iff.2 ⟨_, hg⟩
  rcases kinds h ht with ⟨e1, e2⟩ | ⟨e, he, b, w, e1, e2, hb, hc⟩ <;> rcases kinds h' ht' with ⟨e1', e2'⟩ | ⟨e', he', b', w', e1', e2', hb', hc'⟩
  · rw [e1, e1']
  · rw [e2, e2'] at hk; cases hk
  · rw [e2, e2'] at hk; cases hk
  · rw [e1, e1']
    have g1 := (h.attd hE hT hTC hH hM hG hI hSR).homes e he c b w hb _ hc
    have g2 := (h'.attd hE hT hTC hH hM hG hI hSR).homes e' he' c b' w' hb' _ hc'
    rw [hid, g2] at g1
    have g3 := ((h.sane hE hT hTC hH hM hG hI).onLedger e he c b w hb).1
    have g4 := ((h'.sane hE hT hTC hH hM hG hI).onLedger e' he' c b' w' hb').1
    rw [← (Prod.mk.inj g1).2, ← g4] at g3
    rw [hO _ _ _ _ _ g3]

/-- What is allotted by an operation and its witness is determined by them, whoever is shown it. -/
theorem allots_unique {H : Commit} (hH : H.Binding) {own own' : List Seal} {t t' : Op} {w : Option WitnessId} {kind kind' : StateKind} {a a' : OutAssign} (hid : t.id H = t'.id H)
    (h : t.Allots H own w kind a) (h' : t'.Allots H own' w kind' a') (ho : a.opout = a'.opout) : kind = kind' ∧ a = a' := by
  obtain ⟨h1, h2, ta, x, sl, h3, h4, h5, h6, h7, h8⟩ := h
  obtain ⟨h1', h2', ta', x', sl', h3', h4', h5', h6', h7', h8'⟩ := h'
  rw [← ho] at h3' h5'
  have hc := Op.get_conceal (Op.conceal_assigns (Op.conceal_of_id hH hid)) a.opout.ty
  rw [h3, h3', Option.map_some, Option.map_some, Option.some.injEq] at hc
  have hk := (typed_conceal_iff.mp hc).1
  have hx := congrArg (fun l => l[a.opout.no]?) (typed_conceal_iff.mp hc).2
  simp only [List.getElem?_map, h5, h5', Option.map_some, Option.some.injEq] at hx
  have hst := Assign.state_agree hH hx h6 h6'
  have sec : ∀ {y : Assign} {s : Seal} {own : List Seal}, (y.seal? = some s ∨ y.seal? = none ∧ y.secret H = H.sealHash s ∧ s ∈ own) → y.secret H = H.sealHash s := by
    rintro y s own (h | ⟨-, h, -⟩)
    · cases y <;> simp_all [Assign.seal?, Assign.secret]
    · exact h
  have hsec : x.secret H = x'.secret H := by
    cases x <;> cases x' <;> simp_all [Assign.conceal, Assign.secret]
  have hsl : sl = sl' := hH.seal_inj _ _ ((sec h7).symm.trans (hsec.trans (sec h7')))
  subst hsl
  rw [h8] at h8'
  refine ⟨h4.symm.trans (hk.trans h4'), ?_⟩
  obtain ⟨ao, asl, ast, aw⟩ := a
  obtain ⟨bo, bsl, bst, bw⟩ := a'
  simp only at ho hst h2 h2' h8'
  cases h8'
  subst ho; subst hst; subst h2; subst h2'
  rfl

theorem allDone_split : ∀ {es₁ es₂ : List StockEvent} {k₀ k₂ : Stock}, AllDone E.H E.I M G (es₁ ++ es₂) k₀ k₂ → ∃ k₁, AllDone E.H E.I M G es₁ k₀ k₁ ∧ AllDone E.H E.I M G es₂ k₁ k₂
  | [], _, k₀, _, h => ⟨k₀, rfl, h⟩
  | e :: es₁, es₂, k₀, k₂, h => by
    obtain ⟨k, h1, h2⟩ := h
    obtain ⟨k₁, h3, h4⟩ := allDone_split (es₁ := es₁) h2
    exact ⟨k₁, ⟨k, h1, h3⟩, h4⟩

/-- The value at an index of a type of global state which an operation declares is determined by its id. -/
theorem declares_unique {H : Commit} (hH : H.Binding) {t t' : Op} {w w' : Option WitnessId} {ty : Nat} {key key' : GlobalOut} {d d' : Nat}
    (h : t.Declares H w ty key d) (h' : t'.Declares H w' ty key' d') (ho : key.opid = key'.opid) (hi : key.index = key'.index) : d = d' := by
  obtain ⟨h1, -, -, vals, h2, h3⟩ := h
  obtain ⟨h1', -, -, vals', h2', h3'⟩ := h'
  have hg : t.globals = t'.globals := by
    have := congrArg (fun o : Op => o.globals) (Op.conceal_of_id hH (h1.symm.trans (ho.trans h1')))
    exact this
  rw [hg, h2'] at h2
  cases h2
  rw [hi, h3'] at h3
  cases h3
  rfl

/-! ### The order of global state -/

/-- What decides on the place of an item. -/
def GlobalOrd.rank (c : Nat) (o : GlobalOrd) : List Nat := [o.opid?.getD c, o.no, if o.opid?.isSome then 1 else 0]

theorem rank_congr {c : Nat} {o o' : GlobalOrd} (h : o.opid? = o'.opid? ∧ o.no = o'.no) : o.rank c = o'.rank c := by
  unfold GlobalOrd.rank; rw [h.1, h.2]

theorem rank_eq {c : Nat} {o o' : GlobalOrd} (h : lexLt (o.rank c) (o'.rank c) = false) (h' : lexLt (o'.rank c) (o.rank c) = false) :
    o.opid? = o'.opid? ∧ o.no = o'.no := by
  have key : ∀ a b d a' b' d' : Nat, lexLt [a, b, d] [a', b', d'] = false → lexLt [a', b', d'] [a, b, d] = false → a = a' ∧ b = b' ∧ d = d' := by
    intro a b d a' b' d' h1 h2
    simp only [lexLt] at h1 h2
    repeat' split at h1
    all_goals first | cases h1 | skip
    all_goals repeat' split at h2
    all_goals first | cases h2 | skip
    all_goals omega
  obtain ⟨h1, h2, h3⟩ := key _ _ _ _ _ _ h h'
  refine ⟨?_, h2⟩
  cases e : o.opid? <;> cases e' : o'.opid? <;> rw [e, e'] at h1 h3
  · exact absurd h3 (by simp)
  · exact absurd h3 (by simp)
  · exact congrArg some h1

theorem pairwise_at {α : Type} {R : α → α → Prop} {l : List α} (h : l.Pairwise R) {i j : Nat} {x y : α} (hx : l[i]? = some x) (hy : l[j]? = some y) (hij : i < j) :
    R x y := by
  obtain ⟨h1, rfl⟩ := List.getElem?_eq_some_iff.1 hx
  obtain ⟨h2, rfl⟩ := List.getElem?_eq_some_iff.1 hy
  exact List.pairwise_iff_getElem.1 h i j h1 h2 hij

/-- Items of global state are listed by decreasing rank. -/
theorem items_ranked {H : Commit} {I : Ids} {M : Mpc} {G : SchemaDoc → SchemaGlobals} {es : List StockEvent} {k : Stock} (hH : H.Binding) (hG : ∀ d, OMap.Sorted (G d).maxItems)
    (he : ∀ e ∈ es, e.Proper H) (h : runStock H I M G es .empty = some k) {c : Nat} {v : ContractView} (hv : k.state.contractState c = .ok v) {ty : Nat}
    {items : List (GlobalOrd × Nat)} (hi : v.globalItems ty = some items) :
    items.Pairwise (fun x y => lexLt (x.1.rank c) (y.1.rank c) = false) := by
  simp only [ContractView.globalItems] at hi
  obtain ⟨gs, h1, rfl⟩ := Option.map_eq_some_iff.mp hi
  obtain ⟨ses, h4, h5⟩ := (Stock.Reachable.hist hH ⟨I, M, G, es, hG, he, h⟩).state
  have hs := runSt_inv h4 stInv_empty h5
  have hsort := (hs.cs _ _ (contractState_get? hv)).glob.known _ _ h1
  have src : ∀ e ∈ gs.known, ∃ (t : Op) (w : Option WitnessId), t.Declares H w ty e.1 e.2 ∧ (e.1.opWitness = .genesis → e.1.opid = c) := by
    intro e hm
    have h6 : gentry k.state c ty e.1 = some e.2 := by
      simp only [gentry, contractState_get? hv, Option.bind_some, gget, h1]
      exact hsort.get?_of_mem hm
    obtain ⟨t, w, h7, h8⟩ := (source_run hH hG es (fun _ => id) he source_empty h).state.globals _ _ _ _ h6
    refine ⟨t, w, h8, fun hg => ?_⟩
    have hw : w = none := by rw [← h8.2.2.1, hg]; rfl
    subst hw
    rw [h8.1]
    generalize hn : (none : Option WitnessId) = w at h7
    cases h7 with
    | genesis con r hm => rw [Op.contractId, (he _ hm).1.genesisKind]
    | extension _ _ _ _ _ _ _ => cases hn
    | transition _ _ _ _ _ _ _ _ => cases hn
  have hnonce : ∀ e ∈ gs.known, ∀ e' ∈ gs.known, e.1.opid = e'.1.opid → e.1.nonce = e'.1.nonce := by
    intro e hm e' hm' ho
    obtain ⟨t, w, d, -⟩ := src e hm
    obtain ⟨t', w', d', -⟩ := src e' hm'
    rw [d.2.1, d'.2.1]
    have e := Op.conceal_of_id hH (d.1.symm.trans (ho.trans d'.1))
    exact (congrArg (fun o : Op => o.nonce) e : (t.conceal H).nonce = (t'.conceal H).nonce)
  have hrank : ∀ e ∈ gs.known, ∀ x, v.globalItem e = some x → x.1.rank c = [e.1.opid, e.1.index, if e.1.opWitness = .genesis then 0 else 1] := by
    intro e hm x hx
    obtain ⟨t, w, -, hg⟩ := src e hm
    simp only [ContractView.globalItem] at hx
    cases e1 : e.1.opWitness with
    | genesis => simp only [e1] at hx; cases hx; simp [GlobalOrd.rank, GlobalOrd.opid?, GlobalOrd.no, hg e1]
    | transition w ty =>
      simp only [e1] at hx
      obtain ⟨ord, -, e2⟩ := Option.map_eq_some_iff.mp hx
      cases e2; simp [GlobalOrd.rank, GlobalOrd.opid?, GlobalOrd.no]
    | extension w ty =>
      simp only [e1] at hx
      obtain ⟨ord, -, e2⟩ := Option.map_eq_some_iff.mp hx
      cases e2; simp [GlobalOrd.rank, GlobalOrd.opid?, GlobalOrd.no]
  refine List.Pairwise.sublist (List.take_sublist _ _) ?_
  have hp : (gs.known.reverse).Pairwise (fun a b => Key.lt b.1 a.1 = true) := List.pairwise_reverse.2 (List.pairwise_map.1 hsort)
  refine List.Pairwise.filterMap v.globalItem ?_ (List.Pairwise.and_mem.1 hp)
  rintro a a' ⟨ha, ha', hlt⟩ x hx y hy
  rw [hrank a (List.mem_reverse.1 ha) x hx, hrank a' (List.mem_reverse.1 ha') y hy]
  have hn := hnonce a (List.mem_reverse.1 ha) a' (List.mem_reverse.1 ha')
  simp only [Key.lt, Key.enc, List.cons_append, List.nil_append, lexLt] at hlt ⊢
  split at hlt
  · rename_i h1; rw [if_neg (by omega), if_pos h1]
  · split at hlt
    · cases hlt
    · have ho : a.1.opid = a'.1.opid := by omega
      rw [hn ho, if_neg (Nat.lt_irrefl _), if_neg (Nat.lt_irrefl _)] at hlt
      rw [if_neg (by omega), if_neg (by omega)]
      split at hlt
      · rename_i h1; rw [if_neg (by omega), if_pos h1]
      · split at hlt
        · cases hlt
        · rw [if_neg (by omega), if_neg (by omega)]
          cases e1 : a.1.opWitness <;> cases e2 : a'.1.opWitness <;> simp_all [OpWitness.enc, lexLt]

end Rgb
