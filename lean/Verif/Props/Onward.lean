import Verif.Lemmas.Onward
import Verif.Props.Usable
import Verif.Props.Pass

/-! # C85: received state can be passed on -/

namespace Rgb.Props
open Rgb

variable {H : Commit} {I : Ids} {M : Mpc} {G : SchemaDoc → SchemaGlobals} {E : Stock.Env}
  {es es₀ : List StockEvent} {k k₀ k₁ k₂ : Stock} {c fuel : Nat} {outputs outputs' : List Outpoint} {secret secret' : Option Nat}
  {con : Consignment} {r : Resolver}

theorem allDone_reachable (hG : ∀ d, OMap.Sorted (G d).maxItems) (hs : ∀ e ∈ es, e.Sound H) (h : AllDone H I M G es .empty k) : k.Reachable H := by
  refine ⟨I, M, G, es, hG, fun e he => (hs e he).proper, ?_⟩
  clear * - h
  revert h
  generalize Stock.empty = k
  intro h
  induction es generalizing k with
  | nil => cases h; rfl
  | cons e es ih =>
    obtain ⟨k', h1, h2⟩ := h
    simp only [runStock, done_exec h1, Option.bind_some]
    exact ih _ h2

/-- **C85** (transfers). A stock got its contents by events which were finished without an error. Requested outputs are of the genesis or of transitions which came
with their histories, back to the genesis, in bundles with valid witnesses. Then the transfer is made, whatever else the stock has, and without
a bound on the depth of the histories. -/
theorem C85_transferable (hH : H.Binding) (hM : M.Lawful) (hG : ∀ d, OMap.Sorted (G d).maxItems) (hI : Ids.Lawful H I) (hE : E.Lawful)
    (hc : Furnished H I E es) (h : AllDone H I M G es .empty k) (himp : Imported H es c) (hu : OneCommitted H es c) (hfew : k.FewIfaces I c)
    {l : OSet Opout} (hl : k.index.opoutsByOutputs c outputs = .ok l)
    (hreq : ∀ o, Stock.Requested k c outputs secret o → o.op = c ∨ Traced H es k.Valid c o.op)
    (hone : ∀ s, secret = some s → Stock.OncePerBundle H k c outputs s) :
    ∃ fuel con, ∀ fuel', fuel ≤ fuel' → k.transfer H I E fuel' c outputs secret = some (.ok con) :=
  transfer_traced hH hM hG hI hE hc h himp hu hfew hl hreq hone

/-- **C85** (receiving). A transfer made by a stock `k₀` with any history is accepted by a stock with a history of which nothing but histories of operations is missing, and
the resolver finds the witnesses valid. Then nothing else is missing after it, and each operation on which the outputs requested by the payer depend came with its
history, back to the genesis, in bundles with valid witnesses; the same is kept of what came before. -/
theorem C85_received (hH : H.Binding) (hG : ∀ d, OMap.Sorted (G d).maxItems)
    (he : ∀ e ∈ es₀, StockEvent.Proper H e) (hes : runStock H I M G es₀ .empty = some k₀)
    (ht : k₀.transfer H I E fuel c outputs secret = some (.ok con))
    (hc : Furnished H I E es) (h : AllDone H I M G es .empty k₁) (hu : OneCommitted H es c)
    (hs : SameBundles H es con) (hw : SameWitnesses H es con) (hd : StockEvent.Done H I M G k₁ k₂ (.consignment con r))
    (hv : ∀ wb ∈ con.data.bundles, ∃ ord, r wb.id = some ord ∧ ord.isValid = true) :
    AllDone H I M G (es ++ [.consignment con r]) .empty k₂ ∧ Furnished H I E (es ++ [.consignment con r]) ∧
    Imported H (es ++ [.consignment con r]) c ∧ OneCommitted H (es ++ [.consignment con r]) c ∧
    (∀ o, Stock.Needed k₀ c outputs secret o → Traced H (es ++ [.consignment con r]) k₂.Valid c o) ∧
    (∀ V c' o, Traced H es V c' o → Traced H (es ++ [.consignment con r]) V c' o) := by
  have hr : k₀.Reachable H := ⟨I, M, G, es₀, hG, he, hes⟩
  have kept := runStock_kept hH hG es₀ he kept_empty hes
  have hf := furnished_transfer hH hr kept ht r hc hs
  have h1 := (C36_full_history_partial hH hr ht).2.1
  have hr1 : k₁.Reachable H := allDone_reachable hG hc.sound h
  refine ⟨allDone_append h ⟨k₂, hd, rfl⟩, hf, ⟨con, r, by simp, h1⟩, oneCommitted_transfer hH kept ht r hu hw, fun o ho => ?_, fun V c' o ho => ?_⟩
  · refine needed_traced hH hr kept ht hf.sound (List.mem_append_right _ (.head _)) (fun wb hwb => ?_) ho
    obtain ⟨ord, h2, h3⟩ := hv wb hwb
    have hso := transfer_sound hH kept ht r
    have hne : ∃ b, b ∈ wb.anchored.bundles := by
      cases hx : wb.anchored with
      | tapret x => exact ⟨x.bundle, by simp [AnchoredBundles.bundles, AnchoredBundles.list]⟩
      | opret x => exact ⟨x.bundle, by simp [AnchoredBundles.bundles, AnchoredBundles.list]⟩
      | double x y => exact ⟨x.bundle, by simp [AnchoredBundles.bundles, AnchoredBundles.list]⟩
    obtain ⟨b, hb⟩ := hne
    obtain ⟨r', ord', h4, h5, -, h7⟩ := C64_order hH hG hr1 hso hd (.consignment con r wb b hwb hb)
    cases h4
    rw [h2] at h5
    cases h5
    rw [Stock.Valid, h7, h3]
  · exact ho.mono hH hf.sound (fun e he => List.mem_append_left _ he) (fun _ h => h)

/-- **C85** (spending). A stock consumes a fascia in which a transition of a contract spends outputs of its genesis and of transitions which came with their histories, and
the resolver finds its witness valid. Then the transition came with its history, too; the same is kept of what came before. -/
theorem C85_spent (hH : H.Binding) (hG : ∀ d, OMap.Sorted (G d).maxItems) (hs : ∀ e ∈ es, e.Sound H) (h : AllDone H I M G es .empty k₁)
    {f : Stock.Fascia} (hf : StockEvent.Sound H (.fascia f r)) (hd : StockEvent.Done H I M G k₁ k₂ (.fascia f r))
    (hv : ∃ ord, r f.witness.id = some ord ∧ ord.isValid = true) {b : Bundle} (hb : (c, b) ∈ f.bundles) {o : Nat} {t : Op}
    (ht : OMap.get? b.known o = some t) (hi : ∀ i ∈ t.inputs, i.op = c ∨ Traced H es k₂.Valid c i.op) :
    AllDone H I M G (es ++ [.fascia f r]) .empty k₂ ∧ Traced H (es ++ [.fascia f r]) k₂.Valid c o ∧
    (∀ V c' o, Traced H es V c' o → Traced H (es ++ [.fascia f r]) V c' o) := by
  have hs' : ∀ e ∈ es ++ [StockEvent.fascia f r], e.Sound H := by
    intro e he
    rcases List.mem_append.mp he with he | he
    · exact hs e he
    · rw [List.mem_singleton] at he; exact he ▸ hf
  have mono : ∀ V c' o, Traced H es V c' o → Traced H (es ++ [.fascia f r]) V c' o :=
    fun V c' o ho => ho.mono hH hs' (fun e he => List.mem_append_left _ he) (fun _ h => h)
  refine ⟨allDone_append h ⟨k₂, hd, rfl⟩, ?_, mono⟩
  have hbr : StockEvent.Brings H (.fascia f r) c b f.witness.id := .fascia f r c b hb
  refine .of hH hs' (List.mem_append_right _ (.head _)) hbr ht ?_ (fun i hm hic => mono _ _ _ ((hi i hm).resolve_left hic))
  obtain ⟨ord, h2, h3⟩ := hv
  obtain ⟨r', ord', h4, h5, -, h7⟩ := C64_order hH hG (allDone_reachable hG hs h) hf hd hbr
  cases h4
  rw [h2] at h5
  cases h5
  rw [Stock.Valid, h7, h3]

/-- **C85** (passing on). What was received in a transfer can be transferred further: after a transfer is accepted, with the witnesses valid, a transfer of any
outputs of the operations on which the outputs requested by the payer depend, of operations which came with their histories before, and of the genesis, is made.
Missing: unrelated transitions of the same bundles, see `C85_siblings_fails`. -/
theorem C85_passed_on_partial (hH : H.Binding) (hM : M.Lawful) (hG : ∀ d, OMap.Sorted (G d).maxItems) (hI : Ids.Lawful H I) (hE : E.Lawful)
    (he : ∀ e ∈ es₀, StockEvent.Proper H e) (hes : runStock H I M G es₀ .empty = some k₀)
    (ht : k₀.transfer H I E fuel c outputs secret = some (.ok con))
    (hc : Furnished H I E es) (h : AllDone H I M G es .empty k₁) (hu : OneCommitted H es c)
    (hs : SameBundles H es con) (hw : SameWitnesses H es con) (hd : StockEvent.Done H I M G k₁ k₂ (.consignment con r))
    (hv : ∀ wb ∈ con.data.bundles, ∃ ord, r wb.id = some ord ∧ ord.isValid = true) (hfew : k₂.FewIfaces I c)
    {l : OSet Opout} (hl : k₂.index.opoutsByOutputs c outputs' = .ok l)
    (hreq : ∀ o, Stock.Requested k₂ c outputs' secret' o → o.op = c ∨ Stock.Needed k₀ c outputs secret o.op ∨ Traced H es k₂.Valid c o.op)
    (hone : ∀ s, secret' = some s → Stock.OncePerBundle H k₂ c outputs' s) :
    ∃ fuel con', ∀ fuel', fuel ≤ fuel' → k₂.transfer H I E fuel' c outputs' secret' = some (.ok con') := by
  obtain ⟨h1, h2, h3, h4, h5, h6⟩ := C85_received hH hG he hes ht hc h hu hs hw hd hv
  refine C85_transferable hH hM hG hI hE h2 h1 h3 h4 hfew hl (fun o ho => ?_) hone
  rcases hreq o ho with h | h | h
  · exact .inl h
  · exact .inr (h5 _ h)
  · exact .inr (h6 _ _ _ h)

/-- **C85** (new wallet). A wallet which has made nothing but seals so far accepts a transfer, no bundle of which has transitions on which the requested outputs
don't depend. Then a transfer of any outpoints is made, whatever the wallet knows of them.
Missing: bundles with other transitions, see `C85_siblings_fails`. -/
theorem C85_new_wallet_partial (hH : H.Binding) (hM : M.Lawful) (hG : ∀ d, OMap.Sorted (G d).maxItems) (hI : Ids.Lawful H I) (hE : E.Lawful)
    (he : ∀ e ∈ es₀, StockEvent.Proper H e) (hes : runStock H I M G es₀ .empty = some k₀)
    (ht : k₀.transfer H I E fuel c outputs secret = some (.ok con))
    (hn : ∀ e ∈ es, ∃ x, e = .secretSeal x) (h : AllDone H I M G es .empty k₁) (hd : StockEvent.Done H I M G k₁ k₂ (.consignment con r))
    (hv : ∀ wb ∈ con.data.bundles, ∃ ord, r wb.id = some ord ∧ ord.isValid = true) (hfew : k₂.FewIfaces I c)
    (hall : ∀ wb ∈ con.data.bundles, ∀ b ∈ wb.anchored.bundles, ∀ o, OMap.contains b.known o = true → Stock.Needed k₀ c outputs secret o)
    {l : OSet Opout} (hl : k₂.index.opoutsByOutputs c outputs' = .ok l) :
    ∃ fuel con', ∀ fuel', fuel ≤ fuel' → k₂.transfer H I E fuel' c outputs' none = some (.ok con') := by
  have nob : ∀ e ∈ es, ∀ c b w, ¬ StockEvent.Brings H e c b w := by
    intro e he c b w hb
    obtain ⟨x, rfl⟩ := hn e he
    cases hb
  have hc : Furnished H I E es := by
    refine ⟨fun e he => ?_, fun e he _ _ c b w _ _ _ hb => absurd hb (nob e he c b w), ?_, ?_, ?_, ?_, ?_⟩
    · obtain ⟨x, rfl⟩ := hn e he
      exact ⟨trivial, (by intro _ _ _ hb; cases hb), (by intro _ _ h; cases h), (by intro _ _ h; cases h)⟩
    · intro con r he; obtain ⟨x, hx⟩ := hn _ he; cases hx
    · intro con r he; obtain ⟨x, hx⟩ := hn _ he; cases hx
    · intro con r he; obtain ⟨x, hx⟩ := hn _ he; cases hx
    · intro con r he; obtain ⟨x, hx⟩ := hn _ he; cases hx
    · intro y he; obtain ⟨x, hx⟩ := hn _ he; cases hx
  have hs : SameBundles H es con := fun e he c b w hb => absurd hb (nob e he c b w)
  have hw : SameWitnesses H es con := fun e he b w hb => absurd hb (nob e he _ b w)
  have hu : OneCommitted H es c := fun e he _ _ b _ w hb => absurd hb (nob e he _ b w)
  obtain ⟨h1, h2, h3, h4, h5, -⟩ := C85_received hH hG he hes ht hc h hu hs hw hd hv
  have hf := complete_facts hH hM hG h2 h1
  refine C85_transferable hH hM hG hI hE h2 h1 h3 h4 hfew hl (fun o ho => ?_) (by simp)
  rcases ho with ⟨l', h6, h7⟩ | ⟨s, h6, -⟩
  · rcases hf.outs h6 o h7 with h | ⟨e, he', b, w, hb, hk⟩
    · exact .inl h
    · right
      rcases List.mem_append.mp he' with he' | he'
      · exact absurd hb (nob e he' _ b w)
      · rw [List.mem_singleton] at he'
        subst he'
        cases hb with
        | consignment _ _ wb _ hwb hb => exact h5 _ (hall wb hwb b hb _ hk)
  · cases h6

/-! ## Examples -/

theorem exOn_needed (o : Nat) (ho : o = 2 ∨ o = 4 ∨ o = 6) : Stock.Needed World.k 0 [⟨.bitcoin, 62, 1⟩] (some 6) o := by
  have h1 : World.k.index.opoutsByOutputs 0 [⟨.bitcoin, 62, 1⟩] = .ok [⟨6, 1, 0⟩] := by decide +kernel
  have h2 : World.k.index.opoutsByTerminals [6] = [⟨4, 1, 0⟩] := by decide +kernel
  have h3 : Stock.Knows World.k 4 2 World.t2 := by decide +kernel
  have n4 : Stock.Needed World.k 0 [⟨.bitcoin, 62, 1⟩] (some 6) 4 :=
    .output (o := ⟨4, 1, 0⟩) (.inr ⟨6, rfl, by rw [h2]; exact .head _⟩) (by decide)
  rcases ho with rfl | rfl | rfl
  · exact .input (i := ⟨2, 1, 0⟩) n4 h3 (.head _) (by decide)
  · exact n4
  · exact .output (o := ⟨6, 1, 0⟩) (.inl ⟨_, h1, .head _⟩) (by decide)

/-- A wallet with one seal accepts the transfer of the example world, and transfers what it got to the seal. -/
example : ∃ con k₁ k₂, World.k.transfer World.H World.I World.E 100 0 [⟨.bitcoin, 62, 1⟩] (some 6) = some (.ok con) ∧
    AllDone World.H World.I World.M World.G [.secretSeal World.sC] .empty k₁ ∧
    StockEvent.Done World.H World.I World.M World.G k₁ k₂ (.consignment con World.r) ∧
    k₂.index.opoutsByOutputs 0 [⟨.bitcoin, 70, 0⟩] = .ok [⟨4, 1, 0⟩] ∧
    ∃ fuel con', ∀ fuel', fuel ≤ fuel' → k₂.transfer World.H World.I World.E fuel' 0 [⟨.bitcoin, 70, 0⟩] none = some (.ok con') := by
  have h : ∃ con, World.k.transfer World.H World.I World.E 100 0 [⟨.bitcoin, 62, 1⟩] (some 6) = some (.ok con) ∧
      (∀ wb ∈ con.data.bundles, ∀ b ∈ wb.anchored.bundles, ∀ o ∈ OMap.keys b.known, o = 2 ∨ o = 4 ∨ o = 6) ∧
      ((Stock.fresh [World.sC]).consumeConsignment World.H World.I World.M World.G World.r con).any (fun p => decide (p.2 = none ∧
        (p.1.stash.schema 10).all (fun si => decide (si.iimpls.length ≤ 126)) = true ∧
        p.1.index.opoutsByOutputs 0 [⟨.bitcoin, 70, 0⟩] = .ok [⟨4, 1, 0⟩])) = true := World.any_ok (by decide +kernel)
  obtain ⟨con, h1, h2, h3⟩ := h
  cases e1 : (Stock.fresh [World.sC]).consumeConsignment World.H World.I World.M World.G World.r con with
  | none => rw [e1] at h3; cases h3
  | some p =>
    rw [e1] at h3
    obtain ⟨h4, h5, h6⟩ := of_decide_eq_true h3
    obtain ⟨k₂, o⟩ := p
    cases h4
    have ha : AllDone World.H World.I World.M World.G [.secretSeal World.sC] .empty (Stock.fresh [World.sC]) := ⟨_, rfl, rfl⟩
    obtain ⟨l1, l2, l3, -⟩ := exLaws
    refine ⟨con, _, k₂, h1, ha, e1, h6, ?_⟩
    refine C85_new_wallet_partial World.H_binding l3 World.G_sorted l1 l2 World.events_proper (Option.some_get _).symm h1 (by simp) ha e1
      (fun wb _ => ⟨_, rfl, rfl⟩) ?_ ?_ h6
    · intro g si _ hsi
      have h7 : k₂.stash.schema 10 = some si := hsi
      rw [h7] at h5
      exact of_decide_eq_true h5
    · exact fun wb hwb b hb o ho => exOn_needed o (h2 wb hwb b hb o (OMap.mem_keys_iff.mpr ho))

/-- The fascia of the example world spends an output of `t1`, which came with the consignment. -/
example : ∃ k₁ k₂ : Stock, AllDone World.H World.I World.M World.G [.consignment World.con World.r] .empty k₁ ∧
    StockEvent.Done World.H World.I World.M World.G k₁ k₂ (.fascia World.fascia World.r) ∧
    Traced World.H ([.consignment World.con World.r] ++ [.fascia World.fascia World.r]) k₂.Valid 0 6 := by
  obtain ⟨k₁, h1, k₂, h2, rfl⟩ := exAllDone
  have ha : AllDone World.H World.I World.M World.G [.consignment World.con World.r] .empty k₁ := ⟨k₁, h1, rfl⟩
  have hs : ∀ e ∈ [StockEvent.consignment World.con World.r], e.Sound World.H := by
    intro e he
    rw [List.mem_singleton] at he
    exact he ▸ con_sound _
  have hb : StockEvent.Brings World.H (.consignment World.con World.r) 0 World.b1 ⟨.bitcoin, 61⟩ := by
    have h0 : World.con.data.genesis.contractId World.H = 0 := by decide +kernel
    exact h0 ▸ .consignment World.con World.r (World.wb (.tx ⟨61, 0⟩) World.b1) World.b1 (.head _) (.head _)
  have hv : World.k.Valid ⟨.bitcoin, 61⟩ := by unfold Stock.Valid; decide +kernel
  refine ⟨k₁, World.k, ha, h2, (C85_spent World.H_binding World.G_sorted hs ha (fasciaOf_sound _ _ World.b2_check (by decide) rfl _) h2
    ⟨_, rfl, rfl⟩ (c := 0) (b := World.b2) (.head _) (o := 6) (t := World.t3) rfl ?_).2.1⟩
  intro i hi
  simp only [World.t3, List.mem_singleton] at hi
  subst hi
  refine .inr (.of World.H_binding hs (.head _) hb (t := World.t1) rfl hv (fun j hj hjc => ?_))
  simp only [World.t1, List.mem_singleton] at hj
  subst hj
  exact absurd rfl hjc

/-- A transition which spends the output of `t2`. -/
def exSib : Op :=
  { kind := .transition, nonce := 10, inputs := [⟨4, 1, 0⟩], assigns := [(1, ⟨.fungible, [.revealed World.sB (.fungible 4 0 0)]⟩)] }

noncomputable def exSibH : Commit :=
  tableCommit World.seals World.states ([World.g, World.t1, World.t2, World.t3, exSib].map (Op.conceal World.H₀))
    [(.opretFirst, [(0, 2)]), (.opretFirst, [(0, 4)]), (.opretFirst, [(0, 6), (1, 8)])]

/-- The bundles with `t2`, and with `t3` and the transition spending the output of `t2`. -/
def exSib1 : Bundle := ⟨.opretFirst, [(0, 4)], [(4, World.t2)]⟩
def exSib2 : Bundle := ⟨.opretFirst, [(0, 6), (1, 8)], [(6, World.t3), (8, exSib)]⟩

def exSibEvents : List StockEvent := [.consignment World.con World.r, .fascia (World.fasciaOf 62 exSib1) World.r, .fascia (World.fasciaOf 63 exSib2) World.r]

theorem exSib_proper : ∀ e ∈ exSibEvents, StockEvent.Proper exSibH e := by
  have h0 : World.CheckB exSibH World.b1 := by decide +kernel
  have h1 : World.CheckB exSibH exSib1 := by decide +kernel
  have h2 : World.CheckB exSibH exSib2 := by decide +kernel
  intro e he
  simp only [exSibEvents, List.mem_cons, List.not_mem_nil, or_false] at he
  rcases he with rfl | rfl | rfl
  · exact World.conOf_proper [] (by simp) [(.tx ⟨61, 0⟩, World.b1)] (by intro b hb; simp only [List.mem_singleton] at hb; subst hb; exact ⟨h0, rfl⟩) _
  · exact World.fasciaOf_proper _ _ h1
  · exact World.fasciaOf_proper _ _ h2

/-- **C85** fails for the other transitions of a bundle: a transfer shows to the payee a transition of the same bundle which isn't related to the payment, without its history. The
state which it gives is in the payee's contract state, but can't be transferred. -/
theorem C85_siblings_fails : exSibH.Binding ∧ ∃ k₀ con k₂, runStock exSibH World.I World.M World.G exSibEvents .empty = some k₀ ∧
    k₀.transfer exSibH World.I World.E 100 0 [⟨.bitcoin, 63, 1⟩] none = some (.ok con) ∧
    StockEvent.Done exSibH World.I World.M World.G .empty k₂ (.consignment con World.r) ∧
    (k₂.state.contractState 0).map (fun v => v.byOutpoint .fungible ⟨.bitcoin, 63, 2⟩ 1) = .ok [.fungible 4 0 0] ∧
    k₂.transfer exSibH World.I World.E 100 0 [⟨.bitcoin, 63, 2⟩] none = some (.error (.index (.bundleAbsent 4))) ∧
    (k₂.transfer exSibH World.I World.E 100 0 [⟨.bitcoin, 63, 1⟩] none).any (fun x => x.toBool) = true := by
  refine ⟨tableCommit_binding _ _ _ _, ?_⟩
  have h : (runStock exSibH World.I World.M World.G exSibEvents .empty).any (fun k₀ =>
      ((k₀.transfer exSibH World.I World.E 100 0 [⟨.bitcoin, 63, 1⟩] none).bind Except.toOption).any (fun con =>
      (Stock.empty.consumeConsignment exSibH World.I World.M World.G World.r con).any (fun p => decide (p.2 = none ∧
        (p.1.state.contractState 0).map (fun v => v.byOutpoint .fungible ⟨.bitcoin, 63, 2⟩ 1) = .ok [.fungible 4 0 0] ∧
        p.1.transfer exSibH World.I World.E 100 0 [⟨.bitcoin, 63, 2⟩] none = some (.error (.index (.bundleAbsent 4))) ∧
        (p.1.transfer exSibH World.I World.E 100 0 [⟨.bitcoin, 63, 1⟩] none).any (fun x => x.toBool) = true)))) = true := by decide +kernel
  obtain ⟨k₀, h0, h⟩ := (Option.any_eq_true _ _).mp h
  obtain ⟨con, h1, h⟩ := (Option.any_eq_true _ _).mp h
  obtain ⟨⟨k₂, o⟩, h2, h⟩ := (Option.any_eq_true _ _).mp h
  obtain ⟨rfl, h3, h4, h5⟩ := of_decide_eq_true h
  refine ⟨k₀, con, k₂, h0, ?_, h2, h3, h4, h5⟩
  obtain ⟨y, hy, hc⟩ := Option.bind_eq_some_iff.mp h1
  cases y with
  | error e => cases hc
  | ok y => cases hc; exact hy

end Rgb.Props
