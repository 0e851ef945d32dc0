import Verif.Lemmas.MergeSeq
import Verif.Lemmas.Reveal
import Verif.Spec.ToyCommit

/-! # C12–C18: merging disclosures, revealing seals -/

namespace Rgb.Props
open Rgb

/-! Data for the examples: one operation with two assignments, in two partial disclosures. -/

/-- A seal on the witness transaction. -/
def exSeal : Seal := ⟨.bitcoin, .opretFirst, none, 1, 77⟩
def exSeal2 : Seal := ⟨.liquid, .tapretFirst, some 5, 2, 78⟩

/-- First disclosure: seal of the first assignment hidden, state of the second hidden. -/
def exOpA (H : Commit) : Op :=
  { kind := .transition, contract := 9, ty := 1, nonce := 3, inputs := [⟨1, 2, 0⟩],
    assigns := [(4, ⟨.fungible, [.confidentialSeal (H.sealHash exSeal) (.fungible 10 11 12),
      .confidentialState exSeal2 (H.stateHash (.fungible 5 6 12))]⟩)] }

/-- Second disclosure: state of the first assignment hidden, seal of the second hidden. -/
def exOpB (H : Commit) : Op :=
  { kind := .transition, contract := 9, ty := 1, nonce := 3, inputs := [⟨1, 2, 0⟩],
    assigns := [(4, ⟨.fungible, [.confidentialState exSeal (H.stateHash (.fungible 10 11 12)),
      .confidentialSeal (H.sealHash exSeal2) (.fungible 5 6 12)]⟩)] }

theorem exOp_same (H : Commit) : (exOpA H).id H = (exOpB H).id H ∧ (exOpA H).WF ∧ (exOpB H).WF := by
  refine ⟨rfl, ?_, ?_⟩ <;> exact List.pairwise_singleton _ _

/-- **C12.** Merging two disclosures of the same operation always succeeds, the result has the same id,
is the same operation in everything but the assignments, and at every position a seal (a state) is disclosed by
the result iff it is disclosed, with the same value, by one of the inputs. -/
theorem C12_merge_keeps_disclosed (H : Commit) (hH : H.Binding) (a b : Op) (ha : a.WF)
    (hid : a.id H = b.id H) :
    ∃ r, a.merge H b = .ok r ∧ r.id H = a.id H ∧ r = { a with assigns := r.assigns } ∧
      r = { b with assigns := r.assigns } ∧ r.WF ∧
      (∀ ty i s, r.sealAt? ty i = some s ↔ (a.sealAt? ty i = some s ∨ b.sealAt? ty i = some s)) ∧
      (∀ ty i s, r.stateAt? ty i = some s ↔ (a.stateAt? ty i = some s ∨ b.stateAt? ty i = some s)) ∧
      (∀ ty i, (r.at? ty i).map (Assign.conceal H) = (a.at? ty i).map (Assign.conceal H)) := by
  have hc := Op.conceal_of_id hH hid
  refine ⟨_, Op.merge_eq hH hid ha, Op.merge_id hH hid, rfl, Op.conceal_rest hc _,
    Op.merge_wf hH hid ha, ?_, ?_, ?_⟩
  · intro ty i s
    rw [Op.merge_sealAt hH hid]
    cases h1 : a.sealAt? ty i with
    | none => simp
    | some t =>
      simp only [Option.some_or, Option.some.injEq]
      constructor
      · exact .inl
      · rintro (h | h)
        · exact h
        · exact Op.sealAt_agree hH hid h1 h
  · intro ty i s
    rw [Op.merge_stateAt hH hid]
    cases h1 : a.stateAt? ty i with
    | none => simp
    | some t =>
      simp only [Option.some_or, Option.some.injEq]
      constructor
      · exact .inl
      · rintro (h | h)
        · exact h
        · exact Op.stateAt_agree hH hid h1 h
  · intro ty i
    exact Op.at_conceal hH (Op.merge_id hH hid) ty i

/-- Two halves of one operation are merged to the fully disclosed one. -/
example : ∃ r, (exOpA toyCommit).merge toyCommit (exOpB toyCommit) = .ok r ∧
    r.sealAt? 4 0 = some exSeal ∧ r.stateAt? 4 0 = some (.fungible 10 11 12) ∧
    r.sealAt? 4 1 = some exSeal2 ∧ r.stateAt? 4 1 = some (.fungible 5 6 12) := by
  obtain ⟨r, h1, -, -, -, -, h2, h3, -⟩ := C12_merge_keeps_disclosed toyCommit toyCommit_binding _ _
    (exOp_same _).2.1 (exOp_same _).1
  exact ⟨r, h1, (h2 _ _ _).mpr (.inr rfl), (h3 _ _ _).mpr (.inl rfl), (h2 _ _ _).mpr (.inl rfl),
    (h3 _ _ _).mpr (.inr rfl)⟩

/-- **C13** (idempotence). -/
theorem C13_merge_idempotent (H : Commit) (hH : H.Binding) (a : Op) (ha : a.WF) : a.merge H a = .ok a := by
  rw [merge_joinOp hH rfl ha, joinOp_self]

/-- **C13** (commutativity). -/
theorem C13_merge_commutative (H : Commit) (hH : H.Binding) (a b : Op) (ha : a.WF) (hb : b.WF)
    (hid : a.id H = b.id H) : a.merge H b = b.merge H a := by
  rw [merge_joinOp hH hid ha, merge_joinOp hH hid.symm hb, joinOp_comm hH hid]

/-- **C13** (associativity). -/
theorem C13_merge_associative (H : Commit) (hH : H.Binding) (a b c : Op) (ha : a.WF) (hb : b.WF)
    (hab : a.id H = b.id H) (hbc : b.id H = c.id H) :
    (a.merge H b).bind (fun r => r.merge H c) = (b.merge H c).bind (fun r => a.merge H r) := by
  rw [merge_joinOp hH hab ha, merge_joinOp hH hbc hb]
  show (joinOp a b).merge H c = a.merge H (joinOp b c)
  have e1 : (joinOp a b).id H = c.id H := (joinOp_id hH hab).trans (hab.trans hbc)
  have e2 : a.id H = (joinOp b c).id H := hab.trans (joinOp_id hH hbc).symm
  rw [merge_joinOp hH e1 (joinOp_wf hH hab ha), merge_joinOp hH e2 ha, joinOp_assoc hH hab hbc]

/-- **C13** (any number of disclosures in any order): merging all the disclosures of one operation gives the same
result for every order in which they arrive. -/
theorem C13_merge_any_order (H : Commit) (hH : H.Binding) (a b : Op) (l₁ l₂ : List Op)
    (hwf : ∀ c ∈ a :: l₁, c.WF) (hid : ∀ c ∈ l₁, c.id H = a.id H) (hp : (a :: l₁).Perm (b :: l₂)) :
    Op.mergeAll H a l₁ = Op.mergeAll H b l₂ ∧ ∃ r, Op.mergeAll H a l₁ = .ok r ∧ r.id H = a.id H := by
  have h1 : ∀ c ∈ l₁, a.id H = c.id H := fun c hc => (hid c hc).symm
  have hall : ∀ c ∈ a :: l₁, c.id H = a.id H := by
    intro c hc
    rcases List.mem_cons.mp hc with rfl | hc
    · rfl
    · exact hid c hc
  have hb : b ∈ a :: l₁ := hp.mem_iff.mpr List.mem_cons_self
  have h2 : ∀ c ∈ l₂, b.id H = c.id H := fun c hc =>
    (hall b hb).trans (hall c (hp.mem_iff.mpr (List.mem_cons_of_mem _ hc))).symm
  rw [mergeAll_eq hH a l₁ (hwf a List.mem_cons_self) h1, mergeAll_eq hH b l₂ (hwf b hb) h2]
  refine ⟨by rw [foldl_joinOp_perm' hH hp h1], _, rfl, ?_⟩
  clear hwf hp hall hb h2 hid
  induction l₁ generalizing a with
  | nil => rfl
  | cons c l ih =>
    have hc := h1 c List.mem_cons_self
    rw [List.foldl_cons, ih (joinOp a c) (fun d hd => by
      rw [joinOp_id hH hc]; exact h1 d (List.mem_cons_of_mem _ hd)), joinOp_id hH hc]

example : ([exOpA toyCommit, exOpB toyCommit, exOpA toyCommit].Perm
      [exOpB toyCommit, exOpA toyCommit, exOpA toyCommit]) ∧
    Op.mergeAll toyCommit (exOpA toyCommit) [exOpB toyCommit, exOpA toyCommit] =
    Op.mergeAll toyCommit (exOpB toyCommit) [exOpA toyCommit, exOpA toyCommit] := by
  have hp : ([exOpA toyCommit, exOpB toyCommit, exOpA toyCommit].Perm
      [exOpB toyCommit, exOpA toyCommit, exOpA toyCommit]) := List.Perm.swap _ _ _
  refine ⟨hp, (C13_merge_any_order toyCommit toyCommit_binding _ _ _ _ ?_ ?_ hp).1⟩
  · intro c hc
    simp only [List.mem_cons, List.not_mem_nil, or_false] at hc
    rcases hc with rfl | rfl | rfl
    · exact (exOp_same _).2.1
    · exact (exOp_same _).2.2
    · exact (exOp_same _).2.1
  · intro c hc
    simp only [List.mem_cons, List.not_mem_nil, or_false] at hc
    rcases hc with rfl | rfl
    · exact (exOp_same _).1.symm
    · rfl

/-- **C14** (operations). Operations with different ids are never merged: the result is the mismatch error naming
both ids. No assumption on the commitments. -/
theorem C14_distinct_ops_not_merged (H : Commit) (a b : Op) (h : a.id H ≠ b.id H) :
    a.merge H b = .error (.operationMismatch (a.id H) (b.id H)) := by simp [Op.merge, h]

/-- **C14** (public witnesses). Witnesses of different chains or transactions are never merged, whatever they
disclose; different chains and different txids are told apart by the error. -/
theorem C14_distinct_witnesses_not_merged (a b : XPubWitness) (h : a.id ≠ b.id) :
    (a.chain ≠ b.chain → ∃ x y, a.merge b = .error (.chainMismatch x y) ∧
      ((a.chain = .bitcoin ∧ x = a.pub.id ∧ y = b.pub.id) ∨ (a.chain = .liquid ∧ x = b.pub.id ∧ y = a.pub.id))) ∧
    (a.chain = b.chain → a.merge b = .error (.txidMismatch a.pub.id b.pub.id)) := by
  obtain ⟨c, p⟩ := a
  obtain ⟨d, q⟩ := b
  constructor
  · intro hne
    cases c <;> cases d <;> simp [XPubWitness.merge] at hne ⊢
  · intro heq
    simp only at heq
    subst heq
    have hpq : p.id ≠ q.id := by
      intro e; exact h (by simp [XPubWitness.id, e])
    have : p.merge q = .error (.txidMismatch p.id q.id) := by
      cases p <;> cases q <;> simp_all [PubWitness.merge, PubWitness.id]
    cases c <;> simp [XPubWitness.merge, this]

/-- **C14** (a history of disclosures): if any of the merged operations is a different one, the sequence fails. -/
theorem C14_sequence_with_stranger_refused (H : Commit) (hH : H.Binding) (a : Op) (l : List Op) (ha : a.WF)
    (b : Op) (hb : b ∈ l) (h : b.id H ≠ a.id H) : ∃ e, Op.mergeAll H a l = .error e := by
  induction l generalizing a with
  | nil => cases hb
  | cons c l ih =>
    simp only [Op.mergeAll]
    by_cases hc : a.id H = c.id H
    · rw [merge_joinOp hH hc ha]
      rcases List.mem_cons.mp hb with rfl | hb
      · exact absurd hc.symm h
      · exact ih _ (joinOp_wf hH hc ha) hb (by rw [joinOp_id hH hc]; exact h)
    · rw [C14_distinct_ops_not_merged H a c hc]; exact ⟨_, rfl⟩

example : ({ exOpA toyCommit with nonce := 4 } : Op).id toyCommit ≠ (exOpA toyCommit).id toyCommit := by
  intro h
  have := congrArg Op.nonce (toyCommit_binding.op_inj _ _ h)
  simp [Op.conceal, exOpA] at this

example : (⟨.bitcoin, .txid 5⟩ : XPubWitness).id ≠ (⟨.liquid, .txid 5⟩ : XPubWitness).id := by decide

/-- **C15** (the part which holds). Merging two disclosures of one bundle succeeds, keeps the bundle id, and every
transition known to the *first* one is in the result, with everything disclosed about it by either of the two.
Missing: transitions known only to the second one. They are dropped: the known transitions of the result are exactly those
of the first argument (last conjunct). -/
theorem C15_bundle_merge_partial (H : Commit) (hH : H.Binding) (a b : Bundle) (ha : a.WF H) (hb : b.WF H)
    (hid : a.id H = b.id H) :
    ∃ r, a.merge H b = .ok r ∧ r.id H = a.id H ∧ r.id H = b.id H ∧
      (∀ k t, OMap.get? a.known k = some t → ∃ t', OMap.get? r.known k = some t' ∧ t'.id H = k ∧
        (∀ ty i s, t.sealAt? ty i = some s → t'.sealAt? ty i = some s) ∧
        (∀ ty i s, t.stateAt? ty i = some s → t'.stateAt? ty i = some s) ∧
        (∀ u, OMap.get? b.known k = some u →
          (∀ ty i s, u.sealAt? ty i = some s → t'.sealAt? ty i = some s) ∧
          (∀ ty i s, u.stateAt? ty i = some s → t'.stateAt? ty i = some s))) ∧
      (∀ k, OMap.contains r.known k = OMap.contains a.known k) := by
  obtain ⟨r, h1, h2, h3, -, h4⟩ := bundle_merge_eq hH ha hb
  have hrid : r.id H = a.id H := by simp [Bundle.id, h2, h3]
  refine ⟨r, h1, hrid, hrid.trans hid, ?_, ?_⟩
  · intro k t hk
    have hg := h4 k
    rw [hk] at hg
    cases hu : OMap.get? b.known k with
    | none =>
      simp only [hu, Option.map_some] at hg
      exact ⟨t, hg, (ha.keyed k t hk).1, fun _ _ _ h => h, fun _ _ _ h => h, fun u hu' => by cases hu'⟩
    | some u =>
      simp only [hu, Option.map_some] at hg
      have hidtu : t.id H = u.id H := (ha.keyed k t hk).1.trans (hb.keyed k u hu).1.symm
      obtain ⟨r', e1, e2, -, -, -, e3, e4, -⟩ :=
        C12_merge_keeps_disclosed H hH t u (ha.keyed k t hk).2 hidtu
      rw [merge_joinOp hH hidtu (ha.keyed k t hk).2] at e1
      cases e1
      refine ⟨_, hg, e2.trans (ha.keyed k t hk).1, fun ty i s h => (e3 _ _ _).mpr (.inl h),
        fun ty i s h => (e4 _ _ _).mpr (.inl h), fun v hv => ?_⟩
      cases hv
      exact ⟨fun ty i s h => (e3 _ _ _).mpr (.inr h), fun ty i s h => (e4 _ _ _).mpr (.inr h)⟩
  · intro k
    rw [OMap.contains, OMap.contains, h4 k]
    cases OMap.get? a.known k <;> rfl

/-- Example bundle spending two inputs, by the two operations `p` and `q`. -/
def exBundle (H : Commit) (p q : Op) (known : List Op) : Bundle :=
  ⟨.opretFirst, [(0, p.id H), (1, q.id H)], known.map (fun o => (o.id H, o))⟩

theorem exBundle_wf (H : Commit) (p q : Op) (hp : p.WF) (hq : q.WF) :
    (exBundle H p q [p]).WF H ∧ (exBundle H p q [q]).WF H ∧ (exBundle H p q []).WF H := by
  refine ⟨⟨?_, ?_, ?_⟩, ⟨?_, ?_, ?_⟩, ⟨?_, ?_, ?_⟩⟩
  · exact List.pairwise_singleton _ _
  · intro k t h
    simp only [exBundle, List.map_cons, List.map_nil, OMap.get?_cons, OMap.get?_nil] at h
    split at h
    · cases h; rename_i h; exact ⟨h.symm, hp⟩
    · cases h
  · intro k t h
    simp only [exBundle, List.map_cons, List.map_nil, OMap.get?_cons, OMap.get?_nil] at h
    split at h
    · rename_i hk; simp [exBundle, OMap.vals, hk]
    · cases h
  · exact List.pairwise_singleton _ _
  · intro k t h
    simp only [exBundle, List.map_cons, List.map_nil, OMap.get?_cons, OMap.get?_nil] at h
    split at h
    · cases h; rename_i h; exact ⟨h.symm, hq⟩
    · cases h
  · intro k t h
    simp only [exBundle, List.map_cons, List.map_nil, OMap.get?_cons, OMap.get?_nil] at h
    split at h
    · rename_i hk; simp [exBundle, OMap.vals, hk]
    · cases h
  · exact List.Pairwise.nil
  · intro k t h; cases h
  · intro k t h; cases h

example : ∃ r, (exBundle toyCommit (exOpA toyCommit) { kind := .transition } [exOpA toyCommit]).merge toyCommit
    (exBundle toyCommit (exOpA toyCommit) { kind := .transition } [exOpB toyCommit]) = .ok r ∧
    ∃ t', OMap.get? r.known ((exOpA toyCommit).id toyCommit) = some t' ∧ t'.sealAt? 4 0 = some exSeal ∧
      t'.stateAt? 4 0 = some (.fungible 10 11 12) := by
  have hw : Op.WF { kind := .transition } := List.Pairwise.nil
  obtain ⟨r, h1, -, -, h2, -⟩ := C15_bundle_merge_partial toyCommit toyCommit_binding
    (exBundle toyCommit (exOpA toyCommit) { kind := .transition } [exOpA toyCommit])
    (exBundle toyCommit (exOpA toyCommit) { kind := .transition } [exOpB toyCommit])
    (exBundle_wf _ _ _ (exOp_same _).2.1 hw).1
    (exBundle_wf _ (exOpB toyCommit) _ (exOp_same _).2.2 hw).1 rfl
  obtain ⟨t', e1, -, -, e3, e4⟩ := h2 ((exOpA toyCommit).id toyCommit) (exOpA toyCommit) (by simp [exBundle, OMap.get?_cons])
  have := e4 (exOpB toyCommit) (by
    simp only [exBundle, List.map_cons, List.map_nil, OMap.get?_cons]
    exact if_pos (exOp_same toyCommit).1)
  exact ⟨r, h1, t', e1, this.1 _ _ _ rfl, e3 _ _ _ rfl⟩

/-- **C15** fails as stated: for every collision-free commitment scheme there are two well-formed disclosures of one bundle whose merge
succeeds and loses a transition which the second one knows. -/
theorem C15_bundle_merge_fails (H : Commit) :
    ∃ a b r : Bundle, a.WF H ∧ b.WF H ∧ a.id H = b.id H ∧ a.merge H b = .ok r ∧
      ∃ k t, OMap.get? b.known k = some t ∧ OMap.get? r.known k = none := by
  let p : Op := { kind := .transition }
  have hp : p.WF := List.Pairwise.nil
  refine ⟨exBundle H p p [], exBundle H p p [p], exBundle H p p [],
    (exBundle_wf H p p hp hp).2.2, (exBundle_wf H p p hp hp).1, rfl, ?_, p.id H, p, ?_, rfl⟩
  · simp [Bundle.merge, exBundle, Bundle.mergeLoop]
  · simp [exBundle, OMap.get?_cons]

/-- **C16** (exactly what holds). Merging public witnesses succeeds iff chain and txid are the same and it isn't the case
that the first has the full transaction while the second has only the txid. In case of success the id is
kept and the transaction is known iff it is known by one of the two.
Missing: a full transaction merged with its id only, see `C16_witness_merge_fails`. -/
theorem C16_witness_merge_partial (a b : XPubWitness) :
    ((∃ r, a.merge b = .ok r) ↔
      (a.id = b.id ∧ (a.pub.tx?.isSome = true → b.pub.tx?.isSome = true))) ∧
    (∀ r, a.merge b = .ok r → r.id = a.id ∧ r.id = b.id ∧
      (r.pub.tx?.isSome = (a.pub.tx?.isSome || b.pub.tx?.isSome)) ∧
      (∀ t, r.pub.tx? = some t → a.pub.tx? = some t ∨ b.pub.tx? = some t)) := by
  obtain ⟨c, p⟩ := a
  obtain ⟨d, q⟩ := b
  constructor
  · constructor
    · rintro ⟨r, h⟩
      cases c <;> cases d <;> cases p <;> cases q <;>
        simp only [XPubWitness.merge, PubWitness.merge, PubWitness.id] at h <;>
        first
          | (cases h; done)
          | (split at h <;> first | (cases h; done) | (rename_i hx; split at hx <;> cases hx; simp_all [XPubWitness.id, PubWitness.id, PubWitness.tx?]))
    · rintro ⟨h1, h2⟩
      simp only [XPubWitness.id, WitnessId.mk.injEq] at h1
      obtain ⟨rfl, h1⟩ := h1
      cases c <;> cases p <;> cases q <;>
        simp_all [XPubWitness.merge, PubWitness.merge, PubWitness.id, PubWitness.tx?]
  · intro r h
    cases c <;> cases d <;> cases p <;> cases q <;>
      simp only [XPubWitness.merge, PubWitness.merge, PubWitness.id] at h <;>
      first
        | (cases h; done)
        | (split at h <;> first | (cases h; done) | (rename_i hx; cases h; split at hx <;> cases hx; simp_all [XPubWitness.id, PubWitness.id, PubWitness.tx?]))

example : (⟨.bitcoin, .txid 5⟩ : XPubWitness).merge ⟨.bitcoin, .tx ⟨5, 1⟩⟩ = .ok ⟨.bitcoin, .tx ⟨5, 1⟩⟩ := by decide

/-- **C16** fails as stated: merging a witness with the full transaction and one with only the same txid gives a
mismatch error, while in the other order it succeeds. -/
theorem C16_witness_merge_fails (c : Layer1) (t : Tx) :
    (⟨c, .tx t⟩ : XPubWitness).id = (⟨c, .txid t.txid⟩ : XPubWitness).id ∧
    (⟨c, .tx t⟩ : XPubWitness).merge ⟨c, .txid t.txid⟩ = .error (.txidMismatch t.txid t.txid) ∧
    (⟨c, .txid t.txid⟩ : XPubWitness).merge ⟨c, .tx t⟩ = .ok ⟨c, .tx t⟩ := by
  cases c <;> simp [XPubWitness.merge, PubWitness.merge, XPubWitness.id, PubWitness.id]

/-- The anchor of tapret kind of an anchor set. -/
def tapretOf : AnchorSet → Option Anchor
  | .tapret a => some a
  | .double t _ => some t
  | .opret _ => none

/-- The anchor of opret kind of an anchor set. -/
def opretOf : AnchorSet → Option Anchor
  | .opret a => some a
  | .double _ o => some o
  | .tapret _ => none

/-- `r` joins what is known by `x` and by `y`: has a proof iff one of them has, the DBC proof and the
Merkle root are those of both, and knows exactly the contracts either knows, with a bundle one of them knows. -/
def JoinsAnchors (x y r : Option Anchor) : Prop :=
  (r.isSome = (x.isSome || y.isSome)) ∧
  (∀ a, (x = some a ∨ y = some a) → ∃ c, r = some c ∧ c.proof = a.proof ∧ c.root = a.root) ∧
  (∀ c, r = some c → ∀ k, k ∈ OMap.keys c.known ↔
    (∃ a, x = some a ∧ k ∈ OMap.keys a.known) ∨ (∃ a, y = some a ∧ k ∈ OMap.keys a.known)) ∧
  (∀ c, r = some c → ∀ k v, OMap.get? c.known k = some v →
    (∃ a, x = some a ∧ OMap.get? a.known k = some v) ∨ (∃ a, y = some a ∧ (k, v) ∈ a.known))

theorem joins_left (a : Anchor) : JoinsAnchors (some a) none (some a) :=
  ⟨rfl, by simp, by simp, by intro c h k v hv; cases h; exact .inl ⟨a, rfl, hv⟩⟩

theorem joins_right (a : Anchor) : JoinsAnchors none (some a) (some a) :=
  ⟨rfl, by simp, by simp, by intro c h k v hv; cases h; exact .inr ⟨a, rfl, OMap.mem_of_get? hv⟩⟩

theorem joins_none : JoinsAnchors none none none := ⟨rfl, by simp, by simp, by simp⟩

theorem get?_extend_sub {κ ν : Type} [Key κ] [DecidableEq κ] (m : OMap κ ν) (es : List (κ × ν)) (k : κ) (v : ν)
    (h : OMap.get? (OMap.extend m es) k = some v) : OMap.get? m k = some v ∨ (k, v) ∈ es := by
  induction es generalizing m with
  | nil => exact .inl h
  | cons e es ih =>
    rcases ih _ h with h' | h'
    · rw [OMap.get?_insert] at h'
      split at h'
      · rename_i hk; cases h'; subst hk; exact .inr List.mem_cons_self
      · exact .inl h'
    · exact .inr (List.mem_cons_of_mem _ h')

theorem joins_both {a b c : Anchor} (h : a.merge b = .ok c) : JoinsAnchors (some a) (some b) (some c) := by
  simp only [Anchor.merge] at h
  split at h
  · cases h
  · split at h
    · cases h
    · rename_i h1 h2
      simp only [ne_eq, Decidable.not_not] at h1 h2
      cases h
      refine ⟨rfl, ?_, ?_, ?_⟩
      · rintro x (h | h) <;> cases h
        · exact ⟨_, rfl, rfl, rfl⟩
        · exact ⟨_, rfl, h1, h2⟩
      · rintro x hx k
        cases hx
        simp only [OMap.mem_keys_extend, Option.some.injEq]
        simp [OMap.keys]
      · rintro x hx k v hv
        cases hx
        rcases get?_extend_sub _ _ _ _ hv with h' | h'
        · exact .inl ⟨a, rfl, h'⟩
        · exact .inr ⟨b, rfl, h'⟩

/-- **C17.** A successful merge of anchor sets has the tapret proof iff one of the sets has it, the same for opret;
the known bundles are the union. -/
theorem C17_anchors_merge (a b r : AnchorSet) (h : a.merge b = .ok r) :
    r.hasTapret = (a.hasTapret || b.hasTapret) ∧ r.hasOpret = (a.hasOpret || b.hasOpret) ∧
    (JoinsAnchors (tapretOf a) (tapretOf b) (tapretOf r) ∨ JoinsAnchors (tapretOf b) (tapretOf a) (tapretOf r)) ∧
    (JoinsAnchors (opretOf a) (opretOf b) (opretOf r) ∨ JoinsAnchors (opretOf b) (opretOf a) (opretOf r)) := by
  cases a with
  | tapret x =>
    cases b with
    | tapret y =>
      simp only [AnchorSet.merge] at h
      cases hm : x.merge y with
      | error e => rw [hm] at h; cases h
      | ok z => rw [hm] at h; cases h; exact ⟨rfl, rfl, .inl (joins_both hm), .inl joins_none⟩
    | opret y => cases h; exact ⟨rfl, rfl, .inl (joins_left _), .inl (joins_right _)⟩
    | double y o =>
      simp only [AnchorSet.merge] at h
      cases hm : y.merge x with
      | error e => rw [hm] at h; cases h
      | ok z => rw [hm] at h; cases h; exact ⟨rfl, rfl, .inr (joins_both hm), .inl (joins_right _)⟩
  | opret x =>
    cases b with
    | opret y =>
      simp only [AnchorSet.merge] at h
      cases hm : x.merge y with
      | error e => rw [hm] at h; cases h
      | ok z => rw [hm] at h; cases h; exact ⟨rfl, rfl, .inl joins_none, .inl (joins_both hm)⟩
    | tapret y => cases h; exact ⟨rfl, rfl, .inl (joins_right _), .inl (joins_left _)⟩
    | double t y =>
      simp only [AnchorSet.merge] at h
      cases hm : y.merge x with
      | error e => rw [hm] at h; cases h
      | ok z => rw [hm] at h; cases h; exact ⟨rfl, rfl, .inl (joins_right _), .inr (joins_both hm)⟩
  | double t o =>
    cases b with
    | tapret y =>
      simp only [AnchorSet.merge] at h
      cases hm : t.merge y with
      | error e => rw [hm] at h; cases h
      | ok z => rw [hm] at h; cases h; exact ⟨rfl, rfl, .inl (joins_both hm), .inl (joins_left _)⟩
    | opret y =>
      simp only [AnchorSet.merge] at h
      cases hm : o.merge y with
      | error e => rw [hm] at h; cases h
      | ok z => rw [hm] at h; cases h; exact ⟨rfl, rfl, .inl (joins_left _), .inl (joins_both hm)⟩
    | double t' o' =>
      simp only [AnchorSet.merge] at h
      cases hm : t.merge t' with
      | error e => rw [hm] at h; cases h
      | ok z =>
        rw [hm] at h
        cases hn : o.merge o' with
        | error e => simp only [hn] at h; cases h
        | ok y => simp only [hn] at h; cases h; exact ⟨rfl, rfl, .inl (joins_both hm), .inl (joins_both hn)⟩

/-- **C17** (success): the merge fails only if both sets have a proof of the same kind with different data, or for
different Merkle trees. -/
theorem C17_anchors_merge_total (a b : AnchorSet)
    (ht : ∀ x y, tapretOf a = some x → tapretOf b = some y → x.proof = y.proof ∧ x.root = y.root)
    (ho : ∀ x y, opretOf a = some x → opretOf b = some y → x.proof = y.proof ∧ x.root = y.root) :
    ∃ r, a.merge b = .ok r := by
  have key : ∀ x y : Anchor, x.proof = y.proof ∧ x.root = y.root → ∃ z, x.merge y = .ok z := by
    intro x y ⟨h1, h2⟩; exact ⟨_, by simp [Anchor.merge, h1, h2]; rfl⟩
  have key' : ∀ x y : Anchor, x.proof = y.proof ∧ x.root = y.root → ∃ z, y.merge x = .ok z :=
    fun x y ⟨h1, h2⟩ => key y x ⟨h1.symm, h2.symm⟩
  cases a with
  | tapret x =>
    cases b with
    | tapret y => obtain ⟨z, hz⟩ := key x y (ht x y rfl rfl); exact ⟨_, by rw [AnchorSet.merge, hz]; rfl⟩
    | opret y => exact ⟨_, rfl⟩
    | double y o => obtain ⟨z, hz⟩ := key' x y (ht x y rfl rfl); exact ⟨_, by rw [AnchorSet.merge, hz]; rfl⟩
  | opret x =>
    cases b with
    | opret y => obtain ⟨z, hz⟩ := key x y (ho x y rfl rfl); exact ⟨_, by rw [AnchorSet.merge, hz]; rfl⟩
    | tapret y => exact ⟨_, rfl⟩
    | double t y => obtain ⟨z, hz⟩ := key' x y (ho x y rfl rfl); exact ⟨_, by rw [AnchorSet.merge, hz]; rfl⟩
  | double t o =>
    cases b with
    | tapret y => obtain ⟨z, hz⟩ := key t y (ht t y rfl rfl); exact ⟨_, by rw [AnchorSet.merge, hz]; rfl⟩
    | opret y => obtain ⟨z, hz⟩ := key o y (ho o y rfl rfl); exact ⟨_, by rw [AnchorSet.merge, hz]; rfl⟩
    | double t' o' =>
      obtain ⟨z, hz⟩ := key t t' (ht t t' rfl rfl)
      obtain ⟨y, hy⟩ := key o o' (ho o o' rfl rfl)
      exact ⟨_, by rw [AnchorSet.merge, hz]; simp only [hy]; rfl⟩

example : AnchorSet.merge (.tapret ⟨1, 2, [(7, 70)]⟩) (.double ⟨1, 2, [(8, 80)]⟩ ⟨3, 4, [(7, 71)]⟩) =
    .ok (.double ⟨1, 2, [(7, 70), (8, 80)]⟩ ⟨3, 4, [(7, 71)]⟩) := by decide

/-- **C18** (one operation). Revealing a seal discloses exactly the assignments whose secret seal is its concealment; no state data,
no commitment, no operation id changes. Holds for every commitment scheme, also with collisions. -/
theorem C18_reveal_op (H : Commit) (o : Op) (s : Seal) :
    Op.Disclosed H (fun h => if h = H.sealHash s then some s else none) o (o.revealSeal H s) := by
  rw [Op.revealSeal_eq]; exact Op.disclosed_revealWith (right_oneSeal s) o

/-- **C18** (witness bundle). `reveal_seal` for a bundle id reports whether the witness bundle has this bundle, discloses the seal
in exactly this one, and doesn't touch the other one. -/
theorem C18_reveal_witness_bundle (H : Commit) (hH : H.Binding) (w : WitnessBundle) (hw : w.WF) (bid : Nat)
    (s : Seal) :
    (w.revealSeal H bid s).2.pub = w.pub ∧
    ((w.revealSeal H bid s).1 = true ↔ ∃ c ∈ w.anchored.list, c.bundle.id H = bid) ∧
    (w.revealSeal H bid s).2.anchored.list.length = w.anchored.list.length ∧
    ∀ (i : Nat) (c : ClientBundle), w.anchored.list[i]? = some c → ∃ d, (w.revealSeal H bid s).2.anchored.list[i]? = some d ∧
      (c.bundle.id H ≠ bid → d = c) ∧
      (c.bundle.id H = bid →
        ClientBundle.Disclosed H (fun h => if h = H.sealHash s then some s else none) c d) := by
  obtain ⟨h1, h2, -, h4⟩ := WitnessBundle.revealSeal_list hH w hw bid s
  refine ⟨h2, by rw [h4]; simp, by rw [h1]; simp, ?_⟩
  intro i c hc
  refine ⟨_, by rw [h1, List.getElem?_map, hc]; rfl, ?_, ?_⟩
  · intro hne; simp [hne]
  · intro heq
    simp only [heq, if_true]
    rw [ClientBundle.revealSeal_eq]
    exact ClientBundle.disclosed_revealWith (right_oneSeal s) c

/-- **C18** (consignment with any terminals). `reveal_terminal_seals` with a resolver returning only seals matching their
secrets: the witness bundles stay in number, order and witness; a hidden seal becomes visible iff its bundle and its
secret are among the terminals and the resolver knows the secret. -/
theorem C18_reveal_terminals {ε : Type} (H : Commit) (hH : H.Binding) (f : Nat → Except ε (Option Seal))
    (hf : ∀ h s, f h = .ok (some s) → H.sealHash s = h) (terminals : List (Nat × Nat))
    (ws ws' : List WitnessBundle) (hw : ∀ w ∈ ws, w.WF) (h : revealTerminalSeals H f terminals ws = .ok ws') :
    ws'.length = ws.length ∧
    ∀ (j : Nat) (w : WitnessBundle), ws[j]? = some w → ∃ w', ws'[j]? = some w' ∧ w'.pub = w.pub ∧
      w'.anchored.list.length = w.anchored.list.length ∧
      ∀ (i : Nat) (c : ClientBundle), w.anchored.list[i]? = some c → ∃ d, w'.anchored.list[i]? = some d ∧
        ClientBundle.Disclosed H
          (fun sec => if (c.bundle.id H, sec) ∈ terminals then resolved f sec else none) c d := by
  induction ws generalizing ws' with
  | nil => cases h; exact ⟨rfl, fun j w hj => by simp at hj⟩
  | cons w ws ih =>
    simp only [revealTerminalSeals] at h
    split at h
    · cases h
    · rename_i w' hw'
      split at h
      · cases h
      · rename_i ws'' hws
        cases h
        obtain ⟨h1, h2⟩ := ih ws'' (fun w hw'' => hw w (List.mem_cons_of_mem _ hw'')) hws
        refine ⟨by simp [h1], ?_⟩
        intro j v hj
        cases j with
        | succ j => simpa using h2 j v (by simpa using hj)
        | zero =>
          simp only [List.getElem?_cons_zero, Option.some.injEq] at hj
          subst hj
          obtain ⟨g1, -, g3⟩ := WitnessBundle.revealTerminals_spec hH f hf terminals w w'
            (hw w List.mem_cons_self) hw'
          refine ⟨w', rfl, g1, by rw [g3]; simp, ?_⟩
          intro i c hc
          exact ⟨_, by rw [g3, List.getElem?_map, hc]; rfl,
            ClientBundle.disclosed_revealWith (right_termSeal f hf terminals _) c⟩

/-- The hypotheses are met by a witness bundle with a hidden seal; revealing it makes it visible. -/
example :
    let H := toyCommit
    let c : ClientBundle := ⟨0, ⟨.opretFirst, 0⟩, exBundle H (exOpA H) { kind := .transition } [exOpA H]⟩
    let w : WitnessBundle := ⟨⟨.bitcoin, .txid 1⟩, .opret c⟩
    let f : Nat → Except Unit (Option Seal) := fun h => .ok (if h = H.sealHash exSeal then some exSeal else none)
    w.WF ∧ (∀ h s, f h = .ok (some s) → H.sealHash s = h) ∧
    ∃ w', revealTerminalSeals H f [(c.bundle.id H, H.sealHash exSeal)] [w] = .ok [w'] ∧
      w'.anchored.list.map (fun d => (OMap.get? d.bundle.known ((exOpA H).id H)).bind (fun o => o.sealAt? 4 0))
        = [some exSeal] ∧
      (exOpA H).sealAt? 4 0 = none := by
  intro H c w f
  refine ⟨rfl, ?_, (w.revealSeal H (c.bundle.id H) exSeal).2, ?_, ?_, rfl⟩
  · intro h s hs
    simp only [f, Except.ok.injEq] at hs
    split at hs
    · cases hs; simp_all
    · cases hs
  · simp [revealTerminalSeals, WitnessBundle.revealTerminals, f]
  · simp [WitnessBundle.revealSeal, w, c, AnchoredBundles.list, ClientBundle.revealSeal, Bundle.revealSeal, exBundle,
      OMap.mapVals, OMap.get?, Op.sealAt?, Op.at?, Op.revealSeal, exOpA, TypedAssigns.revealSeal, Assign.revealSeal,
      Assign.seal?]

end Rgb.Props
