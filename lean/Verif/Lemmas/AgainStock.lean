import Verif.Lemmas.AgainKit

/-!
Consuming a consignment twice: signatures, and the whole.
-/

namespace Rgb

open MemStash

variable {H : Commit}

/-! ### Signatures -/

/-- `b` has the identities of `a` and the same levels of trust. -/
def SameTrust (a b : OMap Nat TrustLevel) : Prop :=
  (∀ i, OMap.contains a i = true → OMap.contains b i = true) ∧ ∀ i, (OMap.get? b i).getD .default = (OMap.get? a i).getD .default

theorem SameTrust.refl (a : OMap Nat TrustLevel) : SameTrust a a := ⟨fun _ h => h, fun _ => rfl⟩

theorem SameTrust.trans {a b c : OMap Nat TrustLevel} (h : SameTrust a b) (g : SameTrust b c) : SameTrust a c :=
  ⟨fun i hi => g.1 i (h.1 i hi), fun i => (g.2 i).trans (h.2 i)⟩

theorem acceptSigner_same (ids : OMap Nat TrustLevel) (i : Nat) : SameTrust ids (acceptSigner ids i).1 ∧ OMap.contains (acceptSigner ids i).1 i = true := by
  refine ⟨⟨fun j hj => ?_, acceptSigner_fst ids i⟩, ?_⟩
  · obtain ⟨v, hv⟩ := OMap.contains_iff.mp hj
    refine OMap.contains_iff.mpr ?_
    simp only [acceptSigner]
    split
    · exact ⟨v, hv⟩
    · rw [OMap.get?_insert]
      split
      · exact ⟨_, rfl⟩
      · exact ⟨v, hv⟩
  · refine OMap.contains_iff.mpr ?_
    simp only [acceptSigner]
    split
    · rename_i l e; exact ⟨l, e⟩
    · exact ⟨_, OMap.get?_insert_self ..⟩

theorem pushSigs_same (l : List (Nat × Nat)) (ids : OMap Nat TrustLevel) (m : OMap Nat Nat) : SameTrust ids (pushSigs ids m l).1 := by
  induction l generalizing ids m with
  | nil => exact .refl _
  | cons e l ih =>
    obtain ⟨i, sg⟩ := e
    have := (acceptSigner_same ids i).1
    simp only [pushSigs]
    split
    · split
      · exact this
      · exact this.trans (ih _ _)
    · exact this.trans (ih _ _)

theorem acceptSigner_known {ids : OMap Nat TrustLevel} {i : Nat} (h : OMap.contains ids i = true) : (acceptSigner ids i).1 = ids := by
  obtain ⟨v, hv⟩ := OMap.contains_iff.mp h
  simp [acceptSigner, hv]

theorem acceptSigner_acc {a b : OMap Nat TrustLevel} (h : SameTrust a b) (i : Nat) : (acceptSigner b i).2 = (acceptSigner a i).2 := by
  rw [acceptSigner_snd, acceptSigner_snd, h.2]

/-- With the identities registered, pushing gives the same and registers nothing. -/
theorem pushSigs_known (l : List (Nat × Nat)) {ids ids2 : OMap Nat TrustLevel} {m : OMap Nat Nat} (h : SameTrust (pushSigs ids m l).1 ids2) :
    pushSigs ids2 m l = (ids2, (pushSigs ids m l).2) := by
  induction l generalizing ids m with
  | nil => rfl
  | cons e l ih =>
    obtain ⟨i, sg⟩ := e
    obtain ⟨s1, s2⟩ := acceptSigner_same ids i
    simp only [pushSigs] at h ⊢
    have key : ∀ x, SameTrust (acceptSigner ids i).1 x → SameTrust x ids2 →
        (acceptSigner ids2 i).2 = (acceptSigner ids i).2 ∧ (acceptSigner ids2 i).1 = ids2 := by
      intro x h1 h2
      exact ⟨acceptSigner_acc ((s1.trans h1).trans h2) i, acceptSigner_known ((h1.trans h2).1 i s2)⟩
    split at h
    · rename_i ha
      split at h
      · rename_i hl
        obtain ⟨k1, k2⟩ := key _ (.refl _) h
        rw [k1, k2, if_pos ha, if_pos hl, if_pos ha, if_pos hl]
      · rename_i hl
        obtain ⟨k1, k2⟩ := key _ (pushSigs_same _ _ _) h
        rw [k1, k2, if_pos ha, if_neg hl, if_pos ha, if_neg hl]
        exact ih h
    · rename_i ha
      obtain ⟨k1, k2⟩ := key _ (pushSigs_same _ _ _) h
      rw [k1, k2, if_neg ha, if_neg ha]
      exact ih h

/-- If the last one could not be pushed, the map is full. -/
theorem pushSigs_full (l : List (Nat × Nat)) (ids : OMap Nat TrustLevel) (m : OMap Nat Nat) (h : (pushSigs ids m l).2.2 = false) :
    (pushSigs ids m l).2.1.length ≥ sigsMax := by
  induction l generalizing ids m with
  | nil => cases h
  | cons e l ih =>
    obtain ⟨i, sg⟩ := e
    simp only [pushSigs] at h ⊢
    split at h
    · rename_i ha
      split at h
      · rename_i hl; rw [if_pos ha, if_pos hl]; exact hl
      · rename_i hl; rw [if_pos ha, if_neg hl]; exact ih _ _ h
    · rename_i ha; rw [if_neg ha]; exact ih _ _ h

/-- Pushing what is there onto a map with room. -/
theorem pushSigs_room (l : List (Nat × Nat)) {ids2 : OMap Nat TrustLevel} {m : OMap Nat Nat} (hm : OMap.Sorted m) (hk : ∀ e ∈ l, OMap.contains ids2 e.1 = true)
    (h : ∀ e ∈ l, (acceptSigner ids2 e.1).2 = true → OMap.get? m e.1 = some e.2) (hr : m.length < sigsMax) : pushSigs ids2 m l = (ids2, m, true) := by
  induction l with
  | nil => rfl
  | cons e l ih =>
    obtain ⟨i, sg⟩ := e
    have hi := ih (fun e he => hk e (List.mem_cons_of_mem _ he)) (fun e he => h e (List.mem_cons_of_mem _ he))
    simp only [pushSigs]
    rw [acceptSigner_known (hk (i, sg) List.mem_cons_self)]
    split
    · rename_i ha
      rw [if_neg (by omega), OMap.insert_known hm (h (i, sg) List.mem_cons_self ha)]
      exact hi
    · exact hi

/-- Pushing onto a full map: nothing happens up to the first accepted one. -/
theorem pushSigs_stuck (l : List (Nat × Nat)) {ids ids2 : OMap Nat TrustLevel} {m m' : OMap Nat Nat} (h : SameTrust (pushSigs ids m l).1 ids2)
    (hf : m'.length ≥ sigsMax) : ∃ b, pushSigs ids2 m' l = (ids2, m', b) := by
  induction l generalizing ids m with
  | nil => exact ⟨true, rfl⟩
  | cons e l ih =>
    obtain ⟨i, sg⟩ := e
    obtain ⟨s1, s2⟩ := acceptSigner_same ids i
    simp only [pushSigs] at h ⊢
    have key : ∀ x, SameTrust (acceptSigner ids i).1 x → SameTrust x ids2 →
        (acceptSigner ids2 i).2 = (acceptSigner ids i).2 ∧ (acceptSigner ids2 i).1 = ids2 := by
      intro x h1 h2
      exact ⟨acceptSigner_acc ((s1.trans h1).trans h2) i, acceptSigner_known ((h1.trans h2).1 i s2)⟩
    split at h
    · rename_i ha
      have : (acceptSigner ids2 i).2 = (acceptSigner ids i).2 ∧ (acceptSigner ids2 i).1 = ids2 := by
        split at h
        · exact key _ (.refl _) h
        · exact key _ (pushSigs_same _ _ _) h
      rw [this.1, this.2, if_pos ha, if_pos hf]
      exact ⟨_, rfl⟩
    · rename_i ha
      obtain ⟨k1, k2⟩ := key _ (pushSigs_same _ _ _) h
      rw [k1, k2, if_neg ha]
      exact ih h

theorem pushSigs_registers (l : List (Nat × Nat)) (ids : OMap Nat TrustLevel) (m : OMap Nat Nat) (h : (pushSigs ids m l).2.2 = true) :
    ∀ e ∈ l, OMap.contains (pushSigs ids m l).1 e.1 = true := by
  induction l generalizing ids m with
  | nil => simp
  | cons e l ih =>
    obtain ⟨i, sg⟩ := e
    obtain ⟨s1, s2⟩ := acceptSigner_same ids i
    intro x hx
    simp only [pushSigs] at h ⊢
    split at h
    · rename_i ha
      rw [if_pos ha]
      split at h
      · cases h
      · rename_i hl
        rw [if_neg hl]
        rcases List.mem_cons.mp hx with rfl | hx
        · exact (pushSigs_same _ _ _).1 _ s2
        · exact ih _ _ h x hx
    · rename_i ha
      rw [if_neg ha]
      rcases List.mem_cons.mp hx with rfl | hx
      · exact (pushSigs_same _ _ _).1 _ s2
      · exact ih _ _ h x hx

/-- Pushing again. -/
theorem pushSigs_again (l : List (Nat × Nat)) (hn : (l.map Prod.fst).Nodup) {ids ids2 : OMap Nat TrustLevel} {m : OMap Nat Nat} (hm : OMap.Sorted m)
    (h : SameTrust (pushSigs ids m l).1 ids2) : ∃ b, pushSigs ids2 (pushSigs ids m l).2.1 l = (ids2, (pushSigs ids m l).2.1, b) := by
  by_cases hf : (pushSigs ids m l).2.1.length ≥ sigsMax
  · exact pushSigs_stuck l h hf
  · have hok : (pushSigs ids m l).2.2 = true := by
      cases e : (pushSigs ids m l).2.2 with
      | true => rfl
      | false => exact absurd (pushSigs_full l ids m e) hf
    have hsorted : OMap.Sorted (pushSigs ids m l).2.1 := by
      clear h hf hok hn
      induction l generalizing ids m with
      | nil => exact hm
      | cons e l ih =>
        obtain ⟨i, sg⟩ := e
        simp only [pushSigs]
        split
        · split
          · exact hm
          · exact ih (hm.insert _ _)
        · exact ih hm
    refine ⟨true, pushSigs_room l hsorted (fun e he => h.1 _ (pushSigs_registers l ids m hok e he)) (fun e he ha => ?_) (by omega)⟩
    refine pushSigs_complete ids m l hn hok e.1 e.2 he ?_
    rw [acceptSigner_snd] at ha
    have := ((pushSigs_same l ids m).trans h).2 e.1
    rw [← this]
    exact ha

/-- The signatures are stored as far as they can be. -/
def SigsIn (e : Nat × List (Nat × Nat)) (s : MemStash) : Prop :=
  ∀ ids2, SameTrust s.identities ids2 → match OMap.get? s.sigs e.1 with
    | some m => ∃ b, pushSigs ids2 m e.2 = (ids2, m, b)
    | none => (pushSigs ids2 [] e.2).1 = ids2 ∧ ((pushSigs ids2 [] e.2).2.2 && !(pushSigs ids2 [] e.2).2.1.isEmpty) = false

theorem sigs_step {c : Nat} {l : List (Nat × Nat)} (hn : (l.map Prod.fst).Nodup) {s t : MemStash} (hs : StSorted s) {r : Except StashErr Unit}
    (h : s.importSigs c l = some (t, r)) :
    t = { s with identities := t.identities, sigs := t.sigs } ∧ SigsIn (c, l) t ∧ ∀ e, e.1 ≠ c → SigsIn e s → SigsIn e t := by
  have other : ∀ (m' : OMap Nat Nat) (e : Nat × List (Nat × Nat)), SameTrust s.identities t.identities → t.sigs = OMap.insert s.sigs c m' →
      e.1 ≠ c → SigsIn e s → SigsIn e t := by
    intro m' e h1 h2 hne hs ids2 h3
    have := hs ids2 (h1.trans h3)
    rw [h2, OMap.get?_insert_ne _ _ hne]
    exact this
  simp only [importSigs] at h
  cases hg : OMap.get? s.sigs c with
  | some prev =>
    rw [hg] at h
    cases h
    refine ⟨rfl, ?_, fun e he hse => other _ e (pushSigs_same _ _ _) rfl he hse⟩
    intro ids2 h2
    simp only [OMap.get?_insert_self]
    exact pushSigs_again l hn (hs.sigMap _ _ hg) h2
  | none =>
    rw [hg] at h
    simp only at h
    split at h
    · cases h
      refine ⟨rfl, ?_, fun e he hse => other _ e (pushSigs_same _ _ _) rfl he hse⟩
      intro ids2 h2
      simp only [OMap.get?_insert_self]
      exact pushSigs_again l hn .nil h2
    · rename_i hne
      cases h
      refine ⟨rfl, ?_, fun e he hse => ?_⟩
      · intro ids2 h2
        simp only [hg]
        rw [pushSigs_known l h2]
        exact ⟨rfl, by simpa using hne⟩
      · intro ids2 h3
        exact hse ids2 ((pushSigs_same _ _ _).trans h3)

theorem sigs_again {e : Nat × List (Nat × Nat)} {s : MemStash} (hs : StSorted s) (h : SigsIn e s) : ∃ r, s.importSigs e.1 e.2 = some (s, r) := by
  have h := h s.identities (.refl _)
  simp only [importSigs]
  cases hg : OMap.get? s.sigs e.1 with
  | some m =>
    rw [hg] at h
    obtain ⟨b, hb⟩ := h
    simp only [hb]
    rw [OMap.insert_known hs.sigs hg]
    exact ⟨_, rfl⟩
  | none =>
    rw [hg] at h
    simp only at h
    simp only [h.2, h.1]
    exact ⟨_, rfl⟩

theorem allSigs_first {l : List (Nat × List (Nat × Nat))} (h1 : (l.map Prod.fst).Nodup) (h2 : ∀ e ∈ l, (e.2.map Prod.fst).Nodup) {s t : MemStash} (hs : StSorted s)
    {r : Except StashErr Unit} (h : importAllSigs l s = some (t, r)) :
    t = { s with identities := t.identities, sigs := t.sigs } ∧ (∀ e ∈ l, SigsIn e t) ∧ ∀ e, e.1 ∉ l.map Prod.fst → SigsIn e s → SigsIn e t := by
  induction l generalizing s with
  | nil => cases h; exact ⟨rfl, by simp, fun _ _ h => h⟩
  | cons e l ih =>
    obtain ⟨c, sg⟩ := e
    simp only [importAllSigs] at h
    split at h
    · cases h
    · rename_i u r' hu
      simp only [List.map_cons, List.nodup_cons] at h1
      obtain ⟨a1, a2, a3⟩ := sigs_step (h2 _ List.mem_cons_self) hs hu
      have hst : StSorted u := stSorted_exec (H := toyCommit) ⟨fun _ => 0, fun _ => 0, fun _ => 0, fun _ => 0⟩ s u hs (.sigs c sg) (by simp only [StashWrite.exec, hu]; rfl)
      obtain ⟨b1, b2, b3⟩ := ih h1.2 (fun e he => h2 e (List.mem_cons_of_mem _ he)) hst h
      refine ⟨by rw [b1, a1], fun x hx => ?_, fun x hx hxs => ?_⟩
      · rcases List.mem_cons.mp hx with rfl | hx
        · exact b3 _ h1.1 a2
        · exact b2 x hx
      · simp only [List.map_cons, List.mem_cons, not_or] at hx
        exact b3 x hx.2 (a3 x hx.1 hxs)

theorem allSigs_again {l : List (Nat × List (Nat × Nat))} {s : MemStash} (hs : StSorted s) (h : ∀ e ∈ l, SigsIn e s) : importAllSigs l s = some (s, .ok ()) := by
  induction l with
  | nil => rfl
  | cons e l ih =>
    obtain ⟨r, hr⟩ := sigs_again hs (h e List.mem_cons_self)
    simp only [importAllSigs, hr]
    exact ih (fun e he => h e (List.mem_cons_of_mem _ he))

/-! ### The whole -/

theorem kit_again {I : Ids} {k : Kit} (h1 : (k.signatures.map Prod.fst).Nodup) (h2 : ∀ e ∈ k.signatures, (e.2.map Prod.fst).Nodup) {s t : MemStash} (hs : StSorted s)
    (h : s.consumeKit I k = some (t, .ok ())) (hr1 : ∀ x ∈ k.iimpls, ∀ si, t.schema x.schemaId = some si → si.iimpls.length < 255)
    (hr2 : ∀ x ∈ k.supplements, (t.supplements x.ref).length < 255) :
    t = { s with types := t.types, libs := t.libs, schemata := t.schemata, ifaces := t.ifaces, suppl := t.suppl, identities := t.identities, sigs := t.sigs } ∧
      t.consumeKit I k = some (t, .ok ()) := by
  have W : ∀ {a b : MemStash}, Writes toyCommit I a b → StSorted a → StSorted b := fun hw ha => Writes.stSorted hw ha
  have hst : StSorted t := W (writes_consumeKit I s k t _ h) hs
  simp only [consumeKit] at h
  obtain ⟨s1, u1, e1, h⟩ := bind_ok h
  obtain ⟨s2, u2, e2, h⟩ := bind_ok h
  obtain ⟨s3, u3, e3, h⟩ := bind_ok h
  obtain ⟨s4, u4, e4, h⟩ := bind_ok h
  obtain ⟨s5, u5, e5, h⟩ := bind_ok h
  obtain ⟨s6, u6, e6, e7⟩ := bind_ok h
  have o1 : StSorted s1 := W (Writes.one (.types k.types) (by simp only [StashWrite.exec, e1]; rfl)) hs
  have o2 : StSorted s2 := W (writes_each_of I (fun l => .lib l) (fun _ _ => rfl) _ _ _ _ e2) o1
  have o3 : StSorted s3 := W (writes_each_of I (fun l => .schema l) (fun _ _ => rfl) _ _ _ _ e3) o2
  have o4 : StSorted s4 := W (writes_each_of I (fun l => .iface l) (fun _ _ => rfl) _ _ _ _ e4) o3
  have o5 : StSorted s5 := W (writes_each_of I (fun l => .iimpl l) (fun _ _ => rfl) _ _ _ _ e5) o4
  have o6 : StSorted s6 := W (writes_each_of I (fun l => .supplement l) (fun _ _ => rfl) _ _ _ _ e6) o5
  have f1 : s1 = { s with types := OSet.extend s.types k.types } := by cases e1; rfl
  have f2 : s2 = { s1 with libs := OMap.extend s1.libs (k.scripts.map (fun l => (I.lib l, l))) } := by
    rw [libs_eq] at e2; cases e2; rfl
  obtain ⟨f3, g3⟩ : s3 = { s2 with schemata := s3.schemata } ∧ ∀ d ∈ k.schemata, OMap.contains s3.schemata (I.schema d) = true := by
    refine each_facts (R := fun _ _ => True) (Inv := fun t => t = { s2 with schemata := t.schemata }) (Q := fun d t => OMap.contains t.schemata (I.schema d) = true)
      (List.pairwise_of_forall (fun _ _ => trivial)) (fun d _ a t b ha hf => ?_) (fun d _ d' _ _ a t b _ hq hf => ?_) rfl e3
    · obtain ⟨h1, h2⟩ := schema_first hf
      exact ⟨by rw [h1, ha], h2⟩
    · obtain ⟨v, hv⟩ := OMap.contains_iff.mp hq
      simp only [replaceSchema] at hf
      split at hf
      · cases hf; exact hq
      · split at hf
        · cases hf
        · cases hf
          refine OMap.contains_iff.mpr ?_
          rw [OMap.get?_insert]
          split
          · exact ⟨_, rfl⟩
          · exact ⟨v, hv⟩
  obtain ⟨f4, g4⟩ := ifaces_first e4
  obtain ⟨f5, g5, -⟩ := iimpls_first e5
  obtain ⟨f6, g6⟩ := suppls_first e6
  obtain ⟨f7, g7, -⟩ := allSigs_first h1 h2 o6 e7
  have c1 : t.types = s1.types := by rw [f7, f6, f5, f4, f3, f2]
  have c2 : t.libs = s2.libs := by rw [f7, f6, f5, f4, f3]
  have c3 : t.schemata = s5.schemata := by rw [f7, f6]
  have c4 : t.ifaces = s4.ifaces := by rw [f7, f6, f5]
  have c5 : t.ifaces = s5.ifaces := by rw [f7, f6]
  have c6 : t.suppl = s6.suppl := by rw [f7]
  refine ⟨by rw [f7, f6, f5, f4, f3, f2, f1], ?_⟩
  have p1 : t.consumeTypes k.types = some (t, .ok ()) := by
    have : OSet.extend t.types k.types = t.types := by rw [c1, f1]; exact types_self hs.types _
    simp only [consumeTypes, this]
  have p2 : SR.each (replaceLib I) k.scripts t = some (t, .ok ()) := by
    have : OMap.extend t.libs (k.scripts.map (fun l => (I.lib l, l))) = t.libs := by rw [c2, f2]; exact extend_self o1.libs _
    rw [libs_eq, this]
  have p3 : SR.each (replaceSchema I) k.schemata t = some (t, .ok ()) := by
    refine each_noop (fun d hd => ⟨false, ?_⟩)
    obtain ⟨v, hv⟩ := OMap.contains_iff.mp (g3 d hd)
    have e : s4.schemata = s3.schemata := by rw [f4]
    have : OMap.contains t.schemata (I.schema d) = true := by
      refine OMap.contains_iff.mpr ?_
      have := g5 (I.schema d)
      simp only [MemStash.schema, e, hv, Option.map_some] at this
      exact ⟨_, by rw [c3]; exact this⟩
    simp only [replaceSchema, this, if_true]
  have p4 : SR.each (replaceIface I) k.ifaces t = some (t, .ok ()) := by
    refine each_noop (fun d hd => ⟨false, ?_⟩)
    have : OMap.contains t.ifaces (I.iface d) = true := by rw [c4]; exact g4 d hd
    simp only [replaceIface, this, if_true]
  have p5 : SR.each replaceIimpl k.iimpls t = some (t, .ok ()) := iimpls_again o4 e5 hst c3 c5 hr1
  have p6 : SR.each addSupplement k.supplements t = some (t, .ok ()) := by
    refine each_noop (fun x hx => ⟨(), suppl_again hst ?_ (hr2 x hx)⟩)
    rw [MemStash.supplements, c6]; exact g6 x hx
  simp only [consumeKit, p1, p2, p3, p4, p5, p6, SR.bind]
  exact allSigs_again hst g7

/-- Consuming a consignment again. -/
theorem stash_again (hH : H.Binding) {I : Ids} {M : Mpc} {con : Consignment} {s t : MemStash} (hs : Good H s) (hst : StSorted s) (hc : con.Proper H)
    (htree : OneTree M s) (hsig : con.OneSig) (hw : con.data.bundles.Pairwise (fun wb wb' => wb.id ≠ wb'.id))
    (h : s.consumeConsignment H I M con = some (t, .ok ())) (hr : StashRoom t con) :
    t.secretSeals = s.secretSeals ∧ t.consumeConsignment H I M con = some (t, .ok ()) := by
  obtain ⟨tree, hM, hT⟩ := htree
  have htt : StSorted t := Writes.stSorted (writes_consumeConsignment I M s con t _ h) hst
  have hgt : Good H t := (step_consumeConsignment hH I M s hs con hc _ _ h).1
  simp only [MemStash.consumeConsignment] at h
  obtain ⟨s1, u1, e1, h⟩ := bind_ok h
  obtain ⟨s2, u2, e2, h⟩ := bind_ok h
  obtain ⟨s3, u3, e3, h⟩ := bind_ok h
  obtain ⟨s4, u4, e4, e5⟩ := bind_ok h
  have W : ∀ {a b : MemStash}, Writes H I a b → StSorted a → StSorted b := fun hw ha => Writes.stSorted hw ha
  have o1 : StSorted s1 := W (writes_consumeGenesis I s s1 _ _ e1) hst
  have o2 : StSorted s2 := W (Writes.each (fun s a t r h => writes_consumeExtension I s a t r h) _ _ _ _ e2) o1
  have o3 : StSorted s3 := W (Writes.each (fun s a t r h => writes_consumeWitnessBundle I M _ s a t r h) _ _ _ _ e3) o2
  obtain ⟨f1, g1⟩ := genesis_first hH hs hc.genesisKind hc.genesis e1
  have d1 : Good H s1 := ((step_consumeGenesis hH s hs _ hc.genesisKind hc.genesis).1 _ _ e1).1
  obtain ⟨⟨d2, f2⟩, g2⟩ : (Good H s2 ∧ s2 = { s1 with extensions := s2.extensions }) ∧ ∀ x ∈ con.data.extensions, ExtIn H x s2 := by
    refine each_facts (R := fun _ _ => True) (Inv := fun t => Good H t ∧ t = { s1 with extensions := t.extensions }) (Q := fun x t => ExtIn H x t)
      (List.pairwise_of_forall (fun _ _ => trivial)) (fun x hx a t b ha hf => ?_) (fun x _ y hy _ a t b ha hq hf => ?_) ⟨d1, rfl⟩ e2
    · obtain ⟨h1, h2, -⟩ := ext_step hH ha.1 (hc.extensions x hx) hf
      exact ⟨⟨((step_consumeExtension hH a ha.1 x (hc.extensions x hx)).1 _ _ hf).1, by rw [h1, ha.2]⟩, h2⟩
    · exact (ext_step hH ha.1 (hc.extensions y hy) hf).2.2 x hq
  have w2 : s2.witnesses = s.witnesses := by rw [f2, f1]
  obtain ⟨⟨d3, f3, -⟩, g3⟩ : (Good H s3 ∧ s3 = { s2 with bundles := s3.bundles, witnesses := s3.witnesses } ∧ ∀ w sw, s3.witness w = some sw → sw.anchors.In tree) ∧
      ∀ x ∈ con.data.bundles, WbIn H M (con.data.genesis.contractId H) x s3 := by
    refine each_facts (R := fun (wb wb' : WitnessBundle) => wb.id ≠ wb'.id)
      (Inv := fun t => Good H t ∧ t = { s2 with bundles := t.bundles, witnesses := t.witnesses } ∧ ∀ w sw, t.witness w = some sw → sw.anchors.In tree)
      (Q := fun x t => WbIn H M (con.data.genesis.contractId H) x t) hw
      (fun x hx a t b ha hf => ?_) (fun x hx y hy hne a t b ha hq hf => ?_)
      ⟨d2, rfl, fun w sw e => hT w sw (by simpa only [MemStash.witness, w2] using e)⟩ e3
    · obtain ⟨h1, h2, h3, h4, -⟩ := wb_step hH hM (hc.bundles x hx) ha.1 ha.2.2 hf
      exact ⟨⟨h1, by rw [h2, ha.2.1], h4⟩, h3⟩
    · obtain ⟨-, -, -, -, h5, h6⟩ := wb_step hH hM (hc.bundles y hy) ha.1 ha.2.2 hf
      obtain ⟨q1, as, z, q2, q3, r, q4, q5⟩ := hq
      exact ⟨fun c hcl => h5 _ (hc.bundles x hx _ (List.mem_map.mpr ⟨c, hcl, rfl⟩)) (q1 c hcl), as, z, q2, q3, r, (h6 x.id hne).trans q4, q5⟩
  have f4 : s4 = { s3 with attachments := OMap.extend s3.attachments con.attachments } := by
    rw [attachments_eq] at e4; cases e4; rfl
  have o4 : StSorted s4 := by rw [f4]; exact { o3 with attachments := o3.attachments.extend _ }
  obtain ⟨f5, p5⟩ := kit_again (k := kitOf con) hsig.contents hsig.signers o4 e5 (fun x hx si hsi => by
    obtain ⟨e, he, rfl⟩ := List.mem_map.mp (OSet.mem_ofList.mp hx)
    exact hr.iimpls e he si hsi) hr.suppl
  have c1 : t.geneses = s1.geneses := by rw [f5, f4, f3, f2]
  have c2 : t.extensions = s2.extensions := by rw [f5, f4, f3]
  have c3 : t.bundles = s3.bundles := by rw [f5, f4]
  have c4 : t.witnesses = s3.witnesses := by rw [f5, f4]
  have c5 : t.attachments = s4.attachments := by rw [f5]
  refine ⟨by rw [f5, f4, f3, f2, f1], ?_⟩
  obtain ⟨b1, p1⟩ := genesis_again hH htt hgt (g := con.data.genesis) (by
    obtain ⟨r, r1, r2⟩ := g1
    exact ⟨r, by rw [MemStash.genesis, c1]; exact r1, r2⟩) hr.geneses
  have p2 : SR.each (consumeExtension H) con.data.extensions t = some (t, .ok ()) := by
    refine each_noop (fun x hx => ext_again hH htt hgt ?_)
    obtain ⟨r, r1, r2⟩ := g2 x hx
    exact ⟨r, by rw [MemStash.extension, c2]; exact r1, r2⟩
  have p3 : SR.each (consumeWitnessBundle H M (con.data.genesis.contractId H)) con.data.bundles t = some (t, .ok ()) := by
    refine each_noop (fun x hx => wb_again hH (hc.bundles x hx) hgt htt ?_)
    obtain ⟨q1, as, z, q2, q3, r, q4, q5⟩ := g3 x hx
    refine ⟨fun c hcl => ?_, as, z, q2, q3, r, by rw [MemStash.witness, c4]; exact q4, q5⟩
    obtain ⟨r, r1, r2⟩ := q1 c hcl
    exact ⟨r, by rw [MemStash.bundle, c3]; exact r1, r2⟩
  have p4 : SR.each (fun s (a : Nat × Nat) => s.replaceAttachment a.1 a.2) con.attachments t = some (t, .ok ()) := by
    have : OMap.extend t.attachments con.attachments = t.attachments := by rw [c5, f4]; exact extend_self o3.attachments _
    rw [attachments_eq, this]
  simp only [MemStash.consumeConsignment, p1, p2, p3, p4, SR.bind]
  exact p5

/-! ### The stock -/

open Stock

theorem Stock.Reachable.stSorted (hH : H.Binding) {k : Stock} (hk : k.Reachable H) : StSorted k.stash := by
  obtain ⟨I, M, G, es, hG, he, hr⟩ := hk
  exact Writes.stSorted (runStock_kept hH hG es he kept_empty hr).writes stSorted_empty

variable {I : Ids} {M : Mpc} {G : SchemaDoc → SchemaGlobals}

theorem consignment_again (hH : H.Binding) (hG : ∀ d, OMap.Sorted (G d).maxItems) {k k1 : Stock} (hk : k.Reachable H) {con : Consignment} {r r' : Resolver}
    (hc : StockEvent.Proper H (.consignment con r)) (h : Stock.consumeConsignment H I M G r con k = some (k1, none))
    (hx : IndexRoom.consignment H k1.index con) (hr : ∀ wb ∈ con.data.bundles, (r' wb.id).isSome = true)
    (htree : OneTree M k.stash) (hsig : con.OneSig) (hw : con.data.bundles.Pairwise (fun wb wb' => wb.id ≠ wb'.id)) (hroom : StashRoom k1.stash con) :
    ∃ t2, Stock.consumeConsignment H I M G r' con k = some (⟨k1.stash, t2, k1.index⟩, none) ∧
      Stock.consumeConsignment H I M G r' con k1 = some (⟨k1.stash, t2, k1.index⟩, none) := by
  have hh := hk.hist hH
  obtain ⟨t2, h2⟩ := consignment_resume hH hG hh hc h hx hr
  refine ⟨t2, h2 k (.inl rfl), ?_⟩
  have h3 := h2 ⟨k.stash, k1.state, k1.index⟩ (.inr (.inr rfl))
  obtain ⟨con', d1, d2⟩ := consignment_done (I := I) (M := M) (G := G) h
  obtain ⟨con'', e1, e2⟩ := consignment_done (I := I) (M := M) (G := G) (r := r') h3
  simp only at e1
  rw [d1] at e1
  cases e1
  have ds := body_stash d2
  obtain ⟨q1, -⟩ := resolve_proper hH _ _ _ r hc d1
  obtain ⟨g, hg, he⟩ := resolve_ok hH k.stash con hc.2.1
  have e : con' = withBundles con g := by rw [d1] at he; injection he
  have hw' : con'.data.bundles.Pairwise (fun wb wb' => wb.id ≠ wb'.id) := by
    rw [e]
    refine List.pairwise_map.mpr (hw.imp_of_mem (fun {a b} ha hb hab => ?_))
    simp only [WitnessBundle.id, (hg a ha).pub, (hg b hb).pub]
    exact hab
  obtain ⟨f1, f2⟩ := stash_again hH hh.good (hk.stSorted hH) q1.1 htree (by rw [e]; exact ⟨hsig.1, hsig.2⟩) hw' ds (by rw [e]; exact ⟨hroom.1, hroom.2, hroom.3⟩)
  have res : k1.stash.resolveSecrets H con = .ok con' := by
    rw [← d1]
    have : k1.stash.sealSecret H = k.stash.sealSecret H := by funext x; simp only [MemStash.sealSecret, f1]
    simp only [MemStash.resolveSecrets, this]
  simp only [Stock.consumeConsignment, res, storeTx_mem]
  have x1 : k1.state.updateFromConsignment H (G con'.schema) con'.data r' = some (t2, none) := body_state e2
  have x2 := body_index e2
  simp only at x2
  rw [body_of (k := k1) x1 x2 f2]
  rfl

theorem shLoop_first (hH : H.Binding) {l : List (Nat × Bundle)} (hl : ∀ e ∈ l, e.2.WF H) {s t : MemStash} (hs : Good H s) (h : ShLoop H l s t) :
    Good H t ∧ t = { s with bundles := t.bundles } ∧ (∀ e ∈ l, BundleIn H e.2 t) ∧ ∀ x : Bundle, x.WF H → BundleIn H x s → BundleIn H x t := by
  induction l generalizing s with
  | nil => cases h; exact ⟨hs, rfl, by simp, fun _ _ h => h⟩
  | cons e l ih =>
    obtain ⟨s1, u, h1, h2⟩ := h
    have hb := hl e List.mem_cons_self
    obtain ⟨a1, a2, a3⟩ := bundle_step hH hs hb h1
    obtain ⟨b0, b1, b2, b3⟩ := ih (fun x hx => hl x (List.mem_cons_of_mem _ hx)) ((step_consumeBundle hH s hs e.2 hb).1 _ _ h1).1 h2
    refine ⟨b0, by rw [b1, a1], fun x hx => ?_, fun x hw hx => b3 x hw (a3 x hw hx)⟩
    rcases List.mem_cons.mp hx with rfl | hx
    · exact b3 _ hb a2
    · exact b2 x hx

theorem shLoop_again (hH : H.Binding) {l : List (Nat × Bundle)} (hl : ∀ e ∈ l, e.2.WF H) {s : MemStash} (hs : Good H s) (hst : StSorted s)
    (h : ∀ e ∈ l, BundleIn H e.2 s) : ShLoop H l s s := by
  induction l with
  | nil => rfl
  | cons e l ih =>
    obtain ⟨b, hb⟩ := bundle_again hH hst hs (hl e List.mem_cons_self) (h e List.mem_cons_self)
    exact ⟨s, b, hb, ih (fun x hx => hl x (List.mem_cons_of_mem _ hx)) (fun x hx => h x (List.mem_cons_of_mem _ hx))⟩

theorem fascia_again (hH : H.Binding) {k k1 : Stock} (hk : k.Reachable H) {f : Fascia} {r r' : Resolver}
    (hc : StockEvent.Proper H (.fascia f r)) (h : Stock.consumeFascia H r f k = some (k1, none))
    (hx : IndexRoom.fascia H k1.index f) (hr : (r' f.witness.id).isSome = true) (htree : SameTrees f.anchor k.stash) :
    ∃ t2, Stock.consumeFascia H r' f k = some (⟨k1.stash, t2, k1.index⟩, none) ∧ Stock.consumeFascia H r' f k1 = some (⟨k1.stash, t2, k1.index⟩, none) := by
  have hh := hk.hist hH
  obtain ⟨tree, t1, t2⟩ := htree
  obtain ⟨x, h2⟩ := fascia_resume hH hh hc h hx hr
  refine ⟨x, h2 k (.inl rfl), ?_⟩
  have h3 := h2 ⟨k.stash, k1.state, k1.index⟩ (.inr (.inr rfl))
  obtain ⟨s, u, a1, a2⟩ := fascia_done (I := ⟨fun _ => 0, fun _ => 0, fun x => x, fun _ => 0⟩) (M := ⟨fun _ _ _ => none⟩) (G := fun _ => ⟨0, []⟩) (r := r') h3
  simp only at a1
  obtain ⟨b1, b2, b3, b4⟩ := fasciaBundles_iff.mp a2
  simp only at b2 b3 b4
  obtain ⟨c1, c2, -, -⟩ := witness_step (tree := tree) hh.good t2 t1 a1
  have gs : Good H s := ((step_consumeWitness k.stash hh.good ⟨f.witness, f.anchor⟩).1 _ _ a1).1
  have hl : ∀ e ∈ f.bundles, e.2.WF H := fun e he => (hc e he).1
  obtain ⟨d0, d1, d2, -⟩ := shLoop_first hH hl gs b4
  have hst : StSorted k1.stash := by
    have o := hk.stSorted hH
    have o1 : StSorted s := Writes.stSorted (H := H) (writes_consumeWitness ⟨fun _ => 0, fun _ => 0, fun x => x, fun _ => 0⟩ _ _ _ _ a1) o
    clear d0 d1 d2 c1 c2 gs a1 a2
    revert b4 o1
    generalize f.bundles = l
    intro b4 o1
    induction l generalizing s with
    | nil => cases b4; exact o1
    | cons e l ih =>
      obtain ⟨s1, u, e1, e2⟩ := b4
      exact ih _ e2 (Writes.stSorted (H := H) (writes_consumeBundle ⟨fun _ => 0, fun _ => 0, fun x => x, fun _ => 0⟩ _ _ _ _ e1) o1)
  obtain ⟨w, hw⟩ := witness_again hst d0 (e := ⟨f.witness, f.anchor⟩) (by
    obtain ⟨z, z1, z2⟩ := c2
    have : k1.stash.witnesses = s.witnesses := by rw [d1]
    exact ⟨z, by rw [MemStash.witness, this]; exact z1, z2⟩)
  have := (fasciaBundles_iff (H := H) (r := r') (w := f.witness.id) (l := f.bundles) (k := k1) (k' := ⟨k1.stash, x, k1.index⟩)).mpr
    ⟨b1, b2, b3, shLoop_again hH hl d0 hst d2⟩
  simp only [consumeFascia, storeTx_mem, fasciaBody, hw]
  rw [this]
  rfl

end Rgb
