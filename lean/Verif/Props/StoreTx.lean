import Verif.Lemmas.StoreTx

/-!
# C34, C35: transactions over the three stores and crashes
-/

namespace Rgb.Props

open Rgb

/-! ## C34 -/

/-- **C34** (the part which holds, exactly). With providers which really implement transactions and a body working inside
of them, for every failure point: if a transaction can't be opened, or the index can't be committed, then all the contents are as before.
In the other cases of an error it's told what stays: if the body fails, everything it has done; if the state can't be committed,
the index; if the stash can't be, the index and the state. Without an error all the contents are those left by the body.
Missing: unchanged contents in case of the other errors, see `C34_body_fails`, `C34_commit_fails`. -/
theorem C34_transaction_partial {S T X A B C ε : Type} (ps : TxProvider S) (pt : TxProvider T) (px : TxProvider X)
    (cs : S → A) (ss : S → Option A) (ct : T → B) (st : T → Option B) (cx : X → C) (sx : X → Option C)
    (hs : ps.Lawful cs ss) (ht : pt.Lawful ct st) (hx : px.Lawful cx sx)
    (f : Stores S T X → Option (Stores S T X × Option ε))
    (hf : ∀ k k' r, f k = some (k', r) → ss k'.stash = ss k.stash ∧ st k'.state = st k.state ∧ sx k'.index = sx k.index)
    (k k' : Stores S T X) (hk : ss k.stash = none)
    (r : Option (TxErr ε)) (h : storeTransaction ps pt px f k = some (k', r)) :
    ((r = some .beginState ∨ r = some .beginStash ∨ r = some .beginIndex ∨ r = some .commitIndex) →
      k'.view cs ct cx = k.view cs ct cx) ∧
    ((∀ e, r = some (.body e) → ∃ k₁, k₁.view cs ct cx = k.view cs ct cx ∧ f k₁ = some (k', some e)) ∧
     (r = some .commitState → ∃ k₁ k₂, k₁.view cs ct cx = k.view cs ct cx ∧ f k₁ = some (k₂, none) ∧
        k'.view cs ct cx = ⟨cs k.stash, ct k.state, cx k₂.index⟩) ∧
     (r = some .commitStash → ∃ k₁ k₂, k₁.view cs ct cx = k.view cs ct cx ∧ f k₁ = some (k₂, none) ∧
        k'.view cs ct cx = ⟨cs k.stash, ct k₂.state, cx k₂.index⟩) ∧
     (r = none → ∃ k₁ k₂, k₁.view cs ct cx = k.view cs ct cx ∧ f k₁ = some (k₂, none) ∧
        k'.view cs ct cx = k₂.view cs ct cx)) := by
  obtain ⟨s0, t0, x0⟩ := k
  simp only [storeTransaction] at h
  cases ebt : pt.begin_ t0 with | mk t1 bt
  cases ebs : ps.begin_ s0 with | mk s1 bs
  cases ebx : px.begin_ x0 with | mk x1 bx
  simp only [ebt, ebs, ebx] at h
  cases bt with
  | false =>
    obtain ⟨h1, -⟩ := ht.begin_err _ _ ebt
    simp only [if_true, Option.some.injEq, Prod.mk.injEq] at h
    obtain ⟨rfl, rfl⟩ := h
    simp [Stores.view, h1]
  | true =>
  obtain ⟨ht1, ht2⟩ := ht.begin_ok _ _ ebt
  cases bs with
  | false =>
    obtain ⟨h1, h2⟩ := hs.begin_err _ _ ebs
    obtain ⟨y, y1, y2, -⟩ := hs.rollback s1
    simp only [Bool.true_eq_false, if_false, if_true, y1, Option.map_some, Option.some.injEq, Prod.mk.injEq] at h
    obtain ⟨rfl, rfl⟩ := h
    simp only at hk
    simp [Stores.view, ht1, y2, h2, hk, h1]
  | true =>
  obtain ⟨hs1, hs2⟩ := hs.begin_ok _ _ ebs
  cases bx with
  | false =>
    obtain ⟨h1, -⟩ := hx.begin_err _ _ ebx
    obtain ⟨y, y1, y2, -⟩ := hs.rollback s1
    obtain ⟨z, z1, z2, -⟩ := ht.rollback t1
    simp only [Bool.true_eq_false, if_false, if_true, y1, z1, Option.some.injEq, Prod.mk.injEq] at h
    obtain ⟨rfl, rfl⟩ := h
    simp [Stores.view, h1, y2, z2, hs2, ht2]
  | true =>
  obtain ⟨hx1, hx2⟩ := hx.begin_ok _ _ ebx
  simp only [Bool.true_eq_false, if_false] at h
  have hk1 : Stores.view cs ct cx ⟨s1, t1, x1⟩ = Stores.view cs ct cx ⟨s0, t0, x0⟩ := by
    simp [Stores.view, hs1, ht1, hx1]
  cases ef : f ⟨s1, t1, x1⟩ with
  | none => simp [ef] at h
  | some p =>
  obtain ⟨⟨s2, t2, x2⟩, o⟩ := p
  obtain ⟨f1, f2, f3⟩ := hf _ _ _ ef
  simp only at f1 f2 f3
  cases o with
  | some e =>
    simp only [ef, Option.some.injEq, Prod.mk.injEq] at h
    obtain ⟨rfl, rfl⟩ := h
    refine ⟨by simp, fun e' he => ?_, by simp, by simp, by simp⟩
    cases he
    exact ⟨_, hk1, ef⟩
  | none =>
  simp only [ef, commitAll] at h
  cases ecx : px.commit x2 with | mk x3 bx
  cases ect : pt.commit t2 with | mk t3 bt
  cases ecs : ps.commit s2 with | mk s3 bs
  simp only [ecx, ect, ecs] at h
  cases bx with
  | false =>
    obtain ⟨c1, c2⟩ := hx.commit_err _ _ ecx
    obtain ⟨ys, y1, y2, -⟩ := hs.rollback s2
    obtain ⟨yt, z1, z2, -⟩ := ht.rollback t2
    obtain ⟨yx, u1, u2, -⟩ := hx.rollback x3
    simp only [if_true, rollbackAll, y1, z1, u1, Option.map_some, Option.some.injEq, Prod.mk.injEq] at h
    obtain ⟨rfl, rfl⟩ := h
    simp [Stores.view, y2, z2, u2, c2, f1, f2, f3, hs2, ht2, hx2]
  | true =>
  obtain ⟨c1, c2⟩ := hx.commit_ok _ _ ecx
  cases bt with
  | false =>
    obtain ⟨d1, d2⟩ := ht.commit_err _ _ ect
    obtain ⟨ys, y1, y2, -⟩ := hs.rollback s2
    obtain ⟨yt, z1, z2, -⟩ := ht.rollback t3
    obtain ⟨yx, u1, u2, -⟩ := hx.rollback x3
    simp only [Bool.true_eq_false, if_false, if_true, rollbackAll, y1, z1, u1, Option.map_some, Option.some.injEq,
      Prod.mk.injEq] at h
    obtain ⟨rfl, rfl⟩ := h
    refine ⟨by simp, by simp, fun _ => ⟨_, _, hk1, ef, ?_⟩, by simp, by simp⟩
    simp [Stores.view, y2, z2, u2, c1, c2, d2, f1, f2, hs2, ht2]
  | true =>
  obtain ⟨d1, d2⟩ := ht.commit_ok _ _ ect
  cases bs with
  | false =>
    obtain ⟨e1, e2⟩ := hs.commit_err _ _ ecs
    obtain ⟨ys, y1, y2, -⟩ := hs.rollback s3
    obtain ⟨yt, z1, z2, -⟩ := ht.rollback t3
    obtain ⟨yx, u1, u2, -⟩ := hx.rollback x3
    simp only [Bool.true_eq_false, if_false, if_true, rollbackAll, y1, z1, u1, Option.map_some, Option.some.injEq,
      Prod.mk.injEq] at h
    obtain ⟨rfl, rfl⟩ := h
    refine ⟨by simp, by simp, by simp, fun _ => ⟨_, _, hk1, ef, ?_⟩, by simp⟩
    simp [Stores.view, y2, z2, u2, c1, c2, d1, d2, e2, f1, hs2]
  | true =>
    obtain ⟨e1, e2⟩ := hs.commit_ok _ _ ecs
    simp only [Bool.true_eq_false, if_false, Option.some.injEq, Prod.mk.injEq] at h
    obtain ⟨rfl, rfl⟩ := h
    refine ⟨by simp, by simp, by simp, by simp, fun _ => ⟨_, _, hk1, ef, ?_⟩⟩
    simp [Stores.view, c1, d1, e1]

/-- A body which changes all the three stores and then succeeds or fails. -/
def exBody (r : Option Nat) (k : Stores (Nat × Option Nat) (Nat × Option Nat) (Nat × Option Nat)) :
    Option (Stores (Nat × Option Nat) (Nat × Option Nat) (Nat × Option Nat) × Option Nat) :=
  some (⟨(k.stash.1 + 1, k.stash.2), (k.state.1 + 2, k.state.2), (k.index.1 + 3, k.index.2)⟩, r)

def exStores : Stores (Nat × Option Nat) (Nat × Option Nat) (Nat × Option Nat) := ⟨(10, none), (20, none), (30, none)⟩

/-- The case of the index failing to commit: everything is restored. -/
example : storeTransaction (snapProvider true true) (snapProvider true true) (snapProvider true false) (exBody none) exStores
    = some (exStores, some .commitIndex) := by decide

example : ∀ r k k' r', exBody r k = some (k', r') →
    k'.stash.2 = k.stash.2 ∧ k'.state.2 = k.state.2 ∧ k'.index.2 = k.index.2 := by
  intro r k k' r' h; cases h; exact ⟨rfl, rfl, rfl⟩

/-- **C34** fails when the body of the operation fails: providers with true transactions, and after the error all three
stores are changed (and the transactions are left open). -/
theorem C34_body_fails : ∃ k', storeTransaction (snapProvider true true) (snapProvider true true) (snapProvider true true)
      (exBody (some 7)) exStores = some (k', some (.body 7)) ∧
    k'.stash.1 ≠ exStores.stash.1 ∧ k'.state.1 ≠ exStores.state.1 ∧ k'.index.1 ≠ exStores.index.1 ∧
    k'.stash.2 = some exStores.stash.1 :=
  ⟨_, rfl, by decide⟩

/-- **C34** fails when the last commit fails: the index and the state keep the changes, the stash doesn't. -/
theorem C34_commit_fails : ∃ k', storeTransaction (snapProvider true false) (snapProvider true true) (snapProvider true true)
      (exBody none) exStores = some (k', some .commitStash) ∧
    k'.stash.1 = exStores.stash.1 ∧ k'.state.1 ≠ exStores.state.1 ∧ k'.index.1 ≠ exStores.index.1 :=
  ⟨_, rfl, by decide⟩

/-- **C34**: if the transaction of the stash can't be opened then the one of the state is left open (line 1258-1260 rolls
back the stash only). -/
theorem C34_begin_fails : ∃ k', storeTransaction (snapProvider false true) (snapProvider true true) (snapProvider true true)
      (exBody none) exStores = some (k', some .beginStash) ∧ k'.state.2 = some exStores.state.1 :=
  ⟨_, rfl, by decide⟩

/-- **C34**: an in-memory provider can't roll back, so that an error of a commit (an I/O error) stops the process. -/
theorem C34_memory_panics {S T X ε : Type} (ps : TxProvider S) (pt : TxProvider T) (px : TxProvider X)
    (hs : ∀ s, ps.rollback s = none) (k : Stores S T X) (r : Stores S T X × Option (TxErr ε))
    (h : commitAll ps pt px k = some r) :
    r.2 = none ∧ (px.commit k.index).2 = true ∧ (pt.commit k.state).2 = true ∧ (ps.commit k.stash).2 = true := by
  have hr : ∀ k, rollbackAll ps pt px k = none := by
    intro k; simp only [rollbackAll, hs]
    split
    · rename_i h _; cases h
    · rfl
  simp only [commitAll, hr, Option.map_none] at h
  split at h
  · cases h
  split at h
  · cases h
  split at h
  · cases h
  rename_i h1 h2 h3
  cases h
  simp at h1 h2 h3
  exact ⟨rfl, h1, h2, h3⟩

example : commitAll (ε := Nat) (S := Nat) (T := Nat) (X := Nat) ⟨fun s => (s, true), fun s => (s, true), fun _ => none⟩
    ⟨fun s => (s, true), fun s => (s, true), fun _ => none⟩ ⟨fun s => (s, true), fun s => (s, true), fun _ => none⟩ ⟨1, 2, 3⟩
    = some (⟨1, 2, 3⟩, none) := by decide

/-! ## C35 -/

section
variable {S T X : Type}

/-- **C35** (what can be on the disk). The files hold `w` at the start, then come any operations, and the process is stopped
at any event of the disk (also in the middle of a file). Then the files are: those of the last writes of the
operations `before` which were completed; with, if an operation was interrupted, the stores `ws` it has written first replaced with
the new ones; and with at most one file, the next one to write, holding a beginning of the new bytes. -/
theorem C35_disk_after_crash (C : Codecs3 S T X) (ops : List (POp S T X)) (k : PStock S T X) (w : Stores S T X)
    (p : List DiskEv) (hp : p <+: (PStock.run C ops k).2) :
    ∃ before after, ops = before ++ after ∧
      ((C.files w).run p = C.files (durable C before k w) ∨
       ∃ op rest ws ws', after = op :: rest ∧ op.writes (PStock.run C before k).1 = ws ++ ws' ∧
        ((C.files w).run p = C.files ((durable C before k w).takeAll ((PStock.run C before k).1.exec C op).1.cur ws) ∨
         ∃ x ws'' n, ws' = x :: ws'' ∧
          (C.files w).run p =
            (C.files ((durable C before k w).takeAll ((PStock.run C before k).1.exec C op).1.cur ws)).set x
              (((C.files ((PStock.run C before k).1.exec C op).1.cur).get x).take n))) := by
  obtain ⟨before, after, e, h⟩ := run_prefix C ops k w p hp
  refine ⟨before, after, e, ?_⟩
  rcases h with h | ⟨op, rest, ws, ws', e1, e2, h | ⟨x, ws'', n, e3, h⟩⟩
  · exact .inl h
  · exact .inr ⟨op, rest, ws, ws', e1, e2, .inl h⟩
  · refine .inr ⟨op, rest, ws, ws', e1, e2, .inr ⟨x, ws'', n, e3, ?_⟩⟩
    rw [h]
    cases x <;> rfl

/-- **C35** (the part which holds). Whenever the stock can be loaded after a crash, each of its stores is a complete version:
the one last written by the completed operations, or the one of the interrupted operation, which has replaced a beginning of the list of stores it
writes (index, state, stash for the operations consuming consignments; stash, state, index for saving).
Missing: that it can be loaded, see `C35_torn_fails`. -/
theorem C35_loaded_partial (C : Codecs3 S T X) (hC : C.Lawful) (ops : List (POp S T X)) (k : PStock S T X)
    (w : Stores S T X) (p : List DiskEv) (hp : p <+: (PStock.run C ops k).2) (c : Stores S T X)
    (hc : loadStock C ((C.files w).run p) = some c) :
    ∃ before after, ops = before ++ after ∧
      (c = durable C before k w ∨
       ∃ op rest ws, after = op :: rest ∧ ws <+: op.writes (PStock.run C before k).1 ∧
        c = (durable C before k w).takeAll ((PStock.run C before k).1.exec C op).1.cur ws) := by
  obtain ⟨before, after, e, h⟩ := run_prefix C ops k w p hp
  refine ⟨before, after, e, ?_⟩
  rcases h with h | ⟨op, rest, ws, ws', e1, e2, h | ⟨x, ws'', n, e3, h⟩⟩
  · rw [h, load_files C hC] at hc
    cases hc; exact .inl rfl
  · rw [h, load_files C hC] at hc
    cases hc
    exact .inr ⟨op, rest, ws, e1, ⟨ws', e2.symm⟩, rfl⟩
  · rw [h] at hc
    rcases load_torn C hC ((durable C before k w).takeAll ((PStock.run C before k).1.exec C op).1.cur ws)
      ((PStock.run C before k).1.exec C op).1.cur x n with ⟨h1, h2⟩ | ⟨h1, h2⟩
    · rw [h2] at hc
      cases hc
      refine .inr ⟨op, rest, ws ++ [x], e1, ⟨ws'', by rw [e2, e3]; simp⟩, ?_⟩
      simp [Stores.takeAll]
    · rw [h2] at hc; cases hc

/-- **C35** (combinations). For an operation over all the three stores interrupted at any event exactly four combinations can
be loaded, and each of them does occur: nothing is new, the index only, the index and the state, everything. -/
theorem C35_combinations (C : Codecs3 S T X) (hC : C.Lawful) (f : Stores S T X → Stores S T X × Bool) (k : PStock S T X)
    (old : Stores S T X) (hf : (f k.cur).2 = true) (c : Stores S T X) :
    (∃ p, p <+: (PStock.exec C k (.transact f)).2 ∧ loadStock C ((C.files old).run p) = some c) ↔
      (c = old ∨ c = ⟨old.stash, old.state, (f k.cur).1.index⟩ ∨
        c = ⟨old.stash, (f k.cur).1.state, (f k.cur).1.index⟩ ∨ c = (f k.cur).1) := by
  have hcur : (PStock.exec C k (.transact f)).1.cur = (f k.cur).1 := by
    simp [PStock.exec, hf, PStock.saveAll, PStock.save]
  have hw : (POp.transact f).writes k = [.index, .state, .stash] := by simp [POp.writes, hf]
  have htr := exec_trace C k (.transact f)
  rw [hcur, hw] at htr
  constructor
  · rintro ⟨p, hp, hc⟩
    have hp' : p <+: (PStock.run C [.transact f] k).2 := by simpa [PStock.run] using hp
    obtain ⟨before, after, e, h⟩ := C35_loaded_partial C hC [.transact f] k old p hp' c hc
    rcases before with _ | ⟨b, before⟩
    · rcases h with h | ⟨op, rest, ws, rfl, h1, h2⟩
      · exact .inl h
      · obtain ⟨rfl, -⟩ : POp.transact f = op ∧ [] = rest := by simpa using e
        simp only [PStock.run, hw] at h1 h2
        rw [hcur] at h2
        rcases ws with _ | ⟨a, ws⟩
        · exact .inl h2
        rcases ws with _ | ⟨b, ws⟩
        · obtain ⟨rfl, -⟩ : a = .index ∧ True := by simpa using h1
          exact .inr (.inl h2)
        rcases ws with _ | ⟨c', ws⟩
        · simp only [List.cons_prefix_cons] at h1
          obtain ⟨rfl, rfl, -⟩ := h1
          exact .inr (.inr (.inl h2))
        · simp only [List.cons_prefix_cons, List.prefix_nil] at h1
          obtain ⟨rfl, rfl, rfl, rfl⟩ := h1
          exact .inr (.inr (.inr h2))
    · obtain ⟨rfl, hba⟩ : POp.transact f = b ∧ [] = before ++ after := by simpa using e
      obtain ⟨rfl, rfl⟩ : before = [] ∧ after = [] := by simpa using hba.symm
      rcases h with h | ⟨op, rest, ws, h1, -⟩
      · simp only [durable, hw, hcur] at h
        exact .inr (.inr (.inr h))
      · cases h1
  · have key : ∀ ws ws' : List Which, ws ++ ws' = [.index, .state, .stash] →
        ∃ p, p <+: (PStock.exec C k (.transact f)).2 ∧
          loadStock C ((C.files old).run p) = some (old.takeAll (f k.cur).1 ws) := by
      intro ws ws' e
      refine ⟨ws.flatMap (fun x => fileEvents x (C.bytes (f k.cur).1 x)), ?_, ?_⟩
      · rw [htr, ← e, List.flatMap_append]
        exact List.prefix_append _ _
      · rw [run_all, load_files C hC]
    rintro (rfl | rfl | rfl | rfl)
    · exact key [] _ rfl
    · exact key [.index] _ rfl
    · exact key [.index, .state] _ rfl
    · exact key [.index, .state, .stash] [] rfl

/-- **C35** (nothing acknowledged is lost). After an operation over all three stores succeeds, the files hold exactly the
current contents, whatever happened before. -/
theorem C35_acknowledged (C : Codecs3 S T X) (ops : List (POp S T X)) (f : Stores S T X → Stores S T X × Bool)
    (k : PStock S T X) (w : Stores S T X) (hf : (f (PStock.run C ops k).1.cur).2 = true) :
    (C.files w).run (PStock.run C (ops ++ [.transact f]) k).2 =
      C.files (PStock.run C (ops ++ [.transact f]) k).1.cur := by
  rw [run_files]
  congr 1
  induction ops generalizing k w with
  | nil =>
    simp only [PStock.run] at hf
    simp [durable, PStock.run, PStock.exec, hf, POp.writes, PStock.saveAll, PStock.save, Stores.takeAll, Stores.take]
  | cons op ops ih => exact ih _ _ hf

/-- **C35** fails inside of writing a file: for every operation which succeeds there is a moment such that, if the process
stops, then neither the old nor the new stock can be loaded, since the file of the stash is truncated before it's
written. -/
theorem C35_torn_fails (C : Codecs3 S T X) (hC : C.Lawful) (f : Stores S T X → Stores S T X × Bool) (k : PStock S T X)
    (old : Stores S T X) (hf : (f k.cur).2 = true) (hne : C.stash.enc (f k.cur).1.stash ≠ []) :
    ∃ p, p <+: (PStock.exec C k (.transact f)).2 ∧ ((C.files old).run p).stash = [] ∧
      loadStock C ((C.files old).run p) = none := by
  have hcur : (PStock.exec C k (.transact f)).1.cur = (f k.cur).1 := by
    simp [PStock.exec, hf, PStock.saveAll, PStock.save]
  have hw : (POp.transact f).writes k = [.index, .state, .stash] := by simp [POp.writes, hf]
  have htr := exec_trace C k (.transact f)
  rw [hcur, hw] at htr
  refine ⟨[Which.index, .state].flatMap (fun x => fileEvents x (C.bytes (f k.cur).1 x)) ++ [.truncate .stash], ?_, ?_, ?_⟩
  · rw [htr]
    simp [fileEvents]
  · rw [Disk.run_append]; rfl
  · rw [Disk.run_append, run_all]
    have h1 : (C.bytes (f k.cur).1 .stash).take 0 ≠ C.bytes (f k.cur).1 .stash := by
      simpa [Codecs3.bytes] using hne
    rcases load_torn C hC (old.takeAll (f k.cur).1 [.index, .state]) (f k.cur).1 .stash 0 with ⟨h2, -⟩ | ⟨-, h2⟩
    · exact absurd h2 h1
    · simpa [Disk.run, DiskEv.apply] using h2

end

/-- An encoding of numbers: the number of bytes 1 and a terminating 0. -/
def exCodec : Codec Nat where
  enc n := List.replicate n 1 ++ [0]
  dec l := if l = List.replicate (l.length - 1) 1 ++ [0] then some (l.length - 1) else none

theorem exCodec_lawful : exCodec.Lawful where
  dec_enc a := by simp [exCodec]
  no_prefix a l h hne := by
    simp only [exCodec] at h hne ⊢
    rw [if_neg]
    intro e
    have h1 := h.length_le
    have h2 : l.length ≠ a + 1 := by
      intro e2
      exact hne (h.eq_of_length (by simpa using e2))
    rw [e] at h
    simp only [List.length_append, List.length_replicate, List.length_singleton] at h1
    have : (List.replicate (l.length - 1) 1 ++ [0]) = (List.replicate a 1 ++ [0]).take (l.length - 1 + 1) := by
      simpa using List.prefix_iff_eq_take.mp h
    have h4 := congrArg List.getLast? this
    rw [List.take_append] at h4
    simp only [List.length_replicate] at h4
    have : l.length - 1 + 1 - a = 0 := by
      have : l.length > 0 := by rw [e]; simp
      omega
    rw [this] at h4
    have h5 : l.length - 1 + 1 ≤ a := by omega
    simp [List.take_replicate, List.getLast?_replicate, h5] at h4

def exCodecs : Codecs3 Nat Nat Nat := ⟨exCodec, exCodec, exCodec⟩

example : exCodecs.Lawful := ⟨exCodec_lawful, exCodec_lawful, exCodec_lawful⟩

/-- A crash in the second operation, after two files. -/
example : loadStock exCodecs ((exCodecs.files ⟨1, 2, 3⟩).run ((PStock.run exCodecs
    [.stashTx (fun s => (s + 1, true)), .transact (fun k => (⟨k.stash + 1, k.state + 1, k.index + 1⟩, true))]
      ⟨⟨1, 2, 3⟩, ⟨false, false, false⟩⟩).2.take 15)) = some ⟨2, 3, 4⟩ := by decide

/-- **C34** with files: what a failed operation has done gets on the disk with the next saving. -/
theorem C34_failed_written_fails : ∃ (f : Stores Nat Nat Nat → Stores Nat Nat Nat × Bool) (k : PStock Nat Nat Nat),
    (f k.cur).2 = false ∧
    loadStock exCodecs ((exCodecs.files k.cur).run (PStock.run exCodecs [.transact f, .store] k).2) ≠ some k.cur :=
  ⟨fun k => ({ k with state := k.state + 1 }, false), ⟨⟨1, 2, 3⟩, ⟨false, false, false⟩⟩, rfl, by decide⟩

end Rgb.Props
