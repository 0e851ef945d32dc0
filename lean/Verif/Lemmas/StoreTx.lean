import Verif.Spec.StoreTx

namespace Rgb

variable {S T X : Type}

/-- The bytes of one store. -/
def Codecs3.bytes (C : Codecs3 S T X) (k : Stores S T X) : Which → List Nat
  | .stash => C.stash.enc k.stash
  | .state => C.state.enc k.state
  | .index => C.index.enc k.index

theorem Disk.run_append (d : Disk) (a b : List DiskEv) : d.run (a ++ b) = (d.run a).run b := by
  simp [Disk.run]

theorem Disk.set_set (d : Disk) (w : Which) (a b : List Nat) : (d.set w a).set w b = d.set w b := by
  cases w <;> rfl

theorem Disk.get_set (d : Disk) (w : Which) (a : List Nat) : (d.set w a).get w = a := by
  cases w <;> rfl

theorem run_writes (d : Disk) (w : Which) (pre bytes : List Nat) :
    (d.set w pre).run (bytes.map (.write w)) = d.set w (pre ++ bytes) := by
  induction bytes generalizing pre with
  | nil => simp [Disk.run]
  | cons b bytes ih =>
    simp only [List.map_cons, Disk.run, List.foldl_cons]
    have := ih (pre ++ [b])
    simp only [Disk.run] at this
    rw [DiskEv.apply, Disk.get_set, Disk.set_set, this]
    simp

theorem run_fileEvents (d : Disk) (w : Which) (bytes : List Nat) : d.run (fileEvents w bytes) = d.set w bytes := by
  have := run_writes d w [] bytes
  simpa [fileEvents, Disk.run, DiskEv.apply] using this

/-- A beginning of writing a file: nothing happened, or the file has a beginning of the bytes. -/
theorem run_fileEvents_prefix (d : Disk) (w : Which) (bytes : List Nat) (p : List DiskEv)
    (hp : p <+: fileEvents w bytes) : p = [] ∨ ∃ n, d.run p = d.set w (bytes.take n) := by
  cases p with
  | nil => exact .inl rfl
  | cons e p =>
    right
    simp only [fileEvents, List.cons_prefix_cons] at hp
    obtain ⟨rfl, hp⟩ := hp
    have hq := List.prefix_iff_eq_take.mp hp
    generalize p.length = n at hq
    subst hq
    refine ⟨n, ?_⟩
    rw [← List.map_take]
    exact run_writes d w [] (bytes.take n)

theorem prefix_append_cases {α : Type} {p a b : List α} (h : p <+: a ++ b) : p <+: a ∨ ∃ q, p = a ++ q ∧ q <+: b := by
  obtain ⟨t, ht⟩ := h
  rcases List.append_eq_append_iff.mp ht with ⟨c, h1, h2⟩ | ⟨c, h1, h2⟩
  · exact .inl ⟨c, h1.symm⟩
  · exact .inr ⟨c, h1, ⟨t, h2.symm⟩⟩

theorem files_take (C : Codecs3 S T X) (w new : Stores S T X) (x : Which) :
    C.files (w.take new x) = (C.files w).set x (C.bytes new x) := by
  cases x <;> rfl

theorem run_all (C : Codecs3 S T X) (w new : Stores S T X) (ws : List Which) :
    (C.files w).run (ws.flatMap (fun x => fileEvents x (C.bytes new x))) = C.files (w.takeAll new ws) := by
  induction ws generalizing w with
  | nil => rfl
  | cons x ws ih =>
    simp only [List.flatMap_cons, Disk.run_append, run_fileEvents, ← files_take, ih]
    rfl

theorem run_all_prefix (C : Codecs3 S T X) (w new : Stores S T X) (ws : List Which) (p : List DiskEv)
    (hp : p <+: ws.flatMap (fun x => fileEvents x (C.bytes new x))) :
    ∃ a b, ws = a ++ b ∧ ((C.files w).run p = C.files (w.takeAll new a) ∨
      ∃ x b', b = x :: b' ∧ ∃ n, (C.files w).run p = (C.files (w.takeAll new a)).set x ((C.bytes new x).take n)) := by
  induction ws generalizing w p with
  | nil =>
    simp only [List.flatMap_nil, List.prefix_nil] at hp
    subst hp
    exact ⟨[], [], rfl, .inl rfl⟩
  | cons x ws ih =>
    simp only [List.flatMap_cons] at hp
    rcases prefix_append_cases hp with h | ⟨q, rfl, hq⟩
    · rcases run_fileEvents_prefix (C.files w) x _ p h with rfl | ⟨n, hn⟩
      · exact ⟨[], x :: ws, rfl, .inl rfl⟩
      · exact ⟨[], x :: ws, rfl, .inr ⟨x, ws, rfl, n, hn⟩⟩
    · obtain ⟨a, b, e, h⟩ := ih (w.take new x) q hq
      refine ⟨x :: a, b, by rw [e]; rfl, ?_⟩
      rw [Disk.run_append, run_fileEvents, ← files_take]
      exact h

theorem exec_trace (C : Codecs3 S T X) (k : PStock S T X) (op : POp S T X) :
    (k.exec C op).2 = (op.writes k).flatMap (fun x => fileEvents x (C.bytes (k.exec C op).1.cur x)) := by
  obtain ⟨⟨s, t, x⟩, ⟨ds, dt, dx⟩⟩ := k
  cases op with
  | transact f =>
    simp only [PStock.exec, POp.writes]
    split
    · simp [PStock.saveAll, PStock.save, Codecs3.bytes]
    · simp
  | stashTx f =>
    simp only [PStock.exec, POp.writes]
    split
    · simp [PStock.saveAll, PStock.save, Codecs3.bytes]
    · simp
  | stateTx f => simp [PStock.exec, POp.writes, PStock.saveAll, PStock.save, Codecs3.bytes]
  | store =>
    cases ds <;> cases dt <;> cases dx <;>
      simp [PStock.exec, POp.writes, PStock.saveAll, PStock.save, Codecs3.bytes]

/-- Everything done: the files have what was written last. -/
theorem run_files (C : Codecs3 S T X) (ops : List (POp S T X)) (k : PStock S T X) (w : Stores S T X) :
    (C.files w).run (PStock.run C ops k).2 = C.files (durable C ops k w) := by
  induction ops generalizing k w with
  | nil => rfl
  | cons op ops ih =>
    simp only [PStock.run, durable, Disk.run_append]
    rw [exec_trace, run_all, ih]

theorem run_prefix (C : Codecs3 S T X) (ops : List (POp S T X)) (k : PStock S T X) (w : Stores S T X)
    (p : List DiskEv) (hp : p <+: (PStock.run C ops k).2) :
    ∃ before after, ops = before ++ after ∧
      ((C.files w).run p = C.files (durable C before k w) ∨
       ∃ op rest ws ws', after = op :: rest ∧ op.writes (PStock.run C before k).1 = ws ++ ws' ∧
        ((C.files w).run p = C.files ((durable C before k w).takeAll ((PStock.run C before k).1.exec C op).1.cur ws) ∨
         ∃ x ws'' n, ws' = x :: ws'' ∧
          (C.files w).run p =
            (C.files ((durable C before k w).takeAll ((PStock.run C before k).1.exec C op).1.cur ws)).set x
              ((C.bytes ((PStock.run C before k).1.exec C op).1.cur x).take n))) := by
  induction ops generalizing k w p with
  | nil =>
    simp only [PStock.run, List.prefix_nil] at hp
    subst hp
    exact ⟨[], [], rfl, .inl rfl⟩
  | cons op ops ih =>
    simp only [PStock.run] at hp
    rcases prefix_append_cases hp with h | ⟨q, rfl, hq⟩
    · rw [exec_trace] at h
      obtain ⟨a, b, e, h⟩ := run_all_prefix C w (k.exec C op).1.cur (op.writes k) p h
      refine ⟨[], op :: ops, rfl, .inr ⟨op, ops, a, b, rfl, e, ?_⟩⟩
      rcases h with h | ⟨x, b', rfl, n, h⟩
      · exact .inl h
      · exact .inr ⟨x, b', n, rfl, h⟩
    · obtain ⟨before, after, e, h⟩ := ih (k.exec C op).1 (w.takeAll (k.exec C op).1.cur (op.writes k)) q hq
      refine ⟨op :: before, after, by rw [e]; rfl, ?_⟩
      rw [Disk.run_append, exec_trace, run_all]
      exact h

theorem load_files (C : Codecs3 S T X) (hC : C.Lawful) (w : Stores S T X) : loadStock C (C.files w) = some w := by
  simp [loadStock, Codecs3.files, hC.stash.dec_enc, hC.state.dec_enc, hC.index.dec_enc]

/-- A file holding a beginning of new bytes: it's complete, or the stock can't be loaded. -/
theorem load_torn (C : Codecs3 S T X) (hC : C.Lawful) (w new : Stores S T X) (x : Which) (n : Nat) :
    ((C.bytes new x).take n = C.bytes new x ∧
      loadStock C ((C.files w).set x ((C.bytes new x).take n)) = some (w.take new x)) ∨
    ((C.bytes new x).take n ≠ C.bytes new x ∧ loadStock C ((C.files w).set x ((C.bytes new x).take n)) = none) := by
  by_cases h : (C.bytes new x).take n = C.bytes new x
  · refine .inl ⟨h, ?_⟩
    rw [h, ← files_take, load_files C hC]
  · refine .inr ⟨h, ?_⟩
    cases x with
    | stash => simp [loadStock, Disk.set, Codecs3.bytes, hC.stash.no_prefix _ _ (List.take_prefix _ _) h]
    | state =>
      simp only [loadStock, Disk.set, Codecs3.bytes, Codecs3.files, hC.stash.dec_enc, hC.state.dec_enc,
        hC.state.no_prefix _ _ (List.take_prefix _ _) h]
    | index =>
      simp only [loadStock, Disk.set, Codecs3.bytes, Codecs3.files, hC.stash.dec_enc, hC.state.dec_enc,
        hC.index.no_prefix _ _ (List.take_prefix _ _) h]

end Rgb
