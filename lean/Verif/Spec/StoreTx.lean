import Verif.Model.StoreTx

/-!
Vocabulary for C34 and C35.
-/

namespace Rgb

/-- A provider with transactions: `content` is what the store has, `saved` what it will have after a
rollback. -/
structure TxProvider.Lawful {σ α : Type} (p : TxProvider σ) (content : σ → α) (saved : σ → Option α) : Prop where
  begin_ok : ∀ x y, p.begin_ x = (y, true) → content y = content x ∧ saved y = some (content x)
  begin_err : ∀ x y, p.begin_ x = (y, false) → content y = content x ∧ saved y = saved x
  commit_ok : ∀ x y, p.commit x = (y, true) → content y = content x ∧ saved y = none
  commit_err : ∀ x y, p.commit x = (y, false) → content y = content x ∧ saved y = saved x
  rollback : ∀ x, ∃ y, p.rollback x = some y ∧ content y = (saved x).getD (content x) ∧ saved y = none

/-- Contents of the three stores. -/
def Stores.view {S T X A B C : Type} (a : S → A) (b : T → B) (c : X → C) (k : Stores S T X) : Stores A B C :=
  ⟨a k.stash, b k.state, c k.index⟩

/-- A store with a saved copy, as an example of a provider; `b` and `c` tell whether beginning and committing succeed. -/
def snapProvider (b c : Bool) : TxProvider (Nat × Option Nat) where
  begin_ x := if b then ((x.1, some x.1), true) else (x, false)
  commit x := if c then ((x.1, none), true) else (x, false)
  rollback x := some (x.2.getD x.1, none)

theorem snapProvider_lawful (b c : Bool) : (snapProvider b c).Lawful Prod.fst Prod.snd where
  begin_ok x y h := by cases b <;> simp [snapProvider] at h; subst h; exact ⟨rfl, rfl⟩
  begin_err x y h := by cases b <;> simp [snapProvider] at h; subst h; exact ⟨rfl, rfl⟩
  commit_ok x y h := by cases c <;> simp [snapProvider] at h; subst h; exact ⟨rfl, rfl⟩
  commit_err x y h := by cases c <;> simp [snapProvider] at h; subst h; exact ⟨rfl, rfl⟩
  rollback x := ⟨_, rfl, rfl, rfl⟩

/-- Decoding inverts encoding and no encoding is cut: a proper beginning of an encoding isn't decoded. -/
structure Codec.Lawful {α : Type} (c : Codec α) : Prop where
  dec_enc : ∀ a, c.dec (c.enc a) = some a
  no_prefix : ∀ a l, l <+: c.enc a → l ≠ c.enc a → c.dec l = none

structure Codecs3.Lawful {S T X : Type} (C : Codecs3 S T X) : Prop where
  stash : C.stash.Lawful
  state : C.state.Lawful
  index : C.index.Lawful

/-- The files holding the given contents. -/
def Codecs3.files {S T X : Type} (C : Codecs3 S T X) (w : Stores S T X) : Disk :=
  ⟨C.stash.enc w.stash, C.state.enc w.state, C.index.enc w.index⟩

/-- `old` with one store replaced by the one of `new`. -/
def Stores.take {S T X : Type} (old new : Stores S T X) : Which → Stores S T X
  | .stash => { old with stash := new.stash }
  | .state => { old with state := new.state }
  | .index => { old with index := new.index }

/-- `old` with the given stores replaced. -/
def Stores.takeAll {S T X : Type} (old new : Stores S T X) (ws : List Which) : Stores S T X :=
  ws.foldl (fun o w => o.take new w) old

/-- The stores written by an operation, in the order of writing. -/
def POp.writes {S T X : Type} (k : PStock S T X) : POp S T X → List Which
  | .transact f => if (f k.cur).2 then [.index, .state, .stash] else []
  | .stashTx f => if (f k.cur.stash).2 then [.stash] else []
  | .stateTx _ => [.state]
  | .store => (if k.dirty.stash then [.stash] else []) ++ (if k.dirty.state then [.state] else []) ++
      (if k.dirty.index then [.index] else [])

/-- What was written last, after a sequence of operations none of which was interrupted. -/
def durable {S T X : Type} (C : Codecs3 S T X) : List (POp S T X) → PStock S T X → Stores S T X → Stores S T X
  | [], _, w => w
  | op :: ops, k, w => durable C ops (k.exec C op).1 (w.takeAll (k.exec C op).1.cur (op.writes k))

end Rgb
