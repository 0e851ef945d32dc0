import Verif.Model.Restart
import Verif.Spec.StoreTx
import Verif.Spec.Usable

/-!
Vocabulary for C99.
-/

namespace Rgb

/-- The wallet has this stock in the memory, and the same in the files. -/
structure Live.Saved (C : Codecs3 MemStash MemState Index) (l : Live) (k : Stock) : Prop where
  cur : l.mem.cur = k
  clean : l.mem.dirty = ⟨false, false, false⟩
  files : l.disk = C.files k

/-- The events of a sequence of steps, in their order. -/
def LiveStep.events (xs : List LiveStep) : List StockEvent :=
  xs.filterMap (fun | .call e => some e | _ => none)

/-- Of the events `es`, `done` are those which can be finished without an error when their turn comes, and the others have no effect. -/
inductive Sifted (H : Commit) (I : Ids) (M : Mpc) (G : SchemaDoc → SchemaGlobals) : List StockEvent → Stock → List StockEvent → Stock → Prop
  | nil (k : Stock) : Sifted H I M G [] k [] k
  | done {e : StockEvent} {es ds : List StockEvent} {k k₁ k' : Stock} (h : e.Done H I M G k k₁) (hs : Sifted H I M G es k₁ ds k') :
      Sifted H I M G (e :: es) k (e :: ds) k'
  | refused {e : StockEvent} {es ds : List StockEvent} {k k' : Stock} (h : ∀ k₁, ¬ e.Done H I M G k k₁) (hs : Sifted H I M G es k ds k') :
      Sifted H I M G (e :: es) k ds k'

/-- The event isn't setting of a trust level. -/
def StockEvent.NotTrust : StockEvent → Prop
  | .trust _ _ => False
  | _ => True

end Rgb
