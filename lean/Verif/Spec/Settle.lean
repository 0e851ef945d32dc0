import Verif.Spec.Consume

/-!
Vocabulary for C95: the fascia with all transitions of a payment.
-/

namespace Rgb.Stock

/-- The fascia is made of transitions of the batch and has all its payments, no two of them in one bundle. (The payments are closed with different methods, and a
contract has one bundle for each method.) -/
structure Fascia.Packs (H : Commit) (f : Fascia) (b : Batch) : Prop extends f.MadeOf H b where
  all : ∀ t ∈ b.payments, ∃ e ∈ f.bundles, e.1 = t.op.contract ∧ t.op ∈ OMap.vals e.2.known
  apart : ∀ e ∈ f.bundles, ∀ t ∈ b.payments, ∀ t' ∈ b.payments, t.op ∈ OMap.vals e.2.known → t'.op ∈ OMap.vals e.2.known → t.op = t'.op
  methods : ∀ e ∈ f.bundles, ∀ e' ∈ f.bundles, e.1 = e'.1 → e.2.closeMethod = e'.2.closeMethod → e = e'

end Rgb.Stock
