import Verif.Model.Invoice
/-! Specification vocabulary for invoices: assumptions on the external codecs and the class of invoices which have a faithful text. -/
namespace Rgb.Inv
open Rgb

/-- What is assumed about the external codecs (baid64 ids with optional dashes, type names). -/
structure Codecs.Lawful (K : Codecs) (sp : Bool) : Prop where
  contract_rt : ∀ c, K.parseContract (K.showContract c) = some c
  contract_rt_nodash : ∀ c, K.parseContract (dropDashes (K.showContract c)) = some c
  contract_empty : K.parseContract [] = none
  contract_omitted : K.parseContract ['~'] = none
  contract_chars : ∀ c, ∀ ch ∈ K.showContract c, isPchar ch = true
  seal_rt : ∀ s, K.parseSeal (K.showSeal s) = some s
  seal_rt_nodash : ∀ s, K.parseSeal (dropDashes (K.showSeal s)) = some s
  seal_chars : ∀ s, ∀ ch ∈ K.showSeal s, isPchar ch = true ∧ ch ≠ '+'
  vout_rt : ∀ p, K.parseVout (K.showVout p) = some p
  vout_rt_nodash : ∀ p, K.parseVout (dropDashes (K.showVout p)) = some p
  vout_chars : ∀ p, ∀ ch ∈ K.showVout p, isPchar ch = true ∧ ch ≠ '+'
  vout_not_seal : ∀ p, K.parseSeal (K.showVout p) = none
  vout_not_seal_nodash : ∀ p, K.parseSeal (dropDashes (K.showVout p)) = none
  attach_rt : ∀ a, K.parseAttach (K.showAttach a) = some a
  attach_chars : ∀ a, ∀ ch ∈ K.showAttach a, isPchar ch = true ∧ ch ≠ '+' ∧ ch ≠ '@'
  attach_not_amount : ∀ a, ∃ ch ∈ K.showAttach a, ch ∉ "abcdefghkmnABCDEFGHKMNPQRSTVWXYZ".toList
  typename_chars : ∀ n, K.validTypeName n = true → ∀ ch ∈ n, isPchar ch = true
  typename_omitted : K.validTypeName ['~'] = false

/-- Characters which the printer leaves unescaped although a URI can't carry them literally. -/
def fragile : List Char := ['%', '\\', '^', '`', '{', '|', '}']

/-- A text which survives the URI query. -/
def SafeText (s : Text) : Prop := ∀ c ∈ s, c ∉ fragile

/-- A transport which has its own text form in the `endpoints` list. -/
def SafeTransport : Transport → Prop
  | .jsonRpc _ h | .restHttp _ h | .webSockets _ h => h ≠ [] ∧ ',' ∉ h ∧ SafeText h
  | .storm => True
  | .unspecified => False

/-- State values in the range of their Rust types. -/
def StateInRange : InvoiceState → Prop
  | .amount v => v ≤ u64Max
  | .data a => a.fraction ≤ u64Max ∧ a.tokenIndex ≤ u32Max
  | _ => True

/-- Invoices for which printing and parsing are inverse. -/
structure Invoice.WellFormed (K : Codecs) (i : Invoice) : Prop where
  noOperation : i.operation = none
  noAssignment : i.assignment = none
  ifaceValid : ∀ n, i.iface = some n → K.validTypeName n = true
  contractHasIface : i.contract.isSome → i.iface.isSome
  notLiquid : i.beneficiary.chainNetwork ≠ .liquidMainnet
  stateRange : StateInRange i.ownedState
  transports : i.transports = [.unspecified] ∨ (i.transports ≠ [] ∧ ∀ t ∈ i.transports, SafeTransport t)
  expiryRange : ∀ e, i.expiry = some e → -(2 ^ 63) ≤ e ∧ e < 2 ^ 63
  unknownKeys : (i.unknownQuery.map Prod.fst).Nodup
  unknownNotReserved : ∀ p ∈ i.unknownQuery, p.1 ≠ "expiry".toList ∧ p.1 ≠ "endpoints".toList
  unknownSafe : ∀ p ∈ i.unknownQuery, SafeText p.1 ∧ SafeText p.2

end Rgb.Inv

namespace Rgb.Inv
open Rgb

/-- `s` is a decimal numeral (with an optional plus sign) of the number `v`, which isn't above `max`. -/
def Numeral (max : Nat) (s : Text) (v : Nat) : Prop :=
  v ≤ max ∧ ∃ ds : List Nat, ds ≠ [] ∧ (∀ d ∈ ds, d < 10) ∧ v = ds.foldl (fun a d => 10 * a + d) 0 ∧
    (s = ds.map (fun d => Char.ofNat (48 + d)) ∨ s = '+' :: ds.map (fun d => Char.ofNat (48 + d)))

/-- All free texts of an invoice (hosts, unknown parameters) can be carried by a URI query. -/
def Invoice.TextsSafe (i : Invoice) : Prop :=
  (∀ p ∈ i.unknownQuery, SafeText p.1 ∧ SafeText p.2) ∧
  (∀ t ∈ i.transports, ∀ tls h, t = .jsonRpc tls h ∨ t = .restHttp tls h ∨ t = .webSockets tls h → SafeText h)

end Rgb.Inv
