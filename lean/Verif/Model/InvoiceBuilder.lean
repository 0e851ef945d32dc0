import Verif.Model.Invoice
/-! Model of invoice/src/builder.rs. The builder is a wrapper of the invoice under construction. -/
namespace Rgb.Inv
open Rgb

/-- Outcome of a fallible builder call: the builder handed back inside `Ok` or `Err`, or a panic (integer overflow). -/
inductive BRes
  | ok (i : Invoice)
  | err (i : Invoice)
  | panic
deriving DecidableEq, Repr

namespace Builder

/-- invoice/src/builder.rs:35-47 `new` -/
def new (b : XChainNet Beneficiary) : Invoice :=
  { transports := [.unspecified], contract := none, iface := none, operation := none, assignment := none, beneficiary := b,
    ownedState := .void, expiry := none, unknownQuery := [] }
/-- invoice/src/builder.rs:61-64 `set_contract` -/
def setContract (i : Invoice) (c : Nat) : Invoice := { i with contract := some c }
/-- invoice/src/builder.rs:66-69 `set_interface` -/
def setInterface (i : Invoice) (n : Text) : Invoice := { i with iface := some n }
/-- invoice/src/builder.rs:71-74 `set_operation` -/
def setOperation (i : Invoice) (n : Text) : Invoice := { i with operation := some n }
/-- invoice/src/builder.rs:76-79 `set_assignment` -/
def setAssignment (i : Invoice) (n : Text) : Invoice := { i with assignment := some n }
/-- invoice/src/builder.rs:49-51 `with` -/
def with_ (c : Nat) (b : XChainNet Beneficiary) : Invoice := setContract (new b) c
/-- invoice/src/builder.rs:53-55 `rgb20` -/
def rgb20 (c : Nat) (b : XChainNet Beneficiary) : Invoice := setInterface (with_ c b) "RGB20".toList
/-- invoice/src/builder.rs:57-59 `rgb20_anything` -/
def rgb20Anything (b : XChainNet Beneficiary) : Invoice := setInterface (new b) "RGB20".toList
/-- invoice/src/builder.rs:81-84 `set_amount_raw` -/
def setAmountRaw (i : Invoice) (a : Nat) : Invoice := { i with ownedState := .amount a }
/-- invoice/src/builder.rs:86-99 `set_amount`; overflow of `to_amount_unchecked` is a panic -/
def setAmount (i : Invoice) (int fract : Nat) (p : Precision) : BRes :=
  match CoinAmount.with_ int fract p with
  | none => .err i
  | some c => match c.toAmountUnchecked with
    | none => .panic
    | some a => .ok { i with ownedState := .amount a }
/-- invoice/src/builder.rs:101-104 `set_allocation_raw` -/
def setAllocationRaw (i : Invoice) (a : Allocation) : Invoice := { i with ownedState := .data a }
/-- invoice/src/builder.rs:106-108 `set_allocation` -/
def setAllocation (i : Invoice) (idx fract : Nat) : BRes := .ok (setAllocationRaw i ⟨idx, fract⟩)
/-- invoice/src/builder.rs:115-122 `set_amount_approx`; the finite `f64` argument is the rational `num / den` (`den > 0`); `as u64` saturates,
and the cast of the fractional part, which is below one, is always zero. -/
def setAmountApprox (i : Invoice) (num : Int) (den : Nat) (p : Precision) : BRes :=
  if num ≤ 0 then .err i else
  setAmount i (min (num.toNat / den) u64Max) ((num.toNat % den) / den) p
/-- invoice/src/builder.rs:124-127 `set_expiry_timestamp` -/
def setExpiry (i : Invoice) (e : Int) : Invoice := { i with expiry := some e }
/-- invoice/src/builder.rs:129-133 `drop_unspecified_transport` -/
def dropUnspecified (i : Invoice) : Invoice :=
  if i.transports = [.unspecified] then { i with transports := [] } else i
/-- invoice/src/builder.rs:143-147 `add_transport_raw` -/
def addTransportRaw (i : Invoice) (t : Transport) : Invoice :=
  let i := dropUnspecified i
  { i with transports := i.transports ++ [t] }
/-- invoice/src/builder.rs:135-141 `add_transport` -/
def addTransport (i : Invoice) (s : Text) : BRes :=
  match Transport.fromStr s with
  | .error _ => .err i
  | .ok t => .ok (addTransportRaw i t)
/-- invoice/src/builder.rs:164-171 `add_transports_raw` -/
def addTransportsRaw (i : Invoice) (ts : List Transport) : Invoice :=
  let i := dropUnspecified i
  { i with transports := i.transports ++ ts }
/-- `collect::<Result<Vec<_>, _>>` of invoice/src/builder.rs:153-156 -/
def collectTransports : List Text → Option (List Transport)
  | [] => some []
  | s :: ss => match Transport.fromStr s with
    | .error _ => none
    | .ok t => (collectTransports ss).map (t :: ·)
/-- invoice/src/builder.rs:149-162 `add_transports` -/
def addTransports (i : Invoice) (ss : List Text) : BRes :=
  match collectTransports ss with
  | none => .err i
  | some ts => .ok (addTransportsRaw i ts)

/-- One call of a public builder method -/
inductive Call
  | setContract (c : Nat) | setInterface (n : Text) | setOperation (n : Text) | setAssignment (n : Text)
  | setAmountRaw (a : Nat) | setAmount (int fract : Nat) (p : Precision) | setAllocationRaw (a : Allocation)
  | setAllocation (idx fract : Nat) | setExpiry (e : Int)
  | addTransportRaw (t : Transport) | addTransport (s : Text) | addTransportsRaw (ts : List Transport)
  | addTransports (ss : List Text)
deriving DecidableEq, Repr

/-- Dispatch of a call -/
def Call.apply (i : Invoice) : Call → BRes
  | .setContract c => .ok (Builder.setContract i c)
  | .setInterface n => .ok (Builder.setInterface i n)
  | .setOperation n => .ok (Builder.setOperation i n)
  | .setAssignment n => .ok (Builder.setAssignment i n)
  | .setAmountRaw a => .ok (Builder.setAmountRaw i a)
  | .setAmount a b p => Builder.setAmount i a b p
  | .setAllocationRaw a => .ok (Builder.setAllocationRaw i a)
  | .setAllocation a b => Builder.setAllocation i a b
  | .setExpiry e => .ok (Builder.setExpiry i e)
  | .addTransportRaw t => .ok (Builder.addTransportRaw i t)
  | .addTransport s => Builder.addTransport i s
  | .addTransportsRaw ts => .ok (Builder.addTransportsRaw i ts)
  | .addTransports ss => Builder.addTransports i ss

/-- A user which goes on with the builder handed back by `Ok` or `Err`; `none` after a panic. -/
def run (i : Invoice) : List Call → Option Invoice
  | [] => some i
  | c :: cs => match c.apply i with
    | .ok j | .err j => run j cs
    | .panic => none

end Builder
end Rgb.Inv
