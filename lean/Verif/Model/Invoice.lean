import Verif.Model.Amount
/-!
Model of invoice/src/{data,invoice,parse,builder}.rs.

External codecs (`baid64` identifiers, `RString` names) are parameters (`Codecs`).  `fluent_uri` and `percent-encoding` are
modelled by `Uri.parse`, `pctEncode`, `pctDecode` following RFC 3986; UTF-8 is the one of the Lean core library.
-/
namespace Rgb.Inv
open Rgb

/-! ### data.rs -/

/-- invoice/src/data.rs:144 `struct Allocation(TokenIndex, OwnedFraction)` -/
structure Allocation where
  tokenIndex : Nat
  fraction : Nat
deriving DecidableEq, Repr

/-- invoice/src/data.rs:30-39 (error variants of allocation parsing) -/
inductive AllocErr | invalidIndex | invalidFraction | wrongFormat
deriving DecidableEq, Repr

/-- invoice/src/data.rs:140-141 `#[display("{1}@{0}")]` -/
def Allocation.display (a : Allocation) : Text := showNat a.fraction ++ '@' :: showNat a.tokenIndex

/-- invoice/src/data.rs:181-201 `FromStr for Allocation` (index is parsed first) -/
def Allocation.fromStr (s : Text) : Except AllocErr Allocation :=
  if '@' ∉ s then .error .wrongFormat else
  match splitOnce '@' s with
  | some (fraction, idx) =>
    match parseUint u32Max idx with
    | none => .error .invalidIndex
    | some i => match parseUint u64Max fraction with
      | none => .error .invalidFraction
      | some f => .ok ⟨i, f⟩
  | none => .error .wrongFormat

/-- invoice/src/data.rs:104-109 `OwnedFraction::saturating_add/saturating_sub` (and assigning versions 111-116) -/
def OwnedFraction.saturatingAdd (a b : Nat) : Nat := min (a + b) u64Max
/-- invoice/src/data.rs:107-109 -/
def OwnedFraction.saturatingSub (a b : Nat) : Nat := a - b
/-- invoice/src/data.rs:119-121 -/
def OwnedFraction.checkedAdd (a b : Nat) : Option Nat := if a + b ≤ u64Max then some (a + b) else none
/-- invoice/src/data.rs:123-125 -/
def OwnedFraction.checkedSub (a b : Nat) : Option Nat := if b ≤ a then some (a - b) else none
/-- invoice/src/data.rs:128-131 -/
def OwnedFraction.checkedAddAssign (a b : Nat) : Nat × Option Unit :=
  match checkedAdd a b with | some v => (v, some ()) | none => (a, none)
/-- invoice/src/data.rs:133-136 -/
def OwnedFraction.checkedSubAssign (a b : Nat) : Nat × Option Unit :=
  match checkedSub a b with | some v => (v, some ()) | none => (a, none)

/-- Strict encoding of `Allocation`: `u32` and `u64` little-endian; invoice/src/data.rs:173-181 `From<Allocation> for DataState`. -/
def Allocation.toData (a : Allocation) : List Nat := (leBytes a.tokenIndex).take 4 ++ leBytes a.fraction

/-- invoice/src/data.rs:161-171 `From<RevealedData>/From<DataState> for Allocation`; `none` is the `expect` panic (strict
decoding demands exactly 12 bytes). -/
def Allocation.ofData (d : List Nat) : Option Allocation :=
  if d.length = 12 then some ⟨ofLeBytes (d.take 4), ofLeBytes (d.drop 4)⟩ else none

/-! ### invoice.rs -/

/-- invoice/src/invoice.rs:36-42 `enum RgbTransport` -/
inductive Transport
  | jsonRpc (tls : Bool) (host : Text)
  | restHttp (tls : Bool) (host : Text)
  | webSockets (tls : Bool) (host : Text)
  | storm
  | unspecified
deriving DecidableEq, Repr

/-- invoice/src/parse.rs:57-67 `TransportParseError` -/
inductive TransportErr | invalidTransport | invalidHost
deriving DecidableEq, Repr

/-- invoice/src/parse.rs:161-183 `Display for RgbTransport` -/
def Transport.display : Transport → Text
  | .jsonRpc tls host => "rpc".toList ++ (if tls then ['s'] else []) ++ "://".toList ++ host
  | .restHttp tls host => "http".toList ++ (if tls then ['s'] else []) ++ "://".toList ++ host
  | .webSockets tls host => "ws".toList ++ (if tls then ['s'] else []) ++ "://".toList ++ host
  | .storm => "storm".toList ++ "://".toList ++ "_/".toList
  | .unspecified => []

/-- `str::split_once("://")`: split at the first occurrence -/
def splitScheme : Text → Option (Text × Text)
  | [] => none
  | c :: cs =>
    match c :: cs with
    | ':' :: '/' :: '/' :: rest => some ([], rest)
    | _ => match splitScheme cs with
      | some (a, b) => some (c :: a, b)
      | none => none

/-- invoice/src/parse.rs:185-210 `FromStr for RgbTransport` -/
def Transport.fromStr (s : Text) : Except TransportErr Transport :=
  match splitScheme s with
  | none => .error .invalidTransport
  | some (ty, host) =>
    if host = [] then .error .invalidHost else
    if ty = "rpc".toList then .ok (.jsonRpc false host)
    else if ty = "rpcs".toList then .ok (.jsonRpc true host)
    else if ty = "http".toList then .ok (.restHttp false host)
    else if ty = "https".toList then .ok (.restHttp true host)
    else if ty = "ws".toList then .ok (.webSockets false host)
    else if ty = "wss".toList then .ok (.webSockets true host)
    else if ty = "storm".toList then .ok .storm
    else .error .invalidTransport

/-- invoice/src/invoice.rs:81-96 `enum ChainNet` -/
inductive ChainNet
  | bitcoinMainnet | bitcoinTestnet | bitcoinSignet | bitcoinRegtest | liquidMainnet | liquidTestnet
deriving DecidableEq, Repr

/-- rgb-core `Layer1` -/
inductive Layer1 | bitcoin | liquid
deriving DecidableEq, Repr

/-- bp-std `AddressNetwork` -/
inductive AddressNetwork | mainnet | testnet | regtest
deriving DecidableEq, Repr

/-- bp-std `Network` -/
inductive Network | mainnet | testnet3 | testnet4 | signet | regtest
deriving DecidableEq, Repr

namespace ChainNet
/-- invoice/src/invoice.rs:84-95 display attributes -/
def display : ChainNet → Text
  | bitcoinMainnet => "bc".toList
  | bitcoinTestnet => "tb".toList
  | bitcoinSignet => "sb".toList
  | bitcoinRegtest => "bcrt".toList
  | liquidMainnet => "lq".toList
  | liquidTestnet => "tl".toList

/-- invoice/src/invoice.rs:99-107 -/
def layer1 : ChainNet → Layer1
  | bitcoinMainnet | bitcoinTestnet | bitcoinSignet | bitcoinRegtest => .bitcoin
  | liquidMainnet | liquidTestnet => .liquid

/-- invoice/src/invoice.rs:109-118 -/
def isProd : ChainNet → Bool
  | bitcoinMainnet | liquidMainnet => true
  | bitcoinTestnet | bitcoinSignet | bitcoinRegtest | liquidTestnet => false

/-- invoice/src/invoice.rs:120-128 -/
def addressNetwork : ChainNet → AddressNetwork
  | bitcoinMainnet => .mainnet
  | bitcoinTestnet | bitcoinSignet => .testnet
  | bitcoinRegtest => .regtest
  | liquidMainnet => .mainnet
  | liquidTestnet => .testnet

/-- invoice/src/parse.rs:222-236 `FromStr for ChainNet`. `str::to_lowercase` is modelled by ASCII lower-casing: no non-ASCII
character lower-cases to a letter of the six prefixes. The `lq` arm returns Bitcoin mainnet, as in the code (line 231). -/
def fromStr (s : Text) : Option ChainNet :=
  let x := s.map Char.toLower
  if x = display bitcoinMainnet then some bitcoinMainnet
  else if x = display bitcoinTestnet then some bitcoinTestnet
  else if x = display bitcoinSignet then some bitcoinSignet
  else if x = display bitcoinRegtest then some bitcoinRegtest
  else if x = display liquidMainnet then some bitcoinMainnet
  else if x = display liquidTestnet then some liquidTestnet
  else none
end ChainNet

/-- invoice/src/invoice.rs:131-140 `enum XChainNet<T>` -/
inductive XChainNet (T : Type)
  | bitcoinMainnet (t : T) | bitcoinTestnet (t : T) | bitcoinSignet (t : T) | bitcoinRegtest (t : T)
  | liquidMainnet (t : T) | liquidTestnet (t : T)
deriving DecidableEq, Repr

namespace XChainNet
variable {T : Type}
/-- invoice/src/invoice.rs:143-152 -/
def with_ (cn : ChainNet) (data : T) : XChainNet T :=
  match cn with
  | .bitcoinMainnet => bitcoinMainnet data
  | .bitcoinTestnet => bitcoinTestnet data
  | .bitcoinSignet => bitcoinSignet data
  | .bitcoinRegtest => bitcoinRegtest data
  | .liquidMainnet => liquidMainnet data
  | .liquidTestnet => liquidTestnet data

/-- invoice/src/invoice.rs:154-162 -/
def bitcoin (n : Network) (data : T) : XChainNet T :=
  match n with
  | .mainnet => bitcoinMainnet data
  | .testnet3 => bitcoinTestnet data
  | .testnet4 => bitcoinTestnet data
  | .signet => bitcoinSignet data
  | .regtest => bitcoinRegtest data

/-- invoice/src/invoice.rs:164-173 -/
def chainNetwork : XChainNet T → ChainNet
  | bitcoinMainnet _ => .bitcoinMainnet
  | bitcoinTestnet _ => .bitcoinTestnet
  | bitcoinSignet _ => .bitcoinSignet
  | bitcoinRegtest _ => .bitcoinRegtest
  | liquidMainnet _ => .liquidMainnet
  | liquidTestnet _ => .liquidTestnet

/-- invoice/src/invoice.rs:175-184 -/
def intoInner : XChainNet T → T
  | bitcoinMainnet t | bitcoinTestnet t | bitcoinSignet t | bitcoinRegtest t | liquidMainnet t | liquidTestnet t => t

/-- invoice/src/invoice.rs:186 -/
def layer1 (x : XChainNet T) : Layer1 := x.chainNetwork.layer1
/-- invoice/src/invoice.rs:187 -/
def addressNetwork (x : XChainNet T) : AddressNetwork := x.chainNetwork.addressNetwork
/-- invoice/src/invoice.rs:188 -/
def isProd (x : XChainNet T) : Bool := x.chainNetwork.isProd
end XChainNet

/-- bp-dbc `Method` (`CloseMethod`): OpretFirst = 0, TapretFirst = 1 -/
inductive CloseMethod | opretFirst | tapretFirst
deriving DecidableEq, Repr

/-- `method as u8` / `CloseMethod::try_from(u8)` of bp-dbc -/
def CloseMethod.toByte : CloseMethod → Nat | .opretFirst => 0 | .tapretFirst => 1
/-- bp-dbc `TryFrom<u8>` -/
def CloseMethod.ofByte : Nat → Option CloseMethod | 0 => some .opretFirst | 1 => some .tapretFirst | _ => none

/-- `AddressPayload`; hashes are byte lists -/
inductive AddressPayload
  | pkh (h : List Nat) | sh (h : List Nat) | wpkh (h : List Nat) | wsh (h : List Nat) | tr (k : List Nat)
deriving DecidableEq, Repr

/-- invoice/src/invoice.rs:203-206 `struct Pay2Vout` -/
structure Pay2Vout where
  method : CloseMethod
  address : AddressPayload
deriving DecidableEq, Repr

/-- invoice/src/invoice.rs:192-201 `Pay2VoutError` -/
inductive Pay2VoutErr | invalidMethod | invalidAddressType | invalidTapkey
deriving DecidableEq, Repr

/-- invoice/src/parse.rs:245-266 `to_baid64_payload`; `payload` is a zeroed 34-byte array -/
def Pay2Vout.toPayload (p : Pay2Vout) : List Nat :=
  let (ty, spk) := match p.address with
    | .pkh h => (1, h)
    | .sh h => (2, h)
    | .wpkh h => (3, h)
    | .wsh h => (4, h)
    | .tr k => (5, k)
  p.method.toByte :: ty :: (spk ++ List.replicate (32 - spk.length) 0)

/-- invoice/src/invoice.rs:216-235 `TryFrom<[u8; 34]> for Pay2Vout`; `validKey` is the x-only public key check of secp256k1 -/
def Pay2Vout.ofPayload (validKey : List Nat → Bool) (d : List Nat) : Except Pay2VoutErr Pay2Vout :=
  match CloseMethod.ofByte (d.getD 0 0) with
  | none => .error .invalidMethod
  | some method =>
    match d.getD 1 0 with
    | 1 => .ok ⟨method, .pkh ((d.drop 2).take 20)⟩
    | 2 => .ok ⟨method, .sh ((d.drop 2).take 20)⟩
    | 3 => .ok ⟨method, .wpkh ((d.drop 2).take 20)⟩
    | 4 => .ok ⟨method, .wsh (d.drop 2)⟩
    | 5 => if validKey ((d.drop 2).take 32) then .ok ⟨method, .tr ((d.drop 2).take 32)⟩ else .error .invalidTapkey
    | _ => .error .invalidAddressType

/-- invoice/src/invoice.rs:237-243 `enum Beneficiary`; a `SecretSeal` is a 32-byte id -/
inductive Beneficiary
  | blindedSeal (sl : Nat)
  | witnessVout (p : Pay2Vout)
deriving DecidableEq, Repr

/-- invoice/src/invoice.rs:52-62 `enum InvoiceState` -/
inductive InvoiceState
  | void
  | amount (v : Nat)
  | data (a : Allocation)
  | attach (id : Nat)
deriving DecidableEq, Repr

/-- invoice/src/invoice.rs:245-258 `struct RgbInvoice`. `IndexMap` is an insertion-ordered association list. -/
structure Invoice where
  transports : List Transport
  contract : Option Nat
  iface : Option Text
  operation : Option Text
  assignment : Option Text
  beneficiary : XChainNet Beneficiary
  ownedState : InvoiceState
  expiry : Option Int
  unknownQuery : List (Text × Text)
deriving DecidableEq, Repr

/-- External text codecs: contract id without the `rgb:` prefix, blinded seal, pay-to-vout, attachment id, and the check
performed by `TypeName::try_from`. -/
structure Codecs where
  showContract : Nat → Text
  parseContract : Text → Option Nat
  showSeal : Nat → Text
  parseSeal : Text → Option Nat
  showVout : Pay2Vout → Text
  parseVout : Text → Option Pay2Vout
  showAttach : Nat → Text
  parseAttach : Text → Option Nat
  validTypeName : Text → Bool

/-- invoice/src/invoice.rs:52-62 display of `InvoiceState` -/
def InvoiceState.display (K : Codecs) : InvoiceState → Text
  | .void => []
  | .amount v => Amount.display v
  | .data a => a.display
  | .attach id => K.showAttach id

/-- invoice/src/invoice.rs:64-79 `FromStr for InvoiceState` -/
def InvoiceState.fromStr (K : Codecs) (sp : Bool) (s : Text) : Option InvoiceState :=
  if s = [] then some .void else
  match Amount.fromStr sp s with
  | some v => some (.amount v)
  | none => match Allocation.fromStr s with
    | .ok a => some (.data a)
    | .error _ => match K.parseAttach s with
      | some id => some (.attach id)
      | none => none

/-! ### percent encoding and URI -/

/-- Upper-case hexadecimal digit (percent-encoding crate) -/
def hexChar (n : Nat) : Char := if n < 10 then Char.ofNat (48 + n) else Char.ofNat (55 + n)

/-- Hexadecimal digit value (fluent_uri accepts both cases) -/
def hexVal (c : Char) : Option Nat :=
  if 48 ≤ c.toNat ∧ c.toNat ≤ 57 then some (c.toNat - 48)
  else if 65 ≤ c.toNat ∧ c.toNat ≤ 70 then some (c.toNat - 55)
  else if 97 ≤ c.toNat ∧ c.toNat ≤ 102 then some (c.toNat - 87)
  else none

/-- invoice/src/parse.rs:45-54 `QUERY_ENCODE` = CONTROLS (0x00..=0x1f, 0x7f) and the listed characters -/
def inQueryEncode (c : Char) : Bool :=
  c.toNat ≤ 0x1f || c.toNat == 0x7f || c == ' ' || c == '"' || c == '#' || c == '<' || c == '>' || c == '[' || c == ']' ||
    c == '&' || c == '='

/-- One byte of percent-encoded output: `%XX` -/
def pctByte (b : UInt8) : Text := ['%', hexChar (b.toNat / 16), hexChar (b.toNat % 16)]

/-- `utf8_percent_encode(_, QUERY_ENCODE)`, used at invoice/src/parse.rs:330-346: ASCII characters outside of the set are kept, all
other bytes of the UTF-8 form are escaped. -/
def pctEncodeChar (c : Char) : Text :=
  if c.toNat < 128 ∧ inQueryEncode c = false then [c] else (String.utf8EncodeChar c).flatMap pctByte

/-- `utf8_percent_encode` of a text -/
def pctEncode (s : Text) : Text := s.flatMap pctEncodeChar

/-- `EStr::decode` of fluent_uri: bytes of the decoded text; `none` for a malformed triplet (never happens after `Uri::parse`). -/
def pctBytes : Text → Option (List UInt8)
  | [] => some []
  | '%' :: a :: b :: cs =>
    match hexVal a, hexVal b, pctBytes cs with
    | some x, some y, some r => some (UInt8.ofNat (16 * x + y) :: r)
    | _, _, _ => none
  | '%' :: _ => none
  | c :: cs => match pctBytes cs with
    | some r => some (String.utf8EncodeChar c ++ r)
    | none => none

/-- invoice/src/parse.rs:449-455 `percent_decode`; `none` is `InvalidQueryParam` (not UTF-8) -/
def pctDecode (s : Text) : Option Text :=
  match pctBytes s with
  | none => none
  | some bs => match bs.toByteArray.utf8Decode? with
    | some a => some a.toList
    | none => none

/-- RFC 3986 `pchar` without escapes -/
def isPchar (c : Char) : Bool :=
  (48 ≤ c.toNat && c.toNat ≤ 57) || (65 ≤ c.toNat && c.toNat ≤ 90) || (97 ≤ c.toNat && c.toNat ≤ 122) ||
    c == '-' || c == '.' || c == '_' || c == '~' ||
    c == '!' || c == '$' || c == '&' || c == '\'' || c == '(' || c == ')' || c == '*' || c == '+' || c == ',' || c == ';' || c == '=' ||
    c == ':' || c == '@'

/-- Every character is allowed or belongs to a well-formed `%XX`. -/
def validPct (ok : Char → Bool) : Text → Bool
  | [] => true
  | '%' :: a :: b :: cs => (hexVal a).isSome && (hexVal b).isSome && validPct ok cs
  | '%' :: _ => false
  | c :: cs => ok c && validPct ok cs

/-- RFC 3986 scheme -/
def validScheme (s : Text) : Bool :=
  match s with
  | [] => false
  | c :: cs => c.isAlpha && cs.all (fun c => c.isAlphanum || c == '+' || c == '-' || c == '.')

/-- A parsed URI reference; the content of authority isn't modelled (it is rejected by the caller). -/
structure Uri where
  scheme : Option Text
  authority : Bool
  path : Text
  query : Option Text
deriving DecidableEq, Repr

/-- `fluent_uri::Uri::parse`, used at invoice/src/parse.rs:355 (RFC 3986 URI reference) -/
def Uri.parse (s : Text) : Option Uri :=
  let (s, frag) := match splitOnce '#' s with
    | some (a, f) => (a, f)
    | none => (s, [])
  let (hier, query) := match splitOnce '?' s with
    | some (a, q) => (a, some q)
    | none => (s, none)
  let schemed : Option (Option Text × Text) := match splitOnce ':' hier with
    | some (a, b) => if '/' ∈ a then some (none, hier) else if validScheme a then some (some a, b) else none
    | none => some (none, hier)
  match schemed with
  | none => none
  | some (scheme, rest) =>
    let (authority, path) := match rest with
      | '/' :: '/' :: r => (true, r.dropWhile (· != '/'))
      | r => (false, r)
    if validPct (fun c => isPchar c || c == '/') path &&
       (match query with | some q => validPct (fun c => isPchar c || c == '/' || c == '?') q | none => true) &&
       validPct (fun c => isPchar c || c == '/' || c == '?') frag
    then some { scheme, authority, path, query } else none

/-! ### parse.rs: invoices -/

/-- invoice/src/parse.rs:69-134 `InvoiceParseError` without payloads -/
inductive InvoiceErr
  | uri | invalid | authority | contractMissed | ifaceMissed | assignmentMissed | invalidScheme | contractIdNoIface
  | invalidContractId | invalidIface | invalidExpiration | invalidQueryParam | beneficiary | id | data
deriving DecidableEq, Repr

/-- `IndexMap::insert`: replaces the value in place or appends -/
def imInsert (m : List (Text × Text)) (k v : Text) : List (Text × Text) :=
  match m with
  | [] => [(k, v)]
  | (k', v') :: r => if k' = k then (k', v) :: r else (k', v') :: imInsert r k v

/-- `IndexMap::extend` -/
def imExtend (m : List (Text × Text)) (n : List (Text × Text)) : List (Text × Text) :=
  n.foldl (fun m p => imInsert m p.1 p.2) m

/-- `IndexMap::shift_remove` -/
def imRemove (m : List (Text × Text)) (k : Text) : Option Text × List (Text × Text) :=
  (m.lookup k, m.filter (fun p => p.1 != k))

/-- invoice/src/parse.rs:137-141 `has_params` -/
def Invoice.hasParams (i : Invoice) : Bool :=
  i.expiry.isSome || i.transports != [.unspecified] || !i.unknownQuery.isEmpty

/-- invoice/src/parse.rs:143-158 `query_params` -/
def Invoice.queryParams (i : Invoice) : List (Text × Text) :=
  let q := []
  let q := match i.expiry with
    | some e => imInsert q "expiry".toList (showInt e)
    | none => q
  let q := if i.transports ≠ [.unspecified] then
      imInsert q "endpoints".toList (joinWith ',' (i.transports.map Transport.display))
    else q
  imExtend q i.unknownQuery

/-- invoice/src/parse.rs:212-220 `Display for XChainNet<Beneficiary>` -/
def displayBeneficiary (K : Codecs) (b : XChainNet Beneficiary) : Text :=
  b.chainNetwork.display ++ ':' :: (match b.intoInner with
    | .blindedSeal s => K.showSeal s
    | .witnessVout p => K.showVout p)

/-- invoice/src/parse.rs:277-292 `FromStr for XChainNet<Beneficiary>` -/
def parseBeneficiary (K : Codecs) (s : Text) : Except InvoiceErr (XChainNet Beneficiary) :=
  match splitOnce ':' s with
  | none => .error .beneficiary
  | some (cn, b) => match ChainNet.fromStr cn with
    | none => .error .beneficiary
    | some cn => match K.parseSeal b with
      | some sl => .ok (XChainNet.with_ cn (.blindedSeal sl))
      | none => match K.parseVout b with
        | some p => .ok (XChainNet.with_ cn (.witnessVout p))
        | none => .error .id

/-- `key=value` of invoice/src/parse.rs:330-346 -/
def queryPair (p : Text × Text) : Text := pctEncode p.1 ++ '=' :: pctEncode p.2

/-- `str::replace('-', "")` -/
def dropDashes (s : Text) : Text := s.filter (· != '-')

/-- invoice/src/parse.rs:294-349 `Display for RgbInvoice` (`alt` is the `#` flag) -/
def Invoice.display (K : Codecs) (alt : Bool) (i : Invoice) : Text :=
  let amt := i.ownedState.display K
  (match i.contract with
    | some c => (if alt then dropDashes ("rgb:".toList ++ K.showContract c) else "rgb:".toList ++ K.showContract c) ++ ['/']
    | none => "rgb:".toList ++ "~".toList ++ ['/']) ++
  ((match i.iface with
    | some n => n ++ ['/']
    | none => "~".toList ++ ['/']) ++
  ((match i.operation with
    | some n => n ++ ['/']
    | none => []) ++
  ((match i.assignment with
    | some n => n ++ ['/']
    | none => []) ++
  ((if amt.isEmpty then [] else amt ++ ['+']) ++
  ((if alt then dropDashes (displayBeneficiary K i.beneficiary) else displayBeneficiary K i.beneficiary) ++
  ((if i.hasParams then ['?'] else []) ++
  (match i.queryParams with
    | [] => []
    | p :: ps => queryPair p ++ ps.flatMap (fun p => '&' :: queryPair p))))))))

/-- invoice/src/parse.rs:457-470 `map_query_params` -/
def mapQueryParams (query : Option Text) : Except InvoiceErr (List (Text × Text)) :=
  match query with
  | none => .ok []
  | some q => (splitAll '&' q).foldlM (fun m p =>
      match splitOnce '=' p with
      | some (k, v) => match pctDecode k, pctDecode v with
        | some k, some v => .ok (imInsert m k v)
        | _, _ => .error .invalidQueryParam
      | none => .error .invalidQueryParam) []

/-- The loop at invoice/src/parse.rs:411-417 -/
def parseTransports : List Text → Except InvoiceErr (List Transport)
  | [] => .ok []
  | t :: ts => match Transport.fromStr t with
    | .error _ => .error .invalidQueryParam
    | .ok x => match parseTransports ts with
      | .error e => .error e
      | .ok xs => .ok (x :: xs)

/-- Path segments of `fluent_uri` -/
def segments (path : Text) : List Text := if path = [] then [] else splitAll '/' path

/-- Contract segment, invoice/src/parse.rs:371-377 -/
def parseContractSeg (K : Codecs) (s : Text) : Except InvoiceErr (Option Nat) :=
  match K.parseContract s with
  | some c => .ok (some c)
  | none => if s = "~".toList then .ok none else .error .invalidContractId

/-- Interface segment, invoice/src/parse.rs:382-386 -/
def parseIfaceSeg (K : Codecs) (s : Text) : Except InvoiceErr (Option Text) :=
  if K.validTypeName s then .ok (some s)
  else if s = "~".toList then .ok none else .error .invalidIface

/-- Assignment segment, invoice/src/parse.rs:394-408: text of the beneficiary and the state -/
def parseAssignSeg (K : Codecs) (sp : Bool) (s : Text) : Except InvoiceErr (Text × InvoiceState) :=
  match splitOnce '+' s with
  | some (a, b) => match InvoiceState.fromStr K sp a with
    | some st => .ok (b, st)
    | none => .error .data
  | none => .ok (s, .void)

/-- invoice/src/parse.rs:413-425 -/
def parseEndpoints (e : Option Text) : Except InvoiceErr (List Transport) :=
  match e with
  | some e => parseTransports (splitAll ',' e)
  | none => .ok [.unspecified]

/-- invoice/src/parse.rs:427-433 -/
def parseExpiry (e : Option Text) : Except InvoiceErr (Option Int) :=
  match e with
  | some e => match parseI64 e with
    | some t => .ok (some t)
    | none => .error .invalidExpiration
  | none => .ok none

/-- invoice/src/parse.rs:411-446, the part of `from_str` which handles query parameters and builds the result -/
def finishParse (contract : Option Nat) (iface : Option Text) (value : InvoiceState) (b : XChainNet Beneficiary)
    (q : List (Text × Text)) : Except InvoiceErr Invoice :=
  match parseEndpoints (imRemove q "endpoints".toList).1 with
  | .error e => .error e
  | .ok transports =>
  match parseExpiry (imRemove (imRemove q "endpoints".toList).2 "expiry".toList).1 with
  | .error e => .error e
  | .ok expiry =>
    .ok { transports, contract, iface, operation := none, assignment := none, beneficiary := b, ownedState := value, expiry,
          unknownQuery := (imRemove (imRemove q "endpoints".toList).2 "expiry".toList).2 }

/-- invoice/src/parse.rs:351-447 `FromStr for RgbInvoice` -/
def Invoice.fromStr (K : Codecs) (sp : Bool) (s : Text) : Except InvoiceErr Invoice :=
  match Uri.parse s with
  | none => .error .uri
  | some uri =>
  match uri.scheme with
  | none => .error .invalid
  | some scheme =>
  if scheme ≠ "rgb".toList then .error .invalidScheme else
  if uri.path.head? = some '/' ∨ uri.authority = true then .error .authority else
  match segments uri.path with
  | [] => .error .contractMissed
  | contractStr :: path =>
  match parseContractSeg K contractStr with
  | .error e => .error e
  | .ok contract =>
  match path with
  | [] => .error .ifaceMissed
  | ifaceStr :: path =>
  match parseIfaceSeg K ifaceStr with
  | .error e => .error e
  | .ok iface =>
  if contract.isSome ∧ iface.isNone then .error .contractIdNoIface else
  match path with
  | [] => .error .assignmentMissed
  | assignment :: _ =>
  match parseAssignSeg K sp assignment with
  | .error e => .error e
  | .ok (beneficiaryStr, value) =>
  match parseBeneficiary K beneficiaryStr with
  | .error e => .error e
  | .ok beneficiary =>
  match mapQueryParams uri.query with
  | .error e => .error e
  | .ok q => finishParse contract iface value beneficiary q

end Rgb.Inv
