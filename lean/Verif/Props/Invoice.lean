import Verif.Lemmas.InvoiceImage
import Verif.Model.InvoiceBuilder
import Verif.Spec.ToyCodecs
/-! Properties C05–C11 and the `OwnedFraction` part of C02. -/
namespace Rgb.Props
open Rgb Rgb.Inv

/-! ### C02 (owned fractions) -/

/-- C02: arithmetic of owned fractions never wraps. -/
theorem C02_fraction_ops (a b : Nat) (ha : a < 2 ^ 64) (hb : b < 2 ^ 64) :
    OwnedFraction.saturatingAdd a b = min (a + b) (2 ^ 64 - 1) ∧
    ((OwnedFraction.saturatingSub a b : Nat) : Int) = max ((a : Int) - b) 0 ∧
    (∀ r, OwnedFraction.checkedAdd a b = some r ↔ r = a + b ∧ a + b < 2 ^ 64) ∧
    (∀ r, OwnedFraction.checkedSub a b = some r ↔ r + b = a) ∧
    OwnedFraction.checkedAddAssign a b = (if a + b < 2 ^ 64 then (a + b, some ()) else (a, none)) ∧
    OwnedFraction.checkedSubAssign a b = (if b ≤ a then (a - b, some ()) else (a, none)) := by
  have e1 : ∀ x : Nat, (x ≤ 2 ^ 64 - 1) = (x < 2 ^ 64) := fun x => propext (by omega)
  refine ⟨rfl, ?_, ?_, ?_, ?_, ?_⟩
  · simp only [OwnedFraction.saturatingSub]; omega
  · intro r; simp only [OwnedFraction.checkedAdd, u64Max, e1]; split <;> simp <;> omega
  · intro r; simp only [OwnedFraction.checkedSub]; split <;> simp <;> omega
  · simp only [OwnedFraction.checkedAddAssign, OwnedFraction.checkedAdd, u64Max, e1]; by_cases h : a + b < 2 ^ 64 <;> simp [h]
  · simp only [OwnedFraction.checkedSubAssign, OwnedFraction.checkedSub]; by_cases h : b ≤ a <;> simp [h]

example : OwnedFraction.saturatingAdd (2 ^ 64 - 1) 5 = 2 ^ 64 - 1 ∧ OwnedFraction.checkedSub 3 4 = none := by decide

/-! ### C05 -/

/-- C05: allocation text round-trip. -/
theorem C05_allocation_roundtrip (a : Allocation) (hf : a.fraction < 2 ^ 64) (hi : a.tokenIndex < 2 ^ 32) :
    Allocation.fromStr a.display = .ok a :=
  allocation_roundtrip a (by simp only [u64Max]; omega) (by simp only [u32Max]; omega)

/-- C05: exactly texts `fraction@index` of two in-range decimal numerals are accepted. -/
theorem C05_allocation_domain (s : Text) (a : Allocation) : Allocation.fromStr s = .ok a ↔
    ∃ f i, s = f ++ '@' :: i ∧ '@' ∉ f ∧ Numeral (2 ^ 64 - 1) f a.fraction ∧ Numeral (2 ^ 32 - 1) i a.tokenIndex :=
  allocation_iff s a

/-- C05: a text without `@` is rejected. -/
theorem C05_allocation_needs_at (s : Text) (h : '@' ∉ s) : Allocation.fromStr s = .error .wrongFormat := by
  unfold Allocation.fromStr; rw [if_pos h]

/-- C05: the binary form of an allocation (contract data state) decodes to the same allocation. -/
theorem C05_allocation_data_roundtrip (a : Allocation) (hf : a.fraction < 2 ^ 64) (hi : a.tokenIndex < 2 ^ 32) :
    Allocation.ofData a.toData = some a := by
  have h1 : ofLeBytes ((leBytes a.tokenIndex).take 4) = a.tokenIndex := by
    simp only [leBytes, List.take_succ_cons, List.take_zero, ofLeBytes]; omega
  have h2 : ofLeBytes (leBytes a.fraction) = a.fraction := ofLeBytes_leBytes (by simp only [u64Max]; omega)
  unfold Allocation.ofData Allocation.toData
  have hl : ((leBytes a.tokenIndex).take 4).length = 4 := by simp [leBytes]
  rw [if_pos (by simp [leBytes]), List.take_left' hl, List.drop_left' hl, h1, h2]

example : Allocation.fromStr "10@2".toList = .ok ⟨2, 10⟩ ∧ Allocation.fromStr "10@4294967296".toList = .error .invalidIndex ∧
    Allocation.fromStr "x@1".toList = .error .invalidFraction := by decide

/-! ### C06 -/

/-- C06: if the free texts can be carried by a URI, an invoice is parsed back from its text (in both forms) exactly if it is
well-formed: no operation and no assignment name, a contract only together with an interface, not on Liquid mainnet, a
non-empty list of endpoints and no reserved unknown parameters.
Missing to the full property: other invoices, see the `_fails` theorems. -/
theorem C06_invoice_text_roundtrip_partial (K : Codecs) (sp : Bool) (hK : K.Lawful sp) (alt : Bool) (i : Invoice) (hs : i.TextsSafe) :
    Invoice.fromStr K sp (i.display K alt) = .ok i ↔ i.WellFormed K := by
  constructor
  · intro h
    obtain ⟨e1, e2, e3, e4, e5, e6, e7, e8, e9, e10⟩ := fromStr_image h
    refine ⟨e1, e2, e3, e4, e5, e6, ?_, e8, e9, e10, hs.1⟩
    rcases e7 with e7 | e7
    · exact Or.inl e7
    · refine Or.inr ⟨e7.1, fun t ht => ?_⟩
      rcases e7.2 t ht with rfl | ⟨tls, host, h1, h2, h3⟩
      · trivial
      · have := hs.2 t ht tls host h3
        rcases h3 with rfl | rfl | rfl <;> exact ⟨h1, h2, this⟩
  · intro h; exact invoice_roundtrip hK i h alt

/-- C06: two well-formed invoices with the same text are the same invoice.
Missing: invoices which aren't well-formed, see `C06_invoice_text_roundtrip_fails`. -/
theorem C06_invoice_text_injective_partial (K : Codecs) (sp : Bool) (hK : K.Lawful sp) (alt : Bool) (i j : Invoice)
    (hi : i.WellFormed K) (hj : j.WellFormed K) (h : i.display K alt = j.display K alt) : i = j := by
  have h1 := invoice_roundtrip hK i hi alt
  rw [h, invoice_roundtrip hK j hj alt] at h1
  injection h1 with h1; exact h1.symm

/-- C06 fails: whatever the text is, the parser never returns an invoice with an operation or an assignment name, a contract
without an interface, Liquid mainnet, or no transports; so no such invoice is parsed back from its text. -/
theorem C06_invoice_text_roundtrip_fails (K : Codecs) (sp alt : Bool) (i : Invoice)
    (h : i.operation.isSome ∨ i.assignment.isSome ∨ (i.contract.isSome ∧ i.iface = none) ∨
      i.beneficiary.chainNetwork = .liquidMainnet ∨ i.transports = []) :
    Invoice.fromStr K sp (i.display K alt) ≠ .ok i := by
  intro hp
  obtain ⟨e1, e2, e3, e4, e5, e6, e7, e8, e9, e10⟩ := fromStr_image hp
  rcases h with h | h | h | h | h
  · rw [e1] at h; cases h
  · rw [e2] at h; cases h
  · have := e4 h.1; rw [h.2] at this; cases this
  · exact e5 h
  · rcases e7 with e7 | e7
    · rw [h] at e7; cases e7
    · exact e7.1 h

/-- A sample invoice used as a witness. -/
def sampleInvoice : Invoice :=
  { transports := [.jsonRpc true "host.example/x,y".toList, .storm], contract := some 7, iface := some "RGB20".toList, operation := none,
    assignment := none, beneficiary := .bitcoinTestnet (.blindedSeal 5), ownedState := .amount 100, expiry := some (-3),
    unknownQuery := [("a&b".toList, "c=é#".toList)] }

/-- C06 fails: a comma inside of a host breaks the list of endpoints. -/
theorem C06_comma_in_host_fails : ∃ i : Invoice, i.TextsSafe ∧
    ∀ K sp alt, K.Lawful sp → Invoice.fromStr K sp (i.display K alt) ≠ .ok i := by
  have hs : sampleInvoice.TextsSafe := by
    refine ⟨?_, ?_⟩
    · intro p hp
      have : p = ("a&b".toList, "c=é#".toList) := by simpa [sampleInvoice] using hp
      subst this; unfold SafeText; decide
    · intro t ht tls h hh
      simp only [sampleInvoice, List.mem_cons, List.not_mem_nil, or_false] at ht
      rcases ht with rfl | rfl
      · rcases hh with hh | hh | hh <;> cases hh
        unfold SafeText; decide
      · rcases hh with hh | hh | hh <;> cases hh
  refine ⟨sampleInvoice, hs, fun K sp alt hK h => ?_⟩
  have hw := (C06_invoice_text_roundtrip_partial K sp hK alt _ hs).mp h
  rcases hw.transports with ht | ht
  · revert ht; decide
  · have := ht.2 (.jsonRpc true "host.example/x,y".toList) (by decide)
    exact absurd this.2.1 (by decide)

/-- Invoices built by the builder from a contract id only (`RgbInvoiceBuilder::with`) never survive the text form. -/
theorem C06_builder_with_contract_only_fails (K : Codecs) (sp alt : Bool) (c : Nat) (b : XChainNet Beneficiary) :
    Invoice.fromStr K sp ((Builder.with_ c b).display K alt) ≠ .ok (Builder.with_ c b) :=
  C06_invoice_text_roundtrip_fails K sp alt _ (Or.inr (Or.inr (Or.inl ⟨rfl, rfl⟩)))

/-- The well-formed sample: comma in the host replaced. -/
def sampleWf : Invoice := { sampleInvoice with transports := [.jsonRpc true "host.example/x?y".toList, .storm] }

/-- Non-vacuity: a lawful codec and a well-formed invoice with all kinds of fields exist. -/
theorem sampleWf_wellFormed : sampleWf.WellFormed toyCodecs where
  noOperation := rfl
  noAssignment := rfl
  ifaceValid n h := by cases h; decide
  contractHasIface _ := rfl
  notLiquid := by decide
  stateRange := by show (100 : Nat) ≤ u64Max; decide
  transports := by
    refine Or.inr ⟨by decide, fun t ht => ?_⟩
    simp only [sampleWf, List.mem_cons, List.not_mem_nil, or_false] at ht
    rcases ht with rfl | rfl
    · refine ⟨by decide, by decide, ?_⟩; unfold SafeText; decide
    · trivial
  expiryRange e h := by cases h; decide
  unknownKeys := by decide
  unknownNotReserved p h := by
    have : p = ("a&b".toList, "c=é#".toList) := by simpa [sampleWf, sampleInvoice] using h
    subst this; decide
  unknownSafe p h := by
    have : p = ("a&b".toList, "c=é#".toList) := by simpa [sampleWf, sampleInvoice] using h
    subst this; unfold SafeText; decide

example : toyCodecs.Lawful true ∧ sampleWf.WellFormed toyCodecs ∧
    Invoice.fromStr toyCodecs true (sampleWf.display toyCodecs true) = .ok sampleWf :=
  ⟨toyCodecs_lawful _, sampleWf_wellFormed, invoice_roundtrip (toyCodecs_lawful _) _ sampleWf_wellFormed _⟩

/-! ### C07 -/

/-- C07: prefixes are distinct. -/
theorem C07_prefix_distinct (a b : ChainNet) (h : a.display = b.display) : a = b := by
  revert h; cases a <;> cases b <;> decide

/-- C07: every network except Liquid mainnet is parsed back from its prefix.
Missing: Liquid mainnet, see `C07_prefix_roundtrip_fails`. -/
theorem C07_prefix_roundtrip_partial (a : ChainNet) : ChainNet.fromStr a.display = some a ↔ a ≠ .liquidMainnet := by
  cases a <;> decide

/-- C07 fails: the prefix of Liquid mainnet is parsed as Bitcoin mainnet. -/
theorem C07_prefix_roundtrip_fails : ChainNet.fromStr (ChainNet.display .liquidMainnet) = some .bitcoinMainnet := by decide

/-- C07: an accepted prefix is, up to letter case, the one printed for the returned network, except `lq`.
Missing: Liquid mainnet, see `C07_prefix_roundtrip_fails`. -/
theorem C07_prefix_domain_partial (s : Text) (a : ChainNet) (h : ChainNet.fromStr s = some a) :
    s.map Char.toLower = a.display ∨ (s.map Char.toLower = "lq".toList ∧ a = .bitcoinMainnet) := (chainNet_image h).2

/-- C07: a parsed beneficiary belongs to the network of its prefix, except `lq`.
Missing: Liquid mainnet, see `C07_prefix_roundtrip_fails`. -/
theorem C07_beneficiary_network_partial (K : Codecs) (s : Text) (b : XChainNet Beneficiary) (h : parseBeneficiary K s = .ok b) :
    ∃ pre rest, s = pre ++ ':' :: rest ∧
      (pre.map Char.toLower = b.chainNetwork.display ∨ (pre.map Char.toLower = "lq".toList ∧ b.chainNetwork = .bitcoinMainnet)) := by
  obtain ⟨pre, rest, hs, hn⟩ := parseBeneficiary_net h
  exact ⟨pre, rest, (splitOnce_some hs).1, (chainNet_image hn).2⟩

/-- C07: wrapping data with a network and taking it back keeps both. -/
theorem C07_wrap_network {T : Type} (cn : ChainNet) (d : T) :
    (XChainNet.with_ cn d).chainNetwork = cn ∧ (XChainNet.with_ cn d).intoInner = d ∧
    (XChainNet.with_ cn d).layer1 = cn.layer1 ∧ (XChainNet.with_ cn d).isProd = cn.isProd ∧ (XChainNet.with_ cn d).addressNetwork = cn.addressNetwork := by
  cases cn <;> exact ⟨rfl, rfl, rfl, rfl, rfl⟩

/-- C07: the prefix tells the chain, whether it's for production, and the kind of addresses: the prefixes of Liquid are `lq` and `tl`, those for production `bc` and `lq`; addresses are of the
main network for these, and of the regression test network for `bcrt` only. -/
theorem C07_prefix_network (a : ChainNet) :
    (a.layer1 = .liquid ↔ a.display = "lq".toList ∨ a.display = "tl".toList) ∧
    (a.isProd = true ↔ a.display = "bc".toList ∨ a.display = "lq".toList) ∧
    (a.addressNetwork = .mainnet ↔ a.isProd = true) ∧ (a.addressNetwork = .regtest ↔ a.display = "bcrt".toList) := by
  cases a <;> decide

/-- C07: Bitcoin networks keep their production status and address network. -/
theorem C07_bitcoin_network {T : Type} (n : Network) (d : T) :
    (XChainNet.bitcoin n d).layer1 = .bitcoin ∧ (XChainNet.bitcoin n d).intoInner = d ∧
    ((XChainNet.bitcoin n d).isProd = true ↔ n = .mainnet) ∧
    ((XChainNet.bitcoin n d).addressNetwork = .mainnet ↔ n = .mainnet) ∧
    ((XChainNet.bitcoin n d).addressNetwork = .regtest ↔ n = .regtest) := by
  cases n <;> refine ⟨rfl, rfl, ?_, ?_, ?_⟩ <;>
    simp [XChainNet.bitcoin, XChainNet.isProd, XChainNet.addressNetwork, XChainNet.chainNetwork, ChainNet.isProd, ChainNet.addressNetwork]

example : ChainNet.fromStr "TB".toList = some .bitcoinTestnet ∧ ChainNet.fromStr "xx".toList = none := by decide

/-! ### C08 -/

/-- C08: an endpoint is parsed back from its text exactly if it isn't the unspecified one and has a non-empty host. -/
theorem C08_transport_roundtrip (t : Transport) : Transport.fromStr t.display = .ok t ↔
    t ≠ .unspecified ∧ ∀ tls h, t = .jsonRpc tls h ∨ t = .restHttp tls h ∨ t = .webSockets tls h → h ≠ [] := by
  constructor
  · intro h
    obtain ⟨host, h1, _, h3⟩ := transport_image h
    rcases h3 with rfl | ⟨tls, h3⟩
    · refine ⟨by decide, ?_⟩; rintro tls h (h | h | h) <;> cases h
    · refine ⟨by rcases h3 with rfl | rfl | rfl <;> simp, ?_⟩
      rintro tls' h' (rfl | rfl | rfl) <;> rcases h3 with h3 | h3 | h3 <;> cases h3 <;> exact h1
  · rintro ⟨h1, h2⟩; exact transport_roundtrip t h2 h1

theorem transport_domain_split (s : Text) (t : Transport) : Transport.fromStr s = .ok t ↔
    ∃ proto host, splitScheme s = some (proto, host) ∧ host ≠ [] ∧
      ((proto = "rpc".toList ∧ t = .jsonRpc false host) ∨ (proto = "rpcs".toList ∧ t = .jsonRpc true host) ∨
       (proto = "http".toList ∧ t = .restHttp false host) ∨ (proto = "https".toList ∧ t = .restHttp true host) ∨
       (proto = "ws".toList ∧ t = .webSockets false host) ∨ (proto = "wss".toList ∧ t = .webSockets true host) ∨
       (proto = "storm".toList ∧ t = .storm)) := by
  unfold Transport.fromStr
  cases hs : splitScheme s with
  | none => simp
  | some ph =>
    obtain ⟨proto, host⟩ := ph
    simp only [Option.some.injEq, Prod.mk.injEq]
    by_cases hh : host = []
    · subst hh
      rw [if_pos rfl]
      simp only [reduceCtorEq, false_iff]
      rintro ⟨_, _, ⟨_, rfl⟩, h, _⟩; exact h rfl
    · rw [if_neg hh]
      constructor
      · intro h
        refine ⟨proto, host, ⟨rfl, rfl⟩, hh, ?_⟩
        repeat' split at h
        all_goals first | (cases h; done) | (cases h; simp_all)
      · rintro ⟨p, h, ⟨rfl, rfl⟩, _, hc⟩
        rcases hc with ⟨rfl, rfl⟩ | ⟨rfl, rfl⟩ | ⟨rfl, rfl⟩ | ⟨rfl, rfl⟩ | ⟨rfl, rfl⟩ | ⟨rfl, rfl⟩ | ⟨rfl, rfl⟩ <;> rfl

/-- C08: the texts which are accepted, and what they mean. -/
theorem C08_transport_domain (s : Text) (t : Transport) : Transport.fromStr s = .ok t ↔
    ∃ proto host, s = proto ++ "://".toList ++ host ∧ host ≠ [] ∧
      ((proto = "rpc".toList ∧ t = .jsonRpc false host) ∨ (proto = "rpcs".toList ∧ t = .jsonRpc true host) ∨
       (proto = "http".toList ∧ t = .restHttp false host) ∨ (proto = "https".toList ∧ t = .restHttp true host) ∨
       (proto = "ws".toList ∧ t = .webSockets false host) ∨ (proto = "wss".toList ∧ t = .webSockets true host) ∨
       (proto = "storm".toList ∧ t = .storm)) := by
  rw [transport_domain_split]
  constructor
  · rintro ⟨proto, host, h, h'⟩
    exact ⟨proto, host, splitScheme_some h, h'⟩
  · rintro ⟨proto, host, rfl, h1, h2⟩
    refine ⟨proto, host, ?_, h1, h2⟩
    have hp : ':' ∉ proto := by
      rcases h2 with ⟨rfl, -⟩ | ⟨rfl, -⟩ | ⟨rfl, -⟩ | ⟨rfl, -⟩ | ⟨rfl, -⟩ | ⟨rfl, -⟩ | ⟨rfl, -⟩ <;> decide
    simpa using splitScheme_append proto host hp

/-- C08: empty host and unknown protocol errors. -/
theorem C08_transport_rejects (proto host : Text) (h : ':' ∉ proto) :
    (Transport.fromStr (proto ++ "://".toList ++ host) = .error .invalidHost ↔ host = []) ∧
    (host ≠ [] → (Transport.fromStr (proto ++ "://".toList ++ host) = .error .invalidTransport ↔
      proto ∉ ["rpc".toList, "rpcs".toList, "http".toList, "https".toList, "ws".toList, "wss".toList, "storm".toList])) := by
  have hs : splitScheme (proto ++ "://".toList ++ host) = some (proto, host) := by simpa using splitScheme_append proto host h
  unfold Transport.fromStr
  rw [hs]
  simp only
  by_cases hh : host = []
  · subst hh; simp
  · simp only [hh, if_false, iff_false, not_false_iff, ne_eq, forall_const, List.mem_cons, List.not_mem_nil, or_false, not_or]
    refine ⟨?_, ?_⟩
    · repeat' split
      all_goals simp
    · by_cases h1 : proto = "rpc".toList
      · subst h1; simp
      by_cases h2 : proto = "rpcs".toList
      · subst h2; simp
      by_cases h3 : proto = "http".toList
      · subst h3; simp
      by_cases h4 : proto = "https".toList
      · subst h4; simp
      by_cases h5 : proto = "ws".toList
      · subst h5; simp
      by_cases h6 : proto = "wss".toList
      · subst h6; simp
      by_cases h7 : proto = "storm".toList
      · subst h7; simp
      simp only [h1, h2, h3, h4, h5, h6, h7, if_false, not_false_iff, and_self]

example : Transport.fromStr "rpcs://a.b/c".toList = .ok (.jsonRpc true "a.b/c".toList) ∧
    Transport.fromStr "ftp://a".toList = .error .invalidTransport ∧ Transport.fromStr "ws://".toList = .error .invalidHost := by decide

/-! ### C09 -/

/-- C09: whatever the keys and values are, the printed query splits into the same number of parameters, and each of them splits into
the encoded key and the encoded value; no text injects a parameter or a fragment. -/
theorem C09_query_no_injection (ps : List (Text × Text)) (hne : ps ≠ []) :
    (splitAll '&' (queryText ps)).map (splitOnce '=') = ps.map (fun p => some (pctEncode p.1, pctEncode p.2)) ∧
    '#' ∉ queryText ps := by
  refine ⟨?_, queryText_no_hash ps⟩
  rw [queryText_split ps hne, List.map_map]
  apply List.map_congr_left
  intro p _; exact queryPair_split p

/-- C09: parameters with distinct keys are parsed back in the same order if no key or value contains a percent sign.
Missing to the full property: texts with a percent sign, see `C09_query_decode_fails`. -/
theorem C09_query_decode_partial (ps : List (Text × Text)) (hne : ps ≠ []) (hk : (ps.map Prod.fst).Nodup)
    (hs : ∀ p ∈ ps, '%' ∉ p.1 ∧ '%' ∉ p.2) : mapQueryParams (some (queryText ps)) = .ok ps :=
  mapQueryParams_queryText ps hne hk hs

/-- C09 fails: a percent sign isn't escaped, so that another value is read. -/
theorem C09_query_decode_fails :
    mapQueryParams (some (queryText [("k".toList, "100%25".toList)])) = .ok [("k".toList, "100%".toList)] := by decide +kernel

/-- C09: the query of a printed invoice is the printed list of its parameters. -/
theorem C09_invoice_query (K : Codecs) (alt : Bool) (i : Invoice) (h : i.WellFormed K) (hp : i.hasParams = true) :
    ∃ front, i.display K alt = front ++ '?' :: queryText i.queryParams := by
  rw [display_eq h alt, if_neg ((hasParams_iff h).mp hp)]
  exact ⟨_, rfl⟩

example : mapQueryParams (some (queryText [("a&b=".toList, "é?x".toList), ("z".toList, "".toList)])) =
    .ok [("a&b=".toList, "é?x".toList), ("z".toList, "".toList)] :=
  C09_query_decode_partial _ (by decide) (by decide) (by decide)

/-! ### C10 -/

/-- Length of the address payload required by its type: 20-byte hashes and 32-byte hashes and keys. -/
def PayloadSized : AddressPayload → Prop
  | .pkh h | .sh h | .wpkh h => h.length = 20
  | .wsh h | .tr h => h.length = 32

/-- C10: the binary form is 34 bytes long and decodes to the same beneficiary. -/
theorem C10_payload_roundtrip (validKey : List Nat → Bool) (p : Pay2Vout) (hl : PayloadSized p.address)
    (hk : ∀ k, p.address = .tr k → validKey k = true) :
    p.toPayload.length = 34 ∧ Pay2Vout.ofPayload validKey p.toPayload = .ok p := by
  obtain ⟨m, a⟩ := p
  cases m <;> cases a <;> simp only [PayloadSized] at hl <;>
    refine ⟨by simp [Pay2Vout.toPayload, hl], ?_⟩ <;>
    simp [Pay2Vout.ofPayload, Pay2Vout.toPayload, CloseMethod.toByte, CloseMethod.ofByte, List.take_left', hl] <;>
    (rename_i k; have ht : k.take 32 = k := List.take_of_length_le (by omega); rw [ht, if_pos (hk k rfl)])

/-- C10: unknown method, unknown address type and invalid keys are rejected; nothing else is. -/
theorem C10_payload_rejects (validKey : List Nat → Bool) (m t : Nat) (r : List Nat) :
    (Pay2Vout.ofPayload validKey (m :: t :: r) = .error .invalidMethod ↔ m ≠ 0 ∧ m ≠ 1) ∧
    (Pay2Vout.ofPayload validKey (m :: t :: r) = .error .invalidAddressType ↔ (m = 0 ∨ m = 1) ∧ (t = 0 ∨ 5 < t)) ∧
    (Pay2Vout.ofPayload validKey (m :: t :: r) = .error .invalidTapkey ↔ (m = 0 ∨ m = 1) ∧ t = 5 ∧ validKey (r.take 32) = false) := by
  unfold Pay2Vout.ofPayload
  simp only [List.getD_cons_zero, List.getD_cons_succ, List.drop_succ_cons, List.drop_zero]
  match m with
  | 0 | 1 =>
    simp only [CloseMethod.ofByte]
    match t with
    | 0 | 1 | 2 | 3 | 4 => simp
    | 5 => by_cases h : validKey (r.take 32) = true <;> simp [h]
    | n + 6 => simp
  | n + 2 => simp [CloseMethod.ofByte]

/-- C10: what is decoded has the method and the type of the payload and its significant bytes (for 34-byte payloads). -/
theorem C10_payload_exact (validKey : List Nat → Bool) (m t : Nat) (r : List Nat) (hr : r.length = 32) (p : Pay2Vout)
    (h : Pay2Vout.ofPayload validKey (m :: t :: r) = .ok p) :
    p.method.toByte = m ∧ PayloadSized p.address ∧
    ((t = 1 ∧ p.address = .pkh (r.take 20)) ∨ (t = 2 ∧ p.address = .sh (r.take 20)) ∨ (t = 3 ∧ p.address = .wpkh (r.take 20)) ∨
     (t = 4 ∧ p.address = .wsh r) ∨ (t = 5 ∧ p.address = .tr r ∧ validKey r = true)) := by
  unfold Pay2Vout.ofPayload at h
  simp only [List.getD_cons_zero, List.getD_cons_succ, List.drop_succ_cons, List.drop_zero] at h
  have ht : r.take 32 = r := List.take_of_length_le (by omega)
  rw [ht] at h
  match m with
  | 0 | 1 =>
    simp only [CloseMethod.ofByte] at h
    match t with
    | 0 => cases h
    | 1 | 2 | 3 | 4 => injection h with h; subst h; simp [PayloadSized, hr, CloseMethod.toByte]
    | 5 =>
      simp only at h
      by_cases hv : validKey r = true
      · rw [if_pos hv] at h; injection h with h; subst h; simp [PayloadSized, hr, hv, CloseMethod.toByte]
      · rw [if_neg hv] at h; cases h
    | n + 6 => cases h
  | n + 2 => simp [CloseMethod.ofByte] at h

example : ∃ p : Pay2Vout, PayloadSized p.address ∧ p.method = .tapretFirst :=
  ⟨⟨.tapretFirst, .pkh (List.replicate 20 7)⟩, by simp [PayloadSized], rfl⟩

/-! ### C11 -/

/-- What a builder call is meant to write: to the contract field, -/
def writesContract : Builder.Call → Option (Option Nat)
  | .setContract c => some (some c)
  | _ => none
/-- to the interface field, -/
def writesIface : Builder.Call → Option (Option Text)
  | .setInterface n => some (some n)
  | _ => none
/-- to the operation field, -/
def writesOperation : Builder.Call → Option (Option Text)
  | .setOperation n => some (some n)
  | _ => none
/-- to the assignment field, -/
def writesAssignment : Builder.Call → Option (Option Text)
  | .setAssignment n => some (some n)
  | _ => none
/-- to the expiry field, -/
def writesExpiry : Builder.Call → Option (Option Int)
  | .setExpiry e => some (some e)
  | _ => none
/-- to the owned state: coin amounts with a fraction not below `10^p` are refused, -/
def writesState : Builder.Call → Option InvoiceState
  | .setAmountRaw a => some (.amount a)
  | .setAmount int fract p => if fract < 10 ^ p.val then some (.amount (int * 10 ^ p.val + fract)) else none
  | .setAllocationRaw a => some (.data a)
  | .setAllocation idx fract => some (.data ⟨idx, fract⟩)
  | _ => none
/-- The text is a valid transport. -/
def accepted (s : Text) : Bool := match Transport.fromStr s with | .ok _ => true | .error _ => false
/-- and the transports which it adds: all given ones, or none if any text is refused. -/
def addsTransports : Builder.Call → Option (List Transport)
  | .addTransportRaw t => some [t]
  | .addTransport s => match Transport.fromStr s with | .ok t => some [t] | .error _ => none
  | .addTransportsRaw ts => some ts
  | .addTransports ss => if ss.all accepted then
      some (ss.filterMap (fun s => match Transport.fromStr s with | .ok t => some t | .error _ => none)) else none
  | _ => none

/-- The value written last, or the initial value. -/
def lastWrite {α : Type} (w : Builder.Call → Option α) (init : α) (cs : List Builder.Call) : α :=
  ((cs.filterMap w).getLast?).getD init

/-- The call overflows `u64`. -/
def Overflows (c : Builder.Call) : Prop :=
  ∃ int fract p, c = .setAmount int fract p ∧ fract < 10 ^ p.val ∧ 2 ^ 64 ≤ int * 10 ^ p.val + fract

theorem lastWrite_cons {α : Type} (w : Builder.Call → Option α) (init : α) (c : Builder.Call) (cs : List Builder.Call) :
    lastWrite w init (c :: cs) = lastWrite w ((w c).getD init) cs := by
  unfold lastWrite
  cases hc : w c with
  | none => simp [List.filterMap_cons, hc]
  | some a =>
    simp only [List.filterMap_cons, hc, Option.getD_some]
    cases h : cs.filterMap w with
    | nil => simp
    | cons b bs => rw [List.getLast?_cons_cons, List.getLast?_eq_some_getLast (by simp)]; rfl

theorem collect_eq (ss : List Text) : Builder.collectTransports ss =
    if ss.all accepted then
      some (ss.filterMap (fun s => match Transport.fromStr s with | .ok t => some t | .error _ => none)) else none := by
  induction ss with
  | nil => simp [Builder.collectTransports]
  | cons s ss ih =>
    unfold Builder.collectTransports
    cases hs : Transport.fromStr s with
    | error e => simp [accepted, hs]
    | ok t =>
      simp only [ih, List.all_cons, accepted, hs, Bool.true_and, List.filterMap_cons]
      split <;> rfl

/-- Effect of a single call. -/
theorem C11_call_exact (i : Invoice) (c : Builder.Call) :
    (c.apply i = .panic ↔ Overflows c) ∧
    (∀ j, c.apply i = .err j → j = i) ∧
    (∀ j, c.apply i = .ok j ∨ c.apply i = .err j →
      j.contract = (writesContract c).getD i.contract ∧ j.iface = (writesIface c).getD i.iface ∧
      j.operation = (writesOperation c).getD i.operation ∧ j.assignment = (writesAssignment c).getD i.assignment ∧
      j.expiry = (writesExpiry c).getD i.expiry ∧ j.ownedState = (writesState c).getD i.ownedState ∧
      j.beneficiary = i.beneficiary ∧ j.unknownQuery = i.unknownQuery ∧
      j.transports = (match addsTransports c with
        | some ts => (if i.transports = [.unspecified] then [] else i.transports) ++ ts
        | none => i.transports)) := by
  have hdu : ∀ i : Invoice, Builder.dropUnspecified i =
      { i with transports := if i.transports = [.unspecified] then [] else i.transports } := by
    intro i; unfold Builder.dropUnspecified; split <;> simp_all
  cases c with
  | setAmount int fract p =>
    have hp : CoinAmount.toAmountUnchecked ⟨int, fract, p⟩ =
        if int * 10 ^ p.val + fract < 2 ^ 64 then some (int * 10 ^ p.val + fract) else none := by
      unfold CoinAmount.toAmountUnchecked
      simp only [u64Max]
      generalize int * 10 ^ p.val = x
      by_cases h1 : x ≤ 2 ^ 64 - 1 <;> by_cases h2 : x + fract < 2 ^ 64 <;> simp only [h1, h2, if_true, if_false] <;>
        first | rfl | omega | (rw [if_pos (by omega)]) | (rw [if_neg (by omega)])
    by_cases hf : fract < 10 ^ p.val
    · have hw : CoinAmount.with_ int fract p = some ⟨int, fract, p⟩ := (C03_coin_amount_with int fract p _).mpr ⟨hf, rfl⟩
      by_cases hv : int * 10 ^ p.val + fract < 2 ^ 64
      · have hap : (Builder.Call.setAmount int fract p).apply i = .ok { i with ownedState := .amount (int * 10 ^ p.val + fract) } := by
          simp only [Builder.Call.apply, Builder.setAmount, hw, hp, if_pos hv]
        rw [hap]
        refine ⟨?_, (by intro j h; cases h), ?_⟩
        · simp only [reduceCtorEq, false_iff]
          rintro ⟨a, b, q, hc, _, h2⟩; cases hc; omega
        · intro j h
          rcases h with h | h <;> cases h
          simp [writesContract, writesIface, writesOperation, writesAssignment, writesExpiry, writesState, addsTransports, hf]
      · have hap : (Builder.Call.setAmount int fract p).apply i = .panic := by
          simp only [Builder.Call.apply, Builder.setAmount, hw, hp, if_neg hv]
        rw [hap]
        refine ⟨?_, (by intro j h; cases h), by intro j h; rcases h with h | h <;> cases h⟩
        simp only [true_iff]; exact ⟨int, fract, p, rfl, hf, by omega⟩
    · have hw : CoinAmount.with_ int fract p = none := by
        cases hc : CoinAmount.with_ int fract p with
        | none => rfl
        | some c => exact absurd ((C03_coin_amount_with int fract p c).mp hc).1 hf
      have hap : (Builder.Call.setAmount int fract p).apply i = .err i := by
        simp only [Builder.Call.apply, Builder.setAmount, hw]
      rw [hap]
      refine ⟨?_, (by intro j h; cases h; rfl), ?_⟩
      · simp only [reduceCtorEq, false_iff]
        rintro ⟨a, b, q, hc, h1, _⟩; cases hc; exact hf h1
      · intro j h
        rcases h with h | h <;> cases h
        simp [writesContract, writesIface, writesOperation, writesAssignment, writesExpiry, writesState, addsTransports, hf]
  | addTransport s =>
    cases hs : Transport.fromStr s with
    | error e =>
      have hap : (Builder.Call.addTransport s).apply i = .err i := by simp only [Builder.Call.apply, Builder.addTransport, hs]
      rw [hap]
      refine ⟨by simp [Overflows], (by intro j h; cases h; rfl), ?_⟩
      intro j h
      rcases h with h | h <;> cases h
      simp [writesContract, writesIface, writesOperation, writesAssignment, writesExpiry, writesState, addsTransports, hs]
    | ok t =>
      have hap : (Builder.Call.addTransport s).apply i = .ok (Builder.addTransportRaw i t) := by
        simp only [Builder.Call.apply, Builder.addTransport, hs]
      rw [hap]
      refine ⟨by simp [Overflows], (by intro j h; cases h), ?_⟩
      intro j h
      rcases h with h | h <;> cases h
      simp [writesContract, writesIface, writesOperation, writesAssignment, writesExpiry, writesState, addsTransports, hs,
        Builder.addTransportRaw, hdu]
  | addTransports ss =>
    by_cases hs : ss.all accepted = true
    · have hap : (Builder.Call.addTransports ss).apply i = .ok (Builder.addTransportsRaw i
          (ss.filterMap (fun s => match Transport.fromStr s with | .ok t => some t | .error _ => none))) := by
        simp only [Builder.Call.apply, Builder.addTransports, collect_eq, if_pos hs]
      rw [hap]
      refine ⟨by simp [Overflows], (by intro j h; cases h), ?_⟩
      intro j h
      rcases h with h | h <;> cases h
      simp only [writesContract, writesIface, writesOperation, writesAssignment, writesExpiry, writesState, addsTransports, if_pos hs,
        Builder.addTransportsRaw, hdu, Option.getD_none, and_self]
    · have hap : (Builder.Call.addTransports ss).apply i = .err i := by
        simp only [Builder.Call.apply, Builder.addTransports, collect_eq, if_neg hs]
      rw [hap]
      refine ⟨by simp [Overflows], (by intro j h; cases h; rfl), ?_⟩
      intro j h
      rcases h with h | h <;> cases h
      simp only [writesContract, writesIface, writesOperation, writesAssignment, writesExpiry, writesState, addsTransports, if_neg hs,
        Option.getD_none, and_self]
  | _ =>
    refine ⟨by simp [Builder.Call.apply, Builder.setAllocation, Overflows], (by intro j h; cases h), ?_⟩
    intro j h
    rcases h with h | h <;> cases h
    simp [writesContract, writesIface, writesOperation, writesAssignment, writesExpiry, writesState, addsTransports,
      Builder.setContract, Builder.setInterface, Builder.setOperation, Builder.setAssignment, Builder.setAmountRaw,
      Builder.setAllocationRaw, Builder.setExpiry, Builder.addTransportRaw, Builder.addTransportsRaw, hdu]

/-- C11: after any sequence of calls every field has the value of the last call which names it, refused calls have no effect, and the only way
to fail is a coin amount overflowing `u64` (a panic). -/
theorem C11_builder_history (i : Invoice) (cs : List Builder.Call) :
    (Builder.run i cs = none ↔ ∃ c ∈ cs, Overflows c) ∧
    ∀ j, Builder.run i cs = some j →
      j.contract = lastWrite writesContract i.contract cs ∧ j.iface = lastWrite writesIface i.iface cs ∧
      j.operation = lastWrite writesOperation i.operation cs ∧ j.assignment = lastWrite writesAssignment i.assignment cs ∧
      j.expiry = lastWrite writesExpiry i.expiry cs ∧ j.ownedState = lastWrite writesState i.ownedState cs ∧
      j.beneficiary = i.beneficiary ∧ j.unknownQuery = i.unknownQuery := by
  induction cs generalizing i with
  | nil =>
    refine ⟨by simp [Builder.run], ?_⟩
    intro j h; cases h; exact ⟨rfl, rfl, rfl, rfl, rfl, rfl, rfl, rfl⟩
  | cons c cs ih =>
    have hc := C11_call_exact i c
    have main : ∀ k, (c.apply i = .ok k ∨ c.apply i = .err k) → Builder.run i (c :: cs) = Builder.run k cs := by
      intro k hk; rcases hk with hk | hk <;> simp only [Builder.run, hk]
    by_cases hp : c.apply i = .panic
    · have hr : Builder.run i (c :: cs) = none := by simp only [Builder.run, hp]
      refine ⟨?_, by intro j h; rw [hr] at h; cases h⟩
      rw [hr]; simp only [true_iff]; exact ⟨c, by simp, hc.1.mp hp⟩
    · obtain ⟨k, hk⟩ : ∃ k, c.apply i = .ok k ∨ c.apply i = .err k := by
        cases h : c.apply i with
        | ok k => exact ⟨k, Or.inl rfl⟩
        | err k => exact ⟨k, Or.inr rfl⟩
        | panic => exact absurd h hp
      rw [main k hk]
      obtain ⟨i1, i2⟩ := ih k
      refine ⟨?_, ?_⟩
      · rw [i1]
        constructor
        · rintro ⟨d, hd, ho⟩; exact ⟨d, by simp [hd], ho⟩
        · rintro ⟨d, hd, ho⟩
          rcases List.mem_cons.mp hd with rfl | hd
          · exact absurd (hc.1.mpr ho) hp
          · exact ⟨d, hd, ho⟩
      · intro j hj
        obtain ⟨f1, f2, f3, f4, f5, f6, f7, f8⟩ := i2 j hj
        obtain ⟨g1, g2, g3, g4, g5, g6, g7, g8, _⟩ := hc.2.2 k hk
        simp only [lastWrite_cons, f1, f2, f3, f4, f5, f6, f7, f8, g1, g2, g3, g4, g5, g6, g7, g8, and_self]

/-- C11: transports of a new builder after any calls are exactly the accepted ones, in order, or the unspecified one if nothing was added. -/
theorem C11_builder_transports (b : XChainNet Beneficiary) (cs : List Builder.Call) (j : Invoice)
    (h : Builder.run (Builder.new b) cs = some j) (hu : ∀ c ∈ cs, ∀ ts, addsTransports c = some ts → Transport.unspecified ∉ ts) :
    j.transports = if cs.filterMap addsTransports = [] then [.unspecified] else (cs.filterMap addsTransports).flatten := by
  suffices ∀ (cs : List Builder.Call) (i j : Invoice) (acc : List (List Transport)),
      (∀ c ∈ cs, ∀ ts, addsTransports c = some ts → Transport.unspecified ∉ ts) → (∀ ts ∈ acc, Transport.unspecified ∉ ts) →
      i.transports = (if acc = [] then [.unspecified] else acc.flatten) → Builder.run i cs = some j →
      j.transports = if acc ++ cs.filterMap addsTransports = [] then [.unspecified] else (acc ++ cs.filterMap addsTransports).flatten by
    simpa using this cs _ j [] hu (by simp) (by simp [Builder.new]) h
  intro cs
  induction cs with
  | nil => intro i j acc _ _ hi hr; cases hr; simpa using hi
  | cons c cs ih =>
    intro i j acc hu ha hi hr
    have hc := C11_call_exact i c
    obtain ⟨k, hk, hr⟩ : ∃ k, (c.apply i = .ok k ∨ c.apply i = .err k) ∧ Builder.run k cs = some j := by
      cases h : c.apply i with
      | ok k => exact ⟨k, Or.inl rfl, by simpa only [Builder.run, h] using hr⟩
      | err k => exact ⟨k, Or.inr rfl, by simpa only [Builder.run, h] using hr⟩
      | panic => simp only [Builder.run, h] at hr; cases hr
    have ht := (hc.2.2 k hk).2.2.2.2.2.2.2.2
    cases hw : addsTransports c with
    | none =>
      rw [hw] at ht
      rw [List.filterMap_cons_none hw]
      exact ih k j acc (fun d hd => hu d (by simp [hd])) ha (by rw [ht]; exact hi) hr
    | some ts =>
      rw [hw] at ht
      have hts := hu c (by simp) ts hw
      have hne : acc ≠ [] → acc.flatten ≠ [.unspecified] := by
        intro _ h
        have : Transport.unspecified ∈ acc.flatten := by rw [h]; simp
        obtain ⟨l, hl, hm⟩ := List.mem_flatten.mp this
        exact ha l hl hm
      have hk' : k.transports = (acc ++ [ts]).flatten := by
        rw [ht, hi]
        by_cases hacc : acc = []
        · subst hacc; simp
        · simp only [hacc, if_false, hne hacc]; simp
      rw [List.filterMap_cons_some hw]
      have := ih k j (acc ++ [ts]) (fun d hd => hu d (by simp [hd])) ?_ ?_ hr
      · simpa using this
      · intro l hl; rcases List.mem_append.mp hl with hl | hl
        · exact ha l hl
        · simp only [List.mem_singleton] at hl; subst hl; exact hts
      · rw [if_neg (by simp)]; exact hk'

/-- C11: the approximate setter refuses non-positive amounts and otherwise sets whole coins only: the fractional part of the given number is lost. -/
theorem C11_amount_approx (i : Invoice) (num : Int) (den : Nat) (hd : 0 < den) (p : Precision) :
    (num ≤ 0 → Builder.setAmountApprox i num den p = .err i) ∧
    (∀ j, Builder.setAmountApprox i num den p = .ok j → j = { i with ownedState := .amount (min (num.toNat / den) u64Max * 10 ^ p.val) }) := by
  refine ⟨fun h => by unfold Builder.setAmountApprox; rw [if_pos h], ?_⟩
  intro j h
  unfold Builder.setAmountApprox at h
  split at h
  · cases h
  · have hz : num.toNat % den / den = 0 := Nat.div_eq_of_lt (Nat.mod_lt _ hd)
    rw [hz] at h
    unfold Builder.setAmount at h
    have hw : CoinAmount.with_ (min (num.toNat / den) u64Max) 0 p = some ⟨min (num.toNat / den) u64Max, 0, p⟩ :=
      (C03_coin_amount_with _ _ _ _).mpr ⟨Nat.pow_pos (by omega), rfl⟩
    rw [hw] at h
    simp only at h
    split at h
    · cases h
    · rename_i a ha
      injection h with h
      unfold CoinAmount.toAmountUnchecked at ha
      simp only at ha
      split at ha
      · split at ha
        · injection ha with ha; rw [← h, ← ha]; simp
        · cases ha
      · cases ha

example : (Builder.run (Builder.new (.bitcoinMainnet (.blindedSeal 1)))
    [.setContract 1, .setAmount 5 25 2, .setAmount 5 100 2, .addTransport "x".toList, .addTransport "rpc://h".toList, .setContract 2]) =
    some { transports := [.jsonRpc false "h".toList], contract := some 2, iface := none, operation := none, assignment := none,
           beneficiary := .bitcoinMainnet (.blindedSeal 1), ownedState := .amount 525, expiry := none, unknownQuery := [] } := by decide

end Rgb.Props
