{"id": "C01", "title": "Amount text round-trip", "statement": "Printing an Amount with Display and parsing the text with FromStr yields the same Amount, so two different amounts never share a text form; text which decodes to more than 8 bytes or contains a character outside of the alphabet is rejected instead of being truncated.", "quantifier": "every u64 value; every input string for the rejection part", "why_tests_cant": "2^64 values; byte-trimming makes every byte length a different path", "anchors": ["invoice/src/amount.rs: ENC_BASE32_NODIGIT, Display for Amount, FromStr for Amount"]}
{"id": "C02", "title": "Amount arithmetic never wraps", "statement": "saturating_add/saturating_sub clamp exactly at u64::MAX/0, checked_add/checked_sub return None exactly when the true result is not a u64, and summing any sequence of amounts gives min(true sum, u64::MAX) irrespective of order.", "quantifier": "every pair of u64 values; every finite sequence of amounts in every order", "why_tests_cant": "unbounded sequences and all 2^128 pairs", "anchors": ["invoice/src/amount.rs: Amount::saturating_*, checked_*, Sum for Amount", "invoice/src/data.rs: OwnedFraction"]}
{"id": "C03", "title": "Precision arithmetic", "statement": "For every precision p, split(p) returns (i,f) with f < 10^p and i*10^p+f equal to the amount; floor is the largest, ceil the smallest whole number of coins not above/below the amount, rem is the fraction, round goes to the nearest coin with halves up; checked/saturating precision conversions return the exact product or None/u64::MAX exactly on overflow.", "quantifier": "every u64 amount and each of the 19 precisions", "why_tests_cant": "2^64 x 19 inputs with overflow boundaries specific to each precision", "anchors": ["invoice/src/amount.rs: Amount::{split,round,ceil,floor,rem,with_precision,with_precision_checked}, Precision::{multiplier,checked_convert,saturating_convert,unchecked_convert}"]}
{"id": "C04", "title": "CoinAmount text round-trip", "statement": "Printing a CoinAmount made from an Amount and parsing it back yields the same integral part, fractional part and precision.", "quantifier": "every u64 amount and each precision, both display forms", "why_tests_cant": "the failing cases depend on the digits of the fraction; requires all amounts", "anchors": ["invoice/src/amount.rs: CoinAmount Display, FromStr, new, with, to_amount_unchecked"]}
{"id": "C05", "title": "NFT allocation text round-trip", "statement": "Printing a token Allocation as fraction@index and parsing it back yields the same allocation; a text without '@' or with a non-numeric or out-of-range part is rejected.", "quantifier": "every u64 fraction and u32 index; every string for rejection", "why_tests_cant": "2^96 allocations", "anchors": ["invoice/src/data.rs: Allocation Display, FromStr"]}
{"id": "C06", "title": "Invoice text round-trip", "statement": "Printing an RgbInvoice and parsing the text yields the same invoice (contract, interface, state, beneficiary, transports, expiry, and unknown query parameters). A text written by another program is read part by part: the first part of the path is a contract id or `~`, the second an interface or `~`, the third a state and a beneficiary, or a beneficiary; anything else there is refused, and what follows is ignored.", "quantifier": "every invoice that can be built or parsed", "why_tests_cant": "all combinations of optional parts and of arbitrary query text", "anchors": ["invoice/src/parse.rs: Display for RgbInvoice, FromStr for RgbInvoice, query_params, map_query_params"]}
{"id": "C07", "title": "Network prefix is unambiguous", "statement": "Each supported chain network prints a distinct prefix and parsing a prefix returns the network that printed it, so that a beneficiary address can never move to another network.", "quantifier": "all chain networks; all strings for rejection", "why_tests_cant": "the parse side ranges over every string", "anchors": ["invoice/src/parse.rs: FromStr for ChainNet, FromStr for XChainNet<Beneficiary>", "invoice/src/invoice.rs: Display for ChainNet"]}
{"id": "C08", "title": "Transport endpoint round-trip", "statement": "Printing a transport endpoint and parsing it yields the same endpoint (protocol, TLS flag and host); an unknown protocol or an empty host is rejected.", "quantifier": "all transports with any host text; all strings for rejection", "why_tests_cant": "hosts are arbitrary text", "anchors": ["invoice/src/parse.rs: Display for RgbTransport, FromStr for RgbTransport"]}
{"id": "C09", "title": "Query parameters cannot be injected", "statement": "Whatever key/value text is put into the invoice query, the printed query splits back into exactly the same number of parameters in the same order and percent-decodes to the same keys and values.", "quantifier": "all maps of key/value texts", "why_tests_cant": "arbitrary text including delimiters and escape characters", "anchors": ["invoice/src/parse.rs: QUERY_ENCODE, RgbInvoice::query_params, query_params Display, map_query_params"]}
{"id": "C10", "title": "Beneficiary payload codec", "statement": "The 34-byte binary form of a pay-to-vout beneficiary decodes to the same closing method and address payload, and a payload with an unknown address type or method byte is rejected.", "quantifier": "all payloads; all 34-byte strings for rejection", "why_tests_cant": "2^272 byte strings", "anchors": ["invoice/src/invoice.rs: TryFrom<[u8;34]> for Pay2Vout", "invoice/src/parse.rs: to_baid64_payload"]}
{"id": "C11", "title": "Invoice builder setters are exact", "statement": "Each builder call changes exactly the field it names, the last call wins, and a failing call hands back the builder unchanged; set_amount stores integer*10^p+fraction.", "quantifier": "every sequence of builder calls with any arguments", "why_tests_cant": "unbounded call sequences", "anchors": ["invoice/src/builder.rs: RgbInvoiceBuilder"]}
{"id": "C12", "title": "Merging disclosures keeps commitments", "statement": "merge_reveal of two disclosures of the same operation returns an operation with the same id, and every seal or state which was revealed in either input is revealed with the same value in the result.", "quantifier": "all pairs of disclosures of the same operation, of any number of state types and assignments", "why_tests_cant": "unbounded assignment lists with four disclosure forms each", "anchors": ["src/contract/merge_reveal.rs: MergeReveal for Assign, TypedAssigns, Assignments, Genesis, Transition, Extension"]}
{"id": "C13", "title": "Merging disclosures is order independent", "statement": "For disclosures of one and the same operation merge_reveal is idempotent, commutative and associative, so that the final knowledge does not depend on the order consignments have been received in.", "quantifier": "all pairs/triples of disclosures of one operation; all orders of any finite sequence of them", "why_tests_cant": "arrival orders grow factorially", "anchors": ["src/contract/merge_reveal.rs"]}
{"id": "C14", "title": "Different operations are never merged", "statement": "merge_reveal of two operations with different ids, two witnesses with different txids or of different chains always returns an error.", "quantifier": "all pairs of operations / witnesses", "why_tests_cant": "ranges over all pairs", "anchors": ["src/contract/merge_reveal.rs: Genesis, Transition, Extension", "src/containers/anchors.rs: XPubWitness::merge_reveal, PubWitness::merge_reveal"]}
{"id": "C15", "title": "Merging bundles keeps every known transition", "statement": "Merging two disclosures of one bundle returns a bundle with the same id in which every transition known to either is known.", "quantifier": "all pairs of disclosures of a bundle", "why_tests_cant": "unbounded sets of transitions", "anchors": ["src/contract/merge_reveal.rs: MergeReveal for TransitionBundle"]}
{"id": "C16", "title": "Merging public witnesses keeps the transaction", "statement": "Merging two public witnesses with the same txid succeeds, and the result contains the full transaction if either of them does, in either order.", "quantifier": "all pairs of public witnesses", "why_tests_cant": "the two orders take different match arms", "anchors": ["src/containers/anchors.rs: PubWitness::merge_reveal"]}
{"id": "C17", "title": "Merging anchors keeps both commitments", "statement": "Merging anchor sets of the same witness keeps a tapret and an opret proof whenever either set has it, and the known bundles of the result are the union of both.", "quantifier": "all pairs of anchor sets", "why_tests_cant": "all pairs over unbounded MPC trees", "anchors": ["src/containers/anchors.rs: AnchorSet::merge_reveal, known_bundle_ids, has_tapret, has_opret"]}
{"id": "C18", "title": "Revealing a seal is precise", "statement": "Revealing a seal turns into revealed exactly those assignments whose secret seal is the concealment of that seal, changes no state data and no operation id.", "quantifier": "all assignments and seals; all bundles and consignments with any set of terminal seals", "why_tests_cant": "unbounded lists of assignments", "anchors": ["src/contract/assignments.rs: reveal_seal, filter_revealed_seals", "src/containers/anchors.rs: WitnessBundle::reveal_seal", "src/containers/consignment.rs: reveal_terminal_seals"]}
{"id": "C19", "title": "Indexed operations stay resolvable", "statement": "After a bundle is indexed, every transition known in it resolves to that bundle, the bundle resolves to its contract and to all the witnesses it was ever seen with; no later indexing operation loses any of it.", "quantifier": "every sequence of indexing operations", "why_tests_cant": "unbounded histories", "anchors": ["src/persistence/index.rs: index_bundle, index_consignment", "src/persistence/memory.rs: MemIndex::register_bundle, register_operation, bundle_id_for_op, bundle_info"]}
{"id": "C20", "title": "One contract per bundle, one bundle per operation", "statement": "An attempt to index a bundle under a second contract or an operation under a second bundle fails with an error and keeps the previous mapping.", "quantifier": "every sequence of indexing operations", "why_tests_cant": "unbounded histories", "anchors": ["src/persistence/memory.rs: register_bundle, register_operation"]}
{"id": "C21", "title": "Outputs lookup is sound and complete", "statement": "Looking up a contract's state by transaction outputs returns exactly the outputs of indexed operations whose revealed seal points to one of the requested outpoints.", "quantifier": "every index history and every set of requested outpoints", "why_tests_cant": "depends on the combination of seals over the whole history", "anchors": ["src/persistence/memory.rs: opouts_by_outputs, index_genesis_assignments, index_transition_assignments, contracts_assigning"]}
{"id": "C22", "title": "Terminals lookup is sound and complete", "statement": "Looking up state by secret seals returns exactly the outputs of indexed operations assigned to one of the requested secret seals, including those whose seal was revealed.", "quantifier": "every index history and every set of secret seals", "why_tests_cant": "depends on whole history; overflow boundary at 255 entries", "anchors": ["src/persistence/memory.rs: opouts_by_terminals, extend_terminals, add_terminal"]}
{"id": "C23", "title": "Contract state queries are sound and complete", "statement": "State queries return precisely the revealed assignments of operations added to the contract whose witness transaction is known and not archived; genesis state is always returned.", "quantifier": "every history of adding operations and updating witnesses", "why_tests_cant": "unbounded histories", "anchors": ["src/persistence/memory.rs: MemContractState::add_operation, add_assignments, MemContract::{rights,fungible,data,attach}(_all)", "src/contract/assignments.rs: check_witness"]}
{"id": "C24", "title": "Reorganisation safety", "statement": "When a witness transaction becomes archived all state it has created vanishes from queries, when it becomes valid again exactly that state re-appears, and state of all other witnesses is not affected.", "quantifier": "every state, every witness, every sequence of chain updates", "why_tests_cant": "chain reorganisation schedules are unbounded", "anchors": ["src/persistence/memory.rs: MemState::update_witnesses, MemContract"]}
{"id": "C25", "title": "Witness update reporting", "statement": "update_witnesses asks the resolver for exactly the witnesses that are not mined or are mined at or above the given height, stores each answer, leaves every other witness and every witness that failed to resolve unchanged, and reports the number of successes and each failure.", "quantifier": "every set of witnesses, heights and resolver behaviour", "why_tests_cant": "resolver is an arbitrary partial function", "anchors": ["src/persistence/memory.rs: MemState::update_witnesses"]}
{"id": "C26", "title": "Re-adding operations is idempotent and order independent", "statement": "Adding an already known operation with the same witness doesn't change the contract state, and the visible state after adding a set of operations doesn't depend on the order.", "quantifier": "every permutation of every finite list of operations", "why_tests_cant": "factorially many orders", "anchors": ["src/persistence/memory.rs: MemContractState::add_operation, register_contract"]}
{"id": "C27", "title": "Global state is bounded and newest first", "statement": "Querying a global state type returns at most max_items of the most recent items, in order of decreasing position, never items whose witness is unknown; an undeclared type is an error.", "quantifier": "every history and every limit", "why_tests_cant": "unbounded histories", "anchors": ["src/persistence/memory.rs: MemContract::global, MemGlobalState"]}
{"id": "C28", "title": "State extension visibility", "statement": "Accepting a consignment adds to the state every transition known in it with its witness, and adds an extension precisely when some transition in the consignment spends one of its outputs.", "quantifier": "all consignments", "why_tests_cant": "unbounded operation graphs", "anchors": ["src/persistence/state.rs: update_from_consignment, update_from_bundle"]}
{"id": "C29", "title": "Only valid witnesses are selected", "statement": "Selecting a witness out of a bundle's witnesses returns one which is known and not archived; it fails if there is none, or on a witness unknown to the state.", "quantifier": "all witness sets and states", "why_tests_cant": "arbitrary sets", "anchors": ["src/persistence/state.rs: select_valid_witness", "src/persistence/memory.rs: is_valid_witness"]}
{"id": "C30", "title": "Stash is content addressed and monotone", "statement": "Every object read from the stash by id has that id, and no sequence of stash writes makes an available object unavailable.", "quantifier": "every sequence of stash writes", "why_tests_cant": "unbounded histories", "anchors": ["src/persistence/memory.rs: StashReadProvider/StashWriteProvider for MemStash"]}
{"id": "C31", "title": "Consumed consignments are fully retrievable", "statement": "After a consignment is consumed its schema, interfaces, genesis, extensions, bundles and witnesses can be read from the stash.", "quantifier": "all stashes and consignments", "why_tests_cant": "ranges over all existing stash content interacting through merge", "anchors": ["src/persistence/stash.rs: consume_consignment, consume_kit, consume_witness, consume_bundle"]}
{"id": "C32", "title": "Signatures of untrusted identities are not stored", "statement": "Importing content signatures stores only signatures by identities whose trust level is above malicious and never removes a previously stored signature unless replaced by the same identity.", "quantifier": "all signature sets, trust assignments and histories", "why_tests_cant": "all maps and trust levels", "anchors": ["src/persistence/memory.rs: import_sigs_internal", "src/containers/util.rs: TrustLevel"]}
{"id": "C33", "title": "Secret seals are resolvable", "statement": "Each secret seal stored is later found in the set of known seals; resolving the terminals of a consignment reveals only the seals which are concealments of the stored ones.", "quantifier": "every history of stored seals and every consignment", "why_tests_cant": "unbounded histories", "anchors": ["src/persistence/stash.rs: store_secret_seal, resolve_secrets", "src/persistence/memory.rs: add_secret_seal"]}
{"id": "C34", "title": "Stock operations are atomic", "statement": "A stock operation which returns an error leaves stash, state and index as they were before.", "quantifier": "every operation body and every failure point", "why_tests_cant": "requires all interleavings of failures with provider calls", "anchors": ["src/persistence/stock.rs: store_transaction"]}
{"id": "C35", "title": "Crash leaves recoverable stores", "statement": "If the process stops between writing of the three stores, each store on disk is one of the complete old or complete new version, and which combinations can occur is known.", "quantifier": "every crash point in every sequence of stock operations", "why_tests_cant": "crash points and histories are unbounded", "anchors": ["src/persistence/stock.rs: store_transaction, Stock::store", "src/persistence/fs.rs: FsBinStore"]}
{"id": "C36", "title": "Consignments contain full history", "statement": "A transfer consignment contains genesis and, for every output it transfers, the transition defining it together with all ancestor transitions back to genesis, each with its bundle and a valid witness.", "quantifier": "every contract history graph and every set of transferred outputs", "why_tests_cant": "unbounded DAGs", "anchors": ["src/persistence/stock.rs: consign, transfer, export_contract"]}
{"id": "C37", "title": "Consignments contain nothing unrelated", "statement": "Each transition revealed in a transfer consignment is an ancestor of (or is) an operation whose output is transferred.", "quantifier": "every contract history graph", "why_tests_cant": "unbounded DAGs", "anchors": ["src/persistence/stock.rs: consign"]}
{"id": "C38", "title": "Payments conserve value", "statement": "In a composed fungible payment the sum of all spent inputs equals the invoice amount plus the change assigned back, for every split of inputs between the closing methods.", "quantifier": "all sets of inputs, amounts and close-method splits", "why_tests_cant": "all amounts, unbounded inputs", "anchors": ["src/persistence/stock.rs: compose_deterministic"]}
{"id": "C39", "title": "No payment above available state", "statement": "Composing a payment fails with insufficient state exactly when the inputs do not cover the amount, and nothing is paid.", "quantifier": "all sets of inputs and amounts", "why_tests_cant": "all amounts", "anchors": ["src/persistence/stock.rs: compose_deterministic"]}
{"id": "C40", "title": "Blank transitions preserve other contracts", "statement": "When outputs spent by a payment hold state of other contracts, for each such contract the composed batch re-assigns all the state with unchanged type, value and number of allocations.", "quantifier": "all sets of other-contract states", "why_tests_cant": "unbounded allocations over unbounded number of contracts", "anchors": ["src/persistence/stock.rs: compose_deterministic", "src/interface/builder.rs: TransitionBuilder::blank_transition"]}
{"id": "C41", "title": "Token payments preserve other tokens", "statement": "Composing a payment of a non-fungible token re-assigns back every other token of the same contract held by the spent outputs.", "quantifier": "all sets of inputs", "why_tests_cant": "unbounded allocations", "anchors": ["src/persistence/stock.rs: compose_deterministic"]}
{"id": "C42", "title": "Expired or incomplete invoices are refused", "statement": "Composing fails without any result if the invoice is expired, or names no contract or no interface.", "quantifier": "all invoices and times", "why_tests_cant": "all expiry/time pairs", "anchors": ["src/persistence/stock.rs: compose_deterministic"]}
{"id": "C43", "title": "Blinding factors are balanced", "statement": "In each operation completed by a builder the sum of blinding factors of outputs of every fungible type equals the sum over its inputs of the same type, whatever the blinding factors of the inputs and how many outputs.", "quantifier": "all inputs and outputs and blinding factors", "why_tests_cant": "cryptographic group elements; unbounded lists", "anchors": ["src/interface/builder.rs: OperationBuilder::complete"]}
{"id": "C44", "title": "Asset tags are consistent", "statement": "In a built contract every fungible state is blinded with the asset tag recorded in genesis for its type; a tag can't be changed after a fungible state of that type was added.", "quantifier": "every sequence of builder calls", "why_tests_cant": "unbounded call sequences", "anchors": ["src/interface/builder.rs: add_asset_tag_raw, init_asset_tag, add_fungible_state_raw, add_owned_state_raw"]}
{"id": "C45", "title": "Genesis seals are on supported layers", "statement": "Each seal in a built contract is on a layer 1 that the contract declares.", "quantifier": "every sequence of builder calls", "why_tests_cant": "unbounded call sequences", "anchors": ["src/interface/builder.rs: ContractBuilder::add_layer1, check_layer1, has_layer1"]}
{"id": "C46", "title": "Builders keep everything added", "statement": "A completed operation contains each global state, metadata value, input and assignment which was added to its builder.", "quantifier": "every sequence of builder calls", "why_tests_cant": "unbounded call sequences; duplicates of keys", "anchors": ["src/interface/builder.rs: OperationBuilder, TransitionBuilder::complete_transition, ContractBuilder::issue_contract_raw"]}
{"id": "C47", "title": "State type generalisation is a partial order", "statement": "The owned-state generalisation check (Any over everything, AnyData over Data, ...) is reflexive, antisymmetric and transitive, so a chain of overrides is compatible with the root interface.", "quantifier": "all triples of owned state kinds with any semantic ids", "why_tests_cant": "semantic ids are arbitrary", "anchors": ["src/interface/inheritance.rs: OwnedIface::is_superset"]}
{"id": "C48", "title": "Interface extension keeps parent guarantees", "statement": "An interface created by a (chain of) extensions has every global, assignment, valency and error of each of its parents, a required item stays required, a restricted type is never relaxed, and its list of parents contains every ancestor.", "quantifier": "all chains of extensions of any length", "why_tests_cant": "unbounded chains", "anchors": ["src/interface/inheritance.rs: Iface::extended, inherit, expect_extended"]}
{"id": "C49", "title": "Final operations are not overridden", "statement": "An operation declared final in an interface can't be overridden in any interface derived from it.", "quantifier": "all chains of extensions", "why_tests_cant": "unbounded chains", "anchors": ["src/interface/inheritance.rs: GenesisIface::extended, TransitionIface::extended, ExtensionIface::extended, Modifier"]}
{"id": "C50", "title": "Interface self-check is exact", "statement": "Iface::check reports an error exactly when some operation refers to a name that is not declared, a non-multiple item is demanded many times, a default is unknown, a required item is missing from genesis, a transition and an extension share a name, or the timestamp is invalid or in the future.", "quantifier": "all interfaces", "why_tests_cant": "unbounded structures", "anchors": ["src/interface/iface.rs: Iface::check"]}
{"id": "C51", "title": "Interface implementation check catches clashes", "statement": "IfaceImpl::check reports every name that is bound more than once, every name absent in the interface and every type absent in the schema; if it passes then each interface name resolves to exactly one schema type.", "quantifier": "all implementations, interfaces and schemata", "why_tests_cant": "unbounded structures", "anchors": ["src/interface/iimpl.rs: IfaceImpl::check, name/type lookups"]}
{"id": "C52", "title": "Abstracting an implementation keeps the parent's names", "statement": "Abstracting an implementation of a derived interface to one of its parents keeps exactly the bindings for names declared by the parent, and fails if the interface isn't derived from it.", "quantifier": "all implementations and parents", "why_tests_cant": "unbounded structures", "anchors": ["src/interface/inheritance.rs: IfaceImpl::abstracted"]}
{"id": "C53", "title": "Schema inheritance check is exact", "statement": "check_inheritance succeeds exactly when each type and operation of the schema is present with the same definition in the parent.", "quantifier": "all pairs of schemata", "why_tests_cant": "unbounded structures", "anchors": ["src/interface/inheritance.rs: CheckInheritance for Schema"]}
{"id": "C54", "title": "Assignment filters form a boolean algebra", "statement": "Including a set of outpoints selects exactly allocations on these outpoints, excluding selects exactly the rest, an absent filter selects everything.", "quantifier": "all filters and allocations", "why_tests_cant": "all sets", "anchors": ["src/interface/filter.rs"]}
{"id": "C55", "title": "Contract history classification", "statement": "In a contract history each allocation visible at wallet outputs appears in exactly one operation record: issued from genesis, received from foreign, or a change of a sent one, and amounts sent count exactly the allocations to others.", "quantifier": "all contract states and all wallet filters", "why_tests_cant": "all sets", "anchors": ["src/interface/contract.rs: ContractIface::operations, history"]}
{"id": "C56", "title": "Batches contain every transition once", "statement": "Iterating a batch yields the main and each blank transition exactly once; its closing-method set covers the method of each of them; setting priority changes only the ordering nonce of each and keeps transition ids consistent with the transitions.", "quantifier": "all batches", "why_tests_cant": "unbounded blanks", "anchors": ["src/containers/partials.rs: Batch, Dichotomy, CloseMethodSet, TransitionInfo"]}
{"id": "C57", "title": "Pairing bundles of one witness", "statement": "Combining a tapret and an opret bundle of one witness results in a double bundle with exactly these two in both orders; combining two of the same kind or a third one is refused; revealing a transition in a bundle is possible only if the bundle commits to it.", "quantifier": "all witness bundles and transitions", "why_tests_cant": "all bundles", "anchors": ["src/containers/anchors.rs: WitnessBundle::into_double, ClientBundle::reveal_transition, AnchoredBundles"]}
{"id": "C58", "title": "Indexed consignment lookups", "statement": "Every operation, bundle, and public witness contained in a consignment is returned by the lookup by its id, and lookups never return an object with a different id.", "quantifier": "all consignments", "why_tests_cant": "unbounded structures", "anchors": ["src/containers/indexed.rs"]}
{"id": "C59", "title": "Container files round-trip and are type safe", "statement": "Saving a container and loading it returns the same container; loading bytes with a different prefix or container type fails instead of misinterpreting them. The armored text of a container is read as that container, its headers say what it contains, and reading text never panics.", "quantifier": "all containers and all byte strings", "why_tests_cant": "all byte strings", "anchors": ["src/containers/file.rs: FileContent, UniversalFile", "src/containers/consignment.rs: FromStr, StrArmor", "src/containers/kit.rs: StrArmor"]}
{"id": "C60", "title": "Annotations are kept", "statement": "Annotating an item makes precisely this value returned for it, keeps all other annotations, and a failed annotation keeps what was there.", "quantifier": "every sequence of annotations", "why_tests_cant": "unbounded histories", "anchors": ["src/containers/suppl.rs: Supplement::annotate, get"]}
{"id": "C61", "title": "Global state iterators can be measured and repositioned", "statement": "The iterator over global state returned by a query yields the items in order; asking for its size returns the total number of items and doesn't move it, at any moment; resetting it to a depth makes the item at this depth the next one.", "quantifier": "all lists of items and all sequences of prev, size and reset", "why_tests_cant": "every interleaving of the calls", "anchors": ["src/persistence/memory.rs: MemContract::global, Iter"]}
{"id": "C62", "title": "Contracts and schemata are listed by interface exactly", "statement": "Listing of schemata or contracts for a class of interfaces returns precisely the known ones whose schema implements one of the interfaces or a parent it inherits from.", "quantifier": "all stash contents and interface classes", "why_tests_cant": "unbounded number of schemata, interfaces and contracts", "anchors": ["src/persistence/memory.rs: MemStash::geneses_by, schemata_by, impl_for", "src/interface/iface.rs: Iface::find_abstractable_impl"]}
{"id": "C63", "title": "Interface extension keeps parent operations", "statement": "An interface made by extensions has every operation of each of its parents, with at least the arguments the parent demands and still required if it was required there, and keeps the types of their metadata.", "quantifier": "all chains of extensions of any length", "why_tests_cant": "unbounded chains", "anchors": ["src/interface/inheritance.rs: Iface::extended, inherit, TransitionIface::extended, ExtensionIface::extended"]}
{"id": "C64", "title": "What is accepted can be used", "statement": "After a consignment or a fascia was consumed without an error, everything in it can be retrieved and used: each of its transitions is found by the operation id, its bundle is found with the contract and the witness, the stock holds the bundle, the witness transaction and its order, the genesis and the documents, each revealed assignment is in the state of the contract, and each item of global state is listed in it unless the list is as long as the schema allows; so consigning the received state again doesn't fail with a missing-data error.", "quantifier": "all stocks in any reachable state, all consignments and fascias, all resolvers", "why_tests_cant": "concerns any history of the four stores", "anchors": ["src/persistence/stock.rs: Stock::accept_transfer, import_contract, consume_fascia", "src/persistence/index.rs: IndexWriteProvider", "src/persistence/stash.rs: consume_*", "src/persistence/state.rs: update_from_*"]}
{"id": "C65", "title": "Builders refuse exactly what doesn't fit the contract", "statement": "A call to a contract or transition builder is accepted exactly if its names are known to the interface implementation, the state is of the kind and the type which the schema defines, the seal is on a declared layer, the asset tag is the one of its type and isn't redefined, metadata isn't set twice, and there is room in the collections.", "quantifier": "all sequences of calls and all next calls, with any schema, interface and implementation", "why_tests_cant": "unbounded sequences of calls", "anchors": ["src/interface/builder.rs: ContractBuilder, TransitionBuilder, OperationBuilder"]}
{"id": "C66", "title": "Composing never aborts", "statement": "Composing a payment for any invoice ends with a batch or an error, never with a panic: an invoice comes from someone else and can name anything.", "quantifier": "all invoices, stocks in any reachable state, previous outputs and wallets", "why_tests_cant": "every content of an invoice and every history of the stock", "anchors": ["src/persistence/stock.rs: Stock::compose_deterministic", "src/persistence/stash.rs: Stash::transition_builder, blank_builder", "src/containers/partials.rs: Dichotomy"]}
{"id": "C67", "title": "Ids of containers commit to their contents", "statement": "Two consignments, or two kits, have the same id only if they have the same contents; an armored text with the id of a container is read only as this container.", "quantifier": "all pairs of consignments and kits, and all data under an armored header", "why_tests_cant": "every pair of containers of any size", "anchors": ["src/containers/consignment.rs: Consignment::commit_encode, consignment_id", "src/containers/kit.rs: Kit::commit_encode, kit_id"]}
{"id": "C68", "title": "Validation reports every mismatch and changes nothing", "statement": "Validating a consignment accepts it exactly if the core validator does, returns it unchanged with what the core validator reported, and adds a warning for each mismatch: a kind other than the expected one, an implementation listed under another interface than it is for, a terminal whose bundle is missing; what is accepted has none of them.", "quantifier": "all consignments and all core validators and resolvers", "why_tests_cant": "any number of interfaces, terminals and bundles", "anchors": ["src/containers/consignment.rs: Consignment::validate", "src/containers/kit.rs: Kit::validate"]}
{"id": "C69", "title": "Tickers are compared ignoring case", "statement": "A text is accepted as a ticker exactly if it is a letter followed by up to seven letters and digits. Two tickers are equal exactly if they differ at most in the case of letters, equal tickers have equal hashes, and sorted collections treat equal tickers as one.", "quantifier": "all texts and pairs of texts, all hash functions", "why_tests_cant": "all pairs of texts", "anchors": ["src/stl/specs.rs: Ticker, PartialEq, Hash, Ord"]}
{"id": "C70", "title": "Media type text round-trip", "statement": "Every valid media type is read back from its text, different ones have different texts, and exactly the texts of media types are accepted.", "quantifier": "all media types and all texts", "why_tests_cant": "unbounded set of texts", "anchors": ["src/stl/mime.rs: MediaType::with, Display, MediaRegName, MimeChar"]}
{"id": "C71", "title": "Asset specifications keep what they are made of", "statement": "A specification of an asset or of a contract is made exactly if each of its texts is valid for its place, and it then has exactly the given ticker or article, name, details and precision; otherwise an error is returned.", "quantifier": "all texts, precisions and details", "why_tests_cant": "unbounded set of texts", "anchors": ["src/stl/specs.rs: AssetSpec::with, AssetSpec::new, ContractSpec::with, Details, Name, Article"]}
{"id": "C72", "title": "Valid consignments are accepted", "statement": "A stock with any history accepts a valid consignment, without an error and without a panic, provided that the consignment is coherent (the resolver knows the witnesses, each bundle is proved and comes with one witness, each implementation has its interface), the stock knows nothing contradicting it, and the size limits of the stores leave room for it. In particular a new wallet accepts every coherent consignment.", "quantifier": "all consignments, resolvers and histories of the stock", "why_tests_cant": "consignments of any size against every reachable state of the three stores", "anchors": ["src/persistence/stock.rs: Stock::consume_consignment", "src/persistence/stash.rs: Stash::consume_consignment, resolve_secrets", "src/persistence/state.rs: State::update_from_consignment", "src/persistence/index.rs: Index::index_consignment"]}
{"id": "C73", "title": "Transfers are accepted by other wallets", "statement": "A transfer which a wallet with any history made is accepted by every other wallet which knows nothing contradicting it and has room for it, once its contents passed validation. In particular a new wallet accepts it. All operations in it are of the contract it is for.", "quantifier": "all histories of both wallets, all outputs and secret seals", "why_tests_cant": "every pair of histories; transfers of any size", "anchors": ["src/persistence/stock.rs: Stock::transfer, Stock::consume_consignment", "src/persistence/stash.rs: Stash::consume_consignment", "src/persistence/state.rs: State::update_from_consignment", "src/persistence/index.rs: Index::index_consignment"]}
{"id": "C74", "title": "Payments arrive", "statement": "When a transfer made for a secret seal is accepted by the wallet which has the seal, all state assigned to the seal which the payer sees appears in the payee's view of the contract, at the output which the seal defines.", "quantifier": "all histories of the payer and of the payee, all seals, outputs and kinds of state", "why_tests_cant": "every pair of histories and every seal", "anchors": ["src/persistence/stock.rs: Stock::transfer, Stock::consume_consignment", "src/persistence/stash.rs: resolve_secrets", "src/containers/consignment.rs: Consignment::reveal_terminal_seals", "src/interface/contract.rs: ContractIface"]}
{"id": "C75", "title": "Exported contracts are the genesis and can be imported", "statement": "Exporting a contract always ends, and gives the genesis as the wallet has it, with nothing of the history of the contract. A contract which came completely can be exported. A new wallet accepts the export, and sees what the genesis assigns.", "quantifier": "all histories of the exporting wallet, all contracts", "why_tests_cant": "every history and every genesis", "anchors": ["src/persistence/stock.rs: Stock::export_contract, Stock::import_contract", "src/persistence/index.rs: public_opouts"]}
{"id": "C76", "title": "Contracts are opened and listed through the interfaces they implement", "statement": "In a stock which got everything it needs without errors, an imported contract is opened through each known interface which its schema implements, directly or by an inherited interface, and through no other; the best implementation is used, and what is opened is this contract with its genesis, schema and state. The contracts listed for a class of interfaces are exactly those which support it, each once. Global state read by its interface name is the stored items in order, decoded; reading it doesn't panic if the values are of the type of the schema, and unknown names are errors.", "quantifier": "all histories of the stock, contracts, interfaces, names and types", "why_tests_cant": "every history and every set of interfaces with any inheritance", "anchors": ["src/persistence/stock.rs: Stock::contract_raw, contract_iface, contract_iface_class, contracts, contracts_by", "src/persistence/memory.rs: iface, schema, genesis", "src/interface/contract.rs: ContractIface::global"]}
{"id": "C77", "title": "Exported schemata are complete and can be imported", "statement": "Exporting a schema fails only if the schema, or a type or library which it or its interfaces use, is missing, and never panics. What is exported is the schema with all its implementations, their interfaces, and exactly the types and libraries used. A new wallet imports it, has the same schema with the same implementations and interfaces, and exports the same kit again.", "quantifier": "all histories of the exporting wallet, all schemata", "why_tests_cant": "every history, any number of interfaces and implementations", "anchors": ["src/persistence/stock.rs: Stock::export_schema, Stock::import_kit", "src/persistence/stash.rs: Stash::consume_kit, extract"]}
{"id": "C78", "title": "What the state shows, the index finds", "statement": "Whenever some state of a contract is assigned to an outpoint, the contract is listed among those which assign to it, and its outputs there are found; so a payment spending the outpoint leaves no state of any contract behind.", "quantifier": "all histories of the stock, contracts, outpoints and payments", "why_tests_cant": "every history of two stores which are updated separately, including the failures between the two updates", "anchors": ["src/persistence/stock.rs: Stock::compose_deterministic, Stock::consume_consignment, Stock::consume_fascia", "src/persistence/index.rs: contracts_assigning, opouts_by_outputs, index_consignment", "src/persistence/state.rs: State::update_from_consignment"]}
{"id": "C79", "title": "State and index can be recomputed from the stash", "statement": "In a wallet which got everything without errors, all state and global state of its contracts, and everything found through its index, is of operations which the stash has, of a bundle which an anchor of a stored witness commits to for the contract. So the state and the index can be computed again from the stash if they are lost.", "quantifier": "all histories of the stock, contracts, outpoints and secret seals", "why_tests_cant": "every history of three stores which are updated separately", "anchors": ["src/persistence/mod.rs: module documentation", "src/persistence/stock.rs: Stock::consume_consignment, Stock::consume_fascia", "src/persistence/memory.rs: MemStash, MemState, MemIndex", "src/contract/merge_reveal.rs"]}
{"id": "C80", "title": "Validation reads the same state as the stock", "statement": "The contract state which is evolved operation by operation during validation gives the same answers to all reads – state of each kind, state at an output, global state with its order and bound – as the stock gives after the same operations are stored, whatever else is stored in between, when the witnesses are at the same positions; and evolving doesn't panic on operations which could be stored.", "quantifier": "all histories of the store, contracts, orders of operations and positions of witnesses", "why_tests_cant": "every history of the store with all contracts against every order of operations in the validation", "anchors": ["src/persistence/memory.rs: MemContract, ContractStateEvolve::init, ContractStateEvolve::evolve_state, MemContractWriter, StateReadProvider::contract_state"]}
{"id": "C81", "title": "A stock makes builders from what it knows", "statement": "A stock gives a builder of a contract exactly if it knows the schema, the interface, an implementation of the interface for the schema, and the types and libraries they use; the builder then works with exactly these documents. It gives a builder of a transition exactly if it knows the contract and the same about its schema, and the operation is one which the implementation has; the builder is for this operation and has the asset tags of the contract. For a blank transition any implementation of the schema will do, with its own interface. Everything else is an error and not a panic.", "quantifier": "all histories of the stock, schemata, contracts, interfaces by name or id, and operations", "why_tests_cant": "every history of the stock and every request", "anchors": ["src/persistence/stock.rs: Stock::contract_builder, transition_builder, blank_builder", "src/persistence/stash.rs: Stash::contract_builder, transition_builder, blank_builder, extract"]}
{"id": "C82", "title": "An issued contract imported into the wallet shows what was given to the builder", "statement": "A contract issued with a builder of a stock is accepted by this stock if it has room. It then shows, for each state type and visible seal given to the builder, exactly the state given last, at the output of the seal and without a witness, and the global state given, the last first, up to the limits of the schema. Nothing but the genesis is added to the stash. Through the interface of the builder, transitions of each of its operations can be built, with the asset tags of the genesis.", "quantifier": "all histories of the stock, schemata, interfaces and sequences of calls of the builder", "why_tests_cant": "every history and every sequence of calls, with any number of types, seals and values", "anchors": ["src/persistence/stock.rs: Stock::contract_builder, import_contract, transition_builder", "src/interface/builder.rs: ContractBuilder, issue_contract", "src/persistence/memory.rs: MemContract, register_contract"]}
{"id": "C83", "title": "An interrupted acceptance can be repeated", "statement": "If the process is stopped while a consignment, or the own transitions with their witness, are being accepted, then the stock loaded afterwards accepts them again, and comes to the same contents as if nothing had been interrupted.", "quantifier": "all histories of the stock, consignments, fascias, crash points between the writes of stores and answers of the resolver at both times", "why_tests_cant": "every history and every crash point, with a resolver which may have changed in between", "anchors": ["src/persistence/stock.rs: Stock::consume_consignment, consume_fascia, store_transaction", "src/persistence/memory.rs: MemIndex, MemState", "src/persistence/index.rs: index_consignment, index_bundle", "src/persistence/state.rs: update_from_consignment, update_from_bundle"]}
{"id": "C84", "title": "Accepting twice is the same as accepting once", "statement": "A wallet which accepted a consignment, the own transitions with their witness, or a kit, and gets the same again, accepts it again; its stash and its index don't change, its state is what accepting once with the present positions of witnesses gives, and nothing at all changes if the positions are the same. So after a crash at any point of saving, the consignment can be accepted again without knowing how far the first attempt got.", "quantifier": "all histories of the stock, consignments, fascias, kits, crash points and answers of the resolver at both times", "why_tests_cant": "every history and every content, with merges of everything which is stored with what comes again", "anchors": ["src/persistence/stock.rs: Stock::consume_consignment, consume_fascia", "src/persistence/stash.rs: consume_kit, consume_consignment, consume_fascia", "src/persistence/memory.rs: MemStash (StashWriteProvider)", "src/contract/merge_reveal.rs", "src/containers/anchors.rs: SealWitness::merge_reveal"]}
{"id": "C85", "title": "What was received can be passed on", "statement": "After a wallet accepted a transfer made by any other wallet, and the witnesses are valid, it can transfer what was paid to it further: making a transfer of outputs of the payment, or of anything it depends on, succeeds, for a history of any depth. The same holds for outputs of own transitions which spend such outputs.", "quantifier": "all histories of the payer and of the payee, transfers, and requested outputs", "why_tests_cant": "every pair of histories and every transaction graph behind the payment, of any depth and shape", "anchors": ["src/persistence/stock.rs: Stock::transfer, consign, accept_transfer, consume_fascia", "src/persistence/index.rs", "src/persistence/stash.rs: consume_consignment"]}
{"id": "C86", "title": "Listings describe what is stored", "statement": "Whatever happened to a stock, it lists each interface, schema and contract it knows exactly once and with its own data; an implementation with the name of its interface, which is listed too. An inherited interface is shown so that the reference leads to it; the class and features named by supplements are shown; the time is that of the document. What is listed stays listed. A listed contract has its schema listed.", "quantifier": "all histories of the stock (with failures), documents, supplements and times of listing", "why_tests_cant": "every history, with any number of interfaces, versions and supplements in any order", "anchors": ["src/info.rs: IfaceInfo, SchemaInfo, ImplInfo, ContractInfo", "src/persistence/stock.rs: Stock::ifaces, schemata, contracts, contract_info"]}
{"id": "C87", "title": "The text of an interface determines what it declares", "statement": "Two interfaces whose displayed texts are equal, with the id at the top left out of account, declare the same: version, developer, time, name, inherited interfaces, metadata, global and owned state with requirements and types, valencies, errors, and every operation with its modifier, arguments and counts, inputs or redeemed valencies, default assignment and whether it is required or the default operation. Every declaration of state, valency or operation is in a line of its own, with the mark for how many there may be.", "quantifier": "all interfaces, all names and ids, any sets of known names of interfaces and types", "why_tests_cant": "equality of texts over all pairs of interfaces of any size; needs that no two different lists of declarations can be printed in the same way", "anchors": ["src/interface/contractum.rs: IfaceDisplay, OpIfaceDisplay, ArgMapDisplay", "src/interface/iface.rs: Iface::display"]}
{"id": "C88", "title": "Specifications read from contract state are those which are stored there", "statement": "A media type, asset specification, contract specification, attachment, terms, proof of reserves, amount, precision, name or details is read from a value of contract state exactly if the value has it, field by field and through any newtypes, and it is a proper one, keeping all limits of its type. So what a contract stores is read back as it was, and a value which isn't proper is a panic, never another specification.", "quantifier": "all values of contract state and all specifications", "why_tests_cant": "every value, with any fields in any order and any depth of newtypes, and every text, precision and digest", "anchors": ["src/stl/specs.rs: AssetSpec, ContractSpec, Attachment, ContractTerms, Name, Details: from_strict_val_unchecked", "src/stl/mime.rs: MediaType::from_strict_val_unchecked", "src/stl/chain.rs: ProofOfReserves::from_strict_val_unchecked", "invoice/src/amount.rs: Amount, Precision: from_strict_val_unchecked", "invoice/src/data.rs: OwnedFraction::from_strict_val_unchecked"]}
{"id": "C89", "title": "A composed payment arrives, to the last unit", "statement": "An invoice asks for an amount of a contract, to be paid to a secret seal. A wallet composes the payment; the transitions made for it are put into a transaction and the wallet consumes the fascia with them, and may do anything more without errors. Then it can make a transfer with this seal, and a wallet which has the seal, has not got the state before and accepts the transfer sees, at the outputs which the seal defines, allocations of the invoiced type which sum up to exactly the invoiced amount. This holds for any histories of both wallets, as long as the witnesses are not archived.", "quantifier": "all histories of the payer and the payee, all contracts, invoices for an amount to a secret seal, outputs spent, fasciae and later events", "why_tests_cant": "it needs that the composing, the consuming, the making of the transfer and the accepting fit together for every pair of histories, and no amount is lost between any of them", "anchors": ["src/persistence/stock.rs: Stock::compose, Stock::consume_fascia, Stock::transfer, Stock::consume_consignment, Stock::accept_transfer", "src/persistence/memory.rs: MemIndex::index_bundle, MemIndex::extend_terminals", "src/interface/contract.rs: ContractIface"]}
{"id": "C90", "title": "Nothing stored outgrows its storage format", "statement": "Whatever is given to a stock in whatever order, succeeding or failing, none of its collections gets more items than the format it is stored in can hold: 255 schemata, interfaces, geneses, implementations of one schema, supplemented contents, supplements of one content, contracts, witnesses of a bundle and outputs under one secret, and 1 to 10 signatures under one content. And an update is refused for a lack of room only if there is none: some of the collections is full, or a secret would hide more than 255 outputs.", "quantifier": "all histories of the stock (with failures), all kits, consignments and fasciae", "why_tests_cant": "the limits are reached only by long histories, in many collections and through many calls", "anchors": ["src/persistence/memory.rs: MemStash, MemState, MemIndex", "src/containers/util.rs: ContentSigs"]}
{"id": "C91", "title": "The payer keeps the change, and payments to outputs of the transaction arrive", "statement": "After a transaction paying an invoice for an amount is made and its fascia is consumed, the payer sees, at the output chosen for the change, allocations which sum up to exactly what was spent less what was invoiced. If the invoice asks to be paid to an output of this transaction, then the payer sees the invoiced amount there, and a wallet which accepts a transfer of this output sees it there as well, whatever it knew before. In general, each visible assignment to an output of the witness transaction itself is in the contract state with this witness, after anything more happens, and is shown exactly as long as the witness is valid.", "quantifier": "all histories of the payer and the payee, all contracts, invoices for an amount, outputs spent, fasciae, consignments and later events", "why_tests_cant": "it relates amounts before and after for every history, every allocation of the outputs by the wallet and every order of witnesses", "anchors": ["src/persistence/stock.rs: Stock::compose, Stock::consume_fascia, Stock::transfer, Stock::consume_consignment", "src/persistence/state.rs: StateProvider::update_from_bundle", "src/persistence/memory.rs: MemIndex::index_transition_assignments, MemContractState::add_transition", "src/contract/assignments.rs: OutputAssignment::with_witness"]}
{"id": "C92", "title": "What is not paid is kept, and a paid token arrives", "statement": "Composing a payment spends, for each contract with state at the spent outputs, all of that state exactly once. All of it which is of another type than the invoiced one, or of another contract, is given on to the outputs which the wallet chose for it: after the transaction is made and its fascia is consumed, the payer sees there the same amounts, rights and data as before, nothing less and nothing more. An invoice for a token pays this very token: to a secret seal (the payee who has the seal and accepts a transfer sees it at the output the seal defines) or to an output of the transaction (the payer and whoever accepts a transfer of the output see it there).", "quantifier": "all histories of the payer and the payee, all contracts and types of state, all invoices, outputs spent, fasciae and later events", "why_tests_cant": "losing a foreign contract's state, or moving it to a wrong type or output, shows up only for combinations of contracts, types and outputs; it must not happen for any of them", "anchors": ["src/persistence/stock.rs: Stock::compose, Stock::consume_fascia, Stock::transfer, Stock::consume_consignment", "src/interface/builder.rs: TransitionBuilder", "src/persistence/memory.rs: MemIndex, MemContractState::add_transition"]}
{"id": "C93", "title": "A payment within the wallet's means is composed", "statement": "Composing a payment succeeds if the invoice names a contract and an interface known to the stock and isn't expired, the wallet names an output exactly for an invoice with an address, the state of the contract at the given outputs covers the invoiced amount (or has the invoiced token), and all state at these outputs, of this contract and of others, can be moved: it is defined by its contract, at most 255 allocations of a contract, none of them twice, and there are builders for the blank transitions. There is no other reason to fail; the amounts which can be paid are exactly those up to the sum at the outputs, and the tokens which can be paid are those at the outputs.", "quantifier": "all stocks, wallets, invoices, sets of outputs, orders in which hashed collections are visited", "why_tests_cant": "a failure could come from any combination of closing methods, types of state, splits of the amount and contracts at the outputs; success must be shown for all of them", "anchors": ["src/persistence/stock.rs: Stock::compose, Stock::compose_deterministic, Stock::transition_builder, Stock::blank_builder", "src/interface/builder.rs: TransitionBuilder, OperationBuilder", "src/containers/partials.rs: TransitionInfo, Batch"]}
{"id": "C94", "title": "The fascia of a payment is accepted", "statement": "A stock accepts a fascia exactly if the fascia is coherent (the resolver knows its transaction if there is any transition, visible seals are on outputs of a transaction, no bundle is given for two contracts and no transition in two bundles) and it contradicts nothing in the stock (its contracts are known with the global state it adds to, bundles and transitions aren't known to belong elsewhere, and the witness agrees with the known one), as long as the index has room for it. In particular, for a wallet which has refused nothing, the transitions of any payment it composes, put into bundles with a new transaction on the blockchain of the invoice, make a fascia which the wallet accepts.", "quantifier": "all histories of the stock, all fasciae and resolvers; all payments, wallets and invoices", "why_tests_cant": "one missing record in any of the three stores, for any combination of contracts and bundles, makes a wallet refuse its own payment after the transaction was made", "anchors": ["src/persistence/stock.rs: Stock::consume_fascia, Stock::compose", "src/persistence/memory.rs: MemIndex::register_bundle, MemIndex::index_bundle, MemState::update_bundle", "src/persistence/state.rs: StateProvider::update_from_bundle", "src/persistence/stash.rs: Stash::consume_witness"]}
{"id": "C95", "title": "An invoice within the payer's means is paid, end to end", "statement": "A wallet without errors in its history, whose documents and histories are complete and whose interfaces have different names, gets an invoice for an amount of a contract (or a token), to a secret seal of the payee. If the state at the given outputs covers it, then the payment is composed; the fascia made of it with a new, valid transaction is accepted by the wallet; the wallet makes a transfer with the seal, containing only operations of the contract; and every payee who has the seal and nothing contradicting the transfer accepts it (its contents being valid) and then sees allocations of the invoiced type at the outputs the seal defines, which sum up to exactly the invoiced amount. The same holds for an invoice for a token: the payee sees this very token. And for an invoice with an address: the payment is to an output of the payer's transaction, the transfer is one of this output, and the payee sees the state exactly there.", "quantifier": "all histories of the payer and the payee, all contracts, invoices for an amount or a token to a secret seal or to an address, outputs spent, fasciae made of the payment", "why_tests_cant": "each of the four steps depends on records which earlier steps left in three stores; a record missing for any combination of histories, contracts and closing methods breaks the chain after the money was committed", "anchors": ["src/persistence/stock.rs: Stock::compose, Stock::consume_fascia, Stock::transfer, Stock::consume_consignment", "src/persistence/memory.rs: MemIndex, MemState, MemStash", "src/interface/builder.rs: TransitionBuilder"]}
{"id": "C96", "title": "State comes only from what was accepted", "statement": "Whatever happened to a wallet, failures included: each allocation of a contract it has was made by an operation of this contract which was in a consignment or a fascia given to it, with the same state, kind of state, output and witness; each item of global state was declared by such an operation. An allocation whose seal was hidden in that operation is there only if the wallet made the seal itself. Contracts of which no consignment was given have no state. Likewise each state and each seal shown by a stored genesis or transition, or by one in a transfer or an exported contract, was shown by an operation given to the wallet, or is a seal the wallet made.", "quantifier": "all histories of the stock, with any failures, and all contracts, types of state, operations and seals", "why_tests_cant": "state which nobody gave, or of another contract or type, or with another owner, could come from any combination of partly consumed consignments, seals revealed and witnesses updated", "anchors": ["src/persistence/stock.rs: Stock::consume_consignment, Stock::consume_fascia, Stock::update_witnesses, Stock::store_secret_seal", "src/persistence/state.rs: StateProvider::update_from_bundle, StateProvider::update_from_consignment", "src/persistence/memory.rs: MemContractState::add_operation, MemContract", "src/containers/consignment.rs: Consignment::reveal_terminal_seals"]}
{"id": "C97", "title": "What was received can be spent again, without end", "statement": "Take wallets which exchange state by this library alone: each starts empty, imports contracts (a genesis with its documents, conforming to the schema), makes secret seals, updates witnesses, imports kits, pays invoices (composes a payment, consumes a fascia made of it) and accepts transfers which such wallets made. Then, however long this goes on: all state a wallet has at any outputs is of types and with asset tags which the documents it has define, and came with its history back to the genesis. So if an invoice is one the owner can afford (enough state of the contract at the outputs, at most 255 allocations, seals for change), nothing else is missing: it is composed, the fascia is accepted, a transfer to the new secret seal is made while the witnesses of the contract are valid, any such wallet with the seal accepts it if nothing contradicts and there is room, and sees exactly the invoiced amount or token; and both wallets are again such wallets. All outputs which the index finds for a contract can be transferred, too.", "quantifier": "all networks of wallets, all sequences of issues, payments and transfers between them of any length, all invoices, outputs and secret seals", "why_tests_cant": "a defect in what is stored, transferred or resolved at one hop (documents, asset tags, anchors, earlier transitions) may show only when the state is spent some hops later, by another wallet; no test covers all sequences of hops", "anchors": ["src/persistence/stock.rs: Stock::compose, Stock::consume_fascia, Stock::transfer, Stock::accept_transfer, Stock::import_contract, Stock::consign", "src/persistence/stash.rs: Stash::resolve_secrets, Stash::consume_consignment", "src/interface/builder.rs: TransitionBuilder", "src/containers/consignment.rs: Consignment"]}
{"id": "C98", "title": "Wallets of a network never contradict each other", "statement": "Take wallets which exchange state by this library alone, as in C97. Then, however long this goes on, what any two of them know of the same bundle, transition or witness transaction is the same: the contract of the bundle, the bundle of the transition, and, for each closing method, the proof and Merkle root of the commitment in the transaction. So no wallet ever refuses a transfer of another one (or its own) for contradicting what it has: if the contents of the transfer are valid, the secret seals of the wallet can be on the chains of the witnesses and there is room, the transfer is accepted, and the wallet is again such a wallet. With this, an invoice which its payer can afford is paid to any wallet of the network, at a secret seal or at an output of the new transaction: it sees exactly the invoiced amount or token there.", "quantifier": "all networks of wallets, all sequences of issues, payments and transfers between them, of any length and in any order, all pairs of wallets, all transfers", "why_tests_cant": "a contradiction would need two wallets which got parts of the same transaction's data on different ways (own payment, transfers by different peers, of different contracts) and merged them in different orders", "anchors": ["src/persistence/stock.rs: Stock::transfer, Stock::consign, Stock::accept_transfer, Stock::consume_fascia", "src/persistence/stash.rs: Stash::consume_consignment, Stash::consume_witness", "src/containers/anchors.rs: SealWitness, AnchorSet", "src/persistence/memory.rs: MemIndex::register_bundle, MemIndex::register_operation"]}
{"id": "C99", "title": "Restarting keeps what was acknowledged and undoes what was refused", "statement": "A wallet works on a stock saved in files, and may be restarted between any calls. After calls which succeeded, with any restarts in between, the stock is the same as without restarts, and the files have it. If a call fails, with an error or by a panic, then after a restart the wallet is exactly as before the call, whatever the call has left in memory. So a wallet restarted after every error has, for any calls whatsoever, what was accepted and nothing of what was refused: its history is one without errors.", "quantifier": "all sequences of calls, errors, panics, savings and restarts, all contents of consignments, fascias and kits", "why_tests_cant": "what a failed call leaves in memory depends on its contents and on the point of failure, and when it gets to a file on which calls follow; no test covers all such histories", "anchors": ["src/persistence/stock.rs: Stock::load, Stock::store, Stock::store_transaction, Stock::import_kit, Stock::update_witnesses", "src/persistence/memory.rs: StoreTransaction for MemStash, MemState, MemIndex, MemStash::set_trust", "src/persistence/fs.rs: FsBinStore"]}
{"id": "C100", "title": "Nobody gets more than was issued", "statement": "A payment composed by this library never assigns more of any type of state of any contract than it spends: not in amounts, not in allocations of any one token, not in rights or files, whatever is invoiced, whichever outputs are spent and whether or not sums overflow or seals coincide. So take wallets which exchange state by this library alone, as in C97, however long: if no output of an operation was spent by two transitions, then everything which these wallets have of a contract and is not spent sums up, over all of them together, to no more than the genesis of the contract issued.", "quantifier": "all networks of wallets, all sequences of issues, payments and transfers between them of any length, all sets of wallets, contracts, types of state and distinct unspent outputs", "why_tests_cant": "inflation could come from any payment, from splitting an amount over closing methods, from change, from blank transitions of other contracts or from state kept twice by any of the wallets, at any time of the history", "anchors": ["src/persistence/stock.rs: Stock::compose, Stock::consume_fascia, Stock::transfer, Stock::accept_transfer", "src/interface/builder.rs: TransitionBuilder, OperationBuilder::complete_assignments", "src/persistence/memory.rs: MemContractState::add_operation", "src/interface/contract.rs: ContractIface"]}
{"id": "C101", "title": "Nothing is lost", "statement": "Take wallets which exchange state by this library alone, as in C97, a contract and a type of state. Suppose that each payment was composed with care: the sum spent is a 64-bit number and the change doesn't go where the beneficiary is paid, no other state of a token's type is at the spent outputs when a token is paid, and each state which is only moved gets a place of its own. Then each transition assigns exactly as much of the type as it spends; and everything which is at outputs not spent, to the knowledge of these wallets, sums up to at least as much as the genesis issued, and to exactly as much if no output was spent twice.", "quantifier": "all networks of wallets, all sequences of issues, payments and transfers between them of any length, all sets of wallets, contracts, types of state and kinds of quantities", "why_tests_cant": "value could get lost in any payment, when an amount is split over closing methods, in change, in blank transitions of other contracts or in wallets merging or transferring histories, at any time", "anchors": ["src/persistence/stock.rs: Stock::compose, Stock::consume_fascia, Stock::transfer, Stock::accept_transfer", "src/interface/builder.rs: TransitionBuilder, OperationBuilder::complete_assignments", "src/persistence/memory.rs: MemContractState::add_operation"]}
{"id": "C102", "title": "Wallets of a network agree on the state", "statement": "Take wallets which exchange state by this library alone, as in C97, where no bundle is committed to by two transactions. If two of them have an allocation for the same output of an operation, it is the same in both: kind, state, owner (seal) and witness. Each allocation which an operation shown to a wallet makes openly is in the wallet's contract state, and is listed if and only if the wallet takes the witness for valid; so what one wallet lists is listed, the same, by every wallet which was shown the operation openly and takes the witness for valid, whatever else they did and in whatever order. Global state of the same operation, type and number has the same value in any two wallets, and items which both list are listed in the same order.", "quantifier": "all pairs of wallets of all networks, all histories, in any order, all contracts, kinds of state and outputs", "why_tests_cant": "different wallets get the same operation on different ways, in different orders, with different parts disclosed, and store the first they get; no test covers all pairs of histories", "anchors": ["src/persistence/memory.rs: MemContractState::add_operation, MemContract", "src/persistence/state.rs: StateProvider::update_from_bundle, StateProvider::update_from_consignment", "src/persistence/stock.rs: Stock::contract_iface, Stock::accept_transfer, Stock::consume_fascia", "src/interface/contract.rs: ContractIface"]}
{"id": "C103", "title": "Transactions which spend no output twice let no state be spent twice", "statement": "Take wallets which exchange state by this library alone, as in C102, and suppose that each payment is made as composed: by a transaction which spends the outputs listed in the batch, with bundles of the listed closing methods. Then wherever any wallet shows state which a transition, brought to any of the wallets on any way, spends, the output there is spent by the very transaction which the transition came with, and the seal's closing method is the one of its bundle. Since an output of the chain is spent by one transaction only, no state is spent by two transitions. So what all these wallets together show at outputs which no transaction spends sums up to no more than the genesis issued, and, if payments are composed with care as in C101, what no transition spends sums up to exactly as much.", "quantifier": "all networks of wallets, all sequences of issues, payments and transfers between them of any length, all sets of wallets, contracts, types of state and outputs", "why_tests_cant": "a double spend would need two payments, possibly of two wallets, which list other outputs or closing methods than those of the state they spend; it depends on the whole history what state is at an output", "anchors": ["src/persistence/stock.rs: Stock::compose, Stock::consume_fascia, Stock::transfer, Stock::accept_transfer", "src/containers/partials.rs: Batch, TransitionInfo, Fascia", "src/persistence/memory.rs: MemContractState::add_operation"]}
{"id": "C104", "title": "Wallets which see the same chain list the same state", "statement": "Take wallets which exchange state by this library alone, as in C102. After a wallet updates all its witnesses, it lists an allocation which an operation shown to it makes openly if and only if the resolver says that the witness isn't archived (always, for the genesis), whatever the wallet believed before and however it got the operation. So two wallets with any histories, which both update by the same resolver, list the same allocation, or both none, for each output of an operation which both were shown openly.", "quantifier": "all pairs of wallets of all networks, all histories, reorganisations and resolvers, all contracts, kinds of state and outputs", "why_tests_cant": "a wallet could keep a stale view of a witness, or an allocation with another witness, after some order of updates, reorganisations and acceptances; no test covers all pairs of histories", "anchors": ["src/persistence/stock.rs: Stock::update_witnesses", "src/persistence/memory.rs: MemState::update_witnesses, MemContract", "src/persistence/state.rs: StateProvider"]}
{"id": "C105", "title": "What the anchors of witnesses commit to can be read back", "statement": "The tapret commitments which a stock lists are exactly the Merkle roots and proofs of the tapret anchors of the witnesses in it, each witness once. Once listed they stay listed, and the same, whatever happens later. After a fascia with a tapret anchor is consumed, its commitment is listed; so is one for each transaction which a bundle of the tapret method came with. In networks of wallets as in C97, what any wallet lists for a transaction is what the transaction commits to. The bundle ids which a set of anchors lists as known are exactly those of the bundles which one of the anchors knows.", "quantifier": "all histories of all stocks, all witnesses and anchors, all networks", "why_tests_cant": "anchors of a witness get merged in any order by fascias and consignments over the whole history, with different parts revealed", "anchors": ["src/persistence/memory.rs: StashReadProvider::taprets, MemStash::consume_witness", "src/containers/anchors.rs: AnchorSet::known_bundle_ids, AnchorSet::merge_reveal"]}
{"id": "C106", "title": "Values which compare equal have equal contents", "statement": "Comparing two values tells whether they are the same: equality is reflexive, symmetric and transitive, the order is a total one whose equality it is, and equal values have equal hashes. This concerns witness transactions and the entries of consignments with them, transitions and batches, interfaces, implementations and their fields, allocations, and consignments, kits and fascias, which compare equal exactly if they have the same contents.", "quantifier": "all pairs and triples of values of each type", "why_tests_cant": "laws of comparisons quantify over all pairs and triples of values; tests compare a few, mostly ones which differ in what is compared", "anchors": ["src/containers/anchors.rs: PartialEq, Ord for PubWitness and WitnessBundle", "src/containers/partials.rs: PartialEq, Ord, Hash for TransitionInfo, PartialEq for Batch and Fascia", "src/containers/consignment.rs: PartialEq for Consignment", "src/containers/kit.rs: PartialEq for Kit", "src/interface/iface.rs: PartialEq, Ord, Hash for Iface", "src/interface/iimpl.rs: PartialEq for NamedField, NamedVariant, NamedType and IfaceImpl", "src/contract/assignments.rs: PartialEq, Ord, Hash for OutputAssignment"]}
