{
 "claims": [
  {
   "property": "C01",
   "status": "proved",
   "theorems": [
    "Rgb.Props.C01_amount_text_roundtrip",
    "Rgb.Props.C01_amount_text_injective",
    "Rgb.Props.C01_amount_text_shape",
    "Rgb.Props.C01_amount_parse_domain",
    "Rgb.Props.C01_amount_parse_rejects"
   ],
   "note": ""
  },
  {
   "property": "C02",
   "status": "proved",
   "theorems": [
    "Rgb.Props.C02_amount_ops",
    "Rgb.Props.C02_amount_sum",
    "Rgb.Props.C02_amount_sum_perm",
    "Rgb.Props.C02_fraction_ops"
   ],
   "note": ""
  },
  {
   "property": "C03",
   "status": "proved",
   "theorems": [
    "Rgb.Props.C03_split",
    "Rgb.Props.C03_floor_ceil_rem",
    "Rgb.Props.C03_round",
    "Rgb.Props.C03_round_no_overflow",
    "Rgb.Props.C03_convert",
    "Rgb.Props.C03_coin_amount_value",
    "Rgb.Props.C03_coin_amount_with"
   ],
   "note": ""
  },
  {
   "property": "C04",
   "status": "partial",
   "theorems": [
    "Rgb.Props.C04_coin_alternate_roundtrip_partial",
    "Rgb.Props.C04_coin_display_roundtrip_partial",
    "Rgb.Props.C04_coin_display_roundtrip_fails",
    "Rgb.Props.C04_alternate_indivisible_fails"
   ],
   "note": "see the docstrings of the _partial/_fails theorems: exact class of values for which the text round-trips, and a counterexample"
  },
  {
   "property": "C05",
   "status": "proved",
   "theorems": [
    "Rgb.Props.C05_allocation_roundtrip",
    "Rgb.Props.C05_allocation_domain",
    "Rgb.Props.C05_allocation_needs_at",
    "Rgb.Props.C05_allocation_data_roundtrip"
   ],
   "note": ""
  },
  {
   "property": "C06",
   "status": "partial",
   "theorems": [
    "Rgb.Props.C06_invoice_text_roundtrip_partial",
    "Rgb.Props.C06_invoice_text_injective_partial",
    "Rgb.Props.C06_invoice_text_roundtrip_fails",
    "Rgb.Props.C06_comma_in_host_fails",
    "Rgb.Props.C06_builder_with_contract_only_fails",
    "Rgb.Props.C06_escapes",
    "Rgb.Props.C06_scheme",
    "Rgb.Props.C06_query",
    "Rgb.Props.C06_path",
    "Rgb.Props.C06_ignored"
   ],
   "note": "the round trip holds exactly for well-formed invoices (iff); counterexamples for operation/assignment names, commas in hosts and contract-only invoices. C06_query says which of several parameters with the same key counts, C06_path what each part of the path is read as, C06_ignored what has no effect."
  },
  {
   "property": "C07",
   "status": "partial",
   "theorems": [
    "Rgb.Props.C07_prefix_distinct",
    "Rgb.Props.C07_prefix_roundtrip_partial",
    "Rgb.Props.C07_prefix_roundtrip_fails",
    "Rgb.Props.C07_prefix_domain_partial",
    "Rgb.Props.C07_beneficiary_network_partial",
    "Rgb.Props.C07_wrap_network",
    "Rgb.Props.C07_prefix_network",
    "Rgb.Props.C07_bitcoin_network",
    "Rgb.Props.C07_bitcoin_prefix"
   ],
   "note": "Liquid mainnet prefix doesn't parse back to itself: witness; all other networks proved"
  },
  {
   "property": "C08",
   "status": "proved",
   "theorems": [
    "Rgb.Props.C08_transport_roundtrip",
    "Rgb.Props.C08_transport_domain",
    "Rgb.Props.C08_transport_rejects"
   ],
   "note": ""
  },
  {
   "property": "C09",
   "status": "partial",
   "theorems": [
    "Rgb.Props.C09_query_no_injection",
    "Rgb.Props.C09_query_decode_partial",
    "Rgb.Props.C09_query_decode_fails",
    "Rgb.Props.C09_invoice_query"
   ],
   "note": "no injection is proved; decoding fails to restore texts with percent signs: witness and exact class"
  },
  {
   "property": "C10",
   "status": "proved",
   "theorems": [
    "Rgb.Props.C10_payload_roundtrip",
    "Rgb.Props.C10_payload_rejects",
    "Rgb.Props.C10_payload_exact"
   ],
   "note": ""
  },
  {
   "property": "C11",
   "status": "proved",
   "theorems": [
    "Rgb.Props.C11_call_exact",
    "Rgb.Props.C11_builder_history",
    "Rgb.Props.C11_builder_transports",
    "Rgb.Props.C11_amount_approx",
    "Rgb.Props.C11_constructors"
   ],
   "note": ""
  },
  {
   "property": "C12",
   "status": "proved",
   "theorems": [
    "Rgb.Props.C12_merge_keeps_disclosed"
   ],
   "note": ""
  },
  {
   "property": "C13",
   "status": "proved",
   "theorems": [
    "Rgb.Props.C13_merge_idempotent",
    "Rgb.Props.C13_merge_commutative",
    "Rgb.Props.C13_merge_associative",
    "Rgb.Props.C13_merge_any_order"
   ],
   "note": ""
  },
  {
   "property": "C14",
   "status": "proved",
   "theorems": [
    "Rgb.Props.C14_distinct_ops_not_merged",
    "Rgb.Props.C14_distinct_witnesses_not_merged",
    "Rgb.Props.C14_sequence_with_stranger_refused"
   ],
   "note": ""
  },
  {
   "property": "C15",
   "status": "partial",
   "theorems": [
    "Rgb.Props.C15_bundle_merge_partial",
    "Rgb.Props.C15_bundle_merge_fails"
   ],
   "note": "false of the code: transitions known only by the second bundle are dropped (witness); proved: id, success, all transitions of the first with merged disclosure, exact set of transitions of the result"
  },
  {
   "property": "C16",
   "status": "partial",
   "theorems": [
    "Rgb.Props.C16_witness_merge_partial",
    "Rgb.Props.C16_witness_merge_fails"
   ],
   "note": "false of the code: (full tx, txid only) of the same txid errors with TxidMismatch (witness for every tx); proved: exact condition of success and that the tx is kept whenever the merge succeeds"
  },
  {
   "property": "C17",
   "status": "proved",
   "theorems": [
    "Rgb.Props.C17_anchors_merge",
    "Rgb.Props.C17_anchors_merge_total"
   ],
   "note": ""
  },
  {
   "property": "C18",
   "status": "proved",
   "theorems": [
    "Rgb.Props.C18_reveal_op",
    "Rgb.Props.C18_reveal_witness_bundle",
    "Rgb.Props.C18_reveal_terminals",
    "Rgb.Props.C18_forms",
    "Rgb.Props.C18_listed"
   ],
   "note": ""
  },
  {
   "property": "C19",
   "status": "proved",
   "theorems": [
    "Rgb.Props.C19_indexed_ops_resolvable"
   ],
   "note": ""
  },
  {
   "property": "C20",
   "status": "proved",
   "theorems": [
    "Rgb.Props.C20_one_contract_per_bundle",
    "Rgb.Props.C20_one_bundle_per_operation"
   ],
   "note": ""
  },
  {
   "property": "C21",
   "status": "partial",
   "theorems": [
    "Rgb.Props.C21_lookup_by_outputs_partial",
    "Rgb.Props.C21_contracts_assigning",
    "Rgb.Props.C21_lookup_by_outputs_fails"
   ],
   "note": "Exact up to: of several seals on one outpoint with different closing methods only the first is found (negation proved in C21_lookup_by_outputs_fails); an outpoint without state makes the whole lookup an error."
  },
  {
   "property": "C22",
   "status": "partial",
   "theorems": [
    "Rgb.Props.C22_lookup_by_terminals_partial",
    "Rgb.Props.C22_revealed_fails",
    "Rgb.Props.C22_overflow_fails"
   ],
   "note": "Exact for outputs indexed with a hidden seal and no size overflow. Negations proved: outputs with a revealed seal are not found; the 256th output on a secret seal makes the whole set disappear."
  },
  {
   "property": "C23",
   "status": "partial",
   "theorems": [
    "Rgb.Props.C23_output",
    "Rgb.Props.C23_state_queries_partial",
    "Rgb.Props.C23_state_queries_single_witness_partial",
    "Rgb.Props.C23_genesis_state",
    "Rgb.Props.C23_state_at_outpoint",
    "Rgb.Props.C23_reanchored_fails"
   ],
   "note": "Exact characterisation for every history (first-adding call wins); the property in full if no operation is added with two witnesses; genesis state always visible. Negation for re-anchored operations proved in C23_reanchored_fails."
  },
  {
   "property": "C24",
   "status": "partial",
   "theorems": [
    "Rgb.Props.C24_reorg_safety_partial",
    "Rgb.Props.C24_global_state_fails"
   ],
   "note": "Proved for owned state and any sequence of updates; false for global state of an archived witness (C24_global_state_fails)."
  },
  {
   "property": "C25",
   "status": "partial",
   "theorems": [
    "Rgb.Props.C25_update_witnesses_partial",
    "Rgb.Props.C25_succeeded_fails"
   ],
   "note": "Everything except the success count, which also counts failures (C25_succeeded_fails)."
  },
  {
   "property": "C26",
   "status": "partial",
   "theorems": [
    "Rgb.Props.C26_readding",
    "Rgb.Props.C26_order_partial",
    "Rgb.Props.C26_order_fails"
   ],
   "note": "Repeating proved in full; order independence proved when an operation comes with one witness and a witness with one position; false otherwise (C26_order_fails)."
  },
  {
   "property": "C27",
   "status": "partial",
   "theorems": [
    "Rgb.Props.C27_listed_partial",
    "Rgb.Props.C27_global_state_partial",
    "Rgb.Props.C27_order_partial",
    "Rgb.Props.C27_most_recent_fails"
   ],
   "note": "Bound, contents, completeness below the limit and undeclared types proved; the order is by operation id and, within an operation, by decreasing number (C27_listed_partial), not by position (C27_most_recent_fails)."
  },
  {
   "property": "C28",
   "status": "proved",
   "theorems": [
    "Rgb.Props.C28_consignment_calls",
    "Rgb.Props.C28_all_accepted"
   ],
   "note": ""
  },
  {
   "property": "C29",
   "status": "proved",
   "theorems": [
    "Rgb.Props.C29_select_valid_witness"
   ],
   "note": ""
  },
  {
   "property": "C30",
   "status": "partial",
   "theorems": [
    "Rgb.Props.C30_content_addressed",
    "Rgb.Props.C30_monotone_partial",
    "Rgb.Props.C30_implementation_fails",
    "Rgb.Props.C30_iface_by_name",
    "Rgb.Props.C30_name_lookup_fails",
    "Rgb.Props.C30_histories_partial"
   ],
   "note": "Content addressing and availability of all objects proved for any sequence of raw writes and for any history of consumed consignments and kits. Negations: an implementation is replaced by another one of an interface with the same name; the interface found by name changes when another interface of the name is added."
  },
  {
   "property": "C31",
   "status": "partial",
   "theorems": [
    "Rgb.Props.C31_consumed_retrievable_partial",
    "Rgb.Props.C31_nothing_lost",
    "Rgb.Props.C31_transitions_fails",
    "Rgb.Props.C31_known_transaction_fails"
   ],
   "note": "Proved except for transitions of a bundle which the stash already has without them (negation with a witness); a consignment with only the txid can't be consumed after one with the full transaction (negation)."
  },
  {
   "property": "C32",
   "status": "proved",
   "theorems": [
    "Rgb.Props.C32_levels",
    "Rgb.Props.C32_import_signatures",
    "Rgb.Props.C32_history"
   ],
   "note": ""
  },
  {
   "property": "C33",
   "status": "proved",
   "theorems": [
    "Rgb.Props.C33_secret_found",
    "Rgb.Props.C33_resolve_terminals"
   ],
   "note": ""
  },
  {
   "property": "C34",
   "status": "partial",
   "theorems": [
    "Rgb.Props.C34_consume_consignment_partial",
    "Rgb.Props.C34_consume_consignment_fails",
    "Rgb.Props.C34_consume_fascia_partial",
    "Rgb.Props.C34_consume_fascia_fails",
    "Rgb.Props.C34_transaction_partial",
    "Rgb.Props.C34_body_fails",
    "Rgb.Props.C34_commit_fails",
    "Rgb.Props.C34_begin_fails",
    "Rgb.Props.C34_memory_panics",
    "Rgb.Props.C34_failed_written_fails"
   ],
   "note": "Generic over providers with true transactions and over every failure point. Not atomic in the code: an error of the body leaves its changes (C34_body_fails), a failed later commit leaves the earlier ones (C34_commit_fails), in-memory rollback panics. Concrete stock: C34_consume_consignment_partial and C34_consume_fascia_partial say exactly which stores stay unchanged for each error of the in-memory stock over all histories; C34_consume_consignment_fails and C34_consume_fascia_fails are reachable stocks where a refused consignment (fascia) shows new allocations in the state."
  },
  {
   "property": "C35",
   "status": "partial",
   "theorems": [
    "Rgb.Props.C35_disk_after_crash",
    "Rgb.Props.C35_loaded_partial",
    "Rgb.Props.C35_combinations",
    "Rgb.Props.C35_acknowledged",
    "Rgb.Props.C35_torn_fails"
   ],
   "note": "Every prefix of the disk events over every history of operations. Fails while a file is rewritten: it is truncated in place (C35_torn_fails); otherwise exactly four combinations of stores can be loaded (C35_combinations)."
  },
  {
   "property": "C36",
   "status": "partial",
   "theorems": [
    "Rgb.Props.C36_full_history_partial",
    "Rgb.Props.C36_documents",
    "Rgb.Props.C36_annotations",
    "Rgb.Props.C36_terminals",
    "Rgb.Props.C36_terminates",
    "Rgb.Props.C36_extension_fails",
    "Rgb.Props.C36_terminals_panic",
    "Rgb.Props.C36_same_outpoint_fails"
   ],
   "note": "For every reachable stock and every successful transfer: genesis, every needed ancestor transition with its bundle, a valid witness and the stored anchor proof (C36_full_history_partial), documents (C36_documents), terminals exactly (C36_terminals), termination for acyclic histories (C36_terminates). False in the code: an output depending on a state extension can't be transferred (C36_extension_fails); with both closing methods on one outpoint an assignment is left out (C36_same_outpoint_fails); two assignments to the same secret seal panic (C36_terminals_panic). Supplements and signatures: C36_annotations."
  },
  {
   "property": "C37",
   "status": "partial",
   "theorems": [
    "Rgb.Props.C37_nothing_unrelated_partial",
    "Rgb.Props.C37_siblings_fails"
   ],
   "note": "Each bundle of a transfer is the stored bundle of a needed operation and no extension is added (C37_nothing_unrelated_partial). False in the code: other known transitions of the same bundle are revealed too (C37_siblings_fails)."
  },
  {
   "property": "C38",
   "status": "partial",
   "theorems": [
    "Rgb.Props.C38_conserved_partial",
    "Rgb.Props.C38_overflow_fails",
    "Rgb.Props.C38_collision_fails",
    "Rgb.Props.C38_inputs",
    "Rgb.Props.C38_once",
    "Rgb.Props.C38_moved_partial",
    "Rgb.Props.C38_moved_fails",
    "Rgb.Props.C38_targets",
    "Rgb.Props.C38_single",
    "Rgb.Props.C38_apart"
   ],
   "note": "Exact conservation per transition and in total, inputs exact, each state spent once. Negations with witnesses: sums over u64 wrap in release builds; a seal collision between beneficiary and change (or between two moved states) loses value. C38_apart derives the condition that outputs are at different places (also of C39-C41, C56) for reachable stocks. C38_targets: nothing is assigned to any other seals. C38_single: a payment assigns to each seal at most once in each type."
  },
  {
   "property": "C39",
   "status": "proved",
   "theorems": [
    "Rgb.Props.C39_covered",
    "Rgb.Props.C39_reason",
    "Rgb.Props.C39_exact"
   ],
   "note": "Full: sufficient cover, exact reasons of the error, iff for another amount of the same invoice."
  },
  {
   "property": "C40",
   "status": "partial",
   "theorems": [
    "Rgb.Props.C40_contracts",
    "Rgb.Props.C40_inputs",
    "Rgb.Props.C40_once",
    "Rgb.Props.C40_moved_partial",
    "Rgb.Props.C40_collision_fails",
    "Rgb.Props.C40_archived_fails",
    "Rgb.Props.C40_targets"
   ],
   "note": "Contracts and inputs exact; what is assigned is exact unless two states of a type get the same seal (C40_collision_fails). Composing panics when the only state of another contract at the output is from an archived witness (C40_archived_fails). C40_targets: nothing is assigned to any other seals."
  },
  {
   "property": "C41",
   "status": "partial",
   "theorems": [
    "Rgb.Props.C41_token_partial",
    "Rgb.Props.C41_other_tokens_fails",
    "Rgb.Props.C41_zero_amount_fails"
   ],
   "note": "The invoiced token stays whole and is paid once; other tokens of its type at the spent outputs are lost (C41_other_tokens_fails), all are for the zero amount (C41_zero_amount_fails)."
  },
  {
   "property": "C42",
   "status": "proved",
   "theorems": [
    "Rgb.Props.C42_expired",
    "Rgb.Props.C42_no_contract",
    "Rgb.Props.C42_no_iface",
    "Rgb.Props.C42_accepted"
   ],
   "note": "Full: iff for each refusal, and everything a composed payment implies."
  },
  {
   "property": "C43",
   "status": "partial",
   "theorems": [
    "Rgb.Props.C43_balanced_partial",
    "Rgb.Props.C43_issue_partial",
    "Rgb.Props.C43_issue_transition_partial",
    "Rgb.Props.C43_burn_fails"
   ],
   "note": "Proved for every type with outputs: the sum equals the one over the inputs, or the constant EMPTY if there are none. False for types with inputs and no outputs (C43_burn_fails)."
  },
  {
   "property": "C44",
   "status": "proved",
   "theorems": [
    "Rgb.Props.C44_state",
    "Rgb.Props.C44_transition",
    "Rgb.Props.C44_fixed"
   ],
   "note": "For contracts and transitions, after any sequence of calls."
  },
  {
   "property": "C45",
   "status": "proved",
   "theorems": [
    "Rgb.Props.C45_layer",
    "Rgb.Props.C45_refused"
   ],
   "note": "Bitcoin is always declared; Liquid exactly if it was added."
  },
  {
   "property": "C46",
   "status": "partial",
   "theorems": [
    "Rgb.Props.C46_inputs",
    "Rgb.Props.C46_globals",
    "Rgb.Props.C46_globals_contract",
    "Rgb.Props.C46_assigned_partial",
    "Rgb.Props.C46_assigned_contract_partial",
    "Rgb.Props.C46_metadata_fails",
    "Rgb.Props.C46_same_seal_fails",
    "Rgb.Props.C46_completes",
    "Rgb.Props.C46_issues",
    "Rgb.Props.C46_header",
    "Rgb.Props.C46_header_contract"
   ],
   "note": "Inputs and global state are exact; assignments are exact up to replacement of an earlier state of the same type on the same seal (C46_same_seal_fails); metadata are never included (C46_metadata_fails). C46_completes and C46_issues: exactly when completion succeeds."
  },
  {
   "property": "C47",
   "status": "proved",
   "theorems": [
    "Rgb.Props.C47_exact",
    "Rgb.Props.C47_partial_order"
   ],
   "note": ""
  },
  {
   "property": "C48",
   "status": "proved",
   "theorems": [
    "Rgb.Props.C48_parents_kept",
    "Rgb.Props.C48_inherit",
    "Rgb.Props.C48_refused_exact",
    "Rgb.Props.C48_incompatible",
    "Rgb.Props.C48_reason",
    "Rgb.Props.C48_inherit_refused"
   ],
   "note": ""
  },
  {
   "property": "C49",
   "status": "partial",
   "theorems": [
    "Rgb.Props.C49_final_partial",
    "Rgb.Props.C49_refused_partial",
    "Rgb.Props.C49_fails"
   ],
   "note": "Proved for everything made by extending the interface with the final operation. False when it took part as the extending one: the result keeps the modifier of the base, so a later extension overrides it (witness)."
  },
  {
   "property": "C50",
   "status": "proved",
   "theorems": [
    "Rgb.Props.C50_exact",
    "Rgb.Props.C50_passes"
   ],
   "note": ""
  },
  {
   "property": "C51",
   "status": "partial",
   "theorems": [
    "Rgb.Props.C51_reported_partial",
    "Rgb.Props.C51_passes_partial",
    "Rgb.Props.C51_twice_fails",
    "Rgb.Props.C51_unknown_fails",
    "Rgb.Props.C51_lookups"
   ],
   "note": "Exact list of reported errors proved. Negations proved: a name bound exactly twice isn't reported (counters start from 0), a bound name unknown to the interface isn't reported."
  },
  {
   "property": "C52",
   "status": "partial",
   "theorems": [
    "Rgb.Props.C52_refused",
    "Rgb.Props.C52_kept_partial",
    "Rgb.Props.C52_derived_partial",
    "Rgb.Props.C52_valencies_fails",
    "Rgb.Props.C52_errors_fails",
    "Rgb.Props.C52_panic_partial"
   ],
   "note": "Refusal proved exactly; kept bindings exact for all kinds but valencies. Negations proved: valencies are looked up by names of assignments and lost; errors aren't filtered. Panics exactly when the implementation is for another interface."
  },
  {
   "property": "C53",
   "status": "partial",
   "theorems": [
    "Rgb.Props.C53_exact_partial",
    "Rgb.Props.C53_order_partial",
    "Rgb.Props.C53_fails"
   ],
   "note": "Success proved equivalent to a containment relation (also a preorder). Negation: operations needn't have the same definition (fewer inputs, other metadata and validators pass)."
  },
  {
   "property": "C54",
   "status": "proved",
   "theorems": [
    "Rgb.Props.C54_include",
    "Rgb.Props.C54_exclude",
    "Rgb.Props.C54_by_name",
    "Rgb.Props.C54_allocations",
    "Rgb.Props.C54_outpoint",
    "Rgb.Props.C54_contents"
   ],
   "note": "Full."
  },
  {
   "property": "C55",
   "status": "partial",
   "theorems": [
    "Rgb.Props.C55_items",
    "Rgb.Props.C55_fungible_partial",
    "Rgb.Props.C55_once",
    "Rgb.Props.C55_history",
    "Rgb.Props.C55_change_fails",
    "Rgb.Props.C55_concealed_fails",
    "Rgb.Props.C55_two_types_fails",
    "Rgb.Props.C55_include_all_fails"
   ],
   "note": "Exact lists of records for any history and any filters with the exact panics. Negations: change at an outpoint of the wallet in no record, payments to concealed seals, panics for two fungible types in one record and for filters selecting genesis state."
  },
  {
   "property": "C56",
   "status": "partial",
   "theorems": [
    "Rgb.Props.C56_iterates",
    "Rgb.Props.C56_pairs",
    "Rgb.Props.C56_methods",
    "Rgb.Props.C56_priority",
    "Rgb.Props.C56_info",
    "Rgb.Props.C56_composed_ids",
    "Rgb.Props.C56_ids_partial",
    "Rgb.Props.C56_ids_fails",
    "Rgb.Props.C56_outputs",
    "Rgb.Props.C56_union"
   ],
   "note": "Full except the listed ids with a priority other than the greatest (C56_ids_fails: never the id then)."
  },
  {
   "property": "C57",
   "status": "proved",
   "theorems": [
    "Rgb.Props.C57_pair",
    "Rgb.Props.C57_accepted",
    "Rgb.Props.C57_third",
    "Rgb.Props.C57_same",
    "Rgb.Props.C57_reveal_refused",
    "Rgb.Props.C57_reveal"
   ],
   "note": "Full."
  },
  {
   "property": "C58",
   "status": "partial",
   "theorems": [
    "Rgb.Props.C58_bundle",
    "Rgb.Props.C58_bundle_commits",
    "Rgb.Props.C58_bundle_exact",
    "Rgb.Props.C58_witness",
    "Rgb.Props.C58_genesis",
    "Rgb.Props.C58_operation_partial",
    "Rgb.Props.C58_found_partial",
    "Rgb.Props.C58_found_same_partial",
    "Rgb.Props.C58_op_witness",
    "Rgb.Props.C58_consistent",
    "Rgb.Props.C58_script",
    "Rgb.Props.C58_shadowed_fails",
    "Rgb.Props.C58_miskeyed_fails"
   ],
   "note": "Lookups exact; transitions of a bundle given twice may be shadowed (C58_shadowed_fails), and keys of a bundle are trusted (C58_miskeyed_fails)."
  },
  {
   "property": "C59",
   "status": "partial",
   "theorems": [
    "Rgb.Props.C59_roundtrip",
    "Rgb.Props.C59_magic",
    "Rgb.Props.C59_type_safe",
    "Rgb.Props.C59_truncated",
    "Rgb.Props.C59_crash",
    "Rgb.Props.C59_universal",
    "Rgb.Props.C59_universal_roundtrip",
    "Rgb.Props.C59_armored",
    "Rgb.Props.C59_armored_roundtrip",
    "Rgb.Props.C59_armored_type",
    "Rgb.Props.C59_panics",
    "Rgb.Props.C59_headers",
    "Rgb.Props.C59_kit_headers",
    "Rgb.Props.C59_string_partial",
    "Rgb.Props.C59_header_fails",
    "Rgb.Props.C59_flag_fails",
    "Rgb.Props.C59_armored_kind_fails",
    "Rgb.Props.C59_overwrite_fails",
    "Rgb.Props.C59_into_contract"
   ],
   "note": "Round trips, type safety, prefixes, headers and crash points for all contents. Negations: the transfer flag isn't checked by files and load_armored, saving over a file isn't atomic, headers aren't compared with what is read; reading panics on a Type header without values (C59_panics)."
  },
  {
   "property": "C60",
   "status": "partial",
   "theorems": [
    "Rgb.Props.C60_annotate",
    "Rgb.Props.C60_roundtrip",
    "Rgb.Props.C60_refused",
    "Rgb.Props.C60_failed_partial",
    "Rgb.Props.C60_history",
    "Rgb.Props.C60_default",
    "Rgb.Props.C60_velocity",
    "Rgb.Props.C60_failed_fails"
   ],
   "note": "Exact for any sequence of calls, including failed ones, which lose annotations of the same part (C60_failed_fails)."
  },
  {
   "property": "C61",
   "status": "partial",
   "theorems": [
    "Rgb.Props.C61_iterator_partial",
    "Rgb.Props.C61_size_fails",
    "Rgb.Props.C61_reset_fails",
    "Rgb.Props.C61_calls_partial",
    "Rgb.Props.C61_only_items_partial"
   ],
   "note": "Holds for a new iterator; size and reset during the iteration are wrong (C61_size_fails, C61_reset_fails). C61_calls_partial says exactly what each call of any sequence of calls replies, and C61_only_items_partial that only items come."
  },
  {
   "property": "C62",
   "status": "proved",
   "theorems": [
    "Rgb.Props.C62_listing_by_interface"
   ],
   "note": "Full."
  },
  {
   "property": "C63",
   "status": "partial",
   "theorems": [
    "Rgb.Props.C63_extends_partial",
    "Rgb.Props.C63_inherit_partial",
    "Rgb.Props.C63_fails"
   ],
   "note": "Operations of the extended interface and all non-optional operations of the extending ones are kept. Negations in one witness: required becomes optional, optional operations are dropped, metadata types are overwritten."
  },
  {
   "property": "C64",
   "status": "partial",
   "theorems": [
    "Rgb.Props.C64_found",
    "Rgb.Props.C64_bundles",
    "Rgb.Props.C64_transitions_partial",
    "Rgb.Props.C64_order",
    "Rgb.Props.C64_state_partial",
    "Rgb.Props.C64_globals",
    "Rgb.Props.C64_documents",
    "Rgb.Props.C64_transferable",
    "Rgb.Props.C64_transferable_secret",
    "Rgb.Props.C64_transferred",
    "Rgb.Props.C64_transition_fails",
    "Rgb.Props.C64_state_fails"
   ],
   "note": "Over every history of the stock. Bundles, documents, orders and global state (up to the limit of the list) kept for ever; transitions and state with the exact proviso (negations C64_transition_fails, C64_state_fails); after complete histories transferring cannot fail, with a secret seal it panics exactly if two requested outputs are of one bundle."
  },
  {
   "property": "C65",
   "status": "partial",
   "theorems": [
    "Rgb.Props.C65_contract_partial",
    "Rgb.Props.C65_transition_partial",
    "Rgb.Props.C65_data_fails"
   ],
   "note": "Exact acceptance conditions for every call after any number of calls, including whether what it adds has place in the collections of limited size. False for owned data: the value isn't checked against its semantic type (C65_data_fails)."
  },
  {
   "property": "C66",
   "status": "partial",
   "theorems": [
    "Rgb.Props.C66_operation_fails",
    "Rgb.Props.C66_state_fails",
    "Rgb.Props.C66_refused_partial",
    "Rgb.Props.C66_answered_partial",
    "Rgb.Props.C66_sum_fails"
   ],
   "note": "C66_answered_partial: for every wallet and history, composing gives a batch or an error when the operation is known, the state invoiced is an amount or a token, the state at the outputs is defined by its contracts and (debug builds) the sum fits 64 bits. Negations: an unknown operation name, an unsupported kind of state, (C40_archived_fails) archived state of other contracts, and a sum beyond 64 bits in debug builds make composing panic."
  },
  {
   "property": "C67",
   "status": "partial",
   "theorems": [
    "Rgb.Props.C67_consignment_partial",
    "Rgb.Props.C67_kit",
    "Rgb.Props.C67_armored_partial",
    "Rgb.Props.C67_schema_fails",
    "Rgb.Props.C67_iface_fails",
    "Rgb.Props.C67_attachment_fails",
    "Rgb.Props.C67_armored_fails"
   ],
   "note": "The id of a kit is exact; the id of a consignment doesn't cover the schema, interfaces and attachment contents (three witnesses), everything else exactly."
  },
  {
   "property": "C68",
   "status": "partial",
   "theorems": [
    "Rgb.Props.C68_verdict",
    "Rgb.Props.C68_report",
    "Rgb.Props.C68_kit",
    "Rgb.Props.C68_accepted_fails"
   ],
   "note": "Verdict and report exact; the checks done here only warn (C68_accepted_fails)."
  },
  {
   "property": "C69",
   "status": "partial",
   "theorems": [
    "Rgb.Props.C69_accepted",
    "Rgb.Props.C69_equality",
    "Rgb.Props.C69_equivalence",
    "Rgb.Props.C69_hash",
    "Rgb.Props.C69_order_partial",
    "Rgb.Props.C69_order_fails"
   ],
   "note": "Acceptance, equality and hashing exact; the order distinguishes equal tickers (C69_*_fails)."
  },
  {
   "property": "C70",
   "status": "partial",
   "theorems": [
    "Rgb.Props.C70_accepted",
    "Rgb.Props.C70_roundtrip_partial",
    "Rgb.Props.C70_injective",
    "Rgb.Props.C70_charset_fails"
   ],
   "note": "Round trip for all media types made of valid parts; charset is dropped (see the _fails theorems)."
  },
  {
   "property": "C71",
   "status": "proved",
   "theorems": [
    "Rgb.Props.C71_details",
    "Rgb.Props.C71_asset",
    "Rgb.Props.C71_static",
    "Rgb.Props.C71_contract",
    "Rgb.Props.C71_equality"
   ],
   "note": ""
  },
  {
   "property": "C72",
   "status": "proved",
   "theorems": [
    "Rgb.Props.C72_accepts",
    "Rgb.Props.C72_new_wallet"
   ],
   "note": "Full: sufficient conditions on consignment and stock, for every history; example with a stock which already knows one of the bundles."
  },
  {
   "property": "C73",
   "status": "partial",
   "theorems": [
    "Rgb.Props.C73_accepted_partial",
    "Rgb.Props.C73_new_wallet_partial",
    "Rgb.Props.C73_of_contract",
    "Rgb.Props.C73_same_name_fails"
   ],
   "note": "Structure, secret seals, one contract (C73_of_contract), for all pairs of histories. What is assumed of the contents is exactly Checked (witnesses resolved, seals definite, globals in the schema). False with two interfaces of the same name (C73_same_name_fails: the receiver panics)."
  },
  {
   "property": "C74",
   "status": "partial",
   "theorems": [
    "Rgb.Props.C74_terminals",
    "Rgb.Props.C74_received_partial",
    "Rgb.Props.C74_received_new",
    "Rgb.Props.C74_payment_partial",
    "Rgb.Props.C74_genesis_fails"
   ],
   "note": "Composed over payer's transfer and payee's acceptance. False for genesis assignments to the seal (C74_genesis_fails), and for archived witnesses known before (C64_state_fails)."
  },
  {
   "property": "C75",
   "status": "partial",
   "theorems": [
    "Rgb.Props.C75_only_genesis",
    "Rgb.Props.C75_finished",
    "Rgb.Props.C75_exported",
    "Rgb.Props.C75_genesis_state",
    "Rgb.Props.C75_imported_partial",
    "Rgb.Props.C75_same_name_fails"
   ],
   "note": "Full except for stocks with two interfaces of the same name (C75_same_name_fails)."
  },
  {
   "property": "C76",
   "status": "proved",
   "theorems": [
    "Rgb.Props.C76_opened",
    "Rgb.Props.C76_class",
    "Rgb.Props.C76_listed",
    "Rgb.Props.C76_global"
   ],
   "note": "Full for stocks with complete histories (Complete, AllDone). Types of values and their decoding are parameters."
  },
  {
   "property": "C77",
   "status": "partial",
   "theorems": [
    "Rgb.Props.C77_errors",
    "Rgb.Props.C77_contents_partial",
    "Rgb.Props.C77_exported",
    "Rgb.Props.C77_imported_partial",
    "Rgb.Props.C77_same_name_fails"
   ],
   "note": "Full except for stocks with two interfaces of the same name (C77_same_name_fails: importing the export panics)."
  },
  {
   "property": "C78",
   "status": "partial",
   "theorems": [
    "Rgb.Props.C78_listed_partial",
    "Rgb.Props.C78_found_partial",
    "Rgb.Props.C78_nothing_left_partial",
    "Rgb.Props.C78_listed_fails"
   ],
   "note": "Histories in which no consignment was refused half-way; other operations may fail. C78_listed_fails shows state which is lost otherwise."
  },
  {
   "property": "C79",
   "status": "partial",
   "theorems": [
    "Rgb.Props.C79_state_partial",
    "Rgb.Props.C79_globals_partial",
    "Rgb.Props.C79_outputs_partial",
    "Rgb.Props.C79_bundles_partial",
    "Rgb.Props.C79_state_fails",
    "Rgb.Props.C79_converse_fails"
   ],
   "note": "Histories without errors, in which each bundle always comes with the same transitions, and where what came had passed validation. C79_state_fails shows state which the stash doesn't tell of otherwise; C79_converse_fails shows that the recomputed state may have more."
  },
  {
   "property": "C80",
   "status": "partial",
   "theorems": [
    "Rgb.Props.C80_validation_reads_partial",
    "Rgb.Props.C80_any_order_partial",
    "Rgb.Props.C80_witness_fails"
   ],
   "note": "All reads except the position of a witness itself (C80_witness_fails). In any order only when each operation comes with one witness, since otherwise what is stored depends on the order (C26_order_fails)."
  },
  {
   "property": "C81",
   "status": "partial",
   "theorems": [
    "Rgb.Props.C81_contract",
    "Rgb.Props.C81_contract_with",
    "Rgb.Props.C81_transition",
    "Rgb.Props.C81_blank_partial",
    "Rgb.Props.C81_total_partial",
    "Rgb.Props.C81_operation_fails",
    "Rgb.Props.C81_blank_fails"
   ],
   "note": "Builders of transitions panic for an operation which the implementation doesn't have (C81_operation_fails, exactly then). With two interfaces of the same name a blank transition may pair an implementation with another interface (C81_blank_fails)."
  },
  {
   "property": "C82",
   "status": "proved",
   "theorems": [
    "Rgb.Props.C82_imported",
    "Rgb.Props.C82_stash",
    "Rgb.Props.C82_state",
    "Rgb.Props.C82_globals",
    "Rgb.Props.C82_next"
   ],
   "note": "The validation in issue_contract is a parameter. Reading the schema and tags from the genesis is assumed to give what was put there (Reads). Exact limits as in C72 (Room)."
  },
  {
   "property": "C83",
   "status": "partial",
   "theorems": [
    "Rgb.Props.C83_consignment_partial",
    "Rgb.Props.C83_fascia_partial",
    "Rgb.Props.C83_crash_partial",
    "Rgb.Props.C83_repeat_fails",
    "Rgb.Props.C83_often_partial",
    "Rgb.Props.C83_often_fascia_partial"
   ],
   "note": "All crash points after which the stores can be loaded (C35_torn_fails for others), unless a set of the index limited to 255 members is full (C83_repeat_fails: then the repeated acceptance is refused, and removes outputs from the index). C83_often_partial, C83_often_fascia_partial: any number of interrupted attempts, with any resolvers."
  },
  {
   "property": "C84",
   "status": "partial",
   "theorems": [
    "Rgb.Props.C84_consignment_partial",
    "Rgb.Props.C84_fascia_partial",
    "Rgb.Props.C84_kit_partial",
    "Rgb.Props.C84_crash_partial",
    "Rgb.Props.C84_witness_fails",
    "Rgb.Props.C84_full_fails"
   ],
   "note": "Missing: a consignment which lists a witness twice (C84_witness_fails) and stocks with a limited collection full after the first acceptance (C84_full_fails). Assumed: a Merkle root has one message for a protocol; signatures are maps."
  },
  {
   "property": "C85",
   "status": "partial",
   "theorems": [
    "Rgb.Props.C85_transferable",
    "Rgb.Props.C85_received",
    "Rgb.Props.C85_spent",
    "Rgb.Props.C85_passed_on_partial",
    "Rgb.Props.C85_new_wallet_partial",
    "Rgb.Props.C85_siblings_fails"
   ],
   "note": "Holds for the operations which the payment depends on, for operations traced before and for own spendings; for a new wallet for every output, if the bundles of the transfer have no unrelated transitions. Fails for unrelated transitions of the same bundle, which are shown to the payee without their histories (C85_siblings_fails)."
  },
  {
   "property": "C86",
   "status": "partial",
   "theorems": [
    "Rgb.Props.C86_interfaces",
    "Rgb.Props.C86_inherited_partial",
    "Rgb.Props.C86_schemata",
    "Rgb.Props.C86_contracts",
    "Rgb.Props.C86_stable",
    "Rgb.Props.C86_accepted",
    "Rgb.Props.C86_inherited_fails",
    "Rgb.Props.C86_class_fails",
    "Rgb.Props.C86_created_fails",
    "Rgb.Props.C86_schema_fails"
   ],
   "note": "Completeness, uniqueness, data and stability proved for every history, listed schemata for accepted contracts. Fails where the code disagrees: inherited interfaces are shown by name, which may be of another one (C86_inherited_fails), only the oldest supplement is looked at (C86_class_fails), times outside of the calendar are shown as now (C86_created_fails), a failed acceptance leaves a contract without schema listed (C86_schema_fails)."
  },
  {
   "property": "C87",
   "status": "partial",
   "theorems": [
    "Rgb.Props.C87_declarations_partial",
    "Rgb.Props.C87_default_partial",
    "Rgb.Props.C87_checked",
    "Rgb.Props.C87_global",
    "Rgb.Props.C87_assignment",
    "Rgb.Props.C87_valency",
    "Rgb.Props.C87_transition",
    "Rgb.Props.C87_extension",
    "Rgb.Props.C87_descriptions_fails",
    "Rgb.Props.C87_default_fails",
    "Rgb.Props.C87_namesakes_fails"
   ],
   "note": "Proved for interfaces whose error descriptions have no line break and callers who give different names to different interfaces; the default operation if it is declared (which check ensures, C87_checked). Fails otherwise: C87_descriptions_fails, C87_namesakes_fails, C87_default_fails."
  },
  {
   "property": "C88",
   "status": "proved",
   "theorems": [
    "Rgb.Props.C88_media",
    "Rgb.Props.C88_asset",
    "Rgb.Props.C88_contract",
    "Rgb.Props.C88_attachment",
    "Rgb.Props.C88_terms",
    "Rgb.Props.C88_reserves",
    "Rgb.Props.C88_simple",
    "Rgb.Props.C88_stored"
   ],
   "note": "Values of strict_types and their unwrap methods are modelled as a tree; that contract state is decoded to the tree its type declares is external."
  },
  {
   "property": "C89",
   "status": "proved",
   "theorems": [
    "Rgb.Props.C89_sent",
    "Rgb.Props.C89_arrives",
    "Rgb.Props.C89_made"
   ],
   "note": "The fascia is taken as given: it carries the composed transitions, each in a new bundle (that the transaction commits to them is the wallet's business). The conditions of C38 on the payer's side (no overflow, C38_apart) are kept. C89_made also needs that nothing else in the fascia assigns to the seal and that the spent state came with its history; without such conditions transfers are refused (C36, C85)."
  },
  {
   "property": "C90",
   "status": "proved",
   "theorems": [
    "Rgb.Props.C90_limits",
    "Rgb.Props.C90_refused"
   ],
   "note": "Collections with limits over 255 items (Small, Medium and Large ones) are not in the model, so that neither their limits nor refusals because of them are covered. Histories are of proper events (ordered maps), under a binding commitment scheme."
  },
  {
   "property": "C91",
   "status": "proved",
   "theorems": [
    "Rgb.Props.C91_state",
    "Rgb.Props.C91_state_now",
    "Rgb.Props.C91_seen",
    "Rgb.Props.C91_change",
    "Rgb.Props.C91_given",
    "Rgb.Props.C91_sent",
    "Rgb.Props.C91_arrives",
    "Rgb.Props.C91_invoiced_chain"
   ],
   "note": "The conditions of C38 are assumed (no overflow in release builds, the seals for the change and of the beneficiary differ, an output of an operation is at one spent output); for the arrival: all assignments to the output are of one closing method (otherwise C36_same_outpoint_fails)."
  },
  {
   "property": "C92",
   "status": "partial",
   "theorems": [
    "Rgb.Props.C92_spent_partial",
    "Rgb.Props.C92_kept_partial",
    "Rgb.Props.C92_token_arrives",
    "Rgb.Props.C92_token_given",
    "Rgb.Props.C92_token_taken"
   ],
   "note": "C92_spent_partial and C92_kept_partial assume that an output of an operation is at one spent output only and that different state of one type of a contract gets different seals (a builder keeps one state per seal and drops the others silently: C40_collision_fails, C38_moved_fails). The remaining hypotheses are those of C89 and C91."
  },
  {
   "property": "C93",
   "status": "proved",
   "theorems": [
    "Rgb.Props.C93_composed",
    "Rgb.Props.C93_amounts",
    "Rgb.Props.C93_tokens",
    "Rgb.Props.C93_paid",
    "Rgb.Props.C93_needs"
   ],
   "note": "The conditions are those of Stock.Payable in Spec/Payable.lean; C93_needs shows which of them every composed payment meets. The condition that each other contract listed for the outputs has state there isn't met after a witness of it was archived (C40_archived_fails)."
  },
  {
   "property": "C94",
   "status": "proved",
   "theorems": [
    "Rgb.Props.C94_accepts",
    "Rgb.Props.C94_needs",
    "Rgb.Props.C94_exact",
    "Rgb.Props.C94_payment"
   ],
   "note": "Conditions in Spec/Consume.lean. That a wallet accepts the fascia of its own payment is shown for histories in which no consignment was refused (otherwise the index may miss the contract, C78). Making the fascia from the batch isn't in this repository, so the fascia is any one made of transitions of the batch."
  },
  {
   "property": "C95",
   "status": "proved",
   "theorems": [
    "Rgb.Props.C95_transferred",
    "Rgb.Props.C95_paid",
    "Rgb.Props.C95_new_wallet",
    "Rgb.Props.C95_token",
    "Rgb.Props.C95_token_new_wallet",
    "Rgb.Props.C95_output",
    "Rgb.Props.C95_output_paid",
    "Rgb.Props.C95_output_new_wallet",
    "Rgb.Props.C95_output_token",
    "Rgb.Props.C95_output_token_new_wallet"
   ],
   "note": "The chain of C93, C94, C89 (C91 for addresses) and C73 for one payment, from conditions on the payer before the payment, on the fascia and on the payee. Making the fascia (and the transaction) isn't in this repository, so it is any one with all payments, in new bundles. Interfaces with the same name are excluded because of C73."
  },
  {
   "property": "C96",
   "status": "proved",
   "theorems": [
    "Rgb.Props.C96_assignments",
    "Rgb.Props.C96_shown",
    "Rgb.Props.C96_globals",
    "Rgb.Props.C96_contracts",
    "Rgb.Props.C96_hidden",
    "Rgb.Props.C96_stored",
    "Rgb.Props.C96_consigned",
    "Rgb.Props.C96_imported"
   ],
   "note": "Witnesses of extensions: only that it is a witness of the same consignment. Histories start with an empty stock."
  },
  {
   "property": "C97",
   "status": "proved",
   "theorems": [
    "Rgb.Props.C97_state",
    "Rgb.Props.C97_transferable",
    "Rgb.Props.C97_payable",
    "Rgb.Props.C97_paid",
    "Rgb.Props.C97_new_wallet",
    "Rgb.Props.C97_token",
    "Rgb.Props.C97_token_new_wallet"
   ],
   "note": "What the transactions commit to is a parameter (`Ledger`), with one transition in each bundle; a bundle with several may come with other transitions than those which are spent (then C85 applies to the needed ones only). Interfaces with the same name are excluded because of C73, and more than 126 interfaces of a schema because of C72's limits. The conditions on the payee (nothing contradicting, room) are those of C73; that nothing contradicts is C98."
  },
  {
   "property": "C98",
   "status": "proved",
   "theorems": [
    "Rgb.Props.C98_same",
    "Rgb.Props.C98_agrees",
    "Rgb.Props.C98_accepted",
    "Rgb.Props.C98_paid",
    "Rgb.Props.C98_token",
    "Rgb.Props.C98_output_paid",
    "Rgb.Props.C98_output_token"
   ],
   "note": "What the transactions commit to is a parameter (`Ledger`): for each transaction and closing method one proof and root and one bundle per contract, each transition in one bundle of one contract; payments are assumed to be made according to it. Proofs made of a Merkle block are assumed to give the same root back (`Restores`), which is what the dependency does. Interfaces with the same name are excluded because of C73."
  },
  {
   "property": "C99",
   "status": "partial",
   "theorems": [
    "Rgb.Props.C99_restarts_partial",
    "Rgb.Props.C99_undone",
    "Rgb.Props.C99_careful_partial",
    "Rgb.Props.C99_history",
    "Rgb.Props.C99_listed_partial",
    "Rgb.Props.C99_trust_fails",
    "Rgb.Props.C99_written_fails"
   ],
   "note": "Exact for all calls but setting of trust levels, which isn't marked as a change and is lost at a restart (C99_trust_fails). C99_written_fails: without a restart after an error the next successful call writes what the refused one left. Stops inside of a call are C35 and C83."
  },
  {
   "property": "C100",
   "status": "proved",
   "theorems": [
    "Rgb.Props.C100_transition",
    "Rgb.Props.C100_once",
    "Rgb.Props.C100_supply",
    "Rgb.Props.C100_shown"
   ],
   "note": "Double spending is excluded by assumption, as this is what the transactions are for (`NoDoubleSpend`), and so is composing a payment out of state which an operation has with two witnesses, i.e. out of outputs of two transactions only one of which can be mined (`OneWitness`; C100_once shows that this holds if no bundle is in two transactions). State extensions are excluded, as in C97 (no call of the library makes any). Issuing is modelled by a genesis only: secondary issuance by allowances isn't something `compose` makes."
  },
  {
   "property": "C101",
   "status": "proved",
   "theorems": [
    "Rgb.Props.C101_transition",
    "Rgb.Props.C101_kept",
    "Rgb.Props.C101_balance"
   ],
   "note": "What carelessness loses is shown by C38_overflow_fails, C38_collision_fails, C38_moved_fails, C40_collision_fails, C41_other_tokens_fails and C41_zero_amount_fails. Other assumptions are those of C100."
  },
  {
   "property": "C102",
   "status": "proved",
   "theorems": [
    "Rgb.Props.C102_allocations",
    "Rgb.Props.C102_there",
    "Rgb.Props.C102_same",
    "Rgb.Props.C102_globals",
    "Rgb.Props.C102_order"
   ],
   "note": "The assumption that no bundle is in two transactions (`Once`) is needed: C23_reanchored_fails and C26_order_fails show two witnesses of an operation. State whose seal was hidden from the wallet, and which it reveals by its own secret, agrees as well (C102_allocations), but C102_there is about what was shown openly."
  },
  {
   "property": "C103",
   "status": "proved",
   "theorems": [
    "Rgb.Props.C103_closed",
    "Rgb.Props.C103_single",
    "Rgb.Props.C103_supply",
    "Rgb.Props.C103_balance"
   ],
   "note": "The library itself checks neither which outputs the transaction of a fascia spends nor that a transition spends state sealed with the closing method of its bundle when it consumes a fascia (the transaction is made by the wallet, and consignments are checked by the external validation); that payments are made as composed is therefore an assumption (`Fascia.Spends`). Other assumptions are those of C102."
  },
  {
   "property": "C104",
   "status": "proved",
   "theorems": [
    "Rgb.Props.C104_listed",
    "Rgb.Props.C104_agree"
   ],
   "note": "For owned state. Listed global state keeps archived items (C24_global_state_fails). Witnesses for which the resolver fails stay as they were (C25)."
  },
  {
   "property": "C105",
   "status": "partial",
   "theorems": [
    "Rgb.Props.C105_taprets",
    "Rgb.Props.C105_kept",
    "Rgb.Props.C105_fascia",
    "Rgb.Props.C105_brought",
    "Rgb.Props.C105_network",
    "Rgb.Props.C105_known_partial",
    "Rgb.Props.C105_known_fails"
   ],
   "note": "Missing: of two bundles of one contract, one in the tapret and one in the opret anchor, `known_bundle_ids` lists one (C105_known_fails)."
  },
  {
   "property": "C106",
   "status": "partial",
   "theorems": [
    "Rgb.Props.C106_witness",
    "Rgb.Props.C106_ids",
    "Rgb.Props.C106_batch",
    "Rgb.Props.C106_priority_fails",
    "Rgb.Props.C106_alloc_partial",
    "Rgb.Props.C106_alloc_fails",
    "Rgb.Props.C106_impl_partial",
    "Rgb.Props.C106_impl_fails",
    "Rgb.Props.C106_laws",
    "Rgb.Props.C106_kit",
    "Rgb.Props.C106_contents_partial",
    "Rgb.Props.C106_history_fails"
   ],
   "note": "Missing: the entries of consignments are compared by transaction only, so consignments with different operations are equal (C106_history_fails); fields of implementations are equal if numbers or names are, which is not transitive and disagrees with the order (C106_impl_fails); hashes of allocations look at what equality ignores (C106_alloc_fails); a batch is equal to itself with another priority (C106_priority_fails). How values of other crates are compared is a parameter."
  }
 ]
}