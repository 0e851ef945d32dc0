# Axioms of each property theorem

Collected from the compiled modules (what `#print axioms` prints).

| Theorem | Axioms |
|---|---|
| `C01_amount_parse_domain` | Classical.choice, Quot.sound, propext |
| `C01_amount_parse_rejects` | Classical.choice, Quot.sound, propext |
| `C01_amount_text_injective` | Classical.choice, Quot.sound, propext |
| `C01_amount_text_roundtrip` | Classical.choice, Quot.sound, propext |
| `C01_amount_text_shape` | Classical.choice, Quot.sound, propext |
| `C02_amount_ops` | Classical.choice, Quot.sound, propext |
| `C02_amount_sum` | Quot.sound, propext |
| `C02_amount_sum_perm` | Quot.sound, propext |
| `C02_fraction_ops` | Classical.choice, Quot.sound, propext |
| `C03_coin_amount_value` | Quot.sound, propext |
| `C03_coin_amount_with` | Quot.sound, propext |
| `C03_convert` | Classical.choice, Quot.sound, propext |
| `C03_floor_ceil_rem` | Classical.choice, Quot.sound, propext |
| `C03_round` | Classical.choice, Quot.sound, propext |
| `C03_round_no_overflow` | Classical.choice, Quot.sound, propext |
| `C03_split` | Quot.sound, propext |
| `C04_alternate_indivisible_fails` | Classical.choice, Quot.sound, propext |
| `C04_coin_alternate_roundtrip_partial` | Classical.choice, Quot.sound, propext |
| `C04_coin_display_roundtrip_fails` | Classical.choice, Quot.sound, propext |
| `C04_coin_display_roundtrip_partial` | Classical.choice, Quot.sound, propext |
| `C05_allocation_data_roundtrip` | Quot.sound, propext |
| `C05_allocation_domain` | Classical.choice, Quot.sound, propext |
| `C05_allocation_needs_at` | propext |
| `C05_allocation_roundtrip` | Quot.sound, propext |
| `C06_builder_with_contract_only_fails` | Classical.choice, Quot.sound, propext |
| `C06_comma_in_host_fails` | Classical.choice, Quot.sound, propext |
| `C06_escapes` | Classical.choice, Quot.sound, propext |
| `C06_ignored` | Classical.choice, Quot.sound, propext |
| `C06_invoice_text_injective_partial` | Classical.choice, Quot.sound, propext |
| `C06_invoice_text_roundtrip_fails` | Classical.choice, Quot.sound, propext |
| `C06_invoice_text_roundtrip_partial` | Classical.choice, Quot.sound, propext |
| `C06_path` | Classical.choice, Quot.sound, propext |
| `C06_query` | Classical.choice, Quot.sound, propext |
| `C06_scheme` | Classical.choice, Quot.sound, propext |
| `C07_beneficiary_network_partial` | Classical.choice, Quot.sound, propext |
| `C07_bitcoin_network` | propext |
| `C07_bitcoin_prefix` | Classical.choice, Quot.sound, propext |
| `C07_prefix_distinct` | Classical.choice, Quot.sound, propext |
| `C07_prefix_domain_partial` | Classical.choice, Quot.sound, propext |
| `C07_prefix_network` | Classical.choice, Quot.sound, propext |
| `C07_prefix_roundtrip_fails` | Classical.choice, Quot.sound, propext |
| `C07_prefix_roundtrip_partial` | Classical.choice, Quot.sound, propext |
| `C07_wrap_network` | none |
| `C08_transport_domain` | Classical.choice, Quot.sound, propext |
| `C08_transport_rejects` | Classical.choice, Quot.sound, propext |
| `C08_transport_roundtrip` | Classical.choice, Quot.sound, propext |
| `C09_invoice_query` | Classical.choice, Quot.sound, propext |
| `C09_query_decode_fails` | Classical.choice, Quot.sound, propext |
| `C09_query_decode_partial` | Classical.choice, Quot.sound, propext |
| `C09_query_no_injection` | Quot.sound, propext |
| `C100_once` | Classical.choice, Quot.sound, propext |
| `C100_shown` | Classical.choice, Quot.sound, propext |
| `C100_supply` | Classical.choice, Quot.sound, propext |
| `C100_transition` | Classical.choice, Quot.sound, propext |
| `C101_balance` | Classical.choice, Quot.sound, propext |
| `C101_kept` | Classical.choice, Quot.sound, propext |
| `C101_transition` | Classical.choice, Quot.sound, propext |
| `C102_allocations` | Classical.choice, Quot.sound, propext |
| `C102_globals` | Classical.choice, Quot.sound, propext |
| `C102_order` | Classical.choice, Quot.sound, propext |
| `C102_same` | Classical.choice, Quot.sound, propext |
| `C102_there` | Classical.choice, Quot.sound, propext |
| `C103_balance` | Classical.choice, Quot.sound, propext |
| `C103_closed` | Classical.choice, Quot.sound, propext |
| `C103_single` | Classical.choice, Quot.sound, propext |
| `C103_supply` | Classical.choice, Quot.sound, propext |
| `C104_agree` | Classical.choice, Quot.sound, propext |
| `C104_listed` | Classical.choice, Quot.sound, propext |
| `C105_brought` | Classical.choice, Quot.sound, propext |
| `C105_fascia` | Classical.choice, Quot.sound, propext |
| `C105_kept` | Classical.choice, Quot.sound, propext |
| `C105_known_fails` | Classical.choice, Quot.sound, propext |
| `C105_known_partial` | Quot.sound, propext |
| `C105_network` | Classical.choice, Quot.sound, propext |
| `C105_taprets` | Classical.choice, Quot.sound, propext |
| `C106_alloc_fails` | none |
| `C106_alloc_partial` | Classical.choice, Quot.sound, propext |
| `C106_batch` | Quot.sound, propext |
| `C106_contents_partial` | Quot.sound, propext |
| `C106_history_fails` | propext |
| `C106_ids` | Quot.sound, propext |
| `C106_impl_fails` | propext |
| `C106_impl_partial` | Classical.choice, Quot.sound, propext |
| `C106_kit` | propext |
| `C106_laws` | Quot.sound, propext |
| `C106_priority_fails` | propext |
| `C106_witness` | Quot.sound, propext |
| `C10_payload_exact` | Quot.sound, propext |
| `C10_payload_rejects` | Quot.sound, propext |
| `C10_payload_roundtrip` | Quot.sound, propext |
| `C11_amount_approx` | Quot.sound, propext |
| `C11_builder_history` | Classical.choice, Quot.sound, propext |
| `C11_builder_transports` | Classical.choice, Quot.sound, propext |
| `C11_call_exact` | Classical.choice, Quot.sound, propext |
| `C11_constructors` | Classical.choice, Quot.sound, propext |
| `C12_merge_keeps_disclosed` | Quot.sound, propext |
| `C13_merge_any_order` | Classical.choice, Quot.sound, propext |
| `C13_merge_associative` | Quot.sound, propext |
| `C13_merge_commutative` | Quot.sound, propext |
| `C13_merge_idempotent` | Quot.sound, propext |
| `C14_distinct_ops_not_merged` | propext |
| `C14_distinct_witnesses_not_merged` | Quot.sound, propext |
| `C14_sequence_with_stranger_refused` | Quot.sound, propext |
| `C15_bundle_merge_fails` | Quot.sound, propext |
| `C15_bundle_merge_partial` | Quot.sound, propext |
| `C16_witness_merge_fails` | propext |
| `C16_witness_merge_partial` | Quot.sound, propext |
| `C17_anchors_merge` | Classical.choice, Quot.sound, propext |
| `C17_anchors_merge_total` | propext |
| `C18_forms` | Quot.sound, propext |
| `C18_listed` | Quot.sound, propext |
| `C18_reveal_op` | Quot.sound, propext |
| `C18_reveal_terminals` | Quot.sound, propext |
| `C18_reveal_witness_bundle` | Quot.sound, propext |
| `C19_indexed_ops_resolvable` | Classical.choice, Quot.sound, propext |
| `C20_one_bundle_per_operation` | Classical.choice, Quot.sound, propext |
| `C20_one_contract_per_bundle` | Classical.choice, Quot.sound, propext |
| `C21_contracts_assigning` | Classical.choice, Quot.sound, propext |
| `C21_lookup_by_outputs_fails` | Quot.sound, propext |
| `C21_lookup_by_outputs_partial` | Classical.choice, Quot.sound, propext |
| `C22_lookup_by_terminals_partial` | Classical.choice, Quot.sound, propext |
| `C22_overflow_fails` | Classical.choice, Quot.sound, propext |
| `C22_revealed_fails` | Classical.choice, Quot.sound, propext |
| `C23_genesis_state` | Quot.sound, propext |
| `C23_output` | Classical.choice, Quot.sound, propext |
| `C23_reanchored_fails` | propext |
| `C23_state_at_outpoint` | Quot.sound, propext |
| `C23_state_queries_partial` | Quot.sound, propext |
| `C23_state_queries_single_witness_partial` | Quot.sound, propext |
| `C24_global_state_fails` | Quot.sound, propext |
| `C24_reorg_safety_partial` | Quot.sound, propext |
| `C25_succeeded_fails` | propext |
| `C25_update_witnesses_partial` | Classical.choice, Quot.sound, propext |
| `C26_order_fails` | propext |
| `C26_order_partial` | Quot.sound, propext |
| `C26_readding` | Quot.sound, propext |
| `C27_global_state_partial` | Quot.sound, propext |
| `C27_listed_partial` | Classical.choice, Quot.sound, propext |
| `C27_most_recent_fails` | propext |
| `C27_order_partial` | Quot.sound, propext |
| `C28_all_accepted` | propext |
| `C28_consignment_calls` | Classical.choice, Quot.sound, propext |
| `C29_select_valid_witness` | Quot.sound, propext |
| `C30_content_addressed` | Classical.choice, Quot.sound, propext |
| `C30_histories_partial` | Classical.choice, Quot.sound, propext |
| `C30_iface_by_name` | Classical.choice, Quot.sound, propext |
| `C30_implementation_fails` | Classical.choice, Quot.sound, propext |
| `C30_monotone_partial` | Classical.choice, Quot.sound, propext |
| `C30_name_lookup_fails` | Classical.choice, Quot.sound, propext |
| `C31_consumed_retrievable_partial` | Classical.choice, Quot.sound, propext |
| `C31_known_transaction_fails` | propext |
| `C31_nothing_lost` | Classical.choice, Quot.sound, propext |
| `C31_transitions_fails` | Quot.sound, propext |
| `C32_history` | Classical.choice, Quot.sound, propext |
| `C32_import_signatures` | Classical.choice, Quot.sound, propext |
| `C32_levels` | none |
| `C33_resolve_terminals` | Quot.sound, propext |
| `C33_secret_found` | Classical.choice, Quot.sound, propext |
| `C34_begin_fails` | propext |
| `C34_body_fails` | propext |
| `C34_commit_fails` | propext |
| `C34_consume_consignment_fails` | Classical.choice, Quot.sound, propext |
| `C34_consume_consignment_partial` | Classical.choice, Quot.sound, propext |
| `C34_consume_fascia_fails` | Classical.choice, Quot.sound, propext |
| `C34_consume_fascia_partial` | Classical.choice, Quot.sound, propext |
| `C34_failed_written_fails` | propext |
| `C34_memory_panics` | propext |
| `C34_transaction_partial` | Quot.sound, propext |
| `C35_acknowledged` | Quot.sound, propext |
| `C35_combinations` | Quot.sound, propext |
| `C35_disk_after_crash` | Quot.sound, propext |
| `C35_loaded_partial` | Quot.sound, propext |
| `C35_torn_fails` | Quot.sound, propext |
| `C36_annotations` | Classical.choice, Quot.sound, propext |
| `C36_documents` | Classical.choice, Quot.sound, propext |
| `C36_extension_fails` | Classical.choice, Quot.sound, propext |
| `C36_full_history_partial` | Classical.choice, Quot.sound, propext |
| `C36_same_outpoint_fails` | Classical.choice, Quot.sound, propext |
| `C36_terminals` | Classical.choice, Quot.sound, propext |
| `C36_terminals_panic` | Classical.choice, Quot.sound, propext |
| `C36_terminates` | Quot.sound, propext |
| `C37_nothing_unrelated_partial` | Classical.choice, Quot.sound, propext |
| `C37_siblings_fails` | Classical.choice, Quot.sound, propext |
| `C38_apart` | Classical.choice, Quot.sound, propext |
| `C38_collision_fails` | Classical.choice, Quot.sound, propext |
| `C38_conserved_partial` | Classical.choice, Quot.sound, propext |
| `C38_inputs` | Classical.choice, Quot.sound, propext |
| `C38_moved_fails` | Classical.choice, Quot.sound, propext |
| `C38_moved_partial` | Classical.choice, Quot.sound, propext |
| `C38_once` | Classical.choice, Quot.sound, propext |
| `C38_overflow_fails` | Classical.choice, Quot.sound, propext |
| `C38_single` | Classical.choice, Quot.sound, propext |
| `C38_targets` | Classical.choice, Quot.sound, propext |
| `C39_covered` | Classical.choice, Quot.sound, propext |
| `C39_exact` | Classical.choice, Quot.sound, propext |
| `C39_reason` | Classical.choice, Quot.sound, propext |
| `C40_archived_fails` | Classical.choice, Quot.sound, propext |
| `C40_collision_fails` | Classical.choice, Quot.sound, propext |
| `C40_contracts` | Classical.choice, Quot.sound, propext |
| `C40_inputs` | Classical.choice, Quot.sound, propext |
| `C40_moved_partial` | Classical.choice, Quot.sound, propext |
| `C40_once` | Classical.choice, Quot.sound, propext |
| `C40_targets` | Classical.choice, Quot.sound, propext |
| `C41_other_tokens_fails` | Classical.choice, Quot.sound, propext |
| `C41_token_partial` | Classical.choice, Quot.sound, propext |
| `C41_zero_amount_fails` | Classical.choice, Quot.sound, propext |
| `C42_accepted` | Classical.choice, Quot.sound, propext |
| `C42_expired` | Classical.choice, Quot.sound, propext |
| `C42_no_contract` | Classical.choice, Quot.sound, propext |
| `C42_no_iface` | Classical.choice, Quot.sound, propext |
| `C43_balanced_partial` | Classical.choice, Quot.sound, propext |
| `C43_burn_fails` | Classical.choice, Quot.sound, propext |
| `C43_issue_partial` | Classical.choice, Quot.sound, propext |
| `C43_issue_transition_partial` | Classical.choice, Quot.sound, propext |
| `C44_fixed` | Classical.choice, Quot.sound, propext |
| `C44_state` | Classical.choice, Quot.sound, propext |
| `C44_transition` | Classical.choice, Quot.sound, propext |
| `C45_layer` | Classical.choice, Quot.sound, propext |
| `C45_refused` | Classical.choice, Quot.sound, propext |
| `C46_assigned_contract_partial` | Classical.choice, Quot.sound, propext |
| `C46_assigned_partial` | Classical.choice, Quot.sound, propext |
| `C46_completes` | Classical.choice, Quot.sound, propext |
| `C46_globals` | Classical.choice, Quot.sound, propext |
| `C46_globals_contract` | Classical.choice, Quot.sound, propext |
| `C46_header` | Classical.choice, Quot.sound, propext |
| `C46_header_contract` | Classical.choice, Quot.sound, propext |
| `C46_inputs` | Classical.choice, Quot.sound, propext |
| `C46_issues` | Classical.choice, Quot.sound, propext |
| `C46_metadata_fails` | Classical.choice, Quot.sound, propext |
| `C46_same_seal_fails` | Classical.choice, Quot.sound, propext |
| `C47_exact` | Quot.sound, propext |
| `C47_partial_order` | Quot.sound, propext |
| `C48_incompatible` | Classical.choice, Quot.sound, propext |
| `C48_inherit` | Classical.choice, Quot.sound, propext |
| `C48_inherit_refused` | Quot.sound, propext |
| `C48_parents_kept` | Classical.choice, Quot.sound, propext |
| `C48_reason` | Quot.sound, propext |
| `C48_refused_exact` | Classical.choice, Quot.sound, propext |
| `C49_fails` | Quot.sound, propext |
| `C49_final_partial` | Classical.choice, Quot.sound, propext |
| `C49_refused_partial` | Classical.choice, Quot.sound, propext |
| `C50_exact` | Quot.sound, propext |
| `C50_passes` | Classical.choice, Quot.sound, propext |
| `C51_lookups` | Classical.choice, Quot.sound, propext |
| `C51_passes_partial` | Classical.choice, Quot.sound, propext |
| `C51_reported_partial` | Classical.choice, Quot.sound, propext |
| `C51_twice_fails` | propext |
| `C51_unknown_fails` | Quot.sound, propext |
| `C52_derived_partial` | Classical.choice, Quot.sound, propext |
| `C52_errors_fails` | propext |
| `C52_kept_partial` | Classical.choice, Quot.sound, propext |
| `C52_panic_partial` | Quot.sound, propext |
| `C52_refused` | Quot.sound, propext |
| `C52_valencies_fails` | Quot.sound, propext |
| `C53_exact_partial` | Quot.sound, propext |
| `C53_fails` | none |
| `C53_order_partial` | Quot.sound, propext |
| `C54_allocations` | Classical.choice, Quot.sound, propext |
| `C54_by_name` | Quot.sound, propext |
| `C54_contents` | Classical.choice, Quot.sound, propext |
| `C54_exclude` | propext |
| `C54_include` | Quot.sound, propext |
| `C54_outpoint` | Classical.choice, Quot.sound, propext |
| `C55_change_fails` | Quot.sound, propext |
| `C55_concealed_fails` | propext |
| `C55_fungible_partial` | Classical.choice, Quot.sound, propext |
| `C55_history` | propext |
| `C55_include_all_fails` | propext |
| `C55_items` | Classical.choice, Quot.sound, propext |
| `C55_once` | Classical.choice, Quot.sound, propext |
| `C55_two_types_fails` | propext |
| `C56_composed_ids` | Classical.choice, Quot.sound, propext |
| `C56_ids_fails` | Classical.choice, Quot.sound, propext |
| `C56_ids_partial` | Classical.choice, Quot.sound, propext |
| `C56_info` | Classical.choice, Quot.sound, propext |
| `C56_iterates` | propext |
| `C56_methods` | Quot.sound, propext |
| `C56_outputs` | Classical.choice, Quot.sound, propext |
| `C56_pairs` | Classical.choice, Quot.sound, propext |
| `C56_priority` | Quot.sound, propext |
| `C56_union` | none |
| `C57_accepted` | propext |
| `C57_pair` | propext |
| `C57_reveal` | Classical.choice, Quot.sound, propext |
| `C57_reveal_refused` | Quot.sound, propext |
| `C57_same` | propext |
| `C57_third` | propext |
| `C58_bundle` | Quot.sound, propext |
| `C58_bundle_commits` | Quot.sound, propext |
| `C58_bundle_exact` | Quot.sound, propext |
| `C58_consistent` | Quot.sound, propext |
| `C58_found_partial` | Quot.sound, propext |
| `C58_found_same_partial` | Quot.sound, propext |
| `C58_genesis` | Quot.sound, propext |
| `C58_miskeyed_fails` | Classical.choice, Quot.sound, propext |
| `C58_op_witness` | Quot.sound, propext |
| `C58_operation_partial` | Quot.sound, propext |
| `C58_script` | Quot.sound, propext |
| `C58_shadowed_fails` | Classical.choice, Quot.sound, propext |
| `C58_witness` | Quot.sound, propext |
| `C59_armored` | propext |
| `C59_armored_kind_fails` | Classical.choice, Quot.sound, propext |
| `C59_armored_roundtrip` | Quot.sound, propext |
| `C59_armored_type` | Classical.choice, Quot.sound, propext |
| `C59_crash` | Classical.choice, Quot.sound, propext |
| `C59_flag_fails` | Classical.choice, Quot.sound, propext |
| `C59_header_fails` | Classical.choice, Quot.sound, propext |
| `C59_headers` | Classical.choice, Quot.sound, propext |
| `C59_into_contract` | none |
| `C59_kit_headers` | Classical.choice, Quot.sound, propext |
| `C59_magic` | Classical.choice, Quot.sound, propext |
| `C59_overwrite_fails` | Classical.choice, Quot.sound, propext |
| `C59_panics` | Quot.sound, propext |
| `C59_roundtrip` | Quot.sound, propext |
| `C59_string_partial` | Quot.sound, propext |
| `C59_truncated` | Classical.choice, Quot.sound, propext |
| `C59_type_safe` | Classical.choice, Quot.sound, propext |
| `C59_universal` | Classical.choice, Quot.sound, propext |
| `C59_universal_roundtrip` | Classical.choice, Quot.sound, propext |
| `C60_annotate` | Quot.sound, propext |
| `C60_default` | propext |
| `C60_failed_fails` | Quot.sound, propext |
| `C60_failed_partial` | Quot.sound, propext |
| `C60_history` | Quot.sound, propext |
| `C60_refused` | Classical.choice, Quot.sound, propext |
| `C60_roundtrip` | Quot.sound, propext |
| `C60_velocity` | Quot.sound, propext |
| `C61_calls_partial` | Quot.sound, propext |
| `C61_iterator_partial` | propext |
| `C61_only_items_partial` | Quot.sound, propext |
| `C61_reset_fails` | propext |
| `C61_size_fails` | propext |
| `C62_listing_by_interface` | Quot.sound, propext |
| `C63_extends_partial` | Classical.choice, Quot.sound, propext |
| `C63_fails` | Quot.sound, propext |
| `C63_inherit_partial` | Classical.choice, Quot.sound, propext |
| `C64_bundles` | Classical.choice, Quot.sound, propext |
| `C64_documents` | Classical.choice, Quot.sound, propext |
| `C64_found` | Classical.choice, Quot.sound, propext |
| `C64_globals` | Classical.choice, Quot.sound, propext |
| `C64_order` | Classical.choice, Quot.sound, propext |
| `C64_state_fails` | Classical.choice, Quot.sound, propext |
| `C64_state_partial` | Classical.choice, Quot.sound, propext |
| `C64_transferable` | Classical.choice, Quot.sound, propext |
| `C64_transferable_secret` | Classical.choice, Quot.sound, propext |
| `C64_transferred` | Classical.choice, Quot.sound, propext |
| `C64_transition_fails` | Classical.choice, Quot.sound, propext |
| `C64_transitions_partial` | Classical.choice, Quot.sound, propext |
| `C65_contract_partial` | Classical.choice, Quot.sound, propext |
| `C65_data_fails` | Classical.choice, Quot.sound, propext |
| `C65_transition_partial` | Classical.choice, Quot.sound, propext |
| `C66_answered_partial` | Classical.choice, Quot.sound, propext |
| `C66_operation_fails` | Classical.choice, Quot.sound, propext |
| `C66_refused_partial` | Classical.choice, Quot.sound, propext |
| `C66_state_fails` | Classical.choice, Quot.sound, propext |
| `C66_sum_fails` | Classical.choice, Quot.sound, propext |
| `C67_armored_fails` | Classical.choice, Quot.sound, propext |
| `C67_armored_partial` | Classical.choice, Quot.sound, propext |
| `C67_attachment_fails` | Classical.choice, Quot.sound, propext |
| `C67_consignment_partial` | Classical.choice, Quot.sound, propext |
| `C67_iface_fails` | Classical.choice, Quot.sound, propext |
| `C67_kit` | Classical.choice, Quot.sound, propext |
| `C67_schema_fails` | Classical.choice, Quot.sound, propext |
| `C68_accepted_fails` | propext |
| `C68_kit` | none |
| `C68_report` | Quot.sound, propext |
| `C68_verdict` | Quot.sound, propext |
| `C69_accepted` | Classical.choice, Quot.sound, propext |
| `C69_equality` | Classical.choice, Quot.sound, propext |
| `C69_equivalence` | Quot.sound, propext |
| `C69_hash` | propext |
| `C69_order_fails` | Classical.choice, Quot.sound, propext |
| `C69_order_partial` | Quot.sound, propext |
| `C70_accepted` | Classical.choice, Quot.sound, propext |
| `C70_charset_fails` | Classical.choice, Quot.sound, propext |
| `C70_injective` | Classical.choice, Quot.sound, propext |
| `C70_roundtrip_partial` | Classical.choice, Quot.sound, propext |
| `C71_asset` | Classical.choice, Quot.sound, propext |
| `C71_contract` | Classical.choice, Quot.sound, propext |
| `C71_details` | propext |
| `C71_equality` | Classical.choice, Quot.sound, propext |
| `C71_static` | propext |
| `C72_accepts` | Classical.choice, Quot.sound, propext |
| `C72_new_wallet` | Classical.choice, Quot.sound, propext |
| `C73_accepted_partial` | Classical.choice, Quot.sound, propext |
| `C73_new_wallet_partial` | Classical.choice, Quot.sound, propext |
| `C73_of_contract` | Classical.choice, Quot.sound, propext |
| `C73_same_name_fails` | Classical.choice, Quot.sound, propext |
| `C74_genesis_fails` | Classical.choice, Quot.sound, propext |
| `C74_payment_partial` | Classical.choice, Quot.sound, propext |
| `C74_received_new` | Classical.choice, Quot.sound, propext |
| `C74_received_partial` | Classical.choice, Quot.sound, propext |
| `C74_terminals` | Classical.choice, Quot.sound, propext |
| `C75_exported` | Classical.choice, Quot.sound, propext |
| `C75_finished` | Classical.choice, Quot.sound, propext |
| `C75_genesis_state` | Classical.choice, Quot.sound, propext |
| `C75_imported_partial` | Classical.choice, Quot.sound, propext |
| `C75_only_genesis` | Classical.choice, Quot.sound, propext |
| `C75_same_name_fails` | Classical.choice, Quot.sound, propext |
| `C76_class` | Classical.choice, Quot.sound, propext |
| `C76_global` | Classical.choice, Quot.sound, propext |
| `C76_listed` | Classical.choice, Quot.sound, propext |
| `C76_opened` | Classical.choice, Quot.sound, propext |
| `C77_contents_partial` | Classical.choice, Quot.sound, propext |
| `C77_errors` | Classical.choice, Quot.sound, propext |
| `C77_exported` | Classical.choice, Quot.sound, propext |
| `C77_imported_partial` | Classical.choice, Quot.sound, propext |
| `C77_same_name_fails` | Classical.choice, Quot.sound, propext |
| `C78_found_partial` | Classical.choice, Quot.sound, propext |
| `C78_listed_fails` | Classical.choice, Quot.sound, propext |
| `C78_listed_partial` | Classical.choice, Quot.sound, propext |
| `C78_nothing_left_partial` | Classical.choice, Quot.sound, propext |
| `C79_bundles_partial` | Classical.choice, Quot.sound, propext |
| `C79_converse_fails` | Classical.choice, Quot.sound, propext |
| `C79_globals_partial` | Classical.choice, Quot.sound, propext |
| `C79_outputs_partial` | Classical.choice, Quot.sound, propext |
| `C79_state_fails` | Classical.choice, Quot.sound, propext |
| `C79_state_partial` | Classical.choice, Quot.sound, propext |
| `C80_any_order_partial` | Quot.sound, propext |
| `C80_validation_reads_partial` | Quot.sound, propext |
| `C80_witness_fails` | Classical.choice, Quot.sound, propext |
| `C81_blank_fails` | Classical.choice, Quot.sound, propext |
| `C81_blank_partial` | Classical.choice, Quot.sound, propext |
| `C81_contract` | Classical.choice, Quot.sound, propext |
| `C81_contract_with` | Classical.choice, Quot.sound, propext |
| `C81_operation_fails` | Classical.choice, Quot.sound, propext |
| `C81_total_partial` | Classical.choice, Quot.sound, propext |
| `C81_transition` | Classical.choice, Quot.sound, propext |
| `C82_globals` | Classical.choice, Quot.sound, propext |
| `C82_imported` | Classical.choice, Quot.sound, propext |
| `C82_next` | Classical.choice, Quot.sound, propext |
| `C82_stash` | Classical.choice, Quot.sound, propext |
| `C82_state` | Classical.choice, Quot.sound, propext |
| `C83_consignment_partial` | Classical.choice, Quot.sound, propext |
| `C83_crash_partial` | Classical.choice, Quot.sound, propext |
| `C83_fascia_partial` | Classical.choice, Quot.sound, propext |
| `C83_often_fascia_partial` | Classical.choice, Quot.sound, propext |
| `C83_often_partial` | Classical.choice, Quot.sound, propext |
| `C83_repeat_fails` | Classical.choice, Quot.sound, propext |
| `C84_consignment_partial` | Classical.choice, Quot.sound, propext |
| `C84_crash_partial` | Classical.choice, Quot.sound, propext |
| `C84_fascia_partial` | Classical.choice, Quot.sound, propext |
| `C84_full_fails` | Classical.choice, Quot.sound, propext |
| `C84_kit_partial` | Classical.choice, Quot.sound, propext |
| `C84_witness_fails` | Classical.choice, Quot.sound, propext |
| `C85_new_wallet_partial` | Classical.choice, Quot.sound, propext |
| `C85_passed_on_partial` | Classical.choice, Quot.sound, propext |
| `C85_received` | Classical.choice, Quot.sound, propext |
| `C85_siblings_fails` | Classical.choice, Quot.sound, propext |
| `C85_spent` | Classical.choice, Quot.sound, propext |
| `C85_transferable` | Classical.choice, Quot.sound, propext |
| `C86_accepted` | Classical.choice, Quot.sound, propext |
| `C86_class_fails` | Classical.choice, Quot.sound, propext |
| `C86_contracts` | Classical.choice, Quot.sound, propext |
| `C86_created_fails` | Classical.choice, Quot.sound, propext |
| `C86_inherited_fails` | Classical.choice, Quot.sound, propext |
| `C86_inherited_partial` | Classical.choice, Quot.sound, propext |
| `C86_interfaces` | Classical.choice, Quot.sound, propext |
| `C86_schema_fails` | Classical.choice, Quot.sound, propext |
| `C86_schemata` | Classical.choice, Quot.sound, propext |
| `C86_stable` | Classical.choice, Quot.sound, propext |
| `C87_assignment` | Classical.choice, Quot.sound, propext |
| `C87_checked` | Quot.sound, propext |
| `C87_declarations_partial` | Classical.choice, Quot.sound, propext |
| `C87_default_fails` | Classical.choice, Quot.sound, propext |
| `C87_default_partial` | Classical.choice, Quot.sound, propext |
| `C87_descriptions_fails` | Classical.choice, Quot.sound, propext |
| `C87_extension` | Classical.choice, Quot.sound, propext |
| `C87_global` | Classical.choice, Quot.sound, propext |
| `C87_namesakes_fails` | Classical.choice, Quot.sound, propext |
| `C87_transition` | Classical.choice, Quot.sound, propext |
| `C87_valency` | Classical.choice, Quot.sound, propext |
| `C88_asset` | Classical.choice, Quot.sound, propext |
| `C88_attachment` | Classical.choice, Quot.sound, propext |
| `C88_contract` | Classical.choice, Quot.sound, propext |
| `C88_media` | Classical.choice, Quot.sound, propext |
| `C88_reserves` | Classical.choice, Quot.sound, propext |
| `C88_simple` | Classical.choice, Quot.sound, propext |
| `C88_stored` | Classical.choice, Quot.sound, propext |
| `C88_terms` | Classical.choice, Quot.sound, propext |
| `C89_arrives` | Classical.choice, Quot.sound, propext |
| `C89_made` | Classical.choice, Quot.sound, propext |
| `C89_sent` | Classical.choice, Quot.sound, propext |
| `C90_limits` | Classical.choice, Quot.sound, propext |
| `C90_refused` | Classical.choice, Quot.sound, propext |
| `C91_arrives` | Classical.choice, Quot.sound, propext |
| `C91_change` | Classical.choice, Quot.sound, propext |
| `C91_given` | Classical.choice, Quot.sound, propext |
| `C91_invoiced_chain` | propext |
| `C91_seen` | Classical.choice, Quot.sound, propext |
| `C91_sent` | Classical.choice, Quot.sound, propext |
| `C91_state` | Classical.choice, Quot.sound, propext |
| `C91_state_now` | Classical.choice, Quot.sound, propext |
| `C92_kept_partial` | Classical.choice, Quot.sound, propext |
| `C92_spent_partial` | Classical.choice, Quot.sound, propext |
| `C92_token_arrives` | Classical.choice, Quot.sound, propext |
| `C92_token_given` | Classical.choice, Quot.sound, propext |
| `C92_token_taken` | Classical.choice, Quot.sound, propext |
| `C93_amounts` | Classical.choice, Quot.sound, propext |
| `C93_composed` | Classical.choice, Quot.sound, propext |
| `C93_needs` | Classical.choice, Quot.sound, propext |
| `C93_paid` | Classical.choice, Quot.sound, propext |
| `C93_tokens` | Classical.choice, Quot.sound, propext |
| `C94_accepts` | Classical.choice, Quot.sound, propext |
| `C94_exact` | Classical.choice, Quot.sound, propext |
| `C94_needs` | Classical.choice, Quot.sound, propext |
| `C94_payment` | Classical.choice, Quot.sound, propext |
| `C95_new_wallet` | Classical.choice, Quot.sound, propext |
| `C95_output` | Classical.choice, Quot.sound, propext |
| `C95_output_new_wallet` | Classical.choice, Quot.sound, propext |
| `C95_output_paid` | Classical.choice, Quot.sound, propext |
| `C95_output_token` | Classical.choice, Quot.sound, propext |
| `C95_output_token_new_wallet` | Classical.choice, Quot.sound, propext |
| `C95_paid` | Classical.choice, Quot.sound, propext |
| `C95_token` | Classical.choice, Quot.sound, propext |
| `C95_token_new_wallet` | Classical.choice, Quot.sound, propext |
| `C95_transferred` | Classical.choice, Quot.sound, propext |
| `C96_assignments` | Classical.choice, Quot.sound, propext |
| `C96_consigned` | Classical.choice, Quot.sound, propext |
| `C96_contracts` | Classical.choice, Quot.sound, propext |
| `C96_globals` | Classical.choice, Quot.sound, propext |
| `C96_hidden` | Classical.choice, Quot.sound, propext |
| `C96_imported` | Classical.choice, Quot.sound, propext |
| `C96_shown` | Classical.choice, Quot.sound, propext |
| `C96_stored` | Classical.choice, Quot.sound, propext |
| `C97_new_wallet` | Classical.choice, Quot.sound, propext |
| `C97_paid` | Classical.choice, Quot.sound, propext |
| `C97_payable` | Classical.choice, Quot.sound, propext |
| `C97_state` | Classical.choice, Quot.sound, propext |
| `C97_token` | Classical.choice, Quot.sound, propext |
| `C97_token_new_wallet` | Classical.choice, Quot.sound, propext |
| `C97_transferable` | Classical.choice, Quot.sound, propext |
| `C98_accepted` | Classical.choice, Quot.sound, propext |
| `C98_agrees` | Classical.choice, Quot.sound, propext |
| `C98_output_paid` | Classical.choice, Quot.sound, propext |
| `C98_output_token` | Classical.choice, Quot.sound, propext |
| `C98_paid` | Classical.choice, Quot.sound, propext |
| `C98_same` | Classical.choice, Quot.sound, propext |
| `C98_token` | Classical.choice, Quot.sound, propext |
| `C99_careful_partial` | Classical.choice, Quot.sound, propext |
| `C99_history` | Classical.choice, Quot.sound, propext |
| `C99_listed_partial` | Classical.choice, Quot.sound, propext |
| `C99_restarts_partial` | Classical.choice, Quot.sound, propext |
| `C99_trust_fails` | Classical.choice, Quot.sound, propext |
| `C99_undone` | Classical.choice, Quot.sound, propext |
| `C99_written_fails` | Classical.choice, Quot.sound, propext |
