# Axioms per theorem (from `#print axioms`)

| theorem | axioms |
|---|---|
| `CC.Props.C01_fresh` | propext, Classical.choice, Quot.sound |
| `CC.Props.C01_permanent` | propext, Classical.choice, Quot.sound |
| `CC.Props.C01_definition` | propext, Classical.choice, Quot.sound |
| `CC.Props.C02_inputs` | propext, Classical.choice, Quot.sound |
| `CC.Props.C02_outputs` | propext, Classical.choice, Quot.sound |
| `CC.Props.C02_output_wire` | propext, Classical.choice, Quot.sound |
| `CC.Props.C03_accepts` | propext, Classical.choice, Quot.sound |
| `CC.Props.C03_rejects` | propext, Classical.choice, Quot.sound |
| `CC.Props.C04_counters` | propext, Classical.choice, Quot.sound |
| `CC.Props.C05_dependents` | propext, Classical.choice, Quot.sound |
| `CC.Props.C05_none` | propext, Classical.choice, Quot.sound |
| `CC.Props.C05_list` | propext, Classical.choice, Quot.sound |
| `CC.Props.C06_const_gates` | propext, Classical.choice, Quot.sound |
| `CC.Props.C06_values` | propext, Classical.choice, Quot.sound |
| `CC.Props.C06_complete` | propext, Classical.choice, Quot.sound |
| `CC.Props.C07_lookup` | propext, Classical.choice, Quot.sound |
| `CC.Props.C07_register_id` | propext, Classical.choice, Quot.sound |
| `CC.Props.C07_sub_circuit` | propext, Classical.choice, Quot.sound |
| `CC.Props.C07_permanent` | propext, Classical.choice, Quot.sound |
| `CC.Props.C07_shared` | propext, Classical.choice, Quot.sound |
| `CC.Props.C08_frame` | propext |
| `CC.Props.C08_frame_register` | propext, Classical.choice, Quot.sound |
| `CC.Props.C08_frame_modules` | propext |
| `CC.Props.C09_module` | propext, Classical.choice, Quot.sound |
| `CC.Props.C09_succeeds_iff` | propext, Classical.choice, Quot.sound |
| `CC.Props.C09_unknown` | propext |
| `CC.Props.C09_self` | propext |
| `CC.Props.C10_sound` | propext, Classical.choice, Quot.sound |
| `CC.Props.C10_unique` | propext, Quot.sound |
| `CC.Props.C10_total` | propext, Classical.choice, Quot.sound |
| `CC.Props.C11_fails` | propext, Classical.choice, Quot.sound |
| `CC.Props.C11_frugal_iff` | propext, Classical.choice, Quot.sound |
| `CC.Props.C11_full_false` | propext, Classical.choice, Quot.sound |
| `CC.Props.C11_partial` | propext, Classical.choice, Quot.sound |
| `CC.Props.C11_local_partial` | propext, Classical.choice, Quot.sound |
| `CC.Props.C12_wrong_length` | propext |
| `CC.Props.C12_ok_length` | propext |
| `CC.Props.C13_stable` | propext, Quot.sound |
| `CC.Props.C13_bound` | propext, Classical.choice, Quot.sound |
| `CC.Props.C13_bound_local` | propext, Classical.choice, Quot.sound |
| `CC.Props.C14_gate` | propext, Classical.choice, Quot.sound |
| `CC.Props.C14_call` | propext, Classical.choice, Quot.sound |
| `CC.Props.C15_equivalent` | propext, Classical.choice, Quot.sound |
| `CC.Props.C15_identity` | propext, Classical.choice, Quot.sound |
| `CC.Props.C16_read` | propext, Classical.choice, Quot.sound |
| `CC.Props.C16_eval` | propext, Classical.choice, Quot.sound |
| `CC.Props.C16_evicted` | propext, Classical.choice, Quot.sound |
| `CC.Props.C17_rejects` | propext, Classical.choice, Quot.sound |
| `CC.Props.C17_not_valid` | propext, Classical.choice, Quot.sound |
| `CC.Props.C17_unique` | propext, Classical.choice, Quot.sound |
| `CC.Props.C18_extends` | propext, Classical.choice, Quot.sound |
| `CC.Props.C18_values` | propext, Classical.choice, Quot.sound |
| `CC.Props.C19_computes` | propext, Classical.choice, Quot.sound |
| `CC.Props.C19_built` | propext, Classical.choice, Quot.sound |
| `CC.Props.C19_unique` | propext, Classical.choice, Quot.sound |
| `CC.Props.C19_stale_false` | propext, Classical.choice, Quot.sound |
| `CC.Props.C20_wires` | propext, Classical.choice, Quot.sound |
| `CC.Props.C20_once` | propext, Classical.choice, Quot.sound |
| `CC.Props.C21_built` | propext, Classical.choice, Quot.sound |
| `CC.Props.C21_returns` | propext, Classical.choice, Quot.sound |
| `CC.Props.C21_unique` | propext, Classical.choice, Quot.sound |
| `CC.Props.C21_panics` | propext, Classical.choice, Quot.sound |
| `CC.Props.C22_reads_iff` | propext, Classical.choice, Quot.sound |
| `CC.Props.C22_const_false` | propext, Classical.choice, Quot.sound |
| `CC.Props.C22_dead_false` | propext, Classical.choice, Quot.sound |
| `CC.Props.C22_roundtrip_partial` | propext, Classical.choice, Quot.sound |
| `CC.Props.C22_reads_as` | propext, Classical.choice, Quot.sound |
| `CC.Props.C22_shared_false` | propext, Classical.choice, Quot.sound |
| `CC.Props.C22_full_false` | propext, Classical.choice, Quot.sound |
| `CC.Props.C23_roundtrip` | propext, Classical.choice, Quot.sound |
| `CC.Props.C23_accepts` | propext, Quot.sound |
| `CC.Props.C23_rejects` | propext, Quot.sound |
| `CC.Props.C23_token` | propext, Classical.choice, Quot.sound |
| `CC.Props.C24_config` | propext, Classical.choice, Quot.sound |
| `CC.Props.C24_add` | propext, Classical.choice, Quot.sound |
| `CC.Props.C25_sub` | propext, Classical.choice, Quot.sound |
| `CC.Props.C25_neg` | propext, Classical.choice, Quot.sound |
| `CC.Props.C26_mul` | propext, Classical.choice, Quot.sound |
| `CC.Props.C27_build` | propext, Classical.choice, Quot.sound |
| `CC.Props.C27_mulExtend` | propext, Classical.choice, Quot.sound |
| `CC.Props.C28_eq` | propext, Classical.choice, Quot.sound |
| `CC.Props.C28_neq` | propext, Classical.choice, Quot.sound |
| `CC.Props.C28_bits` | propext, Classical.choice, Quot.sound |
| `CC.Props.C29_exact` | propext, Classical.choice, Quot.sound |
| `CC.Props.C29_order_partial` | propext, Classical.choice, Quot.sound |
| `CC.Props.C29_false` | propext, Classical.choice, Quot.sound |
| `CC.Props.C30_shl` | propext, Classical.choice, Quot.sound |
| `CC.Props.C30_shr` | propext, Classical.choice, Quot.sound |
| `CC.Props.C30_too_far` | propext, Classical.choice, Quot.sound |
| `CC.Props.C31_fromBiguint` | propext, Classical.choice, Quot.sound |
| `CC.Props.C31_fromBiguint_panic` | propext, Classical.choice, Quot.sound |
| `CC.Props.C31_fromGateIds` | propext, Classical.choice, Quot.sound |
| `CC.Props.C31_fromGateIds_panic` | propext, Quot.sound |
| `CC.Props.C31_zero` | propext, Classical.choice, Quot.sound |
| `CC.Props.C31_one` | propext, Classical.choice, Quot.sound |
| `CC.Props.C32_program_partial` | propext, Classical.choice, Quot.sound |
| `CC.Props.C32_single_partial` | propext, Classical.choice, Quot.sound |
| `CC.Props.C32_full_false` | propext, Classical.choice, Quot.sound |
| `CC.Props.C32_order_needed` | propext, Classical.choice, Quot.sound |
| `CC.Props.C32_width_needed` | propext, Classical.choice, Quot.sound |
| `CC.Props.C32_repaired` | propext, Classical.choice, Quot.sound |
| `CC.Props.C33_config` | propext, Classical.choice, Quot.sound |
| `CC.Props.C33_not` | propext, Classical.choice, Quot.sound |
| `CC.Props.C33_and_or_xor` | propext, Classical.choice, Quot.sound |
| `CC.Props.C34_mux` | propext, Classical.choice, Quot.sound |
| `CC.Props.C35_config` | propext, Classical.choice, Quot.sound |
| `CC.Props.C35_add_partial` | propext, Classical.choice, Quot.sound |
| `CC.Props.C35_full_false` | propext, Classical.choice, Quot.sound |
| `CC.Props.C36_sub` | propext, Classical.choice, Quot.sound |
| `CC.Props.C36_neg` | propext, Classical.choice, Quot.sound |
| `CC.Props.C36_room_needed` | propext, Classical.choice, Quot.sound |
| `CC.Props.C37_mul_partial` | propext, Classical.choice, Quot.sound |
| `CC.Props.C37_full_false` | propext, Classical.choice, Quot.sound |
| `CC.Props.C38_montRed_partial` | propext, Classical.choice, Quot.sound |
| `CC.Props.C38_full_false` | propext, Classical.choice, Quot.sound |
| `CC.Props.C39_constant` | propext, Classical.choice, Quot.sound |
| `CC.Props.C39_config` | propext, Classical.choice, Quot.sound |
| `CC.Props.C40_bezout` | propext, Classical.choice, Quot.sound |
| `CC.Props.C40_gcd` | propext, Quot.sound |
| `CC.Props.C40_dvd` | propext, Quot.sound |
| `CC.Props.C40_nonneg` | propext, Quot.sound |
| `CC.Props.C41_bytes_bits_bytes_le` | propext |
| `CC.Props.C41_bytes_bits_bytes_be` | propext |
| `CC.Props.C41_bits_bytes_bits_le` | propext, Classical.choice, Quot.sound |
| `CC.Props.C41_bits_bytes_bits_be` | propext, Classical.choice, Quot.sound |
| `CC.Props.C41_bad_length` | propext, Quot.sound |
| `CC.Props.C41_lengths` | propext, Classical.choice, Quot.sound |
| `CC.Props.C42_le_positions` | propext, Classical.choice, Quot.sound |
| `CC.Props.C42_be_positions` | propext, Classical.choice, Quot.sound |
| `CC.Props.C42_le_value` | propext |
| `CC.Props.C42_be_value` | propext, Quot.sound |
| `CC.Props.C42_le_bytes` | propext, Classical.choice, Quot.sound |
| `CC.Props.C42_be_bytes` | propext, Classical.choice, Quot.sound |
| `CC.Props.C43_encode` | propext, Classical.choice, Quot.sound |
| `CC.Props.C43_round_trip` | propext, Classical.choice, Quot.sound |
| `CC.Props.C43_odd` | propext, Quot.sound |
| `CC.Props.C43_decode` | propext, Classical.choice, Quot.sound |
| `CC.Props.C43_bad_char` | propext, Classical.choice, Quot.sound |
| `CC.Props.C44_adder64` | propext, Classical.choice, Quot.sound |
| `CC.Props.C44_into` | propext, Classical.choice, Quot.sound |
| `CC.Props.C45_sub64` | propext, Classical.choice, Quot.sound |
| `CC.Props.C46_neg64` | propext, Classical.choice, Quot.sound |
| `CC.Props.C47_new_int` | propext, Classical.choice, Quot.sound |
| `CC.Props.C47_new_bits` | propext, Classical.choice, Quot.sound |
| `CC.Props.C48_mult64` | propext, Classical.choice, Quot.sound |
| `CC.Props.C48_into` | propext, Classical.choice, Quot.sound |
| `CC.Props.C49_udiv64` | propext, Classical.choice, Quot.sound |
| `CC.Props.C49_into` | propext, Classical.choice, Quot.sound |
| `CC.Props.C50_div64` | propext, Classical.choice, Quot.sound |
| `CC.Props.C50_into` | propext, Classical.choice, Quot.sound |
| `CC.Props.C51_aes128` | propext, Classical.choice, Quot.sound |
| `CC.Props.C51_into` | propext, Classical.choice, Quot.sound |
| `CC.Props.C52_same_error` | propext, Quot.sound |
| `CC.Props.C52_one_run` | propext, Classical.choice, Quot.sound |
| `CC.Props.C53_exact` | propext, Classical.choice, Quot.sound |
| `CC.Props.C53_history` | propext, Classical.choice, Quot.sound |
| `CC.Props.C53_caught` | propext, Classical.choice, Quot.sound |
| `CC.Props.C53_plain` | propext, Classical.choice, Quot.sound |
| `CC.Props.C53_short` | propext, Classical.choice, Quot.sound |
| `CC.Props.C53_overflow` | propext, Classical.choice, Quot.sound |
| `CC.Props.C54_count` | propext, Quot.sound |
| `CC.Props.C54_const` | propext, Quot.sound |
| `CC.Props.C54_iff` | propext, Classical.choice, Quot.sound |
| `CC.Props.C54_wires_decide` | propext |
| `CC.Props.C54_partial` | propext, Quot.sound |
| `CC.Props.C54_plain` | propext, Quot.sound |
| `CC.Props.C54_storage` | propext, Quot.sound |
| `CC.Props.C54_clone` | propext, Quot.sound |
| `CC.Props.C54_false` | propext |
| `CC.Props.C55_accepts_iff` | propext, Classical.choice, Quot.sound |
| `CC.Props.C55_fails_iff` | propext, Classical.choice, Quot.sound |
| `CC.Props.C55_accepts` | propext, Classical.choice, Quot.sound |
| `CC.Props.C55_rejects_partial` | propext, Classical.choice, Quot.sound |
| `CC.Props.C55_valid` | propext, Classical.choice, Quot.sound |
| `CC.Props.C55_false` | propext, Classical.choice, Quot.sound |
| `CC.Props.C56_object` | propext, Classical.choice, Quot.sound |
| `CC.Props.C56_again` | propext, Classical.choice, Quot.sound |
| `CC.Props.C56_same_iff` | propext, Classical.choice, Quot.sound |
| `CC.Props.C56_map` | propext, Classical.choice, Quot.sound |
| `CC.Props.C56_map_again` | propext, Classical.choice, Quot.sound |
| `CC.Props.C56_false` | propext, Classical.choice, Quot.sound |
| `CC.Props.C56_failed_false` | propext, Classical.choice, Quot.sound |
| `CC.Props.C56_map_false` | propext, Classical.choice, Quot.sound |
| `CC.Props.C57_numbering` | propext, Classical.choice, Quot.sound |
| `CC.Props.C57_same_circuit` | propext, Classical.choice, Quot.sound |
| `CC.Props.C57_stable_partial` | propext, Classical.choice, Quot.sound |
| `CC.Props.C57_full_false` | propext, Classical.choice, Quot.sound |
| `CC.Props.C58_eval_chain` | propext, Quot.sound |
| `CC.Props.C58_write_chain` | propext, Classical.choice, Quot.sound |
| `CC.Props.C58_bound_local` | propext, Classical.choice, Quot.sound |
| `CC.Props.C58_bound` | propext, Classical.choice, Quot.sound |
| `CC.Props.C58_eval` | propext, Classical.choice, Quot.sound |
| `CC.Props.C58_write` | propext, Classical.choice, Quot.sound |
| `CC.Props.C58_tight` | propext, Classical.choice, Quot.sound |
| `CC.Props.C58_tight_ok` | propext, Classical.choice, Quot.sound |
| `CC.Props.C59_utf8` | propext, Classical.choice, Quot.sound |
| `CC.Props.C59_text` | propext, Classical.choice, Quot.sound |
| `CC.Props.C59_lines` | propext, Classical.choice, Quot.sound |
| `CC.Props.C59_unreadable` | propext, Classical.choice, Quot.sound |
| `CC.Props.C59_source` | propext, Classical.choice, Quot.sound |
| `CC.Props.C59_fourth` | propext, Classical.choice, Quot.sound |
| `CC.Props.C59_success_partial` | propext, Classical.choice, Quot.sound |
| `CC.Props.C59_full_false` | propext, Classical.choice, Quot.sound |
| `CC.Props.C60_every` | propext, Classical.choice, Quot.sound |
| `CC.Props.C60_truncated` | propext, Classical.choice, Quot.sound |
| `CC.Props.C60_reliable` | propext, Classical.choice, Quot.sound |
| `CC.Props.C60_small` | propext, Classical.choice, Quot.sound |
| `CC.Props.C60_file` | propext, Classical.choice, Quot.sound |
| `CC.Props.C60_success_partial` | propext, Classical.choice, Quot.sound |
| `CC.Props.C60_lost` | propext, Classical.choice, Quot.sound |
| `CC.Props.C60_full_false` | propext, Classical.choice, Quot.sound |
| `CC.Props.C61_same` | propext, Classical.choice, Quot.sound |
| `CC.Props.C61_history` | propext, Classical.choice, Quot.sound |
| `CC.Props.C61_total` | propext |
| `CC.Props.C61_module` | propext |
| `CC.Props.C61_wires` | propext, Quot.sound |
| `CC.Props.C61_sound` | propext, Classical.choice, Quot.sound |
| `CC.Props.C61_eval` | propext, Classical.choice, Quot.sound |
| `CC.Props.C61_differ` | propext, Classical.choice, Quot.sound |
| `CC.Props.C61_wraps` | propext, Classical.choice, Quot.sound |
| `CC.Props.C62_reasons` | propext, Classical.choice, Quot.sound |
| `CC.Props.C62_never` | propext, Classical.choice, Quot.sound |
| `CC.Props.C62_built` | propext, Classical.choice, Quot.sound |
| `CC.Props.C62_release` | propext, Classical.choice, Quot.sound |
| `CC.Props.C62_occurs` | propext, Classical.choice, Quot.sound |
| `CC.Props.C62_endless` | propext |
| `CC.Props.C63_accepts` | propext, Classical.choice, Quot.sound |
| `CC.Props.C63_rejects` | propext, Classical.choice, Quot.sound |
| `CC.Props.C63_panics` | propext, Classical.choice, Quot.sound |
| `CC.Props.C63_total` | propext, Classical.choice, Quot.sound |
| `CC.Props.C63_result` | propext, Classical.choice, Quot.sound |
| `CC.Props.C63_extends` | propext, Classical.choice, Quot.sound |
| `CC.Props.C63_debug` | propext, Classical.choice, Quot.sound |
| `CC.Props.C63_release` | propext, Classical.choice, Quot.sound |
| `CC.Props.C63_silent` | propext, Classical.choice, Quot.sound |
| `CC.Props.C63_wraps` | propext, Classical.choice, Quot.sound |
| `CC.Props.C63_wraps_occurs` | propext, Classical.choice, Quot.sound |
| `CC.Props.C64_iff` | propext, Classical.choice, Quot.sound |
| `CC.Props.C64_writes` | propext, Classical.choice, Quot.sound |
| `CC.Props.C64_reasons` | propext, Classical.choice, Quot.sound |
| `CC.Props.C64_never` | propext, Classical.choice, Quot.sound |
| `CC.Props.C64_stable` | propext, Classical.choice, Quot.sound |
| `CC.Props.C64_evaluates` | propext, Classical.choice, Quot.sound |
| `CC.Props.C64_converse_false` | propext, Classical.choice, Quot.sound |
| `CC.Props.C64_occurs` | propext, Classical.choice, Quot.sound |
| `CC.Props.C64_few` | propext, Classical.choice, Quot.sound |
| `CC.Props.C65_wires` | propext, Quot.sound |
| `CC.Props.C65_added` | propext, Quot.sound |
| `CC.Props.C65_add` | propext, Classical.choice, Quot.sound |
| `CC.Props.C65_sub` | propext, Classical.choice, Quot.sound |
| `CC.Props.C65_neg` | propext, Classical.choice, Quot.sound |
| `CC.Props.C65_mul` | propext, Classical.choice, Quot.sound |
| `CC.Props.C65_compare` | propext, Classical.choice, Quot.sound |
| `CC.Props.C65_shift` | propext, Classical.choice, Quot.sound |
| `CC.Props.C65_values` | propext, Classical.choice, Quot.sound |
| `CC.Props.C65_mulExtend` | propext, Classical.choice, Quot.sound |
| `CC.Props.C65_bits` | propext, Classical.choice, Quot.sound |
| `CC.Props.C65_field` | propext, Classical.choice, Quot.sound |
| `CC.Props.C66_same` | propext |
| `CC.Props.C66_exact_partial` | propext, Classical.choice, Quot.sound |
| `CC.Props.C66_limit` | propext, Classical.choice, Quot.sound |
| `CC.Props.C66_once_partial` | propext, Classical.choice, Quot.sound |
| `CC.Props.C66_per_output` | propext, Classical.choice, Quot.sound |
| `CC.Props.C66_lines_partial` | propext, Classical.choice, Quot.sound |
| `CC.Props.C66_num_gate_partial` | propext, Classical.choice, Quot.sound |
| `CC.Props.C66_once_false` | propext, Classical.choice, Quot.sound |
| `CC.Props.C67_add_sub_mul` | propext, Classical.choice, Quot.sound |
| `CC.Props.C67_less` | propext, Classical.choice, Quot.sound |
| `CC.Props.C67_larger` | propext, Classical.choice, Quot.sound |
| `CC.Props.C67_field` | propext, Classical.choice, Quot.sound |
| `CC.Props.C67_not` | propext, Classical.choice, Quot.sound |
| `CC.Props.C67_and` | propext, Classical.choice, Quot.sound |
| `CC.Props.C67_or` | propext, Classical.choice, Quot.sound |
| `CC.Props.C67_xor` | propext, Classical.choice, Quot.sound |
| `CC.Props.C67_narrow_false` | propext, Quot.sound |
| `CC.Props.C67_blind` | propext, Classical.choice, Quot.sound |
| `CC.Props.C68_program_partial` | propext, Classical.choice, Quot.sound |
| `CC.Props.C68_single_partial` | propext, Classical.choice, Quot.sound |
| `CC.Props.C68_max` | propext, Classical.choice, Quot.sound |
| `CC.Props.C68_max_false` | propext, Quot.sound |
| `CC.Props.C68_abs` | propext, Classical.choice, Quot.sound |
| `CC.Props.C68_order_needed` | propext, Classical.choice, Quot.sound |
| `CC.Props.C68_mux_order_needed` | propext, Quot.sound |
| `CC.Props.C68_repaired` | propext, Classical.choice, Quot.sound |
| `CC.Props.C69_independent` | propext, Classical.choice, Quot.sound |
| `CC.Props.C69_same_calls` | propext, Classical.choice, Quot.sound |
| `CC.Props.C69_self` | propext |
| `CC.Props.C69_register` | propext |
| `CC.Props.C69_store` | propext, Classical.choice, Quot.sound |
| `CC.Props.C69_trace_plain` | propext |
| `CC.Props.C69_trace_clone` | propext |
| `CC.Props.C70_exact` | propext, Classical.choice, Quot.sound |
| `CC.Props.C70_again` | propext, Classical.choice, Quot.sound |
| `CC.Props.C70_tests` | propext, Classical.choice, Quot.sound |
| `CC.Props.C70_false` | propext, Classical.choice, Quot.sound |
| `CC.Props.C70_module_test` | propext, Classical.choice, Quot.sound |
| `CC.Props.C71_adder` | propext, Classical.choice, Quot.sound |
| `CC.Props.C71_mult` | propext, Classical.choice, Quot.sound |
| `CC.Props.C71_neg` | propext, Classical.choice, Quot.sound |
| `CC.Props.C71_aes_exchanged` | propext, Classical.choice, Quot.sound |
| `CC.Props.C71_aes` | propext, Classical.choice, Quot.sound |
| `CC.Props.C71_utils` | propext, Classical.choice, Quot.sound |
| `CC.Props.C72_plain_partial` | propext, Classical.choice, Quot.sound |
| `CC.Props.C72_eq_partial` | propext, Classical.choice, Quot.sound |
| `CC.Props.C72_false` | propext, Classical.choice, Quot.sound |
| `CC.Props.C72_rejected_false` | propext, Classical.choice, Quot.sound |
| `CC.Props.C73_exact` | propext, Classical.choice, Quot.sound |
| `CC.Props.C73_atomic` | propext, Classical.choice, Quot.sound |
| `CC.Props.C73_circular` | propext, Classical.choice, Quot.sound |
| `CC.Props.C73_overflow` | propext, Classical.choice, Quot.sound |
| `CC.Props.C74_partial` | propext, Classical.choice, Quot.sound |
| `CC.Props.C74_false` | propext |
| `CC.Props.C74_loop` | propext |
| `CC.Props.C74_ignored` | propext |
| `CC.Props.C74_ignored_bits` | propext |
| `CC.Props.C74_ignored_fp` | propext |
| `CC.Props.C74_mixed_false` | propext, Classical.choice, Quot.sound |
| `CC.Props.C75_meaning` | propext, Classical.choice, Quot.sound |
| `CC.Props.C75_texts` | propext, Classical.choice, Quot.sound |
| `CC.Props.C76_words` | propext, Classical.choice, Quot.sound |
| `CC.Props.C76_modulo_partial` | propext, Classical.choice, Quot.sound |
| `CC.Props.C76_compare_partial` | propext, Classical.choice, Quot.sound |
| `CC.Props.C76_false_zero` | propext, Classical.choice, Quot.sound |
| `CC.Props.C76_false_mul` | propext, Classical.choice, Quot.sound |
| `CC.Props.C76_repaired` | propext, Classical.choice, Quot.sound |
| `CC.Props.C77_program_partial` | propext, Classical.choice, Quot.sound |
| `CC.Props.C77_no_room` | propext, Classical.choice, Quot.sound |
| `CC.Props.C77_adder` | propext, Classical.choice, Quot.sound |
| `CC.Props.C77_nested` | propext, Classical.choice, Quot.sound |
| `CC.Props.C77_order_needed` | propext, Quot.sound |
| `CC.Props.C77_room_needed` | propext, Classical.choice, Quot.sound |
| `CC.Props.C78_text` | propext, Classical.choice, Quot.sound |
| `CC.Props.C78_evaluator` | propext, Classical.choice, Quot.sound |
| `CC.Props.C78_numbers` | propext, Classical.choice, Quot.sound |
| `CC.Props.C78_mixed` | propext, Classical.choice, Quot.sound |
| `CC.Props.C78_field` | propext, Classical.choice, Quot.sound |
| `CC.Props.C78_functions` | propext, Classical.choice, Quot.sound |
| `CC.Props.C78_adder` | propext, Classical.choice, Quot.sound |
| `CC.Props.C79_same` | propext, Quot.sound |
| `CC.Props.C79_log` | propext, Quot.sound |
| `CC.Props.C79_cost` | propext, Quot.sound |
| `CC.Props.C79_time` | propext, Quot.sound |
| `CC.Props.C80_space` | propext, Classical.choice, Quot.sound |
| `CC.Props.C80_bound` | propext, Classical.choice, Quot.sound |
| `CC.Props.C80_heap` | propext, Classical.choice, Quot.sound |
| `CC.Props.C80_sparing` | propext, Classical.choice, Quot.sound |
| `CC.Props.C80_told` | propext, Classical.choice, Quot.sound |
| `CC.Props.C80_freed` | propext, Classical.choice, Quot.sound |
| `CC.Props.C80_exponential` | propext, Classical.choice, Quot.sound |
| `CC.Props.C81_circuits` | propext, Classical.choice, Quot.sound |
| `CC.Props.C81_evaluator` | propext, Classical.choice, Quot.sound |
| `CC.Props.C81_builder` | propext, Classical.choice, Quot.sound |
| `CC.Props.C82_waste_false` | propext, Classical.choice, Quot.sound |
| `CC.Props.C82_int_false` | propext, Classical.choice, Quot.sound |
| `CC.Props.C82_bits_false` | propext, Classical.choice, Quot.sound |
| `CC.Props.C82_field_false` | propext, Classical.choice, Quot.sound |
| `CC.Props.C82_program_false` | propext, Classical.choice, Quot.sound |
| `CC.Props.C82_bitwise_partial` | propext, Classical.choice, Quot.sound |
| `CC.Props.C82_select_partial` | propext, Classical.choice, Quot.sound |
| `CC.Props.C82_neat_partial` | propext, Classical.choice, Quot.sound |
| `CC.Props.C82_accepted` | propext, Classical.choice, Quot.sound |
| `CC.Props.C82_idle_false` | propext, Classical.choice, Quot.sound |
| `CC.Props.C82_wires` | propext, Classical.choice, Quot.sound |
| `CC.Props.C82_moves_false` | propext, Classical.choice, Quot.sound |
| `CC.Props.C82_source` | propext, Classical.choice, Quot.sound |
| `CC.Props.C82_shift_false` | propext, Classical.choice, Quot.sound |
| `CC.Props.C83_repaired` | propext, Classical.choice, Quot.sound |
| `CC.Props.C83_text` | propext, Classical.choice, Quot.sound |
| `CC.Props.C83_readable` | propext, Classical.choice, Quot.sound |
| `CC.Props.C83_constant` | propext, Classical.choice, Quot.sound |
| `CC.Props.C83_unused` | propext, Classical.choice, Quot.sound |
| `CC.Props.C83_wasteful` | propext, Classical.choice, Quot.sound |
