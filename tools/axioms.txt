'PSync.c01_net_effect' depends on axioms: [propext, Classical.choice, Quot.sound]
'PSync.c01_total' depends on axioms: [propext, Classical.choice, Quot.sound]
'PSync.c01_insert_erase' depends on axioms: [propext, Classical.choice, Quot.sound]
'PSync.c02_round_trip' depends on axioms: [propext, Classical.choice, Quot.sound]
'PSync.c02_accepts' depends on axioms: [propext, Classical.choice, Quot.sound]
'PSync.c02_faithful' depends on axioms: [propext, Classical.choice, Quot.sound]
'PSync.c03_diff_exact_partial' depends on axioms: [propext, Classical.choice, Quot.sound]
'PSync.c03_false' depends on axioms: [propext, Classical.choice, Quot.sound]
'PSync.c04_single_key' depends on axioms: [propext, Classical.choice, Quot.sound]
'PSync.c05_decodes_iff' depends on axioms: [propext, Classical.choice, Quot.sound]
'PSync.c05_total' depends on axioms: [propext, Classical.choice, Quot.sound]
'PSync.c05_two_keys' depends on axioms: [propext, Classical.choice, Quot.sound]
'PSync.c06_antisymmetric' depends on axioms: [propext, Classical.choice, Quot.sound]
'PSync.c07_terminates_partial' depends on axioms: [propext, Classical.choice, Quot.sound]
'PSync.c07_false' depends on axioms: [propext, Classical.choice, Quot.sound]
'PSync.c08_no_overflow_partial' depends on axioms: [propext, Classical.choice, Quot.sound]
'PSync.c08_false' depends on axioms: [propext, Classical.choice, Quot.sound]
'PSync.c08_overflow' depends on axioms: [propext, Classical.choice, Quot.sound]
'PSync.c08_any_partial' depends on axioms: [propext, Classical.choice, Quot.sound]
'PSync.c09_empty_iff_equal' depends on axioms: [propext, Classical.choice, Quot.sound]
'PSync.c09_equal_decodes' depends on axioms: [propext, Classical.choice, Quot.sound]
'PSync.c10_murmur_injective' depends on axioms: [propext, Classical.choice, Quot.sound]
'PSync.c10_check_identifies' depends on axioms: [propext, Classical.choice, Quot.sound]
'PSync.c10_name_hash' depends on axioms: [propext, Classical.choice, Quot.sound]
'PSync.c11_round_trip' depends on axioms: [propext, Classical.choice, Quot.sound]
'PSync.c12_decode_exact' depends on axioms: [propext, Quot.sound]
'PSync.c12_unambiguous' depends on axioms: [propext, Quot.sound]
'PSync.c13_read_back' depends on axioms: [propext, Classical.choice, Quot.sound]
'PSync.c13_injective' depends on axioms: [propext, Classical.choice, Quot.sound]
'PSync.c13_injective_wire' depends on axioms: [propext, Classical.choice, Quot.sound]
'PSync.c14_no_false_negative' depends on axioms: [propext, Quot.sound]
'PSync.c14_contains_iff' depends on axioms: [propext, Quot.sound]
'PSync.c15_set_only' depends on axioms: [propext, Quot.sound]
'PSync.c15_clear' depends on axioms: [propext, Quot.sound]
'PSync.c16_round_trip' depends on axioms: [propext, Classical.choice, Quot.sound]
'PSync.c16_rejects' depends on axioms: [propext]
'PSync.c17_safe_partial' depends on axioms: [propext, Classical.choice, Quot.sound]
'PSync.c17_exact' depends on axioms: [propext, Classical.choice, Quot.sound]
'PSync.c17_false' depends on axioms: [propext, Classical.choice, Quot.sound]
'PSync.c17_false_cast' depends on axioms: [propext, Classical.choice, Quot.sound]
'PSync.c17_false_zero' depends on axioms: [propext, Classical.choice, Quot.sound]
'PSync.c17_false_large' depends on axioms: [propext, Classical.choice, Quot.sound]
'PSync.ieee_at_one' depends on axioms: [propext, Classical.choice, Quot.sound]
'PSync.ieee_at_zero' depends on axioms: [propext, Classical.choice, Quot.sound]
'PSync.c18_full_monotone' depends on axioms: [propext, Classical.choice, Quot.sound]
'PSync.c18_partial_monotone' depends on axioms: [propext, Classical.choice, Quot.sound]
'PSync.c19_full_publish' depends on axioms: [propext, Classical.choice, Quot.sound]
'PSync.c19_partial_publish' depends on axioms: [propext, Classical.choice, Quot.sound]
'PSync.c19_total' depends on axioms: [propext, Classical.choice, Quot.sound]
'PSync.c20_add' depends on axioms: [propext]
'PSync.c20_remove' depends on axioms: [propext, Quot.sound]
'PSync.c20_calls' depends on axioms: [propext, Quot.sound]
'PSync.c21_ibf_exact_partial' depends on axioms: [propext, Classical.choice, Quot.sound]
'PSync.c21_false' depends on axioms: [propext, Classical.choice, Quot.sound]
'PSync.c22_same_ibf_partial' depends on axioms: [propext, Classical.choice, Quot.sound]
'PSync.c22_false' depends on axioms: [propext, Quot.sound]
'PSync.c23_cumulative_count' depends on axioms: [propext, Classical.choice, Quot.sound]
'PSync.c23_current' depends on axioms: [propext, Classical.choice, Quot.sound]
'PSync.c23_ibf_partial' depends on axioms: [propext, Classical.choice, Quot.sound]
'PSync.c53_segmentation' depends on axioms: [propext, Classical.choice, Quot.sound]
'PSync.c53_count' depends on axioms: [propext, Classical.choice, Quot.sound]
'PSync.c54_requested_segment' depends on axioms: [propext, Classical.choice, Quot.sound]
'PSync.c54_total' depends on axioms: [propext, Quot.sound]
'PSync.c55_store_sound' depends on axioms: [propext, Classical.choice, Quot.sound]
'PSync.c55_keeps_recent' depends on axioms: [propext, Classical.choice, Quot.sound]
'PSync.c55_expiry' depends on axioms: [propext, Quot.sound]
'PSync.c24_false' depends on axioms: [propext, Classical.choice, Quot.sound]
'PSync.c24_reply_current_partial' depends on axioms: [propext, Classical.choice, Quot.sound]
'PSync.c24_history_partial' depends on axioms: [propext, Classical.choice, Quot.sound]
'PSync.c25_false' depends on axioms: [propext, Classical.choice, Quot.sound]
'PSync.c25_reply_complete_partial' depends on axioms: [propext, Classical.choice, Quot.sound]
'PSync.c26_merge_max' depends on axioms: [propext, Classical.choice, Quot.sound]
'PSync.c28_same_numbers' depends on axioms: [propext, Classical.choice, Quot.sound]
'PSync.c28_same_ibf_partial' depends on axioms: [propext, Classical.choice, Quot.sound]
'PSync.c28_false' depends on axioms: [propext, Classical.choice, Quot.sound]
'PSync.c27_ranges_tile' depends on axioms: [propext, Classical.choice, Quot.sound]
'PSync.c27_remote_prefix' depends on axioms: [propext, Classical.choice, Quot.sound]
'PSync.c27_exactly_once' depends on axioms: [propext, Classical.choice, Quot.sound]
'PSync.c29_answers_all_partial' depends on axioms: [propext, Classical.choice, Quot.sound]
'PSync.c29_false' depends on axioms: [propext, Quot.sound]
'PSync.c29_exact' depends on axioms: [propext, Classical.choice, Quot.sound]
'PSync.c30_expires_partial' depends on axioms: [propext, Classical.choice, Quot.sound]
'PSync.c30_renewed' depends on axioms: [propext, Classical.choice, Quot.sound]
'PSync.c30_only_alive_answered' depends on axioms: [propext, Classical.choice, Quot.sound]
'PSync.c30_false' depends on axioms: [propext, Quot.sound]
'PSync.c31_bounded' depends on axioms: [propext, Classical.choice, Quot.sound]
'PSync.c31_at_most_twice' depends on axioms: [propext, Classical.choice, Quot.sound]
'PSync.c32_scheduled' depends on axioms: [propext, Classical.choice, Quot.sound]
'PSync.c32_transmits' depends on axioms: [propext, Classical.choice, Quot.sound]
'PSync.c38_attempt_partial' depends on axioms: [propext, Quot.sound]
'PSync.c38_after_reply' depends on axioms: [propext, Quot.sound]
'PSync.c38_false' depends on axioms: [propext, Quot.sound]
'PSync.c38_event' depends on axioms: [propext, Quot.sound]
'PSync.c38_exact' depends on axioms: [propext, Quot.sound]
'PSync.c33_no_deadlock' depends on axioms: [propext, Classical.choice, Quot.sound]
'PSync.c34_partial_producer' depends on axioms: [propext, Quot.sound]
'PSync.c34_full_partial' depends on axioms: [propext, Quot.sound]
'PSync.c34_full_exact' depends on axioms: [propext, Classical.choice, Quot.sound]
'PSync.c34_false' depends on axioms: [propext, Quot.sound]
'PSync.c36_nack_matches_partial' depends on axioms: [propext, Classical.choice, Quot.sound]
'PSync.c36_full_never' depends on axioms: [propext, Classical.choice, Quot.sound]
'PSync.c36_false' depends on axioms: [propext, Classical.choice, Quot.sound]
'PSync.c37_full_partial' depends on axioms: [propext, Classical.choice, Quot.sound]
'PSync.c39_publish_current' depends on axioms: [propext, Classical.choice, Quot.sound]
'PSync.c37_false' depends on axioms: [propext, Quot.sound]
'PSync.c37_exact' depends on axioms: [propext, Classical.choice, Quot.sound]
'PSync.c39_reply_sound_partial' depends on axioms: [propext, Classical.choice, Quot.sound]
'PSync.c39_history' depends on axioms: [propext, Classical.choice, Quot.sound]
'PSync.c39_false' depends on axioms: [propext, Quot.sound]
'PSync.c40_reply_complete' depends on axioms: [propext, Classical.choice, Quot.sound]
'PSync.c41_nack_condition' depends on axioms: [propext, Classical.choice, Quot.sound]
'PSync.c42_publish_serves' depends on axioms: [propext, Classical.choice, Quot.sound]
'PSync.c43_expires_partial' depends on axioms: [propext, Classical.choice, Quot.sound]
'PSync.c43_false' depends on axioms: [propext, Quot.sound]
'PSync.c44_hello_reply' depends on axioms: [propext, Classical.choice, Quot.sound]
'PSync.c44_other_ignored' depends on axioms: [propext, Quot.sound]
'PSync.c46_ranges' depends on axioms: [propext, Classical.choice, Quot.sound]
'PSync.c46_ranges_new' depends on axioms: [propext, Classical.choice, Quot.sound]
'PSync.c46_sync_merge' depends on axioms: [propext, Classical.choice, Quot.sound]
'PSync.c46_hello_merge' depends on axioms: [propext, Classical.choice, Quot.sound]
'PSync.c47_add_partial' depends on axioms: [propext, Classical.choice, Quot.sound]
'PSync.c47_remove' depends on axioms: [propext, Classical.choice, Quot.sound]
'PSync.c47_reflects' depends on axioms: [propext, Quot.sound]
'PSync.c47_false' depends on axioms: [propext, Quot.sound]
'PSync.c48_origin_partial' depends on axioms: [propext, Classical.choice, Quot.sound]
'PSync.c48_false' depends on axioms: [propext, Quot.sound]
'PSync.c48_false_hello' depends on axioms: [propext, Quot.sound]
'PSync.c49_filter' depends on axioms: [propext, Classical.choice, Quot.sound]
'PSync.c49_filter_current' depends on axioms: [propext, Classical.choice, Quot.sound]
'PSync.c50_stop' depends on axioms: [propext, Quot.sound]
'PSync.c50_stop_in_hello' depends on axioms: [propext, Quot.sound]
'PSync.c50_false' depends on axioms: [propext, Quot.sound]
'PSync.c51_nack' depends on axioms: [propext, Quot.sound]
'PSync.c51_later_partial' depends on axioms: [propext, Classical.choice, Quot.sound]
'PSync.c51_completed' depends on axioms: [propext, Quot.sound]
'PSync.c51_false' depends on axioms: [propext, Quot.sound]
'PSync.c52_format_partial' depends on axioms: [propext, Classical.choice, Quot.sound]
'PSync.c52_exact' depends on axioms: [propext, Classical.choice, Quot.sound]
'PSync.c52_unserved' depends on axioms: [propext, Classical.choice, Quot.sound]
'PSync.c52_ibf_hello' depends on axioms: [propext, Classical.choice, Quot.sound]
'PSync.c52_ibf_sync' depends on axioms: [propext, Classical.choice, Quot.sound]
'PSync.c52_false' depends on axioms: [propext, Quot.sound]
'PSync.c87_interest' depends on axioms: [propext, Classical.choice, Quot.sound]
'PSync.c35_hello_exact' depends on axioms: [propext, Classical.choice, Quot.sound]
'PSync.c35_sync_exact' depends on axioms: [propext, Classical.choice, Quot.sound]
'PSync.c35_honest_proper' depends on axioms: [propext, Classical.choice, Quot.sound]
'PSync.c35_full_partial' depends on axioms: [propext, Classical.choice, Quot.sound]
'PSync.c35_full_total' depends on axioms: [propext, Classical.choice, Quot.sound]
'PSync.c35_full_exact' depends on axioms: [propext, Classical.choice, Quot.sound]
'PSync.c35_witnesses' depends on axioms: [propext, Quot.sound]
'PSync.c35_false' depends on axioms: [propext, Quot.sound]
'PSync.c56_no_invention_partial' depends on axioms: [propext, Classical.choice, Quot.sound]
'PSync.c56_publisher' depends on axioms: [propext, Classical.choice, Quot.sound]
'PSync.c56_false' depends on axioms: [propext, Classical.choice, Quot.sound]
'PSync.c57_converge_partial' depends on axioms: [propext, Classical.choice, Quot.sound]
'PSync.c57_sample' depends on axioms: [propext, Classical.choice, Quot.sound]
'PSync.c57_false' depends on axioms: [propext, Classical.choice, Quot.sound]
'PSync.c45_up_to_date_partial' depends on axioms: [propext, Classical.choice, Quot.sound]
'PSync.c45_up_to_date_many_partial' depends on axioms: [propext, Classical.choice, Quot.sound]
'PSync.c45_false' depends on axioms: [propext, Classical.choice, Quot.sound]
'PSync.c45_false_stale' depends on axioms: [propext, Classical.choice, Quot.sound]
'PSync.c58_partial_producer' depends on axioms: [propext, Classical.choice, Quot.sound]
'PSync.c58_full_partial' depends on axioms: [propext, Classical.choice, Quot.sound]
'PSync.c58_false' depends on axioms: [propext, Quot.sound]
'PSync.c59_never_silent' depends on axioms: [propext, Classical.choice, Quot.sound]
'PSync.c59_timer_sends' depends on axioms: [propext, Quot.sound]
'PSync.c59_needs_callback' depends on axioms: [propext, Classical.choice, Quot.sound]
'PSync.c60_never_fails' depends on axioms: [propext, Classical.choice, Quot.sound]
'PSync.c61_never_fails' depends on axioms: [propext, Classical.choice, Quot.sound]
'PSync.c61_needs_hello' depends on axioms: [propext, Quot.sound]
'PSync.c62_subscribes_partial' depends on axioms: [propext, Classical.choice, Quot.sound]
'PSync.c62_every_hello_partial' depends on axioms: [propext, Classical.choice, Quot.sound]
'PSync.c62_only_hello' depends on axioms: [propext, Quot.sound]
'PSync.c62_at_most' depends on axioms: [propext, Classical.choice, Quot.sound]
'PSync.c62_false' depends on axioms: [propext, Quot.sound]
'PSync.c62_out_of_bounds' depends on axioms: [propext, Classical.choice, Quot.sound]
'PSync.c63_prints_consecutive' depends on axioms: [propext, Classical.choice, Quot.sound]
'PSync.c64_consumer_partial' depends on axioms: [propext, Quot.sound]
'PSync.c64_full_partial' depends on axioms: [propext, Quot.sound]
'PSync.c64_consumer_hangs' depends on axioms: [propext, Quot.sound]
'PSync.c64_full_hangs' depends on axioms: [propext, Quot.sound]
'PSync.c64_false' depends on axioms: [propext, Quot.sound]
'PSync.c65_part_partial' depends on axioms: [propext, Classical.choice, Quot.sound]
'PSync.c65_full_partial' depends on axioms: [propext, Classical.choice, Quot.sound]
'PSync.c65_part_value' depends on axioms: [propext, Classical.choice, Quot.sound]
'PSync.c65_full_value' depends on axioms: [propext, Classical.choice, Quot.sound]
'PSync.c65_zero' depends on axioms: [propext, Quot.sound]
'PSync.c65_full_false' depends on axioms: [propext, Quot.sound]
'PSync.c66_rounds_partial' depends on axioms: [propext, Classical.choice, Quot.sound]
'PSync.c66_false' depends on axioms: [propext, Classical.choice, Quot.sound]
'PSync.c66_sample' depends on axioms: [propext, Classical.choice, Quot.sound]
'PSync.c67_wait_out' depends on axioms: [propext, Classical.choice, Quot.sound]
'PSync.c68_timed_partial' depends on axioms: [propext, Classical.choice, Quot.sound]
'PSync.c68_sample' depends on axioms: [propext, Classical.choice, Quot.sound]
'PSync.c68_false' depends on axioms: [propext, Classical.choice, Quot.sound]
'PSync.c69_retry' depends on axioms: [propext, Classical.choice, Quot.sound]
'PSync.c69_renew' depends on axioms: [propext, Classical.choice, Quot.sound]
'PSync.c69_pace' depends on axioms: [propext, Classical.choice, Quot.sound]
'PSync.c70_spacing' depends on axioms: [propext, Classical.choice, Quot.sound]
'PSync.c71_waiting' depends on axioms: [propext, Classical.choice, Quot.sound]
'PSync.c71_asking' depends on axioms: [propext, Classical.choice, Quot.sound]
'PSync.c71_reply' depends on axioms: [propext, Classical.choice, Quot.sound]
'PSync.c71_hello' depends on axioms: [propext, Classical.choice, Quot.sound]
'PSync.c72_false' depends on axioms: [propext, Quot.sound]
'PSync.c72_full_partial' depends on axioms: [propext, Classical.choice, Quot.sound]
'PSync.c72_partial_producer' depends on axioms: [propext, Classical.choice, Quot.sound]
'PSync.c73_retried' depends on axioms: [propext, Classical.choice, Quot.sound]
'PSync.c73_ahead' depends on axioms: [propext, Classical.choice, Quot.sound]
'PSync.c73_never_forever' depends on axioms: [propext, Classical.choice, Quot.sound]
'PSync.c74_full' depends on axioms: [propext, Classical.choice, Quot.sound]
'PSync.c74_full_empties' depends on axioms: [propext, Classical.choice, Quot.sound]
'PSync.c74_partial_producer' depends on axioms: [propext, Classical.choice, Quot.sound]
'PSync.c74_partial_producer_empties' depends on axioms: [propext, Classical.choice, Quot.sound]
'PSync.c75_offered' depends on axioms: [propext, Classical.choice, Quot.sound]
'PSync.c75_notified' depends on axioms: [propext, Classical.choice, Quot.sound]
'PSync.c75_known' depends on axioms: [propext, Classical.choice, Quot.sound]
'PSync.c75_not_ahead' depends on axioms: [propext, Classical.choice, Quot.sound]
'PSync.c76_prints_all' depends on axioms: [propext, Classical.choice, Quot.sound]
'PSync.c76_prints_at_least' depends on axioms: [propext, Classical.choice, Quot.sound]
'PSync.c76_up_to_date' depends on axioms: [propext, Classical.choice, Quot.sound]
'PSync.c76_published' depends on axioms: [propext, Classical.choice, Quot.sound]
'PSync.c77_arrival' depends on axioms: [propext, Classical.choice, Quot.sound]
'PSync.c78_arrival' depends on axioms: [propext, Classical.choice, Quot.sound]
'PSync.c78_honest' depends on axioms: [propext, Classical.choice, Quot.sound]
'PSync.c79_full' depends on axioms: [propext, Classical.choice, Quot.sound]
'PSync.c79_partial_sync' depends on axioms: [propext, Classical.choice, Quot.sound]
'PSync.c80_foreign' depends on axioms: [propext, Classical.choice, Quot.sound]
'PSync.c80_own' depends on axioms: [propext, Classical.choice, Quot.sound]
'PSync.c80_others' depends on axioms: [propext, Classical.choice, Quot.sound]
'PSync.c80_nothing_else' depends on axioms: [propext, Classical.choice, Quot.sound]
'PSync.c80_everything' depends on axioms: [propext, Classical.choice, Quot.sound]
'PSync.c81_time' depends on axioms: [propext, Classical.choice, Quot.sound]
'PSync.c81_rounds' depends on axioms: [propext, Classical.choice, Quot.sound]
'PSync.c82_pace' depends on axioms: [propext, Classical.choice, Quot.sound]
'PSync.c83_time' depends on axioms: [propext, Classical.choice, Quot.sound]
'PSync.c83_told' depends on axioms: [propext, Classical.choice, Quot.sound]
'PSync.c84_published' depends on axioms: [propext, Classical.choice, Quot.sound]
'PSync.c84_time' depends on axioms: [propext, Classical.choice, Quot.sound]
'PSync.c84_sample' depends on axioms: [propext, Classical.choice, Quot.sound]
'PSync.c85_prints' depends on axioms: [propext, Classical.choice, Quot.sound]
'PSync.c85_programs' depends on axioms: [propext, Classical.choice, Quot.sound]
'PSync.c86_full' depends on axioms: [propext, Quot.sound]
'PSync.c86_full_superseded' depends on axioms: [propext, Quot.sound]
'PSync.c86_consumer_superseded' depends on axioms: [propext, Quot.sound]
'PSync.c86_consumer_exact' depends on axioms: [propext, Classical.choice, Quot.sound]
'PSync.c86_stopped_partial' depends on axioms: [propext, Classical.choice, Quot.sound]
'PSync.c86_producer_exact' depends on axioms: [propext, Quot.sound]
'PSync.c86_false_consumer' depends on axioms: [propext, Classical.choice, Quot.sound]
'PSync.c86_false_producer' depends on axioms: [propext, Quot.sound]
'PSync.c86_false' depends on axioms: [propext, Quot.sound]
'PSync.c87_literal' depends on axioms: [propext, Classical.choice, Quot.sound]
'PSync.c87_unique' depends on axioms: [propext, Classical.choice, Quot.sound]
'PSync.c87_range' depends on axioms: [propext, Classical.choice, Quot.sound]
'PSync.c88_false' depends on axioms: [propext, Classical.choice, Quot.sound]
'PSync.c88_false_probability' depends on axioms: [propext, Classical.choice, Quot.sound]
'PSync.c88_false_overflow' depends on axioms: [propext, Classical.choice, Quot.sound]
'PSync.c88_false_endless' depends on axioms: [propext, Classical.choice, Quot.sound]
'PSync.c88_producer_exact' depends on axioms: [propext, Classical.choice, Quot.sound]
'PSync.c88_full_exact' depends on axioms: [propext, Classical.choice, Quot.sound]
'PSync.c88_producer_partial' depends on axioms: [propext, Classical.choice, Quot.sound]
'PSync.c88_full_partial' depends on axioms: [propext, Classical.choice, Quot.sound]
'PSync.c89_false' depends on axioms: [propext, Quot.sound]
'PSync.c89_partial_producer' depends on axioms: [propext, Classical.choice, Quot.sound]
'PSync.c89_each' depends on axioms: [propext, Classical.choice, Quot.sound]
'PSync.c89_full_partial' depends on axioms: [propext, Classical.choice, Quot.sound]
'PSync.c89_distinct_partial' depends on axioms: [propext, Classical.choice, Quot.sound]
'PSync.c90_full' depends on axioms: [propext, Classical.choice, Quot.sound]
'PSync.c90_full_interest' depends on axioms: [propext, Classical.choice, Quot.sound]
'PSync.c90_producer_partial' depends on axioms: [propext, Classical.choice, Quot.sound]
'PSync.c90_oversized' depends on axioms: [propext, Classical.choice, Quot.sound]
'PSync.c90_false' depends on axioms: [propext, Quot.sound]
'PSync.c91_mixed' depends on axioms: [propext, Quot.sound]
'PSync.c91_good' depends on axioms: [propext, Quot.sound]
'PSync.c91_model' depends on axioms: [propext, Classical.choice, Quot.sound]
'PSync.c92_reasons' depends on axioms: [propext, Classical.choice, Quot.sound]
'PSync.c92_exact' depends on axioms: [propext, Classical.choice, Quot.sound]
'PSync.c92_kinds' depends on axioms: [propext, Quot.sound]
'PSync.c93_timer' depends on axioms: [propext, Classical.choice, Quot.sound]
'PSync.c93_news' depends on axioms: [propext, Classical.choice, Quot.sound]
'PSync.c93_listed' depends on axioms: [propext, Classical.choice, Quot.sound]
'PSync.c94_dispatch' depends on axioms: [propext, Classical.choice, Quot.sound]
'PSync.c94_default' depends on axioms: [propext]
'PSync.c94_wf' depends on axioms: [propext, Quot.sound]
'PSync.c94_construct_partial' depends on axioms: [propext, Classical.choice, Quot.sound]
'PSync.c94_content' depends on axioms: [propext, Classical.choice, Quot.sound]
'PSync.c94_part' depends on axioms: [propext, Classical.choice, Quot.sound]
'PSync.c94_default_partial' depends on axioms: [propext, Classical.choice, Quot.sound]
'PSync.c94_false' depends on axioms: [propext, Classical.choice, Quot.sound]
'PSync.c94_default_false' depends on axioms: [propext, Classical.choice, Quot.sound]
'PSync.c95_full_partial' depends on axioms: [propext, Classical.choice, Quot.sound]
'PSync.c95_part_partial' depends on axioms: [propext, Classical.choice, Quot.sound]
'PSync.c95_zero_full' depends on axioms: [propext, Classical.choice, Quot.sound]
'PSync.c95_zero_part' depends on axioms: [propext, Classical.choice, Quot.sound]
'PSync.c95_old_full_partial' depends on axioms: [propext, Quot.sound]
'PSync.c95_old_part_partial' depends on axioms: [propext, Quot.sound]
'PSync.c95_old_publish' depends on axioms: [propext, Classical.choice, Quot.sound]
'PSync.c95_default' depends on axioms: [propext, Classical.choice, Quot.sound]
'PSync.c95_false' depends on axioms: [propext, Classical.choice, Quot.sound]
'PSync.c95_old_false' depends on axioms: [propext, Classical.choice, Quot.sound]
'PSync.c96_false' depends on axioms: [propext, Classical.choice, Quot.sound]
'PSync.c96_false_interest' depends on axioms: [propext, Classical.choice, Quot.sound]
'PSync.c96_rejects' depends on axioms: [propext, Classical.choice, Quot.sound]
'PSync.c96_served_partial' depends on axioms: [propext, Classical.choice, Quot.sound]
'PSync.c97_false' depends on axioms: [propext, Classical.choice, Quot.sound]
'PSync.c97_exact' depends on axioms: [propext, Classical.choice, Quot.sound]
'PSync.c97_old' depends on axioms: [propext]
'PSync.c97_false_tiny' depends on axioms: [propext, Classical.choice, Quot.sound]
'PSync.c97_false_large' depends on axioms: [propext, Classical.choice, Quot.sound]
'PSync.c97_false_nan' depends on axioms: [propext, Classical.choice, Quot.sound]
'PSync.c97_false_coarse' depends on axioms: [propext, Classical.choice, Quot.sound]
'PSync.c97_accurate_partial' depends on axioms: [propext, Classical.choice, Quot.sound]
'PSync.c97_range_partial' depends on axioms: [propext, Classical.choice, Quot.sound]
'PSync.c97_default' depends on axioms: [propext, Classical.choice, Quot.sound]
'PSync.c97_false_many' depends on axioms: [propext, Classical.choice, Quot.sound]
'PSync.c97_false_single' depends on axioms: [propext, Classical.choice, Quot.sound]
'PSync.c98_false' depends on axioms: [propext, Quot.sound]
'PSync.c98_interest_partial' depends on axioms: [propext, Classical.choice, Quot.sound]
'PSync.c98_publish_partial' depends on axioms: [propext, Classical.choice, Quot.sound]
'PSync.c99_bound' depends on axioms: [propext, Classical.choice, Quot.sound]
'PSync.c99_alone' depends on axioms: [propext, Classical.choice, Quot.sound]
'PSync.c99_between' depends on axioms: [propext, Classical.choice, Quot.sound]
'PSync.c99_each' depends on axioms: [propext, Classical.choice, Quot.sound]
'PSync.c100_false' depends on axioms: [propext, Classical.choice, Quot.sound]
'PSync.c100_hello_one' depends on axioms: [propext, Classical.choice, Quot.sound]
'PSync.c100_hello_three' depends on axioms: [propext, Classical.choice, Quot.sound]
'PSync.c100_full_two' depends on axioms: [propext, Classical.choice, Quot.sound]
'PSync.c100_full_partial' depends on axioms: [propext, Classical.choice, Quot.sound]
'PSync.c100_consumer_partial' depends on axioms: [propext, Classical.choice, Quot.sound]
'PSync.c101_false' depends on axioms: [propext]
'PSync.c101_names_partial' depends on axioms: [propext, Classical.choice, Quot.sound]
'PSync.c101_distinct_partial' depends on axioms: [propext, Classical.choice, Quot.sound]
'PSync.c101_accepted' depends on axioms: [propext, Classical.choice, Quot.sound]
'PSync.c101_usage' depends on axioms: [propext, Quot.sound]
'PSync.c101_too_large' depends on axioms: [propext, Quot.sound]
'PSync.c101_published_partial' depends on axioms: [propext, Classical.choice, Quot.sound]
'PSync.c101_consumer' depends on axioms: [propext, Quot.sound]
'PSync.c102_unique' depends on axioms: [propext, Quot.sound]
'PSync.c102_shows' depends on axioms: [propext, Classical.choice, Quot.sound]
'PSync.c102_set' depends on axioms: [propext, Classical.choice, Quot.sound]
'PSync.c102_same' depends on axioms: [propext, Classical.choice, Quot.sound]
'PSync.c102_bloom' depends on axioms: [propext, Quot.sound]
'PSync.c102_bloom_unique' depends on axioms: [propext, Quot.sound]
'PSync.c102_bloom_same' depends on axioms: [propext, Quot.sound]
'PSync.c102_state' depends on axioms: [propext, Quot.sound]
'PSync.c103_same' depends on axioms: [propext, Classical.choice, Quot.sound]
'PSync.c103_reach' depends on axioms: [propext, Classical.choice, Quot.sound]
'PSync.c103_all' depends on axioms: [propext, Quot.sound]
'PSync.c103_silent' depends on axioms: [propext, Classical.choice, Quot.sound]
'PSync.c103_hello' depends on axioms: [propext, Classical.choice, Quot.sound]
'PSync.c103_refused' depends on axioms: [propext, Quot.sound]
'PSync.c103_full' depends on axioms: [propext, Quot.sound]
'PSync.c104_full' depends on axioms: [propext, Classical.choice, Quot.sound]
'PSync.c104_full_same' depends on axioms: [propext, Classical.choice, Quot.sound]
'PSync.c104_producer' depends on axioms: [propext, Classical.choice, Quot.sound]
'PSync.c104_producer_same' depends on axioms: [propext, Classical.choice, Quot.sound]
'PSync.c105_name_partial' depends on axioms: [propext, Classical.choice, Quot.sound]
'PSync.c105_partial' depends on axioms: [propext, Classical.choice, Quot.sound]
'PSync.c105_false' depends on axioms: [propext, Quot.sound]
'PSync.c106_full' depends on axioms: [propext, Classical.choice, Quot.sound]
'PSync.c106_producer' depends on axioms: [propext, Classical.choice, Quot.sound]
'PSync.c106_consumer' depends on axioms: [propext, Classical.choice, Quot.sound]
'PSync.c107_interest' depends on axioms: [propext, Classical.choice, Quot.sound]
'PSync.c107_event' depends on axioms: [propext, Classical.choice, Quot.sound]
'PSync.c108_full_reported' depends on axioms: [propext, Classical.choice, Quot.sound]
'PSync.c108_consumer_reported' depends on axioms: [propext, Classical.choice, Quot.sound]
'PSync.c108_resumes_partial' depends on axioms: [propext, Classical.choice, Quot.sound]
'PSync.c108_heard_partial' depends on axioms: [propext, Classical.choice, Quot.sound]
'PSync.c108_false' depends on axioms: [propext, Classical.choice, Quot.sound]
'PSync.c109_producer' depends on axioms: [propext, Classical.choice, Quot.sound]
'PSync.c109_full_partial' depends on axioms: [propext, Classical.choice, Quot.sound]
'PSync.c109_again' depends on axioms: [propext, Classical.choice, Quot.sound]
'PSync.c109_false' depends on axioms: [propext, Quot.sound]
'PSync.c110_producer' depends on axioms: [propext, Classical.choice, Quot.sound]
'PSync.c110_full_partial' depends on axioms: [propext, Classical.choice, Quot.sound]
'PSync.c110_stuck_full' depends on axioms: [propext, Classical.choice, Quot.sound]
'PSync.c110_stuck_consumer' depends on axioms: [propext, Classical.choice, Quot.sound]
'PSync.c110_false' depends on axioms: [propext, Quot.sound]
'PSync.c111_found_partial' depends on axioms: [propext, Classical.choice, Quot.sound]
'PSync.c111_never' depends on axioms: [propext, Classical.choice, Quot.sound]
'PSync.c111_unheard' depends on axioms: [propext, Quot.sound]
'PSync.c111_false' depends on axioms: [propext, Quot.sound]
'PSync.c112_bounded_partial' depends on axioms: [propext, Classical.choice, Quot.sound]
'PSync.c112_grows' depends on axioms: [propext, Classical.choice, Quot.sound]
'PSync.c112_false' depends on axioms: [propext, Classical.choice, Quot.sound]
'PSync.c113_waiting' depends on axioms: [propext, Classical.choice, Quot.sound]
'PSync.c113_parked' depends on axioms: [propext, Classical.choice, Quot.sound]
'PSync.c113_forgets' depends on axioms: [propext, Classical.choice, Quot.sound]
'PSync.c114_decided_partial' depends on axioms: [propext, Classical.choice, Quot.sound]
'PSync.c114_nine_hours' depends on axioms: [propext, Classical.choice, Quot.sound]
'PSync.c114_false' depends on axioms: [propext, Classical.choice, Quot.sound]
'PSync.c115_partial_sync' depends on axioms: [propext, Classical.choice, Quot.sound]
'PSync.c115_full_partial' depends on axioms: [propext, Classical.choice, Quot.sound]
'PSync.c115_false' depends on axioms: [propext, Quot.sound]
'PSync.c116_same_numbers' depends on axioms: [propext, Classical.choice, Quot.sound]
'PSync.c116_same_reports' depends on axioms: [propext, Classical.choice, Quot.sound]
'PSync.c117_answers_partial' depends on axioms: [propext, Classical.choice, Quot.sound]
'PSync.c117_decodable_partial' depends on axioms: [propext, Classical.choice, Quot.sound]
'PSync.c117_publish_partial' depends on axioms: [propext, Classical.choice, Quot.sound]
'PSync.c117_false' depends on axioms: [propext, Quot.sound]
'PSync.c118_rest_partial' depends on axioms: [propext, Classical.choice, Quot.sound]
'PSync.c118_false' depends on axioms: [propext, Classical.choice, Quot.sound]
'PSync.c119_left_alone' depends on axioms: [propext, Classical.choice, Quot.sound]
'PSync.c120_snapshot' depends on axioms: [propext, Classical.choice, Quot.sound]
'PSync.c120_one_moment' depends on axioms: [propext, Classical.choice, Quot.sound]
'PSync.c121_group_partial' depends on axioms: [propext, Classical.choice, Quot.sound]
'PSync.c121_consumer_partial' depends on axioms: [propext, Classical.choice, Quot.sound]
'PSync.c121_full_partial' depends on axioms: [propext, Classical.choice, Quot.sound]
'PSync.c121_replies' depends on axioms: [propext, Classical.choice, Quot.sound]
'PSync.c121_false' depends on axioms: [propext, Quot.sound]
'PSync.c122_beyond_own' depends on axioms: [propext, Classical.choice, Quot.sound]
'PSync.c122_by_others' depends on axioms: [propext, Classical.choice, Quot.sound]
'PSync.c122_own' depends on axioms: [propext, Classical.choice, Quot.sound]
'PSync.c123_rising' depends on axioms: [propext, Classical.choice, Quot.sound]
'PSync.c123_bound' depends on axioms: [propext, Classical.choice, Quot.sound]
'PSync.c124_rising' depends on axioms: [propext, Classical.choice, Quot.sound]
'PSync.c124_bound' depends on axioms: [propext, Classical.choice, Quot.sound]
'PSync.c124_calls' depends on axioms: [propext, Classical.choice, Quot.sound]
'PSync.c124_all' depends on axioms: [propext, Classical.choice, Quot.sound]
'PSync.c125_group_false' depends on axioms: [propext, Classical.choice, Quot.sound]
'PSync.c125_consumer_false' depends on axioms: [propext, Classical.choice, Quot.sound]
'PSync.c125_group_partial' depends on axioms: [propext, Classical.choice, Quot.sound]
'PSync.c125_pubsub_partial' depends on axioms: [propext, Classical.choice, Quot.sound]
'PSync.c125_node_partial' depends on axioms: [propext, Classical.choice, Quot.sound]
'PSync.c125_consumer_partial' depends on axioms: [propext, Classical.choice, Quot.sound]
