'Neffos.c01_round_trip' depends on axioms: [propext, Classical.choice, Quot.sound]
'Neffos.c01_round_trip_result' depends on axioms: [propext, Classical.choice, Quot.sound]
'Neffos.c01_generated_tokens_plain' depends on axioms: [propext, Quot.sound]
'Neffos.c01_native_round_trip' depends on axioms: [propext, Quot.sound]
'Neffos.c02_names_survive_iff' depends on axioms: [propext, Classical.choice, Quot.sound]
'Neffos.c02_conversions_are_replacements' depends on axioms: [propext, Classical.choice, Quot.sound]
'Neffos.c02_unconditional_refuted' depends on axioms: [propext]
'Neffos.c02_received_names_safe' depends on axioms: [propext, Classical.choice, Quot.sound]
'Neffos.c03_no_interference' depends on axioms: [propext, Classical.choice, Quot.sound]
'Neffos.c03_six_header_separators' depends on axioms: [propext, Classical.choice, Quot.sound]
'Neffos.c04_classification' depends on axioms: [propext, Classical.choice, Quot.sound]
'Neffos.c04_frame_fields' depends on axioms: [propext, Classical.choice, Quot.sound]
'Neffos.c05_error_crosses_partial' depends on axioms: [propext, Classical.choice, Quot.sound]
'Neffos.c05_register' depends on axioms: [propext, Quot.sound]
'Neffos.c05_package_errors' depends on axioms: [propext, Classical.choice, Quot.sound]
'Neffos.c05_empty_text_refuted' depends on axioms: [propext, Classical.choice, Quot.sound]
'Neffos.c06_reply_partial' depends on axioms: [propext, Classical.choice, Quot.sound]
'Neffos.c06_native_refuted' depends on axioms: [propext, Classical.choice, Quot.sound]
'Neffos.c07_is_answer_candidate' depends on axioms: [propext, Quot.sound]
'Neffos.c07_generated_tokens' depends on axioms: [propext, Quot.sound]
'Neffos.c07_tokens_distinct' depends on axioms: [propext, Classical.choice, Quot.sound]
'Neffos.c07_clearWait' depends on axioms: [propext]
'Neffos.c08_mark_never_recognised_refuted' depends on axioms: [propext, Classical.choice, Quot.sound]
'Neffos.c08_inserted_mark_partial' depends on axioms: [propext, Classical.choice, Quot.sound]
'Neffos.c09_identity_recovered_partial' depends on axioms: [propext, Classical.choice, Quot.sound]
'Neffos.c09_no_token_with_identity' depends on axioms: [propext]
'Neffos.c09_separator_in_id_refuted' depends on axioms: [propext, Quot.sound]
'Neffos.c10_exact' depends on axioms: [propext, Quot.sound]
'Neffos.c10_any' depends on axioms: [propext, Quot.sound]
'Neffos.c10_none' depends on axioms: [propext, Quot.sound]
'Neffos.c10_fire' depends on axioms: [propext]
'Neffos.c11_last' depends on axioms: [propext, Classical.choice, Quot.sound]
'Neffos.c11_namespaces' depends on axioms: [propext, Classical.choice, Quot.sound]
'Neffos.c11_inputs' depends on axioms: [propext, Classical.choice, Quot.sound]
'Neffos.c11_order' depends on axioms: [propext, Classical.choice, Quot.sound]
'Neffos.c11_any' depends on axioms: [propext, Classical.choice, Quot.sound]
'Neffos.c12_system' depends on axioms: [propext]
'Neffos.c12_matched' depends on axioms: [propext]
'Neffos.c12_prefix' depends on axioms: [propext, Quot.sound]
'Neffos.c12_trim' depends on axioms: [propext, Quot.sound]
'Neffos.c12_distinct' depends on axioms: [propext, Quot.sound]
'Neffos.c12_distinct_trim_partial' depends on axioms: [propext, Quot.sound]
'Neffos.c12_refuted' does not depend on any axioms
'Neffos.c12_any' depends on axioms: [propext, Quot.sound]
'Neffos.c12_struct' depends on axioms: [propext, Quot.sound]
'Neffos.c12_dynamic' depends on axioms: [propext, Quot.sound]
'Neffos.c13_write' depends on axioms: [propext, Classical.choice, Quot.sound]
'Neffos.c13_emit_iff' depends on axioms: [propext, Classical.choice, Quot.sound]
'Neffos.c13_room_emit_iff' depends on axioms: [propext, Classical.choice, Quot.sound]
'Neffos.c13_ask' depends on axioms: [propext, Classical.choice, Quot.sound]
'Neffos.c13_ns_ask' depends on axioms: [propext, Classical.choice, Quot.sound]
'Neffos.c13_room_emit' depends on axioms: [propext, Classical.choice, Quot.sound]
'Neffos.c14_only' depends on axioms: [propext, Classical.choice, Quot.sound]
'Neffos.c14_native_only_partial' depends on axioms: [propext, Classical.choice, Quot.sound]
'Neffos.c14_native_only_refuted' depends on axioms: [propext, Quot.sound]
'Neffos.c14_mixed' depends on axioms: [propext, Classical.choice, Quot.sound]
'Neffos.c15_both_partial' depends on axioms: [propext, Classical.choice, Quot.sound]
'Neffos.c15_refuted_empty_error' depends on axioms: [propext, Classical.choice, Quot.sound]
'Neffos.c15_refuted_reply' depends on axioms: [propext, Classical.choice, Quot.sound]
'Neffos.c15_incoming' depends on axioms: [propext, Classical.choice, Quot.sound]
'Neffos.c15_call' depends on axioms: [propext, Classical.choice, Quot.sound]
'Neffos.c15_answer' depends on axioms: [propext, Classical.choice, Quot.sound]
'Neffos.c15_accepted' depends on axioms: [propext, Classical.choice, Quot.sound]
'Neffos.c16_agree_partial' depends on axioms: [propext, Classical.choice, Quot.sound]
'Neffos.c16_refuted_local_veto' depends on axioms: [propext, Classical.choice, Quot.sound]
'Neffos.c16_refuted_reply' depends on axioms: [propext, Classical.choice, Quot.sound]
'Neffos.c16_refuted_empty_error' depends on axioms: [propext, Classical.choice, Quot.sound]
'Neffos.c16_refuted_stale' depends on axioms: [propext, Quot.sound]
'Neffos.c16_refuted_timeout' depends on axioms: [propext, Quot.sound]
'Neffos.c16_refuted_name' depends on axioms: [propext, Quot.sound]
'Neffos.c17_both_partial' depends on axioms: [propext, Classical.choice, Quot.sound]
'Neffos.c17_incoming' depends on axioms: [propext, Classical.choice, Quot.sound]
'Neffos.c17_not_connected' depends on axioms: [propext, Classical.choice, Quot.sound]
'Neffos.c17_unwanted' depends on axioms: [propext, Classical.choice, Quot.sound]
'Neffos.c17_call_again' depends on axioms: [propext, Quot.sound]
'Neffos.c17_call' depends on axioms: [propext, Classical.choice, Quot.sound]
'Neffos.c17_answer' depends on axioms: [propext, Classical.choice, Quot.sound]
'Neffos.c17_accepted' depends on axioms: [propext, Classical.choice, Quot.sound]
'Neffos.c17_remote_partial' depends on axioms: [propext, Classical.choice, Quot.sound]
'Neffos.c17_refuted' depends on axioms: [propext, Quot.sound]
'Neffos.c18_both_partial' depends on axioms: [propext, Classical.choice, Quot.sound]
'Neffos.c18_refuted_reply' depends on axioms: [propext, Classical.choice, Quot.sound]
'Neffos.c18_not_joined' depends on axioms: [propext, Quot.sound]
'Neffos.c18_call' depends on axioms: [propext, Classical.choice, Quot.sound]
'Neffos.c18_answer' depends on axioms: [propext, Classical.choice, Quot.sound]
'Neffos.c18_incoming_server' depends on axioms: [propext, Classical.choice, Quot.sound]
'Neffos.c18_incoming_client' depends on axioms: [propext, Classical.choice, Quot.sound]
'Neffos.c19_both_partial' depends on axioms: [propext, Classical.choice, Quot.sound]
'Neffos.c19_refuted_reply' depends on axioms: [propext, Classical.choice, Quot.sound]
'Neffos.c19_not_connected' depends on axioms: [propext, Quot.sound]
'Neffos.c19_call' depends on axioms: [propext, Classical.choice, Quot.sound]
'Neffos.c19_answer' depends on axioms: [propext, Classical.choice, Quot.sound]
'Neffos.c19_incoming_server' depends on axioms: [propext, Classical.choice, Quot.sound]
'Neffos.c19_incoming_client' depends on axioms: [propext, Classical.choice, Quot.sound]
'Neffos.c19_incoming_not_connected' depends on axioms: [propext, Classical.choice, Quot.sound]
'Neffos.c20_declared' depends on axioms: [propext, Classical.choice, Quot.sound]
'Neffos.c20_once' depends on axioms: [propext, Classical.choice, Quot.sound]
'Neffos.c20_accepted' depends on axioms: [propext, Classical.choice, Quot.sound]
'Neffos.c20_rooms_partial' depends on axioms: [propext, Classical.choice, Quot.sound]
'Neffos.c20_refuted' depends on axioms: [propext, Quot.sound]
'Neffos.c20_close_refuted' depends on axioms: [propext, Quot.sound]
'Neffos.c21_refuted_late' depends on axioms: [propext, Quot.sound]
'Neffos.c21_connected_partial' depends on axioms: [propext, Classical.choice, Quot.sound]
'Neffos.c21_joined_partial' depends on axioms: [propext, Classical.choice, Quot.sound]
'Neffos.c21_event_partial' depends on axioms: [propext, Classical.choice, Quot.sound]
'Neffos.c21_refuted' depends on axioms: [propext, Quot.sound]
'Neffos.c21_forged_refuted' depends on axioms: [propext, Quot.sound]
'Neffos.c22_refuted_early' depends on axioms: [propext, Quot.sound]
'Neffos.c22_refuted_left' depends on axioms: [propext, Quot.sound]
'Neffos.c22_close' depends on axioms: [propext, Classical.choice, Quot.sound]
'Neffos.c22_again' depends on axioms: [propext, Quot.sound]
'Neffos.c22_once' depends on axioms: [propext, Classical.choice, Quot.sound]
'Neffos.c22_native_refuted' depends on axioms: [propext, Quot.sound]
'Neffos.c23_refuted_twice' depends on axioms: [propext, Quot.sound]
'Neffos.c23_refuted_leak' depends on axioms: [propext, Quot.sound]
'Neffos.c23_once_partial' depends on axioms: [propext, Classical.choice, Quot.sound]
'Neffos.c23_silent_partial' depends on axioms: [propext, Classical.choice, Quot.sound]
'Neffos.c23_ask' depends on axioms: [propext, Quot.sound]
'Neffos.c23_over_partial' depends on axioms: [propext, Quot.sound]
'Neffos.c23_refuted' depends on axioms: [propext, Quot.sound]
'Neffos.c23_connect_refuted' depends on axioms: [propext, Quot.sound]
'Neffos.c24_success_partial' depends on axioms: [propext, Classical.choice, Quot.sound]
'Neffos.c24_error_partial' depends on axioms: [propext, Classical.choice, Quot.sound]
'Neffos.c24_returns_partial' depends on axioms: [propext, Classical.choice, Quot.sound]
'Neffos.c24_refuted_native' depends on axioms: [propext, Quot.sound]
'Neffos.c25_source_partial' depends on axioms: [propext, Classical.choice, Quot.sound]
'Neffos.c25_fixed_partial' depends on axioms: [propext, Classical.choice, Quot.sound]
'Neffos.c25_refuted' depends on axioms: [propext, Quot.sound]
'Neffos.c26_stored_partial' depends on axioms: [propext, Quot.sound]
'Neffos.c26_handled_partial' depends on axioms: [propext, Quot.sound]
'Neffos.c26_woken_partial' depends on axioms: [propext, Quot.sound]
'Neffos.c26_continued_partial' depends on axioms: [propext, Quot.sound]
'Neffos.c26_goes_on_partial' depends on axioms: [propext, Quot.sound]
'Neffos.c26_text_partial' depends on axioms: [propext, Classical.choice, Quot.sound]
'Neffos.c26_refuted_order' depends on axioms: [propext, Quot.sound]
'Neffos.c26_refuted_client' depends on axioms: [propext, Classical.choice, Quot.sound]
'Neffos.c26_refuted_native' depends on axioms: [propext, Classical.choice, Quot.sound]
'Neffos.c27_own_partial' depends on axioms: [propext, Quot.sound]
'Neffos.c27_once' depends on axioms: [propext, Quot.sound]
'Neffos.c27_refuted' depends on axioms: [propext, Quot.sound]
'Neffos.c27_refuted_tick' depends on axioms: [propext, Quot.sound]
'Neffos.c28_refuted' depends on axioms: [propext, Quot.sound]
'Neffos.c28_next_partial' depends on axioms: [propext, Quot.sound]
'Neffos.c29_refuted_stuck' depends on axioms: [propext, Quot.sound]
'Neffos.c29_refuted' depends on axioms: [propext, Quot.sound]
'Neffos.c29_ctx_partial' depends on axioms: [propext, Quot.sound]
'Neffos.c29_before_partial' depends on axioms: [propext, Quot.sound]
'Neffos.c29_next_partial' depends on axioms: [propext, Quot.sound]
'Neffos.c30_refuted_stuck' depends on axioms: [propext, Quot.sound]
'Neffos.c30_refuted' depends on axioms: [propext, Quot.sound]
'Neffos.c30_refuted_second' depends on axioms: [propext, Quot.sound]
'Neffos.c30_refuted_twice' depends on axioms: [propext, Quot.sound]
'Neffos.c30_conn_partial' depends on axioms: [propext, Quot.sound]
'Neffos.c30_server_partial' depends on axioms: [propext, Quot.sound]
'Neffos.c31_calm_partial' depends on axioms: [propext, Classical.choice, Quot.sound]
'Neffos.c31_error_partial' depends on axioms: [propext, Classical.choice, Quot.sound]
'Neffos.c31_woken_partial' depends on axioms: [propext, Classical.choice, Quot.sound]
'Neffos.c31_after_partial' depends on axioms: [propext, Quot.sound]
'Neffos.c31_single_partial' depends on axioms: [propext, Classical.choice, Quot.sound]
'Neffos.c31_refuted_lost' depends on axioms: [propext]
'Neffos.c31_refuted_panic' depends on axioms: [propext]
'Neffos.c31_refuted_early' depends on axioms: [propext]
'Neffos.c32_held_partial' depends on axioms: [propext, Classical.choice, Quot.sound]
'Neffos.c32_calm_partial' depends on axioms: [propext, Classical.choice, Quot.sound]
'Neffos.c32_released_partial' depends on axioms: [propext, Classical.choice, Quot.sound]
'Neffos.c32_refuted_race' depends on axioms: [propext, Quot.sound]
'Neffos.c32_refuted_later' depends on axioms: [propext]
'Neffos.c32_refuted_stuck' depends on axioms: [propext, Quot.sound]
'Neffos.c32_refuted_panic' depends on axioms: [propext]
'Neffos.c32_event_held_partial' depends on axioms: [propext, Classical.choice, Quot.sound]
'Neffos.c32_event_waits' depends on axioms: [propext, Classical.choice, Quot.sound]
'Neffos.c32_event_passes_partial' depends on axioms: [propext, Classical.choice, Quot.sound]
'Neffos.c33_refuted_stuck' depends on axioms: [propext, Classical.choice, Quot.sound]
'Neffos.c33_refuted' depends on axioms: [propext, Classical.choice, Quot.sound]
'Neffos.c33_completes_partial' depends on axioms: [propext, Classical.choice, Quot.sound]
'Neffos.c34_refuted' depends on axioms: [propext, Quot.sound]
'Neffos.c34_closed_partial' depends on axioms: [propext, Quot.sound]
'Neffos.c34_acked_partial' depends on axioms: [propext, Quot.sound]
'Neffos.c35_count' depends on axioms: [propext, Classical.choice, Quot.sound]
'Neffos.c35_settled_partial' depends on axioms: [propext, Classical.choice, Quot.sound]
'Neffos.c35_refuted_stuck' depends on axioms: [propext, Classical.choice, Quot.sound]
'Neffos.c35_refuted' depends on axioms: [propext, Classical.choice, Quot.sound]
'Neffos.c35_late_partial' depends on axioms: [propext, Classical.choice, Quot.sound]
'Neffos.c36_once' depends on axioms: [propext, Classical.choice, Quot.sound]
'Neffos.c36_only' depends on axioms: [propext, Classical.choice, Quot.sound]
'Neffos.c36_fired' depends on axioms: [propext, Classical.choice, Quot.sound]
'Neffos.c36_exch_refuted' depends on axioms: [propext, Classical.choice, Quot.sound]
'Neffos.c36_exch_partial' depends on axioms: [propext, Classical.choice, Quot.sound]
'Neffos.c37_recipient_partial' depends on axioms: [propext, Classical.choice, Quot.sound]
'Neffos.c37_refuted_id' depends on axioms: [propext]
'Neffos.c37_refuted_event' depends on axioms: [propext, Classical.choice, Quot.sound]
'Neffos.c38_batch_partial' depends on axioms: [propext, Classical.choice, Quot.sound]
'Neffos.c38_refuted' depends on axioms: [propext]
'Neffos.c38_refuted_witness' depends on axioms: [propext, Quot.sound]
'Neffos.c39_identity' depends on axioms: [propext, Quot.sound]
'Neffos.c39_pointer' depends on axioms: [propext, Quot.sound]
'Neffos.c39_conn' depends on axioms: [propext, Quot.sound]
'Neffos.c39_sent' depends on axioms: [propext, Classical.choice, Quot.sound]
'Neffos.c39_sent_id' depends on axioms: [propext, Classical.choice, Quot.sound]
'Neffos.c39_exchange_refuted' depends on axioms: [propext, Quot.sound]
'Neffos.c40_refuted' depends on axioms: [propext, Quot.sound]
'Neffos.c40_refuted_witness' depends on axioms: [propext, Quot.sound]
'Neffos.c40_partial' depends on axioms: [propext, Quot.sound]
'Neffos.c41_batches_partial' depends on axioms: [propext, Quot.sound]
'Neffos.c41_order_partial' depends on axioms: [propext, Quot.sound]
'Neffos.c41_no_older_partial' depends on axioms: [propext, Quot.sound]
'Neffos.c41_no_panic' depends on axioms: [propext, Quot.sound]
'Neffos.c41_completes_partial' depends on axioms: [propext, Quot.sound]
'Neffos.c41_refuted_blocks' depends on axioms: [propext, Quot.sound]
'Neffos.c41_refuted_torn' depends on axioms: [propext, Quot.sound]
'Neffos.c42_once_partial' depends on axioms: [propext, Quot.sound]
'Neffos.c42_wakes_partial' depends on axioms: [propext, Quot.sound]
'Neffos.c42_refuted_lost' depends on axioms: [propext, Quot.sound]
'Neffos.c42_refuted_twice' depends on axioms: [propext, Quot.sound]
'Neffos.c43_offered' depends on axioms: [propext, Classical.choice, Quot.sound]
'Neffos.c43_order' depends on axioms: [propext, Classical.choice, Quot.sound]
'Neffos.c43_no_loss' depends on axioms: [propext, Classical.choice, Quot.sound]
'Neffos.c44_safe_partial' depends on axioms: [propext, Quot.sound]
'Neffos.c44_table_partial' depends on axioms: [propext, Classical.choice, Quot.sound]
'Neffos.c44_refuted' depends on axioms: [propext, Quot.sound]
'Neffos.c44_refuted_broadcast' depends on axioms: [propext, Quot.sound]
'Neffos.c45_refused_partial' depends on axioms: [propext, Classical.choice, Quot.sound]
'Neffos.c45_second_partial' depends on axioms: [propext, Classical.choice, Quot.sound]
'Neffos.c45_closed' depends on axioms: [propext, Classical.choice, Quot.sound]
'Neffos.c45_all_partial' depends on axioms: [propext, Classical.choice, Quot.sound]
'Neffos.c45_refuted_mid' depends on axioms: [propext, Quot.sound]
'Neffos.c45_refuted_boot' depends on axioms: [propext, Quot.sound]
'Neffos.c46_closed' depends on axioms: [propext]
'Neffos.c46_head' depends on axioms: [propext]
'Neffos.c46_method' depends on axioms: [propext]
'Neffos.c46_upgrader' depends on axioms: [propext]
'Neffos.c46_conn' depends on axioms: [propext, Quot.sound]
'Neffos.c46_created' depends on axioms: [propext, Quot.sound]
'Neffos.c46_returned' depends on axioms: [propext, Quot.sound]
'Neffos.c46_reconnect' depends on axioms: [propext, Quot.sound]
'Neffos.c47_values' depends on axioms: [propext, Quot.sound]
'Neffos.c47_empty' depends on axioms: [propext, Quot.sound]
'Neffos.c47_order' depends on axioms: [propext, Quot.sound]
'Neffos.c47_canonical' depends on axioms: [propext]
'Neffos.c47_names' depends on axioms: [propext, Quot.sound]
'Neffos.c47_letters' depends on axioms: [propext, Quot.sound]
'Neffos.c48_value' depends on axioms: [propext]
'Neffos.c48_set_get' depends on axioms: [propext]
'Neffos.c48_unset' depends on axioms: [propext]
'Neffos.c48_returns' depends on axioms: [propext]
'Neffos.c48_count' depends on axioms: [propext]
'Neffos.c48_lost_refuted' depends on axioms: [propext]
'Neffos.c48_separate_partial' depends on axioms: [propext, Quot.sound]
'Neffos.c49_use' depends on axioms: [propext]
'Neffos.c49_use_error' depends on axioms: [propext, Quot.sound]
'Neffos.c49_disconnect' depends on axioms: [propext]
'Neffos.c49_subscribe' depends on axioms: [propext]
'Neffos.c49_unsubscribe' depends on axioms: [propext]
'Neffos.c49_publish' depends on axioms: [propext, Quot.sound]
'Neffos.c49_connect' depends on axioms: [propext, Classical.choice, Quot.sound]
'Neffos.c49_notify' depends on axioms: [propext, Classical.choice, Quot.sound]
'Neffos.c49_ask_partial' depends on axioms: [propext, Classical.choice, Quot.sound]
'Neffos.c49_ask_refuted' depends on axioms: [propext]
'Neffos.c50_redis_partial' depends on axioms: [propext, Classical.choice, Quot.sound]
'Neffos.c50_nats_partial' depends on axioms: [propext, Classical.choice, Quot.sound]
'Neffos.c50_redis_refuted' depends on axioms: [propext, Quot.sound]
'Neffos.c50_nats_refuted' depends on axioms: [propext]
'Neffos.c50_refuted_pattern' depends on axioms: [propext]
'Neffos.c50_publish' depends on axioms: [propext, Classical.choice, Quot.sound]
'Neffos.c51_redis_partial' depends on axioms: [propext, Classical.choice, Quot.sound]
'Neffos.c51_nats_partial' depends on axioms: [propext, Classical.choice, Quot.sound]
'Neffos.c51_follows' depends on axioms: [propext, Classical.choice, Quot.sound]
'Neffos.c51_redis_member_partial' depends on axioms: [propext, Classical.choice, Quot.sound]
'Neffos.c51_nats_refuted' depends on axioms: [propext, Quot.sound]
'Neffos.c51_refuted_id' depends on axioms: [propext]
'Neffos.c51_refuted_native' depends on axioms: [propext]
'Neffos.c51_nats_refuted_empty' depends on axioms: [propext, Quot.sound]
'Neffos.c52_close' depends on axioms: [propext, Quot.sound]
'Neffos.c52_disconnect' depends on axioms: [propext, Quot.sound]
'Neffos.c52_nil' depends on axioms: [propext]
'Neffos.c52_write' depends on axioms: [propext, Classical.choice, Quot.sound]
'Neffos.c52_written' depends on axioms: [propext]
'Neffos.c53_connections' depends on axioms: [propext, Quot.sound]
'Neffos.c53_by_namespace' depends on axioms: [propext, Quot.sound]
'Neffos.c54_event_partial' depends on axioms: [propext, Classical.choice, Quot.sound]
'Neffos.c54_refuted' depends on axioms: [propext, Classical.choice, Quot.sound]
'Neffos.c54_room_refuted' depends on axioms: [propext, Quot.sound]
'Neffos.c55_empty_answer' depends on axioms: [propext, Quot.sound]
'Neffos.c55_received_token_no_separator' depends on axioms: [propext, Classical.choice, Quot.sound]
'Neffos.c56_timeouts_partial' depends on axioms: [propext]
'Neffos.c56_refuted' depends on axioms: [propext]
'Neffos.c57_one_winner' depends on axioms: [propext, Classical.choice, Quot.sound]
'Neffos.c57_exact' depends on axioms: [propext, Classical.choice, Quot.sound]
'Neffos.c57_found' depends on axioms: [propext, Quot.sound]
'Neffos.c57_undisturbed' depends on axioms: [propext, Classical.choice, Quot.sound]
'Neffos.c57_each_once' depends on axioms: [propext, Classical.choice, Quot.sound]
'Neffos.c57_at_most_once' depends on axioms: [propext, Classical.choice, Quot.sound]
'Neffos.c57_exactly_once' depends on axioms: [propext, Classical.choice, Quot.sound]
'Neffos.c57_progress' depends on axioms: [propext, Classical.choice, Quot.sound]
'Neffos.c57_ends' depends on axioms: [propext, Classical.choice, Quot.sound]
'Neffos.c58_leave_all' depends on axioms: [propext, Quot.sound]
'Neffos.c58_leave_nil' depends on axioms: [propext, Quot.sound]
'Neffos.c58_disconnect_all' depends on axioms: [propext, Quot.sound]
'Neffos.c58_disconnect_nil' depends on axioms: [propext, Quot.sound]
'Neffos.c58_native' depends on axioms: [propext]
'Neffos.c59_exact_partial' depends on axioms: [propext, Classical.choice, Quot.sound]
'Neffos.c59_progress_partial' depends on axioms: [propext, Classical.choice, Quot.sound]
'Neffos.c59_bound_partial' depends on axioms: [propext, Classical.choice, Quot.sound]
'Neffos.c59_refuted_event' depends on axioms: [propext, Classical.choice, Quot.sound]
'Neffos.c59_refuted_both_leave' depends on axioms: [propext, Classical.choice, Quot.sound]
'Neffos.c59_refuted_disconnect' depends on axioms: [propext, Classical.choice, Quot.sound]
'Neffos.c59_mutex' depends on axioms: [propext, Quot.sound]
'Neffos.c60_one_writer' depends on axioms: [propext, Quot.sound]
'Neffos.c60_locked' depends on axioms: [propext, Quot.sound]
'Neffos.c60_leaveAll' depends on axioms: [propext, Quot.sound]
'Neffos.c60_getConnections' depends on axioms: [propext, Quot.sound]
'Neffos.c60_waitMessages' depends on axioms: [propext, Quot.sound]
'Neffos.c60_exact' depends on axioms: [propext, Quot.sound]
'Neffos.c60_free' depends on axioms: [propext, Quot.sound]
'Neffos.c61_exchange' depends on axioms: [propext, Quot.sound]
'Neffos.c61_server' depends on axioms: [propext, Quot.sound]
'Neffos.c61_own' depends on axioms: [propext, Classical.choice, Quot.sound]
'Neffos.c61_unclaimed' depends on axioms: [propext, Quot.sound]
'Neffos.c61_blocked' depends on axioms: [propext, Quot.sound]
'Neffos.c61_returns' depends on axioms: [propext, Classical.choice, Quot.sound]
'Neffos.c61_ask' depends on axioms: [propext, Classical.choice, Quot.sound]
'Neffos.c61_next' depends on axioms: [propext, Quot.sound]
'Neffos.c62_order' depends on axioms: [propext, Classical.choice, Quot.sound]
'Neffos.c62_exact' depends on axioms: [propext, Classical.choice, Quot.sound]
'Neffos.c62_client' depends on axioms: [propext, Classical.choice, Quot.sound]
'Neffos.c62_client_exact' depends on axioms: [propext, Classical.choice, Quot.sound]
'Neffos.c62_server' depends on axioms: [propext, Classical.choice, Quot.sound]
'Neffos.c62_server_exact' depends on axioms: [propext, Classical.choice, Quot.sound]
'Neffos.c62_emitted' depends on axioms: [propext, Classical.choice, Quot.sound]
'Neffos.c62_unconnected_lost' depends on axioms: [propext, Quot.sound]
'Neffos.c63_request' depends on axioms: [propext, Classical.choice, Quot.sound]
'Neffos.c63_unanswered' depends on axioms: [propext, Classical.choice, Quot.sound]
'Neffos.c63_answered' depends on axioms: [propext, Classical.choice, Quot.sound]
'Neffos.c63_returned' depends on axioms: [propext, Classical.choice, Quot.sound]
'Neffos.c63_client' depends on axioms: [propext, Classical.choice, Quot.sound]
'Neffos.c63_server' depends on axioms: [propext, Classical.choice, Quot.sound]
'Neffos.c64_exact' depends on axioms: [propext, Quot.sound]
'Neffos.c64_instance_partial' depends on axioms: [propext, Classical.choice, Quot.sound]
'Neffos.c64_hidden_refuted' depends on axioms: [propext, Quot.sound]
'Neffos.c64_time_refuted' depends on axioms: [propext, Quot.sound]
'Neffos.c64_method_refuted' depends on axioms: [propext, Quot.sound]
'Neffos.c64_preset_refuted' depends on axioms: [propext, Quot.sound]
'Neffos.c64_says_refuted' depends on axioms: [propext, Classical.choice, Quot.sound]
'Neffos.c65_method' depends on axioms: [propext]
'Neffos.c65_field' depends on axioms: [propext, Classical.choice, Quot.sound]
'Neffos.c65_none' depends on axioms: [propext, Classical.choice, Quot.sound]
'Neffos.c65_promoted_refuted' depends on axioms: [propext, Classical.choice, Quot.sound]
'Neffos.c65_promoted_witness_refuted' depends on axioms: [propext]
'Neffos.c66_settings' depends on axioms: [propext, Quot.sound]
'Neffos.c67_fifo_partial' depends on axioms: [propext, Classical.choice, Quot.sound]
'Neffos.c67_gorilla' depends on axioms: [propext, Classical.choice, Quot.sound]
'Neffos.c67_end' depends on axioms: [propext, Classical.choice, Quot.sound]
'Neffos.c67_utf8' depends on axioms: [propext, Classical.choice, Quot.sound]
'Neffos.c67_utf8_refuted' depends on axioms: [propext, Classical.choice, Quot.sound]
'Neffos.c68_gobwas' depends on axioms: [propext, Classical.choice, Quot.sound]
'Neffos.c68_gorilla' depends on axioms: [propext, Quot.sound]
'Neffos.c68_silent' depends on axioms: [propext, Quot.sound]
'Neffos.c68_error' depends on axioms: [propext, Classical.choice, Quot.sound]
'Neffos.c68_ping_refuted' depends on axioms: [propext, Quot.sound]
'Neffos.c69_messages_partial' depends on axioms: [propext, Quot.sound]
'Neffos.c69_all_partial' depends on axioms: [propext, Quot.sound]
'Neffos.c69_progress' depends on axioms: [propext, Quot.sound]
'Neffos.c69_pong_refuted' depends on axioms: [propext, Quot.sound]
'Neffos.c70_gobwas' depends on axioms: [propext, Quot.sound]
'Neffos.c70_gorilla' depends on axioms: [propext, Quot.sound]
'Neffos.c70_own_call_partial' depends on axioms: [propext, Quot.sound]
'Neffos.c70_queue_refuted' depends on axioms: [propext, Quot.sound]
'Neffos.c71_returned' depends on axioms: [propext, Quot.sound]
'Neffos.c71_error' depends on axioms: [propext, Quot.sound]
'Neffos.c71_finds' depends on axioms: [propext, Quot.sound]
'Neffos.c71_context' depends on axioms: [propext, Quot.sound]
'Neffos.c71_closed_refuted' depends on axioms: [propext, Quot.sound]
'Neffos.c71_stale_refuted' depends on axioms: [propext, Quot.sound]
'Neffos.c72_on_partial' depends on axioms: [propext, Classical.choice, Quot.sound]
'Neffos.c72_chain' depends on axioms: [propext, Classical.choice, Quot.sound]
'Neffos.c72_nil' depends on axioms: [propext]
'Neffos.c72_shared_refuted' depends on axioms: [propext]
'Neffos.c73_accepts' depends on axioms: [propext, Quot.sound]
'Neffos.c73_handles_partial' depends on axioms: [propext, Quot.sound]
'Neffos.c73_none_refuted' does not depend on any axioms
'Neffos.c74_value_partial' depends on axioms: [propext, Classical.choice, Quot.sound]
'Neffos.c74_choice' does not depend on any axioms
'Neffos.c74_error_refuted' depends on axioms: [propext, Classical.choice, Quot.sound]
'Neffos.c75_first' depends on axioms: [propext, Classical.choice, Quot.sound]
'Neffos.c75_start' depends on axioms: [propext, Quot.sound]
'Neffos.c75_notify_partial' depends on axioms: [propext, Classical.choice, Quot.sound]
'Neffos.c75_marked_partial' depends on axioms: [propext, Classical.choice, Quot.sound]
'Neffos.c75_unrecognised_refuted' depends on axioms: [propext, Classical.choice, Quot.sound]
'Neffos.c75_native_refuted' depends on axioms: [propext, Quot.sound]
'Neffos.c75_early_refuted' depends on axioms: [propext, Quot.sound]
'Neffos.c75_request' depends on axioms: [propext, Quot.sound]
'Neffos.c76_bounds' depends on axioms: [propext, Classical.choice, Quot.sound]
'Neffos.c76_every' depends on axioms: [propext, Classical.choice, Quot.sound]
'Neffos.c76_exact' depends on axioms: [propext, Classical.choice, Quot.sound]
'Neffos.c77_marks' depends on axioms: [propext, Quot.sound]
'Neffos.c77_handed' depends on axioms: [propext, Classical.choice, Quot.sound]
'Neffos.c77_sent' depends on axioms: [propext, Classical.choice, Quot.sound]
'Neffos.c77_exact' depends on axioms: [propext, Classical.choice, Quot.sound]
'Neffos.c78_namespaces' depends on axioms: [propext, Classical.choice, Quot.sound]
'Neffos.c78_rooms' depends on axioms: [propext, Classical.choice, Quot.sound]
'Neffos.c78_agree' depends on axioms: [propext, Classical.choice, Quot.sound]
'Neffos.c78_connect' depends on axioms: [propext, Classical.choice, Quot.sound]
'Neffos.c78_join' depends on axioms: [propext, Classical.choice, Quot.sound]
'Neffos.c78_leave' depends on axioms: [propext, Classical.choice, Quot.sound]
'Neffos.c78_disconnect' depends on axioms: [propext, Classical.choice, Quot.sound]
'Neffos.c78_covers' depends on axioms: [propext, Quot.sound]
'Neffos.c78_clash_refuted' depends on axioms: [propext, Quot.sound]
'Neffos.c79_answer' depends on axioms: [propext, Classical.choice, Quot.sound]
'Neffos.c79_ready' depends on axioms: [propext, Classical.choice, Quot.sound]
'Neffos.c79_waiting' depends on axioms: [propext, Classical.choice, Quot.sound]
'Neffos.c79_badnamespace_refuted' depends on axioms: [propext, Classical.choice, Quot.sound]
'Neffos.c80_up' depends on axioms: [propext, Classical.choice, Quot.sound]
'Neffos.c80_down' depends on axioms: [propext, Classical.choice, Quot.sound]
'Neffos.c80_woken' depends on axioms: [propext, Classical.choice, Quot.sound]
'Neffos.c80_reconnect_refuted' depends on axioms: [propext, Classical.choice, Quot.sound]
'Neffos.c81_ready' depends on axioms: [propext, Classical.choice, Quot.sound]
'Neffos.c81_waiting' depends on axioms: [propext, Classical.choice, Quot.sound]
'Neffos.c81_gate' depends on axioms: [propext, Classical.choice, Quot.sound]
'Neffos.c81_rest' depends on axioms: [propext, Classical.choice, Quot.sound]
'Neffos.c81_noisy_refuted' depends on axioms: [propext, Classical.choice, Quot.sound]
'Neffos.c82_answer' depends on axioms: [propext, Classical.choice, Quot.sound]
'Neffos.c82_endless' depends on axioms: [propext, Classical.choice, Quot.sound]
'Neffos.c83_bound' depends on axioms: [propext, Classical.choice, Quot.sound]
'Neffos.c83_returns' depends on axioms: [propext, Classical.choice, Quot.sound]
'Neffos.c83_settles' depends on axioms: [propext, Classical.choice, Quot.sound]
'Neffos.c84_place' depends on axioms: [propext, Classical.choice, Quot.sound]
'Neffos.c84_order' depends on axioms: [propext, Classical.choice, Quot.sound]
'Neffos.c84_lost' depends on axioms: [propext, Classical.choice, Quot.sound]
'Neffos.c84_returns' depends on axioms: [propext, Quot.sound]
'Neffos.c84_swallowed' depends on axioms: [propext, Classical.choice, Quot.sound]
'Neffos.c85_panic' depends on axioms: [propext, Classical.choice, Quot.sound]
'Neffos.c85_early' depends on axioms: [propext, Classical.choice, Quot.sound]
'Neffos.c85_result' depends on axioms: [propext, Classical.choice, Quot.sound]
'Neffos.c85_blocked' depends on axioms: [propext, Classical.choice, Quot.sound]
'Neffos.c86_told' depends on axioms: [propext, Classical.choice, Quot.sound]
'Neffos.c86_kept' depends on axioms: [propext, Classical.choice, Quot.sound]
'Neffos.c86_leak' depends on axioms: [propext, Classical.choice, Quot.sound]
'Neffos.c86_count' depends on axioms: [propext, Classical.choice, Quot.sound]
'Neffos.c87_exact' depends on axioms: [propext, Classical.choice, Quot.sound]
'Neffos.c87_half' depends on axioms: [propext, Quot.sound]
'Neffos.c87_silent' depends on axioms: [propext, Classical.choice, Quot.sound]
'Neffos.c88_arrives' depends on axioms: [propext, Classical.choice, Quot.sound]
'Neffos.c88_native' depends on axioms: [propext, Classical.choice, Quot.sound]
'Neffos.c88_same_bytes' depends on axioms: [propext, Classical.choice, Quot.sound]
'Neffos.c89_namespaces' depends on axioms: [propext, Classical.choice, Quot.sound]
'Neffos.c89_rooms' depends on axioms: [propext, Classical.choice, Quot.sound]
'Neffos.c89_agree' depends on axioms: [propext, Classical.choice, Quot.sound]
'Neffos.c89_client' depends on axioms: [propext, Classical.choice, Quot.sound]
'Neffos.c89_server' depends on axioms: [propext, Classical.choice, Quot.sound]
'Neffos.c89_clash_refuted' depends on axioms: [propext, Quot.sound]
'Neffos.c90_rest_partial' depends on axioms: [propext, Classical.choice, Quot.sound]
'Neffos.c90_stuck' depends on axioms: [propext, Classical.choice, Quot.sound]
'Neffos.c90_refuted' depends on axioms: [propext, Classical.choice, Quot.sound]
'Neffos.c91_redis' depends on axioms: [propext, Classical.choice, Quot.sound]
'Neffos.c91_nats' depends on axioms: [propext, Classical.choice, Quot.sound]
'Neffos.c91_nats_none' depends on axioms: [propext, Classical.choice, Quot.sound]
'Neffos.c91_channel' depends on axioms: [propext, Quot.sound]
'Neffos.c91_direct' depends on axioms: [propext, Classical.choice, Quot.sound]
'Neffos.c92_state' depends on axioms: [propext, Classical.choice, Quot.sound]
'Neffos.c92_refused' depends on axioms: [propext, Classical.choice, Quot.sound]
'Neffos.c92_wait' depends on axioms: [propext, Classical.choice, Quot.sound]
'Neffos.c92_native' depends on axioms: [propext, Classical.choice, Quot.sound]
'Neffos.c93_not_held' depends on axioms: [propext, Classical.choice, Quot.sound]
'Neffos.c93_rest' depends on axioms: [propext, Classical.choice, Quot.sound]
'Neffos.c93_bound' depends on axioms: [propext, Classical.choice, Quot.sound]
'Neffos.c93_returns' depends on axioms: [propext, Classical.choice, Quot.sound]
'Neffos.c93_settles' depends on axioms: [propext, Classical.choice, Quot.sound]
'Neffos.c94_heard' depends on axioms: [propext, Classical.choice, Quot.sound]
'Neffos.c94_same' depends on axioms: [propext, Classical.choice, Quot.sound]
'Neffos.c95_ledger' depends on axioms: [propext, Classical.choice, Quot.sound]
'Neffos.c95_forged' depends on axioms: [propext, Quot.sound]
'Neffos.c95_failed' depends on axioms: [propext, Quot.sound]
'Neffos.c96_robust' depends on axioms: [propext, Classical.choice, Quot.sound]
'Neffos.c96_native' depends on axioms: [propext, Classical.choice, Quot.sound]
'Neffos.c96_needed' depends on axioms: [propext, Quot.sound]
'Neffos.c97_reader' depends on axioms: [propext, Quot.sound]
'Neffos.c97_conn' depends on axioms: [propext, Classical.choice, Quot.sound]
'Neffos.c97_lost' depends on axioms: [propext, Quot.sound]
'Neffos.c97_why' depends on axioms: [propext, Quot.sound]
'Neffos.c97_client' depends on axioms: [propext, Classical.choice, Quot.sound]
'Neffos.c97_server' depends on axioms: [propext, Classical.choice, Quot.sound]
'Neffos.c97_server_why' depends on axioms: [propext, Quot.sound]
'Neffos.c97_next' depends on axioms: [propext, Quot.sound]
'Neffos.c98_received' depends on axioms: [propext, Classical.choice, Quot.sound]
'Neffos.c98_received_serial' depends on axioms: [propext, Classical.choice, Quot.sound]
'Neffos.c98_exact' depends on axioms: [propext, Classical.choice, Quot.sound]
'Neffos.c98_exact_serial' depends on axioms: [propext, Classical.choice, Quot.sound]
'Neffos.c98_number' depends on axioms: [propext, Classical.choice, Quot.sound]
'Neffos.c98_repeats' depends on axioms: [propext, Classical.choice, Quot.sound]
'Neffos.c98_repeats_serial' depends on axioms: [propext, Classical.choice, Quot.sound]
'Neffos.c99_calm' depends on axioms: [propext, Classical.choice, Quot.sound]
'Neffos.c99_client' depends on axioms: [propext, Classical.choice, Quot.sound]
'Neffos.c99_error' depends on axioms: [propext, Classical.choice, Quot.sound]
'Neffos.c99_error_any' depends on axioms: [propext, Classical.choice, Quot.sound]
'Neffos.c99_native' depends on axioms: [propext, Classical.choice, Quot.sound]
'Neffos.c99_returns' depends on axioms: [propext, Classical.choice, Quot.sound]
'Neffos.c99_lost' depends on axioms: [propext, Classical.choice, Quot.sound]
'Neffos.c99_prompt' depends on axioms: [propext, Classical.choice, Quot.sound]
'Neffos.c99_fair' depends on axioms: [propext, Classical.choice, Quot.sound]
'Neffos.c99_url' depends on axioms: [propext, Quot.sound]
'Neffos.c99_url_plain' depends on axioms: [propext, Quot.sound]
'Neffos.c99_lost_honest' depends on axioms: [propext]
'Neffos.c99_mark' depends on axioms: [propext]
'Neffos.c99_mark_lost' depends on axioms: [propext]
'Neffos.c100_survives' depends on axioms: [propext, Classical.choice, Quot.sound]
'Neffos.c100_can' depends on axioms: [propext, Classical.choice, Quot.sound]
'Neffos.c100_close' depends on axioms: [propext, Classical.choice, Quot.sound]
'Neffos.c100_registered' depends on axioms: [propext, Classical.choice, Quot.sound]
'Neffos.c100_passes' depends on axioms: [propext, Classical.choice, Quot.sound]
'Neffos.c101_answer' depends on axioms: [propext, Classical.choice, Quot.sound]
'Neffos.c101_silent' depends on axioms: [propext, Classical.choice, Quot.sound]
'Neffos.c101_iff' depends on axioms: [propext, Classical.choice, Quot.sound]
'Neffos.c101_ignored' depends on axioms: [propext, Classical.choice, Quot.sound]
'Neffos.c101_token' depends on axioms: [propext, Classical.choice, Quot.sound]
'Neffos.c102_pass' depends on axioms: [propext, Classical.choice, Quot.sound]
'Neffos.c102_panic' depends on axioms: [propext, Classical.choice, Quot.sound]
'Neffos.c102_calm' depends on axioms: [propext, Classical.choice, Quot.sound]
'Neffos.c102_connect' depends on axioms: [propext, Classical.choice, Quot.sound]
'Neffos.c102_rest' depends on axioms: [propext, Classical.choice, Quot.sound]
'Neffos.c102_look' depends on axioms: [propext, Classical.choice, Quot.sound]
'Neffos.c102_held' depends on axioms: [propext, Classical.choice, Quot.sound]
'Neffos.c103_tried' depends on axioms: [propext, Quot.sound]
'Neffos.c103_result' depends on axioms: [propext, Quot.sound]
'Neffos.c103_servers' depends on axioms: [propext, Quot.sound]
'Neffos.c103_with' depends on axioms: [propext, Quot.sound]
'Neffos.c104_dial' depends on axioms: [propext, Quot.sound]
'Neffos.c104_node' depends on axioms: [propext, Quot.sound]
'Neffos.c104_new' depends on axioms: [propext, Quot.sound]
'Neffos.c104_password' does not depend on any axioms
'Neffos.c105_printer' depends on axioms: [propext]
'Neffos.c105_off' depends on axioms: [propext, Quot.sound]
'Neffos.c105_line' depends on axioms: [propext]
'Neffos.c105_method' depends on axioms: [propext, Classical.choice, Quot.sound]
'Neffos.c105_panic' depends on axioms: [propext, Quot.sound]
'Neffos.c105_each' depends on axioms: [propext]
'Neffos.c106_up' depends on axioms: [propext, Classical.choice, Quot.sound]
'Neffos.c106_down' depends on axioms: [propext, Classical.choice, Quot.sound]
'Neffos.c106_held_up' depends on axioms: [propext, Classical.choice, Quot.sound]
'Neffos.c106_held_down' depends on axioms: [propext, Classical.choice, Quot.sound]
'Neffos.c107_up' depends on axioms: [propext, Classical.choice, Quot.sound]
'Neffos.c107_down' depends on axioms: [propext, Classical.choice, Quot.sound]
'Neffos.c107_rest' depends on axioms: [propext, Classical.choice, Quot.sound]
'Neffos.c107_delivers' depends on axioms: [propext, Classical.choice, Quot.sound]
'Neffos.c107_emitted' depends on axioms: [propext, Classical.choice, Quot.sound]
'Neffos.c107_rule_needed' depends on axioms: [propext, Classical.choice, Quot.sound]
'Neffos.c108_gate' depends on axioms: [propext, Classical.choice, Quot.sound]
'Neffos.c108_gate_alone' depends on axioms: [propext, Classical.choice, Quot.sound]
'Neffos.c108_returns' depends on axioms: [propext, Classical.choice, Quot.sound]
'Neffos.c109_sent' depends on axioms: [propext, Classical.choice, Quot.sound]
'Neffos.c109_name' depends on axioms: [propext, Classical.choice, Quot.sound]
'Neffos.c109_conn' depends on axioms: [propext, Classical.choice, Quot.sound]
'Neffos.c110_exact' depends on axioms: [propext, Classical.choice, Quot.sound]
'Neffos.c110_settled' depends on axioms: [propext, Classical.choice, Quot.sound]
'Neffos.c111_called' depends on axioms: [propext, Quot.sound]
'Neffos.c111_none' depends on axioms: [propext, Quot.sound]
'Neffos.c111_prefix' depends on axioms: [propext, Quot.sound]
'Neffos.c111_trim' depends on axioms: [propext, Quot.sound]
'Neffos.c112_once' depends on axioms: [propext, Classical.choice, Quot.sound]
'Neffos.c112_look' depends on axioms: [propext, Classical.choice, Quot.sound]
'Neffos.c112_exact' depends on axioms: [propext, Classical.choice, Quot.sound]
'Neffos.c112_same' depends on axioms: [propext, Classical.choice, Quot.sound]
'Neffos.c112_none' depends on axioms: [propext, Classical.choice, Quot.sound]
'Neffos.c113_ask' depends on axioms: [propext]
'Neffos.c113_failed' depends on axioms: [propext, Quot.sound]
'Neffos.c113_shipped' depends on axioms: [propext, Quot.sound]
'Neffos.c113_empty' depends on axioms: [propext, Quot.sound]
'Neffos.c114_on' depends on axioms: [propext, Classical.choice, Quot.sound]
'Neffos.c114_cases' depends on axioms: [propext, Classical.choice, Quot.sound]
'Neffos.c114_shares' depends on axioms: [propext, Classical.choice, Quot.sound]
'Neffos.c114_events' depends on axioms: [propext, Classical.choice, Quot.sound]
'Neffos.c114_nil' depends on axioms: [propext]
'Neffos.c115_server' depends on axioms: [propext, Quot.sound]
'Neffos.c115_upgrade' depends on axioms: [propext, Quot.sound]
'Neffos.c115_dial' depends on axioms: [propext, Quot.sound]
'Neffos.c115_kinds' depends on axioms: [propext]
'Neffos.c115_gives_up' depends on axioms: [propext, Classical.choice, Quot.sound]
'Neffos.c115_joined' depends on axioms: [propext, Classical.choice, Quot.sound]
'Neffos.c116_safe' depends on axioms: [propext, Classical.choice, Quot.sound]
'Neffos.c116_table' depends on axioms: [propext, Classical.choice, Quot.sound]
'Neffos.c116_pair' depends on axioms: [propext, Quot.sound]
'Neffos.c116_alone' depends on axioms: [propext, Quot.sound]
'Neffos.c117_ran' depends on axioms: [propext, Classical.choice, Quot.sound]
'Neffos.c117_panics' depends on axioms: [propext, Classical.choice, Quot.sound]
'Neffos.c117_calls' depends on axioms: [propext, Classical.choice, Quot.sound]
'Neffos.c118_tries' depends on axioms: [propext, Classical.choice, Quot.sound]
'Neffos.c118_was' depends on axioms: [propext, Classical.choice, Quot.sound]
'Neffos.c118_range' depends on axioms: [propext, Classical.choice, Quot.sound]
'Neffos.c119_received' depends on axioms: [propext, Classical.choice, Quot.sound]
'Neffos.c119_panics' depends on axioms: [propext, Classical.choice, Quot.sound]
'Neffos.c119_redis' depends on axioms: [propext, Classical.choice, Quot.sound]
'Neffos.c119_except' depends on axioms: [propext, Classical.choice, Quot.sound]
'Neffos.c119_native_only' depends on axioms: [propext, Classical.choice, Quot.sound]
'Neffos.c120_exact' depends on axioms: [propext, Classical.choice, Quot.sound]
'Neffos.c120_none' depends on axioms: [propext, Classical.choice, Quot.sound]
'Neffos.c121_connect' depends on axioms: [propext, Classical.choice, Quot.sound]
'Neffos.c121_disconnect_server' depends on axioms: [propext, Classical.choice, Quot.sound]
'Neffos.c121_disconnect_client' depends on axioms: [propext, Classical.choice, Quot.sound]
'Neffos.c121_join' depends on axioms: [propext, Classical.choice, Quot.sound]
'Neffos.c121_leave_server' depends on axioms: [propext, Classical.choice, Quot.sound]
'Neffos.c121_leave_client' depends on axioms: [propext, Classical.choice, Quot.sound]
'Neffos.c121_answer' depends on axioms: [propext, Classical.choice, Quot.sound]
'Neffos.c121_event' depends on axioms: [propext, Classical.choice, Quot.sound]
'Neffos.c121_call_connect' depends on axioms: [propext, Classical.choice, Quot.sound]
'Neffos.c122_answer' depends on axioms: [propext, Classical.choice, Quot.sound]
'Neffos.c122_connect' depends on axioms: [propext, Classical.choice, Quot.sound]
'Neffos.c122_disconnect' depends on axioms: [propext, Classical.choice, Quot.sound]
'Neffos.c122_join' depends on axioms: [propext, Classical.choice, Quot.sound]
'Neffos.c122_leave' depends on axioms: [propext, Classical.choice, Quot.sound]
'Neffos.c123_written' depends on axioms: [propext, Classical.choice, Quot.sound]
'Neffos.c123_heard' depends on axioms: [propext, Classical.choice, Quot.sound]
'Neffos.c124_exact' depends on axioms: [propext, Classical.choice, Quot.sound]
'Neffos.c124_returns' depends on axioms: [propext, Classical.choice, Quot.sound]
'Neffos.c124_all' depends on axioms: [propext, Classical.choice, Quot.sound]
'Neffos.c124_whole' depends on axioms: [propext, Classical.choice, Quot.sound]
'Neffos.c125_agree' depends on axioms: [propext, Classical.choice, Quot.sound]
'Neffos.c125_everyone' depends on axioms: [propext, Classical.choice, Quot.sound]
'Neffos.c125_hears' depends on axioms: [propext, Classical.choice, Quot.sound]
'Neffos.c126_body' depends on axioms: [propext]
'Neffos.c126_result' depends on axioms: [propext]
'Neffos.c126_receives' depends on axioms: [propext, Classical.choice, Quot.sound]
'Neffos.c126_same' depends on axioms: [propext]
'Neffos.c127_step' depends on axioms: [propext, Classical.choice, Quot.sound]
'Neffos.c127_connects' depends on axioms: [propext, Classical.choice, Quot.sound]
'Neffos.c127_joins' depends on axioms: [propext, Classical.choice, Quot.sound]
'Neffos.c127_joins_iff' depends on axioms: [propext, Classical.choice, Quot.sound]
'Neffos.c127_calls' depends on axioms: [propext, Classical.choice, Quot.sound]
'Neffos.c128_step' depends on axioms: [propext, Classical.choice, Quot.sound]
'Neffos.c128_kept' depends on axioms: [propext, Classical.choice, Quot.sound]
'Neffos.c128_disconnects' depends on axioms: [propext, Classical.choice, Quot.sound]
'Neffos.c129_down' depends on axioms: [propext, Classical.choice, Quot.sound]
'Neffos.c129_up' depends on axioms: [propext, Classical.choice, Quot.sound]
'Neffos.c129_order' depends on axioms: [propext, Classical.choice, Quot.sound]
'Neffos.c129_message' depends on axioms: [propext, Quot.sound]
'Neffos.c129_given' depends on axioms: [propext, Classical.choice, Quot.sound]
'Neffos.c129_agree' depends on axioms: [propext, Classical.choice, Quot.sound]
'Neffos.c129_rest' depends on axioms: [propext, Classical.choice, Quot.sound]
'Neffos.c130_bound' depends on axioms: [propext, Classical.choice, Quot.sound]
'Neffos.c130_rest' depends on axioms: [propext, Classical.choice, Quot.sound]
'Neffos.c130_settles' depends on axioms: [propext, Classical.choice, Quot.sound]
'Neffos.c130_nothing' depends on axioms: [propext, Classical.choice, Quot.sound]
'Neffos.c131_connections' depends on axioms: [propext, Quot.sound]
'Neffos.c131_by_namespace' depends on axioms: [propext, Classical.choice, Quot.sound]
'Neffos.c131_only' depends on axioms: [propext, Quot.sound]
'Neffos.c131_rest' depends on axioms: [propext, Classical.choice, Quot.sound]
'Neffos.c132_same' depends on axioms: [propext, Quot.sound]
'Neffos.c132_heard' depends on axioms: [propext, Quot.sound]
'Neffos.c132_step' depends on axioms: [propext, Quot.sound]
'Neffos.c133_exact' depends on axioms: [propext, Classical.choice, Quot.sound]
'Neffos.c133_window' depends on axioms: [propext, Classical.choice, Quot.sound]
'Neffos.c133_either' depends on axioms: [propext, Classical.choice, Quot.sound]
'Neffos.c133_unheard' depends on axioms: [propext, Classical.choice, Quot.sound]
'Neffos.c134_tie' depends on axioms: [propext, Classical.choice, Quot.sound]
'Neffos.c134_closed' depends on axioms: [propext, Classical.choice, Quot.sound]
'Neffos.c134_spared' depends on axioms: [propext, Classical.choice, Quot.sound]
'Neffos.c134_survivor' depends on axioms: [propext, Classical.choice, Quot.sound]
'Neffos.c135_registered' depends on axioms: [propext, Classical.choice, Quot.sound]
'Neffos.c135_total' depends on axioms: [propext, Classical.choice, Quot.sound]
'Neffos.c135_later' depends on axioms: [propext, Classical.choice, Quot.sound]
'Neffos.c135_listed' depends on axioms: [propext, Classical.choice, Quot.sound]
'Neffos.c135_lost' depends on axioms: [propext, Classical.choice, Quot.sound]
'Neffos.c136_bound' depends on axioms: [propext, Classical.choice, Quot.sound]
'Neffos.c136_end' depends on axioms: [propext, Classical.choice, Quot.sound]
'Neffos.c136_ends' depends on axioms: [propext, Classical.choice, Quot.sound]
'Neffos.c137_bound' depends on axioms: [propext, Classical.choice, Quot.sound]
'Neffos.c137_end' depends on axioms: [propext, Classical.choice, Quot.sound]
'Neffos.c137_ends' depends on axioms: [propext, Classical.choice, Quot.sound]
'Neffos.c138_still' depends on axioms: [propext, Quot.sound]
'Neffos.c138_last' depends on axioms: [propext, Classical.choice, Quot.sound]
'Neffos.c139_story' depends on axioms: [propext, Classical.choice, Quot.sound]
'Neffos.c139_over' depends on axioms: [propext, Classical.choice, Quot.sound]
'Neffos.c139_each' depends on axioms: [propext, Classical.choice, Quot.sound]
'Neffos.c140_batches' depends on axioms: [propext, Classical.choice, Quot.sound]
'Neffos.c140_shut' depends on axioms: [propext, Classical.choice, Quot.sound]
'Neffos.c141_turns' depends on axioms: [propext, Classical.choice, Quot.sound]
'Neffos.c141_visits' depends on axioms: [propext, Classical.choice, Quot.sound]
'Neffos.c141_each' depends on axioms: [propext, Classical.choice, Quot.sound]
