# Axioms used by each theorem

Generated by tools/axioms.py from `#print axioms`.

## none

C06_omitted_version, C26_timed_out_shows

## propext

C03_tag_table, C12_construction, C12_insert, C12_collision_witness, C13_encode, C13_scoped_refused, C14_net_query, C26_timer, C41_poll_left, C112_lost, C118_poll, C119_smoltcp_engine, C119_smoltcp_none, C121_overtaken_witness, C122_once, C122_closed, C122_accepted, C122_woken, C124_leave

## propext, Classical.choice, Quot.sound

C01_varint_roundtrip, C01_varint_encodes_leb128, C02_varint_accepts_iff, C02_varint_bounds, C02_varint_verdict_stable, C02_varint_incomplete_iff, C03_frame_roundtrip, C03_message_frame, C03_frame_accepts_iff, C03_frame_in_bounds, C03_frame_incomplete_iff, C04_compound_roundtrip, C04_compound_accepts_iff, C04_compound_bounded, C04_count_guard, C04_compound_no_trailing, C05_roundtrip, C05_packet_roundtrip, C05_compound_roundtrip, C05_datagram, C05_datagram_compound, C05_socket_addrs_lawful, C06_meaning, C06_missing_rejected, C06_wide_version_rejected, C06_wide_state_rejected, C07_header_accepts_iff, C07_datagram_accepts_iff, C07_wrap_roundtrip, C07_no_cross_talk, C08_stream_verdict_chunking, C08_delivered_only_admitted, C08_unlabelled_transparent, C08_dialer_announces, C08_acceptor_silent_until_admitted, C09_accepts_iff, C09_noncanonical_rejected, C09_output_bounded, C09_base_accepts_iff, C09_bomb_guard, C10_gossip_roundtrip, C10_reliable_roundtrip, C10_frames_are_plain, C11_accepted_authenticated, C11_accepted_sealed, C11_rejected, C11_reliable_authenticated, C11_disabled_rejects, C14_stays_restricted, C15_earliest_is_min, C15_earliest_none_iff, C15_one_entry_per_live_key, C16_table_refines_map, C16_shuffle_perm, C17_one_claim_per_identity, C17_newest_replaces_older, C17_anonymous_invalidation, C18_finishes_exactly_once, C18_log_is_faithful, C18_bounded_retransmit, C18_counter_counts_handouts, C18_drain_completes_at_limit, C18_prune, C19_budget, C19_budget_one, C20_greedy, C20_fair_and_maximal, C20_take_one, C21_total, C21_strict_priority, C21_no_priority_inversion, C21_rank_saturates, C22_real_formula, C22_not_before_min, C22_not_before_min_general, C22_sub_ms_witness, C22_not_after_max, C22_confirm_brings_forward, C22_no_effect, C22_counts_distinct, C22_new_confirmer_accepted, C22_full_confirmation, C22_no_confirmations_expected, C22_timeouts_whole_ms, C22_timeouts_small_cluster, C24_chunking_invisible, C24_accepted, C24_dialled, C25_reports, C25_exactly_one_report, C25_one_payload, C25_failed_discards, C25_no_panic, C26_not_early, C27_buffer_bounded, C27_oversized_header_refused, C28_complete_iff, C28_agrees_with_decoder, C28_error_sound, C28_complete_stable, C28_error_iff, C30_replay, C31_generation, C32_revival, C33_refute, C33_impersonation, C34_failure, C34_deadline, C36_ignored, C36_accepted, C36_late, C36_only, C36_ends, C36_asked, C37_none, C37_once, C37_deadline, C38_unique, C38_kept, C38_exists, C39_accepted, C39_answer, C39_exactly, C39_once, C39_deadline, C39_kept, C39_cap, C40_bounds, C40_only, C40_timeout, C40_late, C41_poll, C41_serviced, C41_twice, C42_leave, C42_completes, C42_members, C42_silent, C42_not_before, C43_fits, C43_polled, C43_call, C43_relayed_witness, C44_reaped, C45_fair, C45_asked, C45_targets, C46_served, C46_current, C46_new, C47_no_kill, C49_address, C50_ping, C50_localState, C51_pushPull, C51_reliablePing, C51_userMessage, C51_issued_once, C51_kept, C51_ended, C51_gone, C51_new, C51_streams, C51_dials, C52_payload, C54_blame, C54_start, C54_never, C54_generation, C55_accepted_is_announced, C56_dead, C56_suspect, C56_alive, C56_join, C57_update_meta, C58_relays, C58_reliable, C58_disabled, C58_hopeless, C59_round, C59_quiet, C60_queued, C60_kept, C60_origin, C61_records, C61_messages, C61_no_ghosts, C62_reached, C62_current, C63_agreement, C63_address, C64_left, C64_messages, C65_accuracy, C65_messages, C65_healthy, C66_delivery, C67_authorised, C69_once, C69_truthful, C70_reported, C71_closed, C71_no_exchange, C72_inbound, C73_due, C73_guest, C73_guest_unlabelled, C75_orderly, C75_closed, C76_sealed, C76_complete, C77_sockets, C78_use, C78_warranted, C79_written, C79_fin, C79_pending, C79_read, C80_served, C81_policy, C82_due, C82_drain, C83_correlated_partial, C84_authentic, C85_held, C85_served, C86_datagrams, C86_streams, C87_asked, C87_pumped, C87_left, C88_mail, C88_pump, C89_settings, C89_refused, C90_caps, C90_pending_exact, C90_refused_at_cap, C91_route_sound, C91_handles_distinct, C91_dial_reuses, C91_dial_answer, C91_dial_fails_only, C91_reap_keeps_routes, C91_accepted_routes, C92_classes, C92_gossip_is_gossip, C93_earliest_excluding, C93_none, C94_bounded, C94_admitted, C94_fifo, C95_exact, C95_refused, C95_bounded, C96_once, C96_final, C96_push_pull, C96_user_message, C96_ping, C97_no_panic, C98_bounded, C99_placed, C100_leave, C101_once, C101_truthful, C102_endpoint, C103_authorised, C104_written, C104_discreet, C105_answer, C106_wake, C106_deadlines, C106_left_over, C107_overdue, C107_flush, C108_bound, C108_intake, C109_authorised, C110_said, C110_closed, C110_request, C111_order, C111_complete, C117_ping, C117_send, C118_all, C118_lost, C120_counted, C120_budget, C121_order, C121_stream, C123_join, C123_join_stopped, C123_join_now, C123_send, C123_send_stopped, C123_send_now, C123_leave, C123_leave_joins, C123_leave_now, C123_after_stop, C124_sweep, C124_none_late, C124_no_spin, C125_built, C125_current

## propext, Quot.sound

C01_varint_len_exact, C03_frame_encodable_iff, C04_compound_encodable, C05_encode_total, C05_string_ids_lawful, C07_wrap_iff, C10_gossip_send_total, C12_no_duplicates, C12_promote, C12_remove, C12_history, C12_still_decrypts, C13_roundtrip, C13_decode_exact, C13_injective, C13_accepts_iff, C13_codecs_agree, C14_net_contains, C14_admits_iff, C14_from_collection, C14_remove_by_ip, C14_composition, C18_retransmit_limit, C21_reset, C23_in_range, C23_new, C23_steps, C23_scaled_timeout, C23_scaled_timeout_total, C24_early_collection_witness, C25_final, C25_closed_then_failed_witness, C26_deadline, C29_table, C29_timers, C31_monotone, C31_stale_accusation, C31_stale_alive, C32_accusations, C33_wrap, C34_continuous, C34_zero_mult_witness, C35_never_failed, C35_only_by_leave, C35_left_forever, C37_start, C38_ping, C38_probe, C39_refused, C40_nack, C41_same_instant_witness, C42_again, C42_final, C44_reset, C45_short_window_witness, C46_when, C46_request, C47_merge_is_claims, C48_highest_wins, C48_highest_wins_new, C48_order_independent, C49_conflict, C50_unchanged, C50_stopped, C50_ackPayload, C50_userPacket, C50_userPackets, C51_honoured, C51_accept, C52_other, C52_answer, C53_alive_veto, C53_accepted, C53_merge_veto, C57_refused, C60_leave, C63_restart_witness, C68_endpoint, C68_reachable, C70_leave_unreported, C72_accepts, C72_ingress, C73_label_needed, C74_no_panic, C82_wake, C83_others, C83_lost, C84_origin, C90_refused_only_at_cap, C106_flush, C108_order, C108_close, C108_whole, C108_flushed, C110_refused_witness, C111_served_witness, C112_order, C112_complete, C112_end, C112_last, C113_order, C113_sent, C114_woken, C114_dialled, C114_listened, C115_clean, C115_bounded, C116_returned_partial, C116_lost, C116_delay, C118_order, C118_newest, C119_embassy_in_time, C119_embassy_soon, C119_embassy_exact, C119_embassy_order, C119_smoltcp_stack, C119_smoltcp_soon, C120_dropped, C120_released, C120_bounded, C124_wakes, C125_local_witness
