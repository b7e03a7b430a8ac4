{
 "claims": [
  {
   "property": "C01",
   "status": "proved",
   "theorems": [
    "Verif.Props.C01_varint_roundtrip",
    "Verif.Props.C01_varint_encodes_leb128",
    "Verif.Props.C01_varint_len_exact"
   ],
   "note": ""
  },
  {
   "property": "C02",
   "status": "proved",
   "theorems": [
    "Verif.Props.C02_varint_accepts_iff",
    "Verif.Props.C02_varint_bounds",
    "Verif.Props.C02_varint_verdict_stable",
    "Verif.Props.C02_varint_incomplete_iff"
   ],
   "note": ""
  },
  {
   "property": "C03",
   "status": "proved",
   "theorems": [
    "Verif.Props.C03_tag_table",
    "Verif.Props.C03_frame_roundtrip",
    "Verif.Props.C03_frame_encodable_iff",
    "Verif.Props.C03_message_frame",
    "Verif.Props.C03_frame_accepts_iff",
    "Verif.Props.C03_frame_in_bounds",
    "Verif.Props.C03_frame_incomplete_iff"
   ],
   "note": ""
  },
  {
   "property": "C04",
   "status": "proved",
   "theorems": [
    "Verif.Props.C04_compound_roundtrip",
    "Verif.Props.C04_compound_encodable",
    "Verif.Props.C04_compound_accepts_iff",
    "Verif.Props.C04_compound_bounded",
    "Verif.Props.C04_count_guard",
    "Verif.Props.C04_compound_no_trailing"
   ],
   "note": ""
  },
  {
   "property": "C05",
   "status": "proved",
   "theorems": [
    "Verif.Props.C05_roundtrip",
    "Verif.Props.C05_encode_total",
    "Verif.Props.C05_packet_roundtrip",
    "Verif.Props.C05_compound_roundtrip",
    "Verif.Props.C05_datagram",
    "Verif.Props.C05_datagram_compound",
    "Verif.Props.C05_string_ids_lawful",
    "Verif.Props.C05_socket_addrs_lawful"
   ],
   "note": ""
  },
  {
   "property": "C06",
   "status": "proved",
   "theorems": [
    "Verif.Props.C06_meaning",
    "Verif.Props.C06_missing_rejected",
    "Verif.Props.C06_wide_version_rejected",
    "Verif.Props.C06_wide_state_rejected",
    "Verif.Props.C06_omitted_version"
   ],
   "note": ""
  },
  {
   "property": "C07",
   "status": "proved",
   "theorems": [
    "Verif.Props.C07_header_accepts_iff",
    "Verif.Props.C07_datagram_accepts_iff",
    "Verif.Props.C07_wrap_iff",
    "Verif.Props.C07_wrap_roundtrip",
    "Verif.Props.C07_no_cross_talk"
   ],
   "note": ""
  },
  {
   "property": "C08",
   "status": "proved",
   "theorems": [
    "Verif.Props.C08_stream_verdict_chunking",
    "Verif.Props.C08_delivered_only_admitted",
    "Verif.Props.C08_unlabelled_transparent",
    "Verif.Props.C08_dialer_announces",
    "Verif.Props.C08_acceptor_silent_until_admitted"
   ],
   "note": ""
  },
  {
   "property": "C09",
   "status": "proved",
   "theorems": [
    "Verif.Props.C09_accepts_iff",
    "Verif.Props.C09_noncanonical_rejected",
    "Verif.Props.C09_output_bounded",
    "Verif.Props.C09_base_accepts_iff",
    "Verif.Props.C09_bomb_guard"
   ],
   "note": ""
  },
  {
   "property": "C10",
   "status": "proved",
   "theorems": [
    "Verif.Props.C10_gossip_roundtrip",
    "Verif.Props.C10_gossip_send_total",
    "Verif.Props.C10_reliable_roundtrip",
    "Verif.Props.C10_frames_are_plain"
   ],
   "note": ""
  },
  {
   "property": "C11",
   "status": "proved",
   "theorems": [
    "Verif.Props.C11_accepted_authenticated",
    "Verif.Props.C11_accepted_sealed",
    "Verif.Props.C11_rejected",
    "Verif.Props.C11_reliable_authenticated",
    "Verif.Props.C11_disabled_rejects"
   ],
   "note": ""
  },
  {
   "property": "C12",
   "status": "proved",
   "theorems": [
    "Verif.Props.C12_no_duplicates",
    "Verif.Props.C12_construction",
    "Verif.Props.C12_insert",
    "Verif.Props.C12_promote",
    "Verif.Props.C12_remove",
    "Verif.Props.C12_history",
    "Verif.Props.C12_still_decrypts",
    "Verif.Props.C12_collision_witness"
   ],
   "note": ""
  },
  {
   "property": "C13",
   "status": "proved",
   "theorems": [
    "Verif.Props.C13_encode",
    "Verif.Props.C13_roundtrip",
    "Verif.Props.C13_decode_exact",
    "Verif.Props.C13_injective",
    "Verif.Props.C13_accepts_iff",
    "Verif.Props.C13_scoped_refused",
    "Verif.Props.C13_codecs_agree"
   ],
   "note": ""
  },
  {
   "property": "C14",
   "status": "proved",
   "theorems": [
    "Verif.Props.C14_net_contains",
    "Verif.Props.C14_admits_iff",
    "Verif.Props.C14_from_collection",
    "Verif.Props.C14_stays_restricted",
    "Verif.Props.C14_remove_by_ip",
    "Verif.Props.C14_net_query",
    "Verif.Props.C14_composition"
   ],
   "note": ""
  },
  {
   "property": "C15",
   "status": "proved",
   "theorems": [
    "Verif.Props.C15_earliest_is_min",
    "Verif.Props.C15_earliest_none_iff",
    "Verif.Props.C15_one_entry_per_live_key"
   ],
   "note": ""
  },
  {
   "property": "C16",
   "status": "proved",
   "theorems": [
    "Verif.Props.C16_table_refines_map",
    "Verif.Props.C16_shuffle_perm"
   ],
   "note": ""
  },
  {
   "property": "C17",
   "status": "proved",
   "theorems": [
    "Verif.Props.C17_one_claim_per_identity",
    "Verif.Props.C17_newest_replaces_older",
    "Verif.Props.C17_anonymous_invalidation"
   ],
   "note": ""
  },
  {
   "property": "C18",
   "status": "proved",
   "theorems": [
    "Verif.Props.C18_retransmit_limit",
    "Verif.Props.C18_finishes_exactly_once",
    "Verif.Props.C18_log_is_faithful",
    "Verif.Props.C18_bounded_retransmit",
    "Verif.Props.C18_counter_counts_handouts",
    "Verif.Props.C18_drain_completes_at_limit",
    "Verif.Props.C18_prune"
   ],
   "note": ""
  },
  {
   "property": "C19",
   "status": "proved",
   "theorems": [
    "Verif.Props.C19_budget",
    "Verif.Props.C19_budget_one"
   ],
   "note": ""
  },
  {
   "property": "C20",
   "status": "proved",
   "theorems": [
    "Verif.Props.C20_greedy",
    "Verif.Props.C20_fair_and_maximal",
    "Verif.Props.C20_take_one"
   ],
   "note": ""
  },
  {
   "property": "C21",
   "status": "proved",
   "theorems": [
    "Verif.Props.C21_total",
    "Verif.Props.C21_strict_priority",
    "Verif.Props.C21_no_priority_inversion",
    "Verif.Props.C21_rank_saturates",
    "Verif.Props.C21_reset"
   ],
   "note": ""
  },
  {
   "property": "C22",
   "status": "proved",
   "theorems": [
    "Verif.Props.C22_real_formula",
    "Verif.Props.C22_not_before_min",
    "Verif.Props.C22_not_before_min_general",
    "Verif.Props.C22_sub_ms_witness",
    "Verif.Props.C22_not_after_max",
    "Verif.Props.C22_confirm_brings_forward",
    "Verif.Props.C22_no_effect",
    "Verif.Props.C22_counts_distinct",
    "Verif.Props.C22_new_confirmer_accepted",
    "Verif.Props.C22_full_confirmation",
    "Verif.Props.C22_no_confirmations_expected",
    "Verif.Props.C22_timeouts_whole_ms",
    "Verif.Props.C22_timeouts_small_cluster"
   ],
   "note": ""
  },
  {
   "property": "C23",
   "status": "proved",
   "theorems": [
    "Verif.Props.C23_in_range",
    "Verif.Props.C23_new",
    "Verif.Props.C23_steps",
    "Verif.Props.C23_scaled_timeout",
    "Verif.Props.C23_scaled_timeout_total"
   ],
   "note": ""
  },
  {
   "property": "C24",
   "status": "proved",
   "theorems": [
    "Verif.Props.C24_chunking_invisible",
    "Verif.Props.C24_accepted",
    "Verif.Props.C24_dialled",
    "Verif.Props.C24_early_collection_witness"
   ],
   "note": ""
  },
  {
   "property": "C25",
   "status": "proved",
   "theorems": [
    "Verif.Props.C25_reports",
    "Verif.Props.C25_exactly_one_report",
    "Verif.Props.C25_one_payload",
    "Verif.Props.C25_failed_discards",
    "Verif.Props.C25_final",
    "Verif.Props.C25_no_panic",
    "Verif.Props.C25_closed_then_failed_witness"
   ],
   "note": ""
  },
  {
   "property": "C26",
   "status": "proved",
   "theorems": [
    "Verif.Props.C26_deadline",
    "Verif.Props.C26_timed_out_shows",
    "Verif.Props.C26_timer",
    "Verif.Props.C26_not_early"
   ],
   "note": ""
  },
  {
   "property": "C27",
   "status": "proved",
   "theorems": [
    "Verif.Props.C27_buffer_bounded",
    "Verif.Props.C27_oversized_header_refused"
   ],
   "note": ""
  },
  {
   "property": "C28",
   "status": "proved",
   "theorems": [
    "Verif.Props.C28_complete_iff",
    "Verif.Props.C28_agrees_with_decoder",
    "Verif.Props.C28_error_sound",
    "Verif.Props.C28_complete_stable",
    "Verif.Props.C28_error_iff"
   ],
   "note": ""
  },
  {
   "property": "C29",
   "status": "proved",
   "theorems": [
    "Verif.Props.C29_table",
    "Verif.Props.C29_timers"
   ],
   "note": ""
  },
  {
   "property": "C30",
   "status": "proved",
   "theorems": [
    "Verif.Props.C30_replay"
   ],
   "note": ""
  },
  {
   "property": "C31",
   "status": "proved",
   "theorems": [
    "Verif.Props.C31_monotone",
    "Verif.Props.C31_generation",
    "Verif.Props.C31_stale_accusation",
    "Verif.Props.C31_stale_alive"
   ],
   "note": ""
  },
  {
   "property": "C32",
   "status": "proved",
   "theorems": [
    "Verif.Props.C32_revival",
    "Verif.Props.C32_accusations"
   ],
   "note": ""
  },
  {
   "property": "C33",
   "status": "proved",
   "theorems": [
    "Verif.Props.C33_refute",
    "Verif.Props.C33_impersonation",
    "Verif.Props.C33_wrap"
   ],
   "note": ""
  },
  {
   "property": "C34",
   "status": "proved",
   "theorems": [
    "Verif.Props.C34_failure",
    "Verif.Props.C34_continuous",
    "Verif.Props.C34_deadline",
    "Verif.Props.C34_zero_mult_witness"
   ],
   "note": ""
  },
  {
   "property": "C35",
   "status": "proved",
   "theorems": [
    "Verif.Props.C35_never_failed",
    "Verif.Props.C35_only_by_leave",
    "Verif.Props.C35_left_forever"
   ],
   "note": ""
  },
  {
   "property": "C36",
   "status": "proved",
   "theorems": [
    "Verif.Props.C36_ignored",
    "Verif.Props.C36_accepted",
    "Verif.Props.C36_late",
    "Verif.Props.C36_only",
    "Verif.Props.C36_ends",
    "Verif.Props.C36_asked"
   ],
   "note": ""
  },
  {
   "property": "C37",
   "status": "proved",
   "theorems": [
    "Verif.Props.C37_start",
    "Verif.Props.C37_none",
    "Verif.Props.C37_once",
    "Verif.Props.C37_deadline"
   ],
   "note": ""
  },
  {
   "property": "C38",
   "status": "proved",
   "theorems": [
    "Verif.Props.C38_ping",
    "Verif.Props.C38_probe",
    "Verif.Props.C38_unique",
    "Verif.Props.C38_kept",
    "Verif.Props.C38_exists"
   ],
   "note": ""
  },
  {
   "property": "C39",
   "status": "proved",
   "theorems": [
    "Verif.Props.C39_refused",
    "Verif.Props.C39_accepted",
    "Verif.Props.C39_answer",
    "Verif.Props.C39_exactly",
    "Verif.Props.C39_once",
    "Verif.Props.C39_deadline",
    "Verif.Props.C39_kept",
    "Verif.Props.C39_cap"
   ],
   "note": ""
  },
  {
   "property": "C40",
   "status": "proved",
   "theorems": [
    "Verif.Props.C40_bounds",
    "Verif.Props.C40_nack",
    "Verif.Props.C40_only",
    "Verif.Props.C40_timeout",
    "Verif.Props.C40_late"
   ],
   "note": ""
  },
  {
   "property": "C41",
   "status": "proved",
   "theorems": [
    "Verif.Props.C41_poll",
    "Verif.Props.C41_poll_left",
    "Verif.Props.C41_serviced",
    "Verif.Props.C41_twice",
    "Verif.Props.C41_same_instant_witness"
   ],
   "note": ""
  },
  {
   "property": "C42",
   "status": "proved",
   "theorems": [
    "Verif.Props.C42_leave",
    "Verif.Props.C42_completes",
    "Verif.Props.C42_members",
    "Verif.Props.C42_again",
    "Verif.Props.C42_final",
    "Verif.Props.C42_silent",
    "Verif.Props.C42_not_before"
   ],
   "note": ""
  },
  {
   "property": "C43",
   "status": "proved",
   "theorems": [
    "Verif.Props.C43_fits",
    "Verif.Props.C43_polled",
    "Verif.Props.C43_call",
    "Verif.Props.C43_relayed_witness"
   ],
   "note": ""
  },
  {
   "property": "C44",
   "status": "proved",
   "theorems": [
    "Verif.Props.C44_reaped",
    "Verif.Props.C44_reset"
   ],
   "note": ""
  },
  {
   "property": "C45",
   "status": "proved",
   "theorems": [
    "Verif.Props.C45_fair",
    "Verif.Props.C45_asked",
    "Verif.Props.C45_targets",
    "Verif.Props.C45_short_window_witness"
   ],
   "note": ""
  },
  {
   "property": "C46",
   "status": "proved",
   "theorems": [
    "Verif.Props.C46_served",
    "Verif.Props.C46_current",
    "Verif.Props.C46_new",
    "Verif.Props.C46_when",
    "Verif.Props.C46_request"
   ],
   "note": ""
  },
  {
   "property": "C47",
   "status": "proved",
   "theorems": [
    "Verif.Props.C47_merge_is_claims",
    "Verif.Props.C47_no_kill"
   ],
   "note": ""
  },
  {
   "property": "C48",
   "status": "proved",
   "theorems": [
    "Verif.Props.C48_highest_wins",
    "Verif.Props.C48_highest_wins_new",
    "Verif.Props.C48_order_independent"
   ],
   "note": ""
  },
  {
   "property": "C49",
   "status": "proved",
   "theorems": [
    "Verif.Props.C49_conflict",
    "Verif.Props.C49_address"
   ],
   "note": ""
  },
  {
   "property": "C50",
   "status": "proved",
   "theorems": [
    "Verif.Props.C50_unchanged",
    "Verif.Props.C50_stopped",
    "Verif.Props.C50_ping",
    "Verif.Props.C50_ackPayload",
    "Verif.Props.C50_localState",
    "Verif.Props.C50_userPacket",
    "Verif.Props.C50_userPackets"
   ],
   "note": ""
  },
  {
   "property": "C51",
   "status": "proved",
   "theorems": [
    "Verif.Props.C51_pushPull",
    "Verif.Props.C51_reliablePing",
    "Verif.Props.C51_userMessage",
    "Verif.Props.C51_issued_once",
    "Verif.Props.C51_kept",
    "Verif.Props.C51_ended",
    "Verif.Props.C51_gone",
    "Verif.Props.C51_new",
    "Verif.Props.C51_honoured",
    "Verif.Props.C51_accept",
    "Verif.Props.C51_streams",
    "Verif.Props.C51_dials"
   ],
   "note": ""
  },
  {
   "property": "C52",
   "status": "proved",
   "theorems": [
    "Verif.Props.C52_other",
    "Verif.Props.C52_answer",
    "Verif.Props.C52_payload"
   ],
   "note": ""
  },
  {
   "property": "C53",
   "status": "proved",
   "theorems": [
    "Verif.Props.C53_alive_veto",
    "Verif.Props.C53_accepted",
    "Verif.Props.C53_merge_veto"
   ],
   "note": ""
  },
  {
   "property": "C54",
   "status": "proved",
   "theorems": [
    "Verif.Props.C54_blame",
    "Verif.Props.C54_start",
    "Verif.Props.C54_never",
    "Verif.Props.C54_generation"
   ],
   "note": ""
  },
  {
   "property": "C55",
   "status": "proved",
   "theorems": [
    "Verif.Props.C55_accepted_is_announced"
   ],
   "note": ""
  },
  {
   "property": "C56",
   "status": "proved",
   "theorems": [
    "Verif.Props.C56_dead",
    "Verif.Props.C56_suspect",
    "Verif.Props.C56_alive",
    "Verif.Props.C56_join"
   ],
   "note": ""
  },
  {
   "property": "C57",
   "status": "proved",
   "theorems": [
    "Verif.Props.C57_update_meta",
    "Verif.Props.C57_refused"
   ],
   "note": ""
  },
  {
   "property": "C58",
   "status": "proved",
   "theorems": [
    "Verif.Props.C58_relays",
    "Verif.Props.C58_reliable",
    "Verif.Props.C58_disabled",
    "Verif.Props.C58_hopeless"
   ],
   "note": ""
  },
  {
   "property": "C59",
   "status": "proved",
   "theorems": [
    "Verif.Props.C59_round",
    "Verif.Props.C59_quiet"
   ],
   "note": ""
  },
  {
   "property": "C60",
   "status": "proved",
   "theorems": [
    "Verif.Props.C60_queued",
    "Verif.Props.C60_kept",
    "Verif.Props.C60_leave",
    "Verif.Props.C60_origin"
   ],
   "note": ""
  },
  {
   "property": "C61",
   "status": "proved",
   "theorems": [
    "Verif.Props.C61_records",
    "Verif.Props.C61_messages",
    "Verif.Props.C61_no_ghosts"
   ],
   "note": ""
  },
  {
   "property": "C62",
   "status": "proved",
   "theorems": [
    "Verif.Props.C62_reached",
    "Verif.Props.C62_current"
   ],
   "note": ""
  },
  {
   "property": "C63",
   "status": "proved",
   "theorems": [
    "Verif.Props.C63_agreement",
    "Verif.Props.C63_address",
    "Verif.Props.C63_restart_witness"
   ],
   "note": ""
  },
  {
   "property": "C64",
   "status": "proved",
   "theorems": [
    "Verif.Props.C64_left",
    "Verif.Props.C64_messages"
   ],
   "note": ""
  },
  {
   "property": "C65",
   "status": "proved",
   "theorems": [
    "Verif.Props.C65_accuracy",
    "Verif.Props.C65_messages",
    "Verif.Props.C65_healthy"
   ],
   "note": ""
  },
  {
   "property": "C66",
   "status": "proved",
   "theorems": [
    "Verif.Props.C66_delivery"
   ],
   "note": ""
  },
  {
   "property": "C67",
   "status": "proved",
   "theorems": [
    "Verif.Props.C67_authorised"
   ],
   "note": ""
  },
  {
   "property": "C68",
   "status": "proved",
   "theorems": [
    "Verif.Props.C68_endpoint",
    "Verif.Props.C68_reachable"
   ],
   "note": ""
  },
  {
   "property": "C69",
   "status": "proved",
   "theorems": [
    "Verif.Props.C69_once",
    "Verif.Props.C69_truthful"
   ],
   "note": ""
  },
  {
   "property": "C70",
   "status": "proved",
   "theorems": [
    "Verif.Props.C70_reported",
    "Verif.Props.C70_leave_unreported"
   ],
   "note": ""
  },
  {
   "property": "C71",
   "status": "proved",
   "theorems": [
    "Verif.Props.C71_closed",
    "Verif.Props.C71_no_exchange"
   ],
   "note": ""
  },
  {
   "property": "C72",
   "status": "proved",
   "theorems": [
    "Verif.Props.C72_inbound",
    "Verif.Props.C72_accepts",
    "Verif.Props.C72_ingress"
   ],
   "note": ""
  },
  {
   "property": "C73",
   "status": "proved",
   "theorems": [
    "Verif.Props.C73_due",
    "Verif.Props.C73_guest",
    "Verif.Props.C73_guest_unlabelled",
    "Verif.Props.C73_label_needed"
   ],
   "note": ""
  },
  {
   "property": "C74",
   "status": "proved",
   "theorems": [
    "Verif.Props.C74_no_panic"
   ],
   "note": ""
  },
  {
   "property": "C75",
   "status": "proved",
   "theorems": [
    "Verif.Props.C75_orderly",
    "Verif.Props.C75_closed"
   ],
   "note": ""
  },
  {
   "property": "C76",
   "status": "proved",
   "theorems": [
    "Verif.Props.C76_sealed",
    "Verif.Props.C76_complete"
   ],
   "note": ""
  },
  {
   "property": "C77",
   "status": "proved",
   "theorems": [
    "Verif.Props.C77_sockets"
   ],
   "note": ""
  },
  {
   "property": "C78",
   "status": "proved",
   "theorems": [
    "Verif.Props.C78_use",
    "Verif.Props.C78_warranted"
   ],
   "note": ""
  },
  {
   "property": "C79",
   "status": "proved",
   "theorems": [
    "Verif.Props.C79_written",
    "Verif.Props.C79_fin",
    "Verif.Props.C79_pending",
    "Verif.Props.C79_read"
   ],
   "note": ""
  },
  {
   "property": "C80",
   "status": "proved",
   "theorems": [
    "Verif.Props.C80_served"
   ],
   "note": ""
  },
  {
   "property": "C81",
   "status": "proved",
   "theorems": [
    "Verif.Props.C81_policy"
   ],
   "note": ""
  },
  {
   "property": "C82",
   "status": "proved",
   "theorems": [
    "Verif.Props.C82_wake",
    "Verif.Props.C82_due",
    "Verif.Props.C82_drain"
   ],
   "note": ""
  },
  {
   "property": "C83",
   "status": "partial",
   "theorems": [
    "Verif.Props.C83_correlated_partial",
    "Verif.Props.C83_others",
    "Verif.Props.C83_lost"
   ],
   "note": "The full statement is false of the code: C83_lost is a concrete history in which the completion of a send is polled without its id. Proved: the id is told whenever the request for the connection was handed to the engine."
  },
  {
   "property": "C84",
   "status": "proved",
   "theorems": [
    "Verif.Props.C84_origin",
    "Verif.Props.C84_authentic"
   ],
   "note": ""
  },
  {
   "property": "C85",
   "status": "proved",
   "theorems": [
    "Verif.Props.C85_held",
    "Verif.Props.C85_served"
   ],
   "note": ""
  },
  {
   "property": "C86",
   "status": "proved",
   "theorems": [
    "Verif.Props.C86_datagrams",
    "Verif.Props.C86_streams"
   ],
   "note": ""
  },
  {
   "property": "C87",
   "status": "proved",
   "theorems": [
    "Verif.Props.C87_asked",
    "Verif.Props.C87_pumped",
    "Verif.Props.C87_left"
   ],
   "note": ""
  },
  {
   "property": "C88",
   "status": "proved",
   "theorems": [
    "Verif.Props.C88_mail",
    "Verif.Props.C88_pump"
   ],
   "note": ""
  },
  {
   "property": "C89",
   "status": "proved",
   "theorems": [
    "Verif.Props.C89_settings",
    "Verif.Props.C89_refused"
   ],
   "note": ""
  },
  {
   "property": "C90",
   "status": "proved",
   "theorems": [
    "Verif.Props.C90_caps",
    "Verif.Props.C90_pending_exact",
    "Verif.Props.C90_refused_only_at_cap",
    "Verif.Props.C90_refused_at_cap"
   ],
   "note": ""
  },
  {
   "property": "C91",
   "status": "proved",
   "theorems": [
    "Verif.Props.C91_route_sound",
    "Verif.Props.C91_handles_distinct",
    "Verif.Props.C91_dial_reuses",
    "Verif.Props.C91_dial_answer",
    "Verif.Props.C91_dial_fails_only",
    "Verif.Props.C91_reap_keeps_routes",
    "Verif.Props.C91_accepted_routes"
   ],
   "note": ""
  },
  {
   "property": "C92",
   "status": "proved",
   "theorems": [
    "Verif.Props.C92_classes",
    "Verif.Props.C92_gossip_is_gossip"
   ],
   "note": ""
  },
  {
   "property": "C93",
   "status": "proved",
   "theorems": [
    "Verif.Props.C93_earliest_excluding",
    "Verif.Props.C93_none"
   ],
   "note": ""
  },
  {
   "property": "C94",
   "status": "proved",
   "theorems": [
    "Verif.Props.C94_bounded",
    "Verif.Props.C94_admitted",
    "Verif.Props.C94_fifo"
   ],
   "note": ""
  },
  {
   "property": "C95",
   "status": "proved",
   "theorems": [
    "Verif.Props.C95_exact",
    "Verif.Props.C95_refused",
    "Verif.Props.C95_bounded"
   ],
   "note": ""
  },
  {
   "property": "C96",
   "status": "proved",
   "theorems": [
    "Verif.Props.C96_once",
    "Verif.Props.C96_final",
    "Verif.Props.C96_push_pull",
    "Verif.Props.C96_user_message",
    "Verif.Props.C96_ping"
   ],
   "note": ""
  },
  {
   "property": "C97",
   "status": "proved",
   "theorems": [
    "Verif.Props.C97_no_panic"
   ],
   "note": ""
  },
  {
   "property": "C98",
   "status": "proved",
   "theorems": [
    "Verif.Props.C98_bounded"
   ],
   "note": ""
  },
  {
   "property": "C99",
   "status": "proved",
   "theorems": [
    "Verif.Props.C99_placed"
   ],
   "note": ""
  },
  {
   "property": "C100",
   "status": "proved",
   "theorems": [
    "Verif.Props.C100_leave"
   ],
   "note": ""
  },
  {
   "property": "C101",
   "status": "proved",
   "theorems": [
    "Verif.Props.C101_once",
    "Verif.Props.C101_truthful"
   ],
   "note": ""
  },
  {
   "property": "C102",
   "status": "proved",
   "theorems": [
    "Verif.Props.C102_endpoint"
   ],
   "note": ""
  },
  {
   "property": "C103",
   "status": "proved",
   "theorems": [
    "Verif.Props.C103_authorised"
   ],
   "note": ""
  },
  {
   "property": "C104",
   "status": "proved",
   "theorems": [
    "Verif.Props.C104_written",
    "Verif.Props.C104_discreet"
   ],
   "note": ""
  },
  {
   "property": "C105",
   "status": "proved",
   "theorems": [
    "Verif.Props.C105_answer"
   ],
   "note": ""
  },
  {
   "property": "C106",
   "status": "proved",
   "theorems": [
    "Verif.Props.C106_wake",
    "Verif.Props.C106_deadlines",
    "Verif.Props.C106_left_over",
    "Verif.Props.C106_flush"
   ],
   "note": ""
  },
  {
   "property": "C107",
   "status": "proved",
   "theorems": [
    "Verif.Props.C107_overdue",
    "Verif.Props.C107_flush"
   ],
   "note": "An exchange that has work queued is served by the catch-up pass instead (C106), so its own lateness alone does not force the full tick; any other timer that is due ends it, too. Needs a positive stream timeout, else a new exchange is born overdue."
  },
  {
   "property": "C108",
   "status": "proved",
   "theorems": [
    "Verif.Props.C108_order",
    "Verif.Props.C108_close",
    "Verif.Props.C108_bound",
    "Verif.Props.C108_whole",
    "Verif.Props.C108_flushed",
    "Verif.Props.C108_intake"
   ],
   "note": "rustls is an arbitrary machine with the Read/Write contracts as laws; C108_flushed assumes a rustls that comes to an end of what it has to send and then accepts something (`Sends`)."
  },
  {
   "property": "C109",
   "status": "proved",
   "theorems": [
    "Verif.Props.C109_authorised"
   ],
   "note": "rustls is an arbitrary machine with the Read/Write contracts as laws. The theorem is about one exchange and any sequence of the calls the coordinator makes on it; the coordinator's own choice of calls is modelled for TCP (C67) only."
  },
  {
   "property": "C110",
   "status": "proved",
   "theorems": [
    "Verif.Props.C110_said",
    "Verif.Props.C110_closed",
    "Verif.Props.C110_request",
    "Verif.Props.C110_refused_witness"
   ],
   "note": "rustls is an arbitrary machine with the Read/Write contracts as laws. C110_refused_witness is the excepted case: an exchange that fails because its unit does not fit."
  },
  {
   "property": "C111",
   "status": "proved",
   "theorems": [
    "Verif.Props.C111_order",
    "Verif.Props.C111_complete",
    "Verif.Props.C111_served_witness"
   ],
   "note": "rustls is an arbitrary machine with the laws of Spec.Receives. C111_served_witness shows that the hypothesis on the time of deliveries is needed."
  },
  {
   "property": "C112",
   "status": "proved",
   "theorems": [
    "Verif.Props.C112_order",
    "Verif.Props.C112_complete",
    "Verif.Props.C112_end",
    "Verif.Props.C112_last",
    "Verif.Props.C112_lost"
   ],
   "note": "The socket may answer anything. C112_lost shows that bytes not yet taken are lost when the peer resets the connection, contrary to a comment in the code."
  },
  {
   "property": "C113",
   "status": "proved",
   "theorems": [
    "Verif.Props.C113_order",
    "Verif.Props.C113_sent"
   ],
   "note": ""
  },
  {
   "property": "C114",
   "status": "proved",
   "theorems": [
    "Verif.Props.C114_woken",
    "Verif.Props.C114_dialled",
    "Verif.Props.C114_listened"
   ],
   "note": "C116_lost and C116_delay show the two cases, an abort and a finished close, that this does not cover."
  },
  {
   "property": "C115",
   "status": "proved",
   "theorems": [
    "Verif.Props.C115_clean",
    "Verif.Props.C115_bounded"
   ],
   "note": ""
  },
  {
   "property": "C116",
   "status": "partial",
   "theorems": [
    "Verif.Props.C116_returned_partial",
    "Verif.Props.C116_lost",
    "Verif.Props.C116_delay"
   ],
   "note": "The full statement is false of the code: C116_lost is a history in which an abort posted as the handshake completes is overwritten and the socket is never ready again; C116_delay one in which a graceful close is held up. Proved: without the completion of a handshake, five steps suffice."
  },
  {
   "property": "C117",
   "status": "proved",
   "theorems": [
    "Verif.Props.C117_ping",
    "Verif.Props.C117_send"
   ],
   "note": ""
  },
  {
   "property": "C118",
   "status": "proved",
   "theorems": [
    "Verif.Props.C118_order",
    "Verif.Props.C118_newest",
    "Verif.Props.C118_all",
    "Verif.Props.C118_poll",
    "Verif.Props.C118_lost"
   ],
   "note": ""
  },
  {
   "property": "C119",
   "status": "proved",
   "theorems": [
    "Verif.Props.C119_embassy_in_time",
    "Verif.Props.C119_embassy_soon",
    "Verif.Props.C119_embassy_exact",
    "Verif.Props.C119_embassy_order",
    "Verif.Props.C119_smoltcp_engine",
    "Verif.Props.C119_smoltcp_stack",
    "Verif.Props.C119_smoltcp_soon",
    "Verif.Props.C119_smoltcp_none"
   ],
   "note": ""
  },
  {
   "property": "C120",
   "status": "proved",
   "theorems": [
    "Verif.Props.C120_counted",
    "Verif.Props.C120_dropped",
    "Verif.Props.C120_budget",
    "Verif.Props.C120_released",
    "Verif.Props.C120_bounded"
   ],
   "note": ""
  },
  {
   "property": "C121",
   "status": "proved",
   "theorems": [
    "Verif.Props.C121_order",
    "Verif.Props.C121_stream",
    "Verif.Props.C121_overtaken_witness"
   ],
   "note": ""
  },
  {
   "property": "C122",
   "status": "proved",
   "theorems": [
    "Verif.Props.C122_once",
    "Verif.Props.C122_closed",
    "Verif.Props.C122_accepted",
    "Verif.Props.C122_woken"
   ],
   "note": ""
  },
  {
   "property": "C123",
   "status": "proved",
   "theorems": [
    "Verif.Props.C123_join",
    "Verif.Props.C123_join_stopped",
    "Verif.Props.C123_join_now",
    "Verif.Props.C123_send",
    "Verif.Props.C123_send_stopped",
    "Verif.Props.C123_send_now",
    "Verif.Props.C123_leave",
    "Verif.Props.C123_leave_joins",
    "Verif.Props.C123_leave_now",
    "Verif.Props.C123_after_stop"
   ],
   "note": ""
  },
  {
   "property": "C124",
   "status": "proved",
   "theorems": [
    "Verif.Props.C124_sweep",
    "Verif.Props.C124_none_late",
    "Verif.Props.C124_leave",
    "Verif.Props.C124_wakes",
    "Verif.Props.C124_no_spin"
   ],
   "note": ""
  },
  {
   "property": "C125",
   "status": "proved",
   "theorems": [
    "Verif.Props.C125_built",
    "Verif.Props.C125_current",
    "Verif.Props.C125_local_witness"
   ],
   "note": "The local node's id and address are proved, not its state: C125_local_witness is a leave after which local_ref still says alive while the members list says left."
  }
 ]
}
