{
 "claims": [
  {
   "property": "C01",
   "status": "proved",
   "theorems": [
    "Wm.Prot.C01_frame_roundtrip",
    "Wm.Prot.frame_roundtrip_any_id"
   ],
   "note": ""
  },
  {
   "property": "C02",
   "status": "proved",
   "theorems": [
    "Wm.Prot.C02_segmentation_independent"
   ],
   "note": ""
  },
  {
   "property": "C03",
   "status": "proved",
   "theorems": [
    "Wm.Prot.C03_consumes_whole_frames"
   ],
   "note": ""
  },
  {
   "property": "C04",
   "status": "proved",
   "theorems": [
    "Wm.Prot.C04_id_preserved_iff",
    "Wm.Prot.C04_ids_confused_iff"
   ],
   "note": ""
  },
  {
   "property": "C07",
   "status": "partial",
   "theorems": [
    "Wm.Prot.C07_no_panic",
    "Wm.Prot.C07_encode_fails_iff",
    "Wm.Prot.C07_failed_encode_atomic_partial",
    "Wm.Prot.C07_close_fails",
    "Wm.Prot.C07_token_fails"
   ],
   "note": "False for close and token messages with over-long strings: the header is already in the buffer when the string is rejected. Proved for mapping messages; open and data messages never fail."
  },
  {
   "property": "C08",
   "status": "partial",
   "theorems": [
    "Wm.Prot.C08_content_is_local_partial",
    "Wm.Prot.C08_data_is_local",
    "Wm.Prot.C08_leak_fails"
   ],
   "note": "False for malformed messages: the parser sees the rest of the buffer. Proved for every message that decodes on its own and for all data messages."
  },
  {
   "property": "C09",
   "status": "partial",
   "theorems": [
    "Wm.Prot.C09_panic_iff_partial",
    "Wm.Prot.C09_no_panic_fails"
   ],
   "note": "False: unknown kinds and a trailing empty open request panic. Exact characterisation proved."
  },
  {
   "property": "C05",
   "status": "proved",
   "theorems": [
    "Wm.Tunnel.C05_distinct",
    "Wm.Tunnel.C05_disjoint",
    "Wm.Tunnel.C05_bound_sharp"
   ],
   "note": ""
  },
  {
   "property": "C06",
   "status": "partial",
   "theorems": [
    "Wm.Tunnel.C06_distinct_on_wire_partial",
    "Wm.Tunnel.C06_distinct_on_wire_fails",
    "Wm.Tunnel.C06_reserved_id_fails"
   ],
   "note": "False after 2^23 allocations: bits 24..31 of the id are lost on the wire. Proved for the first 2^23-1 ids."
  },
  {
   "property": "C10",
   "status": "proved",
   "theorems": [
    "Wm.Tunnel.C10_nothing_before_login",
    "Wm.Tunnel.C10_no_token_no_service"
   ],
   "note": ""
  },
  {
   "property": "C11",
   "status": "proved",
   "theorems": [
    "Wm.Tunnel.C11_refused",
    "Wm.Tunnel.C11_ends_when_flushed"
   ],
   "note": ""
  },
  {
   "property": "C12",
   "status": "proved",
   "theorems": [
    "Wm.Tunnel.C12_server_routing",
    "Wm.Tunnel.C12_client_routing",
    "Wm.Tunnel.C12_server_own_id",
    "Wm.Tunnel.C12_client_own_id"
   ],
   "note": ""
  },
  {
   "property": "C13",
   "status": "proved",
   "theorems": [
    "Wm.Tunnel.C13_server_looks_at_everything",
    "Wm.Tunnel.C13_server_lossless"
   ],
   "note": ""
  },
  {
   "property": "C14",
   "status": "partial",
   "theorems": [
    "Wm.Tunnel.C14_client_looks_at_everything",
    "Wm.Tunnel.C14_client_lossless_partial",
    "Wm.Tunnel.C14_client_lossless_fails"
   ],
   "note": "False: a stream whose queue of 10 is full loses messages silently. Proved when no message was dropped."
  },
  {
   "property": "C15",
   "status": "proved",
   "theorems": [
    "Wm.Tunnel.C15_server_order",
    "Wm.Tunnel.C15_client_order",
    "Wm.Tunnel.C15_server_progress",
    "Wm.Tunnel.C15_client_progress"
   ],
   "note": ""
  },
  {
   "property": "C16",
   "status": "proved",
   "theorems": [
    "Wm.Tunnel.C16_introduction_first"
   ],
   "note": ""
  },
  {
   "property": "C17",
   "status": "partial",
   "theorems": [
    "Wm.Tunnel.C17_open_answered_partial",
    "Wm.Tunnel.C17_no_address_fails",
    "Wm.Tunnel.C17_stuck_fails"
   ],
   "note": "False for a mapping without local address (no answer) and when the client's own outgoing queue is full (self-deadlock). Everything else proved."
  },
  {
   "property": "C18",
   "status": "partial",
   "theorems": [
    "Wm.Tunnel.C18_server_end_closes_all_partial",
    "Wm.Tunnel.C18_client_end_closes_all_partial",
    "Wm.Tunnel.C18_loss_noticed",
    "Wm.Tunnel.C18_server_close_handed_over",
    "Wm.Tunnel.C18_client_close_handed_over",
    "Wm.Tunnel.C18_blocked_fails"
   ],
   "note": "Every way of leaving the loop disconnects every stream. False while a server loop waits for a slow stream: the loss is not noticed."
  },
  {
   "property": "C19",
   "status": "proved",
   "theorems": [
    "Wm.Relay.C19_bytes_preserved"
   ],
   "note": ""
  },
  {
   "property": "C20",
   "status": "proved",
   "theorems": [
    "Wm.Relay.C20_one_close",
    "Wm.Relay.C20_close_is_sent_and_last",
    "Wm.Relay.C20_ways_to_end"
   ],
   "note": ""
  },
  {
   "property": "C21",
   "status": "partial",
   "theorems": [
    "Wm.Relay.C21_sent_when_tunnel_keeps_up_partial",
    "Wm.Relay.C21_written_when_local_keeps_up_partial",
    "Wm.Relay.C21_half_close_loses_input_fails",
    "Wm.Relay.C21_close_loses_output_fails"
   ],
   "note": "False: bytes still buffered when either side ends are dropped. Proved for schedules in which the other side keeps up."
  },
  {
   "property": "C22",
   "status": "partial",
   "theorems": [
    "Wm.Virtual.C22_end_told",
    "Wm.Virtual.C22_all_read",
    "Wm.Virtual.C22_rest_lost_fails",
    "Wm.Virtual.C22_reads_in_order",
    "Wm.Virtual.C22_eof_after_data_partial",
    "Wm.Virtual.C22_eof_before_data_fails"
   ],
   "note": "Order proved for all buffer sizes. False for the end of input with small buffers: bytes left over from a message are lost when a close follows. Proved for buffers at least as large as the messages."
  },
  {
   "property": "C23",
   "status": "partial",
   "theorems": [
    "Wm.Virtual.C23_writes_once_partial",
    "Wm.Virtual.C23_retry_duplicates_fails"
   ],
   "note": "False under back-pressure: a write that had to wait k times is sent k+1 times. Proved when no write had to wait."
  },
  {
   "property": "C60",
   "status": "partial",
   "theorems": [
    "Wm.Virtual.C60_dead_tunnel_write_fails"
   ],
   "note": "False: the negation is proved, every write to a dead tunnel waits forever."
  },
  {
   "property": "C24",
   "status": "proved",
   "theorems": [
    "Wm.Config.C24_size_roundtrip"
   ],
   "note": ""
  },
  {
   "property": "C25",
   "status": "partial",
   "theorems": [
    "Wm.Config.C25_plain_number",
    "Wm.Config.C25_unit_partial",
    "Wm.Config.C25_overflow_fails"
   ],
   "note": "False when number times unit does not fit 64 bits: the value wraps (or the program panics with overflow checks). Everything else proved."
  },
  {
   "property": "C26",
   "status": "partial",
   "theorems": [
    "Wm.Config.C26_print_fails",
    "Wm.Config.C26_duration_roundtrip_partial",
    "Wm.Config.C26_duration_roundtrip_fails"
   ],
   "note": "False above 4294 ms with a fractional second; exact characterisation proved."
  },
  {
   "property": "C27",
   "status": "partial",
   "theorems": [
    "Wm.Config.C27_meaning_partial",
    "Wm.Config.C27_millis_fails",
    "Wm.Config.C27_too_big_fails"
   ],
   "note": "False for more than 4294 ms and for numbers beyond 64 bits; rest proved."
  },
  {
   "property": "C28",
   "status": "partial",
   "theorems": [
    "Wm.Config.C28_membership_partial",
    "Wm.Config.C28_sound",
    "Wm.Config.C28_length_zero_fails",
    "Wm.Config.C28_ipv6_fails"
   ],
   "note": "False for prefix length 0 and for IPv6 networks (prefix ignored). Proved for IPv4 lengths 1..32, full IPv6 addresses and single addresses; no entry ever admits an address it does not cover."
  },
  {
   "property": "C29",
   "status": "proved",
   "theorems": [
    "Wm.Config.C29_list_roundtrip",
    "Wm.Config.C29_too_long_rejected"
   ],
   "note": "Relative to print/parse of single addresses by the standard library (structure IpText)."
  },
  {
   "property": "C30",
   "status": "partial",
   "theorems": [
    "Wm.Config.C30_rule_roundtrip_partial",
    "Wm.Config.C30_default_fails",
    "Wm.Config.C30_proxy_del_fails",
    "Wm.Config.C30_blank_fails",
    "Wm.Config.C30_blank_text_fails"
   ],
   "note": "False for default rules, request-side removals without value, and values with blanks; proved for the rest."
  },
  {
   "property": "C31",
   "status": "partial",
   "theorems": [
    "Wm.Config.C31_list",
    "Wm.Config.C31_range_partial",
    "Wm.Config.C31_range_end_fails",
    "Wm.Config.C31_no_own_address_fails",
    "Wm.Config.C31_dashes_fails"
   ],
   "note": "False (panic) for ranges whose end is written with an address. Lists and ':b' ranges proved."
  },
  {
   "property": "C32",
   "status": "partial",
   "theorems": [
    "Wm.Config.C32_roundtrip_partial",
    "Wm.Config.C32_parse_meaning",
    "Wm.Config.C32_empty_fails"
   ],
   "note": "False only for the empty set, whose text is rejected."
  },
  {
   "property": "C35",
   "status": "proved",
   "theorems": [
    "Wm.Config.C35_split_words"
   ],
   "note": ""
  },
  {
   "property": "C61",
   "status": "partial",
   "theorems": [
    "Wm.Config.C61_rate_extra_fails",
    "Wm.Config.C61_size_rejects_partial",
    "Wm.Config.C61_duration_never_rejected_fails",
    "Wm.Config.C61_size_suffix_fails"
   ],
   "note": "False: no non-empty duration text is ever rejected, sizes accept unknown suffixes."
  },
  {
   "property": "C62",
   "status": "proved",
   "theorems": [
    "Wm.Config.C62_rate_meaning"
   ],
   "note": ""
  },
  {
   "property": "C63",
   "status": "partial",
   "theorems": [
    "Wm.Config.C63_independent_partial",
    "Wm.Config.C63_udp_fails"
   ],
   "note": "False for UDP (0x16 includes the https and socks5 bits); proved for http, https, socks5."
  },
  {
   "property": "C33",
   "status": "proved",
   "theorems": [
    "Wm.Helper.C33_wildcards"
   ],
   "note": "is_match with at least one '*' equals the language of the pattern, all paths and patterns."
  },
  {
   "property": "C34",
   "status": "partial",
   "theorems": [
    "Wm.Helper.C34_prefix_fails",
    "Wm.Helper.C34_exact_partial"
   ],
   "note": "False in the code: a rule without '*' is a prefix match; exact characterisation proved."
  },
  {
   "property": "C36",
   "status": "partial",
   "theorems": [
    "Wm.Helper.C36_others_unchanged",
    "Wm.Helper.C36_other_side",
    "Wm.Helper.C36_effects",
    "Wm.Helper.C36_replace_fails"
   ],
   "note": "All rules except replace; replace keeps the old values (proved). Header collection of the external crate is a parameter with stated laws."
  },
  {
   "property": "C37",
   "status": "partial",
   "theorems": [
    "Wm.Helper.C37_own_file_partial",
    "Wm.Helper.C37_create_remove",
    "Wm.Helper.C37_race_fails"
   ],
   "note": "Holds for uninterrupted removals; false when another process writes between check and deletion (witness)."
  },
  {
   "property": "C38",
   "status": "partial",
   "theorems": [
    "Wm.Limit.C38_exact",
    "Wm.Limit.C38_room",
    "Wm.Limit.C38_window_partial",
    "Wm.Limit.C38_full_fails",
    "Wm.Limit.C38_zero_fails"
   ],
   "note": "Exact decisions and window counts for all histories while the table is not full and nums >= 1; false otherwise (witness, universal)."
  },
  {
   "property": "C39",
   "status": "proved",
   "theorems": [
    "Wm.Limit.C39_independent",
    "Wm.Limit.C38_room"
   ],
   "note": "All interleavings, cleanups included, while the table is not full."
  },
  {
   "property": "C40",
   "status": "proved",
   "theorems": [
    "Wm.Limit.C40_full",
    "Wm.Limit.C40_forgets",
    "Wm.Limit.C40_bounded",
    "Wm.Limit.C40_full_refused"
   ],
   "note": "All histories."
  },
  {
   "property": "C41",
   "status": "partial",
   "theorems": [
    "Wm.Health.C41_down",
    "Wm.Health.C41_active_fails",
    "Wm.Health.C41_first_fails"
   ],
   "note": "Exact characterisation for all histories when max_fails >= 2; addresses first seen by the active check use 30 s (witness); max_fails = 1 misses the first failure."
  },
  {
   "property": "C42",
   "status": "partial",
   "theorems": [
    "Wm.Health.C42_connect",
    "Wm.Health.C42_timeout_fails"
   ],
   "note": "All lists of different addresses and answers; with a time limit a hanging address is never recorded (false part)."
  },
  {
   "property": "C43",
   "status": "partial",
   "theorems": [
    "Wm.Health.C43_wrap_fails",
    "Wm.Health.C43_configured",
    "Wm.Health.C43_usable_partial",
    "Wm.Health.C43_default_fails",
    "Wm.Health.C43_zero_fails",
    "Wm.Health.C43_overflow_fails"
   ],
   "note": "Holds with the record's own settings; false with the default settings, zero weights, large weights."
  },
  {
   "property": "C44",
   "status": "partial",
   "theorems": [
    "Wm.Health.C44_wrap_fails",
    "Wm.Health.C44_share_partial",
    "Wm.Health.C44_first_fails",
    "Wm.Health.C44_last_fails"
   ],
   "note": "Shares are within one draw of the weight; exact proportion false (first server one too many, last one too few)."
  },
  {
   "property": "C64",
   "status": "partial",
   "theorems": [
    "Wm.Limit.C64_history_partial",
    "Wm.Limit.C64_reload_fails",
    "Wm.Limit.C64_zones_partial"
   ],
   "note": "Settings of an existing zone never change (false part); first registration and separation of zones proved."
  },
  {
   "property": "C45",
   "status": "partial",
   "theorems": [
    "Wm.Reverse.C45_handled",
    "Wm.Reverse.C45_server",
    "Wm.Reverse.C45_location",
    "Wm.Reverse.C45_remote_fails"
   ],
   "note": "Server and location choice for all configurations and requests; the remote_ip condition is ignored by the code (proved)."
  },
  {
   "property": "C46",
   "status": "partial",
   "theorems": [
    "Wm.Reverse.C46_turned_away",
    "Wm.Reverse.C46_limit_refuses",
    "Wm.Reverse.C46_handler_guarded",
    "Wm.Reverse.C46_answer",
    "Wm.Reverse.C46_no_address_fails",
    "Wm.Reverse.C46_try_status_fails",
    "Wm.Reverse.C46_limit_status_fails"
   ],
   "note": "Guard holds for every configuration and chain of try_paths when the client address is known; the status differs through try_paths and for the limit, and requests without a known address pass (proved)."
  },
  {
   "property": "C47",
   "status": "proved",
   "theorems": [
    "Wm.Reverse.C47_terminates",
    "Wm.Reverse.C47_once"
   ],
   "note": "All configurations; depth at most the number of locations plus one."
  },
  {
   "property": "C48",
   "status": "partial",
   "theorems": [
    "Wm.Reverse.C48_inner_wins_partial",
    "Wm.Reverse.C48_error_log",
    "Wm.Reverse.C48_match_names",
    "Wm.Reverse.C48_lists",
    "Wm.Reverse.C48_root_server",
    "Wm.Reverse.C48_not_passed_fails",
    "Wm.Reverse.C48_log_format_fails",
    "Wm.Reverse.C48_log_names_fails",
    "Wm.Reverse.C48_root_fails"
   ],
   "note": "Eleven of seventeen settings, named matchers and lists; false for six settings, log formats and names, and a location's root."
  },
  {
   "property": "C65",
   "status": "partial",
   "theorems": [
    "Wm.Reverse.C65_once_partial",
    "Wm.Reverse.C65_twice_fails"
   ],
   "note": "At most once without try_paths; twice with try_paths (witness)."
  },
  {
   "property": "C66",
   "status": "partial",
   "theorems": [
    "Wm.Reverse.C66_first_partial",
    "Wm.Reverse.C66_kept_fails"
   ],
   "note": "Holds for the first request over an upstream connection; false for all later ones (universal)."
  },
  {
   "property": "C67",
   "status": "partial",
   "theorems": [
    "Wm.Reverse.C67_chosen_partial",
    "Wm.Reverse.C67_only_matching_partial",
    "Wm.Reverse.C67_websocket_fails"
   ],
   "note": "False in the code: no access rule is looked at; only matching WebSocket locations are connected (proved)."
  },
  {
   "property": "C68",
   "status": "partial",
   "theorems": [
    "Wm.Reverse.C68_kept_partial",
    "Wm.Reverse.C68_closed_fails",
    "Wm.Reverse.C68_recovers_partial"
   ],
   "note": "False in the code: one request gets a 404 (universal); the one after it is sent over a new connection."
  },
  {
   "property": "C69",
   "status": "partial",
   "theorems": [
    "Wm.Reverse.C69_own_connection_partial",
    "Wm.Reverse.C69_same_name_fails"
   ],
   "note": "Holds for all configurations with different server names; false for equal names (witness)."
  },
  {
   "property": "C49",
   "status": "partial",
   "theorems": [
    "Wm.Files.C49_inside_partial",
    "Wm.Files.C49_check_fails",
    "Wm.Files.C49_traversal_fails",
    "Wm.Files.C49_prefix_fails",
    "Wm.Files.C49_encoded_fails"
   ],
   "note": "False in the code: the check never refuses (universal), '..' escapes, also encoded or after a cut prefix (witnesses); holds for all paths without '..'."
  },
  {
   "property": "C50",
   "status": "partial",
   "theorems": [
    "Wm.Files.C50_named_partial",
    "Wm.Files.C50_named_fails",
    "Wm.Files.C50_answer",
    "Wm.Files.C50_other_unit",
    "Wm.Files.C50_answer_partial",
    "Wm.Files.C50_whole",
    "Wm.Files.C50_closed_partial",
    "Wm.Files.C50_ordered",
    "Wm.Files.C50_open_fails",
    "Wm.Files.C50_suffix_fails",
    "Wm.Files.C50_beyond_fails"
   ],
   "note": "Closed ranges exact for all numbers; open, suffix and beyond-the-end ranges are wrong in the code (universal)."
  },
  {
   "property": "C70",
   "status": "partial",
   "theorems": [
    "Wm.Files.C70_hidden_partial",
    "Wm.Files.C70_index_fails",
    "Wm.Files.C70_prefix_fails"
   ],
   "note": "Holds for the request path and directory pages; false for index files and cut prefixes (witnesses)."
  },
  {
   "property": "C71",
   "status": "partial",
   "theorems": [
    "Wm.Files.C71_epoch_fails",
    "Wm.Files.C71_not_modified_partial",
    "Wm.Files.C71_modified",
    "Wm.Files.C71_range_fails"
   ],
   "note": "Holds without a Range header; false with a refused range (universal)."
  },
  {
   "property": "C72",
   "status": "partial",
   "theorems": [
    "Wm.Files.C72_page_fails",
    "Wm.Files.C72_head_partial",
    "Wm.Files.C72_if_range_fails"
   ],
   "note": "Holds without If-Range; false otherwise (universal)."
  },
  {
   "property": "C73",
   "status": "proved",
   "theorems": [
    "Wm.Files.C73_etag"
   ],
   "note": "All pairs of states."
  },
  {
   "property": "C74",
   "status": "partial",
   "theorems": [
    "Wm.Files.C74_listing_partial",
    "Wm.Files.C74_rate_fails"
   ],
   "note": "False for files (universal), holds for directory pages."
  },
  {
   "property": "C75",
   "status": "partial",
   "theorems": [
    "Wm.Files.C75_mime_partial",
    "Wm.Files.C75_mime_fails"
   ],
   "note": "Built-in types win over configured ones (universal); otherwise as configured."
  },
  {
   "property": "C76",
   "status": "partial",
   "theorems": [
    "Wm.Files.C76_no_panic_partial",
    "Wm.Files.C76_panic_fails"
   ],
   "note": "Holds for prefixes without a percent sign; false otherwise (witness)."
  },
  {
   "property": "C51",
   "status": "proved",
   "theorems": [
    "Wm.Socks.C51_layout",
    "Wm.Socks.C51_address_roundtrip",
    "Wm.Socks.C51_address_only"
   ],
   "note": "Every address, continuation and segmentation."
  },
  {
   "property": "C52",
   "status": "partial",
   "theorems": [
    "Wm.Socks.C52_refused",
    "Wm.Socks.C52_unreachable",
    "Wm.Socks.C52_credentials_needed_partial",
    "Wm.Socks.C52_credentials_enough",
    "Wm.Socks.C52_no_credentials",
    "Wm.Socks.C52_method_offered_partial",
    "Wm.Socks.C52_method_not_offered_fails"
   ],
   "note": "Credentials are needed and enough for every input and segmentation. The offer of the password method is not checked properly (witness), only for clients that send nothing behind the offer. Names and passwords must be 1..255 bytes."
  },
  {
   "property": "C53",
   "status": "partial",
   "theorems": [
    "Wm.HttpProxy.C53_credentials_needed_partial",
    "Wm.HttpProxy.C53_credentials_enough_partial",
    "Wm.HttpProxy.C53_asked_partial",
    "Wm.HttpProxy.C53_connects_first_fails",
    "Wm.HttpProxy.C53_colon_fails"
   ],
   "note": "Nothing is passed on without credentials on the connection; but the target is connected to before the check (universal), and credentials with a colon never pass (universal)."
  },
  {
   "property": "C54",
   "status": "partial",
   "theorems": [
    "Wm.HttpProxy.C54_bytes",
    "Wm.HttpProxy.C54_socks",
    "Wm.HttpProxy.C54_http",
    "Wm.HttpProxy.C54_https_only_fails",
    "Wm.HttpProxy.C54_udp_flag_fails"
   ],
   "note": "Dispatch and bytes hold; http is served when only https is enabled, and the UDP flag enables https and socks5."
  },
  {
   "property": "C77",
   "status": "partial",
   "theorems": [
    "Wm.Socks.C77_separate_data_partial",
    "Wm.Socks.C77_early_data_fails"
   ],
   "note": "Data in the same piece as the end of the request is lost (universal); data in later pieces is relayed. Both stated without credentials configured."
  },
  {
   "property": "C78",
   "status": "proved",
   "theorems": [
    "Wm.Socks.C78_layout",
    "Wm.Socks.C78_udp_forward",
    "Wm.Socks.C78_udp_reply"
   ],
   "note": "All datagrams and addresses."
  },
  {
   "property": "C79",
   "status": "partial",
   "theorems": [
    "Wm.Socks.Assoc.C79_fragment_fails",
    "Wm.Socks.C79_good_datagrams_partial",
    "Wm.Socks.C79_bad_datagram_fails"
   ],
   "note": "Holds for sequences without bad datagrams; false otherwise (universal)."
  },
  {
   "property": "C80",
   "status": "partial",
   "theorems": [
    "Wm.Socks.C80_handshake_exact_partial",
    "Wm.Socks.C80_handshake_partial",
    "Wm.Socks.C80_early_close_fails",
    "Wm.Socks.C80_short_datagram_fails"
   ],
   "note": "False when the client closes within its first message (universal) and for 3-byte datagrams; holds after a complete method list."
  },
  {
   "property": "C81",
   "status": "partial",
   "theorems": [
    "Wm.HttpProxy.C81_header_fails"
   ],
   "note": "False: exact characterisation of the headers that panic."
  },
  {
   "property": "C82",
   "status": "partial",
   "theorems": [
    "Wm.HttpProxy.C82_closed_partial",
    "Wm.HttpProxy.C82_first_fails",
    "Wm.HttpProxy.C82_reached",
    "Wm.HttpProxy.C82_target_partial",
    "Wm.HttpProxy.C82_target_fails"
   ],
   "note": "Holds for requests until one was passed on; false afterwards (universal)."
  },
  {
   "property": "C83",
   "status": "partial",
   "theorems": [
    "Wm.HttpProxy.C83_first_partial",
    "Wm.HttpProxy.C83_credentials_leak_fails"
   ],
   "note": "Holds for the first forwarded request; false afterwards."
  },
  {
   "property": "C84",
   "status": "partial",
   "theorems": [
    "Wm.HttpProxy.C84_text_partial",
    "Wm.HttpProxy.C84_roundtrip_partial",
    "Wm.HttpProxy.C84_misspelt_fails",
    "Wm.HttpProxy.C84_number_fails"
   ],
   "note": "Known words are read exactly; unknown words are ignored (universal); unknown bits become http."
  },
  {
   "property": "C55",
   "status": "partial",
   "theorems": [
    "Wm.Udp.C55_replies_lost",
    "Wm.Udp.C55_kept",
    "Wm.Udp.C55_no_standstill",
    "Wm.Udp.C55_isolated",
    "Wm.Udp.C55_replies",
    "Wm.Udp.C55_replies_kept",
    "Wm.Udp.C55_order_partial",
    "Wm.Udp.C55_order_fails"
   ],
   "note": "Separation and reply order for every history; upstream order under two conditions, false without them."
  },
  {
   "property": "C85",
   "status": "partial",
   "theorems": [
    "Wm.Udp.C85_stranger_fails",
    "Wm.Udp.C85_partial",
    "Wm.Udp.C85_notice_fails"
   ],
   "note": "False: what anybody sends to the socket is given to the client, and the end of a task sends the client an empty datagram (both universal)."
  },
  {
   "property": "C86",
   "status": "partial",
   "theorems": [
    "Wm.Udp.C86_reply_partial",
    "Wm.Udp.C86_whole_partial",
    "Wm.Udp.C86_cut_fails"
   ],
   "note": "False above 9096 bytes (universal)."
  },
  {
   "property": "C87",
   "status": "partial",
   "theorems": [
    "Wm.Udp.C87_blackhole_fails"
   ],
   "note": "False: universal over later histories in which the client keeps sending in time."
  },
  {
   "property": "C88",
   "status": "partial",
   "theorems": [
    "Wm.Udp.C88_entries_fails"
   ],
   "note": "False: universal over later histories without a datagram of this client."
  },
  {
   "property": "C56",
   "status": "partial",
   "theorems": [
    "Wm.Control.C56_exit_partial",
    "Wm.Control.C56_abort_fails",
    "Wm.Control.C56_reload_partial",
    "Wm.Control.C56_failed_start_fails"
   ],
   "note": "Exit only without services: every history in which no start finds the server of its tunnel unreachable; such a start ends the process (universal). No gap: every history without stop and failures. A reload whose start fails ends the old service (universal)."
  },
  {
   "property": "C89",
   "status": "partial",
   "theorems": [
    "Wm.Control.C89_exit_partial",
    "Wm.Control.C89_panic_fails",
    "Wm.Control.C89_port_fails"
   ],
   "note": "Holds without panics and with the control port bound; false otherwise (universal)."
  },
  {
   "property": "C90",
   "status": "partial",
   "theorems": [
    "Wm.Control.C90_replies_fails"
   ],
   "note": "False, universal over histories."
  },
  {
   "property": "C57",
   "status": "partial",
   "theorems": [
    "Wm.Log.C57_width_partial",
    "Wm.Log.C57_length_partial",
    "Wm.Log.C57_pattern_partial",
    "Wm.Log.C57_width_fails"
   ],
   "note": "Holds whenever minimum <= maximum, for every nesting, segmentation and sink behaviour; with minimum > maximum the field has the maximum width (universal). The sink never fails."
  },
  {
   "property": "C58",
   "status": "proved",
   "theorems": [
    "Wm.Log.C58_parse",
    "Wm.Log.C58_print",
    "Wm.Log.C58_terminates",
    "Wm.Log.escape_escaped"
   ],
   "note": "All texts, both ways of escaping; termination as independence of fuel."
  },
  {
   "property": "C59",
   "status": "partial",
   "theorems": [
    "Wm.HealthList.C59_health_list_partial",
    "Wm.HealthList.C59_health_list_no_location_partial",
    "Wm.HealthList.C59_location_fails"
   ],
   "note": "Holds for groups outside locations; groups given in a location are never listed."
  },
  {
   "property": "C91",
   "status": "partial",
   "theorems": [
    "Wm.Log.C91_format_partial",
    "Wm.Log.C91_format_fails"
   ],
   "note": "Panics exactly when a date format is rejected by the date library."
  },
  {
   "property": "C92",
   "status": "partial",
   "theorems": [
    "Wm.Tunnel.C92_server_announces",
    "Wm.Tunnel.C92_client_announces",
    "Wm.Select.C92_announced_first_partial",
    "Wm.Select.C92_data_before_create_fails"
   ],
   "note": "Every opened stream is announced; the order holds when no stream is opened between the first two polls of one select (single-threaded runtime), and is violated otherwise for every id and payload."
  },
  {
   "property": "C93",
   "status": "proved",
   "theorems": [
    "Wm.Tunnel.C93_server_bounded",
    "Wm.Tunnel.C93_client_bounded"
   ],
   "note": "All histories."
  },
  {
   "property": "C94",
   "status": "partial",
   "theorems": [
    "Wm.Select.C94_written_when_quiet_partial",
    "Wm.Select.C94_reading_starves_writing_fails"
   ],
   "note": "Written as soon as no other branch is ready; a connection that stays readable starves writing completely (universal)."
  },
  {
   "property": "C95",
   "status": "partial",
   "theorems": [
    "Wm.Redial.C95_history_partial",
    "Wm.Tunnel.C95_in_order_at_most_once_partial",
    "Wm.Tunnel.C95_stale_message_fails"
   ],
   "note": "Order and at-most-once hold over all connections; messages left over by one connection are sent on the next and can reach another visitor's stream (universal over ids and payloads)."
  },
  {
   "property": "C96",
   "status": "proved",
   "theorems": [
    "Wm.Reverse.C96_try_list"
   ],
   "note": "The paths tried are asked through the same environment as all other requests; which body they get is not part of the claim."
  },
  {
   "property": "C97",
   "status": "proved",
   "theorems": [
    "Wm.Files.C97_joined",
    "Wm.Files.C97_file",
    "Wm.Files.C97_index",
    "Wm.Files.C97_directory"
   ],
   "note": "For requests that name the file in the usual way (prefix, then a path starting with a slash) and that no configured hidden text matches. That paths with parent steps leave the directory is C49."
  },
  {
   "property": "C98",
   "status": "partial",
   "theorems": [
    "Wm.Files.C98_encoding_partial",
    "Wm.Files.C98_not_asked",
    "Wm.Files.C98_refused_encoding_fails"
   ],
   "note": "Exact up to what accepting means: the code looks for the encoding's name anywhere in the header, so gzip;q=0 counts as accepting gzip (proved)."
  },
  {
   "property": "C99",
   "status": "proved",
   "theorems": [
    "Wm.Control.C99_old_ends",
    "Wm.Control.C99_new_configuration"
   ],
   "note": "A service looks at its channel in its main loop (environment event close); that this loop may be blocked by other work is not part of this model. If the new service cannot start the old one ends too, see C56."
  },
  {
   "property": "C100",
   "status": "proved",
   "theorems": [
    "Wm.Control.C100_stop"
   ],
   "note": "As for C99."
  },
  {
   "property": "C101",
   "status": "proved",
   "theorems": [
    "Wm.Log.C101_pattern"
   ],
   "note": "For the documented pattern language with minimal widths not above maximal ones (see C57 for these); the texts of the fields, the clock and the character classes beyond ASCII are parameters."
  },
  {
   "property": "C102",
   "status": "proved",
   "theorems": [
    "Wm.Health.C102_may_check",
    "Wm.Health.C102_loop",
    "Wm.Health.C102_turn"
   ],
   "note": "The clock is a parameter; the loop of the program is modelled although this version never starts it (src/wmcore.rs:200-207)."
  },
  {
   "property": "C103",
   "status": "proved",
   "theorems": [
    "Wm.Health.C103_recorded"
   ],
   "note": "The exchange with the server (active.rs:43-59) is a parameter."
  },
  {
   "property": "C104",
   "status": "partial",
   "theorems": [
    "Wm.World.C104_dropped_fails",
    "Wm.World.C104_early_fails",
    "Wm.World.C104_up_partial",
    "Wm.World.C104_up_exact_partial",
    "Wm.World.C104_up_all_partial",
    "Wm.World.C104_down",
    "Wm.World.C104_down_all",
    "Wm.World.C104_overtaken_fails",
    "Wm.World.C104_slow_service_fails"
   ],
   "note": "To the visitor the claim is proved in full. To the local service what arrives are always bytes of the right visitor in their order; that none is missing holds if the open request was written before the stream's data and no message was dropped at the client because the service was slow, and fails otherwise. Fewer than 2^23 visitors per connection (C06); one connection (C95 for reconnecting); other tasks keep to their own ids and send messages that fit the format."
  },
  {
   "property": "C105",
   "status": "partial",
   "theorems": [
    "Wm.World.C105_mapping_chosen",
    "Wm.World.C105_mode_partial",
    "Wm.World.C105_same_name_fails"
   ],
   "note": "The mapping used is characterised exactly; it is the right one if no mapping's name or domain is the name of another. For listeners served by TransTcp."
  },
  {
   "property": "C106",
   "status": "partial",
   "theorems": [
    "Wm.TransHttp.C106_first_partial",
    "Wm.TransHttp.C106_same_host_partial",
    "Wm.TransHttp.C106_service_partial",
    "Wm.TransHttp.C106_later_requests_fails",
    "Wm.TransHttp.C106_unknown_first_fails",
    "Wm.TransHttp.C106_other_service_fails",
    "Wm.TransHttp.C106_no_host_fails"
   ],
   "note": "Holds for the first request of a connection and for connections that name one host only. Later requests go to the service of the first one's host, or nowhere if the first one's host is unknown; a mapping's name may be taken for another's domain; a request without host goes to any mapping without domain."
  },
  {
   "property": "C107",
   "status": "partial",
   "theorems": [
    "Wm.Listen.C107_listeners",
    "Wm.Listen.C107_kind_exact",
    "Wm.Listen.C107_kind_partial",
    "Wm.Listen.C107_plain_wins_fails",
    "Wm.Listen.C107_starts"
   ],
   "note": "One listener per address, and the kind of each exactly; an address that some block has without TLS before another has it with TLS is listened on in the clear."
  },
  {
   "property": "C108",
   "status": "partial",
   "theorems": [
    "Wm.Listen.C108_port_partial",
    "Wm.Listen.C108_address_partial",
    "Wm.Listen.C108_other_address_fails"
   ],
   "note": "Only ports are compared: holds if no two addresses share a port."
  },
  {
   "property": "C109",
   "status": "partial",
   "theorems": [
    "Wm.Listen.C109_same_name_partial",
    "Wm.Listen.C109_sni_fails"
   ],
   "note": "A name given at connection fixes the block for all requests of the connection."
  },
  {
   "property": "C110",
   "status": "partial",
   "theorems": [
    "Wm.Listen.C110_single",
    "Wm.Listen.C110_shown",
    "Wm.Listen.C110_served_partial",
    "Wm.Listen.C110_domain_fails"
   ],
   "note": "Certificates are chosen by a block's domain, blocks by their name. Comparison of names within rustls is exact here."
  },
  {
   "property": "C111",
   "status": "partial",
   "theorems": [
    "Wm.Listen.C111_own_block",
    "Wm.Listen.C111_ports_partial",
    "Wm.Listen.C111_same_port_fails"
   ],
   "note": "Connections always reach the block for which their listener was opened; of several addresses with the same port only one is listened on."
  },
  {
   "property": "C112",
   "status": "partial",
   "theorems": [
    "Wm.Listen.C112_order_partial",
    "Wm.Listen.C112_one_at_a_time_fails"
   ],
   "note": "Connections are forwarded strictly one after the other."
  },
  {
   "property": "C113",
   "status": "partial",
   "theorems": [
    "Wm.Listen.C113_accept_exact",
    "Wm.Listen.C113_connect_exact",
    "Wm.Listen.C113_encrypted_partial",
    "Wm.Listen.C113_map_partial",
    "Wm.Listen.C113_clear_fails",
    "Wm.Listen.C113_key_fails",
    "Wm.Listen.C113_misfit_fails",
    "Wm.Listen.C113_root_panics_fails",
    "Wm.Listen.C113_no_listener_fails"
   ],
   "note": "What is used is characterised exactly; with files that cannot be used the tunnel silently runs in the clear. What rustls accepts is a parameter."
  },
  {
   "property": "C114",
   "status": "partial",
   "theorems": [
    "Wm.Core.C114_only_partial",
    "Wm.Core.C114_first_partial",
    "Wm.Core.C114_first_only_fails",
    "Wm.Core.C114_stranger_fails",
    "Wm.Core.C114_silent_fails"
   ],
   "note": "Visitors only ever reach clients that offer the service, but only the connection accepted first is asked, even if it has not logged in."
  },
  {
   "property": "C115",
   "status": "partial",
   "theorems": [
    "Wm.Core.C115_full_fails",
    "Wm.Core.C115_ten_partial",
    "Wm.Core.C115_proxy_partial",
    "Wm.Core.C115_stop",
    "Wm.Core.C115_none_lost",
    "Wm.Core.C115_free_partial",
    "Wm.Core.C115_other_partial",
    "Wm.Core.C115_blocked_fails",
    "Wm.Core.C115_silent_client_fails"
   ],
   "note": "Connections are neither lost nor handled twice. The task waits for TLS handshakes of clients, for connections to an upper server and for room in the tunnel client's channel."
  },
  {
   "property": "C116",
   "status": "partial",
   "theorems": [
    "Wm.World.C116_dropped_fails",
    "Wm.World.C116_early_fails",
    "Wm.World.C116_down",
    "Wm.World.C116_down_only",
    "Wm.World.C116_up_partial",
    "Wm.World.C116_up_only",
    "Wm.World.C116_overtaken_fails",
    "Wm.World.C116_slow_service_fails"
   ],
   "note": "The end of the local service always reaches the visitor, and neither side is ended for another reason. The end of the visitor does not reach the local service if it overtakes the open request or finds the channel full."
  },
  {
   "property": "C117",
   "status": "partial",
   "theorems": [
    "Wm.Target.C117_group_partial",
    "Wm.Target.C117_only",
    "Wm.Target.C117_host",
    "Wm.Target.C117_down_fails",
    "Wm.Target.C117_empty_fails",
    "Wm.Target.C117_no_host_fails",
    "Wm.Target.C117_tls_name_fails"
   ],
   "note": "Holds for groups whose health settings are those of the program's records. With the default settings, after two failures, or with an empty group, requests go to the host of the group's name; TLS asks for a certificate for the bare address; a URL without host panics."
  },
  {
   "property": "C118",
   "status": "partial",
   "theorems": [
    "Wm.Target.C118_group_partial",
    "Wm.Target.C118_host",
    "Wm.Target.C118_unresolved",
    "Wm.Target.C118_port_fails",
    "Wm.Target.C118_udp_fails",
    "Wm.Target.C118_udp_unnamed_fails"
   ],
   "note": "Holds for TCP when the URL has no port. A port in the URL replaces that of the server; UDP blocks use the outermost group of a name and none if up_name is empty."
  },
  {
   "property": "C119",
   "status": "partial",
   "theorems": [
    "Wm.Target.C119_group_partial",
    "Wm.Target.C119_dropped_fails"
   ],
   "note": "Holds when the host names a group. Otherwise the WebSocket is accepted and everything sent to it is dropped."
  },
  {
   "property": "C120",
   "status": "proved",
   "theorems": [
    "Wm.Target.C120_order",
    "Wm.Target.C120_no_loss",
    "Wm.Target.C120_ends"
   ],
   "note": "For the channels of this code base; reading and writing WebSocket frames is external."
  },
  {
   "property": "C121",
   "status": "partial",
   "theorems": [
    "Wm.Cli.C121_options_partial",
    "Wm.Cli.C121_run_fails"
   ],
   "note": "Holds for proxy, and but for the control server for file-server, ws-proxy and reverse-proxy. With run all options but --verbose are ignored."
  },
  {
   "property": "C122",
   "status": "partial",
   "theorems": [
    "Wm.Cli.C122_said",
    "Wm.Cli.C122_complete_partial",
    "Wm.Cli.C122_status_fails",
    "Wm.Cli.C122_unchecked_fails",
    "Wm.Cli.C122_extension_fails"
   ],
   "note": "The text is right up to the checks after loading, which are not made; the exit status is always 0; a path without extension panics."
  },
  {
   "property": "C123",
   "status": "partial",
   "theorems": [
    "Wm.Cli.C123_closed_fails",
    "Wm.Cli.C123_reverse_partial"
   ],
   "note": "Holds for the first request of a connection; for later ones up to C68."
  },
  {
   "property": "C124",
   "status": "partial",
   "theorems": [
    "Wm.Cli.C124_mode_partial",
    "Wm.Cli.C124_refused",
    "Wm.Cli.C124_case_fails"
   ],
   "note": "Modes with capital letters are accepted but connections are forwarded as plain TCP."
  },
  {
   "property": "C125",
   "status": "partial",
   "theorems": [
    "Wm.Cli.C125_file_partial",
    "Wm.Cli.C125_ignored_fails"
   ],
   "note": "--browse and --ext-mimetype have no effect."
  },
  {
   "property": "C126",
   "status": "partial",
   "theorems": [
    "Wm.Cli.C126_rounds",
    "Wm.Cli.C126_restart_partial",
    "Wm.Cli.C126_error_fails",
    "Wm.Cli.C126_stop_fails"
   ],
   "note": "Holds for panics and kills. Errors end with status 0 and are not followed by a restart; a service stopped by its process id is started again."
  },
  {
   "property": "C127",
   "status": "partial",
   "theorems": [
    "Wm.Chain.C127_waited_fails",
    "Wm.Chain.C127_dropped_fails",
    "Wm.Chain.C127_early_fails",
    "Wm.Chain.C127_up_partial",
    "Wm.Chain.C127_up_exact_partial",
    "Wm.Chain.C127_up_all_partial",
    "Wm.Chain.C127_down_partial",
    "Wm.Chain.C127_down_exact_partial",
    "Wm.Chain.C127_down_all_partial",
    "Wm.Chain.C127_overtaken_fails",
    "Wm.Chain.C127_slow_user_fails",
    "Wm.Chain.C127_repeated_fails"
   ],
   "note": "Never another user's bytes and never reordered. Exact and complete if the open request goes first, no write waits and no channel of the client overflows; otherwise bytes are lost or repeated."
  },
  {
   "property": "C128",
   "status": "partial",
   "theorems": [
    "Wm.Chain.C128_early_fails",
    "Wm.Chain.C128_up_partial",
    "Wm.Chain.C128_up_only_partial",
    "Wm.Chain.C128_never_told_fails",
    "Wm.Chain.C128_left_open_fails",
    "Wm.Chain.C128_overtaken_fails"
   ],
   "note": "From the user to the proxy if the open request goes first. The user is never told that the proxy has ended the stream."
  },
  {
   "property": "C131",
   "status": "partial",
   "theorems": [
    "Wm.Texts.C131_meaning",
    "Wm.Texts.C131_unknown",
    "Wm.Texts.C131_roundtrip",
    "Wm.Texts.C131_blanks_fails"
   ],
   "note": "Meaning, rejection and print/parse proved for settings separated by single blanks; two blanks in a row are rejected."
  },
  {
   "property": "C132",
   "status": "partial",
   "theorems": [
    "Wm.Texts.C132_meaning",
    "Wm.Texts.C132_print_partial",
    "Wm.Texts.C132_print_fails",
    "Wm.Texts.C132_blank_fails"
   ],
   "note": "Meaning proved. Print/parse exactly for the periods of C26; a blank text ends the program."
  },
  {
   "property": "C133",
   "status": "partial",
   "theorems": [
    "Wm.Texts.C133_meaning",
    "Wm.Texts.C133_ignored_fails",
    "Wm.Texts.C133_print_fails"
   ],
   "note": "Meaning proved; wrong statuses are ignored and printed texts are never read as the same setting."
  },
  {
   "property": "C134",
   "status": "partial",
   "theorems": [
    "Wm.Texts.C134_meaning",
    "Wm.Texts.C134_print_partial",
    "Wm.Texts.C134_error",
    "Wm.Texts.C134_format_fails",
    "Wm.Texts.C134_level_fails"
   ],
   "note": "Meaning and print/parse proved, except for access logs without format; wrong levels and further words are taken as trace."
  },
  {
   "property": "C135",
   "status": "partial",
   "theorems": [
    "Wm.Texts.C135_unknown",
    "Wm.Texts.C135_meaning",
    "Wm.Texts.C135_print_partial",
    "Wm.Texts.C135_print_fails"
   ],
   "note": "Meaning proved; print/parse for at most one member only, since members are printed without separator."
  },
  {
   "property": "C129",
   "status": "partial",
   "theorems": [
    "Wm.Access.C129_one_line_partial",
    "Wm.Access.C129_only",
    "Wm.Access.C129_kept_fails",
    "Wm.Access.C129_refused_fails",
    "Wm.Access.C129_answer_fails",
    "Wm.Access.C129_many_fails"
   ],
   "note": "One line for a request given to a location anew; none for refused requests and kept connections, any number with try lists, and never anything about the answer."
  },
  {
   "property": "C130",
   "status": "partial",
   "theorems": [
    "Wm.Access.C130_main_partial",
    "Wm.Access.C130_main_fails",
    "Wm.Access.C130_opens",
    "Wm.Access.C130_record",
    "Wm.Access.C130_file_partial",
    "Wm.Access.C130_command_line_partial",
    "Wm.Access.C130_other_file_fails",
    "Wm.Access.C130_unopened_fails",
    "Wm.Access.C130_level_fails",
    "Wm.Access.C130_unknown_fails",
    "Wm.Access.C130_format_fails",
    "Wm.Access.C130_default_levels_fails",
    "Wm.Access.C130_command_line_fails"
   ],
   "note": "Where records go is proved; different texts for one name, files that cannot be opened, wrong levels, unknown names and formats are not handled as claimed, and with default levels the file stays empty."
  },
  {
   "property": "C136",
   "status": "partial",
   "theorems": [
    "Wm.Rewrite.C136_plain",
    "Wm.Rewrite.C136_rewrite",
    "Wm.Rewrite.C136_kept",
    "Wm.Rewrite.C136_bounded",
    "Wm.Rewrite.C136_two_words_fails",
    "Wm.Rewrite.C136_quoted_fails",
    "Wm.Rewrite.C136_invalid_fails"
   ],
   "note": "Entries of one word and of three or more with a valid expression mean what they say; entries of two words and quoted ones with a blank become the empty path, an invalid expression is not reported."
  },
  {
   "property": "C137",
   "status": "partial",
   "theorems": [
    "Wm.Rewrite.C137_memory",
    "Wm.Rewrite.C137_static_partial",
    "Wm.Rewrite.C137_panic_fails"
   ],
   "note": "Every text that can be filled in; one that cannot ends the handling in a panic."
  },
  {
   "property": "C138",
   "status": "partial",
   "theorems": [
    "Wm.Answer.C138_client",
    "Wm.Answer.C138_upstream",
    "Wm.Answer.C138_one_block_partial",
    "Wm.Answer.C138_sni_partial",
    "Wm.Answer.C138_passed_partial",
    "Wm.Answer.C138_first_fails",
    "Wm.Answer.C138_idle_fails",
    "Wm.Answer.C138_upstream_fails"
   ],
   "note": "One block for the port, or the block asked for with TLS; with several blocks the timeouts of the first count for all, and some settings do not reach inner blocks."
  },
  {
   "property": "C139",
   "status": "partial",
   "theorems": [
    "Wm.Answer.C139_answered",
    "Wm.Answer.C139_failure_partial",
    "Wm.Answer.C139_nothing",
    "Wm.Answer.C139_timeout_fails"
   ],
   "note": "Always answered; an upstream that takes too long is reported as 408."
  },
  {
   "property": "C140",
   "status": "partial",
   "theorems": [
    "Wm.Builder.C140_settings",
    "Wm.Builder.C140_mappings",
    "Wm.Builder.C140_protocols",
    "Wm.Builder.C140_udp_fails",
    "Wm.Builder.C140_missing_fails"
   ],
   "note": "All calls; adding UDP turns on HTTPS and SOCKS5, and some settings have no call."
  },
  {
   "property": "C141",
   "status": "partial",
   "theorems": [
    "Wm.Builder.C141_opened_partial",
    "Wm.Builder.C141_udp_partial",
    "Wm.Builder.C141_first_fails",
    "Wm.Builder.C141_udp_v6_fails"
   ],
   "note": "One address; of several only the first is tried if it cannot be bound, and none of IPv6 is opened for datagrams."
  },
  {
   "property": "C142",
   "status": "partial",
   "theorems": [
    "Wm.Tunnel.C142_server_one_per_id_partial",
    "Wm.Tunnel.C142_client_one_per_id_partial",
    "Wm.Tunnel.C142_server_fails",
    "Wm.Tunnel.C142_client_fails",
    "Wm.Tunnel.C142_unbounded_fails"
   ],
   "note": "Only the last stream under one id is kept, but this one whatever has happened to it, for as long as the connection lasts; ids are not used again, so that the number of streams kept grows without bound."
  },
  {
   "property": "C143",
   "status": "partial",
   "theorems": [
    "Wm.Tunnel.C143_server_input_partial",
    "Wm.Tunnel.C143_client_input_partial",
    "Wm.Tunnel.C143_refused_fails",
    "Wm.Tunnel.C143_server_output_fails",
    "Wm.Tunnel.C143_client_output_fails"
   ],
   "note": "Input is bounded at both ends, but for a peer that was refused; output is not bounded."
  },
  {
   "property": "C144",
   "status": "partial",
   "theorems": [
    "Wm.Select.C144_server_goes_on_partial",
    "Wm.Select.C144_server_fails",
    "Wm.Select.C144_server_idle_fails",
    "Wm.Select.C144_client_fails",
    "Wm.Select.C144_client_silent_fails"
   ],
   "note": "A server end goes on while a visitor of the old service is served; after that, and at the client at once, the loop of the tunnel spins on a closed channel: nothing is read, sent or closed any more."
  },
  {
   "property": "C145",
   "status": "partial",
   "theorems": [
    "Wm.Listen.C145_proxy_listeners_partial",
    "Wm.Listen.C145_https_partial",
    "Wm.Listen.C145_sections",
    "Wm.Listen.C145_refused",
    "Wm.Listen.C145_tunnel_partial",
    "Wm.Listen.C145_no_bind_fails",
    "Wm.Listen.C145_https_fails",
    "Wm.Listen.C145_exit_fails",
    "Wm.Listen.C145_same_address_fails"
   ],
   "note": "All listeners but that for HTTPS visitors; the tunnel only if there is an address for the proxy; an unreachable server ends the process."
  },
  {
   "property": "C146",
   "status": "proved",
   "theorems": [
    "Wm.Files.C146_label",
    "Wm.Files.C146_page"
   ],
   "note": "Names of entries are texts, as in the whole model of the file server; index names are relative."
  },
  {
   "property": "C147",
   "status": "partial",
   "theorems": [
    "Wm.Files.C147_link_partial",
    "Wm.Files.C147_characters_fails",
    "Wm.Files.C147_percent_fails"
   ],
   "note": "Links are not encoded: names with a backslash, a question mark, a number sign or a percent code are not reached."
  },
  {
   "property": "C148",
   "status": "partial",
   "theorems": [
    "Wm.Files.C148_tags_partial",
    "Wm.Files.C148_markup_fails"
   ],
   "note": "Names are not escaped."
  },
  {
   "property": "C149",
   "status": "partial",
   "theorems": [
    "Wm.Files.C149_answer",
    "Wm.Files.C149_status_partial",
    "Wm.Files.C149_page_fails"
   ],
   "note": "With a page configured for it the answer is 200."
  },
  {
   "property": "C150",
   "status": "partial",
   "theorems": [
    "Wm.Control.C150_served_partial",
    "Wm.Control.C150_waiting_partial",
    "Wm.Control.C150_in_turn",
    "Wm.Control.C150_reload_fails",
    "Wm.Control.C150_failed_start_fails",
    "Wm.Control.C150_exit_fails"
   ],
   "note": "Connections being served go on while the process lives; those that wait at a service that ends are lost, although another one listens on the same address."
  },
  {
   "property": "C151",
   "status": "partial",
   "theorems": [
    "Wm.Turns.C151_accept_fails",
    "Wm.Control.C151_unblocked_partial",
    "Wm.Control.C151_in_turn_partial",
    "Wm.Control.C151_stop_partial",
    "Wm.Control.C151_stop_twice_fails"
   ],
   "note": "A second request to stop during a start blocks all requests until the start is over."
  },
  {
   "property": "C152",
   "status": "partial",
   "theorems": [
    "Wm.Control.C152_begins_partial",
    "Wm.Control.C152_hanging_fails"
   ],
   "note": "After a request to stop during a start that hangs, later services wait for it."
  },
  {
   "property": "C153",
   "status": "partial",
   "theorems": [
    "Wm.Ring.C153_ring_bytes_partial",
    "Wm.Tunnel.C153_server_partial",
    "Wm.Tunnel.C153_client",
    "Wm.Tunnel.C153_waits_for_full",
    "Wm.Tunnel.C153_waiting_fails",
    "Wm.Ring.C153_ring_fails"
   ],
   "note": "The server end stops for every stream while one has a full queue, and with the task and the target behind that stream it can stop forever; the client end is not held up."
  },
  {
   "property": "C154",
   "status": "partial",
   "theorems": [
    "Wm.Relay.C154_pieces_partial",
    "Wm.Relay.C154_reads_on_fails",
    "Wm.Relay.C154_takes_on_fails"
   ],
   "note": "A relay reads on and takes on without limit in both directions; what it keeps is limited when the other side is at most k pieces behind."
  },
  {
   "property": "C155",
   "status": "partial",
   "theorems": [
    "Wm.Log.C155_no_default_partial",
    "Wm.Log.C155_default_fails"
   ],
   "note": "Keys without default stand for nothing, as this program puts nothing into the context; defaults are never printed."
  },
  {
   "property": "C156",
   "status": "partial",
   "theorems": [
    "Wm.Config.C156_meaning_partial",
    "Wm.Config.C156_rejects",
    "Wm.Config.C156_request_removal_fails",
    "Wm.Config.C156_wrong_fails"
   ],
   "note": "All forms but removals from requests without value; three or four words with a wrong first (second) word are taken as something else."
  },
  {
   "property": "C157",
   "status": "proved",
   "theorems": [
    "Wm.World.C157_down"
   ],
   "note": "Over the composed tunnel, for messages of other tasks that the wire format can carry, and ids that have not wrapped."
  },
  {
   "property": "C158",
   "status": "partial",
   "theorems": [
    "Wm.World.C158_up_partial",
    "Wm.World.C104_overtaken_fails",
    "Wm.World.C104_slow_service_fails"
   ],
   "note": "Proved while nothing of the stream has been lost already; data sent before its open request and data meeting a full channel at the client is lost (the two _fails theorems)."
  },
  {
   "property": "C159",
   "status": "proved",
   "theorems": [
    "Wm.Socks.Assoc.C159_stays",
    "Wm.Socks.Assoc.C159_forward",
    "Wm.Socks.Assoc.C159_back",
    "Wm.Socks.Assoc.C159_serves",
    "Wm.Socks.Assoc.C159_ends"
   ],
   "note": "Arrival, branch choice and the success of sending are chosen by the environment; how UDP sockets treat connected peers is external and stated in the model."
  },
  {
   "property": "C160",
   "status": "partial",
   "theorems": [
    "Wm.Socks.Assoc.C160_stranger_fails",
    "Wm.Socks.Assoc.C160_alone_partial"
   ],
   "note": "Does not hold: the socket is open to everybody and is bound to the first sender. Holds if only the client sends."
  },
  {
   "property": "C161",
   "status": "partial",
   "theorems": [
    "Wm.Socks.Assoc.C161_early_fails",
    "Wm.Socks.Assoc.C161_large_fails",
    "Wm.Socks.Assoc.C161_reply_partial"
   ],
   "note": "Does not hold before the client's first datagram and for datagrams that become too long with the header."
  },
  {
   "property": "C162",
   "status": "partial",
   "theorems": [
    "Wm.Files.C162_files_partial",
    "Wm.Files.C162_pages_fails"
   ],
   "note": "Holds for answers with a file, 304 and the robots text; directory pages and messages never carry the lines."
  },
  {
   "property": "C163",
   "status": "proved",
   "theorems": [
    "Wm.Files.C163_again"
   ],
   "note": "The second request has no range (C71_range_fails) and no date; that a header line is replaced by inserting one of the same name is taken from the crate webparse."
  },
  {
   "property": "C164",
   "status": "partial",
   "theorems": [
    "Wm.Files.C164_label_partial",
    "Wm.Files.C164_label_fails"
   ],
   "note": "Does not hold with compression switched off: the precompressed form is sent with an empty label."
  },
  {
   "property": "C165",
   "status": "partial",
   "theorems": [
    "Wm.Files.C165_type_partial",
    "Wm.Files.C165_rar_fails",
    "Wm.Files.C165_capital_fails"
   ],
   "note": "Holds for the types of the table; the type for rar is not a media type, and endings in capitals are not known."
  },
  {
   "property": "C166",
   "status": "partial",
   "theorems": [
    "Wm.Files.C166_head_partial",
    "Wm.Files.C166_range_fails"
   ],
   "note": "Holds without conditions and range; with a range the length of the whole file is announced with 206."
  },
  {
   "property": "C167",
   "status": "proved",
   "theorems": [
    "Wm.Files.C167_robots",
    "Wm.Files.C167_only",
    "Wm.Files.C167_sent"
   ],
   "note": "The length of the text in UTF-8 is a parameter. For HEAD the content is sent as well (C72_page_fails)."
  },
  {
   "property": "C168",
   "status": "partial",
   "theorems": [
    "Wm.Files.C168_get_partial",
    "Wm.Files.C168_robots_fails",
    "Wm.Files.C168_head_fails"
   ],
   "note": "Holds for GET except the robots text; the robots text and HEAD for files carry both lines. What the HTTP engine makes of them is external."
  },
  {
   "property": "C169",
   "status": "proved",
   "theorems": [
    "Wm.World.C169_fair",
    "Wm.World.C169_down"
   ],
   "note": "For the connections of TCP mappings under one working tunnel; one continuation from every state, and every endless fair schedule."
  },
  {
   "property": "C170",
   "status": "partial",
   "theorems": [
    "Wm.World.C170_fair_partial",
    "Wm.World.C170_up_partial",
    "Wm.World.C170_lost_fails"
   ],
   "note": "Holds unless the notice has been lost already, because it overtook the open request or because it met a full channel at the client; from such states no continuation of this kind ends the connection."
  },
  {
   "property": "C171",
   "status": "partial",
   "theorems": [
    "Wm.Reverse.C171_kept_fails",
    "Wm.Reverse.C171_body_partial",
    "Wm.Reverse.C171_second_fails"
   ],
   "note": "Holds as long as no proxy was asked before for the same request; after a proxied entry of a try list the later ones get an empty body."
  },
  {
   "property": "C172",
   "status": "partial",
   "theorems": [
    "Wm.Reverse.C172_host_partial",
    "Wm.Reverse.C172_same",
    "Wm.Reverse.C172_host_fails"
   ],
   "note": "Method, scheme and address always hold; the host as long as no proxy was asked before for the same request."
  },
  {
   "property": "C173",
   "status": "partial",
   "theorems": [
    "Wm.Log.C173_mistakes_partial",
    "Wm.Log.C173_unclosed_fails"
   ],
   "note": "Holds for all mistakes but an unclosed brace, after which the rest of the pattern is lost."
  },
  {
   "property": "C174",
   "status": "partial",
   "theorems": [
    "Wm.Limit.C174_decided_partial",
    "Wm.Limit.C174_burst_fails",
    "Wm.Limit.C174_wrap_fails",
    "Wm.Limit.C174_period_fails"
   ],
   "note": "Holds when rate plus burst is below 2^64 and a hundred periods are below 2^64 seconds; otherwise a request can end in a panic that poisons the shared lock, or a burst is lost."
  },
  {
   "property": "C175",
   "status": "partial",
   "theorems": [
    "Wm.Log.C175_process_partial",
    "Wm.Log.C175_request_partial",
    "Wm.Log.C175_status_fails",
    "Wm.Log.C175_nothing_fails",
    "Wm.Log.C175_level_fails"
   ],
   "note": "Holds for the fields about the request; those about the answer and the level never show the value, because the record of an answer is never made."
  },
  {
   "property": "C176",
   "status": "partial",
   "theorems": [
    "Wm.Config.C176_toml_partial",
    "Wm.Config.C176_yaml_fails",
    "Wm.Config.C176_negative_fails"
   ],
   "note": "Holds for TOML numbers without a minus; YAML numbers are rejected, negative ones mean one second."
  },
  {
   "property": "C177",
   "status": "proved",
   "theorems": [
    "Wm.World.C177_fair",
    "Wm.World.C177_served",
    "Wm.World.C177_arrived"
   ],
   "note": "Reachability: a schedule connecting the visitor exists in every reachable state of a working tunnel. That schedulers choose it is not claimed."
  },
  {
   "property": "C178",
   "status": "partial",
   "theorems": [
    "Wm.Socks.Assoc.C178_told_partial",
    "Wm.Socks.Assoc.C178_v6_fails"
   ],
   "note": "Holds for IPv4; with an IPv6 address configured the address told is not the socket's."
  },
  {
   "property": "C179",
   "status": "partial",
   "theorems": [
    "Wm.Socks.Assoc.C179_sent_partial",
    "Wm.Socks.Assoc.C179_v6_fails"
   ],
   "note": "A datagram for an IPv6 address ends the association; that a socket of IPv4 cannot send to IPv6 is a hypothesis about the system."
  },
  {
   "property": "C180",
   "status": "partial",
   "theorems": [
    "Wm.World.C180_down",
    "Wm.World.C180_up_partial"
   ],
   "note": "From the service to the visitor proved for all fair schedules. From the visitor to the service: unless the client drops a message of the stream, and for streams whose open request was sent before their data; C104_slow_service_fails and C104_overtaken_fails show that both exceptions occur."
  },
  {
   "property": "C181",
   "status": "partial",
   "theorems": [
    "Wm.Contact.C181_contact_partial",
    "Wm.Contact.C181_contact_fails",
    "Wm.Redial.C181_timely",
    "Wm.Redial.C181_connects",
    "Wm.Redial.C181_introduces",
    "Wm.Redial.C181_loses_partial",
    "Wm.Redial.C181_crash_fails",
    "Wm.Redial.C181_stuck_fails"
   ],
   "note": "Proved for connections on which the server behaves (whole messages, no token, requests only for services that are offered). A token or an undecodable message ends the task that reconnects; an open request for a service not offered, while the queue of outgoing messages is full, blocks it forever."
  },
  {
   "property": "C182",
   "status": "partial",
   "theorems": [
    "Wm.Pass.C182_same_partial",
    "Wm.Pass.C182_rules_fails",
    "Wm.Pass.C182_host_fails"
   ],
   "note": "Line, body and all headers but Host are the client's in every run. The rules for requests are never applied by the reverse proxy; Host is replaced by the server's address on new connections only."
  },
  {
   "property": "C183",
   "status": "proved",
   "theorems": [
    "Wm.Pass.C183_rules",
    "Wm.Pass.C183_served"
   ],
   "note": "In terms of the rewriting whose meaning is stated by C36. Proxy-Authorization is removed where it is checked. Answers the proxy makes itself (407, errors) carry no rules."
  },
  {
   "property": "C184",
   "status": "partial",
   "theorems": [
    "Wm.Turns.C184_order",
    "Wm.Turns.C184_one_partial",
    "Wm.Turns.C184_many_partial",
    "Wm.Turns.C184_busy_fails",
    "Wm.Turns.C184_fault_fails"
   ],
   "note": "Order and no loss in every run; accepted in every endless schedule in which the listener gets its turn and no listener before it in its group is busy at that turn. Listeners behind a busy one of their group starve; an error of accept silences a listener until another one accepts."
  },
  {
   "property": "C185",
   "status": "proved",
   "theorems": [
    "Wm.Config.C28_sound"
   ],
   "note": "The part of C28 that holds without exception; C28 is about the rest."
  },
  {
   "property": "C186",
   "status": "proved",
   "theorems": [
    "Wm.Helper.C36_others_unchanged",
    "Wm.Helper.C36_other_side",
    "Wm.Helper.C36_effects"
   ],
   "note": "The part of C36 that holds without exception; C36 is about the rest."
  },
  {
   "property": "C187",
   "status": "proved",
   "theorems": [
    "Wm.Limit.C38_exact",
    "Wm.Limit.C38_room"
   ],
   "note": "The part of C38 that holds without exception; C38 is about the rest."
  },
  {
   "property": "C188",
   "status": "proved",
   "theorems": [
    "Wm.Health.C42_connect"
   ],
   "note": "The part of C42 that holds without exception; C42 is about the rest."
  },
  {
   "property": "C189",
   "status": "proved",
   "theorems": [
    "Wm.Reverse.C45_server",
    "Wm.Reverse.C45_location",
    "Wm.Reverse.C45_handled"
   ],
   "note": "The part of C45 that holds without exception; C45 is about the rest."
  },
  {
   "property": "C190",
   "status": "proved",
   "theorems": [
    "Wm.Reverse.C46_handler_guarded",
    "Wm.Reverse.C46_limit_refuses",
    "Wm.Reverse.C46_turned_away"
   ],
   "note": "The part of C46 that holds without exception; C46 is about the rest."
  },
  {
   "property": "C191",
   "status": "proved",
   "theorems": [
    "Wm.Socks.C52_credentials_enough",
    "Wm.Socks.C52_refused",
    "Wm.Socks.C52_no_credentials",
    "Wm.Socks.C52_unreachable"
   ],
   "note": "The part of C52 that holds without exception; C52 is about the rest."
  },
  {
   "property": "C192",
   "status": "proved",
   "theorems": [
    "Wm.HttpProxy.C54_socks",
    "Wm.HttpProxy.C54_http",
    "Wm.HttpProxy.C54_bytes"
   ],
   "note": "The part of C54 that holds without exception; C54 is about the rest."
  },
  {
   "property": "C193",
   "status": "proved",
   "theorems": [
    "Wm.Udp.C55_isolated",
    "Wm.Udp.C55_replies",
    "Wm.Udp.C55_replies_kept",
    "Wm.Udp.C55_kept",
    "Wm.Udp.C55_no_standstill"
   ],
   "note": "The part of C55 that holds without exception; C55 is about the rest."
  },
  {
   "property": "C194",
   "status": "proved",
   "theorems": [
    "Wm.Listen.C107_listeners",
    "Wm.Listen.C107_kind_exact",
    "Wm.Listen.C107_starts"
   ],
   "note": "The part of C107 that holds without exception; C107 is about the rest."
  },
  {
   "property": "C195",
   "status": "proved",
   "theorems": [
    "Wm.Listen.C113_accept_exact",
    "Wm.Listen.C113_connect_exact"
   ],
   "note": "The part of C113 that holds without exception; C113 is about the rest."
  },
  {
   "property": "C196",
   "status": "proved",
   "theorems": [
    "Wm.Target.C117_only",
    "Wm.Target.C117_host",
    "Wm.Health.C43_configured"
   ],
   "note": "The part of C117 that holds without exception; C117 is about the rest."
  },
  {
   "property": "C197",
   "status": "proved",
   "theorems": [
    "Wm.Answer.C138_client",
    "Wm.Answer.C138_upstream"
   ],
   "note": "The part of C138 that holds without exception; C138 is about the rest."
  },
  {
   "property": "C198",
   "status": "proved",
   "theorems": [
    "Wm.Answer.C139_answered",
    "Wm.Answer.C139_nothing"
   ],
   "note": "The part of C139 that holds without exception; C139 is about the rest."
  },
  {
   "property": "C199",
   "status": "proved",
   "theorems": [
    "Wm.Builder.C140_settings",
    "Wm.Builder.C140_mappings",
    "Wm.Builder.C140_protocols"
   ],
   "note": "The part of C140 that holds without exception; C140 is about the rest."
  },
  {
   "property": "C200",
   "status": "proved",
   "theorems": [
    "Wm.Rewrite.C136_plain",
    "Wm.Rewrite.C136_rewrite",
    "Wm.Rewrite.C136_kept",
    "Wm.Rewrite.C136_bounded"
   ],
   "note": "The part of C136 that holds without exception; C136 is about the rest."
  },
  {
   "property": "C201",
   "status": "proved",
   "theorems": [
    "Wm.World.C104_down",
    "Wm.World.C104_down_all",
    "Wm.World.C180_down"
   ],
   "note": "The part of C104 and C180 that holds without exception; C104 and C180 is about the rest."
  },
  {
   "property": "C202",
   "status": "proved",
   "theorems": [
    "Wm.World.C116_down_only",
    "Wm.World.C116_up_only",
    "Wm.World.C116_down"
   ],
   "note": "The part of C116 that holds without exception; C116 is about the rest."
  },
  {
   "property": "C203",
   "status": "proved",
   "theorems": [
    "Wm.Virtual.C22_reads_in_order",
    "Wm.Virtual.C22_all_read",
    "Wm.Virtual.C22_end_told"
   ],
   "note": "The part of C22 that holds without exception; C22 is about the rest."
  },
  {
   "property": "C204",
   "status": "proved",
   "theorems": [
    "Wm.Turns.C184_order",
    "Wm.Core.C115_none_lost",
    "Wm.Core.C115_stop"
   ],
   "note": "The part of C184 and C115 that holds without exception; C184 and C115 is about the rest."
  },
  {
   "property": "C205",
   "status": "proved",
   "theorems": [
    "Wm.Redial.C181_timely",
    "Wm.Redial.C181_connects",
    "Wm.Redial.C181_introduces"
   ],
   "note": "The part of C181 that holds without exception; C181 is about the rest."
  },
  {
   "property": "C206",
   "status": "proved",
   "theorems": [
    "Wm.Tunnel.C14_client_looks_at_everything",
    "Wm.Tunnel.C153_client"
   ],
   "note": "The part of C14 and C153 that holds without exception; C14 and C153 is about the rest."
  },
  {
   "property": "C207",
   "status": "proved",
   "theorems": [
    "Wm.Access.C129_only",
    "Wm.Access.C130_opens",
    "Wm.Access.C130_record"
   ],
   "note": "The part of C129 and C130 that holds without exception; C129 and C130 is about the rest."
  },
  {
   "property": "C208",
   "status": "proved",
   "theorems": [
    "Wm.Pass.C208_answer"
   ],
   "note": "For every run of the exchange of one client connection with its upstream connections."
  },
  {
   "property": "C209",
   "status": "partial",
   "theorems": [
    "Wm.PidFile.C209_stop_partial",
    "Wm.PidFile.C209_again_fails",
    "Wm.PidFile.C209_crash_fails",
    "Wm.PidFile.C209_two_fails"
   ],
   "note": "Holds as long as all processes of this program return properly and nobody used stop before. After stop or a crash the pid file stays, and the next stop hits whatever process has got the number. With two processes, the end of the later one makes the earlier one unreachable."
  },
  {
   "property": "C210",
   "status": "partial",
   "theorems": [
    "Wm.Tunnel.C210_server_partial",
    "Wm.Tunnel.C210_server_write_fails",
    "Wm.Tunnel.C210_client_unnoticed_fails"
   ],
   "note": "The only causes of a crash of the server's end are a failing write and the messages that crash the decoder (C09). A failing write always crashes it, and is never noticed by the client's end."
  },
  {
   "property": "C211",
   "status": "partial",
   "theorems": [
    "Wm.Reverse.C211_unlimited_partial",
    "Wm.Reverse.C211_counted_fails",
    "Wm.Reverse.C211_shut_out_fails"
   ],
   "note": "The limit is asked before the access lists, so every refused client is counted and takes a place of the table; with as many of them as there are places everybody else is refused."
  },
  {
   "property": "C212",
   "status": "proved",
   "theorems": [
    "Wm.Reverse.C212_kept"
   ],
   "note": "For every sequence of requests on a connection and every behaviour of the upstream servers."
  },
  {
   "property": "C213",
   "status": "partial",
   "theorems": [
    "Wm.Failover.C213_lost_partial",
    "Wm.Failover.C213_retry_fails",
    "Wm.Failover.C213_hang_fails",
    "Wm.Failover.C213_default_fails"
   ],
   "note": "With the settings of the program's own records at most k + 2 requests a minute are lost for each server that refuses, with k requests under way at a time. With the default settings of a configured server half of the draws are lost for 30 seconds; a server that never answers is never left out; a request is not tried again at another server."
  },
  {
   "property": "C214",
   "status": "partial",
   "theorems": [
    "Wm.Health.C214_exact_partial",
    "Wm.Health.C214_others_fails"
   ],
   "note": "Exact condition under which a target that answers is connected. Three failed attempts in a row, made for anybody, shut it out for everybody for a minute, without any further attempt."
  },
  {
   "property": "C215",
   "status": "partial",
   "theorems": [
    "Wm.Health.C215_only_partial",
    "Wm.Health.C215_kept_fails"
   ],
   "note": "A record is kept for exactly the addresses ever connected to, for ever."
  },
  {
   "property": "C216",
   "status": "partial",
   "theorems": [
    "Wm.Udp.C216_channels_partial",
    "Wm.Udp.C216_in_fails",
    "Wm.Udp.C216_out_fails"
   ],
   "note": "Both kinds of channel never hold more than ten. The lists before and behind them have no bound: everything that arrives while sockets are blocked is kept."
  },
  {
   "property": "C217",
   "status": "proved",
   "theorems": [
    "Wm.Files.C217_if_range",
    "Wm.Files.C217_whole"
   ],
   "note": "Two versions of a file with the same length and second of last change have the same ETag and date; the condition cannot tell them apart."
  },
  {
   "property": "C218",
   "status": "proved",
   "theorems": [
    "Wm.Prot.C218_sent",
    "Wm.Prot.C218_read"
   ],
   "note": "Within the limits of C01; what happens outside them is in C04, C07 and C09."
  },
  {
   "property": "C219",
   "status": "partial",
   "theorems": [
    "Wm.Chain.C219_up_partial",
    "Wm.Chain.C127_overtaken_fails"
   ],
   "note": "Proved while none of the user's data was sent before its open request; that happens, and the data is lost (the _fails theorem)."
  },
  {
   "property": "C220",
   "status": "proved",
   "theorems": [
    "Wm.Chain.C220_waiting",
    "Wm.Chain.C220_announced"
   ],
   "note": "Over the composed tunnel of C127."
  },
  {
   "property": "C221",
   "status": "partial",
   "theorems": [
    "Wm.Chain.C221_down_partial",
    "Wm.Chain.C127_repeated_fails",
    "Wm.Chain.C127_slow_user_fails"
   ],
   "note": "Proved while no write of the proxy had to be repeated and nothing of the stream met a full channel at the client; both happen (the _fails theorems)."
  }
 ]
}