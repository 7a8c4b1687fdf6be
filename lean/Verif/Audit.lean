import Verif.Props.Codec
import Verif.Props.Reader
import Verif.Props.Ids
import Verif.Props.Tunnel
import Verif.Props.Relay
import Verif.Props.Virtual
import Verif.Props.ConfigNum
import Verif.Props.ConfigText
import Verif.Props.Helper
import Verif.Props.Limit
import Verif.Props.Health
import Verif.Props.Upstream
import Verif.Props.Reverse
import Verif.Props.Inherit
import Verif.Props.Files
import Verif.Props.Socks
import Verif.Props.HttpProxy
import Verif.Props.Udp
import Verif.Props.Control
import Verif.Props.Log
import Verif.Props.HealthList
import Verif.Props.TunnelProgress
import Verif.Props.Select
import Verif.Props.Life
import Verif.Props.ReverseMore
import Verif.Props.FilesMore
import Verif.Props.UdpMore
import Verif.Props.ControlMore
import Verif.Props.LogMore
import Verif.Props.HealthMore
import Verif.Props.World
import Verif.Props.TransHttp
import Verif.Props.Listen
import Verif.Props.Core
import Verif.Props.WorldClose
import Verif.Props.Target
import Verif.Props.Cli
import Verif.Props.Chain
import Verif.Props.Texts
import Verif.Props.Access
import Verif.Props.Rewrite
import Verif.Props.Answer
import Verif.Props.Builder
import Verif.Props.Memory
import Verif.Props.Orphan
import Verif.Props.Start
import Verif.Props.Listing
import Verif.Props.Reload
import Verif.Props.Desk
import Verif.Props.Ring
import Verif.Props.Slow
import Verif.Props.RuleText
import Verif.Props.WorldDrain
import Verif.Props.WorldDrainUp
import Verif.Props.Assoc
import Verif.Props.FileLines
import Verif.Props.Robots
import Verif.Props.WorldEnd
import Verif.Props.WorldEndUp
import Verif.Props.TryBody
import Verif.Props.LogErrors
import Verif.Props.LimitOver
import Verif.Props.LogFields
import Verif.Props.Scalars
import Verif.Props.VirtualEnd
import Verif.Props.WorldOpen
import Verif.Props.AssocAddr
import Verif.Props.WorldFair
import Verif.Props.WorldFairUp
import Verif.Props.FileRange
import Verif.Props.WorldFairOpen
import Verif.Props.Redial
import Verif.Props.Pass
import Verif.Props.WorldFairEnd
import Verif.Props.LimitZones
import Verif.Props.Turns
import Verif.Props.PidFile
import Verif.Props.RedialLife
import Verif.Props.Crash
import Verif.Props.Refused
import Verif.Props.KeptBound
import Verif.Props.Failover
import Verif.Props.Contact
import Verif.Props.UdpBound
import Verif.Props.IfRange
import Verif.Props.TunnelFails
import Verif.Props.SameName
import Verif.Props.Layout
import Verif.Props.ChainDrain
import Verif.Props.ChainWait
import Verif.Props.ChainDrainDown
import Verif.Props.Loss
import Verif.Props.Repeat
import Lean.Util.CollectAxioms
import Lean.Elab.Command
/-! The axioms of every theorem. The first command fails the build if any theorem of this project depends on an axiom other than
    the three standard ones of Lean; the others print the axioms of the theorems named in MANIFEST.json. -/
open Lean in
run_cmd do
  let env ← getEnv
  let mut n : Nat := 0
  let mut bad : Array Name := #[]
  for (c, i) in env.constants.map₁.toList do
    if (`Wm).isPrefixOf c then
      if let .axiomInfo _ := i then bad := bad.push c
      if let .thmInfo _ := i then
        n := n + 1
        for a in ← collectAxioms c do
          unless a == ``propext || a == ``Classical.choice || a == ``Quot.sound do
            bad := bad.push c
  unless bad.isEmpty do throwError m!"axioms beyond the standard ones: {toString bad}"
  logInfo m!"{toString n} theorems (with those made by Lean itself) depend on no other axioms"

#print axioms Wm.Prot.C01_frame_roundtrip
#print axioms Wm.Prot.frame_roundtrip_any_id
#print axioms Wm.Prot.C02_segmentation_independent
#print axioms Wm.Prot.C03_consumes_whole_frames
#print axioms Wm.Prot.C04_id_preserved_iff
#print axioms Wm.Prot.C04_ids_confused_iff
#print axioms Wm.Prot.C07_no_panic
#print axioms Wm.Prot.C07_encode_fails_iff
#print axioms Wm.Prot.C07_failed_encode_atomic_partial
#print axioms Wm.Prot.C07_close_fails
#print axioms Wm.Prot.C07_token_fails
#print axioms Wm.Prot.C08_content_is_local_partial
#print axioms Wm.Prot.C08_data_is_local
#print axioms Wm.Prot.C08_leak_fails
#print axioms Wm.Prot.C09_panic_iff_partial
#print axioms Wm.Prot.C09_no_panic_fails
#print axioms Wm.Tunnel.C05_distinct
#print axioms Wm.Tunnel.C05_disjoint
#print axioms Wm.Tunnel.C05_bound_sharp
#print axioms Wm.Tunnel.C06_distinct_on_wire_partial
#print axioms Wm.Tunnel.C06_distinct_on_wire_fails
#print axioms Wm.Tunnel.C06_reserved_id_fails
#print axioms Wm.Tunnel.C10_nothing_before_login
#print axioms Wm.Tunnel.C10_no_token_no_service
#print axioms Wm.Tunnel.C11_refused
#print axioms Wm.Tunnel.C11_ends_when_flushed
#print axioms Wm.Tunnel.C12_server_routing
#print axioms Wm.Tunnel.C12_client_routing
#print axioms Wm.Tunnel.C12_server_own_id
#print axioms Wm.Tunnel.C12_client_own_id
#print axioms Wm.Tunnel.C13_server_looks_at_everything
#print axioms Wm.Tunnel.C13_server_lossless
#print axioms Wm.Tunnel.C14_client_looks_at_everything
#print axioms Wm.Tunnel.C14_client_lossless_partial
#print axioms Wm.Tunnel.C14_client_lossless_fails
#print axioms Wm.Tunnel.C15_server_order
#print axioms Wm.Tunnel.C15_client_order
#print axioms Wm.Tunnel.C15_server_progress
#print axioms Wm.Tunnel.C15_client_progress
#print axioms Wm.Tunnel.C16_introduction_first
#print axioms Wm.Tunnel.C17_open_answered_partial
#print axioms Wm.Tunnel.C17_no_address_fails
#print axioms Wm.Tunnel.C17_stuck_fails
#print axioms Wm.Tunnel.C18_server_end_closes_all_partial
#print axioms Wm.Tunnel.C18_client_end_closes_all_partial
#print axioms Wm.Tunnel.C18_loss_noticed
#print axioms Wm.Tunnel.C18_server_close_handed_over
#print axioms Wm.Tunnel.C18_client_close_handed_over
#print axioms Wm.Tunnel.C18_blocked_fails
#print axioms Wm.Relay.C19_bytes_preserved
#print axioms Wm.Relay.C20_one_close
#print axioms Wm.Relay.C20_close_is_sent_and_last
#print axioms Wm.Relay.C20_ways_to_end
#print axioms Wm.Relay.C21_sent_when_tunnel_keeps_up_partial
#print axioms Wm.Relay.C21_written_when_local_keeps_up_partial
#print axioms Wm.Relay.C21_half_close_loses_input_fails
#print axioms Wm.Relay.C21_close_loses_output_fails
#print axioms Wm.Virtual.C22_end_told
#print axioms Wm.Virtual.C22_all_read
#print axioms Wm.Virtual.C22_rest_lost_fails
#print axioms Wm.Virtual.C22_reads_in_order
#print axioms Wm.Virtual.C22_eof_after_data_partial
#print axioms Wm.Virtual.C22_eof_before_data_fails
#print axioms Wm.Virtual.C23_writes_once_partial
#print axioms Wm.Virtual.C23_retry_duplicates_fails
#print axioms Wm.Virtual.C60_dead_tunnel_write_fails
#print axioms Wm.Config.C24_size_roundtrip
#print axioms Wm.Config.C25_plain_number
#print axioms Wm.Config.C25_unit_partial
#print axioms Wm.Config.C25_overflow_fails
#print axioms Wm.Config.C26_print_fails
#print axioms Wm.Config.C26_duration_roundtrip_partial
#print axioms Wm.Config.C26_duration_roundtrip_fails
#print axioms Wm.Config.C27_meaning_partial
#print axioms Wm.Config.C27_millis_fails
#print axioms Wm.Config.C27_too_big_fails
#print axioms Wm.Config.C28_membership_partial
#print axioms Wm.Config.C28_sound
#print axioms Wm.Config.C28_length_zero_fails
#print axioms Wm.Config.C28_ipv6_fails
#print axioms Wm.Config.C29_list_roundtrip
#print axioms Wm.Config.C29_too_long_rejected
#print axioms Wm.Config.C30_rule_roundtrip_partial
#print axioms Wm.Config.C30_default_fails
#print axioms Wm.Config.C30_proxy_del_fails
#print axioms Wm.Config.C30_blank_fails
#print axioms Wm.Config.C30_blank_text_fails
#print axioms Wm.Config.C31_list
#print axioms Wm.Config.C31_range_partial
#print axioms Wm.Config.C31_range_end_fails
#print axioms Wm.Config.C31_no_own_address_fails
#print axioms Wm.Config.C31_dashes_fails
#print axioms Wm.Config.C32_roundtrip_partial
#print axioms Wm.Config.C32_parse_meaning
#print axioms Wm.Config.C32_empty_fails
#print axioms Wm.Config.C35_split_words
#print axioms Wm.Config.C61_rate_extra_fails
#print axioms Wm.Config.C61_size_rejects_partial
#print axioms Wm.Config.C61_duration_never_rejected_fails
#print axioms Wm.Config.C61_size_suffix_fails
#print axioms Wm.Config.C62_rate_meaning
#print axioms Wm.Config.C63_independent_partial
#print axioms Wm.Config.C63_udp_fails
#print axioms Wm.Helper.C33_wildcards
#print axioms Wm.Helper.C34_prefix_fails
#print axioms Wm.Helper.C34_exact_partial
#print axioms Wm.Helper.C36_others_unchanged
#print axioms Wm.Helper.C36_other_side
#print axioms Wm.Helper.C36_effects
#print axioms Wm.Helper.C36_replace_fails
#print axioms Wm.Helper.C37_own_file_partial
#print axioms Wm.Helper.C37_create_remove
#print axioms Wm.Helper.C37_race_fails
#print axioms Wm.Limit.C38_exact
#print axioms Wm.Limit.C38_room
#print axioms Wm.Limit.C38_window_partial
#print axioms Wm.Limit.C38_full_fails
#print axioms Wm.Limit.C38_zero_fails
#print axioms Wm.Limit.C39_independent
#print axioms Wm.Limit.C40_full
#print axioms Wm.Limit.C40_forgets
#print axioms Wm.Limit.C40_bounded
#print axioms Wm.Limit.C40_full_refused
#print axioms Wm.Health.C41_down
#print axioms Wm.Health.C41_active_fails
#print axioms Wm.Health.C41_first_fails
#print axioms Wm.Health.C42_connect
#print axioms Wm.Health.C42_timeout_fails
#print axioms Wm.Health.C43_wrap_fails
#print axioms Wm.Health.C43_configured
#print axioms Wm.Health.C43_usable_partial
#print axioms Wm.Health.C43_default_fails
#print axioms Wm.Health.C43_zero_fails
#print axioms Wm.Health.C43_overflow_fails
#print axioms Wm.Health.C44_wrap_fails
#print axioms Wm.Health.C44_share_partial
#print axioms Wm.Health.C44_first_fails
#print axioms Wm.Health.C44_last_fails
#print axioms Wm.Limit.C64_history_partial
#print axioms Wm.Limit.C64_reload_fails
#print axioms Wm.Limit.C64_zones_partial
#print axioms Wm.Reverse.C45_handled
#print axioms Wm.Reverse.C45_server
#print axioms Wm.Reverse.C45_location
#print axioms Wm.Reverse.C45_remote_fails
#print axioms Wm.Reverse.C46_turned_away
#print axioms Wm.Reverse.C46_limit_refuses
#print axioms Wm.Reverse.C46_handler_guarded
#print axioms Wm.Reverse.C46_answer
#print axioms Wm.Reverse.C46_no_address_fails
#print axioms Wm.Reverse.C46_try_status_fails
#print axioms Wm.Reverse.C46_limit_status_fails
#print axioms Wm.Reverse.C47_terminates
#print axioms Wm.Reverse.C47_once
#print axioms Wm.Reverse.C48_inner_wins_partial
#print axioms Wm.Reverse.C48_error_log
#print axioms Wm.Reverse.C48_match_names
#print axioms Wm.Reverse.C48_lists
#print axioms Wm.Reverse.C48_root_server
#print axioms Wm.Reverse.C48_not_passed_fails
#print axioms Wm.Reverse.C48_log_format_fails
#print axioms Wm.Reverse.C48_log_names_fails
#print axioms Wm.Reverse.C48_root_fails
#print axioms Wm.Reverse.C65_once_partial
#print axioms Wm.Reverse.C65_twice_fails
#print axioms Wm.Reverse.C66_first_partial
#print axioms Wm.Reverse.C66_kept_fails
#print axioms Wm.Reverse.C67_chosen_partial
#print axioms Wm.Reverse.C67_only_matching_partial
#print axioms Wm.Reverse.C67_websocket_fails
#print axioms Wm.Reverse.C68_kept_partial
#print axioms Wm.Reverse.C68_closed_fails
#print axioms Wm.Reverse.C68_recovers_partial
#print axioms Wm.Reverse.C69_own_connection_partial
#print axioms Wm.Reverse.C69_same_name_fails
#print axioms Wm.Files.C49_inside_partial
#print axioms Wm.Files.C49_check_fails
#print axioms Wm.Files.C49_traversal_fails
#print axioms Wm.Files.C49_prefix_fails
#print axioms Wm.Files.C49_encoded_fails
#print axioms Wm.Files.C50_named_partial
#print axioms Wm.Files.C50_named_fails
#print axioms Wm.Files.C50_answer
#print axioms Wm.Files.C50_other_unit
#print axioms Wm.Files.C50_answer_partial
#print axioms Wm.Files.C50_whole
#print axioms Wm.Files.C50_closed_partial
#print axioms Wm.Files.C50_ordered
#print axioms Wm.Files.C50_open_fails
#print axioms Wm.Files.C50_suffix_fails
#print axioms Wm.Files.C50_beyond_fails
#print axioms Wm.Files.C70_hidden_partial
#print axioms Wm.Files.C70_index_fails
#print axioms Wm.Files.C70_prefix_fails
#print axioms Wm.Files.C71_epoch_fails
#print axioms Wm.Files.C71_not_modified_partial
#print axioms Wm.Files.C71_modified
#print axioms Wm.Files.C71_range_fails
#print axioms Wm.Files.C72_page_fails
#print axioms Wm.Files.C72_head_partial
#print axioms Wm.Files.C72_if_range_fails
#print axioms Wm.Files.C73_etag
#print axioms Wm.Files.C74_listing_partial
#print axioms Wm.Files.C74_rate_fails
#print axioms Wm.Files.C75_mime_partial
#print axioms Wm.Files.C75_mime_fails
#print axioms Wm.Files.C76_no_panic_partial
#print axioms Wm.Files.C76_panic_fails
#print axioms Wm.Socks.C51_layout
#print axioms Wm.Socks.C51_address_roundtrip
#print axioms Wm.Socks.C51_address_only
#print axioms Wm.Socks.C52_refused
#print axioms Wm.Socks.C52_unreachable
#print axioms Wm.Socks.C52_credentials_needed_partial
#print axioms Wm.Socks.C52_credentials_enough
#print axioms Wm.Socks.C52_no_credentials
#print axioms Wm.Socks.C52_method_offered_partial
#print axioms Wm.Socks.C52_method_not_offered_fails
#print axioms Wm.HttpProxy.C53_credentials_needed_partial
#print axioms Wm.HttpProxy.C53_credentials_enough_partial
#print axioms Wm.HttpProxy.C53_asked_partial
#print axioms Wm.HttpProxy.C53_connects_first_fails
#print axioms Wm.HttpProxy.C53_colon_fails
#print axioms Wm.HttpProxy.C54_bytes
#print axioms Wm.HttpProxy.C54_socks
#print axioms Wm.HttpProxy.C54_http
#print axioms Wm.HttpProxy.C54_https_only_fails
#print axioms Wm.HttpProxy.C54_udp_flag_fails
#print axioms Wm.Socks.C77_separate_data_partial
#print axioms Wm.Socks.C77_early_data_fails
#print axioms Wm.Socks.C78_layout
#print axioms Wm.Socks.C78_udp_forward
#print axioms Wm.Socks.C78_udp_reply
#print axioms Wm.Socks.Assoc.C79_fragment_fails
#print axioms Wm.Socks.C79_good_datagrams_partial
#print axioms Wm.Socks.C79_bad_datagram_fails
#print axioms Wm.Socks.C80_handshake_exact_partial
#print axioms Wm.Socks.C80_handshake_partial
#print axioms Wm.Socks.C80_early_close_fails
#print axioms Wm.Socks.C80_short_datagram_fails
#print axioms Wm.HttpProxy.C81_header_fails
#print axioms Wm.HttpProxy.C82_closed_partial
#print axioms Wm.HttpProxy.C82_first_fails
#print axioms Wm.HttpProxy.C82_reached
#print axioms Wm.HttpProxy.C82_target_partial
#print axioms Wm.HttpProxy.C82_target_fails
#print axioms Wm.HttpProxy.C83_first_partial
#print axioms Wm.HttpProxy.C83_credentials_leak_fails
#print axioms Wm.HttpProxy.C84_text_partial
#print axioms Wm.HttpProxy.C84_roundtrip_partial
#print axioms Wm.HttpProxy.C84_misspelt_fails
#print axioms Wm.HttpProxy.C84_number_fails
#print axioms Wm.Udp.C55_replies_lost
#print axioms Wm.Udp.C55_kept
#print axioms Wm.Udp.C55_no_standstill
#print axioms Wm.Udp.C55_isolated
#print axioms Wm.Udp.C55_replies
#print axioms Wm.Udp.C55_replies_kept
#print axioms Wm.Udp.C55_order_partial
#print axioms Wm.Udp.C55_order_fails
#print axioms Wm.Udp.C85_stranger_fails
#print axioms Wm.Udp.C85_partial
#print axioms Wm.Udp.C85_notice_fails
#print axioms Wm.Udp.C86_reply_partial
#print axioms Wm.Udp.C86_whole_partial
#print axioms Wm.Udp.C86_cut_fails
#print axioms Wm.Udp.C87_blackhole_fails
#print axioms Wm.Udp.C88_entries_fails
#print axioms Wm.Control.C56_exit_partial
#print axioms Wm.Control.C56_abort_fails
#print axioms Wm.Control.C56_reload_partial
#print axioms Wm.Control.C56_failed_start_fails
#print axioms Wm.Control.C89_exit_partial
#print axioms Wm.Control.C89_panic_fails
#print axioms Wm.Control.C89_port_fails
#print axioms Wm.Control.C90_replies_fails
#print axioms Wm.Log.C57_width_partial
#print axioms Wm.Log.C57_length_partial
#print axioms Wm.Log.C57_pattern_partial
#print axioms Wm.Log.C57_width_fails
#print axioms Wm.Log.C58_parse
#print axioms Wm.Log.C58_print
#print axioms Wm.Log.C58_terminates
#print axioms Wm.Log.escape_escaped
#print axioms Wm.HealthList.C59_health_list_partial
#print axioms Wm.HealthList.C59_health_list_no_location_partial
#print axioms Wm.HealthList.C59_location_fails
#print axioms Wm.Log.C91_format_partial
#print axioms Wm.Log.C91_format_fails
#print axioms Wm.Tunnel.C92_server_announces
#print axioms Wm.Tunnel.C92_client_announces
#print axioms Wm.Select.C92_announced_first_partial
#print axioms Wm.Select.C92_data_before_create_fails
#print axioms Wm.Tunnel.C93_server_bounded
#print axioms Wm.Tunnel.C93_client_bounded
#print axioms Wm.Select.C94_written_when_quiet_partial
#print axioms Wm.Select.C94_reading_starves_writing_fails
#print axioms Wm.Redial.C95_history_partial
#print axioms Wm.Tunnel.C95_in_order_at_most_once_partial
#print axioms Wm.Tunnel.C95_stale_message_fails
#print axioms Wm.Reverse.C96_try_list
#print axioms Wm.Files.C97_joined
#print axioms Wm.Files.C97_file
#print axioms Wm.Files.C97_index
#print axioms Wm.Files.C97_directory
#print axioms Wm.Files.C98_encoding_partial
#print axioms Wm.Files.C98_not_asked
#print axioms Wm.Files.C98_refused_encoding_fails
#print axioms Wm.Control.C99_old_ends
#print axioms Wm.Control.C99_new_configuration
#print axioms Wm.Control.C100_stop
#print axioms Wm.Log.C101_pattern
#print axioms Wm.Health.C102_may_check
#print axioms Wm.Health.C102_loop
#print axioms Wm.Health.C102_turn
#print axioms Wm.Health.C103_recorded
#print axioms Wm.World.C104_dropped_fails
#print axioms Wm.World.C104_early_fails
#print axioms Wm.World.C104_up_partial
#print axioms Wm.World.C104_up_exact_partial
#print axioms Wm.World.C104_up_all_partial
#print axioms Wm.World.C104_down
#print axioms Wm.World.C104_down_all
#print axioms Wm.World.C104_overtaken_fails
#print axioms Wm.World.C104_slow_service_fails
#print axioms Wm.World.C105_mapping_chosen
#print axioms Wm.World.C105_mode_partial
#print axioms Wm.World.C105_same_name_fails
#print axioms Wm.TransHttp.C106_first_partial
#print axioms Wm.TransHttp.C106_same_host_partial
#print axioms Wm.TransHttp.C106_service_partial
#print axioms Wm.TransHttp.C106_later_requests_fails
#print axioms Wm.TransHttp.C106_unknown_first_fails
#print axioms Wm.TransHttp.C106_other_service_fails
#print axioms Wm.TransHttp.C106_no_host_fails
#print axioms Wm.Listen.C107_listeners
#print axioms Wm.Listen.C107_kind_exact
#print axioms Wm.Listen.C107_kind_partial
#print axioms Wm.Listen.C107_plain_wins_fails
#print axioms Wm.Listen.C107_starts
#print axioms Wm.Listen.C108_port_partial
#print axioms Wm.Listen.C108_address_partial
#print axioms Wm.Listen.C108_other_address_fails
#print axioms Wm.Listen.C109_same_name_partial
#print axioms Wm.Listen.C109_sni_fails
#print axioms Wm.Listen.C110_single
#print axioms Wm.Listen.C110_shown
#print axioms Wm.Listen.C110_served_partial
#print axioms Wm.Listen.C110_domain_fails
#print axioms Wm.Listen.C111_own_block
#print axioms Wm.Listen.C111_ports_partial
#print axioms Wm.Listen.C111_same_port_fails
#print axioms Wm.Listen.C112_order_partial
#print axioms Wm.Listen.C112_one_at_a_time_fails
#print axioms Wm.Listen.C113_accept_exact
#print axioms Wm.Listen.C113_connect_exact
#print axioms Wm.Listen.C113_encrypted_partial
#print axioms Wm.Listen.C113_map_partial
#print axioms Wm.Listen.C113_clear_fails
#print axioms Wm.Listen.C113_key_fails
#print axioms Wm.Listen.C113_misfit_fails
#print axioms Wm.Listen.C113_root_panics_fails
#print axioms Wm.Listen.C113_no_listener_fails
#print axioms Wm.Core.C114_only_partial
#print axioms Wm.Core.C114_first_partial
#print axioms Wm.Core.C114_first_only_fails
#print axioms Wm.Core.C114_stranger_fails
#print axioms Wm.Core.C114_silent_fails
#print axioms Wm.Core.C115_full_fails
#print axioms Wm.Core.C115_ten_partial
#print axioms Wm.Core.C115_proxy_partial
#print axioms Wm.Core.C115_stop
#print axioms Wm.Core.C115_none_lost
#print axioms Wm.Core.C115_free_partial
#print axioms Wm.Core.C115_other_partial
#print axioms Wm.Core.C115_blocked_fails
#print axioms Wm.Core.C115_silent_client_fails
#print axioms Wm.World.C116_dropped_fails
#print axioms Wm.World.C116_early_fails
#print axioms Wm.World.C116_down
#print axioms Wm.World.C116_down_only
#print axioms Wm.World.C116_up_partial
#print axioms Wm.World.C116_up_only
#print axioms Wm.World.C116_overtaken_fails
#print axioms Wm.World.C116_slow_service_fails
#print axioms Wm.Target.C117_group_partial
#print axioms Wm.Target.C117_only
#print axioms Wm.Target.C117_host
#print axioms Wm.Target.C117_down_fails
#print axioms Wm.Target.C117_empty_fails
#print axioms Wm.Target.C117_no_host_fails
#print axioms Wm.Target.C117_tls_name_fails
#print axioms Wm.Target.C118_group_partial
#print axioms Wm.Target.C118_host
#print axioms Wm.Target.C118_unresolved
#print axioms Wm.Target.C118_port_fails
#print axioms Wm.Target.C118_udp_fails
#print axioms Wm.Target.C118_udp_unnamed_fails
#print axioms Wm.Target.C119_group_partial
#print axioms Wm.Target.C119_dropped_fails
#print axioms Wm.Target.C120_order
#print axioms Wm.Target.C120_no_loss
#print axioms Wm.Target.C120_ends
#print axioms Wm.Cli.C121_options_partial
#print axioms Wm.Cli.C121_run_fails
#print axioms Wm.Cli.C122_said
#print axioms Wm.Cli.C122_complete_partial
#print axioms Wm.Cli.C122_status_fails
#print axioms Wm.Cli.C122_unchecked_fails
#print axioms Wm.Cli.C122_extension_fails
#print axioms Wm.Cli.C123_closed_fails
#print axioms Wm.Cli.C123_reverse_partial
#print axioms Wm.Cli.C124_mode_partial
#print axioms Wm.Cli.C124_refused
#print axioms Wm.Cli.C124_case_fails
#print axioms Wm.Cli.C125_file_partial
#print axioms Wm.Cli.C125_ignored_fails
#print axioms Wm.Cli.C126_rounds
#print axioms Wm.Cli.C126_restart_partial
#print axioms Wm.Cli.C126_error_fails
#print axioms Wm.Cli.C126_stop_fails
#print axioms Wm.Chain.C127_waited_fails
#print axioms Wm.Chain.C127_dropped_fails
#print axioms Wm.Chain.C127_early_fails
#print axioms Wm.Chain.C127_up_partial
#print axioms Wm.Chain.C127_up_exact_partial
#print axioms Wm.Chain.C127_up_all_partial
#print axioms Wm.Chain.C127_down_partial
#print axioms Wm.Chain.C127_down_exact_partial
#print axioms Wm.Chain.C127_down_all_partial
#print axioms Wm.Chain.C127_overtaken_fails
#print axioms Wm.Chain.C127_slow_user_fails
#print axioms Wm.Chain.C127_repeated_fails
#print axioms Wm.Chain.C128_early_fails
#print axioms Wm.Chain.C128_up_partial
#print axioms Wm.Chain.C128_up_only_partial
#print axioms Wm.Chain.C128_never_told_fails
#print axioms Wm.Chain.C128_left_open_fails
#print axioms Wm.Chain.C128_overtaken_fails
#print axioms Wm.Texts.C131_meaning
#print axioms Wm.Texts.C131_unknown
#print axioms Wm.Texts.C131_roundtrip
#print axioms Wm.Texts.C131_blanks_fails
#print axioms Wm.Texts.C132_meaning
#print axioms Wm.Texts.C132_print_partial
#print axioms Wm.Texts.C132_print_fails
#print axioms Wm.Texts.C132_blank_fails
#print axioms Wm.Texts.C133_meaning
#print axioms Wm.Texts.C133_ignored_fails
#print axioms Wm.Texts.C133_print_fails
#print axioms Wm.Texts.C134_meaning
#print axioms Wm.Texts.C134_print_partial
#print axioms Wm.Texts.C134_error
#print axioms Wm.Texts.C134_format_fails
#print axioms Wm.Texts.C134_level_fails
#print axioms Wm.Texts.C135_unknown
#print axioms Wm.Texts.C135_meaning
#print axioms Wm.Texts.C135_print_partial
#print axioms Wm.Texts.C135_print_fails
#print axioms Wm.Access.C129_one_line_partial
#print axioms Wm.Access.C129_only
#print axioms Wm.Access.C129_kept_fails
#print axioms Wm.Access.C129_refused_fails
#print axioms Wm.Access.C129_answer_fails
#print axioms Wm.Access.C129_many_fails
#print axioms Wm.Access.C130_main_partial
#print axioms Wm.Access.C130_main_fails
#print axioms Wm.Access.C130_opens
#print axioms Wm.Access.C130_record
#print axioms Wm.Access.C130_file_partial
#print axioms Wm.Access.C130_command_line_partial
#print axioms Wm.Access.C130_other_file_fails
#print axioms Wm.Access.C130_unopened_fails
#print axioms Wm.Access.C130_level_fails
#print axioms Wm.Access.C130_unknown_fails
#print axioms Wm.Access.C130_format_fails
#print axioms Wm.Access.C130_default_levels_fails
#print axioms Wm.Access.C130_command_line_fails
#print axioms Wm.Rewrite.C136_plain
#print axioms Wm.Rewrite.C136_rewrite
#print axioms Wm.Rewrite.C136_kept
#print axioms Wm.Rewrite.C136_bounded
#print axioms Wm.Rewrite.C136_two_words_fails
#print axioms Wm.Rewrite.C136_quoted_fails
#print axioms Wm.Rewrite.C136_invalid_fails
#print axioms Wm.Rewrite.C137_memory
#print axioms Wm.Rewrite.C137_static_partial
#print axioms Wm.Rewrite.C137_panic_fails
#print axioms Wm.Answer.C138_client
#print axioms Wm.Answer.C138_upstream
#print axioms Wm.Answer.C138_one_block_partial
#print axioms Wm.Answer.C138_sni_partial
#print axioms Wm.Answer.C138_passed_partial
#print axioms Wm.Answer.C138_first_fails
#print axioms Wm.Answer.C138_idle_fails
#print axioms Wm.Answer.C138_upstream_fails
#print axioms Wm.Answer.C139_answered
#print axioms Wm.Answer.C139_failure_partial
#print axioms Wm.Answer.C139_nothing
#print axioms Wm.Answer.C139_timeout_fails
#print axioms Wm.Builder.C140_settings
#print axioms Wm.Builder.C140_mappings
#print axioms Wm.Builder.C140_protocols
#print axioms Wm.Builder.C140_udp_fails
#print axioms Wm.Builder.C140_missing_fails
#print axioms Wm.Builder.C141_opened_partial
#print axioms Wm.Builder.C141_udp_partial
#print axioms Wm.Builder.C141_first_fails
#print axioms Wm.Builder.C141_udp_v6_fails
#print axioms Wm.Tunnel.C142_server_one_per_id_partial
#print axioms Wm.Tunnel.C142_client_one_per_id_partial
#print axioms Wm.Tunnel.C142_server_fails
#print axioms Wm.Tunnel.C142_client_fails
#print axioms Wm.Tunnel.C142_unbounded_fails
#print axioms Wm.Tunnel.C143_server_input_partial
#print axioms Wm.Tunnel.C143_client_input_partial
#print axioms Wm.Tunnel.C143_refused_fails
#print axioms Wm.Tunnel.C143_server_output_fails
#print axioms Wm.Tunnel.C143_client_output_fails
#print axioms Wm.Select.C144_server_goes_on_partial
#print axioms Wm.Select.C144_server_fails
#print axioms Wm.Select.C144_server_idle_fails
#print axioms Wm.Select.C144_client_fails
#print axioms Wm.Select.C144_client_silent_fails
#print axioms Wm.Listen.C145_proxy_listeners_partial
#print axioms Wm.Listen.C145_https_partial
#print axioms Wm.Listen.C145_sections
#print axioms Wm.Listen.C145_refused
#print axioms Wm.Listen.C145_tunnel_partial
#print axioms Wm.Listen.C145_no_bind_fails
#print axioms Wm.Listen.C145_https_fails
#print axioms Wm.Listen.C145_exit_fails
#print axioms Wm.Listen.C145_same_address_fails
#print axioms Wm.Files.C146_label
#print axioms Wm.Files.C146_page
#print axioms Wm.Files.C147_link_partial
#print axioms Wm.Files.C147_characters_fails
#print axioms Wm.Files.C147_percent_fails
#print axioms Wm.Files.C148_tags_partial
#print axioms Wm.Files.C148_markup_fails
#print axioms Wm.Files.C149_answer
#print axioms Wm.Files.C149_status_partial
#print axioms Wm.Files.C149_page_fails
#print axioms Wm.Control.C150_served_partial
#print axioms Wm.Control.C150_waiting_partial
#print axioms Wm.Control.C150_in_turn
#print axioms Wm.Control.C150_reload_fails
#print axioms Wm.Control.C150_failed_start_fails
#print axioms Wm.Control.C150_exit_fails
#print axioms Wm.Turns.C151_accept_fails
#print axioms Wm.Control.C151_unblocked_partial
#print axioms Wm.Control.C151_in_turn_partial
#print axioms Wm.Control.C151_stop_partial
#print axioms Wm.Control.C151_stop_twice_fails
#print axioms Wm.Control.C152_begins_partial
#print axioms Wm.Control.C152_hanging_fails
#print axioms Wm.Ring.C153_ring_bytes_partial
#print axioms Wm.Tunnel.C153_server_partial
#print axioms Wm.Tunnel.C153_client
#print axioms Wm.Tunnel.C153_waits_for_full
#print axioms Wm.Tunnel.C153_waiting_fails
#print axioms Wm.Ring.C153_ring_fails
#print axioms Wm.Relay.C154_pieces_partial
#print axioms Wm.Relay.C154_reads_on_fails
#print axioms Wm.Relay.C154_takes_on_fails
#print axioms Wm.Log.C155_no_default_partial
#print axioms Wm.Log.C155_default_fails
#print axioms Wm.Config.C156_meaning_partial
#print axioms Wm.Config.C156_rejects
#print axioms Wm.Config.C156_request_removal_fails
#print axioms Wm.Config.C156_wrong_fails
#print axioms Wm.World.C157_down
#print axioms Wm.World.C158_up_partial
#print axioms Wm.Socks.Assoc.C159_stays
#print axioms Wm.Socks.Assoc.C159_forward
#print axioms Wm.Socks.Assoc.C159_back
#print axioms Wm.Socks.Assoc.C159_serves
#print axioms Wm.Socks.Assoc.C159_ends
#print axioms Wm.Socks.Assoc.C160_stranger_fails
#print axioms Wm.Socks.Assoc.C160_alone_partial
#print axioms Wm.Socks.Assoc.C161_early_fails
#print axioms Wm.Socks.Assoc.C161_large_fails
#print axioms Wm.Socks.Assoc.C161_reply_partial
#print axioms Wm.Files.C162_files_partial
#print axioms Wm.Files.C162_pages_fails
#print axioms Wm.Files.C163_again
#print axioms Wm.Files.C164_label_partial
#print axioms Wm.Files.C164_label_fails
#print axioms Wm.Files.C165_type_partial
#print axioms Wm.Files.C165_rar_fails
#print axioms Wm.Files.C165_capital_fails
#print axioms Wm.Files.C166_head_partial
#print axioms Wm.Files.C166_range_fails
#print axioms Wm.Files.C167_robots
#print axioms Wm.Files.C167_only
#print axioms Wm.Files.C167_sent
#print axioms Wm.Files.C168_get_partial
#print axioms Wm.Files.C168_robots_fails
#print axioms Wm.Files.C168_head_fails
#print axioms Wm.World.C169_fair
#print axioms Wm.World.C169_down
#print axioms Wm.World.C170_fair_partial
#print axioms Wm.World.C170_up_partial
#print axioms Wm.World.C170_lost_fails
#print axioms Wm.Reverse.C171_kept_fails
#print axioms Wm.Reverse.C171_body_partial
#print axioms Wm.Reverse.C171_second_fails
#print axioms Wm.Reverse.C172_host_partial
#print axioms Wm.Reverse.C172_same
#print axioms Wm.Reverse.C172_host_fails
#print axioms Wm.Log.C173_mistakes_partial
#print axioms Wm.Log.C173_unclosed_fails
#print axioms Wm.Limit.C174_decided_partial
#print axioms Wm.Limit.C174_burst_fails
#print axioms Wm.Limit.C174_wrap_fails
#print axioms Wm.Limit.C174_period_fails
#print axioms Wm.Log.C175_process_partial
#print axioms Wm.Log.C175_request_partial
#print axioms Wm.Log.C175_status_fails
#print axioms Wm.Log.C175_nothing_fails
#print axioms Wm.Log.C175_level_fails
#print axioms Wm.Config.C176_toml_partial
#print axioms Wm.Config.C176_yaml_fails
#print axioms Wm.Config.C176_negative_fails
#print axioms Wm.World.C177_fair
#print axioms Wm.World.C177_served
#print axioms Wm.World.C177_arrived
#print axioms Wm.Socks.Assoc.C178_told_partial
#print axioms Wm.Socks.Assoc.C178_v6_fails
#print axioms Wm.Socks.Assoc.C179_sent_partial
#print axioms Wm.Socks.Assoc.C179_v6_fails
#print axioms Wm.World.C180_down
#print axioms Wm.World.C180_up_partial
#print axioms Wm.Contact.C181_contact_partial
#print axioms Wm.Contact.C181_contact_fails
#print axioms Wm.Redial.C181_timely
#print axioms Wm.Redial.C181_connects
#print axioms Wm.Redial.C181_introduces
#print axioms Wm.Redial.C181_loses_partial
#print axioms Wm.Redial.C181_crash_fails
#print axioms Wm.Redial.C181_stuck_fails
#print axioms Wm.Pass.C182_same_partial
#print axioms Wm.Pass.C182_rules_fails
#print axioms Wm.Pass.C182_host_fails
#print axioms Wm.Pass.C183_rules
#print axioms Wm.Pass.C183_served
#print axioms Wm.Turns.C184_order
#print axioms Wm.Turns.C184_one_partial
#print axioms Wm.Turns.C184_many_partial
#print axioms Wm.Turns.C184_busy_fails
#print axioms Wm.Turns.C184_fault_fails
#print axioms Wm.Pass.C208_answer
#print axioms Wm.PidFile.C209_stop_partial
#print axioms Wm.PidFile.C209_again_fails
#print axioms Wm.PidFile.C209_crash_fails
#print axioms Wm.PidFile.C209_two_fails
#print axioms Wm.Tunnel.C210_server_partial
#print axioms Wm.Tunnel.C210_server_write_fails
#print axioms Wm.Tunnel.C210_client_unnoticed_fails
#print axioms Wm.Reverse.C211_unlimited_partial
#print axioms Wm.Reverse.C211_counted_fails
#print axioms Wm.Reverse.C211_shut_out_fails
#print axioms Wm.Reverse.C212_kept
#print axioms Wm.Failover.C213_lost_partial
#print axioms Wm.Failover.C213_retry_fails
#print axioms Wm.Failover.C213_hang_fails
#print axioms Wm.Failover.C213_default_fails
#print axioms Wm.Health.C214_exact_partial
#print axioms Wm.Health.C214_others_fails
#print axioms Wm.Health.C215_only_partial
#print axioms Wm.Health.C215_kept_fails
#print axioms Wm.Udp.C216_channels_partial
#print axioms Wm.Udp.C216_in_fails
#print axioms Wm.Udp.C216_out_fails
#print axioms Wm.Files.C217_if_range
#print axioms Wm.Files.C217_whole
#print axioms Wm.Prot.C218_sent
#print axioms Wm.Prot.C218_read
#print axioms Wm.Chain.C219_up_partial
#print axioms Wm.Chain.C220_waiting
#print axioms Wm.Chain.C220_announced
#print axioms Wm.Chain.C221_down_partial
