# Axioms of the property theorems

Written by tools/gen_axioms.py from `#print axioms`.

| property | theorem | axioms |
|---|---|---|
| C01 | Verif.Props.c01_round_trip | propext, Classical.choice, Quot.sound |
| C01 | Verif.Props.c01_round_trip_any | propext, Classical.choice, Quot.sound |
| C02 | Verif.Props.c02_canonical | propext, Classical.choice, Quot.sound |
| C02 | Verif.Props.c02_insertion_order | propext, Classical.choice, Quot.sound |
| C02 | Verif.Props.c02_unambiguous | propext, Classical.choice, Quot.sound |
| C03 | Verif.Props.c03_self_delimiting | propext, Classical.choice, Quot.sound |
| C03 | Verif.Props.c03_prefix_free | propext, Classical.choice, Quot.sound |
| C04 | Verif.Props.c04_encode_iff_supported | propext, Classical.choice, Quot.sound |
| C04 | Verif.Props.c04_unsupported_raises | propext, Classical.choice, Quot.sound |
| C04 | Verif.Props.c04_encode_check_ends | propext, Classical.choice, Quot.sound |
| C05 | Verif.Props.c05_counterexample | propext |
| C05 | Verif.Props.c05_diverges | propext, Quot.sound |
| C05 | Verif.Props.c05_hang_iff | propext, Classical.choice, Quot.sound |
| C05 | Verif.Props.c05_terminates_partial | propext, Classical.choice, Quot.sound |
| C05 | Verif.Props.c05_terminates_on_encodings_partial | propext, Classical.choice, Quot.sound |
| C06 | Verif.Props.c06_truncated_not_accepted | propext, Classical.choice, Quot.sound |
| C06 | Verif.Props.c06_byte_string_cut_accepted | propext, Classical.choice, Quot.sound |
| C07 | Verif.Props.c07_decoded_clean | propext, Classical.choice, Quot.sound |
| C07 | Verif.Props.c07_re_encode | propext, Classical.choice, Quot.sound |
| C08 | Verif.Props.c08_packet_round_trip | propext, Classical.choice, Quot.sound |
| C08 | Verif.Props.c08_flat_round_trip | propext, Classical.choice, Quot.sound |
| C09 | Verif.Props.c09_from_bytes_sound | propext, Classical.choice, Quot.sound |
| C09 | Verif.Props.c09_from_bytes_complete | propext, Classical.choice, Quot.sound |
| C10 | Verif.Props.c10_counterexample_empty_list | propext, Classical.choice, Quot.sound |
| C10 | Verif.Props.c10_counterexample_bad_integer | propext, Classical.choice, Quot.sound |
| C10 | Verif.Props.c10_counterexample_unhashable | propext, Classical.choice, Quot.sound |
| C10 | Verif.Props.c10_counterexample_overflow | propext, Classical.choice, Quot.sound |
| C10 | Verif.Props.c10_counterexample_hang | propext, Classical.choice, Quot.sound |
| C10 | Verif.Props.c10_escape_iff | propext, Classical.choice, Quot.sound |
| C10 | Verif.Props.c10_packet_errors_partial | propext, Classical.choice, Quot.sound |
| C10 | Verif.Props.c10_encoded_values_partial | propext, Classical.choice, Quot.sound |
| C11 | Verif.Props.c11_create_iff | propext, Classical.choice, Quot.sound |
| C11 | Verif.Props.c11_create_raises | propext, Classical.choice, Quot.sound |
| C11 | Verif.Props.c11_position_or_keyword | propext, Classical.choice, Quot.sound |
| C11 | Verif.Props.c11_unregistered | propext, Classical.choice, Quot.sound |
| C12 | Verif.Props.c12_registry_exact | propext, Quot.sound |
| C12 | Verif.Props.c12_duplicates_refused | propext, Quot.sound |
| C12 | Verif.Props.c12_numbers_unique | propext, Quot.sound |
| C12 | Verif.Props.c12_types_unique | propext, Quot.sound |
| C13 | Verif.Props.c13_repr_hides_password | propext, Classical.choice, Quot.sound |
| C13 | Verif.Props.c13_password_never_shown | propext, Classical.choice, Quot.sound |
| C89 | Verif.Props.c89_wire_format | propext, Classical.choice, Quot.sound |
| C89 | Verif.Props.c89_wire_total | propext, Classical.choice, Quot.sound |
| C89 | Verif.Props.c89_wire_iff | propext, Classical.choice, Quot.sound |
| C89 | Verif.Library.bytes_order | propext, Quot.sound |
| C22 | Verif.Props.c22_lossless_stream | propext |
| C22 | Verif.Props.c22_no_callback | propext |
| C23 | Verif.Props.c23_read_exact | propext, Quot.sound |
| C23 | Verif.Props.c23_size | propext, Quot.sound |
| C23 | Verif.Props.c23_truthy | propext |
| C24 | Verif.Props.c24_close_once | propext, Classical.choice, Quot.sound |
| C24 | Verif.Props.c24_no_callback_after_close | propext, Quot.sound |
| C24 | Verif.Props.c24_write_race_counterexample | propext |
| C24 | Verif.Props.c24_close_race_counterexample | propext |
| C24 | Verif.Props.c24_in_flight_only_partial | propext, Quot.sound |
| C24 | Verif.Props.c24_silent_partial | propext, Classical.choice, Quot.sound |
| C25 | Verif.Props.c25_counterexample | propext |
| C25 | Verif.Props.c25_later_data_partial | propext |
| C25 | Verif.Props.c25_earlier_data_readable_partial | propext, Quot.sound |
| C25 | Verif.Props.c25_iff | propext, Classical.choice, Quot.sound |
| C14 | Verif.Props.c14_counterexample | propext, Classical.choice, Quot.sound |
| C14 | Verif.Props.c14_dispatch_iff_partial | propext, Classical.choice, Quot.sound |
| C14 | Verif.Props.c14_lists_partial | propext, Classical.choice, Quot.sound |
| C14 | Verif.Props.c14_bytes_partial | propext, Classical.choice, Quot.sound |
| C15 | Verif.Props.c15_counterexample | propext, Classical.choice, Quot.sound |
| C15 | Verif.Props.c15_loop_goes_on_partial | propext, Classical.choice, Quot.sound |
| C15 | Verif.Props.c15_iff | propext, Classical.choice, Quot.sound |
| C15 | Verif.Props.c15_errors_logged_partial | propext, Classical.choice, Quot.sound |
| C15 | Verif.Props.c15_no_error | propext, Classical.choice, Quot.sound |
| C15 | Verif.Props.c15_blamed | propext, Classical.choice, Quot.sound |
| C16 | Verif.Props.c16_ping_pong | propext, Classical.choice, Quot.sound |
| C16 | Verif.Props.c16_after_any_history | propext, Classical.choice, Quot.sound |
| C17 | Verif.Props.c17_unknown_no_effect | propext, Classical.choice, Quot.sound |
| C17 | Verif.Props.c17_no_call_no_effect | propext, Classical.choice, Quot.sound |
| C18 | Verif.Props.c18_one_handshake | propext, Classical.choice, Quot.sound |
| C18 | Verif.Props.c18_only_join | propext, Classical.choice, Quot.sound |
| C19 | Verif.Props.c19_poll_announces | propext, Classical.choice, Quot.sound |
| C19 | Verif.Props.c19_not_again | propext, Classical.choice, Quot.sound |
| C20 | Verif.Props.c20_race_counterexample | none |
| C20 | Verif.Props.c20_closed_silent_partial | propext, Classical.choice, Quot.sound |
| C20 | Verif.Props.c20_check_after_close_partial | propext |
| C20 | Verif.Props.c20_iff | propext, Classical.choice, Quot.sound |
| C21 | Verif.Props.c21_counterexample | propext, Classical.choice, Quot.sound |
| C21 | Verif.Props.c21_exact_calls_partial | propext, Classical.choice, Quot.sound |
| C21 | Verif.Props.c21_once_partial | propext, Classical.choice, Quot.sound |
| C21 | Verif.Props.c21_result_once_partial | propext, Classical.choice, Quot.sound |
| C26 | Verif.Props.c26_counterexample | propext, Classical.choice, Quot.sound |
| C26 | Verif.Props.c26_delivers_partial | propext, Classical.choice, Quot.sound |
| C26 | Verif.Props.c26_lost | propext, Classical.choice, Quot.sound |
| C27 | Verif.Props.c27_independent | propext, Classical.choice, Quot.sound |
| C27 | Verif.Props.c27_other_number | propext, Classical.choice, Quot.sound |
| C28 | Verif.Props.c28_fresh | propext, Classical.choice, Quot.sound |
| C90 | Verif.Props.c90_own_traffic | propext, Classical.choice, Quot.sound |
| C90 | Verif.Props.c90_sends | propext, Classical.choice, Quot.sound |
| C29 | Verif.Limiter.c29_bounds | propext, Quot.sound |
| C29 | Verif.Limiter.c29_refused_iff | propext, Classical.choice, Quot.sound |
| C29 | Verif.Limiter.c29_refusal_changes_nothing | propext, Quot.sound |
| C30 | Verif.Limiter.c30_slots | propext, Quot.sound |
| C30 | Verif.Limiter.c30_released_once | propext, Quot.sound |
| C30 | Verif.Limiter.c30_all_ended | propext, Classical.choice, Quot.sound |
| C31 | Verif.Services.c31_refused | propext, Classical.choice, Quot.sound |
| C31 | Verif.Services.c31_reaches | propext, Classical.choice, Quot.sound |
| C31 | Verif.Services.c31_http | propext, Classical.choice, Quot.sound |
| C31 | Verif.Services.c31_launched | propext, Classical.choice, Quot.sound |
| C32 | Verif.Services.c32_intact | propext, Quot.sound |
| C32 | Verif.Services.c32_prefix | propext, Quot.sound |
| C32 | Verif.Services.c32_sizes | propext, Classical.choice, Quot.sound |
| C32 | Verif.Services.c32_path | propext, Quot.sound |
| C32 | Verif.Services.c32_absolute | propext |
| C33 | Verif.Services.c33_close_last_partial | propext, Quot.sound |
| C33 | Verif.Services.c33_iff | propext, Quot.sound |
| C33 | Verif.Services.c33_ioerror_open | propext |
| C33 | Verif.Services.c33_ioerror_read | propext, Quot.sound |
| C33 | Verif.Services.c33_released | propext, Quot.sound |
| C33 | Verif.Services.c33_counterexample | propext |
| C34 | Verif.Services.c34_written | propext, Quot.sound |
| C34 | Verif.Services.c34_sent | propext, Quot.sound |
| C34 | Verif.Services.c34_prefix | propext, Quot.sound |
| C35 | Verif.Services.c35_end_partial | propext, Quot.sound |
| C35 | Verif.Services.c35_iff | propext, Quot.sound |
| C35 | Verif.Services.c35_released | propext, Quot.sound |
| C35 | Verif.Services.c35_counterexample | propext |
| C36 | Verif.Services.c36_ends_partial | propext, Quot.sound |
| C36 | Verif.Services.c36_counterexample | propext, Quot.sound |
| C36 | Verif.Services.c36_counterexample' | propext, Quot.sound |
| C36 | Verif.Services.c36_iff | propext, Classical.choice, Quot.sound |
| C37 | Verif.Services.c37_echo | propext, Quot.sound |
| C38 | Verif.PortForward.c38_in_order | propext |
| C38 | Verif.PortForward.c38_all_sent | propext |
| C39 | Verif.PortForward.c39_prefix_partial | propext, Quot.sound |
| C39 | Verif.PortForward.c39_iff | propext, Classical.choice, Quot.sound |
| C39 | Verif.PortForward.c39_counterexample | propext, Quot.sound |
| C40 | Verif.PortForward.c40_forwarded | propext, Quot.sound |
| C40 | Verif.PortForward.c40_no_waiting | propext, Quot.sound |
| C41 | Verif.PortForward.c41_isolated_partial | propext, Quot.sound |
| C41 | Verif.PortForward.c41_apart_partial | propext, Quot.sound |
| C41 | Verif.PortForward.c41_event_iff | propext, Quot.sound |
| C41 | Verif.PortForward.c41_counterexample | none |
| C41 | Verif.PortForward.c41_counterexample_for_ever | propext, Quot.sound |
| C42 | Verif.PortForward.c42_ends_partial | propext |
| C42 | Verif.PortForward.c42_error_ends_partial | propext, Quot.sound |
| C42 | Verif.PortForward.c42_ends_iff | propext, Quot.sound |
| C42 | Verif.PortForward.c42_counterexample | propext |
| C43 | Verif.PortForward.c43_closes_partial | propext, Quot.sound |
| C43 | Verif.PortForward.c43_iff | propext, Quot.sound |
| C43 | Verif.PortForward.c43_released | propext, Quot.sound |
| C43 | Verif.PortForward.c43_counterexample | none |
| C44 | Verif.PortForward.c44_by_name | propext, Quot.sound |
| C44 | Verif.PortForward.c44_by_port_total | propext, Quot.sound |
| C44 | Verif.PortForward.c44_by_port_partial | propext, Quot.sound |
| C44 | Verif.PortForward.c44_agent | propext, Classical.choice, Quot.sound |
| C44 | Verif.PortForward.c44_counterexample | propext, Classical.choice, Quot.sound |
| C44 | Verif.PortForward.c44_by_port_exact | propext, Quot.sound |
| C44 | Verif.PortForward.c44_by_port_iff | propext, Quot.sound |
| C45 | Verif.PortForward.c45_open_name | propext, Quot.sound |
| C45 | Verif.PortForward.c45_bad_route | propext |
| C45 | Verif.PortForward.c45_open_port | propext, Quot.sound |
| C45 | Verif.PortForward.c45_neither | none |
| C45 | Verif.PortForward.c45_redirect | propext, Classical.choice, Quot.sound |
| C46 | Verif.Terminal.c46_message | propext |
| C46 | Verif.Terminal.c46_complete_partial | propext, Quot.sound |
| C46 | Verif.Terminal.c46_counterexample | none |
| C46 | Verif.Terminal.c46_iff | propext, Classical.choice, Quot.sound |
| C47 | Verif.Terminal.c47_hangup_once | propext, Classical.choice, Quot.sound |
| C47 | Verif.Terminal.c47_kill_once | propext, Quot.sound |
| C47 | Verif.Terminal.c47_kill_late | propext |
| C47 | Verif.Terminal.c47_kill_sent | propext, Classical.choice, Quot.sound |
| C47 | Verif.Terminal.c47_reaped_last | propext, Quot.sound |
| C48 | Verif.Terminal.c48_signalled_partial | propext, Classical.choice, Quot.sound |
| C48 | Verif.Terminal.c48_iff | propext, Classical.choice, Quot.sound |
| C48 | Verif.Terminal.c48_state | propext, Quot.sound |
| C48 | Verif.Terminal.c48_counterexample | propext |
| C48 | Verif.Terminal.c48_counterexample_early | none |
| C49 | Verif.Terminal.c49_size_partial | propext, Quot.sound |
| C49 | Verif.Terminal.c49_overlap_partial | propext, Quot.sound |
| C49 | Verif.Terminal.c49_counterexample_large | propext |
| C49 | Verif.Terminal.c49_counterexample_race | propext |
| C49 | Verif.Terminal.c49_exact | propext, Quot.sound |
| C50 | Verif.Terminal.c50_output_partial | propext, Quot.sound |
| C50 | Verif.Terminal.c50_released | propext, Quot.sound |
| C50 | Verif.Terminal.c50_counterexample | propext, Quot.sound |
| C51 | Verif.Terminal.c51_exact_partial | propext, Quot.sound |
| C51 | Verif.Terminal.c51_never_runs | propext, Classical.choice, Quot.sound |
| C51 | Verif.Terminal.c51_iff | propext, Classical.choice, Quot.sound |
| C51 | Verif.Terminal.c51_counterexample | none |
| C92 | Verif.Terminal.c92_distinct | propext, Quot.sound |
| C92 | Verif.Terminal.c92_launched | propext, Quot.sound |
| C92 | Verif.Terminal.c92_known | propext, Quot.sound |
| C92 | Verif.Terminal.c92_live_kept | propext, Quot.sound |
| C92 | Verif.Terminal.c92_close_all | propext, Quot.sound |
| C52 | Verif.RemoteDirectory.c52_inside | propext, Classical.choice, Quot.sound |
| C52 | Verif.RemoteDirectory.c52_refused_iff | propext, Classical.choice, Quot.sound |
| C52 | Verif.RemoteDirectory.c52_refused_nothing | propext, Classical.choice, Quot.sound |
| C53 | Verif.RemoteDirectory.c53_inside_partial | propext, Classical.choice, Quot.sound |
| C53 | Verif.RemoteDirectory.c53_touched | propext, Classical.choice, Quot.sound |
| C53 | Verif.RemoteDirectory.c53_anywhere | propext, Classical.choice, Quot.sound |
| C53 | Verif.RemoteDirectory.c53_counterexample_read | propext, Classical.choice, Quot.sound |
| C53 | Verif.RemoteDirectory.c53_counterexample_close | propext, Classical.choice, Quot.sound |
| C53 | Verif.RemoteDirectory.c53_counterexample_open | propext, Classical.choice, Quot.sound |
| C53 | Verif.Library.text_pieces | propext |
| C54 | Verif.RemoteDirectory.c54_isolated_partial | propext, Classical.choice, Quot.sound |
| C54 | Verif.RemoteDirectory.c54_plain_ids | propext, Classical.choice, Quot.sound |
| C54 | Verif.RemoteDirectory.c54_same_iff | propext, Classical.choice, Quot.sound |
| C54 | Verif.RemoteDirectory.c54_closed | propext, Classical.choice, Quot.sound |
| C54 | Verif.RemoteDirectory.c54_close_twice | propext, Classical.choice, Quot.sound |
| C54 | Verif.RemoteDirectory.c54_counterexample | propext, Classical.choice, Quot.sound |
| C55 | Verif.RemoteDirectory.c55_slice | propext, Quot.sound |
| C55 | Verif.RemoteDirectory.c55_reassemble | propext, Classical.choice, Quot.sound |
| C56 | Verif.RemoteDirectory.c56_margin_partial | propext, Classical.choice, Quot.sound |
| C56 | Verif.RemoteDirectory.c56_refused_partial | propext, Classical.choice, Quot.sound |
| C56 | Verif.RemoteDirectory.c56_only | propext, Classical.choice, Quot.sound |
| C56 | Verif.RemoteDirectory.c56_unknown_size_false | propext, Classical.choice, Quot.sound |
| C56 | Verif.RemoteDirectory.c56_iff | propext, Classical.choice, Quot.sound |
| C57 | Verif.RemoteDirectory.c57_open | propext, Classical.choice, Quot.sound |
| C57 | Verif.RemoteDirectory.c57_read | propext, Classical.choice, Quot.sound |
| C57 | Verif.RemoteDirectory.c57_read_data | propext, Classical.choice, Quot.sound |
| C57 | Verif.RemoteDirectory.c57_write_partial | propext, Classical.choice, Quot.sound |
| C57 | Verif.RemoteDirectory.c57_counterexample | propext, Classical.choice, Quot.sound |
| C57 | Verif.RemoteDirectory.c57_unanswered_iff | propext, Classical.choice, Quot.sound |
| C58 | Verif.RemoteDirectory.c58_assembled | propext, Classical.choice, Quot.sound |
| C58 | Verif.RemoteDirectory.c58_stored | propext, Classical.choice, Quot.sound |
| C58 | Verif.RemoteDirectory.c58_success | propext |
| C58 | Verif.RemoteDirectory.c58_failed | propext |
| C58 | Verif.RemoteDirectory.c58_free | propext, Classical.choice, Quot.sound |
| C58 | Verif.RemoteDirectory.c58_directory | propext, Classical.choice, Quot.sound |
| C58 | Verif.RemoteDirectory.c58_directory_failed | propext, Classical.choice, Quot.sound |
| C58 | Verif.RemoteDirectory.c58_nul | propext, Quot.sound |
| C59 | Verif.RemoteDirectory.c59_first_free | propext, Classical.choice, Quot.sound |
| C59 | Verif.RemoteDirectory.c59_all_taken | propext, Classical.choice, Quot.sound |
| C59 | Verif.RemoteDirectory.c59_no_overwrite | propext, Classical.choice, Quot.sound |
| C59 | Verif.RemoteDirectory.c59_kept | propext, Classical.choice, Quot.sound |
| C59 | Verif.Library.c59_names | propext, Classical.choice, Quot.sound |
| C59 | Verif.Library.path_parts | propext, Classical.choice, Quot.sound |
| C59 | Verif.Library.name_extension | propext, Classical.choice, Quot.sound |
| C60 | Verif.RemoteDirectory.c60_inside_partial | propext, Classical.choice, Quot.sound |
| C60 | Verif.RemoteDirectory.c60_touched | propext, Classical.choice, Quot.sound |
| C60 | Verif.RemoteDirectory.c60_counterexample_path | propext, Classical.choice, Quot.sound |
| C60 | Verif.RemoteDirectory.c60_counterexample_device | propext, Classical.choice, Quot.sound |
| C60 | Verif.RemoteDirectory.c60_counterexample_move | propext, Classical.choice, Quot.sound |
| C60 | Verif.RemoteDirectory.c60_counterexample_directory | propext, Classical.choice, Quot.sound |
| C61 | Verif.RemoteDirectory.c61_failed_chunk | propext, Classical.choice, Quot.sound |
| C61 | Verif.RemoteDirectory.c61_failed_first | propext, Classical.choice, Quot.sound |
| C61 | Verif.RemoteDirectory.c61_cases | propext |
| C93 | Verif.RemoteDirectory.c93_refused | propext, Classical.choice, Quot.sound |
| C93 | Verif.RemoteDirectory.c93_reported | propext, Classical.choice, Quot.sound |
| C62 | Verif.Scan.c62_visible | propext, Classical.choice, Quot.sound |
| C62 | Verif.Scan.c62_there | propext, Classical.choice, Quot.sound |
| C63 | Verif.Scan.c63_limit | propext, Classical.choice, Quot.sound |
| C63 | Verif.Scan.c63_ends_partial | propext, Classical.choice, Quot.sound |
| C63 | Verif.Scan.c63_once_partial | propext, Classical.choice, Quot.sound |
| C63 | Verif.Scan.c63_root_twice_false | propext, Classical.choice, Quot.sound |
| C63 | Verif.Scan.c63_link_twice_false | propext, Classical.choice, Quot.sound |
| C63 | Verif.Scan.c63_endless_false | propext, Classical.choice, Quot.sound |
| C63 | Verif.Scan.c63_other_filesystem_false | propext, Classical.choice, Quot.sound |
| C64 | Verif.Scan.c64_complete | propext, Classical.choice, Quot.sound |
| C64 | Verif.Scan.c64_ends | propext, Classical.choice, Quot.sound |
| C64 | Verif.Scan.c64_plain | none |
| C65 | Verif.DirectoryScanner.c65_at_most_one | propext, Classical.choice, Quot.sound |
| C65 | Verif.DirectoryScanner.c65_message | propext, Classical.choice, Quot.sound |
| C65 | Verif.DirectoryScanner.c65_answered_partial | propext, Classical.choice, Quot.sound |
| C65 | Verif.DirectoryScanner.c65_iff | propext, Classical.choice, Quot.sound |
| C65 | Verif.DirectoryScanner.c65_locked_false | propext, Classical.choice, Quot.sound |
| C65 | Verif.DirectoryScanner.c65_failed_false | propext, Classical.choice, Quot.sound |
| C66 | Verif.DirectoryScanner.c66_alone | propext, Classical.choice, Quot.sound |
| C66 | Verif.DirectoryScanner.c66_stored | propext, Classical.choice, Quot.sound |
| C67 | Verif.DirectoryScanner.c67_intact_partial | propext, Classical.choice, Quot.sound |
| C67 | Verif.DirectoryScanner.c67_prefix | propext, Classical.choice, Quot.sound |
| C67 | Verif.DirectoryScanner.c67_killed_false | propext, Quot.sound |
| C68 | Verif.JsonRpc.c68_returns | propext, Classical.choice, Quot.sound |
| C68 | Verif.JsonRpc.c68_counter | propext, Classical.choice, Quot.sound |
| C69 | Verif.JsonRpc.c69_standard | propext, Classical.choice, Quot.sound |
| C69 | Verif.JsonRpc.c69_other_partial | propext, Classical.choice, Quot.sound |
| C69 | Verif.JsonRpc.c69_raised | propext, Classical.choice, Quot.sound |
| C69 | Verif.JsonRpc.c69_false | propext, Classical.choice, Quot.sound |
| C69 | Verif.JsonRpc.c69_neither_iff | propext, Classical.choice, Quot.sound |
| C70 | Verif.JsonRpc.c70_exclusive_partial | propext, Classical.choice, Quot.sound |
| C70 | Verif.JsonRpc.c70_fresh_partial | propext, Classical.choice, Quot.sound |
| C70 | Verif.JsonRpc.c70_alone | propext, Quot.sound |
| C70 | Verif.JsonRpc.c70_race_false | propext |
| C71 | Verif.JsonRpc.c71_refused_iff | propext, Classical.choice, Quot.sound |
| C71 | Verif.JsonRpc.c71_unique_partial | propext, Classical.choice, Quot.sound |
| C71 | Verif.JsonRpc.c71_mixed_false | propext, Classical.choice, Quot.sound |
| C71 | Verif.JsonRpc.c71_unique_iff | propext, Classical.choice, Quot.sound |
| C72 | Verif.JsonRpc.c72_sent | propext, Classical.choice, Quot.sound |
| C72 | Verif.JsonRpc.c72_flag | propext, Classical.choice, Quot.sound |
| C72 | Verif.JsonRpc.c72_not_sent | propext, Classical.choice, Quot.sound |
| C73 | Verif.JsonRpc.c73_accepted | propext, Classical.choice, Quot.sound |
| C73 | Verif.JsonRpc.c73_unreachable | propext, Classical.choice, Quot.sound |
| C73 | Verif.JsonRpc.c73_result | propext, Classical.choice, Quot.sound |
| C73 | Verif.JsonRpc.c73_error | propext, Classical.choice, Quot.sound |
| C73 | Verif.JsonRpc.c73_missing | propext, Classical.choice, Quot.sound |
| C73 | Verif.JsonRpc.c73_method | propext, Classical.choice, Quot.sound |
| C74 | Verif.JsonRpc.c74_exact | propext, Classical.choice, Quot.sound |
| C74 | Verif.JsonRpc.c74_documented_partial | propext, Classical.choice, Quot.sound |
| C74 | Verif.JsonRpc.c74_false | propext, Classical.choice, Quot.sound |
| C74 | Verif.JsonRpc.c74_counterexample | propext, Classical.choice, Quot.sound |
| C75 | Verif.Client.c75_step | propext, Classical.choice, Quot.sound |
| C75 | Verif.Client.c75_poll | propext, Classical.choice, Quot.sound |
| C75 | Verif.Client.c75_forever | propext, Classical.choice, Quot.sound |
| C75 | Verif.Client.c75_returns | propext, Classical.choice, Quot.sound |
| C76 | Verif.Client.c76_apart | propext, Classical.choice, Quot.sound |
| C76 | Verif.Client.c76_content | propext, Classical.choice, Quot.sound |
| C76 | Verif.Client.c76_first_partial | propext, Classical.choice, Quot.sound |
| C76 | Verif.Client.c76_first_false | propext, Classical.choice, Quot.sound |
| C76 | Verif.Client.c76_first_iff | propext, Classical.choice, Quot.sound |
| C77 | Verif.Client.c77_remembered | propext, Classical.choice, Quot.sound |
| C77 | Verif.Client.c77_sent | propext, Classical.choice, Quot.sound |
| C77 | Verif.Client.c77_no_tags | propext, Classical.choice, Quot.sound |
| C78 | Verif.Client.c78_remembered | propext, Classical.choice, Quot.sound |
| C78 | Verif.Client.c78_sent | propext, Classical.choice, Quot.sound |
| C78 | Verif.Client.c78_no_meta | propext, Classical.choice, Quot.sound |
| C79 | Verif.Client.c79_returned | propext, Classical.choice, Quot.sound |
| C79 | Verif.Client.c79_total | propext, Classical.choice, Quot.sound |
| C79 | Verif.Client.c79_sent | propext, Classical.choice, Quot.sound |
| C88 | Verif.Client.c88_query | propext, Classical.choice, Quot.sound |
| C88 | Verif.Client.c88_no_query_partial | propext, Classical.choice, Quot.sound |
| C88 | Verif.Client.c88_default | propext, Classical.choice, Quot.sound |
| C88 | Verif.Client.c88_again | propext, Classical.choice, Quot.sound |
| C88 | Verif.Client.c88_names_false | propext, Classical.choice, Quot.sound |
| C88 | Verif.Client.c88_names_iff | propext, Classical.choice, Quot.sound |
| C94 | Verif.Client.c94_announced | propext, Quot.sound |
| C94 | Verif.Client.c94_identity | none |
| C94 | Verif.Library.utf8_strict | propext, Classical.choice, Quot.sound |
| C80 | Verif.Device.c80_kept_partial | propext, Classical.choice, Quot.sound |
| C80 | Verif.Device.c80_first_false | propext, Classical.choice, Quot.sound |
| C80 | Verif.Device.c80_list_false | propext, Classical.choice, Quot.sound |
| C80 | Verif.Device.c80_exact | propext, Classical.choice, Quot.sound |
| C81 | Verif.Device.c81_words | propext, Quot.sound |
| C81 | Verif.Device.c81_all | propext, Quot.sound |
| C81 | Verif.Device.c81_form | propext, Quot.sound |
| C81 | Verif.Device.c81_separators | propext, Classical.choice, Quot.sound |
| C81 | Verif.Device.c81_round_trip | propext, Quot.sound |
| C81 | Verif.Device.c81_failures | propext |
| C82 | Verif.Device.c82_first_partial | propext, Classical.choice, Quot.sound |
| C82 | Verif.Device.c82_last_partial | propext, Classical.choice, Quot.sound |
| C82 | Verif.Device.c82_none | propext, Classical.choice, Quot.sound |
| C82 | Verif.Device.c82_all | propext, Quot.sound |
| C82 | Verif.Device.c82_undecodable_false | propext, Classical.choice, Quot.sound |
| C82 | Verif.Device.c82_error_iff | propext, Classical.choice, Quot.sound |
| C83 | Verif.Device.c83_faithful_partial | propext, Classical.choice, Quot.sound |
| C83 | Verif.Device.c83_addresses | propext, Classical.choice, Quot.sound |
| C83 | Verif.Device.c83_same_iff | propext, Classical.choice, Quot.sound |
| C83 | Verif.Device.c83_names_false | propext |
| C84 | Verif.Device.c84_value | propext |
| C84 | Verif.Device.c84_starts_partial | propext |
| C84 | Verif.Device.c84_zero_false | propext |
| C84 | Verif.Device.c84_starts_iff | propext, Classical.choice, Quot.sound |
| C85 | Verif.Device.c85_sum | propext, Classical.choice, Quot.sound |
| C85 | Verif.Device.c85_used | propext, Classical.choice, Quot.sound |
| C85 | Verif.Device.c85_percent | propext, Classical.choice, Quot.sound |
| C86 | Verif.Device.c86_killed_iff | propext, Quot.sound |
| C95 | Verif.Device.c95_available_partial | propext, Classical.choice, Quot.sound |
| C95 | Verif.Device.c95_false | propext, Classical.choice, Quot.sound |
| C95 | Verif.Device.c95_fails_iff | propext, Classical.choice, Quot.sound |
| C87 | Verif.Instructions.c87_one | propext, Classical.choice, Quot.sound |
| C87 | Verif.Instructions.c87_done_partial | propext, Classical.choice, Quot.sound |
| C87 | Verif.Instructions.c87_nothing_else | propext, Classical.choice, Quot.sound |
| C87 | Verif.Instructions.c87_none | propext, Classical.choice, Quot.sound |
| C87 | Verif.Instructions.c87_key_false | propext, Classical.choice, Quot.sound |
| C87 | Verif.Instructions.c87_message_partial | propext, Classical.choice, Quot.sound |
| C87 | Verif.Instructions.c87_done_iff | propext, Classical.choice, Quot.sound |
| C91 | Verif.Instructions.c91_passed_on | propext, Classical.choice, Quot.sound |
| C91 | Verif.Library.utf8_ignore | propext, Classical.choice, Quot.sound |
| C96 | Verif.Instructions.c96_started_partial | propext, Classical.choice, Quot.sound |
| C96 | Verif.Instructions.c96_ready_partial | propext, Classical.choice, Quot.sound |
| C96 | Verif.Instructions.c96_always_partial | propext, Classical.choice, Quot.sound |
| C96 | Verif.Instructions.c96_iff | propext, Classical.choice, Quot.sound |
| C96 | Verif.Instructions.c96_early_false | propext, Classical.choice, Quot.sound |
| C97 | Verif.App.c97_given_partial | none |
| C97 | Verif.App.c97_file_partial | propext |
| C97 | Verif.App.c97_needed | none |
| C97 | Verif.App.c97_blank_false | propext, Quot.sound |
| C97 | Verif.App.c97_empty_iff | propext, Quot.sound |
| C98 | Verif.App.c98_status | propext, Classical.choice, Quot.sound |
| C99 | Verif.App.c99_levels_partial | propext, Classical.choice, Quot.sound |
| C99 | Verif.App.c99_quiet | propext, Classical.choice, Quot.sound |
| C99 | Verif.App.c99_invalid_false | propext, Classical.choice, Quot.sound |
| C99 | Verif.App.c99_exact | propext, Classical.choice, Quot.sound |
| C99 | Verif.App.c99_never_reported | propext, Classical.choice, Quot.sound |
| C100 | Verif.Props.c100_disconnect | propext, Classical.choice, Quot.sound |
| C100 | Verif.Props.c100_end_partial | propext, Classical.choice, Quot.sound |
| C100 | Verif.Props.c100_iff | propext, Classical.choice, Quot.sound |
| C100 | Verif.Props.c100_counterexample | propext, Classical.choice, Quot.sound |
| C101 | Verif.Props.c101_wire | propext, Classical.choice, Quot.sound |
| C102 | Verif.Props.c102_prefix | propext, Classical.choice, Quot.sound |
| C102 | Verif.Props.c102_arrives | propext, Classical.choice, Quot.sound |
| C102 | Verif.Props.c102_ends | propext, Classical.choice, Quot.sound |
| C103 | Verif.Props.c103_quiet_partial | propext, Classical.choice, Quot.sound |
| C103 | Verif.Props.c103_counterexample | propext, Classical.choice, Quot.sound |
| C103 | Verif.Props.c103_exact | propext, Classical.choice, Quot.sound |
| C103 | Verif.Props.c103_iff | propext, Classical.choice, Quot.sound |
| C104 | Verif.Props.c104_well_formed | propext, Classical.choice, Quot.sound |
| C105 | Verif.Props.c105_prefix | propext, Classical.choice, Quot.sound |
| C105 | Verif.Props.c105_echoed | propext, Classical.choice, Quot.sound |
| C106 | Verif.Props.c106_no_amplification | propext, Quot.sound |
| C107 | Verif.Props.c107_up | propext, Classical.choice, Quot.sound |
| C107 | Verif.Props.c107_down | propext, Classical.choice, Quot.sound |
| C108 | Verif.Props.c108_no_gap_partial | propext, Classical.choice, Quot.sound |
| C108 | Verif.System.c108_few | propext, Classical.choice, Quot.sound |
| C108 | Verif.System.c108_order | propext, Classical.choice, Quot.sound |
| C108 | Verif.System.c108_two | propext, Classical.choice, Quot.sound |
| C108 | Verif.Props.c108_counterexample | propext, Classical.choice, Quot.sound |
| C109 | Verif.Props.c109_prefix | propext, Classical.choice, Quot.sound |
| C109 | Verif.Props.c109_all | propext, Classical.choice, Quot.sound |
| C110 | Verif.Props.c110_prefix | propext, Classical.choice, Quot.sound |
| C110 | Verif.Props.c110_arrives | propext, Classical.choice, Quot.sound |
| C111 | Verif.RemoteFiles.c111_snapshot | propext, Classical.choice, Quot.sound |
| C111 | Verif.RemoteFiles.c111_whole_file | propext, Classical.choice, Quot.sound |
| C112 | Verif.RemoteFiles.c112_stored | propext, Classical.choice, Quot.sound |
| C113 | Verif.TermControl.c113_running | propext, Classical.choice, Quot.sound |
| C113 | Verif.TermControl.c113_bytes | propext, Classical.choice, Quot.sound |
| C113 | Verif.TermControl.c113_raises | propext, Classical.choice, Quot.sound |
| C113 | Verif.TermControl.c113_quiet | propext, Classical.choice, Quot.sound |
| C113 | Verif.TermControl.c113_known | propext, Classical.choice, Quot.sound |
| C113 | Verif.TermControl.c113_all_partial | propext, Classical.choice, Quot.sound |
| C113 | Verif.TermControl.c113_counterexample | propext, Classical.choice, Quot.sound |
| C113 | Verif.TermControl.c113_iff | propext, Classical.choice, Quot.sound |
| C114 | Verif.TermControl.c114_only_partial | propext, Quot.sound |
| C114 | Verif.TermControl.c114_counterexample | none |
| C114 | Verif.TermControl.c114_counterexample_window | none |
| C114 | Verif.TermControl.c114_iff | propext, Classical.choice, Quot.sound |
| C114 | Verif.TermControl.c114_refused | propext, Quot.sound |
| C115 | Verif.TermWire.c115_output | propext, Classical.choice, Quot.sound |
| C115 | Verif.TermWire.c115_input | propext, Classical.choice, Quot.sound |
| C116 | Verif.JsonRpc.c116_call | propext, Classical.choice, Quot.sound |
| C116 | Verif.JsonRpc.c116_batch_partial | propext, Classical.choice, Quot.sound |
| C116 | Verif.JsonRpc.c116_quiet_iff | propext, Classical.choice, Quot.sound |
| C116 | Verif.JsonRpc.c116_notifications | propext, Classical.choice, Quot.sound |
| C117 | Verif.Server.c117_partial | propext, Classical.choice, Quot.sound |
| C117 | Verif.Server.c117_acknowledged | propext, Classical.choice, Quot.sound |
| C117 | Verif.Server.c117_counterexample | propext, Classical.choice, Quot.sound |
| C118 | Verif.Server.c118_meta | propext, Classical.choice, Quot.sound |
| C119 | Verif.Server.c119_identity | propext, Classical.choice, Quot.sound |
| C120 | Verif.ScanWire.c120_settled_partial | propext, Classical.choice, Quot.sound |
| C120 | Verif.ScanWire.c120_place | propext, Classical.choice, Quot.sound |
| C120 | Verif.ScanWire.c120_counterexample | propext, Classical.choice, Quot.sound |
| C121 | Verif.BlockingRead.c121_asleep | propext |
| C121 | Verif.BlockingRead.c121_wakes | propext, Quot.sound |
| C121 | Verif.BlockingRead.c121_stream | propext |
| C121 | Verif.BlockingRead.c121_bytes_partial | propext, Quot.sound |
| C121 | Verif.BlockingRead.c121_two_false | propext, Quot.sound |
| C121 | Verif.BlockingRead.c121_close_false | propext, Quot.sound |
| C121 | Verif.BlockingRead.c121_iff | propext, Quot.sound |
| C122 | Verif.Agent.c122_file | propext, Classical.choice, Quot.sound |
| C122 | Verif.Agent.c122_arrives | propext, Classical.choice, Quot.sound |
| C122 | Verif.Agent.c122_missing | propext, Classical.choice, Quot.sound |
| C122 | Verif.Agent.c122_no_text | propext, Classical.choice, Quot.sound |
| C122 | Verif.Agent.c122_busy | propext, Classical.choice, Quot.sound |
| C123 | Verif.Agent.c123_calls | propext, Classical.choice, Quot.sound |
| C123 | Verif.Agent.c123_output | propext, Classical.choice, Quot.sound |
| C123 | Verif.Agent.c123_arrives | propext, Classical.choice, Quot.sound |
| C123 | Verif.Agent.c123_busy | propext, Classical.choice, Quot.sound |
| C124 | Verif.Agent.c124_limit | propext, Classical.choice, Quot.sound |
| C124 | Verif.Agent.c124_file | propext, Classical.choice, Quot.sound |
| C124 | Verif.Agent.c124_command | propext, Classical.choice, Quot.sound |
| C125 | Verif.Links.c125_inside_partial | propext, Classical.choice, Quot.sound |
| C125 | Verif.Links.c125_follows_false | propext, Classical.choice, Quot.sound |
| C125 | Verif.Links.c125_counterexample | propext, Classical.choice, Quot.sound |
| C125 | Verif.Links.c125_same | propext, Classical.choice, Quot.sound |
| C125 | Verif.Links.c125_exact | propext, Classical.choice, Quot.sound |
| C126 | Verif.Links.c126_upload_partial | propext, Classical.choice, Quot.sound |
| C126 | Verif.Links.c126_close | propext, Classical.choice, Quot.sound |
| C126 | Verif.Links.c126_scan_partial | propext, Classical.choice, Quot.sound |
| C126 | Verif.Links.c126_scan_stored | propext, Classical.choice, Quot.sound |
| C126 | Verif.Links.c126_upload_iff | propext, Classical.choice, Quot.sound |
| C126 | Verif.Links.c126_read_iff | propext, Classical.choice, Quot.sound |
| C126 | Verif.Links.c126_scan_iff | propext, Classical.choice, Quot.sound |
| C126 | Verif.Links.c126_counterexample_upload | propext, Classical.choice, Quot.sound |
| C126 | Verif.Links.c126_counterexample_scan | propext, Classical.choice, Quot.sound |
| C127 | Verif.Links.c127_inside_partial | propext, Classical.choice, Quot.sound |
| C127 | Verif.Links.c127_same | propext, Quot.sound |
| C127 | Verif.Links.c127_stored | propext, Quot.sound |
| C127 | Verif.Links.c127_failed | propext, Quot.sound |
| C127 | Verif.Links.c127_counterexample | propext, Classical.choice, Quot.sound |
| C128 | Verif.RemoteFiles.c128_opened | propext, Classical.choice, Quot.sound |
| C128 | Verif.RemoteFiles.c128_fetched | propext, Classical.choice, Quot.sound |
| C129 | Verif.RemoteFiles.c129_delivered | propext, Classical.choice, Quot.sound |
| C130 | Verif.Props.c130_returns | propext, Classical.choice, Quot.sound |
| C130 | Verif.Props.c130_raises | propext, Classical.choice, Quot.sound |
| C130 | Verif.Props.c130_hangs | propext, Classical.choice, Quot.sound |
| C130 | Verif.Props.c130_format | propext, Classical.choice, Quot.sound |
| C131 | Verif.Terminal.c131_reaped | propext, Quot.sound |
| C131 | Verif.Terminal.c131_only | propext |
| C131 | Verif.Terminal.c131_gives_up | propext, Quot.sound |
| C131 | Verif.Terminal.c131_left | propext, Quot.sound |
| C132 | Verif.Opening.c132_echo | propext, Classical.choice, Quot.sound |
| C133 | Verif.Opening.c133_forward | propext, Classical.choice, Quot.sound |
| C133 | Verif.Opening.c133_redirect | propext, Classical.choice, Quot.sound |
| C133 | Verif.Opening.c133_busy | propext, Classical.choice, Quot.sound |
| C133 | Verif.Opening.c133_slot | propext, Classical.choice, Quot.sound |
| C133 | Verif.Opening.c133_unknown | propext, Classical.choice, Quot.sound |
| C134 | Verif.Opening.c134_counterexample | propext, Classical.choice, Quot.sound |
| C134 | Verif.Opening.c134_terminal_partial | propext, Classical.choice, Quot.sound |
| C134 | Verif.Opening.c134_slot | propext, Classical.choice, Quot.sound |
| C134 | Verif.Opening.c134_failed | propext, Classical.choice, Quot.sound |
| C135 | Verif.Opening.c135_refused | propext, Classical.choice, Quot.sound |
| C136 | Verif.Limits.c136_only_refuses | propext |
| C136 | Verif.Limits.c136_out_of_reach | propext, Classical.choice, Quot.sound |
| C136 | Verif.Limits.c136_exact | propext, Classical.choice, Quot.sound |
| C136 | Verif.Limits.c136_nested | propext, Quot.sound |
| C136 | Verif.Limits.c136_client | propext, Classical.choice, Quot.sound |
| C136 | Verif.Limits.c136_empty | propext, Classical.choice, Quot.sound |
| C136 | Verif.Limits.c136_message | propext, Classical.choice, Quot.sound |
| C137 | Verif.Limits.c137_only_refuses | propext, Classical.choice, Quot.sound |
| C137 | Verif.Limits.c137_iff | propext, Classical.choice, Quot.sound |
| C137 | Verif.Limits.c137_packets | propext, Classical.choice, Quot.sound |
| C138 | Verif.Exit.c138_ends | propext, Classical.choice, Quot.sound |
| C138 | Verif.Exit.c138_one_poll | propext, Classical.choice, Quot.sound |
| C138 | Verif.Exit.c138_only_then | propext, Classical.choice, Quot.sound |
| C138 | Verif.Exit.c138_raised | propext, Classical.choice, Quot.sound |
| C138 | Verif.Exit.c138_returned | propext, Classical.choice, Quot.sound |
| C138 | Verif.Exit.c138_clock_ended | propext, Classical.choice, Quot.sound |
| C138 | Verif.Exit.c138_killed | propext, Classical.choice, Quot.sound |
| C138 | Verif.Exit.c138_polls_on | propext, Quot.sound |
| C138 | Verif.Exit.c138_interrupt | propext, Classical.choice, Quot.sound |
| C139 | Verif.Exit.c139_counterexample | propext, Classical.choice, Quot.sound |
| C139 | Verif.Exit.c139_never | propext, Classical.choice, Quot.sound |
| C139 | Verif.Exit.c139_manager_partial | propext, Classical.choice, Quot.sound |
| C140 | Verif.ScanFs.c140_listed_fetched | propext, Classical.choice, Quot.sound |
| C141 | Verif.ScanFs.c141_contained_partial | propext, Classical.choice, Quot.sound |
| C141 | Verif.ScanFs.c141_counterexample | propext, Classical.choice, Quot.sound |
| C142 | Verif.ScanFs.c142_ends | propext, Classical.choice, Quot.sound |
| C142 | Verif.ScanFs.c142_exact | propext, Classical.choice, Quot.sound |
| C143 | Verif.Props.c143_first_bytes | propext, Classical.choice, Quot.sound |
| C143 | Verif.Props.c143_incomplete | propext, Classical.choice, Quot.sound |
| C144 | Verif.PortForward.c144_counterexample | propext |
| C144 | Verif.PortForward.c144_closed_partial | propext, Quot.sound |
| C144 | Verif.PortForward.c144_only_then | propext, Classical.choice, Quot.sound |
| C144 | Verif.PortForward.c144_iff | propext, Classical.choice, Quot.sound |
| C145 | Verif.Slots.c145_slots | propext, Classical.choice, Quot.sound |
| C145 | Verif.Slots.c145_started | propext, Classical.choice, Quot.sound |
| C145 | Verif.Slots.c145_not_started | propext, Classical.choice, Quot.sound |
| C145 | Verif.Slots.c145_other_events | propext, Classical.choice, Quot.sound |
| C145 | Verif.Slots.c145_ended | propext, Classical.choice, Quot.sound |
| C146 | Verif.Scan.c146_found_partial | propext, Classical.choice, Quot.sound |
| C146 | Verif.Scan.c146_no_limit | propext, Classical.choice, Quot.sound |
| C146 | Verif.Scan.c146_own_path_false | propext, Classical.choice, Quot.sound |
| C146 | Verif.Scan.c146_lost_false | propext, Classical.choice, Quot.sound |
| C146 | Verif.ScanFs.c146_agent_false | propext, Classical.choice, Quot.sound |
| C147 | Verif.ScanFs.c147_once_partial | propext, Classical.choice, Quot.sound |
| C147 | Verif.ScanFs.c147_same | propext, Classical.choice, Quot.sound |
| C147 | Verif.ScanFs.c147_there | propext, Classical.choice, Quot.sound |
| C147 | Verif.ScanFs.c147_root_false | propext, Classical.choice, Quot.sound |
| C148 | Verif.Dispatcher.c148_registered | propext, Classical.choice, Quot.sound |
| C148 | Verif.Dispatcher.c148_order | propext, Classical.choice, Quot.sound |
| C148 | Verif.Dispatcher.c148_disabled | propext, Classical.choice, Quot.sound |
| C148 | Verif.Dispatcher.c148_client | propext, Classical.choice, Quot.sound |
| C149 | Verif.Packets.c149_name | propext, Classical.choice, Quot.sound |
| C149 | Verif.Packets.c149_unknown | propext, Classical.choice, Quot.sound |
| C149 | Verif.Packets.c149_agent | propext, Classical.choice, Quot.sound |
| C150 | Verif.Shlex.c150_words | propext, Classical.choice, Quot.sound |
| C150 | Verif.Shlex.c150_unambiguous | propext, Classical.choice, Quot.sound |
| C150 | Verif.Shlex.c150_quoted | propext, Classical.choice, Quot.sound |
| C150 | Verif.Shlex.c150_exec | propext, Classical.choice, Quot.sound |
| C150 | Verif.Shlex.c150_raises | propext, Classical.choice, Quot.sound |
| C151 | Verif.JsonText.c151_reads | propext, Classical.choice, Quot.sound |
| C151 | Verif.JsonText.c151_unambiguous | propext, Classical.choice, Quot.sound |
| C151 | Verif.JsonText.c151_writes | propext, Classical.choice, Quot.sound |
| C151 | Verif.JsonText.c151_faithful | propext, Classical.choice, Quot.sound |
| C151 | Verif.JsonText.c151_ascii | propext, Classical.choice, Quot.sound |
| C151 | Verif.JsonText.c151_bytes | propext, Classical.choice, Quot.sound |
| C151 | Verif.JsonText.c151_encodings | propext, Classical.choice, Quot.sound |
| C151 | Verif.JsonText.c151_roundtrip | propext, Classical.choice, Quot.sound |
| C152 | Verif.RpcBytes.c152_reply | propext, Classical.choice, Quot.sound |
| C152 | Verif.RpcBytes.c152_call | propext, Classical.choice, Quot.sound |
| C152 | Verif.RpcBytes.c152_batch | propext, Classical.choice, Quot.sound |
| C153 | Verif.ScanJson.c153_read | propext, Classical.choice, Quot.sound |
| C153 | Verif.ScanWire.c153_server | propext, Classical.choice, Quot.sound |
| C154 | Verif.Agent.c154_file | propext, Classical.choice, Quot.sound |
| C154 | Verif.Agent.c154_command | propext, Classical.choice, Quot.sound |
| C154 | Verif.Agent.c154_refused | propext, Classical.choice, Quot.sound |
| C155 | Verif.JsonText.c155_cut | propext, Classical.choice, Quot.sound |
| C155 | Verif.JsonText.c155_written | propext, Classical.choice, Quot.sound |
| C155 | Verif.ScanWire.c155_file | propext, Classical.choice, Quot.sound |
| C155 | Verif.ScanWire.c155_server | propext, Classical.choice, Quot.sound |
| C156 | Verif.Signals.c156_child_partial | propext, Quot.sound |
| C156 | Verif.Signals.c156_receive_thread | propext, Quot.sound |
| C156 | Verif.Signals.c156_counterexample | propext, Quot.sound |
| C156 | Verif.Signals.c156_late | propext, Quot.sound |
| C156 | Verif.Signals.c156_once | propext, Quot.sound |
| C156 | Verif.Signals.c156_killed | propext, Classical.choice, Quot.sound |
| C156 | Verif.Signals.c156_births | propext, Quot.sound |
| C156 | Verif.Signals.c156_refused | propext, Quot.sound |
| C157 | Verif.Channel.c157_exact | propext, Classical.choice, Quot.sound |
| C157 | Verif.Channel.c157_iff | propext, Classical.choice, Quot.sound |
| C157 | Verif.Opening.c157_terminal_partial | propext, Classical.choice, Quot.sound |
| C157 | Verif.Opening.c157_connection_partial | propext, Classical.choice, Quot.sound |
| C157 | Verif.Opening.c157_counterexample | propext, Classical.choice, Quot.sound |
| C158 | Verif.ServerBytes.c158_meta | propext, Classical.choice, Quot.sound |
| C158 | Verif.ServerBytes.c158_identity | propext, Classical.choice, Quot.sound |
| C158 | Verif.ServerBytes.c158_tags | propext, Classical.choice, Quot.sound |
| C158 | Verif.ServerBytes.c158_authenticated | propext, Classical.choice, Quot.sound |
| C159 | Verif.ScanFs.c159_found | propext, Classical.choice, Quot.sound |
| C159 | Verif.ScanFs.c159_missed | propext, Classical.choice, Quot.sound |
| C160 | Verif.CommandLine.c160_iff | propext, Classical.choice, Quot.sound |
| C160 | Verif.CommandLine.c160_unambiguous | propext, Classical.choice, Quot.sound |
| C160 | Verif.CommandLine.c160_exit | propext, Classical.choice, Quot.sound |
| C161 | Verif.CommandLine.c161_equals_partial | propext, Classical.choice, Quot.sound |
| C161 | Verif.CommandLine.c161_value | propext, Classical.choice, Quot.sound |
| C161 | Verif.CommandLine.c161_iff | propext, Classical.choice, Quot.sound |
| C161 | Verif.CommandLine.c161_false | propext, Classical.choice, Quot.sound |
| C162 | Verif.CommandLine.c162_debug | propext, Classical.choice, Quot.sound |
| C162 | Verif.CommandLine.c162_traceback | propext, Classical.choice, Quot.sound |
| C162 | Verif.CommandLine.c162_text_iff | propext, Classical.choice, Quot.sound |
| C162 | Verif.CommandLine.c162_program | propext, Quot.sound |
| C162 | Verif.CommandLine.c162_space_false | propext, Classical.choice, Quot.sound |
| C163 | Verif.Props.Locks.c163_no_circle | propext, Quot.sound |
| C163 | Verif.Props.Locks.c163_end | propext, Classical.choice, Quot.sound |
| C163 | Verif.Props.Locks.c163_goes_on | propext, Classical.choice, Quot.sound |
| C163 | Verif.Props.Locks.c163_returned | propext, Quot.sound |
| C163 | Verif.Props.Locks.c163_alone | propext, Quot.sound |
| C163 | Verif.Props.Locks.c163_one_at_a_time | propext, Quot.sound |
| C164 | Verif.Props.Locks.c164_nobody | propext, Classical.choice, Quot.sound |
| C164 | Verif.Props.Locks.c164_scan | propext, Classical.choice, Quot.sound |
| C164 | Verif.Props.Locks.c164_connection | propext, Classical.choice, Quot.sound |
| C164 | Verif.Props.Locks.c164_http | propext, Classical.choice, Quot.sound |
| C164 | Verif.Props.Locks.c164_false | propext, Quot.sound |
| C164 | Verif.Props.Locks.c164_sync_false | propext, Quot.sound |
| C165 | Verif.Props.ChannelFile.c165_sent_partial | propext, Classical.choice, Quot.sound |
| C165 | Verif.Props.ChannelFile.c165_exact | propext, Classical.choice, Quot.sound |
| C165 | Verif.Props.ChannelFile.c165_printed | propext, Classical.choice, Quot.sound |
| C165 | Verif.Props.ChannelFile.c165_closed_false | propext, Classical.choice, Quot.sound |
| C165 | Verif.Props.ChannelFile.c165_stdout_false | propext, Classical.choice, Quot.sound |
| C166 | Verif.Links.c166_partial | propext, Classical.choice, Quot.sound |
| C166 | Verif.Links.c166_only | propext |
| C166 | Verif.Links.c166_iff | propext, Classical.choice, Quot.sound |
| C166 | Verif.Links.c166_counterexample | propext, Classical.choice, Quot.sound |
| C166 | Verif.Links.c166_request | propext, Classical.choice, Quot.sound |
| C166 | Verif.Links.c166_request_counterexample | propext, Classical.choice, Quot.sound |
| C167 | Verif.Links.c167_inside_partial | propext, Classical.choice, Quot.sound |
| C167 | Verif.Links.c167_iff | propext, Classical.choice, Quot.sound |
| C167 | Verif.Links.c167_same | propext, Classical.choice, Quot.sound |
| C167 | Verif.Links.c167_counterexample | propext, Classical.choice, Quot.sound |
| C168 | Verif.Opening.c168_partial | propext, Classical.choice, Quot.sound |
| C168 | Verif.Opening.c168_silent | propext, Classical.choice, Quot.sound |
| C168 | Verif.Opening.c168_iff | propext, Classical.choice, Quot.sound |
| C168 | Verif.Opening.c168_counterexample | propext, Classical.choice, Quot.sound |
| C169 | Verif.Names.c169_listed | propext, Classical.choice, Quot.sound |
| C169 | Verif.Names.c169_opened | propext, Classical.choice, Quot.sound |
| C169 | Verif.Names.c169_distinct | propext, Classical.choice, Quot.sound |
| C169 | Verif.Names.c169_path | propext, Classical.choice, Quot.sound |
| C169 | Verif.Names.fs_decode | propext, Classical.choice, Quot.sound |
| C170 | Verif.Names.c170_partial | propext, Classical.choice, Quot.sound |
| C170 | Verif.Names.c170_iff | propext, Classical.choice, Quot.sound |
| C170 | Verif.Names.c170_unnamed | propext, Classical.choice, Quot.sound |
| C170 | Verif.Names.c170_counterexample | propext, Classical.choice, Quot.sound |
| C171 | Verif.Names.c171_partial | propext, Classical.choice, Quot.sound |
| C171 | Verif.Names.c171_iff | propext, Classical.choice, Quot.sound |
| C171 | Verif.Names.c171_other | propext, Classical.choice, Quot.sound |
| C171 | Verif.Names.c171_message | propext, Classical.choice, Quot.sound |
| C171 | Verif.Names.c171_counterexample | propext |
| C172 | Verif.Names.c172_partial | propext, Classical.choice, Quot.sound |
| C172 | Verif.Names.c172_iff | propext, Classical.choice, Quot.sound |
| C172 | Verif.Names.c172_other | propext, Classical.choice, Quot.sound |
| C172 | Verif.Names.c172_message | propext, Classical.choice, Quot.sound |
| C172 | Verif.Names.c172_counterexample | propext, Classical.choice, Quot.sound |
| C173 | Verif.RemoteFiles.c173_closed_partial | propext, Classical.choice, Quot.sound |
| C173 | Verif.RemoteFiles.c173_failed_partial | propext, Classical.choice, Quot.sound |
| C173 | Verif.RemoteFiles.c173_left | propext, Classical.choice, Quot.sound |
| C173 | Verif.RemoteFiles.c173_kept | propext, Classical.choice, Quot.sound |
| C173 | Verif.RemoteFiles.c173_no_request | propext, Classical.choice, Quot.sound |
| C173 | Verif.RemoteFiles.c173_counterexample_lost | propext, Classical.choice, Quot.sound |
| C173 | Verif.RemoteFiles.c173_counterexample_failed | propext, Classical.choice, Quot.sound |
| C174 | Verif.Agent.c174_partial | propext, Classical.choice, Quot.sound |
| C174 | Verif.Agent.c174_started | propext, Classical.choice, Quot.sound |
| C174 | Verif.Agent.c174_counterexample | propext, Classical.choice, Quot.sound |
| C175 | Verif.WSClient.c175_partial | propext, Classical.choice, Quot.sound |
| C175 | Verif.WSClient.c175_listed | propext, Classical.choice, Quot.sound |
| C175 | Verif.WSClient.c175_iff | propext, Classical.choice, Quot.sound |
| C175 | Verif.WSClient.c175_disconnect | propext, Classical.choice, Quot.sound |
| C175 | Verif.WSClient.c175_unbounded | propext, Classical.choice, Quot.sound |
| C175 | Verif.WSClient.c175_counterexample | propext, Classical.choice, Quot.sound |
| C176 | Verif.Interference.c176_partial | propext, Classical.choice, Quot.sound |
| C176 | Verif.Interference.c176_new | propext, Classical.choice, Quot.sound |
| C176 | Verif.Interference.c176_stored | propext, Quot.sound |
| C176 | Verif.Interference.c176_agrees | propext, Classical.choice, Quot.sound |
| C176 | Verif.Interference.c176_counterexample | propext, Classical.choice, Quot.sound |
| C176 | Verif.Interference.c176_counterexample_copy | propext, Classical.choice, Quot.sound |
| C176 | Verif.Interference.c176_up_false | propext, Classical.choice, Quot.sound |
| C176 | Verif.Interference.c176_into | propext, Classical.choice, Quot.sound |
| C177 | Verif.Interference.c177_quiet_partial | propext, Quot.sound |
| C177 | Verif.Interference.c177_appended_partial | propext, Quot.sound |
| C177 | Verif.Interference.c177_bytes | propext, Quot.sound |
| C177 | Verif.Interference.c177_counterexample | propext |
| C177 | Verif.Interference.c177_endless | propext, Classical.choice, Quot.sound |
| C178 | Verif.Interference.c178_partial | propext, Quot.sound |
| C178 | Verif.Interference.c178_refused_iff | propext, Quot.sound |
| C178 | Verif.Interference.c178_counterexample | none |
| C178 | Verif.Interference.c178_unbounded | propext, Quot.sound |
| C178 | Verif.Interference.c178_agrees | propext, Classical.choice, Quot.sound |
| C179 | Verif.Scan.c179_given | propext, Classical.choice, Quot.sound |
| C179 | Verif.Scan.c179_ends | propext, Classical.choice, Quot.sound |
| C179 | Verif.Scan.c179_agrees | none |
| C179 | Verif.Scan.c179_endless_false | propext, Classical.choice, Quot.sound |
| C180 | Verif.Scan.c180_partial | propext, Classical.choice, Quot.sound |
| C180 | Verif.Scan.c180_file | propext, Classical.choice, Quot.sound |
| C180 | Verif.Scan.c180_no_file | propext, Classical.choice, Quot.sound |
| C180 | Verif.Scan.c180_missed_false | propext, Classical.choice, Quot.sound |
| C180 | Verif.Scan.c180_twice_false | propext, Classical.choice, Quot.sound |
| C180 | Verif.Scan.c180_renamed_false | propext, Classical.choice, Quot.sound |
| C181 | Verif.FileChanging.c181_bytes | propext, Classical.choice, Quot.sound |
| C181 | Verif.FileChanging.c181_appended_partial | propext, Quot.sound |
| C181 | Verif.FileChanging.c181_agrees | propext, Quot.sound |
| C181 | Verif.FileChanging.c181_counterexample | propext, Classical.choice, Quot.sound |
| C182 | Verif.FileChanging.c182_iff | propext, Classical.choice, Quot.sound |
| C182 | Verif.FileChanging.c182_closed_partial | propext, Quot.sound |
| C182 | Verif.FileChanging.c182_endless | propext, Classical.choice, Quot.sound |
| C183 | Verif.CommandProcess.c183_partial | propext, Classical.choice, Quot.sound |
| C183 | Verif.CommandProcess.c183_right | propext, Classical.choice, Quot.sound |
| C183 | Verif.CommandProcess.c183_killed | propext, Classical.choice, Quot.sound |
| C183 | Verif.CommandProcess.c183_reads | propext, Quot.sound |
| C183 | Verif.CommandProcess.c183_leaves | propext, Quot.sound |
| C183 | Verif.CommandProcess.c183_counterexample | propext |
| C184 | Verif.CommandProcess.c184_shell | propext, Classical.choice, Quot.sound |
| C184 | Verif.CommandProcess.c184_partial | propext, Classical.choice, Quot.sound |
| C184 | Verif.CommandProcess.c184_others | propext |
| C184 | Verif.CommandProcess.c184_runs_on | propext, Classical.choice, Quot.sound |
| C184 | Verif.CommandProcess.c184_counterexample | propext |
| C185 | Verif.ScanCopy.c185_moment_partial | propext, Quot.sound |
| C185 | Verif.ScanCopy.c185_read_partial | propext, Classical.choice, Quot.sound |
| C185 | Verif.ScanCopy.c185_counterexample | propext, Classical.choice, Quot.sound |
| C186 | Verif.DiskMargin.c186_iff | propext, Classical.choice, Quot.sound |
| C186 | Verif.DiskMargin.c186_partial | propext, Classical.choice, Quot.sound |
| C186 | Verif.DiskMargin.c186_counterexample | propext, Classical.choice, Quot.sound |
| C186 | Verif.DiskMargin.c186_unbounded | propext, Classical.choice, Quot.sound |
| C187 | Verif.CommandLine.c187_iff | propext, Classical.choice, Quot.sound |
| C187 | Verif.CommandLine.c187_ends | propext, Classical.choice, Quot.sound |
| C187 | Verif.CommandLine.c187_else | propext, Classical.choice, Quot.sound |
| C188 | Verif.ScanWire.c188_starts | propext, Classical.choice, Quot.sound |
| C188 | Verif.ScanWire.c188_told | propext, Classical.choice, Quot.sound |
| C189 | Verif.MetaSync.c189_first | propext, Classical.choice, Quot.sound |
| C189 | Verif.MetaSync.c189_partial | propext, Classical.choice, Quot.sound |
| C189 | Verif.MetaSync.c189_counterexample | propext, Classical.choice, Quot.sound |
| C190 | Verif.Client.c190_partial | propext, Classical.choice, Quot.sound |
| C190 | Verif.Client.c190_silent | propext, Classical.choice, Quot.sound |
| C190 | Verif.Client.c190_counterexample | propext, Classical.choice, Quot.sound |
| C190 | Verif.Client.c190_unbounded | propext, Classical.choice, Quot.sound |
| C191 | Verif.ClockChange.c191_iff | propext, Quot.sound |
| C191 | Verif.ClockChange.c191_partial | propext, Quot.sound |
| C191 | Verif.ClockChange.c191_only | propext, Classical.choice, Quot.sound |
| C191 | Verif.ClockChange.c191_back | propext, Classical.choice, Quot.sound |
| C191 | Verif.ClockChange.c191_counterexample | none |
| C191 | Verif.ClockChange.c191_creeps | propext, Quot.sound |
| C192 | Verif.Terminal.c192_iff | propext, Classical.choice, Quot.sound |
| C192 | Verif.Terminal.c192_partial | propext, Classical.choice, Quot.sound |
| C192 | Verif.Terminal.c192_bounds | propext, Classical.choice, Quot.sound |
| C192 | Verif.Terminal.c192_counterexample | propext, Classical.choice, Quot.sound |
| C192 | Verif.Terminal.c192_unbounded | propext, Classical.choice, Quot.sound |
| C193 | Verif.RemoteDirectory.c193_chunk_partial | propext, Classical.choice, Quot.sound |
| C193 | Verif.RemoteDirectory.c193_first_partial | propext, Classical.choice, Quot.sound |
| C193 | Verif.RemoteDirectory.c193_final | propext, Classical.choice, Quot.sound |
| C193 | Verif.RemoteDirectory.c193_counterexample | propext, Classical.choice, Quot.sound |
| C193 | Verif.RemoteDirectory.c193_two_files | propext, Classical.choice, Quot.sound |
| C193 | Verif.RemoteDirectory.c193_doubled | propext, Classical.choice, Quot.sound |
| C193 | Verif.RemoteDirectory.c193_anew | propext, Classical.choice, Quot.sound |
| C194 | Verif.RemoteDirectory.c194_read | propext, Classical.choice, Quot.sound |
| C194 | Verif.RemoteDirectory.c194_close | propext, Classical.choice, Quot.sound |
| C194 | Verif.RemoteDirectory.c194_open_partial | propext, Classical.choice, Quot.sound |
| C194 | Verif.RemoteDirectory.c194_no_room | propext, Classical.choice, Quot.sound |
| C194 | Verif.RemoteDirectory.c194_counterexample | propext, Classical.choice, Quot.sound |
| C194 | Verif.RemoteDirectory.c194_cut | propext, Classical.choice, Quot.sound |
| C194 | Verif.RemoteDirectory.c194_changed | propext, Classical.choice, Quot.sound |
