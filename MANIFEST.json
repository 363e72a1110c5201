{
 "claims": [
  {
   "property": "C01",
   "status": "proved",
   "theorems": [
    "Verif.Props.c01_round_trip",
    "Verif.Props.c01_round_trip_any"
   ],
   "note": ""
  },
  {
   "property": "C02",
   "status": "proved",
   "theorems": [
    "Verif.Props.c02_canonical",
    "Verif.Props.c02_insertion_order",
    "Verif.Props.c02_unambiguous"
   ],
   "note": ""
  },
  {
   "property": "C03",
   "status": "proved",
   "theorems": [
    "Verif.Props.c03_self_delimiting",
    "Verif.Props.c03_prefix_free"
   ],
   "note": ""
  },
  {
   "property": "C04",
   "status": "proved",
   "theorems": [
    "Verif.Props.c04_encode_iff_supported",
    "Verif.Props.c04_unsupported_raises",
    "Verif.Props.c04_encode_check_ends"
   ],
   "note": "bools are refused by the final assert's decode"
  },
  {
   "property": "C05",
   "status": "partial",
   "theorems": [
    "Verif.Props.c05_counterexample",
    "Verif.Props.c05_diverges",
    "Verif.Props.c05_hang_iff",
    "Verif.Props.c05_terminates_partial",
    "Verif.Props.c05_terminates_on_encodings_partial"
   ],
   "note": "false of the code: a string length without ':' makes decode spin at end of input; exact set of such inputs proved"
  },
  {
   "property": "C06",
   "status": "proved",
   "theorems": [
    "Verif.Props.c06_truncated_not_accepted",
    "Verif.Props.c06_byte_string_cut_accepted"
   ],
   "note": "a cut top-level byte string is accepted (outside the claim, shown)"
  },
  {
   "property": "C07",
   "status": "proved",
   "theorems": [
    "Verif.Props.c07_decoded_clean",
    "Verif.Props.c07_re_encode"
   ],
   "note": ""
  },
  {
   "property": "C08",
   "status": "proved",
   "theorems": [
    "Verif.Props.c08_packet_round_trip",
    "Verif.Props.c08_flat_round_trip"
   ],
   "note": ""
  },
  {
   "property": "C09",
   "status": "proved",
   "theorems": [
    "Verif.Props.c09_from_bytes_sound",
    "Verif.Props.c09_from_bytes_complete"
   ],
   "note": ""
  },
  {
   "property": "C10",
   "status": "partial",
   "theorems": [
    "Verif.Props.c10_counterexample_empty_list",
    "Verif.Props.c10_counterexample_bad_integer",
    "Verif.Props.c10_counterexample_unhashable",
    "Verif.Props.c10_counterexample_overflow",
    "Verif.Props.c10_counterexample_hang",
    "Verif.Props.c10_escape_iff",
    "Verif.Props.c10_packet_errors_partial",
    "Verif.Props.c10_encoded_values_partial"
   ],
   "note": "false of the code: IndexError, ValueError, TypeError, OverflowError escape and one class of inputs hangs; exact set of escaping inputs proved"
  },
  {
   "property": "C11",
   "status": "proved",
   "theorems": [
    "Verif.Props.c11_create_iff",
    "Verif.Props.c11_create_raises",
    "Verif.Props.c11_position_or_keyword",
    "Verif.Props.c11_unregistered"
   ],
   "note": ""
  },
  {
   "property": "C12",
   "status": "proved",
   "theorems": [
    "Verif.Props.c12_registry_exact",
    "Verif.Props.c12_duplicates_refused",
    "Verif.Props.c12_numbers_unique",
    "Verif.Props.c12_types_unique"
   ],
   "note": ""
  },
  {
   "property": "C13",
   "status": "proved",
   "theorems": [
    "Verif.Props.c13_repr_hides_password",
    "Verif.Props.c13_password_never_shown"
   ],
   "note": "the Python type of a wrong password value is shown"
  },
  {
   "property": "C89",
   "status": "proved",
   "theorems": [
    "Verif.Props.c89_wire_format",
    "Verif.Props.c89_wire_total",
    "Verif.Props.c89_wire_iff",
    "Verif.Library.bytes_order"
   ],
   "note": ""
  },
  {
   "property": "C22",
   "status": "proved",
   "theorems": [
    "Verif.Props.c22_lossless_stream",
    "Verif.Props.c22_no_callback"
   ],
   "note": ""
  },
  {
   "property": "C23",
   "status": "proved",
   "theorems": [
    "Verif.Props.c23_read_exact",
    "Verif.Props.c23_size",
    "Verif.Props.c23_truthy"
   ],
   "note": ""
  },
  {
   "property": "C24",
   "status": "partial",
   "theorems": [
    "Verif.Props.c24_close_once",
    "Verif.Props.c24_no_callback_after_close",
    "Verif.Props.c24_write_race_counterexample",
    "Verif.Props.c24_close_race_counterexample",
    "Verif.Props.c24_in_flight_only_partial",
    "Verif.Props.c24_silent_partial"
   ],
   "note": "the close notification and the callbacks are proved; \"nothing is sent after close\" is false of the code (check-then-send race), proved for calls that begin after the close"
  },
  {
   "property": "C25",
   "status": "partial",
   "theorems": [
    "Verif.Props.c25_counterexample",
    "Verif.Props.c25_later_data_partial",
    "Verif.Props.c25_earlier_data_readable_partial",
    "Verif.Props.c25_iff"
   ],
   "note": "false of the code: data buffered before the callback was set is never delivered to it"
  },
  {
   "property": "C14",
   "status": "partial",
   "theorems": [
    "Verif.Props.c14_counterexample",
    "Verif.Props.c14_dispatch_iff_partial",
    "Verif.Props.c14_lists_partial",
    "Verif.Props.c14_bytes_partial"
   ],
   "note": "as stated false: a byte string whose bytes read as integers is dispatched like a list; exact condition proved, and the statement as written for all messages that decode to a list"
  },
  {
   "property": "C15",
   "status": "partial",
   "theorems": [
    "Verif.Props.c15_counterexample",
    "Verif.Props.c15_loop_goes_on_partial",
    "Verif.Props.c15_iff",
    "Verif.Props.c15_errors_logged_partial",
    "Verif.Props.c15_no_error",
    "Verif.Props.c15_blamed"
   ],
   "note": "false for messages on which the decoder hangs (C05); proved for all histories without them"
  },
  {
   "property": "C16",
   "status": "proved",
   "theorems": [
    "Verif.Props.c16_ping_pong",
    "Verif.Props.c16_after_any_history"
   ],
   "note": "for histories in which no message makes the decoder hang (C05)"
  },
  {
   "property": "C17",
   "status": "proved",
   "theorems": [
    "Verif.Props.c17_unknown_no_effect",
    "Verif.Props.c17_no_call_no_effect"
   ],
   "note": "for messages on which the decoder ends (C05)"
  },
  {
   "property": "C18",
   "status": "proved",
   "theorems": [
    "Verif.Props.c18_one_handshake",
    "Verif.Props.c18_only_join"
   ],
   "note": ""
  },
  {
   "property": "C19",
   "status": "proved",
   "theorems": [
    "Verif.Props.c19_poll_announces",
    "Verif.Props.c19_not_again"
   ],
   "note": ""
  },
  {
   "property": "C20",
   "status": "partial",
   "theorems": [
    "Verif.Props.c20_race_counterexample",
    "Verif.Props.c20_closed_silent_partial",
    "Verif.Props.c20_check_after_close_partial",
    "Verif.Props.c20_iff"
   ],
   "note": "false exactly when close() runs between the check and the assignment in handle_set_identity; proved when the handler does not overlap close()"
  },
  {
   "property": "C21",
   "status": "partial",
   "theorems": [
    "Verif.Props.c21_counterexample",
    "Verif.Props.c21_exact_calls_partial",
    "Verif.Props.c21_once_partial",
    "Verif.Props.c21_result_once_partial"
   ],
   "note": "false of the code: callbacks stay registered after a disconnect; the exact calls are proved for every history"
  },
  {
   "property": "C26",
   "status": "partial",
   "theorems": [
    "Verif.Props.c26_counterexample",
    "Verif.Props.c26_delivers_partial",
    "Verif.Props.c26_lost"
   ],
   "note": "false of the code: channels closed by a disconnect stay in the table; proved exactly for the numbers without a closed channel in the table (c26_delivers_partial, c26_lost)"
  },
  {
   "property": "C27",
   "status": "proved",
   "theorems": [
    "Verif.Props.c27_independent",
    "Verif.Props.c27_other_number"
   ],
   "note": ""
  },
  {
   "property": "C28",
   "status": "proved",
   "theorems": [
    "Verif.Props.c28_fresh"
   ],
   "note": ""
  },
  {
   "property": "C90",
   "status": "proved",
   "theorems": [
    "Verif.Props.c90_own_traffic",
    "Verif.Props.c90_sends"
   ],
   "note": ""
  },
  {
   "property": "C29",
   "status": "proved",
   "theorems": [
    "Verif.Limiter.c29_bounds",
    "Verif.Limiter.c29_refused_iff",
    "Verif.Limiter.c29_refusal_changes_nothing"
   ],
   "note": "all schedules of any number of attempts"
  },
  {
   "property": "C30",
   "status": "proved",
   "theorems": [
    "Verif.Limiter.c30_slots",
    "Verif.Limiter.c30_released_once",
    "Verif.Limiter.c30_all_ended"
   ],
   "note": "counter equals admitted minus gone; decrement never raises"
  },
  {
   "property": "C31",
   "status": "proved",
   "theorems": [
    "Verif.Services.c31_refused",
    "Verif.Services.c31_reaches",
    "Verif.Services.c31_http",
    "Verif.Services.c31_launched"
   ],
   "note": "all five launchers"
  },
  {
   "property": "C32",
   "status": "proved",
   "theorems": [
    "Verif.Services.c32_intact",
    "Verif.Services.c32_prefix",
    "Verif.Services.c32_sizes",
    "Verif.Services.c32_path",
    "Verif.Services.c32_absolute"
   ],
   "note": "all contents, failures and close points"
  },
  {
   "property": "C33",
   "status": "partial",
   "theorems": [
    "Verif.Services.c33_close_last_partial",
    "Verif.Services.c33_iff",
    "Verif.Services.c33_ioerror_open",
    "Verif.Services.c33_ioerror_read",
    "Verif.Services.c33_released",
    "Verif.Services.c33_counterexample"
   ],
   "note": "false when the path in the instruction is not a string: the channel is then never closed (c33_counterexample); proved for all string paths"
  },
  {
   "property": "C34",
   "status": "proved",
   "theorems": [
    "Verif.Services.c34_written",
    "Verif.Services.c34_sent",
    "Verif.Services.c34_prefix"
   ],
   "note": "all poll results, reads and close points"
  },
  {
   "property": "C35",
   "status": "partial",
   "theorems": [
    "Verif.Services.c35_end_partial",
    "Verif.Services.c35_iff",
    "Verif.Services.c35_released",
    "Verif.Services.c35_counterexample"
   ],
   "note": "false when the child process can not be created: no complete message and no close (c35_counterexample); proved otherwise"
  },
  {
   "property": "C36",
   "status": "partial",
   "theorems": [
    "Verif.Services.c36_ends_partial",
    "Verif.Services.c36_counterexample",
    "Verif.Services.c36_counterexample'",
    "Verif.Services.c36_iff"
   ],
   "note": "false on Linux, where a drained pipe reports POLLHUP without POLLIN: the loop then runs for ever; proved when the end of the output is reported as readable, or the channel closes, or poll raises; c36_iff says exactly when it ends"
  },
  {
   "property": "C37",
   "status": "proved",
   "theorems": [
    "Verif.Services.c37_echo"
   ],
   "note": "all message sequences from the server"
  },
  {
   "property": "C38",
   "status": "proved",
   "theorems": [
    "Verif.PortForward.c38_in_order",
    "Verif.PortForward.c38_all_sent"
   ],
   "note": "all interleavings of the receive thread with the two steps of connecting"
  },
  {
   "property": "C39",
   "status": "partial",
   "theorems": [
    "Verif.PortForward.c39_prefix_partial",
    "Verif.PortForward.c39_iff",
    "Verif.PortForward.c39_counterexample"
   ],
   "note": "false: the buffer is dropped when sendall raises, and later data is still sent; proved when a failed connection accepts nothing more"
  },
  {
   "property": "C40",
   "status": "proved",
   "theorems": [
    "Verif.PortForward.c40_forwarded",
    "Verif.PortForward.c40_no_waiting"
   ],
   "note": "all schedules of all threads"
  },
  {
   "property": "C41",
   "status": "partial",
   "theorems": [
    "Verif.PortForward.c41_isolated_partial",
    "Verif.PortForward.c41_apart_partial",
    "Verif.PortForward.c41_event_iff",
    "Verif.PortForward.c41_counterexample",
    "Verif.PortForward.c41_counterexample_for_ever"
   ],
   "note": "false: one close event is shared by all connections and never cleared; proved for schedules in which no thread has seen an error (c41_event_iff says exactly when)"
  },
  {
   "property": "C42",
   "status": "partial",
   "theorems": [
    "Verif.PortForward.c42_ends_partial",
    "Verif.PortForward.c42_error_ends_partial",
    "Verif.PortForward.c42_ends_iff",
    "Verif.PortForward.c42_counterexample"
   ],
   "note": "false: an empty read only leaves the inner loop, the thread polls for ever; proved for a closed channel, a failing poll and error events that are not readable"
  },
  {
   "property": "C43",
   "status": "partial",
   "theorems": [
    "Verif.PortForward.c43_closes_partial",
    "Verif.PortForward.c43_iff",
    "Verif.PortForward.c43_released",
    "Verif.PortForward.c43_counterexample"
   ],
   "note": "false when no time has elapsed on the clock (division by zero in the finally clause); proved otherwise; the slot is released in all cases"
  },
  {
   "property": "C44",
   "status": "partial",
   "theorems": [
    "Verif.PortForward.c44_by_name",
    "Verif.PortForward.c44_by_port_total",
    "Verif.PortForward.c44_by_port_partial",
    "Verif.PortForward.c44_agent",
    "Verif.PortForward.c44_counterexample",
    "Verif.PortForward.c44_by_port_exact",
    "Verif.PortForward.c44_by_port_iff"
   ],
   "note": "by name proved; by port false when a name is added again for another port, proved otherwise, in particular for the services of the agent; c44_by_port_iff says exactly when"
  },
  {
   "property": "C45",
   "status": "proved",
   "theorems": [
    "Verif.PortForward.c45_open_name",
    "Verif.PortForward.c45_bad_route",
    "Verif.PortForward.c45_open_port",
    "Verif.PortForward.c45_neither",
    "Verif.PortForward.c45_redirect"
   ],
   "note": "all tables and requests"
  },
  {
   "property": "C46",
   "status": "partial",
   "theorems": [
    "Verif.Terminal.c46_message",
    "Verif.Terminal.c46_complete_partial",
    "Verif.Terminal.c46_counterexample",
    "Verif.Terminal.c46_iff"
   ],
   "note": "proved for messages that arrive while the terminal runs; messages that arrive before the process is started are lost and the channel is closed"
  },
  {
   "property": "C47",
   "status": "proved",
   "theorems": [
    "Verif.Terminal.c47_hangup_once",
    "Verif.Terminal.c47_kill_once",
    "Verif.Terminal.c47_kill_late",
    "Verif.Terminal.c47_kill_sent",
    "Verif.Terminal.c47_reaped_last"
   ],
   "note": "close is modelled as called by the receive thread only, its only caller in the agent"
  },
  {
   "property": "C48",
   "status": "partial",
   "theorems": [
    "Verif.Terminal.c48_signalled_partial",
    "Verif.Terminal.c48_iff",
    "Verif.Terminal.c48_state",
    "Verif.Terminal.c48_counterexample",
    "Verif.Terminal.c48_counterexample_early"
   ],
   "note": "false for a close before the process id is stored, proved otherwise"
  },
  {
   "property": "C49",
   "status": "partial",
   "theorems": [
    "Verif.Terminal.c49_size_partial",
    "Verif.Terminal.c49_overlap_partial",
    "Verif.Terminal.c49_counterexample_large",
    "Verif.Terminal.c49_counterexample_race",
    "Verif.Terminal.c49_exact"
   ],
   "note": "proved for sizes from 0 to 32767 and calls that do not overlap; false for larger sizes and for a request that overlaps with the start"
  },
  {
   "property": "C50",
   "status": "partial",
   "theorems": [
    "Verif.Terminal.c50_output_partial",
    "Verif.Terminal.c50_released",
    "Verif.Terminal.c50_counterexample"
   ],
   "note": "forwarding proved; the close of the channel is never requested"
  },
  {
   "property": "C51",
   "status": "partial",
   "theorems": [
    "Verif.Terminal.c51_exact_partial",
    "Verif.Terminal.c51_never_runs",
    "Verif.Terminal.c51_iff",
    "Verif.Terminal.c51_counterexample"
   ],
   "note": "proved for accounts that exist; with an unknown user or group the command runs as the agent"
  },
  {
   "property": "C92",
   "status": "proved",
   "theorems": [
    "Verif.Terminal.c92_distinct",
    "Verif.Terminal.c92_launched",
    "Verif.Terminal.c92_known",
    "Verif.Terminal.c92_live_kept",
    "Verif.Terminal.c92_close_all"
   ],
   "note": ""
  },
  {
   "property": "C52",
   "status": "proved",
   "theorems": [
    "Verif.RemoteDirectory.c52_inside",
    "Verif.RemoteDirectory.c52_refused_iff",
    "Verif.RemoteDirectory.c52_refused_nothing"
   ],
   "note": "by the text of the path; symbolic links are the subject of C125"
  },
  {
   "property": "C53",
   "status": "partial",
   "theorems": [
    "Verif.RemoteDirectory.c53_inside_partial",
    "Verif.RemoteDirectory.c53_touched",
    "Verif.RemoteDirectory.c53_anywhere",
    "Verif.RemoteDirectory.c53_counterexample_read",
    "Verif.RemoteDirectory.c53_counterexample_close",
    "Verif.RemoteDirectory.c53_counterexample_open",
    "Verif.Library.text_pieces"
   ],
   "note": "proved for relative ids without ..; false for absolute ids and ids that go up, which the agent does not reject"
  },
  {
   "property": "C54",
   "status": "partial",
   "theorems": [
    "Verif.RemoteDirectory.c54_isolated_partial",
    "Verif.RemoteDirectory.c54_plain_ids",
    "Verif.RemoteDirectory.c54_same_iff",
    "Verif.RemoteDirectory.c54_closed",
    "Verif.RemoteDirectory.c54_close_twice",
    "Verif.RemoteDirectory.c54_counterexample"
   ],
   "note": "proved for relative ids that do not go up; two other ids may name the same snapshot"
  },
  {
   "property": "C55",
   "status": "proved",
   "theorems": [
    "Verif.RemoteDirectory.c55_slice",
    "Verif.RemoteDirectory.c55_reassemble"
   ],
   "note": ""
  },
  {
   "property": "C56",
   "status": "partial",
   "theorems": [
    "Verif.RemoteDirectory.c56_margin_partial",
    "Verif.RemoteDirectory.c56_refused_partial",
    "Verif.RemoteDirectory.c56_only",
    "Verif.RemoteDirectory.c56_unknown_size_false",
    "Verif.RemoteDirectory.c56_iff"
   ],
   "note": "false if the size of the file cannot be determined: there is no check then; c56_iff says exactly when a request is refused"
  },
  {
   "property": "C57",
   "status": "partial",
   "theorems": [
    "Verif.RemoteDirectory.c57_open",
    "Verif.RemoteDirectory.c57_read",
    "Verif.RemoteDirectory.c57_read_data",
    "Verif.RemoteDirectory.c57_write_partial",
    "Verif.RemoteDirectory.c57_counterexample",
    "Verif.RemoteDirectory.c57_unanswered_iff"
   ],
   "note": "false for write requests whose device path is not UTF-8, proved otherwise; exactly these get no answer"
  },
  {
   "property": "C58",
   "status": "proved",
   "theorems": [
    "Verif.RemoteDirectory.c58_assembled",
    "Verif.RemoteDirectory.c58_stored",
    "Verif.RemoteDirectory.c58_success",
    "Verif.RemoteDirectory.c58_failed",
    "Verif.RemoteDirectory.c58_free",
    "Verif.RemoteDirectory.c58_directory",
    "Verif.RemoteDirectory.c58_directory_failed",
    "Verif.RemoteDirectory.c58_nul"
   ],
   "note": "if the server names a directory as device path there is nothing to assemble; see c58_directory, C59 and C60"
  },
  {
   "property": "C59",
   "status": "proved",
   "theorems": [
    "Verif.RemoteDirectory.c59_first_free",
    "Verif.RemoteDirectory.c59_all_taken",
    "Verif.RemoteDirectory.c59_no_overwrite",
    "Verif.RemoteDirectory.c59_kept",
    "Verif.Library.c59_names",
    "Verif.Library.path_parts",
    "Verif.Library.name_extension"
   ],
   "note": "no other program creates the file between the check and the rename; c59_kept also covers directories named as device path; c59_names spells the names out"
  },
  {
   "property": "C60",
   "status": "partial",
   "theorems": [
    "Verif.RemoteDirectory.c60_inside_partial",
    "Verif.RemoteDirectory.c60_touched",
    "Verif.RemoteDirectory.c60_counterexample_path",
    "Verif.RemoteDirectory.c60_counterexample_device",
    "Verif.RemoteDirectory.c60_counterexample_move",
    "Verif.RemoteDirectory.c60_counterexample_directory"
   ],
   "note": "proved for tame ids, device paths of files in the download folder and paths without ..; the agent checks none of these"
  },
  {
   "property": "C61",
   "status": "proved",
   "theorems": [
    "Verif.RemoteDirectory.c61_failed_chunk",
    "Verif.RemoteDirectory.c61_failed_first",
    "Verif.RemoteDirectory.c61_cases"
   ],
   "note": ""
  },
  {
   "property": "C93",
   "status": "proved",
   "theorems": [
    "Verif.RemoteDirectory.c93_refused",
    "Verif.RemoteDirectory.c93_reported"
   ],
   "note": "for downloads of files; a directory named as device path is not a download, shutil.move makes the missing directories for it"
  },
  {
   "property": "C62",
   "status": "proved",
   "theorems": [
    "Verif.Scan.c62_visible",
    "Verif.Scan.c62_there"
   ],
   "note": "the directories do not change during a scan"
  },
  {
   "property": "C63",
   "status": "partial",
   "theorems": [
    "Verif.Scan.c63_limit",
    "Verif.Scan.c63_ends_partial",
    "Verif.Scan.c63_once_partial",
    "Verif.Scan.c63_root_twice_false",
    "Verif.Scan.c63_link_twice_false",
    "Verif.Scan.c63_endless_false",
    "Verif.Scan.c63_other_filesystem_false"
   ],
   "note": "a scan with a depth limit always ends; without one it ends if inodes can be read; directories are listed once only below the root and only where entries have the inode of their directory, which is false for symbolic links and for links to the root"
  },
  {
   "property": "C64",
   "status": "proved",
   "theorems": [
    "Verif.Scan.c64_complete",
    "Verif.Scan.c64_ends",
    "Verif.Scan.c64_plain"
   ],
   "note": "the directories do not change during a scan"
  },
  {
   "property": "C65",
   "status": "partial",
   "theorems": [
    "Verif.DirectoryScanner.c65_at_most_one",
    "Verif.DirectoryScanner.c65_message",
    "Verif.DirectoryScanner.c65_answered_partial",
    "Verif.DirectoryScanner.c65_iff",
    "Verif.DirectoryScanner.c65_locked_false",
    "Verif.DirectoryScanner.c65_failed_false"
   ],
   "note": "false for requests made during a scan and for scans that fail: these are never answered"
  },
  {
   "property": "C66",
   "status": "proved",
   "theorems": [
    "Verif.DirectoryScanner.c66_alone",
    "Verif.DirectoryScanner.c66_stored"
   ],
   "note": ""
  },
  {
   "property": "C67",
   "status": "partial",
   "theorems": [
    "Verif.DirectoryScanner.c67_intact_partial",
    "Verif.DirectoryScanner.c67_prefix",
    "Verif.DirectoryScanner.c67_killed_false"
   ],
   "note": "false while the file is written and after a failed write"
  },
  {
   "property": "C68",
   "status": "proved",
   "theorems": [
    "Verif.JsonRpc.c68_returns",
    "Verif.JsonRpc.c68_counter"
   ],
   "note": "the id may also be a float of the same value"
  },
  {
   "property": "C69",
   "status": "partial",
   "theorems": [
    "Verif.JsonRpc.c69_standard",
    "Verif.JsonRpc.c69_other_partial",
    "Verif.JsonRpc.c69_raised",
    "Verif.JsonRpc.c69_false",
    "Verif.JsonRpc.c69_neither_iff"
   ],
   "note": "false for errors that are not an object and for codes that are a list or a dict; proved otherwise; exactly these raise something else"
  },
  {
   "property": "C70",
   "status": "partial",
   "theorems": [
    "Verif.JsonRpc.c70_exclusive_partial",
    "Verif.JsonRpc.c70_fresh_partial",
    "Verif.JsonRpc.c70_alone",
    "Verif.JsonRpc.c70_race_false"
   ],
   "note": "false for two threads inside new_call_id at once (there is no lock); proved for calls that do not overlap"
  },
  {
   "property": "C71",
   "status": "partial",
   "theorems": [
    "Verif.JsonRpc.c71_refused_iff",
    "Verif.JsonRpc.c71_unique_partial",
    "Verif.JsonRpc.c71_mixed_false",
    "Verif.JsonRpc.c71_unique_iff"
   ],
   "note": "false if a number is supplied that the client gives out itself; holds for text ids, the only ones used by the agent; c71_unique_iff says exactly when"
  },
  {
   "property": "C72",
   "status": "proved",
   "theorems": [
    "Verif.JsonRpc.c72_sent",
    "Verif.JsonRpc.c72_flag",
    "Verif.JsonRpc.c72_not_sent"
   ],
   "note": ""
  },
  {
   "property": "C73",
   "status": "proved",
   "theorems": [
    "Verif.JsonRpc.c73_accepted",
    "Verif.JsonRpc.c73_unreachable",
    "Verif.JsonRpc.c73_result",
    "Verif.JsonRpc.c73_error",
    "Verif.JsonRpc.c73_missing",
    "Verif.JsonRpc.c73_method"
   ],
   "note": ""
  },
  {
   "property": "C74",
   "status": "partial",
   "theorems": [
    "Verif.JsonRpc.c74_exact",
    "Verif.JsonRpc.c74_documented_partial",
    "Verif.JsonRpc.c74_false",
    "Verif.JsonRpc.c74_counterexample"
   ],
   "note": "false for replies that are JSON but not an object, and for errors that are not an object with a scalar code"
  },
  {
   "property": "C75",
   "status": "proved",
   "theorems": [
    "Verif.Client.c75_step",
    "Verif.Client.c75_poll",
    "Verif.Client.c75_forever",
    "Verif.Client.c75_returns"
   ],
   "note": "exceptions that end the process (SystemExit, KeyboardInterrupt) excepted"
  },
  {
   "property": "C76",
   "status": "partial",
   "theorems": [
    "Verif.Client.c76_apart",
    "Verif.Client.c76_content",
    "Verif.Client.c76_first_partial",
    "Verif.Client.c76_first_false",
    "Verif.Client.c76_first_iff"
   ],
   "note": "the distance holds always; the first poll does not report if the clock was set back since the start; c76_first_iff says exactly when it reports"
  },
  {
   "property": "C77",
   "status": "proved",
   "theorems": [
    "Verif.Client.c77_remembered",
    "Verif.Client.c77_sent",
    "Verif.Client.c77_no_tags"
   ],
   "note": ""
  },
  {
   "property": "C78",
   "status": "proved",
   "theorems": [
    "Verif.Client.c78_remembered",
    "Verif.Client.c78_sent",
    "Verif.Client.c78_no_meta"
   ],
   "note": "where the device information can not be got only the authentication is sent"
  },
  {
   "property": "C79",
   "status": "proved",
   "theorems": [
    "Verif.Client.c79_returned",
    "Verif.Client.c79_total",
    "Verif.Client.c79_sent"
   ],
   "note": ""
  },
  {
   "property": "C88",
   "status": "partial",
   "theorems": [
    "Verif.Client.c88_query",
    "Verif.Client.c88_no_query_partial",
    "Verif.Client.c88_default",
    "Verif.Client.c88_again",
    "Verif.Client.c88_names_false",
    "Verif.Client.c88_names_iff"
   ],
   "note": "false that the names are always contained: an address with a query is used as it is; the rest is proved; c88_names_iff says exactly when they are"
  },
  {
   "property": "C94",
   "status": "proved",
   "theorems": [
    "Verif.Client.c94_announced",
    "Verif.Client.c94_identity",
    "Verif.Library.utf8_strict"
   ],
   "note": ""
  },
  {
   "property": "C80",
   "status": "partial",
   "theorems": [
    "Verif.Device.c80_kept_partial",
    "Verif.Device.c80_first_false",
    "Verif.Device.c80_list_false",
    "Verif.Device.c80_exact"
   ],
   "note": "false: the first caller is given the kept dict itself, and all callers share the list of addresses"
  },
  {
   "property": "C81",
   "status": "proved",
   "theorems": [
    "Verif.Device.c81_words",
    "Verif.Device.c81_all",
    "Verif.Device.c81_form",
    "Verif.Device.c81_separators",
    "Verif.Device.c81_round_trip",
    "Verif.Device.c81_failures"
   ],
   "note": ""
  },
  {
   "property": "C82",
   "status": "partial",
   "theorems": [
    "Verif.Device.c82_first_partial",
    "Verif.Device.c82_last_partial",
    "Verif.Device.c82_none",
    "Verif.Device.c82_all",
    "Verif.Device.c82_undecodable_false",
    "Verif.Device.c82_error_iff"
   ],
   "note": "false for a value that is not UTF-8: an exception; c82_error_iff says exactly when"
  },
  {
   "property": "C83",
   "status": "partial",
   "theorems": [
    "Verif.Device.c83_faithful_partial",
    "Verif.Device.c83_addresses",
    "Verif.Device.c83_same_iff",
    "Verif.Device.c83_names_false"
   ],
   "note": "false for interface names with bytes above 127, which are replaced"
  },
  {
   "property": "C84",
   "status": "partial",
   "theorems": [
    "Verif.Device.c84_value",
    "Verif.Device.c84_starts_partial",
    "Verif.Device.c84_zero_false",
    "Verif.Device.c84_starts_iff"
   ],
   "note": "false for zero and negative numbers: the agent does not start exactly then"
  },
  {
   "property": "C85",
   "status": "proved",
   "theorems": [
    "Verif.Device.c85_sum",
    "Verif.Device.c85_used",
    "Verif.Device.c85_percent"
   ],
   "note": "float rounding is any order preserving rounding that keeps 0, 1 and 100"
  },
  {
   "property": "C86",
   "status": "proved",
   "theorems": [
    "Verif.Device.c86_killed_iff"
   ],
   "note": ""
  },
  {
   "property": "C95",
   "status": "partial",
   "theorems": [
    "Verif.Device.c95_available_partial",
    "Verif.Device.c95_false",
    "Verif.Device.c95_fails_iff"
   ],
   "note": "false if the revision or the model name is not UTF-8, and only then"
  },
  {
   "property": "C87",
   "status": "partial",
   "theorems": [
    "Verif.Instructions.c87_one",
    "Verif.Instructions.c87_done_partial",
    "Verif.Instructions.c87_nothing_else",
    "Verif.Instructions.c87_none",
    "Verif.Instructions.c87_key_false",
    "Verif.Instructions.c87_message_partial",
    "Verif.Instructions.c87_done_iff"
   ],
   "note": "false for a message with a key that is not a byte string: decoding it raises; c87_done_iff: only then"
  },
  {
   "property": "C91",
   "status": "proved",
   "theorems": [
    "Verif.Instructions.c91_passed_on",
    "Verif.Library.utf8_ignore"
   ],
   "note": ""
  },
  {
   "property": "C96",
   "status": "partial",
   "theorems": [
    "Verif.Instructions.c96_started_partial",
    "Verif.Instructions.c96_ready_partial",
    "Verif.Instructions.c96_always_partial",
    "Verif.Instructions.c96_iff",
    "Verif.Instructions.c96_early_false"
   ],
   "note": "false while the agent starts: the terminal and the port forward manager are added after the connection is started"
  },
  {
   "property": "C97",
   "status": "partial",
   "theorems": [
    "Verif.App.c97_given_partial",
    "Verif.App.c97_file_partial",
    "Verif.App.c97_needed",
    "Verif.App.c97_blank_false",
    "Verif.App.c97_empty_iff"
   ],
   "note": "false for a file that holds only white space; c97_empty_iff says exactly when a setting is empty"
  },
  {
   "property": "C98",
   "status": "proved",
   "theorems": [
    "Verif.App.c98_status"
   ],
   "note": "exceptions that are not an Exception (SystemExit, KeyboardInterrupt other than those of the code) are not modelled"
  },
  {
   "property": "C99",
   "status": "partial",
   "theorems": [
    "Verif.App.c99_levels_partial",
    "Verif.App.c99_quiet",
    "Verif.App.c99_invalid_false",
    "Verif.App.c99_exact",
    "Verif.App.c99_never_reported"
   ],
   "note": "false for invalid names: the handler is for IndexError, a dict raises KeyError; c99_exact says exactly which level is set"
  },
  {
   "property": "C100",
   "status": "partial",
   "theorems": [
    "Verif.Props.c100_disconnect",
    "Verif.Props.c100_end_partial",
    "Verif.Props.c100_iff",
    "Verif.Props.c100_counterexample"
   ],
   "note": "proved for the loss of the connection; false when the thread ends by an exception or on exit: run calls self.on_close, which does not exist"
  },
  {
   "property": "C101",
   "status": "proved",
   "theorems": [
    "Verif.Props.c101_wire"
   ],
   "note": "messages larger than a Python byte string can be are excluded"
  },
  {
   "property": "C102",
   "status": "proved",
   "theorems": [
    "Verif.Props.c102_prefix",
    "Verif.Props.c102_arrives",
    "Verif.Props.c102_ends"
   ],
   "note": "the client is the whole of Model/WSClient; that the thread is scheduled is not modelled, only that it needs boundedly many statements"
  },
  {
   "property": "C103",
   "status": "partial",
   "theorems": [
    "Verif.Props.c103_quiet_partial",
    "Verif.Props.c103_counterexample",
    "Verif.Props.c103_exact",
    "Verif.Props.c103_iff"
   ],
   "note": "false for a call that has passed the test of is_closed when the channel ends: its message is sent, also to a new channel of the same number"
  },
  {
   "property": "C104",
   "status": "proved",
   "theorems": [
    "Verif.Props.c104_well_formed"
   ],
   "note": "messages larger than a Python byte string can be are excluded"
  },
  {
   "property": "C105",
   "status": "proved",
   "theorems": [
    "Verif.Props.c105_prefix",
    "Verif.Props.c105_echoed"
   ],
   "note": "no message that makes the decoder hang (C05), no loss of the connection, channel not closed"
  },
  {
   "property": "C106",
   "status": "proved",
   "theorems": [
    "Verif.Props.c106_no_amplification"
   ],
   "note": "measured in objects, bytes and digits"
  },
  {
   "property": "C107",
   "status": "proved",
   "theorems": [
    "Verif.Props.c107_up",
    "Verif.Props.c107_down"
   ],
   "note": "as C105; failing local sockets are in C39"
  },
  {
   "property": "C108",
   "status": "partial",
   "theorems": [
    "Verif.Props.c108_no_gap_partial",
    "Verif.System.c108_few",
    "Verif.System.c108_order",
    "Verif.System.c108_two",
    "Verif.Props.c108_counterexample"
   ],
   "note": "false for a call that spans the loss of the connection and the new connection; partial: nobody is inside of a method of the channel when the client learns of the loss; in general what arrives is a beginning and then at most as many messages as there are such calls (c108_few), in order (c108_order)"
  },
  {
   "property": "C109",
   "status": "proved",
   "theorems": [
    "Verif.Props.c109_prefix",
    "Verif.Props.c109_all"
   ],
   "note": "reaching the server means given to the websocket, for lost connections see C108"
  },
  {
   "property": "C110",
   "status": "proved",
   "theorems": [
    "Verif.Props.c110_prefix",
    "Verif.Props.c110_arrives"
   ],
   "note": "the service finds the channel open whenever it looks; that the service comes to its end is C35"
  },
  {
   "property": "C111",
   "status": "proved",
   "theorems": [
    "Verif.RemoteFiles.c111_snapshot",
    "Verif.RemoteFiles.c111_whole_file"
   ],
   "note": "for relative ids that do not go up (C53, C54); reads must be for offsets and sizes that can exist, and the operating system must carry them out"
  },
  {
   "property": "C112",
   "status": "proved",
   "theorems": [
    "Verif.RemoteFiles.c112_stored"
   ],
   "note": "soundness of the acknowledgements; when a chunk is acknowledged is C58"
  },
  {
   "property": "C113",
   "status": "partial",
   "theorems": [
    "Verif.TermControl.c113_running",
    "Verif.TermControl.c113_bytes",
    "Verif.TermControl.c113_raises",
    "Verif.TermControl.c113_quiet",
    "Verif.TermControl.c113_known",
    "Verif.TermControl.c113_all_partial",
    "Verif.TermControl.c113_counterexample",
    "Verif.TermControl.c113_iff"
   ],
   "note": "proved for a running terminal; false before the start: a malformed size is stored and ends the thread of the terminal when the process is started; partial: all requests are well formed"
  },
  {
   "property": "C114",
   "status": "partial",
   "theorems": [
    "Verif.TermControl.c114_only_partial",
    "Verif.TermControl.c114_counterexample",
    "Verif.TermControl.c114_counterexample_window",
    "Verif.TermControl.c114_iff",
    "Verif.TermControl.c114_refused"
   ],
   "note": "false when the descriptor is closed and its number reused while input is written, or between the closing and the assignment of None; partial: no input is being written at that time; c114_iff says exactly when"
  },
  {
   "property": "C115",
   "status": "proved",
   "theorems": [
    "Verif.TermWire.c115_output",
    "Verif.TermWire.c115_input"
   ],
   "note": "for a terminal that runs, with os.write making progress; what happens before the start is C46, sizes and closes are C49 and C50"
  },
  {
   "property": "C116",
   "status": "partial",
   "theorems": [
    "Verif.JsonRpc.c116_call",
    "Verif.JsonRpc.c116_batch_partial",
    "Verif.JsonRpc.c116_quiet_iff",
    "Verif.JsonRpc.c116_notifications"
   ],
   "note": "false for a batch of notifications only: there is no response, and a ValueError is raised although they were sent; partial: at least one call in the batch, ids that are texts"
  },
  {
   "property": "C117",
   "status": "partial",
   "theorems": [
    "Verif.Server.c117_partial",
    "Verif.Server.c117_acknowledged",
    "Verif.Server.c117_counterexample"
   ],
   "note": "false after a lost reply: tags that go back to the acknowledged ones are not sent, the server keeps those between; partial: no reply to tags is lost"
  },
  {
   "property": "C118",
   "status": "proved",
   "theorems": [
    "Verif.Server.c118_meta"
   ],
   "note": "for a server that follows the specification and stores what it answers with a result"
  },
  {
   "property": "C119",
   "status": "proved",
   "theorems": [
    "Verif.Server.c119_identity"
   ],
   "note": "as C118"
  },
  {
   "property": "C120",
   "status": "partial",
   "theorems": [
    "Verif.ScanWire.c120_settled_partial",
    "Verif.ScanWire.c120_place",
    "Verif.ScanWire.c120_counterexample"
   ],
   "note": "false if a second scan was asked for before: it may have emptied the file when the server opens it; partial: the server has received a result for each scan request, gave no instruction to scan, and nobody else changes the file"
  },
  {
   "property": "C121",
   "status": "partial",
   "theorems": [
    "Verif.BlockingRead.c121_asleep",
    "Verif.BlockingRead.c121_wakes",
    "Verif.BlockingRead.c121_stream",
    "Verif.BlockingRead.c121_bytes_partial",
    "Verif.BlockingRead.c121_two_false",
    "Verif.BlockingRead.c121_close_false",
    "Verif.BlockingRead.c121_iff"
   ],
   "note": "waiting and the stream are proved; false with two threads, one of which may return nothing, and on a close, which does not end the waiting; partial: nobody else reads during the call, no empty messages"
  },
  {
   "property": "C122",
   "status": "proved",
   "theorems": [
    "Verif.Agent.c122_file",
    "Verif.Agent.c122_arrives",
    "Verif.Agent.c122_missing",
    "Verif.Agent.c122_no_text",
    "Verif.Agent.c122_busy"
   ],
   "note": "from the bytes of the message to the decoded messages on the channel; builds on C87, C102 and C109"
  },
  {
   "property": "C123",
   "status": "proved",
   "theorems": [
    "Verif.Agent.c123_calls",
    "Verif.Agent.c123_output",
    "Verif.Agent.c123_arrives",
    "Verif.Agent.c123_busy"
   ],
   "note": "the same for commands, with C110"
  },
  {
   "property": "C124",
   "status": "proved",
   "theorems": [
    "Verif.Agent.c124_limit",
    "Verif.Agent.c124_file",
    "Verif.Agent.c124_command"
   ],
   "note": "the limiter with the actual services"
  },
  {
   "property": "C125",
   "status": "partial",
   "theorems": [
    "Verif.Links.c125_inside_partial",
    "Verif.Links.c125_follows_false",
    "Verif.Links.c125_counterexample",
    "Verif.Links.c125_same",
    "Verif.Links.c125_exact"
   ],
   "note": "false: a link in the remote directory that leads out is followed; partial: all links inside lead to places inside, and the snapshot folder exists"
  },
  {
   "property": "C126",
   "status": "partial",
   "theorems": [
    "Verif.Links.c126_upload_partial",
    "Verif.Links.c126_close",
    "Verif.Links.c126_scan_partial",
    "Verif.Links.c126_scan_stored",
    "Verif.Links.c126_upload_iff",
    "Verif.Links.c126_read_iff",
    "Verif.Links.c126_scan_iff",
    "Verif.Links.c126_counterexample_upload",
    "Verif.Links.c126_counterexample_scan"
   ],
   "note": "closing is proved; opening, reading and scanning stay in the folder exactly if there is no link with the name in it (c126_upload_iff, c126_read_iff, c126_scan_iff)"
  },
  {
   "property": "C127",
   "status": "partial",
   "theorems": [
    "Verif.Links.c127_inside_partial",
    "Verif.Links.c127_same",
    "Verif.Links.c127_stored",
    "Verif.Links.c127_failed",
    "Verif.Links.c127_counterexample"
   ],
   "note": "false: a link to a directory outside is followed; partial: all links inside lead to places inside; a temporary file given by the server that is a directory is not modelled"
  },
  {
   "property": "C128",
   "status": "proved",
   "theorems": [
    "Verif.RemoteFiles.c128_opened",
    "Verif.RemoteFiles.c128_fetched"
   ],
   "note": "the progress side of C111; ids and path components are plain names without NUL"
  },
  {
   "property": "C129",
   "status": "proved",
   "theorems": [
    "Verif.RemoteFiles.c129_delivered"
   ],
   "note": "the progress side of C112; ids and path components are plain names without NUL; the remote directory and the temporary file do not contain each other"
  },
  {
   "property": "C130",
   "status": "proved",
   "theorems": [
    "Verif.Props.c130_returns",
    "Verif.Props.c130_raises",
    "Verif.Props.c130_hangs",
    "Verif.Props.c130_format"
   ],
   "note": "the recursion limit and the limit of digits of the interpreter are in C136"
  },
  {
   "property": "C131",
   "status": "proved",
   "theorems": [
    "Verif.Terminal.c131_reaped",
    "Verif.Terminal.c131_only",
    "Verif.Terminal.c131_gives_up",
    "Verif.Terminal.c131_left"
   ],
   "note": "a failing waitpid or kill call (the thread ends) is not modelled"
  },
  {
   "property": "C132",
   "status": "proved",
   "theorems": [
    "Verif.Opening.c132_echo"
   ],
   "note": ""
  },
  {
   "property": "C133",
   "status": "proved",
   "theorems": [
    "Verif.Opening.c133_forward",
    "Verif.Opening.c133_redirect",
    "Verif.Opening.c133_busy",
    "Verif.Opening.c133_slot",
    "Verif.Opening.c133_unknown"
   ],
   "note": "the connection to the local port, its losses and the poll loop are in C38-C43"
  },
  {
   "property": "C134",
   "status": "partial",
   "theorems": [
    "Verif.Opening.c134_counterexample",
    "Verif.Opening.c134_terminal_partial",
    "Verif.Opening.c134_slot",
    "Verif.Opening.c134_failed"
   ],
   "note": "false for data that is handled before the process has been started; proved if there is none"
  },
  {
   "property": "C135",
   "status": "proved",
   "theorems": [
    "Verif.Opening.c135_refused"
   ],
   "note": ""
  },
  {
   "property": "C136",
   "status": "proved",
   "theorems": [
    "Verif.Limits.c136_only_refuses",
    "Verif.Limits.c136_out_of_reach",
    "Verif.Limits.c136_exact",
    "Verif.Limits.c136_nested",
    "Verif.Limits.c136_client",
    "Verif.Limits.c136_empty",
    "Verif.Limits.c136_message"
   ],
   "note": "the limits are counted in calls of Python functions below the caller of bencode"
  },
  {
   "property": "C137",
   "status": "proved",
   "theorems": [
    "Verif.Limits.c137_only_refuses",
    "Verif.Limits.c137_iff",
    "Verif.Limits.c137_packets"
   ],
   "note": ""
  },
  {
   "property": "C138",
   "status": "proved",
   "theorems": [
    "Verif.Exit.c138_ends",
    "Verif.Exit.c138_one_poll",
    "Verif.Exit.c138_only_then",
    "Verif.Exit.c138_raised",
    "Verif.Exit.c138_returned",
    "Verif.Exit.c138_clock_ended",
    "Verif.Exit.c138_killed",
    "Verif.Exit.c138_polls_on",
    "Verif.Exit.c138_interrupt"
   ],
   "note": "for every interleaving; a poll and a sleep are taken to come to their end; an interrupt during the clean-up leaves run_forever at once (the clock thread may then still run)"
  },
  {
   "property": "C139",
   "status": "partial",
   "theorems": [
    "Verif.Exit.c139_counterexample",
    "Verif.Exit.c139_never",
    "Verif.Exit.c139_manager_partial"
   ],
   "note": "false: Client.close does nothing and nothing calls M2MManager.on_client_close, so that the processes of terminals are neither signalled nor waited for; on_client_close itself closes each process exactly once"
  },
  {
   "property": "C140",
   "status": "proved",
   "theorems": [
    "Verif.ScanFs.c140_listed_fetched"
   ],
   "note": "file systems with links; the file system does not change between scan and request; the snapshot folder exists and does not lead to the file itself"
  },
  {
   "property": "C141",
   "status": "partial",
   "theorems": [
    "Verif.ScanFs.c141_contained_partial",
    "Verif.ScanFs.c141_counterexample"
   ],
   "note": "false: links that lead out are followed, names and sizes of files outside are listed; proved if every link in the remote directory leads to a place inside"
  },
  {
   "property": "C142",
   "status": "proved",
   "theorems": [
    "Verif.ScanFs.c142_ends",
    "Verif.ScanFs.c142_exact"
   ],
   "note": "the file system does not change during the scan; there are only files, directories and links"
  },
  {
   "property": "C143",
   "status": "proved",
   "theorems": [
    "Verif.Props.c143_first_bytes",
    "Verif.Props.c143_incomplete"
   ],
   "note": "for every function in the place of repr"
  },
  {
   "property": "C144",
   "status": "partial",
   "theorems": [
    "Verif.PortForward.c144_counterexample",
    "Verif.PortForward.c144_closed_partial",
    "Verif.PortForward.c144_only_then",
    "Verif.PortForward.c144_iff"
   ],
   "note": "false: a close that comes before the local connection is made, or whose flush raises, is not passed on; proved if the connection was made and the socket accepts data; what is shut down was always complete"
  },
  {
   "property": "C145",
   "status": "proved",
   "theorems": [
    "Verif.Slots.c145_slots",
    "Verif.Slots.c145_started",
    "Verif.Slots.c145_not_started",
    "Verif.Slots.c145_other_events",
    "Verif.Slots.c145_ended"
   ],
   "note": "from the bytes of the messages; when the threads end is left open (C30, C50, C124)"
  },
  {
   "property": "C146",
   "status": "partial",
   "theorems": [
    "Verif.Scan.c146_found_partial",
    "Verif.Scan.c146_no_limit",
    "Verif.Scan.c146_own_path_false",
    "Verif.Scan.c146_lost_false",
    "Verif.ScanFs.c146_agent_false"
   ],
   "note": "proved for scans without a limit and for results without a directory at the last level, where all inode numbers can be got and tell directories apart; false with the limit of the agent: what was first met at the last level through a link is not looked at again (c146_lost_false, c146_agent_false); and an ordinary directory may be listed under a link only (c146_own_path_false)"
  },
  {
   "property": "C147",
   "status": "partial",
   "theorems": [
    "Verif.ScanFs.c147_once_partial",
    "Verif.ScanFs.c147_same",
    "Verif.ScanFs.c147_there",
    "Verif.ScanFs.c147_root_false"
   ],
   "note": "proved for all paths other than that of the root; the root is listed again under a link to it (c147_root_false); for the second part the operating system answers every call and inode numbers are distinct"
  },
  {
   "property": "C148",
   "status": "proved",
   "theorems": [
    "Verif.Dispatcher.c148_registered",
    "Verif.Dispatcher.c148_order",
    "Verif.Dispatcher.c148_disabled",
    "Verif.Dispatcher.c148_client"
   ],
   "note": "for any object; that the seventeen methods of WSClient are its only marked ones is read off wsclient.py:373-497"
  },
  {
   "property": "C149",
   "status": "proved",
   "theorems": [
    "Verif.Packets.c149_name",
    "Verif.Packets.c149_unknown",
    "Verif.Packets.c149_agent"
   ],
   "note": "Python 3: bytes never name a member of an enumeration"
  },
  {
   "property": "C150",
   "status": "proved",
   "theorems": [
    "Verif.Shlex.c150_words",
    "Verif.Shlex.c150_unambiguous",
    "Verif.Shlex.c150_quoted",
    "Verif.Shlex.c150_exec",
    "Verif.Shlex.c150_raises"
   ],
   "note": "shlex.split of the standard library is modelled character by character"
  },
  {
   "property": "C151",
   "status": "proved",
   "theorems": [
    "Verif.JsonText.c151_reads",
    "Verif.JsonText.c151_unambiguous",
    "Verif.JsonText.c151_writes",
    "Verif.JsonText.c151_faithful",
    "Verif.JsonText.c151_ascii",
    "Verif.JsonText.c151_bytes",
    "Verif.JsonText.c151_encodings",
    "Verif.JsonText.c151_roundtrip"
   ],
   "note": "json of the standard library is modelled character by character; that Python reads the literal of a float as this float is a hypothesis (on the floats in the value); strings with lone surrogates are left out"
  },
  {
   "property": "C152",
   "status": "proved",
   "theorems": [
    "Verif.RpcBytes.c152_reply",
    "Verif.RpcBytes.c152_call",
    "Verif.RpcBytes.c152_batch"
   ],
   "note": "for batches with at least one call that is not a notification; that Python reads the literal of a float as this float is a hypothesis (on the floats in the parameters); strings with lone surrogates are left out"
  },
  {
   "property": "C153",
   "status": "proved",
   "theorems": [
    "Verif.ScanJson.c153_read",
    "Verif.ScanWire.c153_server"
   ],
   "note": "c153_server in the circumstances of C120 (no scan under way, the scan file not written to by others); that Python reads the literal of a float as this float is a hypothesis on the time of the scan; names that are no valid UTF-8 are left out"
  },
  {
   "property": "C154",
   "status": "proved",
   "theorems": [
    "Verif.Agent.c154_file",
    "Verif.Agent.c154_command",
    "Verif.Agent.c154_refused"
   ],
   "note": "c154_command for a command whose process could be started and whose thread ran to its end; under the hypotheses of C122, C123 on the connection and the channel number"
  },
  {
   "property": "C155",
   "status": "proved",
   "theorems": [
    "Verif.JsonText.c155_cut",
    "Verif.JsonText.c155_written",
    "Verif.ScanWire.c155_file",
    "Verif.ScanWire.c155_server"
   ],
   "note": "c155_server if the scan file is not written to by others; the copy for the server is one step there, C185 has it in pieces; that Python reads the literal of a float as this float is a hypothesis on the times of the scans; c155_file leaves out the file that was there when the agent started"
  },
  {
   "property": "C156",
   "status": "partial",
   "theorems": [
    "Verif.Signals.c156_child_partial",
    "Verif.Signals.c156_receive_thread",
    "Verif.Signals.c156_counterexample",
    "Verif.Signals.c156_late",
    "Verif.Signals.c156_once",
    "Verif.Signals.c156_killed",
    "Verif.Signals.c156_births",
    "Verif.Signals.c156_refused"
   ],
   "note": "false if two threads are in close of the same terminal at the same time; proved otherwise, in particular in the agent, where only the receive thread closes terminals (c156_receive_thread); children of terminals are collected by PidWaitThread only"
  },
  {
   "property": "C157",
   "status": "partial",
   "theorems": [
    "Verif.Channel.c157_exact",
    "Verif.Channel.c157_iff",
    "Verif.Opening.c157_terminal_partial",
    "Verif.Opening.c157_connection_partial",
    "Verif.Opening.c157_counterexample"
   ],
   "note": "false if a second service is asked for on the same channel: its callbacks replace those of the first, which is never told; proved otherwise, with exactly who is told (c157_exact)"
  },
  {
   "property": "C158",
   "status": "proved",
   "theorems": [
    "Verif.ServerBytes.c158_meta",
    "Verif.ServerBytes.c158_identity",
    "Verif.ServerBytes.c158_tags",
    "Verif.ServerBytes.c158_authenticated"
   ],
   "note": "C117-C119 with the bytes of requests and responses; headers of HTTP are left out"
  },
  {
   "property": "C159",
   "status": "proved",
   "theorems": [
    "Verif.ScanFs.c159_found",
    "Verif.ScanFs.c159_missed"
   ],
   "note": "C140, C142 and C153 together: the file system does not change from the scan to the requests, the operating system does what it is asked, and the snapshot folder exists and does not lead to the file itself; names are valid UTF-8; that Python reads the literal of a float as this float is a hypothesis on the time of the scan"
  },
  {
   "property": "C160",
   "status": "proved",
   "theorems": [
    "Verif.CommandLine.c160_iff",
    "Verif.CommandLine.c160_unambiguous",
    "Verif.CommandLine.c160_exit"
   ],
   "note": "argparse of Python 3.11, as far as this parser uses it; which characters are decimal digits (for negative numbers) is a parameter of which it is only assumed that the point, the line feed and the dash are none"
  },
  {
   "property": "C161",
   "status": "partial",
   "theorems": [
    "Verif.CommandLine.c161_equals_partial",
    "Verif.CommandLine.c161_value",
    "Verif.CommandLine.c161_iff",
    "Verif.CommandLine.c161_false"
   ],
   "note": "false for values that begin with a dash and stand in a string of their own (unless they can be no option and are numbers or have a space), which are refused, and for empty ones, for which the files are read (C97); proved for --serial=... and --auth=..., and exactly when the other spelling works (c161_iff)"
  },
  {
   "property": "C162",
   "status": "partial",
   "theorems": [
    "Verif.CommandLine.c162_debug",
    "Verif.CommandLine.c162_traceback",
    "Verif.CommandLine.c162_text_iff",
    "Verif.CommandLine.c162_program",
    "Verif.CommandLine.c162_space_false"
   ],
   "note": "the arguments are joined with spaces and not quoted: the printed line has the same words (as shlex.split reads them) exactly if no argument is empty or has white space, quotes or backslashes (c162_text_iff); other characters that are special to a shell are left out"
  },
  {
   "property": "C163",
   "status": "proved",
   "theorems": [
    "Verif.Props.Locks.c163_no_circle",
    "Verif.Props.Locks.c163_end",
    "Verif.Props.Locks.c163_goes_on",
    "Verif.Props.Locks.c163_returned",
    "Verif.Props.Locks.c163_alone",
    "Verif.Props.Locks.c163_one_at_a_time"
   ],
   "note": "functions are modelled by the locks they take and the input and output under them; the locks of lomond and of logging are taken to be held by one thread at a time and to be given back; a send or a log message that never returns is not a circle"
  },
  {
   "property": "C164",
   "status": "partial",
   "theorems": [
    "Verif.Props.Locks.c164_nobody",
    "Verif.Props.Locks.c164_scan",
    "Verif.Props.Locks.c164_connection",
    "Verif.Props.Locks.c164_http",
    "Verif.Props.Locks.c164_false",
    "Verif.Props.Locks.c164_sync_false"
   ],
   "note": "true for files, commands and terminals (nobody is held up) and for scans (only other scans); false for the socket of a connection and for requests to the API server, for which the receive thread can wait (c164_false, c164_sync_false); who can wait for them is in c164_connection and c164_http"
  },
  {
   "property": "C165",
   "status": "partial",
   "theorems": [
    "Verif.Props.ChannelFile.c165_sent_partial",
    "Verif.Props.ChannelFile.c165_exact",
    "Verif.Props.ChannelFile.c165_printed",
    "Verif.Props.ChannelFile.c165_closed_false",
    "Verif.Props.ChannelFile.c165_stdout_false"
   ],
   "note": "false after the close: the data are sent, also to a new channel of the same number; false if the standard output raises: nothing is sent; c165_exact says exactly what is sent; nothing in the agent calls get_file"
  },
  {
   "property": "C166",
   "status": "partial",
   "theorems": [
    "Verif.Links.c166_partial",
    "Verif.Links.c166_only",
    "Verif.Links.c166_iff",
    "Verif.Links.c166_counterexample",
    "Verif.Links.c166_request",
    "Verif.Links.c166_request_counterexample"
   ],
   "note": "false if the server names a link as temporary file: it is moved or copied into the remote directory; with /proc/self/root the server gets a link to the root of the file system and can then read any file; proved otherwise; c166_iff says exactly when; temporary files that are directories are not modelled"
  },
  {
   "property": "C167",
   "status": "partial",
   "theorems": [
    "Verif.Links.c167_inside_partial",
    "Verif.Links.c167_iff",
    "Verif.Links.c167_same",
    "Verif.Links.c167_counterexample"
   ],
   "note": "false if someone has put a link of this name in the download folder (a fixed path in /var/tmp, which a local user may have made before the agent): the agent writes to the file to which it leads; c167_iff says exactly when; the final move under the conditions of C127; the folder is assumed to exist; temporary files that are directories are not modelled"
  },
  {
   "property": "C168",
   "status": "partial",
   "theorems": [
    "Verif.Opening.c168_partial",
    "Verif.Opening.c168_silent",
    "Verif.Opening.c168_iff",
    "Verif.Opening.c168_counterexample"
   ],
   "note": "false for names of terminals and local services that the agent does not have: nothing is done and nothing is sent, the channel stays open; c168_iff says that these are the only cases"
  },
  {
   "property": "C169",
   "status": "proved",
   "theorems": [
    "Verif.Names.c169_listed",
    "Verif.Names.c169_opened",
    "Verif.Names.c169_distinct",
    "Verif.Names.c169_path",
    "Verif.Names.fs_decode"
   ],
   "note": "the file system encoding is UTF-8 with surrogateescape; stated for the string inside the quotes, the structure around it is that of C151 and C153"
  },
  {
   "property": "C170",
   "status": "partial",
   "theorems": [
    "Verif.Names.c170_partial",
    "Verif.Names.c170_iff",
    "Verif.Names.c170_unnamed",
    "Verif.Names.c170_counterexample"
   ],
   "note": "false for every name that is not UTF-8: requests decode the path strictly, so no request names the file"
  },
  {
   "property": "C171",
   "status": "partial",
   "theorems": [
    "Verif.Names.c171_partial",
    "Verif.Names.c171_iff",
    "Verif.Names.c171_other",
    "Verif.Names.c171_message",
    "Verif.Names.c171_counterexample"
   ],
   "note": "false for every path that is not UTF-8: the bytes that are no UTF-8 are left out, and the file with the shorter path is opened and sent"
  },
  {
   "property": "C172",
   "status": "partial",
   "theorems": [
    "Verif.Names.c172_partial",
    "Verif.Names.c172_iff",
    "Verif.Names.c172_other",
    "Verif.Names.c172_message",
    "Verif.Names.c172_counterexample"
   ],
   "note": "false for every command that is not UTF-8: the bytes that are no UTF-8 are left out, and the shorter command is run"
  },
  {
   "property": "C173",
   "status": "partial",
   "theorems": [
    "Verif.RemoteFiles.c173_closed_partial",
    "Verif.RemoteFiles.c173_failed_partial",
    "Verif.RemoteFiles.c173_left",
    "Verif.RemoteFiles.c173_kept",
    "Verif.RemoteFiles.c173_no_request",
    "Verif.RemoteFiles.c173_counterexample_lost",
    "Verif.RemoteFiles.c173_counterexample_failed"
   ],
   "note": "holds after a close; false when the connection ends (the copy stays until a request or another program names it) and when the system fails while the copy is written (the beginning of the file stays)"
  },
  {
   "property": "C174",
   "status": "partial",
   "theorems": [
    "Verif.Agent.c174_partial",
    "Verif.Agent.c174_started",
    "Verif.Agent.c174_counterexample"
   ],
   "note": "false: the agent starts a service on a channel whether or not another one uses it, the data of both is mixed, and the end of one cuts off the other; proved if the server asks for services on a channel one after the other"
  },
  {
   "property": "C175",
   "status": "partial",
   "theorems": [
    "Verif.WSClient.c175_partial",
    "Verif.WSClient.c175_listed",
    "Verif.WSClient.c175_iff",
    "Verif.WSClient.c175_disconnect",
    "Verif.WSClient.c175_unbounded",
    "Verif.WSClient.c175_counterexample"
   ],
   "note": "false after the end of a connection: the channels stay in the list, closed, with their data, until the server closes their numbers (c175_iff, exactly these)"
  },
  {
   "property": "C176",
   "status": "partial",
   "theorems": [
    "Verif.Interference.c176_partial",
    "Verif.Interference.c176_new",
    "Verif.Interference.c176_stored",
    "Verif.Interference.c176_agrees",
    "Verif.Interference.c176_counterexample",
    "Verif.Interference.c176_counterexample_copy",
    "Verif.Interference.c176_up_false",
    "Verif.Interference.c176_into"
   ],
   "note": "false: what is made after the agent has found a name free is replaced; proved if others make nothing new meanwhile; only what was made after the search can be overwritten (c176_new), for names that do not go up"
  },
  {
   "property": "C177",
   "status": "partial",
   "theorems": [
    "Verif.Interference.c177_quiet_partial",
    "Verif.Interference.c177_appended_partial",
    "Verif.Interference.c177_bytes",
    "Verif.Interference.c177_counterexample",
    "Verif.Interference.c177_endless"
   ],
   "note": "false for files that are written over during the copy; proved for files that are not changed and for files that are only appended to, where the copy may not end"
  },
  {
   "property": "C178",
   "status": "partial",
   "theorems": [
    "Verif.Interference.c178_partial",
    "Verif.Interference.c178_refused_iff",
    "Verif.Interference.c178_counterexample",
    "Verif.Interference.c178_unbounded",
    "Verif.Interference.c178_agrees"
   ],
   "note": "false for files that grow after the check; proved if the file does not become longer than it was then"
  },
  {
   "property": "C179",
   "status": "partial",
   "theorems": [
    "Verif.Scan.c179_given",
    "Verif.Scan.c179_ends",
    "Verif.Scan.c179_agrees",
    "Verif.Scan.c179_endless_false"
   ],
   "note": "what is listed was there: proved without conditions; the end is proved with a depth limit, as the agent has it, and false without one"
  },
  {
   "property": "C180",
   "status": "partial",
   "theorems": [
    "Verif.Scan.c180_partial",
    "Verif.Scan.c180_file",
    "Verif.Scan.c180_no_file",
    "Verif.Scan.c180_missed_false",
    "Verif.Scan.c180_twice_false",
    "Verif.Scan.c180_renamed_false"
   ],
   "note": "false for files and directories that are moved or renamed; proved for what stays where it is: its directory is listed with exactly the files of one moment"
  },
  {
   "property": "C181",
   "status": "partial",
   "theorems": [
    "Verif.FileChanging.c181_bytes",
    "Verif.FileChanging.c181_appended_partial",
    "Verif.FileChanging.c181_agrees",
    "Verif.FileChanging.c181_counterexample"
   ],
   "note": "false for files that are written over; proved for files that are only appended to, and each byte for itself in all cases"
  },
  {
   "property": "C182",
   "status": "partial",
   "theorems": [
    "Verif.FileChanging.c182_iff",
    "Verif.FileChanging.c182_closed_partial",
    "Verif.FileChanging.c182_endless"
   ],
   "note": "false for devices without an end; exactly when the service never ends is proved; it ends when the channel is found closed"
  },
  {
   "property": "C183",
   "status": "partial",
   "theorems": [
    "Verif.CommandProcess.c183_partial",
    "Verif.CommandProcess.c183_right",
    "Verif.CommandProcess.c183_killed",
    "Verif.CommandProcess.c183_reads",
    "Verif.CommandProcess.c183_leaves",
    "Verif.CommandProcess.c183_counterexample"
   ],
   "note": "false when the end of the output is seen before the shell has exited: no status is told, and the shell may be killed; a status that is told is right"
  },
  {
   "property": "C184",
   "status": "partial",
   "theorems": [
    "Verif.CommandProcess.c184_shell",
    "Verif.CommandProcess.c184_partial",
    "Verif.CommandProcess.c184_others",
    "Verif.CommandProcess.c184_runs_on",
    "Verif.CommandProcess.c184_counterexample"
   ],
   "note": "the shell never runs on; false for processes that the shell has started, which nobody ends"
  },
  {
   "property": "C185",
   "status": "partial",
   "theorems": [
    "Verif.ScanCopy.c185_moment_partial",
    "Verif.ScanCopy.c185_read_partial",
    "Verif.ScanCopy.c185_counterexample"
   ],
   "note": "false if a scan is stored while the file is copied: the copy may be JSON that mixes two scans; proved if no scan opens the file meanwhile"
  },
  {
   "property": "C186",
   "status": "partial",
   "theorems": [
    "Verif.DiskMargin.c186_iff",
    "Verif.DiskMargin.c186_partial",
    "Verif.DiskMargin.c186_counterexample",
    "Verif.DiskMargin.c186_unbounded"
   ],
   "note": "false where blocks are reserved for root: the check counts them as free; proved where nothing is reserved; c186_iff says exactly when a snapshot is refused"
  },
  {
   "property": "C187",
   "status": "proved",
   "theorems": [
    "Verif.CommandLine.c187_iff",
    "Verif.CommandLine.c187_ends",
    "Verif.CommandLine.c187_else"
   ],
   "note": "log files are usable or not, as the system says; a subcommand succeeds or raises an Exception"
  },
  {
   "property": "C188",
   "status": "proved",
   "theorems": [
    "Verif.ScanWire.c188_starts",
    "Verif.ScanWire.c188_told"
   ],
   "note": "messages that make the decoder hang are left out; keys of the instruction are byte strings, thread.start() succeeds"
  },
  {
   "property": "C189",
   "status": "partial",
   "theorems": [
    "Verif.MetaSync.c189_first",
    "Verif.MetaSync.c189_partial",
    "Verif.MetaSync.c189_counterexample"
   ],
   "note": "false: get_meta keeps what it found first, so after a failed first sync the server gets old addresses; proved for devices that do not change; c189_first says exactly what the server has"
  },
  {
   "property": "C190",
   "status": "partial",
   "theorems": [
    "Verif.Client.c190_partial",
    "Verif.Client.c190_silent",
    "Verif.Client.c190_counterexample",
    "Verif.Client.c190_unbounded"
   ],
   "note": "false: a report that fails is not repeated before an hour has passed, and after the clock was set back none is sent before it has caught up, without bound; proved if no report fails and the clock has not been later"
  },
  {
   "property": "C191",
   "status": "partial",
   "theorems": [
    "Verif.ClockChange.c191_iff",
    "Verif.ClockChange.c191_partial",
    "Verif.ClockChange.c191_only",
    "Verif.ClockChange.c191_back",
    "Verif.ClockChange.c191_counterexample",
    "Verif.ClockChange.c191_creeps"
   ],
   "note": "false for clocks that are set back (never noticed), set between two checks, or set by at most 179 seconds at a time; a long sleep of the device kills too; c191_iff says exactly when"
  },
  {
   "property": "C192",
   "status": "partial",
   "theorems": [
    "Verif.Terminal.c192_iff",
    "Verif.Terminal.c192_partial",
    "Verif.Terminal.c192_bounds",
    "Verif.Terminal.c192_counterexample",
    "Verif.Terminal.c192_unbounded"
   ],
   "note": "false if the clock is set meanwhile: forward, and the process is killed too early; back, and it is killed later, without bound; c192_bounds says how much"
  },
  {
   "property": "C193",
   "status": "partial",
   "theorems": [
    "Verif.RemoteDirectory.c193_chunk_partial",
    "Verif.RemoteDirectory.c193_first_partial",
    "Verif.RemoteDirectory.c193_final",
    "Verif.RemoteDirectory.c193_counterexample",
    "Verif.RemoteDirectory.c193_two_files",
    "Verif.RemoteDirectory.c193_doubled",
    "Verif.RemoteDirectory.c193_anew"
   ],
   "note": "false for the last chunk: sent again it is always answered with a failure, and a file of one chunk is stored a second time; proved for all other chunks"
  },
  {
   "property": "C194",
   "status": "partial",
   "theorems": [
    "Verif.RemoteDirectory.c194_read",
    "Verif.RemoteDirectory.c194_close",
    "Verif.RemoteDirectory.c194_open_partial",
    "Verif.RemoteDirectory.c194_no_room",
    "Verif.RemoteDirectory.c194_counterexample",
    "Verif.RemoteDirectory.c194_cut",
    "Verif.RemoteDirectory.c194_changed"
   ],
   "note": "proved for reading and closing; for opening it is false: sent again it is refused if there is no room for a second snapshot, a copy that fails cuts the snapshot off, and a file that changed replaces it; proved if the file has not changed, there is room and the copy is made"
  }
 ]
}
