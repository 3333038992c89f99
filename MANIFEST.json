{"claims": [
 {"property": "C01", "status": "proved", "theorems": ["Ced.Props.C01_insert", "Ced.Props.C01_append"], "note": "every buffer reachable by edits, undo, redo and whole-text updates; non-empty texts"},
 {"property": "C02", "status": "proved", "theorems": ["Ced.Props.C02_delete", "Ced.Props.C02_delete_inside", "Ced.Props.C02_delete_all"], "note": "under the contract that a removed tree handle denotes the following piece"},
 {"property": "C03", "status": "proved", "theorems": ["Ced.Props.C03_replace", "Ced.Props.C03_replace_inside"], "note": ""},
 {"property": "C04", "status": "proved", "theorems": ["Ced.Props.C04_history"], "note": ""},
 {"property": "C05", "status": "proved", "theorems": ["Ced.Props.C05_undo_redo"], "note": "a failed redo does not close a group, see Closes"},
 {"property": "C06", "status": "proved", "theorems": ["Ced.Props.C06_line_index", "Ced.Props.C06_undo_exactly", "Ced.Props.C06_undo_breaks_line_index"], "note": "undo and redo keep the index right exactly when they leave the newline positions unchanged; concrete break shown"},
 {"property": "C07", "status": "proved", "theorems": ["Ced.Props.C07_range_reads", "Ced.Props.C07_lines_range", "Ced.Props.C07_lines_range_none"], "note": ""},
 {"property": "C08", "status": "proved", "theorems": ["Ced.Props.C08_lines", "Ced.Props.C08_empty", "Ced.Props.C08_all_lines", "Ced.Props.C08_every_line"], "note": "buffers whose undos and redos left the line breaks in place (C06: exactly those keep a right index)"},
 {"property": "C09", "status": "proved", "theorems": ["Ced.Props.C09_text", "Ced.Props.C09_ascii", "Ced.Props.C09_split_corrupts", "Ced.Props.C09_insert_exact", "Ced.Props.C09_delete_exact"], "note": ""},
 {"property": "C10", "status": "proved", "theorems": ["Ced.Props.C10_split", "Ced.Props.C10_diff", "Ced.Props.C10_insertion_never", "Ced.Props.C10_right", "Ced.Props.C10_block_replaced", "Ced.Props.C10_single_byte_change_lost", "Ced.Props.C10_changed_end_lost", "Ced.Props.C10_crashes"], "note": "exact classification of every outcome; the code is wrong on large classes, each proved"},
 {"property": "C11", "status": "proved", "theorems": ["Ced.Props.C11_common_subsequence", "Ced.Props.C11_nearly_longest", "Ced.Props.C11_not_longest"], "note": "The result is common, at most one byte shorter than a longest one, and not always a longest one."},
 {"property": "C12", "status": "proved", "theorems": ["Ced.Props.C12_reload", "Ced.Props.C12_taken_over", "Ced.Props.C12_change_not_reloaded", "Ced.Props.C12_emptied_file_crashes", "Ced.Props.C12_multibyte_crashes"], "note": "exact classification; completion when no common end additionally depends on what the external tree does with removed nodes"},
 {"property": "C13", "status": "proved", "theorems": ["Ced.Props.C13_update_one_step"], "note": ""},
 {"property": "C14", "status": "proved", "theorems": ["Ced.Props.C14_roundtrip", "Ced.Props.C14_past", "Ced.Props.C14_roundtrip_later_lines", "Ced.Props.C14_multibyte_refuted"], "note": "single-byte texts; the multi-byte failure is proved too"},
 {"property": "C15", "status": "proved", "theorems": ["Ced.Props.C15_coord_to_offset", "Ced.Props.C15_zero"], "note": ""},
 {"property": "C16", "status": "proved", "theorems": ["Ced.Props.C16_line_length", "Ced.Props.C16_longest_line"], "note": ""},
 {"property": "C17", "status": "proved", "theorems": ["Ced.Props.C17_right", "Ced.Props.C17_right_end", "Ced.Props.C17_left", "Ced.Props.C17_left_begin", "Ced.Props.C17_right_end_refuted"], "note": "single-byte texts ending in newline; without the newline the end is refuted"},
 {"property": "C18", "status": "proved", "theorems": ["Ced.Props.C18_down", "Ced.Props.C18_up", "Ced.Props.C18_down_up"], "note": ""},
 {"property": "C19", "status": "proved", "theorems": ["Ced.Props.C19_line_begin", "Ced.Props.C19_line_end", "Ced.Props.C19_line_end_empty_refuted", "Ced.Props.C19_begin", "Ced.Props.C19_end", "Ced.Props.C19_idempotent"], "note": "line end on an empty line panics (proved)"},
 {"property": "C20", "status": "proved", "theorems": ["Ced.Props.C20_motion", "Ced.Props.C20_heads", "Ced.Props.C20_one_byte", "Ced.Props.C20_outside", "Ced.Props.C20_crash_iff", "Ced.Props.C20_motions", "Ced.Props.motion_inside", "Ced.Props.C20_multibyte_crashes", "Ced.Props.C20_down_refuted", "Ced.Props.C20_multibyte_refuted", "Ced.Props.C20_roaming", "Ced.Props.C20_fuzzy"], "note": "exact outcome of every motion on single-byte texts; multi-byte crash class"},
 {"property": "C21", "status": "proved", "theorems": ["Ced.Props.C21_selection"], "note": ""},
 {"property": "C22", "status": "proved", "theorems": ["Ced.Props.C22_delete", "Ced.Props.C02_delete", "Ced.Props.C22_behind_refuted", "Ced.Props.C22_session_refuted"], "note": "For every reachable state and every client whose selections lie in ASCII buffers ended by a newline (one column per byte), when the request completes: the texts returned are the selected ones, each buffer keeps exactly the rest or a single newline, nothing else changes. C02_delete tells when the underlying deletion can panic."},
 {"property": "C23", "status": "proved", "theorems": ["Ced.Props.motion_inside", "Ced.Props.C23_delete", "Ced.Props.clamp_within", "Ced.Props.C23_delete_refuted", "Ced.Props.C23_others_refuted"], "note": "Motions keep selections inside (motion_inside); after a deletion the selection is inside exactly when the deletion did not reach the end of the text or took all of it (C23_delete, an equivalence); the violations are proved on concrete sessions, also for other clients."},
 {"property": "C24", "status": "proved", "theorems": ["Ced.Props.C24_highlight", "Ced.Props.C24_range_lens_misplaced", "Ced.Props.C24_client"], "note": "single-byte texts; C24_client is about what clients are sent. Any characters: C88_client."},
 {"property": "C25", "status": "proved", "theorems": ["Ced.Props.C25_recency"], "note": ""},
 {"property": "C26", "status": "proved", "theorems": ["Ced.Props.C26_key", "Ced.Props.C26_collision"], "note": "names without {; the collision otherwise is proved"},
 {"property": "C27", "status": "proved", "theorems": ["Ced.Props.C27_items"], "note": ""},
 {"property": "C28", "status": "proved", "theorems": ["Ced.Props.C28_live", "Ced.Props.C28_selections", "Ced.Props.C28_join_refuted", "Ced.Props.C28_session", "Ced.Props.C28_server"], "note": "selections part holds for histories without view <buffer>, view-remove of unshared buffers and joins to an abandoned editor; the join exception is refuted by a concrete history"},
 {"property": "C29", "status": "proved", "theorems": ["Ced.Props.C29_close"], "note": ""},
 {"property": "C30", "status": "proved", "theorems": ["Ced.Props.C30_exact", "Ced.Props.C30_debug_view_crashes", "Ced.Props.C30_initial_crashes", "Ced.Props.C30_last_view"], "note": "equivalence: the request completes iff the view is closable; a crash otherwise"},
 {"property": "C31", "status": "proved", "theorems": ["Ced.Props.C31_view", "Ced.Props.C31_buffer", "Ced.Props.C31_stuck", "Ced.Props.C31_unknown", "Ced.Props.C31_by_identifier", "Ced.Props.C31_by_buffer_crashes"], "note": "all four outcomes; the third one is a defect of the code"},
 {"property": "C32", "status": "proved", "theorems": ["Ced.Props.C32_edit"], "note": "For every state and every name but the one of the log."},
 {"property": "C33", "status": "proved", "theorems": ["Ced.Props.C33_unknown", "Ced.Props.C33_add", "Ced.Props.C33_remove_absent", "Ced.Props.C33_remove", "Ced.Props.C33_remove_last", "Ced.Props.C33_remove_crashes", "Ced.Props.C33_removed_still_edited"], "note": "The last two prove a defect: the selections in the removed buffer stay, so later commands crash, or edit a buffer the client does not see."},
 {"property": "C34", "status": "proved", "theorems": ["Ced.Props.C34_motion"], "note": ""},
 {"property": "C35", "status": "proved", "theorems": ["Ced.Props.C35_append", "Ced.Props.C35_reload", "Ced.Props.C35_delete", "Ced.Props.C35_delete_refuted"], "note": "Appending and reloading tell every viewer; deleting the selection tells only the client that deletes (proved for all states)."},
 {"property": "C36", "status": "proved", "theorems": ["Ced.Props.C36_join", "Ced.Props.C36_join_alone", "Ced.Props.C36_join_others", "Ced.Props.C36_cwd"], "note": "The client present that joined last is defined on the history of operations (presentClients)."},
 {"property": "C37", "status": "proved", "theorems": ["Ced.Props.C37_response", "Ced.Props.C37_unreadable", "Ced.Props.C37_unknown", "Ced.Props.C37_missing", "Ced.Props.C37_ill_typed", "Ced.Props.C37_call", "Ced.Props.C37_keys", "Ced.Props.C37_asks", "Ced.Props.C37_line", "Ced.Props.C37_typed", "Ced.Props.C37_errors"], "note": "every line, every state and every script engine; the JSON reader is a parameter"},
 {"property": "C38", "status": "proved", "theorems": ["Ced.Props.C38_request", "Ced.Props.C38_notification", "Ced.Props.C38_error", "Ced.Props.C38_result", "Ced.Props.C38_unit_result_refuted", "Ced.Props.C38_call", "Ced.Props.C38_asks", "Ced.Props.C38_served"], "note": "Requests (parameters null and absent are told apart by nobody), notifications and error responses; C38_call: for each call of the protocol the server reads the method and parameters the client gave. The second sentence is C38_unit_result_refuted."},
 {"property": "C39", "status": "proved", "theorems": ["Ced.Props.C39_events"], "note": "Every notification and every response the server can build."},
 {"property": "C40", "status": "proved", "theorems": ["Ced.Props.C40_response", "Ced.Props.C40_quiet", "Ced.Props.C40_deliver", "Ced.Props.C40_run"], "note": "all schedules of events and deliveries"},
 {"property": "C41", "status": "proved", "theorems": ["Ced.Props.C41_no_missing", "Ced.Props.C41_index", "Ced.Props.C41_quit_crashes"], "note": "all interleavings; after a quit the crash is proved for every run"},
 {"property": "C42", "status": "proved", "theorems": ["Ced.Props.C42_identifiers"], "note": ""},
 {"property": "C43", "status": "proved", "theorems": ["Ced.Props.C43_stops", "Ced.Props.C43_runs", "Ced.Props.C43_quit_refuted"], "note": "when nobody quits; the statement is refuted for a quit"},
 {"property": "C44", "status": "proved", "theorems": ["Ced.Props.C44_listed", "Ced.Props.C44_prompt", "Ced.Props.C44_sent", "Ced.Props.C44_invalid_crashes", "Ced.Props.C44_long_refuted"], "note": "The f32 rounding of the scores is modelled (Model/F32): below 2^23 bytes it keeps the order of the lengths (F32.score_lt). An invalid pattern crashes the server (C44_invalid_crashes)."},
 {"property": "C45", "status": "proved", "theorems": ["Ced.Props.C45_tokens", "Ced.Props.C45_nested_crashes"], "note": "Nested or out of order groups crash."},
 {"property": "C46", "status": "proved", "theorems": ["Ced.Props.C46_search"], "note": "Under the contract PlainEngine for the external regex crate: a pattern of plain words behaves as the backtracking matcher PlainRegex."},
 {"property": "C47", "status": "proved", "theorems": ["Ced.Props.C47_select", "Ced.Props.C47_initial", "Ced.Props.C47_listed", "Ced.Props.C47_kept", "Ced.Props.C47_kept_join", "Ced.Props.C47_shown", "Ced.Props.C47_refused"], "note": "For every reachable editor state (EditorRun)."},
 {"property": "C48", "status": "proved", "theorems": ["Ced.Props.C48_roundtrip", "Ced.Props.C48_typed", "Ced.Props.C48_others_refuted", "Ced.Props.C48_shift", "Ced.Props.C48_alone", "Ced.Props.C48_names"], "note": "C48_typed: every key event made from a typed character; C48_others_refuted: it fails for other keys."},
 {"property": "C49", "status": "proved", "theorems": ["Ced.Props.C49_key", "Ced.Props.C49_modes", "Ced.Props.C49_join", "Ced.Props.C49_keys", "Ced.Props.C49_escape", "Ced.Props.C49_server"], "note": "The modes are specified in Spec/Scripts (KeyMode: handles, next, op) apart from the tables of the scripts. C49_key for any state of a handler in a mode, C49_keys for any list of keys in one request, C49_modes and C49_server for every session: a connected client always has a handler in one of the modes. The iteration order of Lua tables and the exec command are parameters."},
 {"property": "C50", "status": "proved", "theorems": ["Ced.Props.C50_normalised", "Ced.Props.C50_keeps"], "note": "every text"},
 {"property": "C51", "status": "proved", "theorems": ["Ced.Props.C51_mirrors", "Ced.Props.C51_ignored", "Ced.Props.C51_server", "Ced.Props.C51_current", "Ced.Props.C51_heard"], "note": "The state of a connection that has read what the server wrote (encoded, framed, read, parsed, decoded) is given by the last notification of each kind, whatever its user does; a line is related to what it says by a separate description of the JSON, and any other line changes nothing; end to end with a run of the server; with C69 the client shows the present state of its view. The crate of decorated texts is a parameter with a round-trip contract (met by a concrete one in the examples)."},
 {"property": "C52", "status": "proved", "theorems": ["Ced.Props.C52_opens", "Ced.Props.C52_bounds", "Ced.Props.C52_moves", "Ced.Props.C52_select", "Ced.Props.C52_select_ok", "Ced.Props.C52_empty_refuted", "Ced.Props.C52_no_match_crashes"], "note": "For menus with entries; a menu without entries, which the server sends when nothing matches, crashes the client on Enter and Down (proved, end to end)."},
 {"property": "C53", "status": "proved", "theorems": ["Ced.Props.C53_ids", "Ced.Props.C53_distinct", "Ced.Props.C53_exhausted", "Ced.Props.C53_responses"], "note": "Identifiers are 0, 1, 2, ... up to the range of i32; end to end, the responses come back in that order."},
 {"property": "C54", "status": "proved", "theorems": ["Ced.Props.C54", "Ced.Props.C54_socket", "Ced.Props.C54_named", "Ced.Props.C54_tcp", "Ced.Props.C54_written", "Ced.Props.isTcp_iff", "Ced.Props.C54_address_is_a_file", "Ced.Props.C54_bad_address_crashes", "Ced.Props.C54_slash", "Ced.Props.C54_dots", "Ced.Props.C54_address", "Ced.Props.C54_crashes"], "note": "Exact: the daemon gets the client's mode for every address, and for a socket iff it lies directly below the root under a plain non-address name. The regexp's Unicode classes are a parameter with a contract; std's address parser is modelled for IPv4. Refuted without the conditions (two-digit second number, host names, slashes, empty name, ..)."},
 {"property": "C55", "status": "proved", "theorems": ["Ced.Props.C55_name", "Ced.Props.C55_distinct", "Ced.Props.C55_crash", "Ced.Props.C55_not_shortest", "Ced.Props.C55_scratch", "Ced.Props.C55_scratch_name"], "note": "Exact characterisation of the name (least depth with a component no other open file has there), distinctness for different files, and the crash for path sets such as /a and /b/a. The function is public but not called by the editor."},
 {"property": "C56", "status": "proved", "theorems": ["Ced.Props.C56_calls", "Ced.Props.C56_drain"], "note": "k-th call returns the k-th item, then null for ever; for every list and number of calls."},
 {"property": "C57", "status": "proved", "theorems": ["Ced.Props.C57_pending", "Ced.Props.C57_length", "Ced.Props.C57_message", "Ced.Props.C57_nothing", "Ced.Props.C57_too_small_loses", "Ced.Props.C57_negative", "Ced.Props.C57_negative_refuted", "Ced.Props.C57_threads"], "note": "For every history of calls with buffers at least as long as claimed; messages below 2^31 bytes. Refuted for negative lengths (write past the end); a too small buffer loses the message. Any number of threads, in any order of their calls."},
 {"property": "C58", "status": "proved", "theorems": ["Ced.Props.C58_context", "Ced.Props.C58_any", "Ced.Props.C58_given", "Ced.Props.C58_wide_refuted"], "note": "C58_context for ASCII buffers ended by a newline; C58_any, C58_given for any characters, the selections lying in their buffers."},
 {"property": "C59", "status": "proved", "theorems": ["Ced.Props.C59_ready", "Ced.Props.C59_blocks", "Ced.Props.openFiles_count", "Ced.Props.edit_alone", "Ced.Props.joined_standard", "Ced.Props.C59_greeting", "Ced.Props.C59_log"], "note": "With ced's scripts and ordinary file names, starting gets ready iff there are at most 97 files (if none crashes), and blocks for ever otherwise. The channel of 100 messages is modelled by the number of messages sent before the reader starts."},
 {"property": "C60", "status": "proved", "theorems": ["Ced.Props.C60_rows", "Ced.Props.C60_fits", "Ced.Props.C60_one", "Ced.Props.C60_line", "Ced.Props.C60_crash", "Ced.Props.C60_overflow_refuted", "Ced.Props.C60_escape_refuted"], "note": "C60_fits and C60_crash are equivalences. C60_overflow_refuted spells out the case of a header on the last row, C60_escape_refuted that decorated lines that are cut show too few characters."},
 {"property": "C61", "status": "proved", "theorems": ["Ced.Props.C61_buffers", "Ced.Props.C61_empty_refuted"], "note": "All buffers of the editor satisfy the hypotheses of C01-C24."},
 {"property": "C62", "status": "proved", "theorems": ["Ced.Props.C62_framing", "Ced.Props.C62_calls", "Ced.Props.C62_events", "Ced.Props.C62_text", "Ced.Props.C62_answered", "Ced.JsonText.message_call", "Ced.JsonText.message_note", "Ced.JsonText.parseMessage_readsBack"], "note": "for every reader of messages that reads back what serde_json does (levels, 64-bit integers, sorted members); such readers are given, and the messages of ced are shown to be of this kind"},
 {"property": "C63", "status": "proved", "theorems": ["Ced.Props.C63_stdio_refuted"], "note": "Refutes, for every two messages, what a user of the stdio client would expect (reading its output line by line)."},
 {"property": "C64", "status": "proved", "theorems": ["Ced.Props.C64_message", "Ced.Props.C64_error", "Ced.Props.C64_exec", "Ced.Props.C64_exec_fine", "Ced.Props.C64_start"], "note": "every reachable state (names without {)"},
 {"property": "C65", "status": "proved", "theorems": ["Ced.Props.C65_queued", "Ced.Props.C65_order", "Ced.Props.C65_run", "Ced.Props.C65_none_lost"], "note": "all schedules; the scripts may queue notifications but not take them back"},
 {"property": "C66", "status": "proved", "theorems": ["Ced.Props.C66_frame", "Ced.Props.C66_goto"], "note": "C66_frame gives the exact condition (title + 2 columns no wider than the widest other line) under which the frame is a rectangle, for ASCII lines; C66_goto: the go-to hints of the scripts are rectangles holding one line per key whatever the order of pairs."},
 {"property": "C67", "status": "proved", "theorems": ["Ced.Props.C67_items", "Ced.Props.C67_client", "Ced.Props.C67_ascii"], "note": "C67_items for any lenses; C67_client for the view of any client in any reachable state (the editor only makes whole-buffer lenses); C67_ascii relates the lines to the text for ASCII texts without carriage returns (C08 for the others)."},
 {"property": "C68", "status": "proved", "theorems": ["Ced.Props.C68_clients", "Ced.Props.C68_found"], "note": "Over every schedule of joins, leaves, lines and deliveries of the server with the real scripts (CedServer)."},
 {"property": "C69", "status": "proved", "theorems": ["Ced.Props.C69_keeps", "Ced.Props.C69_run", "Ced.Props.C69_opens", "Ced.Props.C69_join", "Ced.Props.C69_alone", "Ced.Props.C69_join_refuted", "Ced.Props.C69_exceptions"], "note": "An up-to-date screen stays up to date under every operation of every client outside the listed exceptions (Spec.Tells), one step, along runs, and for a client alone; what makes it up to date first (edit, view, open; joining with the log in view). The exceptions are real: each is shown by a concrete session (C69_join_refuted, C69_exceptions)."},
 {"property": "C70", "status": "proved", "theorems": ["Ced.Props.C70_content", "Ced.Props.C70_crash", "Ced.Props.C70_zero", "Ced.Props.C70_large"], "note": "Events without zero bytes, 32-bit numbers, not hint/error/response. The heap and the destructors are in C90."},
 {"property": "C71", "status": "proved", "theorems": ["Ced.Props.C71_answers", "Ced.Props.C71_quit_goes_on", "Ced.Props.C71_sessions", "Ced.Props.C71_scripts", "Ced.Props.C71_run", "Ced.Props.C71_oneshot"], "note": "Lines handled one at a time; interleaving of printed notifications is not modelled. Refuted for quitting: the process goes on."},
 {"property": "C72", "status": "proved", "theorems": ["Ced.Props.C72_crash", "Ced.Props.C72_drawn", "Ced.Props.C72_width"], "note": "The crash band is exact (an equivalence); the text drawn is given otherwise."},
 {"property": "C73", "status": "proved", "theorems": ["Ced.Props.C73_menu", "Ced.Props.C73_plain", "Ced.Props.C73_typed", "Ced.Props.C73_search", "Ced.Props.C73_left", "Ced.Props.C73_lost_refuted", "Ced.Props.C73_modifiers", "Ced.Props.C73_character", "Ced.Props.C73_asks"], "note": "C73_lost_refuted: without waiting for the answers characters typed in a menu are lost, as the claim allows."},
 {"property": "C74", "status": "proved", "theorems": ["Ced.Props.C74_drawn", "Ced.Props.C74_entry", "Ced.Props.C74_crash", "Ced.Props.C74_hidden_refuted"], "note": "C74_hidden_refuted: menus do not scroll, so a highlighted entry below the screen is not seen."},
 {"property": "C75", "status": "proved", "theorems": ["Ced.Props.C75_drawn", "Ced.Props.C75_inside", "Ced.Props.C75_crash", "Ced.Props.C75_goto", "Ced.Props.C75_exact"], "note": "C75_goto applies it to the hints of the scripts."},
 {"property": "C76", "status": "proved", "theorems": ["Ced.Props.C76_mirrors", "Ced.Props.C76_drawn", "Ced.Props.C76_ids", "Ced.Props.C76_status", "Ced.Props.C76_size", "Ced.Props.C76_fitted"], "note": "The connection of the terminal is a run of the connection of C51-C53."},
 {"property": "C77", "status": "proved", "theorems": ["Ced.Props.C77_start", "Ced.Props.C77_step", "Ced.Props.C33_leftover", "Ced.Props.C33_no_leftover", "Ced.Props.C20_request", "Ced.Props.C58_total"], "note": "totality of every safe request from every state reached by safe requests; motions exactly"},
 {"property": "C78", "status": "proved", "theorems": ["Ced.Props.C78_value", "Ced.Props.C78_quoteless", "Ced.Props.C78_lines", "Ced.Props.C78_session", "Ced.Props.C78_broken", "Ced.Props.C78_reader"], "note": "The reader of Lua 5.3 literals is modelled character by character (Model/LuaEnv). What a name with an unescaped double quote makes of the chunk (it is then other Lua code) is a parameter, about which nothing is claimed."},
 {"property": "C79", "status": "proved", "theorems": ["Ced.Props.C79_listed", "Ced.Props.C79_reachable", "Ced.Props.C79_connects", "Ced.Props.C79_alone", "Ced.Props.C79_list", "Ced.Props.C79_clean", "Ced.Props.C79_clean_refuted", "Ced.Props.C79_race_refuted"], "note": "sessions with a plain name, one directory, each step one system call of one process; C79_race_refuted is the schedule on which a client is refused"},
 {"property": "C80", "status": "proved", "theorems": ["Ced.Props.C80_crashed", "Ced.Props.C80_refused", "Ced.Props.C80_removed", "Ced.Props.C80_twice_refuted"], "note": "crash of a listening server at any point; a second server removes the socket of the first"},
 {"property": "C81", "status": "proved", "theorems": ["Ced.Props.C81_start", "Ced.Props.C81_turn", "Ced.Props.C81_loop"], "note": "End-to-end lift of C77. Safe requests are those of Spec/Calm.lean; Spec/SafeServer.lean lifts them to keys, menus, scripts, lines and events. Quits are excluded because the connection of a client that has quit crashes the server when it is closed (C41/C43). An exec is safe if it does nothing but safe operations, since Lua itself is not modelled."},
 {"property": "C82", "status": "proved", "theorems": ["Ced.Props.C82_functions", "Ced.Props.C82_names", "Ced.Props.C82_distinct", "Ced.Props.C82_prefix_refuted", "Ced.Props.C82_imports", "Ced.Props.C82_ced", "Ced.Props.C82_read", "Ced.Props.C82_unread_refuted", "Ced.Props.C82_ced_imports", "Ced.Props.C82_source", "Ced.Props.C82_placeholder_refuted"], "note": "The white space that `stringify!` puts between the tokens of a template is simplified. `char::is_uppercase` is a parameter that is as usual on ASCII. C82_prefix_refuted and C82_unread_refuted are the two places where the claim fails."},
 {"property": "C83", "status": "proved", "theorems": ["Ced.Props.C83_turn", "Ced.Props.C83_loop", "Ced.Props.C83_joins", "Ced.Props.C83_first", "Ced.Props.C83_opens", "Ced.Props.C83_user", "Ced.Props.C83_session", "Ced.Props.C83_terminal"], "note": "UpToDate is the notion of C69, the rules are those of C81 (Spec/SafeServer.lean) and Spec/UserScreen.lean. Assumes notifications whose numbers fit in machine words and a connection that works for this user; what other clients' connections do is free."},
 {"property": "C84", "status": "proved", "theorems": ["Ced.Props.C84_calls", "Ced.Props.C84_stops"], "note": "The iterator is modelled as it is (its condition is the reverse of the intended one); the theorems describe every call for every steady history and every single-byte text, refuting that it enumerates the positions."},
 {"property": "C85", "status": "proved", "theorems": ["Ced.Props.C85_events", "Ced.Props.C85_running", "Ced.Props.C85_over", "Ced.Props.C85_text", "Ced.Props.C85_messages"], "note": "the external line reader is modelled; reading errors may come at any time"},
 {"property": "C86", "status": "proved", "theorems": ["Ced.Props.C86_requests", "Ced.Props.C86_same", "Ced.Props.C86_printed", "Ced.Props.C86_crash"], "note": "the missing newline of its output is C63"},
 {"property": "C87", "status": "proved", "theorems": ["Ced.Props.C87_motion", "Ced.Props.C87_selected", "Ced.Props.C87_left", "Ced.Props.C87_right_stuck_refuted", "Ced.Props.C87_select_refuted", "Ced.Props.C87_delete_refuted", "Ced.Props.C87_line_end_refuted", "Ced.Props.C87_first_line_refuted"], "note": "C87_motion and C87_selected are equivalences with Spec/MotionAny; the theorems named _refuted state what goes wrong with characters of more than one byte, for all texts that have them."},
 {"property": "C88", "status": "proved", "theorems": ["Ced.Props.C88_told", "Ced.Props.C88_where", "Ced.Props.C88_opened", "Ced.Props.C88_behind", "Ced.Props.C88_moved", "Ced.Props.C88_line_end_refuted", "Ced.Props.C88_session_refuted", "Ced.Props.C88_highlight", "Ced.Props.C88_client", "Ced.Props.C88_unseen_refuted", "Ced.Props.C88_misplaced_refuted"], "note": "C88_told is an equivalence with Spec/Showing for every text; C88_where turns it into a condition on bytes and characters for texts that end with a newline. What the external Decorator does with the ranges it is given is not modelled."},
 {"property": "C89", "status": "proved", "theorems": ["Ced.Props.C89_list", "Ced.Props.C89_session", "Ced.Props.C89_modes", "Ced.Props.C89_server", "Ced.Props.C89_own", "Ced.Props.C89_private", "Ced.Props.C89_script_refuted", "Ced.Props.C89_address_refuted", "Ced.Props.C89_slash_refuted", "Ced.Props.C89_program", "Ced.Props.C89_itself"], "note": "C89_session, C89_list and C89_modes are equivalences with the small specification (Addresses, SocketAt, SessionAt, Launches), so they also say when ced crashes; argument parsing (clap) and the process start itself are not modelled. The three refuted parts are concrete command lines."},
 {"property": "C90", "status": "proved", "theorems": ["Ced.Props.C90_alive", "Ced.Props.C90_once", "Ced.Props.C90_memory", "Ced.Props.C90_event", "Ced.Props.C90_text", "Ced.Props.C90_status", "Ced.Props.C90_view", "Ced.Props.C90_lenses", "Ced.Props.C90_free", "Ced.Props.C90_created", "Ced.Props.C90_functions", "Ced.Props.C90_rest", "Ced.Props.C90_leak_refuted"], "note": "Addresses are not used again in the model. C90_leak_refuted is the refuted part (memory that no function frees); C90_rest shows that it is exactly what remains. C90_functions ties the calls of the model to the functions generated by C82. Threads and the functions that only send requests are not part of this model."},
 {"property": "C91", "status": "proved", "theorems": ["Ced.Props.C91_tasks", "Ced.Props.C91_only", "Ced.Props.C91_leaves", "Ced.Props.C91_after", "Ced.Props.C91_lost", "Ced.Props.C91_requests", "Ced.Props.C91_flush", "Ced.Props.C91_crash_refuted", "Ced.Props.C91_broken_refuted", "Ced.Props.C91_unwritten_refuted"], "note": "The writing task takes the requests in order and its failures are ignored, as in the code; that a write takes the whole line or nothing is a simplification."},
 {"property": "C92", "status": "proved", "theorems": ["Ced.Props.C92_kept", "Ced.Props.C92_back", "Ced.Props.C92_added", "Ced.Props.C92_removed", "Ced.Props.C92_jump_refuted"], "note": "Concerned (Spec/Kept) lists by operation whose selections may change; AwayRun is any number of operations that do not concern them. The exception is shown by a concrete session of two clients."},
 {"property": "C93", "status": "proved", "theorems": ["Ced.Props.C93_private", "Ced.Props.C93_scripts", "Ced.Props.C93_others", "Ced.Props.C93_silent", "Ced.Props.C93_exec_refuted"], "note": "MeantFor, OnlyFor and Discreet are in Spec/Private. That exec scripts must be discreet is a hypothesis, shown necessary by C93_exec_refuted (a script that tells another client). Everybody may also read the log buffers in its views."},
 {"property": "C94", "status": "proved", "theorems": ["Ced.Props.C94_created", "Ced.Props.C94_order", "Ced.Props.C94_null", "Ced.Props.C94_watch", "Ced.Props.C94_hint_refuted"], "note": "The waiting of five seconds is the order of the steps: next is the moment at which the waiting ends. Destroying the connection is C90."},
 {"property": "C95", "status": "proved", "theorems": ["Ced.Props.C95_start", "Ced.Props.C95_step", "Ced.Props.C95_still", "Ced.Props.C95_shown", "Ced.Props.C95_inside", "Ced.Props.C95_single", "Ced.Props.C95_ascii", "Ced.Props.C95_line_start", "Ced.Props.C95_lands", "Ced.Props.C95_starts", "Ced.Props.C95_home", "Ced.Props.C95_grown", "Ced.Props.C95_append", "Ced.Props.C95_append_refuted", "Ced.Props.C95_message_refuted", "Ced.Props.C95_server_start", "Ced.Props.C95_server_turn", "Ced.Props.C95_server_loop", "Ced.Props.C95_server_still", "Ced.Props.C95_first", "Ced.Props.C95_screens", "Ced.Props.C95_user", "Ced.Props.C95_session", "Ced.Props.C95_still_session", "Ced.Props.C95_terminal"], "note": "SafeAny, SafeStill, Drawable and Placed are in Spec/AnyChars. The conditions are sufficient; C95_append is exact for appending, C87 and C88 are exact for one motion and one drawing. C77 is the same for ASCII, with weaker conditions. C95_server_*, C95_user etc. lift it to servers and screens (Rules.any, Rules.still in Spec/SafeServer, ShowsText in Spec/UserScreen)."},
 {"property": "C96", "status": "proved", "theorems": ["Ced.Props.C96_text", "Ced.Props.C96_shown", "Ced.Props.C96_delete_exact", "Ced.Props.C96_lands", "Ced.Props.C96_motion", "Ced.Props.C96_delete_keeps", "Ced.Props.C96_reload", "Ced.Props.C96_two_clients_refuted", "Ced.Props.C96_reload_refuted", "Ced.Props.C96_server_start", "Ced.Props.C96_server_loop", "Ced.Props.C96_user", "Ced.Props.C96_session", "Ced.Props.C96_terminal"], "note": "sessions stated in Spec/Whole (WholeHistory) and Spec/WholeServer; the two refutations show sessions of ced outside the rule in which a character is cut"},
 {"property": "C97", "status": "proved", "theorems": ["Ced.Props.C97_keeps", "Ced.Props.C97_connects", "Ced.Props.C97_second", "Ced.Props.C97_one", "Ced.Props.C97_refused", "Ced.Props.C97_again", "Ced.Props.C97_zero_refuted", "Ced.Props.C97_files"], "note": "On the machine of Model/Host, where several servers and clients of any sessions do their system calls in any order and others make and remove files. C97_keeps, C97_connects, C97_second: a server that listens is not disturbed. C97_one: two servers that listen at one address are the same. C97_refused: without a server started by hand. C97_again: after a crash or the end. C97_files: the file system and the list. Addresses that include others (0.0.0.0) are outside the model; the port 0 is a port that no name says."},
 {"property": "C98", "status": "proved", "theorems": ["Ced.Props.C98_touches", "Ced.Props.C98_clients", "Ced.Props.C98_files", "Ced.Props.C98_deletes_refuted", "Ced.Props.C98_directory_refuted", "Ced.Props.C98_blocked", "Ced.Props.C98_leaves", "Ced.Props.C98_elsewhere", "Ced.Props.C98_plain"], "note": "Same machine. C98_touches and C98_clients: exactly what a call does to the file system. C98_files: files of others stay. C98_plain: simulation of the machine of C79/C80. The theorems named refuted, and C98_blocked, C98_leaves, C98_elsewhere, are the ways in which nested and absolute paths go wrong, each for every reached state. Symbolic links and .. are not modelled."},
 {"property": "C99", "status": "proved", "theorems": ["Ced.Props.C99_selection", "Ced.Props.C99_motion", "Ced.Props.C99_view", "Ced.Props.C99_newline_refuted", "Ced.Props.C99_down_refuted", "Ced.Props.C99_up_refuted", "Ced.Props.C99_left_refuted"], "note": "Equivalences: C99_selection for one selection, C99_motion for the whole request (MovesAll: what the motion makes of all selections; CanDraw: they can be drawn, which C88_where decides), C99_view for changes of view. The refuted theorems show ordinary motions that crash the editor in a text with a multi-byte character; each is instantiated in a session beside it."},
 {"property": "C100", "status": "proved", "theorems": ["Ced.Props.C100_stream", "Ced.Props.C100_same", "Ced.Props.C100_silent_refuted", "Ced.Props.C100_lines_refuted", "Ced.Props.C100_waits", "Ced.Props.C100_bounded", "Ced.Props.C100_completes", "Ced.Props.C100_writing", "Ced.Props.C100_realised"], "note": "Server with connections that hold `room` bytes each, all schedules of single bytes, reads and hang-ups. The expectation that a slow client only harms itself is refuted."},
 {"property": "C101", "status": "proved", "theorems": ["Ced.Props.C101_output", "Ced.Props.C101_end", "Ced.Props.C101_progress", "Ced.Props.C101_bounded", "Ced.Props.C101_completes", "Ced.Props.C101_lost_refuted", "Ced.Props.C101_ced_refuted"], "note": "Two threads and a channel for 100 messages, all schedules. The expectation that every notification is printed is refuted for every session."},
 {"property": "C102", "status": "proved", "theorems": ["Ced.Props.C102_lines", "Ced.Props.C102_ids", "Ced.Props.C102_settled", "Ced.Props.C102_screen"], "note": "Model/Reader (bytes in) and Model/Flow (bytes out) together, with the events taken in the order they are heard."},
 {"property": "C103", "status": "proved", "theorems": ["Ced.Props.C103_agrees", "Ced.Props.C103_enter", "Ced.Props.C103_escape", "Ced.Props.C103_stale_refuted", "Ced.Props.C103_highlight_refuted", "Ced.Props.C103_hidden_refuted", "Ced.Props.C103_reopened_refuted"], "note": "All schedules of the three tasks that the terminal's state depends on; the refutations are general (from any terminal with an open menu and nothing waiting) and state what happens instead. `OnScreen`: drawn, and the screen not cleared since."},
 {"property": "C104", "status": "proved", "theorems": ["Ced.Props.C104_editor", "Ced.Props.C104_server", "Ced.Props.C104_terminal", "Ced.Props.C104_standalone"], "note": "About a model of its own (Model/Locks): the programs reduced to the locks they take and where they wait, with free choices and loops; the scopes of Rust's guards are read off the code by hand. Sound check by induction on all runs."},
 {"property": "C105", "status": "proved", "theorems": ["Ced.Props.C105_standalone", "Ced.Props.C105_scripts"], "note": "By putting the editor into a server with that client (C81) and joining with C101. Quitting is outside the rules (C71_quit_goes_on). Hypotheses met by a session with two files, motions, a script, a menu and a line that holds no request."},
 {"property": "C106", "status": "proved", "theorems": ["Ced.Props.C106_same"], "note": "Corollary of the end-to-end theorem of C83 (rules83_user) for each of the two users; what ShowsText says of a buffer fixes the lines on the screen. The example has two users who connected at different times and have the same file on their screens."},
 {"property": "C107", "status": "proved", "theorems": ["Ced.Props.Hangup.C107_unheard", "Ced.Props.Hangup.C107_output", "Ced.Props.Hangup.C107_unanswered", "Ced.Props.Hangup.C107_answered", "Ced.Props.Hangup.C107_progress", "Ced.Props.Hangup.C107_bounded", "Ced.Props.C107_rules"], "note": "Model/Hangup: the two threads of Model/Printing, a reader that goes away, a println! that then panics (in the printing thread it drops the receiver, so that a later send panics in the main thread). The outcome under the rules is exact."},
 {"property": "C108", "status": "proved", "theorems": ["Ced.Props.C108_restored", "Ced.Props.C108_main", "Ced.Props.C108_agrees", "Ced.Props.C108_ends", "Ced.Props.C108_why", "Ced.Props.C108_reason_refuted", "Ced.Props.C108_log_refuted", "Ced.Props.C108_logged_refuted", "Ced.Props.C108_stuck_refuted", "Ced.Props.C108_half"], "note": "Assumed of the machine: a panic of any task unwinds the main thread, so the Term is dropped; the standard error is the terminal. A failing write is cut between two drawings, not inside one. Signals and mouse events are not modelled."},
 {"property": "C109", "status": "proved", "theorems": ["Ced.Props.C109_view", "Ced.Props.C109_one", "Ced.Props.C109_menu", "Ced.Props.C109_hint", "Ced.Props.C109_kept", "Ced.Props.C109_message_refuted", "Ced.Props.C109_entry_refuted", "Ced.Props.C109_control_refuted", "Ced.Props.C109_session", "Ced.Props.C109_user", "Ced.Props.C109_buffer", "Ced.Props.C109_size", "Ced.Props.C109_same", "Ced.Props.C109_seated", "Ced.Props.C109_two", "Ced.Props.C109_selection", "Ced.Props.C109_faces", "Ced.Props.C109_cut_refuted", "Ced.Props.C109_marked", "Ced.Props.C109_matches", "Ced.Props.C109_match_refuted"], "note": "The terminal is a model of its own (Model/Glass), not part of the repository: wide and combining characters are not in it, and of attributes only reversed video."}
]}
