{"id": "C01", "title": "Insert splices exactly", "statement": "Inserting a non-empty text at offset o of a buffer yields the old content with the text spliced in at o (at the end when o is past the end); nothing else changes, whatever edits produced the buffer.", "quantifier": "every buffer reachable by any edit history, every offset, every non-empty text", "why_tests_cant": "the result depends on how earlier edits fragmented the buffer, an unbounded family of layouts", "anchors": ["core/src/editor/piece_table/mod.rs: PieceTable::insert, append, Piece::split, shift_offset_after"]}
{"id": "C02", "title": "Delete removes exactly the range", "statement": "Deleting an offset range yields the old content without the bytes of that range (clipped to the buffer) and keeps every other byte in order; when the call does not complete normally it is only in the cases listed by the theorem.", "quantifier": "every buffer reachable by any edit history, every range", "why_tests_cant": "deletion cuts across an unbounded number of fragments and boundary alignments", "anchors": ["core/src/editor/piece_table/mod.rs: PieceTable::delete, Piece::truncate, shift_offset_after"]}
{"id": "C03", "title": "Replace is delete followed by insert at the same place", "statement": "Replacing a range by a non-empty text yields prefix ++ text ++ suffix and counts as a single undo step.", "quantifier": "every reachable buffer, every range and replacement", "why_tests_cant": "fragment layouts and undo grouping interact; finitely many examples cannot cover them", "anchors": ["core/src/editor/piece_table/mod.rs: PieceTable::replace, start_bulk, end_bulk"]}
{"id": "C04", "title": "Edit history refines a plain text with snapshot stacks", "statement": "Any sequence of insert, append, delete, replace, undo and redo calls that completes produces, at every step, exactly the text that a trivial editor storing the whole text and stacks of whole-text snapshots would produce, and undo/redo report the same success or failure.", "quantifier": "every finite sequence of edit, undo and redo calls from any initial text", "why_tests_cant": "needs induction over histories: a stale snapshot only shows after particular interleavings", "anchors": ["core/src/editor/piece_table/mod.rs: PieceTable (all mutating methods), commit, action, undo, redo"]}
{"id": "C05", "title": "Undo restores the text before the last action group", "statement": "Right after one edit made when no group is open, or after any run of same-kind edits, undo gives back exactly the text before the run; redo then gives back exactly the text after it.", "quantifier": "every reachable buffer and every run of same-kind edits", "why_tests_cant": "unbounded run lengths and preceding histories", "anchors": ["core/src/editor/piece_table/mod.rs: PieceTable::undo, redo, action, commit"]}
{"id": "C06", "title": "Line index agrees with the text", "statement": "After any sequence of edits, and of undos and redos that leave the line breaks where they are, the recorded line breaks are exactly the positions of newline bytes in the text. The first undo or redo that moves a line break loses this: right after an undo or a redo of a correctly indexed buffer, the index is right if and only if the newline positions did not change.", "quantifier": "every history of insert, append, delete, replace, reload, undo and redo", "why_tests_cant": "the index is maintained incrementally; drift may appear only after a particular sequence", "anchors": ["core/src/editor/piece_table/mod.rs: newlines field, with_text, append, insert, delete, undo, redo"]}
{"id": "C07", "title": "Range reads return exactly the requested bytes", "statement": "Reading a range that starts inside the buffer returns exactly the bytes of the text in that range (clipped at the end); a range starting at or past the end returns nothing. The lines read between two places of the text are the lines of the bytes between them; reading backwards crashes, and there is nothing between places one of which the text does not have.", "quantifier": "every reachable buffer and every range", "why_tests_cant": "reads stitch an unbounded number of fragments together", "anchors": ["core/src/editor/piece_table/mod.rs: PieceTable::range, text_range, Piece::ranged", "core/src/editor/piece_table/mod.rs: lines_range"]}
{"id": "C08", "title": "Lines agree with splitting the text", "statement": "For a non-empty buffer whose undos and redos left the line breaks in place, the line count is the number of newline-separated lines, line n read individually is the n-th of them, and every line number outside 1..count is refused. All lines read at once are those lines, where a carriage return right before a newline is left out and one at the very end of the text is kept.", "quantifier": "every history of such a buffer, every line number", "why_tests_cant": "all texts, including empty lines, missing final newline, single newline", "anchors": ["core/src/editor/piece_table/mod.rs: line_count, line_bytes, line_text, lines"]}
{"id": "C09", "title": "Text as string is not corrupted by fragmentation", "statement": "As long as every insertion and deletion falls on character boundaries, the buffer's text as a string is byte for byte the logical text; splitting inside a multi-byte character corrupts it: after one more insertion or deletion the string is the text exactly when it fell on character boundaries.", "quantifier": "every edit history at character boundaries over valid UTF-8 texts", "why_tests_cant": "each fragment is decoded separately, so corruption depends on where history placed fragment borders", "anchors": ["core/src/editor/piece_table/mod.rs: join, text, text_range (String::from_utf8_lossy)"]}
{"id": "C10", "title": "What the difference of two texts is", "statement": "Cut two texts into their longest common beginning, the longest common end of the rest, and the middles. If there is a common beginning, and no common end or one exactly as long, the computed script changes nothing. Otherwise, if one middle is empty (a pure insertion or deletion, or two empty texts), computing it crashes. Otherwise applying the script to the left text gives the right text, except that at one place one byte may be missing and one byte left over; it is exact if and only if the script accounts for every byte of both texts, in particular when the last byte but one of either middle exists and does not occur in the other middle.", "quantifier": "every pair of texts", "why_tests_cant": "all pairs of texts; the existing tests use two pairs that happen to work", "anchors": ["core/src/editor/diff.rs: precompute, find_lcs, diff", "core/src/editor/piece_table/mod.rs: apply_diff"]}
{"id": "C11", "title": "Common subsequence is common", "statement": "The byte sequence computed between two non-empty texts is a subsequence of both, so the script never claims a byte as common that is not, and it is at most one byte shorter than any common subsequence (it is not always a longest one).", "quantifier": "every pair of non-empty texts", "why_tests_cant": "dynamic programming table over unbounded sizes", "anchors": ["core/src/editor/diff.rs: find_lcs"]}
{"id": "C12", "title": "What reloading from disk shows", "statement": "Re-opening a text file whose content changed on disk: when the change is not noticed (common beginning, and no common end or one as long) the buffer keeps its old text and counts as synchronised; otherwise, when bytes were only inserted or only deleted, the server crashes; otherwise, if it completes, the buffer shows the file content except for at most one missing and one left-over byte at one place, exactly the content if and only if the script accounts for every byte; and then, when old and new text end alike, it completes if and only if no inserted part begins or ends inside a multi-byte character (so always for ASCII files).", "quantifier": "every buffer history, old and new content", "why_tests_cant": "all pairs of contents", "anchors": ["core/src/editor/buffer.rs: load_from_disk", "core/src/editor/piece_table/mod.rs: apply_diff", "core/src/editor/core.rs: edit"]}
{"id": "C13", "title": "A reload or replace is one undo step", "statement": "Applying a whole-text update is undone by a single undo, whatever number of elementary edits it took.", "quantifier": "every buffer and every target text for which the update completes", "why_tests_cant": "the number of elementary edits is unbounded", "anchors": ["core/src/editor/piece_table/mod.rs: apply_diff, replace, start_bulk, end_bulk, action"]}
{"id": "C14", "title": "Offset to coordinates and back is the identity", "statement": "For every offset inside a text whose characters are single bytes, converting it to line/column succeeds and converting back gives the same offset. For multi-byte characters the model shows where the code breaks it.", "quantifier": "every non-empty text, every offset", "why_tests_cant": "all texts and offsets; columns mix byte and grapheme counts only on some lines", "anchors": ["core/src/editor/piece_table/mod.rs: offset_to_coord, coord_to_offset"]}
{"id": "C15", "title": "Coordinates to offset accepts exactly the positions of the text", "statement": "A line/column pair is accepted iff the line exists and the column is between 1 and the number of characters of the line plus one, and the returned offset is the start of that character (or the end of the line).", "quantifier": "every non-empty text, every line/column pair with column >= 1", "why_tests_cant": "unbounded texts and coordinates", "anchors": ["core/src/editor/piece_table/mod.rs: coord_to_offset, char_at"]}
{"id": "C16", "title": "Line length and longest line are right", "statement": "The length reported for line n is the number of bytes of that line and the longest line reported is one of maximal length.", "quantifier": "every non-empty text, every line number", "why_tests_cant": "unbounded texts", "anchors": ["core/src/editor/piece_table/mod.rs: line_length, longest_line"]}
{"id": "C17", "title": "Right and left move one character", "statement": "On texts of single-byte characters ending in a newline, moving right goes to the next offset (stopping at the last), moving left to the previous (stopping at 0), crossing line ends.", "quantifier": "every such text, every cursor offset", "why_tests_cant": "all texts, positions and column memories", "anchors": ["core/src/editor/piece_table/navigator.rs: next, previous, pos", "core/src/editor/core.rs: move_cursor"]}
{"id": "C18", "title": "Up and down keep the remembered column", "statement": "Moving up or down changes the line by one (stopping at the first and last), lands on the remembered column or, if the line is shorter, at its end, and never forgets the remembered column.", "quantifier": "every such text, every offset, every remembered column >= 1", "why_tests_cant": "sequences of vertical moves over lines of arbitrary lengths", "anchors": ["core/src/editor/piece_table/navigator.rs: next_line, previous_line, pos", "core/src/editor/core.rs: move_cursor"]}
{"id": "C19", "title": "Line and document jumps land where they say", "statement": "Jump to line begin, to the last character of a non-empty line, to document begin and to document end land exactly there and are idempotent.", "quantifier": "every such text and cursor", "why_tests_cant": "all texts and positions", "anchors": ["core/src/editor/piece_table/navigator.rs: line_begin, line_end, begin, end"]}
{"id": "C20", "title": "When a cursor motion crashes", "statement": "On a single-byte text, a motion from a cursor inside the buffer crashes exactly when it heads for column 0 (line end on an empty line) or for a column behind the end of a last line without final newline, and otherwise lands where it heads; so on a text ending in a newline only line end on an empty line crashes. In a session of safe requests a client without leftover selections can be moved any number of times in any directions other than line end: every request completes and only its own selections in its view change; so does a script doing nothing else, from its start to its end. On multi-byte texts, any motion from the newline of a line with fewer characters than bytes crashes.", "quantifier": "every text, cursor, remembered column and motion", "why_tests_cant": "crashes need particular line shapes", "anchors": ["core/src/editor/piece_table/navigator.rs: pos, line_end", "core/src/editor/piece_table/mod.rs: coord_to_offset, char_at", "core/src/editor/core.rs: move_cursor", "core/tests/scripts/fuzzy.lua"]}
{"id": "C21", "title": "The selection denotes the text between its ends", "statement": "A selection denotes the bytes from its smaller to its larger end inclusive, whichever end is the anchor; the text reported to scripts is exactly those bytes.", "quantifier": "every selection inside a single-byte text ending in newline", "why_tests_cant": "all selections and texts, both directions", "anchors": ["core/src/editor/buffer.rs: selection_range", "core/src/editor/selection.rs: begin, end", "core/src/editor/core.rs: get_selected_text"]}
{"id": "C22", "title": "Deleting the selection removes exactly the selected text", "statement": "Delete-selection returns the selected text and removes exactly it; if nothing remains the buffer becomes a single newline, so a buffer is never left empty. (Violated by selections that other clients' deletions left behind the end of the text: deleting them deletes the first character, nothing, or crashes, depending on where they begin.)", "quantifier": "every buffer and selection inside it", "why_tests_cant": "all texts, selections and fragmentations", "anchors": ["core/src/editor/core.rs: delete_selection"]}
{"id": "C23", "title": "Selections stay inside the buffer", "statement": "After any motion, and after a deletion that does not reach the end of the text or takes all of it, both ends of the client's selection are valid offsets. (For other deletions, and for other clients of the same buffer, this is violated.)", "quantifier": "every buffer, selection, operation", "why_tests_cant": "needs the deletion to reach the end of the text", "anchors": ["core/src/editor/core.rs: clamp_selections, move_cursor, delete_selection", "core/src/editor/selection.rs: clamp_to"]}
{"id": "C24", "title": "The highlighted cells are the selected characters", "statement": "In what a client is sent of its view, the cells highlighted as selection are, in each buffer, exactly the line/column positions of the offsets the client itself has selected in its present view. (For texts of any characters see C88.)", "quantifier": "every single-byte text ending in newline, every selection inside it, every line and column", "why_tests_cant": "all multi-line shapes of selection", "anchors": ["core/src/editor/view.rs: View::to_notification_params", "core/src/editor/core.rs: notify_view_update"]}
{"id": "C25", "title": "Recently used order", "statement": "In a stack map every key is ordered exactly once, the latest is the last inserted or promoted key still present, removal reveals the previous one, promotion of an absent key is refused and changes nothing.", "quantifier": "every sequence of insert, promote and remove", "why_tests_cant": "histories", "anchors": ["core/src/stackmap.rs: StackMap::insert, set_last, remove, latest, latest_value"]}
{"id": "C26", "title": "View identifiers identify views", "statement": "Two views have the same identifier iff they show the same buffers with the same focuses, for buffer names without the separator characters; with them, different views collide.", "quantifier": "every pair of views", "why_tests_cant": "all names and focus lists", "anchors": ["core/src/editor/view.rs: View::key, Focus::fmt"]}
{"id": "C27", "title": "View items are grouped and ordered", "statement": "A view lists its buffers in name order, one header each, followed by its lenses in focus order, keeping every lens added and nothing else.", "quantifier": "every sequence of lens additions and group removals", "why_tests_cant": "histories", "anchors": ["core/src/editor/view.rs: add_lens, LensGroup::add, as_vec, remove_lens_group"]}
{"id": "C28", "title": "Every client always has a live view", "statement": "After any sequence of operations that completes (opening a buffer through the view request excepted), each client's current view is registered, every buffer it shows exists and there is at least one view. Unless a buffer was taken out of a view while no other view shows it, or a client joined an editor all clients had left, the client also has selections for each shown buffer. (The join exception is violated: the selections are missing.)", "quantifier": "every sequence of editor operations by any number of clients", "why_tests_cant": "multi-client histories", "anchors": ["core/src/editor/core.rs: add_client, remove_client, edit, view, add_view, delete_view, modify_view, delete_selection, append_to"]}
{"id": "C29", "title": "Closing a view falls back to the most recent one", "statement": "Closing a view moves exactly the clients showing it to the most recently added remaining view, drops exactly the buffers shown by no remaining view, and leaves other clients' views alone.", "quantifier": "every state and view", "why_tests_cant": "all configurations of views and clients", "anchors": ["core/src/editor/core.rs: delete_view"]}
{"id": "C30", "title": "Closing a view completes exactly when the view is closable", "statement": "A view-delete request completes if and only if (1) when the view shows the debug log, every other buffer it shows is shown by another view too, and (2) there is another view to fall back to, or a scratch buffer the closed view does not show; in every other state it crashes the server. In particular the initial view cannot be closed.", "quantifier": "every state reached by safe requests (C77), every client", "why_tests_cant": "needs the combination of the view that shows the log, what other views show, and the last view", "anchors": ["core/src/editor/core.rs: delete_view, delete_current_view, debug, notify_view_update"]}
{"id": "C31", "title": "Selecting a view: which arguments work", "statement": "A view request with the identifier of a view shows that view and leaves a working editor; with the name of a buffer of which some view shows nothing else, it selects that view; with the name of any other buffer it completes, shows the buffer, but then every motion, deletion of the selection, script command and closing of the view by that client crashes the server; with anything else it is refused and changes nothing.", "quantifier": "every state reached by safe requests (C77), client, argument", "why_tests_cant": "needs the request with a buffer name that has no view of its own, then another request", "anchors": ["core/src/editor/core.rs: view, delete_current_view, move_cursor"]}
{"id": "C32", "title": "Edit opens and shows the buffer", "statement": "After an edit request that completes, the client's current view shows exactly the named buffer, the buffer exists, a new file buffer holds the file content terminated by a newline and a new scratch buffer a single newline; other clients keep their views.", "quantifier": "every state, client, name, file content", "why_tests_cant": "all states and contents", "anchors": ["core/src/editor/core.rs: edit, open_file, open_scratch, view", "core/src/editor/buffer.rs: new_file, new_scratch"]}
{"id": "C33", "title": "Adding and removing a buffer from the view", "statement": "view-add makes the client's view show the previous buffers plus the named one; view-remove all but the named one; every client that showed the old view follows; an unknown buffer is refused without any effect. (Defect: the selections in the removed buffer stay behind; later commands of the client crash, or edit the buffer it no longer sees.)", "quantifier": "every state, client, buffer", "why_tests_cant": "all configurations", "anchors": ["core/src/editor/core.rs: add_to_current_view, remove_from_current_view, modify_view"]}
{"id": "C34", "title": "Motion is private and read-only", "statement": "Moving a cursor changes no buffer and no selection of another client, nor other views' selections of the same client.", "quantifier": "every state, client, motion", "why_tests_cant": "multi-client states", "anchors": ["core/src/editor/core.rs: move_cursor"]}
{"id": "C35", "title": "Content changes are announced to every viewer", "statement": "When text is appended to a buffer, or a file is opened or reloaded, each client showing it gets a view update (for appends: and no other client). For deletion by selection only the deleting client is told, whoever else shows the buffer.", "quantifier": "every state, buffer, text", "why_tests_cant": "multi-client states", "anchors": ["core/src/editor/core.rs: append_to, clients_with_buffer, notify_view_update, delete_selection"]}
{"id": "C36", "title": "A joining client starts from the latest client's context", "statement": "A new client gets the view and selections of the most recently joined client still present, or the latest view with fresh selections when alone. It is told its number, the session and the working directory, as a text whose directory names can be read back.", "quantifier": "every state", "why_tests_cant": "histories of joins and leaves", "anchors": ["core/src/editor/core.rs: add_client"]}
{"id": "C37", "title": "Exactly one response per request, same id, right error code", "statement": "Every line handled yields one response: unparsable lines give error -32600 with null id; unknown methods -32601; missing params -32600; ill-typed params -32602 (of parameters of the same name, the last counts); known methods run once; the id of the response is that of the request.", "quantifier": "every line and every editor state", "why_tests_cant": "all inputs", "anchors": ["core/src/editor/mod.rs: Editor::handle", "remote/src/jsonrpc.rs: response!, Response::new, Error::*"]}
{"id": "C38", "title": "JSON-RPC messages survive the wire", "statement": "Decoding the encoding of a request, notification or error response gives back the same message; a request that the client writes for a call asks for this call and is performed once by the server as that call, and answered with its identifier. A success response with a unit result does not survive: reading its result crashes the reader.", "quantifier": "every message", "why_tests_cant": "all messages; the failing case is the only success response the server sends", "anchors": ["remote/src/jsonrpc.rs: Request, Notification, Response, Error, Id"]}
{"id": "C39", "title": "Clients tell notifications from responses", "statement": "Every encoded notification is decoded as a notification and every encoded response as a response.", "quantifier": "every message", "why_tests_cant": "all messages", "anchors": ["remote/src/jsonrpc.rs: ClientEvent"]}
{"id": "C40", "title": "Responses and notifications reach only their addressees", "statement": "The server writes a response only to the requester and a notification to exactly the connected clients it is addressed to (all when unaddressed).", "quantifier": "every server state and event", "why_tests_cant": "multi-client states", "anchors": ["core/src/server.rs: BroadcastMessage::should_notify, handle_events, write_client"]}
{"id": "C41", "title": "No interleaving of connections breaks the server loop", "statement": "For every interleaving of the event streams of any number of connections that never send quit, the loop never fails to find a client it needs. After a quit request the later disconnect crashes the loop (proved).", "quantifier": "every interleaving of any number of connection histories", "why_tests_cant": "schedules", "anchors": ["core/src/server.rs: handle_events, read_client, serve", "core/src/editor/mod.rs: command_quit, removed_clients"]}
{"id": "C42", "title": "Client identifiers are never reused", "statement": "Connections get pairwise distinct increasing identifiers starting at 1.", "quantifier": "every number of connections", "why_tests_cant": "unbounded runs", "anchors": ["core/src/server.rs: serve, FIRST_CLIENT_ID"]}
{"id": "C43", "title": "The server stops exactly when the last connection closes", "statement": "When no client sends quit, the loop ends at the first disconnection that leaves no client and at no other event. (False when the last client quits: its disconnection then crashes the loop instead of ending it; proved.)", "quantifier": "every event history", "why_tests_cant": "histories", "anchors": ["core/src/server.rs: handle_events"]}
{"id": "C44", "title": "Menu results are complete and ordered", "statement": "A filtered menu is a reordering of the matching entries: shorter matches first, then by label (as long as no match is longer than eight million bytes: the scores are rounded to f32, and of two longer matches the longer one can come first); the entries shown are exactly those that match.", "quantifier": "every entry list and search", "why_tests_cant": "all inputs", "anchors": ["core/src/editor/menu.rs: MenuFilter::filter, Candidate::cmp, Menu::to_notification_params", "core/src/editor/menu.rs: compute_candidate_score"]}
{"id": "C45", "title": "Menu tokens spell the label", "statement": "The fragments shown for an entry concatenate to its label and the emphasised ones are exactly the matched groups, whenever the groups are in order and disjoint.", "quantifier": "every label and list of groups", "why_tests_cant": "all inputs", "anchors": ["core/src/editor/menu.rs: Candidate::tokenize"]}
{"id": "C46", "title": "Literal search means words in order", "statement": "For searches made of plain words (up to 1000 letters in all) an entry matches iff the words occur in it in order without overlap, ignoring case.", "quantifier": "every label, every list of plain words", "why_tests_cant": "all inputs", "anchors": ["core/src/editor/menu.rs: MenuFilter::build_regex, Candidate::new"]}
{"id": "C47", "title": "Menu selection runs the chosen entry", "statement": "menu-select runs the action of the first entry with the chosen key, of the prompt for prompts, and is refused with -32602 for an unknown menu or choice without any effect; the error says which of the two is unknown.", "quantifier": "every menu state and choice", "why_tests_cant": "all states", "anchors": ["core/src/editor/mod.rs: command_menu_select, command_menu", "core/src/editor/menu.rs: Menu::get, populate, is_prompt"]}
{"id": "C48", "title": "Key names round-trip", "statement": "Printing a key event made of a lower-case character or escape and any modifiers, then parsing it, gives the same event; a typed upper-case letter is named s- and the lower-case letter. A text is read as a key event exactly if it consists of the prefixes c-, a-, s- of its modifiers, in this order, and one character or esc; reading any other text crashes.", "quantifier": "every character and modifier combination", "why_tests_cant": "all characters", "anchors": ["remote/src/keys.rs: KeyEvent, Key Display and From"]}
{"id": "C49", "title": "The key handler always has a mode", "statement": "After any sequence of keys the mode stack is the normal mode, possibly under exactly one other mode; escape leaves insertion; any key leaves the go-to modes.", "quantifier": "every key sequence", "why_tests_cant": "histories", "anchors": ["core/scripts/keys.lua: ModalHandler"]}
{"id": "C50", "title": "Error messages are shown on one line", "statement": "A normalised message has no newline, no tab and no repeated white space character, and normalising keeps all other characters in order.", "quantifier": "every message", "why_tests_cant": "all strings", "anchors": ["core/src/editor/core.rs: normalize_error_message"]}
{"id": "C51", "title": "The client mirrors the last notifications", "statement": "The client's state after any event sequence is given, field by field, by the last well-formed notification of the corresponding kind; a menu clears the echo.", "quantifier": "every event sequence", "why_tests_cant": "histories", "anchors": ["remote/src/connection.rs: ConnectionState::event_update"]}
{"id": "C52", "title": "The highlighted menu entry exists", "statement": "The selected index stays inside the entry list of a non-empty menu under any sequence of up/down, and choosing sends the highlighted value (or the typed text for prompts). Empty menus crash the client (proved).", "quantifier": "every sequence of client actions and notifications", "why_tests_cant": "histories", "anchors": ["remote/src/connection.rs: Menu::select_next, select_previous, selected_item, Connection::menu_select"]}
{"id": "C53", "title": "Request identifiers are distinct", "statement": "All requests sent over a connection carry distinct increasing identifiers.", "quantifier": "every sequence of client calls below the counter range", "why_tests_cant": "histories", "anchors": ["remote/src/connection.rs: Connection::request_id"]}
{"id": "C54", "title": "Session names round-trip to the daemon", "statement": "The daemon started for a session listens where the client connects: parsing the printed mode gives the client's mode for every address, and for a socket exactly when it lies directly below the root under a plain name that is not an address. A name is taken for an address exactly if it is the plain writing of one (or a port alone); the names that crash are exactly those that look like addresses but are none, and addresses outside the recognised form are taken for socket names (proved).", "quantifier": "every session name", "why_tests_cant": "all strings", "anchors": ["remote/src/session.rs: Session::from_name, ConnectionMode::from_str, Display", "remote/src/lib.rs: start_daemon"]}
{"id": "C55", "title": "Short buffer names are unambiguous", "statement": "An open scratch buffer is named by its name, an open file by the end of its path down to the least depth at which no other open file has the same component. Two different file buffers never get the same short name, and each short name is a suffix of the path; some path sets crash (proved).", "quantifier": "every set of distinct absolute paths", "why_tests_cant": "all path sets", "anchors": ["core/src/editor/buffer.rs: find_uniq_name, find_shortest_name"]}
{"id": "C56", "title": "Foreign iterators enumerate each item once", "statement": "The C iterators return each item once in order and then null for ever.", "quantifier": "every list", "why_tests_cant": "unbounded lengths", "anchors": ["remote-ffi/src/lib.rs: IndexedIterator"]}
{"id": "C57", "title": "Last error protocol", "statement": "The error length is -1 without a pending error; fetching copies exactly the message and a terminator or reports why not, never writes outside the buffer, and consumes the error. Each thread has its own error: whatever the other threads call, it is returned what it would be returned alone. With a negative length, which the library takes for a huge one, the message is written whatever memory there is (C57_negative_refuted).", "quantifier": "every sequence of errors and calls, every buffer size", "why_tests_cant": "histories and sizes", "anchors": ["remote-ffi/src/lib.rs: set_last_error, take_last_error, ced_last_error_length, ced_last_error_message"]}
{"id": "C58", "title": "Script position dictionary agrees with the editor", "statement": "The context given to scripts names the client's view and has for each shown buffer the offsets, coordinates and text of the selection, whatever the characters of the buffer; in ASCII buffers ended by a newline, coordinates are the line and the byte column and the text is the range between the ends, inclusive. It can be given whenever no selection ends before it begins. (Refuted: a selected character of several bytes has its text; in the lines after the first it is told as empty.)", "quantifier": "every state with selections inside their buffers", "why_tests_cant": "all states", "anchors": ["core/src/editor/core.rs: get_context"]}
{"id": "C59", "title": "Starting with many files", "statement": "Started in standalone mode with ced's own scripts and ordinary file names, the program gets ready (no queue of notifications fills up before it is read) whenever there are at most 97 files and none crashes the opening; with 98 files or more it blocks for ever before reading its first request. When it is ready it has sent, in this order and to client 1 only: a view, the identity of client 1 in a session without a name in the working directory, the status line, and views; without files its log then holds the command line, the working directory, what the scripts say and that client 1 came.", "quantifier": "every list of files, every file content", "why_tests_cant": "needs many files", "anchors": ["core/src/clients.rs: start_standalone", "core/src/editor/core.rs: Notifier::broadcast"]}
{"id": "C60", "title": "A drawn view fits the screen", "statement": "Drawing the view prints, from the top of the screen, the rows of the view in order (a header for each buffer, then its lines), headers padded to the width and lines cut to it, and leaves the last row to the status line: always for one buffer, and for several exactly when the view is short enough or a line (not a header) would come on the last row. It crashes exactly when a header to be drawn is wider than the screen, a line is cut inside a character, there are more than 65535 rows, the screen has no row, or the status line cannot be drawn.", "quantifier": "every view, every terminal size", "why_tests_cant": "all combinations of sizes, numbers of buffers and lines", "anchors": ["core/src/tui.rs: draw_view"]}
{"id": "C61", "title": "Buffers of the editor come from the buffer interface", "statement": "Every buffer reachable by any sequence of editor requests is the result of completed edits without undo or redo, so the guarantees on texts, lines and coordinates apply to it; a deletion never leaves it empty, but reloading a file may.", "quantifier": "every sequence of editor operations", "why_tests_cant": "ranges over all histories of requests and file changes", "anchors": ["core/src/editor/core.rs: Core", "core/src/editor/buffer.rs: Buffer::load_from_disk"]}
{"id": "C62", "title": "One message per line", "statement": "What is written for a message is JSON text for it. Whatever messages are written one after the other on a connection between a client and the server, in either direction, the other side reads exactly one line per message, in order, and decodes it to the message sent; texts with newlines or carriage returns do not break this.", "quantifier": "every finite sequence of messages with any contents", "why_tests_cant": "all contents of all strings", "anchors": ["core/src/server.rs: write_client, read_client", "remote/src/client.rs: Client::run", "remote/src/jsonrpc.rs: Display, FromStr"]}
{"id": "C63", "title": "The stdio client prints no separator", "statement": "What the stdio client prints for two messages or more cannot be read back line by line as those messages: it prints no separator, so they are glued into one line, which is the whole output.", "quantifier": "every sequence of at least two messages", "why_tests_cant": "all sequences of messages", "anchors": ["core/src/clients.rs: StdioClient::run"]}
{"id": "C64", "title": "Messages and errors are logged and told to the right client", "statement": "A message is appended as one line `client|text` (`*|text` when it is for everybody) to the buffer *messages* and echoed to that client only (to everybody when it names none); an error is appended likewise with its tag to *errors* and echoed, normalised to one line, to the client it is about only; every client that shows the log gets an updated view and nothing else changes. An error of a script is treated so, for the client it is run for, and its source is added to the debug log; what the script did before failing stays. A started editor has logged its command line, its working directory and the two lines of its scripts, has an empty scratch buffer and no other, and has told nobody anything.", "quantifier": "every reachable state, client, tag and text", "why_tests_cant": "multi-client states and all texts", "anchors": ["core/src/editor/core.rs: message, error, append_to, Notifier::echo", "core/src/editor/mod.rs: exec_lua"]}
{"id": "C65", "title": "Notifications are delivered in order, once, and none is lost", "statement": "No operation takes a queued notification back or reorders the queue; what it adds are views for single connected clients, the greeting of a joining client, or the text of a message or error. Over any run of the server a client is written only notifications addressed to it, in the order of the queue and each at most once, and a client that stays connected is written every one of them.", "quantifier": "every operation and state; every schedule of events and deliveries", "why_tests_cant": "schedules and histories", "anchors": ["core/src/server.rs: handle_events, BroadcastMessage::should_notify", "core/src/editor/core.rs: Notifier"]}
{"id": "C66", "title": "Hints are framed text a client can print", "statement": "The hint shown for a pending key sequence is a rectangle: every line has the width of the frame whenever the title fits in it, and the frame lists every key bound under the pending prefix, once, with its description.", "quantifier": "every title and every set of bound keys and descriptions, every order of the Lua tables", "why_tests_cant": "all widths and contents of the table, any iteration order of Lua's pairs", "anchors": ["core/scripts/keys.lua: show_mode_hint", "core/scripts/editor.lua: show_hint"]}
{"id": "C67", "title": "The view a client is sent shows the text of its buffers", "statement": "The view sent to a client has one item per buffer shown, in the order of the names; an item that shows the whole buffer starts at line 1 and stops at the number of lines; each lens starts at the right line number and its lines are exactly the lines of the buffer in the focus, each followed by one space, whatever is selected.", "quantifier": "every reachable state, every sequence of lenses added and removed, every text and selection", "why_tests_cant": "all texts, all selections, all sequences of lens operations", "anchors": ["core/src/editor/view.rs: to_notification_params, LensParams", "core/src/editor/core.rs: get_view_params / notify_view_update"]}
{"id": "C68", "title": "The connections of the server are the clients of the editor", "statement": "At every point of a server's run the connections it serves and the clients the editor knows are the same set, so that no request or notification of a connected client misses its connection.", "quantifier": "every schedule of joins, leaves, requests and quits", "why_tests_cant": "all interleavings of connections, requests and departures", "anchors": ["core/src/server.rs: Server::run, handle_events", "core/src/editor/mod.rs: add_client, remove_client"]}
{"id": "C69", "title": "The screen of a client is up to date", "statement": "If the last `view` notification a client has received is the present state of its view, then it still is after any further request of any client, whoever makes it - opening, reloading, viewing, adding, removing, moving, logging a message - except where the program sends nothing: a client that has just joined and does not see *debug* is sent no view; a scratch buffer that replaces a buffer another client sees, and a deletion by another client in a buffer it sees, are not announced to it; a view-add or view-remove by which another client arrives at the same view replaces its selections without telling it; and a deletion in an empty buffer. A client that is alone and has been sent a view is always up to date except for that last case.", "quantifier": "all reachable editor states, all clients, all operations of all clients and sequences of them, with files and clock changing in between", "why_tests_cant": "Whether anything visible changes without a notification depends on who shares which view and buffer after an arbitrary history of all clients; tests look at the notifications of one scripted scenario.", "anchors": ["core/src/editor/core.rs: notify_view_update", "core/src/editor/core.rs: modify_view, add_selections, delete_selection, open_scratch, add_client", "core/src/editor/view.rs: to_notification_params"]}
{"id": "C70", "title": "The C library shows whole events", "statement": "A C program that reads an event through the library's iterators until they return null gets every string, number, entry, line and fragment of the notification, in order. (Hints, errors and responses, texts with zero bytes and numbers above 32 bits are not shown: proved.)", "quantifier": "every event", "why_tests_cant": "all nested contents", "anchors": ["remote-ffi/src/event.rs: From<ConnectionEvent> for CedEvent", "remote-ffi/src/text.rs: CedTextIterator", "remote-ffi/src/lib.rs: IndexedIterator"]}
{"id": "C71", "title": "A standalone session answers every line", "statement": "In standalone mode every line of the input gets exactly one response, in order, with the identifier of its request. (Quitting does not end the session; the next request to open a file crashes: proved.) Files of scripts are read and run in order until the first that cannot be read or fails, and the run fails exactly when there is one; the file '-' is the standard input, of which nothing is left the second time. Running a single script (exec_script_oneshot) is the same run.", "quantifier": "every input", "why_tests_cant": "all input sequences", "anchors": ["core/src/clients.rs: start_standalone", "core/src/editor/mod.rs: Editor::handle", "core/src/script.rs: exec_scripts", "core/src/script.rs: exec_script_oneshot"]}
{"id": "C72", "title": "The terminal's status line", "statement": "The status line is drawn exactly when the message is at least as wide as the screen (then it is drawn alone, uncut) or the message and the status together are narrower than the screen (then message, spaces and status are within the width); in every other case the client crashes.", "quantifier": "every message, every status, every terminal width", "why_tests_cant": "the crash happens in a band of widths that depends on the texts", "anchors": ["core/src/tui.rs: draw_status"]}
{"id": "C73", "title": "Keys pressed in the terminal reach the right place", "statement": "While a menu is open no key reaches the editor: characters and backspace edit the search, enter chooses, escape cancels, arrows move; while none is open, characters and escape are sent to the editor except for the terminal's own bindings. Over any schedule of the terminal's three tasks, as long as no menu opens, the requests are exactly the files of the command line, then for each key what it is bound to and for each line of the server that cannot be read and each error of the terminal a report, in order; ordinary keys are sent each exactly once and in the order in which they were pressed; what is typed in a menu is searched for as a whole as long as each answer is waited for.", "quantifier": "every key with every combination of modifiers, every state, every schedule of keyboard, server and main loop", "why_tests_cant": "all interleavings of the three tasks", "anchors": ["core/src/tui.rs: handle_input, ToKey, start"]}
{"id": "C74", "title": "A drawn menu", "statement": "Drawing a menu fills the first row with its title and what was typed, and shows below it the first entries, one per row, as many as fit, cut to the width, with the highlighted one reversed if it is among them; it crashes exactly when the title does not fit, the screen has no row or an entry is cut inside a character.", "quantifier": "every menu, every terminal size", "why_tests_cant": "all sizes and numbers of entries", "anchors": ["core/src/tui.rs: draw_menu"]}
{"id": "C75", "title": "A drawn hint", "statement": "A hint that is not larger than the screen is drawn whole in the lower right corner, inside the screen if it is a rectangle; an empty hint or one larger than the screen crashes the client.", "quantifier": "every hint, every terminal size", "why_tests_cant": "all sizes", "anchors": ["core/src/tui.rs: draw_hint"]}
{"id": "C76", "title": "The terminal shows what the server last sent", "statement": "For every schedule of the terminal's tasks and every sequence of notifications, the terminal's view, status, message and names are those last sent; once all events are treated the last view drawn is the one last received, row for row, and, unless a menu is open, the last status line drawn shows the current message and status, and both are drawn for the size last told by the terminal; its requests are numbered from 0 without gaps, starting with the files of the command line.", "quantifier": "every sequence of notifications, key presses and resizes, every interleaving with the main loop", "why_tests_cant": "the state is updated by one task and drawn by another: all interleavings matter", "anchors": ["core/src/tui.rs: start, draw_view", "remote/src/connection.rs: event_update", "core/src/tui.rs: resize"]}
{"id": "C77", "title": "Safe sessions never crash the editor", "statement": "From the start, as long as all the requests satisfy the conditions of Spec/Calm.lean (names and texts are ASCII and texts end with a newline, files opened exist, views are selected by identifier, closed views are closable, the cursor is not moved to the end of an empty line, deletions keep the last newline and the selections of others inside, nothing is moved after a view-remove leftover, re-reads succeed), every request completes, whatever their order, number and the number of clients; without view-remove requests there are no leftovers; after a view-remove of a buffer no other view shows, motions of that client do crash.", "quantifier": "every session of any length of safe requests by any clients, every environment at each step", "why_tests_cant": "the absence of crashes over all sessions is a universal statement over unbounded histories", "anchors": ["core/src/editor/core.rs: Core", "core/src/editor/view.rs: to_notification_params", "core/src/editor/selection.rs", "core/src/editor/buffer.rs"]}
{"id": "C78", "title": "Scripts know the session's name, when it can be quoted", "statement": "Before each script, ced tells it the session and the client through the Lua global `env`. The scripts see what Lua reads between double quotes for the session's name, and the client's number, exactly when that name is the body of a Lua literal; they see exactly the session's name if and only if it contains no double quote, no backslash and no line break; then every step of the session is what it is when the name is simply given to the scripts, so the status line shows [client@session]. A name without a double quote but with one of the others is either seen as a different string or makes every script fail: joining clients then get an error instead of a status line, keys and exec requests are answered with errors.", "quantifier": "every session name, every client, every state of a session", "why_tests_cant": "ranges over all strings and the escape sequences of Lua literals", "anchors": ["core/src/editor/mod.rs: Editor::exec_lua", "core/scripts/editor.lua: Editor:add_client"]}
{"id": "C79", "title": "A running session stays reachable and leaves nothing behind", "statement": "A session whose server listens is listed. As long as its server runs (it does not crash and its last client does not leave) and nobody starts another server of the same name by hand, it stays listed and reachable whatever the other servers and clients of the machine do, and each client that comes for it is connected to that server after two system calls of its own. A client that comes for a session without a socket and is not disturbed starts a server, waits until it is ready and is connected to it. As long as no server crashes, every listed session has a running server, and when all the servers have ended no socket and no directory of sessions is left. (Not so when disturbed: a client may be refused when its server starts while another server removes the directory.)", "quantifier": "every number of servers, clients and session names, every interleaving of their system calls", "why_tests_cant": "races between processes on the file system: every schedule", "anchors": ["core/src/server.rs: Server::run, Server::serve", "remote/src/transport/socket.rs: bind", "remote/src/session.rs: Session::list", "remote/src/lib.rs: ensure_session, start_daemon"]}
{"id": "C80", "title": "What a crash or a second server does to a session", "statement": "When the server of a session crashes, its socket stays: as long as nobody starts a server of this name by hand the session is still listed, no client starts a server for it, and every client that comes for it is refused after two system calls of its own. A server started for a name that has a socket does not take the session over: it cannot listen, and on its way out it removes the socket, even that of a server that listens; the other processes are as before but the session is not listed and cannot be reached any more. (So two clients that come at the same time for a new session can lead to two servers of the same name.)", "quantifier": "every machine state reached by any number of servers and clients, every crash point while a server listens, every schedule afterwards", "why_tests_cant": "crash points and interleavings of processes", "anchors": ["core/src/server.rs: Server::run, Server::serve", "remote/src/transport/socket.rs: bind", "remote/src/lib.rs: ensure_session"]}
{"id": "C81", "title": "Clients that keep to the rules never crash the server", "statement": "Take a server started with ced's own scripts, and suppose every event it meets is one of these: a connection with a fresh number, while other clients are connected or a single view exists; a line of a connected client that is not JSON or not a request and is in ASCII, or a request of an unknown method in ASCII, or one whose parameters are ill-typed, or a request whose operations on the core are safe in the sense of C77 (keys: each key in the mode it is pressed in; a choice in a menu: the request it stands for; a menu: a search of plain words; a script: only safe operations), other than a quit; the end of a connection of a connected client. Then, whatever the schedule of events and of deliveries of notifications (which may fail) is, and however long, the server never panics: every event is handled, every line gets its response, and the loop ends only when the last client has left.", "quantifier": "all numbers of clients, all requests and lines of the described kinds, all schedules of events and deliveries, all texts and files", "why_tests_cant": "the absence of panics over every interleaving of requests of any number of clients", "anchors": ["core/src/server.rs: Server::run, handle_events", "core/src/editor/mod.rs: Editor::handle, Editor::add_client, Editor::remove_client", "core/src/editor/core.rs: Core", "core/scripts/keys.lua"]}
{"id": "C82", "title": "The generated C interface", "statement": "From a configuration the generator writes, structure by structure, a C function that frees a value of the type and, for a structure with an iterator, one that frees the iterator type (the name without `Item` or `Iterator`, followed by `Iterator`) and one that takes the iterator and gives its next item, of the structure's type. Every function name begins with the configured prefix, which is not repeated, and is made of the words of the type's name in lower case with underscores. If the types are in Pascal case, all different, and none is another one with the words of the prefix before it, no two functions have the same name; with such a pair (`View` and `CedView` under the prefix `ced_`) two functions do. If the prefix has no upper case letters and the types no underscores, the file is the header, the imports and the functions with empty lines in between, and each function is written with its name, what it takes and what it gives in their places; false for a type with a placeholder of the templates in its name. Each import is written once, in the order of characters: those of the types, and `std::ptr` when there is an iterator. For ced's own configuration: the iterators of texts, status lines, views and lenses can be read and freed by a C program; false for the entries of a menu and the lines of a lens, which events hand out as iterators that no function of the interface takes.", "quantifier": "all configurations: any prefix, any list of structures", "why_tests_cant": "any configuration; names of unbounded length", "anchors": ["remote-ffi-gen/src/lib.rs: to_snake_case, Struct::bare_type, SourceBuilder::generate, register_fn_destroy, register_fn_next_item, register_fns_iterator", "remote-ffi/ffigen.toml", "remote-ffi/src/event.rs: CedEvent, MenuIterator, ViewLensLineIterator", "remote-ffi-gen/src/lib.rs: SourceBuilder::source"]}
{"id": "C83", "title": "A user's screen shows the present state, end to end", "statement": "Take a server whose clients keep to the rules of C81. The first client to connect to it, any client that connects while its view shows the log, and any client that opens a buffer or goes to a view, has an up-to-date screen. From then on its screen stays up to date through any number of events: whatever it asks for while it is alone (scripts included); whatever it asks for but scripts while others are connected; and others joining, leaving, opening buffers, going to views, closing views, using menus, moving, sending junk. (Excepted, because C69 shows that they do outdate screens: others adding to or removing from their view, deleting their selection, running scripts.) End to end: the client library of such a user, once every notification queued by the server was written and read, holds exactly the present state of the user's view: for every buffer of the view, in order, all the lines of the buffer's present text.", "quantifier": "all numbers of clients, all requests of the described kinds, all schedules of events and deliveries, all texts (a carriage return right before a newline is not shown), all client-side steps in between", "why_tests_cant": "every interleaving of requests, notifications and deliveries, of any length", "anchors": ["core/src/server.rs: Server::run, handle_events, broadcast", "core/src/editor/core.rs: Core::notify_view_update, Core::add_client, Core::edit, Core::view, Core::delete_current_view, Core::move_selection", "remote/src/connection.rs: Connection, ConnectionState::event_update", "core/scripts/keys.lua"]}
{"id": "C84", "title": "Going through the positions of a text", "statement": "Iterating over the positions of a text does not enumerate them: on a text of single-byte characters the first call gives the first position (offset, line and column, character); a later call gives nothing as long as it has not walked to the end of the text, and then gives the last position at every further call. So a loop over the positions of a text of three characters or more sees only the first one, and a loop over those of a shorter text never ends.", "quantifier": "every non-empty single-byte text, every history of edits producing it, every number of calls", "why_tests_cant": "the tests of the repository loop over what the iterator yields, so they pass after one element; the claim concerns every text and unboundedly many calls", "anchors": ["core/src/editor/piece_table/position.rs: PositionIterator::next, PositionIterator::pos, From<&PieceTable>", "core/src/editor/piece_table/navigator.rs: is_at_end, next, pos"]}
{"id": "C85", "title": "What the server hears of the bytes of a connection", "statement": "However the bytes of any number of connections arrive - in pieces of any size, cut anywhere, interleaved with accepting, closing and losing connections - the server is given, for each connection, its coming, then in order the texts of the lines it sent (without the newline and one carriage return before it), then, once, its going, and nothing else. Of a connection that is over, these are the lines before the first one that is not UTF-8; or all lines and, if the client closed it, also what it sent after the last newline (if it is UTF-8 and not empty), which is dropped if the connection was lost. Messages sent as ced's clients write them are heard exactly.", "quantifier": "every number of connections, every sequence of bytes, every way of cutting and interleaving them", "why_tests_cant": "all byte streams, all cuts, all schedules", "anchors": ["core/src/server.rs: read_client, serve", "futures_lite::io::Lines"]}
{"id": "C86", "title": "The relaying client changes nothing", "statement": "The client that relays its standard streams to a session writes, for every line of its input that holds a request (without fractional numbers, which need not be written as they were read), one line holding the same request (so it is treated and answered in the same way), in the same order, whatever the order its tasks run in; it drops the lines that hold no request; a request is missing only while it waits. What it prints are the values of the events the session sent, in order, each saying the same, but immediately one after the other. It crashes exactly when reading from the session fails.", "quantifier": "every input, everything the session sends, every order of the tasks", "why_tests_cant": "all inputs and schedules", "anchors": ["core/src/clients.rs: StdioClient::run", "remote/src/client.rs: Client::run", "remote/src/jsonrpc.rs: Request, ClientEvent"]}
{"id": "C87", "title": "Motions and selections in texts of any characters", "statement": "Exactly where each of the eight motions puts the cursor in a text of any characters, and exactly when it crashes: the column read off the cursor is the number of the character on the lines after the first, but a number of bytes on the first line and on newlines; that column is then looked up among the characters of the line; moving right goes one byte on and reads the offset again; the line end is the column of as many bytes as the line has. A selection ends where moving right from its last end leads. So with characters of more than one byte: right never leaves such a character on the lines after the first, selecting it selects nothing and deleting it deletes nothing (or crashes), left goes to the character before it; the line end is the newline, from where every motion crashes; on the first line left may go right, and beyond as many bytes as the line has characters every motion crashes.", "quantifier": "every text shown by a buffer after any edits, every segmentation into grapheme clusters, every cursor, wished column, motion and selection", "why_tests_cant": "all texts, all segmentations and all positions", "anchors": ["core/src/editor/piece_table/mod.rs: offset_to_coord, coord_to_offset, char_at, max_coord", "core/src/editor/piece_table/navigator.rs: Navigator", "core/src/editor/core.rs: move_cursor, delete_selection", "core/src/editor/buffer.rs: selection_range"]}
{"id": "C88", "title": "When a client can be shown its view, in texts of any characters", "statement": "The editor can send their views to clients exactly when all the selections each of them has in its present view can be drawn in the present texts; otherwise it crashes. In a text that ends with a newline a selection can be drawn exactly when its last end is the last byte of the text, or is in a line after the first and not on its newline, or comes on its line after fewer bytes than the line has characters (after as many, if the line is not the last one); an end behind the text counts as the start of the text, a selection that begins behind the text cannot be drawn. So a file of any characters can be opened; but on any line after the first with a character of more than one byte, except the last line, the motion to the end of the line crashes the editor at once, for all its clients. In what a client is sent, exactly the cells from the column read off the first end of each of its selections to where the drawing stops are highlighted, columns being taken for byte numbers: so on a line after the first a cursor on a character of more than one byte is not drawn at all, and one behind such a character is drawn too far to the left.", "quantifier": "every reachable state of the editor, every text and segmentation into grapheme clusters, every list of clients to tell, every selection", "why_tests_cant": "all texts, segmentations, histories and selections", "anchors": ["core/src/editor/view.rs: to_notification_params", "core/src/editor/core.rs: notify_view_update, move_cursor", "core/src/editor/piece_table/mod.rs: offset_to_coord, navigate", "core/src/editor/piece_table/navigator.rs: next, pos, line_end"]}
{"id": "C89", "title": "What a command line does", "statement": "With -l ced prints the names in the directory of the user's sessions and does nothing else, whatever the other arguments. Otherwise the session is the one named by -s, or one named after the process (which no other process has): at the address if the name has the form of an address, else a socket below the user's directory of sessions, which no other user or plain name leads to. A server is started in the mode daemon, and in the modes json and term exactly when the session is a socket that does not exist; for a plain name or an address, the process that is started becomes the server of exactly the session that was asked for. It is started from the program that CED_BIN says, else from the file ced beside the running program, else from the ced that the system finds: a program called ced starts servers from itself. The file names are used by script, standalone and term and ignored by the other modes. ced crashes exactly when the name has the form of an address and says none (also in the modes that use no session), when it has not and no user is known, or when a session without a file name must be printed for a server. (Not so: a server is not started for an address, and a name with a slash starts the server of another session.)", "quantifier": "every command line (as read by the argument parser), every user name, process number and state of the directories", "why_tests_cant": "every combination of arguments, session names and existing sockets", "anchors": ["core/src/bin/ced.rs: main", "remote/src/lib.rs: ensure_session, start_daemon", "remote/src/session.rs: Session::from_name, from_pid, build_root, list", "remote/src/lib.rs: find_bin"]}
{"id": "C90", "title": "Memory of the C library", "statement": "Over every history of calls of a C program: a block is in memory exactly if the program got a pointer to it (returned, or in a field of what was returned) and did not free it, with its first content but for the position of iterators; no pointer is handed out twice. A call makes a memory error exactly if it passes a pointer that the program does not hold or that is of another type (freeing null is allowed). Asking a connection gives the event that arrived, whole, in new memory, or null; asking an iterator for the k-th time gives its k-th item and null after the last, whatever was done in between; such calls crash exactly for hints and for texts with a zero byte. (Not so: C strings, the iterators over the entries of a menu and those over the lines of a lens are never freed, whatever the program does; everything else can be freed at any time.)", "quantifier": "every sequence of calls of the library with any pointers, every sequence of events", "why_tests_cant": "all orders of calls, frees and events; absence of double frees and dangling pointers for all programs that follow the rules", "anchors": ["remote-ffi/src/lib.rs: raw, cstring, Iterator, ced_version", "remote-ffi/src/event.rs: CedEvent and the items", "remote-ffi/src/text.rs: CedTextItem", "remote-ffi/src/connection.rs: ced_connection_create, ced_connection_next_event", "remote-ffi-gen/src/lib.rs: register_fn_destroy, register_fn_next_item"]}
{"id": "C91", "title": "How the terminal ends, and what it has written by then", "statement": "For every schedule of the terminal's tasks (keyboard, lines of the server, writing of requests, main loop), every loss of the connection and every failure to write: the terminal ends only when its user pressed alt-q, or when the connection was lost and everything that came before was treated; both do end it (alt-q when its turn comes while no menu is open). Once it has ended it draws, asks and writes nothing more. Until the loss or the end it draws, shows and asks for exactly what C60 and C72 to C76 say. What reaches the connection is, in order and never twice, what the terminal asked for; as long as no write fails it is all of it up to some point, and all of it once the writing task had its turns. (Not so: requests that are not yet written when alt-q is treated are lost; between the loss of the connection and the end, a key, a change of the window's size or an error of the terminal is a crash; a line of the server that is not text is a crash.)", "quantifier": "every interleaving of the four tasks, every point where the connection is lost or a write fails", "why_tests_cant": "all interleavings and all points of failure", "anchors": ["core/src/tui.rs: Term::start", "remote/src/client.rs: Client::run"]}
{"id": "C92", "title": "A client's selections stay where it left them", "statement": "Over every history of a session: what a client has selected in a view is unchanged by every operation of every client, except motions and deletions which it makes itself while showing that view, and operations that close that view, replace it by another, or turn another view into it; a client that comes back to a view after any number of other operations finds its selections there. At most there are selections at the start in buffers where it had none. When a buffer is added to or removed from a view, every client, whether it shows the view or not, finds in the new view what it had selected in the old one. (Not so: when the new view is one that clients show already, their cursors there jump to where they were in the old view, at another client's request, and they are not told.)", "quantifier": "all histories of operations by any number of clients, all clients, all views, all operations", "why_tests_cant": "it ranges over all histories and all interleavings of the clients' requests; a test checks one session", "anchors": ["core/src/editor/core.rs: modify_view, add_view, delete_view, edit, view, move_cursor, delete_selection, add_client, remove_client"]}
{"id": "C93", "title": "Who is told what", "statement": "Whatever a client does (joining, leaving, any line it sends), the notifications queued for it are for that client alone, except for the views of the clients that see a change: nobody else gets its messages, errors, hints, menus or status lines. So, over every run of the server, a client is written, for what others do, only views, and never a response; and a client that never sends a line is written, from the start of the server on, besides views at most its greeting (its number and the session) and then its first status line. This needs that the scripts sent in exec requests notify only the client that sends them: such a script can tell any client anything.", "quantifier": "every server state, event, schedule of events and deliveries, and history of any number of clients", "why_tests_cant": "it is about what must not reach a client, for every request of every other client and every interleaving", "anchors": ["core/src/server.rs: handle_events, BroadcastMessage::should_notify", "core/src/editor/core.rs: Notifier, error, message", "core/src/editor/mod.rs: handle, exec_lua, command_*", "core/scripts/editor.lua, keys.lua"]}
{"id": "C94", "title": "A C program that watches a session", "statement": "A C program that asks for a connection gets null exactly when the session's socket does not exist and no server can be started for it, and else is connected to the session of its argument (of the process if the argument is not UTF-8), a server having been started exactly when the socket did not exist. Whatever the order in which lines arrive and the program asks for events, the events it got followed by those that wait are those of the lines that arrived, in order, none lost and none twice; it gets null exactly when nothing waits. End to end, since the program never sends anything: its events are what the server wrote to it, in order: its greeting, its first status line, and views; it never aborts (if the session's name has no zero byte and no script of another client sends it a hint), and reads the whole content of each event within the limits of C70.", "quantifier": "every session name, every schedule of lines, calls and the end of the connection, every run of the server with any number of other clients", "why_tests_cant": "two threads and a server meet in every possible order; the claim is that no order loses, repeats or reorders an event", "anchors": ["remote-ffi/src/connection.rs: ced_connection_create, ced_connection_next_event", "remote-ffi/src/event.rs: From<ConnectionEvent>", "remote/src/connection.rs: connect, event_update", "remote/src/lib.rs: ensure_session"]}
{"id": "C95", "title": "Safe sessions with texts of any characters", "statement": "Whatever the characters of texts, names and messages, the editor starts, and a session that has made only safe requests never crashes on a safe request. Requests are safe under conditions on the present state only: as in C77, and a motion must have a place to go to at which its selection can be drawn; a deletion must delete something, must not delete the final newline unless it begins at the start, and must leave all selections where they can be drawn; a re-read or replaced text must end with a newline and leave the selections where they can be drawn. As long as no cursor is moved and nothing deleted, no condition on selections is needed at all. In every such state every client can be shown its view. The same holds of a whole server whose clients only send such requests, for any schedule of connections, lines, departures and deliveries; and the screen and the terminal of a user of it show, once everything was delivered and read, the present state of its view: as many lines as the text has, the lines of text(), every line of ASCII characters as it is whatever the other lines hold. A selection can be drawn anywhere inside the lines after the first, anywhere on a line of single-byte characters, and at the first character of every line. Appending lines to a text that is seen completes exactly when no selection ends on the final newline behind a last line with a multi-byte character: a client that says something ending with such a character, looks at the messages and goes to their end is killed, with everyone else, by the next message (C95_message_refuted).", "quantifier": "every session: any number of clients, any requests, any texts, file system and clock changing at any time, every division of lines into grapheme clusters", "why_tests_cant": "a crash depends on the history of all clients and on the bytes of every text; the claim is for all of them", "anchors": ["core/src/editor/core.rs: Core", "core/src/editor/view.rs: to_notification_params", "core/src/editor/selection.rs", "core/src/editor/buffer.rs", "core/src/server.rs: Server::run", "core/src/editor/piece_table/mod.rs: text"]}
{"id": "C96", "title": "No character is cut in two", "statement": "In a session whose requests cut no character in two (a file read again changes only between characters of the old text, scratch buffers and appended texts bring texts of whole characters, what is deleted begins and ends between characters), the text of every buffer is a text of whole characters, text() is that text byte for byte, and views, screens and terminals show the lines of the texts themselves, whatever their characters. A deletion leaves text() the text exactly when what is deleted begins and ends between characters; motions go between characters and a deletion of a selection between characters cuts nothing, if grapheme clusters are made of whole characters; re-reading a file cuts nothing if the old text is ASCII. It is not so in general: when another client has deleted something before a selection, deleting the selection may leave half a character (C96_two_clients_refuted), and re-reading a file may show a broken character although old and new file are both texts (C96_reload_refuted).", "quantifier": "every session, server and schedule whose requests keep to the rule, every text, every division of lines into grapheme clusters", "why_tests_cant": "each fragment of a buffer is decoded separately; whether one begins inside a character depends on the whole history of all clients and on the diff of every reload", "anchors": ["core/src/editor/core.rs: delete_selection, edit, scratch, append_to", "core/src/editor/piece_table/mod.rs: text, delete, apply_diff", "core/src/editor/buffer.rs: load_from_disk, delete", "core/src/editor/view.rs: to_notification_params"]}
{"id": "C97", "title": "Sessions at an address", "statement": "At most one server listens at an address, and it keeps it until its last client leaves or it crashes, whatever all other processes do; each client that comes for it meanwhile is connected to it after two system calls of its own. Another server that is started for the same address ends at its first call and disturbs nothing (unlike a second server of a socket, C80). No client ever starts a server for an address: as long as nobody starts one by hand, every client that comes for it is refused after two calls. As soon as the server has ended or crashed, the address is free, and the next server that is started for it listens there. The servers and clients of an address leave the file system as it is, so their sessions are never listed. (Not so: a session at the port 0 can never be reached.)", "quantifier": "every address, every number of servers and clients of any sessions, every interleaving of their system calls, every crash point", "why_tests_cant": "every schedule of processes and every crash point", "anchors": ["remote/src/transport/server_listener.rs: bind", "remote/src/transport/server_stream.rs: ServerStream::new", "core/src/server.rs: Server::run, Server::serve", "remote/src/lib.rs: ensure_session"]}
{"id": "C98", "title": "Sessions at any path, and the files of others", "statement": "A system call of a server changes nothing in the file system but this: it makes missing directories on the way to its path, makes its socket where nothing was, removes what is at its own path unless it is a directory, and removes the directory of its path when it is empty; clients change nothing. So a file outside the directory of sessions stays unless somebody removes it or starts a server by hand for exactly its path. With sessions of plain names only, everything happens as in C79 and C80. (Not so: a server that is started for the path of a file of the user removes the file; a session at an absolute path in an empty directory of the user removes the directory with its socket when there is no other session; a session at a nested path leaves its directory behind, which is listed as a session from then on, and blocks that name until somebody removes it: no client starts a server for it and every client is refused; a client of a path outside the directory of sessions starts a server at another place and is refused.)", "quantifier": "every state of the file system, every path, every number of servers and clients, every interleaving of their system calls", "why_tests_cant": "every schedule of processes on every file system", "anchors": ["core/src/server.rs: Server::run", "remote/src/transport/socket.rs: bind", "remote/src/session.rs: Session::list, from_name", "remote/src/lib.rs: ensure_session, start_daemon"]}
{"id": "C99", "title": "Exactly when motions and changes of view crash, in texts of any characters", "statement": "A request for a motion completes, and leaves the client with given selections in its view, exactly if those are what the motion makes of the selections it had (in every buffer of the view: in a one-byte text nothing moves, a cursor behind the text counts as the start, an empty text allows no motion) and - unless they are the selections it already had - all the selections in the buffers shown can be drawn; in all other cases the editor crashes. A client that asks for an existing view gets it exactly if the selections it has in that view can be drawn, and crashes the editor otherwise. Violated expectations: going up or down to a line (not the last) that has a character of more than one byte and fewer characters than the wished column, and going left from the start of the line after such a line, crash the editor.", "quantifier": "every history of the editor, every text and segmentation into characters, every client, its selections, every motion (extending or not) and every view", "why_tests_cant": "The crash depends on bytes, characters, newlines and wished columns of every line of every buffer of the view; the characterisation is an equivalence over all of them.", "anchors": ["core/src/editor/core.rs: Core::move_cursor, Core::view", "core/src/editor/selection.rs: Selection", "core/src/editor/view.rs: View::to_notification_params", "core/src/editor/piece_table: Navigator"]}
{"id": "C100", "title": "Connections with limited room: clients that read slowly or not at all", "statement": "However little the connections can hold and whenever the clients read: what a client has read, followed by what is on its way to it, is at every moment the beginning of the messages the server decided to write to it, each followed by a newline; only what is being written right now is missing, unless the client has hung up; and what the server decides is what it could have decided with connections that take everything at once, and all that it can decide with those, it can decide with connections of any room, if the clients read. The server goes on exactly as long as it is not writing to an open connection that is full, nor a response to a client that is gone; its writes take a bounded number of steps, and it gets through if the clients being written to read. (Not so: a slow client is its own problem. A client that neither reads nor hangs up stops the server for everybody as soon as more is to be written to it than its connection holds: no request, no new client, no leaving client and no notification is treated from then on; so at most as many of its lines as its connection has room for bytes, and one more, are ever taken.)", "quantifier": "every room of the connections, every server and schedule of events, notifications, writes of single bytes, and reads and closings by the clients, every order in which the clients are written to", "why_tests_cant": "The state depends on how the bytes of all writes interleave with the reads of all clients, for every room of the connections.", "anchors": ["core/src/server.rs: write_client, handle_events"]}
{"id": "C101", "title": "What a standalone session prints", "statement": "At every moment of a standalone session, whatever its two threads do, the standard output holds whole messages only: the responses to the lines treated so far, in the order of the lines, each once (the last one possibly not yet), and among them the beginning of the notifications for the client, in order, each once. The threads never wait for each other for ever: as long as the process has not ended one of them can go on, unless the editor crashes at the next line or at the end; two steps for each line, three for each notification and two for the end are enough; and until the end everything may still be printed. When the process has ended every line has been answered, and at most the last 101 notifications are missing. (Not so: all notifications are printed. Every session can end properly with its last 101 notifications lost - all of them, if there are not more - because the process ends without waiting for the printing thread.)", "quantifier": "every editor that is ready, every input, with files and scripts that change between the lines, every schedule of the two threads", "why_tests_cant": "The outcome depends on the schedule of two threads and a bounded channel between them, for every input.", "anchors": ["core/src/clients.rs: start_standalone", "core/src/editor/core.rs: Notifier::broadcast"]}
{"id": "C102", "title": "Conversations in bytes, both ways", "statement": "However the bytes of all clients arrive at the server, cut and interleaved in any way, however little their connections can hold, and however slowly they read: the whole lines a client has read are the texts of the first messages the server decided to write to it, one line for each and in order, and parse to these messages; what follows the last newline is the beginning of the text of the next one. If the client sends requests as ced's clients write them, and stays, then the responses among these have the identifiers of its first requests, in the same order, each once, and there is no other response. When everything it sent has arrived and been treated, and it has read all there is, it has read a response to each of its requests, each once, in order. And the first client of a session within the rules (C95), once it has read all there is and all has been delivered, shows all the lines of all the buffers of its view as they are now.", "quantifier": "every editor, every number of clients, every way their bytes arrive (also garbage from the others), every room of the connections, every schedule of the server, its writes and the reads of the clients, every list of requests", "why_tests_cant": "All chunkings and interleavings of bytes in both directions, with back pressure, for any number of clients.", "anchors": ["core/src/server.rs: read_client, serve, handle_events, write_client", "core/src/editor/mod.rs: Editor::handle", "remote/src/jsonrpc.rs"]}
{"id": "C103", "title": "The menu on the screen and the menu the keys act upon", "statement": "In every order of the terminal's tasks in which user and server do not get in each other's way (no escape, enter, up or down waits to be treated when a menu arrives; no view or message arrives while a menu is open): whenever everything that waited was treated, an open menu is on the screen, as it is and for the present size, with the entry highlighted that enter chooses, and if none is open the present view is on the screen. Escape closes a menu and puts the view on the screen, whatever was there before. (Not so when they do: after an escape that was pressed before the last menu was drawn, that menu is on the screen though none is open, and the keys go to the editor; after a down pressed then, another entry is highlighted than the one that enter chooses; a view or a message that arrives while a menu is open hides it, and the keys go on to it. And even in turn: a menu closed by escape opens again when the answer to what was typed before arrives.)", "quantifier": "every sequence of lines of the server, keys, resizes and errors, every interleaving with the main loop, every size of the terminal", "why_tests_cant": "The mirror of the server's state is updated by one task and drawn by another, from a queue: all interleavings and queue contents matter.", "anchors": ["core/src/tui.rs: start, handle_input, draw_menu, draw_view, resize", "remote/src/connection.rs: event_update, menu_select, action_menu_cancel"]}
{"id": "C104", "title": "Nothing waits for a lock", "statement": "No request, no script and no client that joins or leaves makes the editor wait for itself: however its operations are combined, none takes a lock that is already held, and none is held when they are finished. In a server, in every order in which its tasks (events, broadcasts, any number of readers) take turns, and in the terminal, whenever a lock is taken nobody holds it. In the standalone editor the two threads are never both stuck, neither on a lock nor on the channel between them, however little room it has.", "quantifier": "every sequence of calls of the editor's operations, every path through them, every number of rounds of their loops, every schedule of the tasks and threads", "why_tests_cant": "A program that takes a lock twice, or two tasks that wait for each other, stop only on the paths and in the schedules where it happens.", "anchors": ["core/src/editor/core.rs: lock!, impl Core", "core/src/server.rs: handle_events", "remote/src/connection.rs: state_lock", "core/src/clients.rs: start_standalone"]}
{"id": "C105", "title": "Editors without a server that keep the rules do not crash", "statement": "A standalone editor whose files and lines keep the rules of safe sessions (in ASCII, in any characters, without motions, or cutting no character: see C81, C95, C96) starts without a crash. If the start does not wait for ever (see C59), every line of the input is answered, the two threads never get stuck, and whatever they do the process ends properly after a bounded number of steps, all the responses printed in order. A run of files of scripts whose scripts do nothing but safe operations never crashes: it ends properly, or at the first file that cannot be read or script that fails.", "quantifier": "every list of files, input, standard input, content of the files, scripts; every interleaving of the two threads; every segmentation of texts into characters", "why_tests_cant": "all inputs and all interleavings", "anchors": ["core/src/clients.rs: start_standalone", "core/src/script.rs: exec_scripts", "core/src/editor/mod.rs: Editor::handle, exec_lua"]}
{"id": "C106", "title": "Two users who look at the same buffer see the same text", "statement": "In a session whose clients keep the rules of safe sessions (see C81, C95, C96), take two users, whenever they connected and whatever they and others did since, once everything was delivered to them and read by them. Each has exactly the buffers of its own view on its screen, in their order; and a buffer that both have on their screens shows the same lines, the same first line number and the same bounds on both, up to the decoration of the selections.", "quantifier": "every session under the rules, both users, every interleaving of requests and deliveries, every moment at which everything was delivered and read, every way of decorating lines that keeps their text", "why_tests_cant": "a test compares two screens after one history; the property ranges over all histories, moments of connection and interleavings", "anchors": ["core/src/server.rs: Server::handle_events, Broadcast", "core/src/editor/core.rs: Core::notify_view_update", "core/src/editor/view.rs: View::to_notification_params", "remote/src/connection.rs: Connection, ConnectionState"]}
{"id": "C107", "title": "A standalone session whose output nobody reads any more", "statement": "The standard output of a standalone session is a pipe whose reader may go away at any moment. What was printed until then is as C101 says; from then on nothing is printed and at most one more line of the input is treated. If some line was not yet answered at that moment, the process does not end properly: it ends by a panic. If all were answered and the leaving of the client sends nothing, it does not panic. Under the rules of safe sessions (C105) these are the only two cases, the threads never wait for each other for ever, and the process ends after a bounded number of steps, by a panic exactly if some line was unanswered.", "quantifier": "every list of files, input, scripts that keep the notifications; every moment at which the reader goes away; every interleaving of the two threads", "why_tests_cant": "the outcome depends on the moment and on the interleaving (the printing thread may have died before, or after, the main thread sends); a test sees one of them", "anchors": ["core/src/clients.rs: start_standalone", "core/src/editor/core.rs: Notifier::broadcast, Core::remove_client"]}
{"id": "C108", "title": "The terminal is given back as it was", "statement": "When the terminal client ends, whatever was pressed, received or drawn, and whatever failed and wherever it crashed (a panic of any of its tasks, log.txt, writing to the terminal, connecting), the mode of the terminal is the one that it had, its usual screen and its cursor are shown, and nothing that the program drew is on that screen, provided that the terminal obeys the commands of the end. It ends properly only when its user pressed the leaving key or the connection was lost. Not true: that the user sees why it crashed (the text is on the screen that is left), that it starts in a directory where log.txt cannot be opened, and that the screen and the cursor come back when the raw mode cannot be left.", "quantifier": "every state of the terminal, list of files, schedule of keys, lines, drawings and writes, and every place of a failure", "why_tests_cant": "the place of the failure and the schedule are unbounded; a test cannot crash the program at each of its steps", "anchors": ["core/src/tui.rs: Term::new, Term::start, impl Drop for Term, logline", "core/src/bin/ced.rs: main"]}
{"id": "C109", "title": "What the user reads on the terminal", "statement": "On a terminal as crossterm expects it (one cell per character, deferred wrap, scrolling), for texts of printable ASCII characters and a message not wider than the screen: after a view is drawn, over whatever was there, each row above the last one reads as the row of the view that C60 says, cut and padded with blanks to the width, or is empty below the view, and the last row begins with the status line in reversed video; if the view has more rows than the screen the last ones are read. Lines may have selected and red pieces when they fit: then each letter is in reversed video where it is selected and nowhere else; so in a view of one buffer a line is read with the selections that the server sent with it. For a view of one buffer these are its header and its first lines. A menu reads as its title and what was typed and then one entry per row (entries may have matches when they fit), a hint is read in the lower right corner without changing anything else, and status lines drawn later change only the last row. From the start of the client on, whatever keys are pressed, however the size of the screen changes (a change may leave anything on it) and whatever is received in turn (C103; hints and entries with matches that fit when they are drawn, printable texts), once everything that waits is treated and no hint came after the last view, menu or message, the user reads the open menu, and when none is open the view that was last received with the present message and status; and the user of a server within the rules of C83 so reads the present lines of the buffers of its view, and nothing below them. Two users, each in a view of the same buffer alone, read the same letters on their screens, in every place that both screens have (their selections may differ). Not true: of a line that is cut in a selection (the control sequence is counted as four letters, and as the cut drops the one that ends the selection, every line below is read as if selected), of a message wider than the screen (it scrolls the header away), of the last letter of an entry as wide as the screen (it is erased), of the highlighted entry when what was typed matches in it (its reversed video ends with its first match), of lines with tabs, carriage returns or escape sequences (they are sent as they are, so that a file can erase or overwrite the screen).", "quantifier": "every content of the terminal before, size, view, message, status, menu and hint", "why_tests_cant": "all sizes, contents and texts; what a drawing shows depends on what was there and on wrapping at the edges", "anchors": ["core/src/tui.rs: draw_view, draw_hint, draw_menu, draw_status", "core/src/tui.rs: format_text", "core/src/tui.rs: draw_menu (underlined matches)"]}
