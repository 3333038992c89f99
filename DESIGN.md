# Formal model of casimir/ced in Lean 4 — design

The model lives in `lean/Verif/`:

* `Basic.lean` – panics (`R α = Except Panic α`), checked subtraction, byte strings;
* `Model/*.lean` – one file per source module; every definition cites the file and lines it models and says where it
  simplifies;
* `Spec/*.lean` – small specifications written without the helpers of the model (splicing, line splitting, a trivial
  snapshot editor, what a screen shows, the modes of the key handler, …);
* `Proofs/*.lean` – auxiliary lemmas and the invariants;
* `Props/*.lean` – the property theorems, with a concrete case that meets the hypotheses beside each of them;
* `Conformance/*.lean` – the project's own tests (every `#[test]` of a modelled module, the Lua scripts of `core/tests/scripts`
  and the integration tests without sockets) replayed on the model, with the values the code is known to give. These are
  tests of the model, not proofs, and no property rests on them: they guard against misreadings of the code.

`properties.jsonl` lists the properties, `MANIFEST.json` the theorems for each and their status, `seeded/LOG.jsonl` the
wrong programs on which the theorems were tried (`seeded/mutate.py` replays one: it copies the project, edits a
definition of the model, rebuilds and reports the theorems that no longer prove).

A property whose expected form is false of the code is stated in its true form when there is an exact one (then the
counterexample has a name ending in `_refuted`, `_crashes`, …); otherwise it is `partial` and says what is missing.

## Trusted base

* Lean 4.33.0's kernel. Axioms of the theorems of the manifest, by `#print axioms`: none for 10 of them, `propext` for 71,
  `propext` and `Quot.sound` for 143, these and `Classical.choice` for the other 352 (counts at the commit "What the client
  writes for a call is served"). No axiom is added; there is no unfinished proof and no compiled decision procedure. `decide +kernel` is used
  for closed facts (examples, refutations): it is evaluated by the kernel.
* The reading of the Rust and Lua code: no tool ties the model to the code; each definition cites its source, and the model
  gives the results that the project's own tests expect (`Conformance/`).
* The contracts below of third-party crates and of the operating system. Each is a parameter or a hypothesis of the
  theorems that use it, never an axiom.

### Modelling conventions

* `usize` is `Nat`; subtraction is checked: an underflow is a panic (debug build; a release build wraps around, which in
  `diff.rs` (`el - 1`), `position.rs` and `tui.rs` leads to an index out of range or to a wrong slice instead). Additions and
  multiplications are not bounded, except the `i32` request identifiers (C53) and the `u16` screen coordinates (C60, C74,
  C75). Numbers that are read from JSON are checked against their range; what the server writes is assumed to fit
  (`Fits`).
* A Rust panic (`unwrap`, `expect`, index out of range, slicing off a character boundary, subtraction overflow, `panic!`) is
  the `error` case of `R`. A theorem that says "completes" says that this case does not arise.
* `&mut self` functions return the new value. When a function panics the state is lost: in ced a panic ends the process (or
  the server's thread, for which nothing catches it).
* Byte strings are `List UInt8` (the text of a buffer); a Rust `String` is `List Char` (`Str`), its bytes are `Str.encode`.
* `HashMap` is an association list with unique keys, in the order of insertion; where the code iterates over one, the theorems
  do not depend on the order, or the order is a parameter (Lua's `pairs`). `BTreeSet`/`BTreeMap` are strictly sorted
  lists. `sort_by` is a stable insertion sort; `Focus::cmp` is not a consistent order and is modelled as it is.
* `Rc<RefCell<_>>`, `Mutex`, `RwLock` are left out: the editor runs in one thread; the locks of the client are taken for one
  call at a time, so a step of a client is one method call or the treatment of one message.
* Concurrency: a step of the server is the treatment of one event of its channel or the delivery of one queued
  notification; theorems quantify over every sequence of such steps. The terminal has three tasks (keyboard, messages, main
  loop) with a queue; theorems quantify over every interleaving. Bounded channels only delay the sender, except at
  start-up of the standalone mode, where nobody reads yet (C59).

### External contracts (crates and OS parts whose source is not in the sandbox)

| external | used by | contract |
|---|---|---|
| `rbtset` 1.0.2 (ordered set of pieces with node handles) | piece table | an ordered list of pieces; `get_node(offset)` is the piece containing the offset; `insert` puts a piece in order of offset; `repack` merges adjacent consecutive pieces; `Clone` is deep; the handle of a removed piece denotes the piece that follows (what the code relies on). Empty texts are excluded: they make zero-length pieces |
| `bstr` graphemes | coordinates, motions | `IsSegmentation`: a cluster is the bytes it spans (the crate shows U+FFFD for bytes that are not UTF-8); concatenating the clusters gives the line, no cluster is empty, an ASCII line is cut into its characters (except CR LF) |
| `String::from_utf8_lossy`, `String::from_utf8` | text of a buffer, lines of a connection | modelled concretely (maximal-subpart replacement; decoding is proved to invert Lean's own encoder) |
| `futures_lite::io::{BufReader, Lines}` | connections, standard input | modelled concretely, one look at the buffer at a time (Model/Reader) |
| file system, clock | edit, reload | a parameter: path ↦ content or error; it may change between steps |
| Lua (`rlua` 0.17, Lua 5.3) | scripting | three levels: an arbitrary engine whose scripts act by API calls (`LuaSteps`), and a concrete model of `editor.lua`, `keys.lua`, `prelude.lua`, `utils.lua` (Model/Scripts) with the order of `pairs` as a parameter; the chunk that names the session and the client is read as Lua reads it (Model/LuaEnv, C78), the rest of Lua's syntax being left out; user scripts given to `exec` are arbitrary (`TameExec` where the handlers of keys must stay those of ced) |
| `regex` | menus, session names | menus: any compiler of patterns; for plain words, up to 1000 letters (the crate refuses patterns of more than 10 MiB when compiled), the contract `PlainEngine` (a backtracking matcher is given). The scores `100/(1+n)` are rounded as `f32` rounds them (Model/F32). Session names: concrete recognisers, with the Unicode classes as a parameter (`Classes.Ok`) |
| `serde_json` | JSON-RPC | values and their text: a writer is modelled; a reader of messages is a parameter (`ReadsBack`, Spec/JsonText) that reads back the messages `serde_json` does: at most 127 levels of nesting, integers of 64 bits, no fractions, members of values in the order of their names (`Value` is a `BTreeMap`, and of members of the same name keeps the last). That the messages of ced are of this kind is proved (Proofs/Messages). Three readers that meet the contract are given: one that reads back everything, one that refuses everything else, one that holds values as `serde_json` does |
| `ornament` | decorated texts | a type with a round-trip through JSON (`OrnamentOk`); for the terminal, what is drawn for a text is a parameter (`Paint`) |
| `crossterm`, the terminal | terminal | drawings are lists of commands; what they make a terminal show is a model of a terminal (Model/Glass, C109), their failures are in C108 |
| `std::net` address parser | session names | IPv4 addresses with a port; others are names |
| C heap, threads | C library | a heap of typed blocks with pointers, whose addresses are not used again (Model/FfiHeap, C90); the last errors of several threads (C57) |

### What is modelled, and what is not

| file | modelled | not modelled |
|---|---|---|
| core/src/editor/piece_table/{mod,navigator,position}.rs | everything that the editor uses, undo/redo included (not exposed by the editor) | `Debug`/`Display` output |
| core/src/editor/{buffer,diff,range,selection,view,menu,core,command,mod}.rs, stackmap.rs | all functions | log messages (`log::…`), `walkdir` listing order (a parameter) |
| core/src/server.rs, clients.rs, script.rs | the loops, the readers of the connections in bytes, the writes in bytes into connections with limited room (Model/Flow), the standalone mode and its two threads (Model/Printing), also when nobody reads their output any more (Model/Hangup), the stdio client's tasks and framing, script runs, the life of the socket and of its directory (Model/Lifecycle), of addresses, nested and absolute paths among the files of others (Model/Host) | symbolic links and `..`, permissions, an address that includes others (`0.0.0.0`) |
| core/src/tui.rs | all drawing and key handling, the four tasks and their end, raw mode and screens, failures of writes to the terminal (between drawings) and of `log.txt` (C108) | mouse events, signals, wide and combining characters |
| core/scripts/*.lua | all | – |
| remote/src/*.rs | all messages, keys, sessions, client, connection, starting a server on demand, both transports (Model/Host) | socket_windows.rs |
| remote-ffi/src/*.rs | iterators, last error, content of events, what is allocated and freed, connections: session, reading thread, channel of events | the time that waiting takes, what is printed on the standard output |
| remote-ffi-gen/src/lib.rs | `generate` and `source`: names, types, imports and text of the generated functions; ced's `ffigen.toml` | reading TOML, the white space that `stringify!` puts between tokens, `cargo fmt` |
| core/src/bin/ced.rs | `main` after argument parsing (C54, C89) | argument parsing (clap), spawning of processes |

## Per property: what is modelled and how it is proved

| id | what is modelled | how it is proved |
|---|---|---|
| C01 | `PieceTable::insert/append` over original and added buffers | refinement: the content after is the splice of the content before; representation invariant (contiguous, non-empty, in-bounds pieces) kept |
| C02 | `PieceTable::delete` with all branches | refinement, and the exact list of panic cases |
| C03 | `replace`, bulk mode | corollary of C01/C02 and of the history refinement |
| C04, C05 | all of the above and `undo/redo/commit/action/bulk` | refinement to a snapshot editor, induction on the operation list |
| C06 | `newlines` set maintenance | invariant for edits; undo and redo keep it exactly when the newline positions do not change (`SteadyHistory`) |
| C07–C09 | `range`, `join`, `line_bytes`, `lines`, `lines_range`, `text()` | on the representation invariant; C08 from C06 and a splitting lemma; C09 with concrete lossy decoding |
| C10–C12 | `diff.rs`, `apply_diff`, reload | the outcome of every pair of texts, classified by common beginning, common end and middles (`Spec/Diff.lean`, `Split`): unnoticed, crash, or a script that is right up to one byte and exact iff it accounts for all bytes; common subsequence at most one byte shorter than the longest |
| C13 | bulk mode | from the history refinement: one snapshot per bulk |
| C14–C16 | `offset_to_coord`, `coord_to_offset`, `line_length`, `longest_line` | single-byte clusters, from C06/C08; multi-byte failure proved |
| C17–C20 | `Navigator` | from C14–C16; C20 as an exact classification of every motion's outcome on single-byte texts (`Spec/Motion.lean`, `Heads`), with the multi-byte crash class; any number of motions in a session by induction with C34 and C77 (Props/Roaming) |
| C21–C24 | `Selection`, `delete_selection`, highlight ranges | arithmetic, C02/C07; refutation of bounds |
| C25 | `StackMap` | invariant and refinement to a list ordered by recency |
| C26, C27 | `View`, `Lens`, `Focus`, `key`, groups | injectivity of the key; sortedness and permutation |
| C28–C36, C58, C61, C64, C67, C69 | `Core` operations over buffers, views, clients | invariants (`Inv`, `Sel`, `Texts`, `Maps`) by induction over all histories of operations (`CoreHistory`); postconditions per operation; refutations by evaluation of concrete sessions |
| C37–C39, C62, C63 | JSON-RPC, dispatch, framing | round-trips, case analysis on the method |
| C40–C43, C65, C68 | server loop | induction on schedules; invariants between index and editor clients |
| C44–C47 | menus | permutation and sortedness; matcher specification; invariant of the registered menus |
| C48–C50, C66 | `keys.rs`, `keys.lua`, hints, `normalize_error_message` | round-trip; refinement of the Lua handler to a small mode machine (`KeyMode`); list induction |
| C78 | the chunk of `exec_lua` and Lua's reader of literals, as a machine on characters | reading a literal is equivalent to a relation between its text and its value (`LuaBody`), in both directions; a literal is longer than its value unless it is the value (induction on the text); the steps of a session do not depend on the reader for such names |
| C79 | the machine: directory, sockets, servers and clients, one system call at a time | invariants of every schedule (a socket implies the directory; a socket belongs to a server of its name; without crashes an empty directory has a server that will fill or remove it); counterexamples by evaluation |
| C80 | the same machine with crashes | invariant of the orphan socket; the first three calls of a second server are computed in any reached state |
| C81 | server loop over the whole editor with the scripts; safe lines and events | induction over the schedule; every request of a safe line is a sequence of safe operations of C77 |
| C82 | the generator of the C interface: names, signatures, imports, the text of the file | substitution of a placeholder that occurs once (by induction on the text before it); snake case is injective on Pascal case (decoding by induction); pairwise distinct names from pairwise distinct types; ced's configuration is computed |
| C83 | the server of C81 with the screens of C69, the delivery of C65 and the client library of C51 | a property of states carried by every safe operation, then induction over the schedule; composition with C51_current and C67_client |
| C84 | the iterator over positions | induction on the number of calls over the lemmas of the motions (C17) |
| C85 | listener and readers with their buffers, one step each | invariant per connection over every schedule: bytes that arrived = lines told + line being read + buffer; refinement to the events of C40–C43 |
| C86 | the three tasks of the stdio client | invariant over every schedule: written + waiting = requests read; what was read is encoded and decoded to itself |
| C87 | `Navigator`, `offset_to_coord`, `coord_to_offset`, `selection_range` on any text and any segmentation (`IsSegmentation`) | `Spec/MotionAny`: the column read off an offset, where a motion is headed, where it lands; both directions of the equivalence by cases on the motion (`Proofs/MotionAny`); consequences for characters of several bytes; deleting by the range of the selection (`Props/Behind`) |
| C88 | `to_notification_params`, `notify_view_update`, `move_cursor` on any text and any segmentation | `Spec/Showing`: a selection can be drawn; `render_iff` (`Props/Showing`) is an equivalence for views of whole buffers, which all views of reachable states are; `C88_where` by cases on the line. What is drawn (`Props/ShowingCells`): `sent_lens` shows by induction on the rendering loop that every lens of an item is the rendering of the item's buffer with the client's own selections; `ranges_cover` and `drawnTo_unique` turn the ranges into `CellDrawn` |
| C89 | `main` of bin/ced.rs from the parsed arguments on, `ensure_session`, `start_daemon` (the arguments of the child), `Session::from_name`, `from_pid`, `build_root` | equivalences with `Launches`/`SessionAt`/`Addresses` (`Props/CommandLine`); the address parser is characterised exactly (`parseAddr_iff`); C89_server composes the child's own `main` with the parent's |
| C90 | the heap of the C library: `raw!`, `cstring!`, the conversions of events and items, `ced_version`, `ced_connection_create`, `ced_connection_next_event`, and the generated `…_destroy` and `…_next_item` | an invariant over all histories of calls (`accounted`): the heap is what the program was given and did not free; then each claim from it (`Props/FfiHeap`) |
| C91 | `Term::start` as four tasks, the closing of the channel, the end of the main loop, and the writing task of `Client::run` (Model/TuiEnd) | the program's steps refine those of C73/C76 (`C91_tasks`), then invariants over all schedules (`Props/TuiEnd`) |
| C92 | the selections of all clients in all views, over every operation of the core (Model/Core) | one lemma per operation on the client map, with what the closing and the replacing of a view do to it; induction over runs (`Props/Kept`, specification in `Spec/Kept`) |
| C93 | the queue of notifications over the turns of the server (Model/{Core,Editor,Scripts,Server}) | one lemma per operation (only views leave the core by themselves), lifted over requests, scripts, turns and schedules (`Proofs/Private`, `Props/Private`, specification in `Spec/Private`) |
| C94 | `ced_connection_create`, the reading thread, the channel and `ced_connection_next_event` (Model/FfiWatch) | invariant: events got ++ events waiting = events of the lines read; joined with C93, C62, C51 and C70 (`Props/FfiWatch`) |
| C95 | the requests of `Core` (Model/Core), the drawing of views, in texts of any bytes | the invariant of C77 made generic over a kind of texts and selections (`Proofs/Calm*`, `structure Kind`), instantiated with selections that can be drawn and stay drawable when lines are appended (`Proofs/CalmAny`); appending exactly, from C88 (`Props/AnyChars`); servers, screens and terminals: the proofs of C81 and C83 made generic over the rules (`RulesOk`, `Props/SafeServer`, `Props/UserScreen`), `from_utf8_lossy` keeps ASCII bytes and lines (`Proofs/Lossy`) |
| C96 | `delete_selection`, `edit` (re-reading), `scratch`, `append_to`, `text()`, the drawing of views, in texts of any characters | `Spec/Whole`: requests that cut no character; the invariant that all pieces are texts over all such sessions (`Proofs/Whole`), exactness of deletion by decoding at the cut (`Proofs/Exact`), then views (`Props/Whole`) and, as another set of rules of `Spec/SafeServer`, servers, screens and terminals (`Props/WholeServer`); two sessions outside the rule refute it |
| C97 | the machine with addresses, paths and foreign files (Model/Host): `bind` and `connect` of both transports, `create_dir_all`, `remove_file`, `remove_dir`, `Session::list`, `ensure_session`, one system call at a time | every step is one of seven kinds (`step_moved`, `goServer_tcp`, `goServer_socket`); an address belongs to the running server that has bound it (`PortsOk`), by induction over every schedule; a client's phase is a function of the number of its own calls (`visits_run`) (`Props/HostTcp`) |
| C98 | the same machine | files are in directories and sockets belong to the servers of their places (`Orderly`), by induction over every schedule (`Props/HostPaths`); a simulation of the machine of C79/C80 for plain names (`Props/HostPlain`) |
| C99 | `World.moveCursor` and `World.view`, already there | the exact motions of C87 and the exact drawing of C88, put together for all the selections of a client (`Props/Requested`); three ordinary motions are shown to crash |
| C100 | `write_client` byte by byte into connections with room for so much, clients that read or hang up when they like (Model/Flow) | invariant over all schedules (got ++ on its way ++ left = sent), refinement of `Server.loop`, a measure for the writes (`Props/Flow`) |
| C101 | the two threads of `start_standalone` and the channel for 100 messages between them, until the process ends (Model/Printing) | invariant over all schedules, an exact count of steps, and two schedules built for every session: an eager one that prints all, a lazy one that loses the last 101 (`Props/Printing`) |
| C102 | the readers of C85 and the writes of C100 together (`Spec/Conversation`) | the whole lines in a beginning of framed messages are the first of them; each line taken adds one response with its identifier (C37, C40); C85 for what is heard (`Props/Conversation`); C95_session over the connections of C100 (`Props/UserBytes`) |
| C103 | the tasks and the queue of the terminal (Model/Tui), what is on the screen (`Spec/TuiMenu`) | invariant over all schedules: the screen agrees with the mirror, or the drawing that makes it agree is the last one waiting (`Props/TuiMenu`) |
| C104 | every place where a lock is taken, as programs with free choices and loops (Model/Locks); the tasks of server and terminal taking turns, the two threads of the standalone editor (`Spec/Locks`) | a syntactic check, sound by induction on all runs; nothing is held at a wait, hence by whoever does not run (`Props/Locks`) |
| C105 | the standalone mode (Model/Standalone, Model/Printing) and the runs of scripts, with the reading of their files | the editor is that of a server with one client, each opening of a file and each script being a request for it (`Housed`, `Props/Batch`); C81's lemmas, then C101 for the threads |
| C106 | as C83: the server, the deliveries, the reading client; two of them at once | corollary of C83's end-to-end theorem for both users: what `ShowsText` says of a buffer determines the lines, their first number and the bounds (`Props/Agree`) |
| C107 | the two threads of the standalone mode with a reader of the output that goes away (Model/Hangup) | every run is a run of C101 followed by unheard steps (`Split`); invariants of the unheard steps; a count of the remaining steps; under the rules with the lemmas of C105, the client's leaving sending nothing |
| C108 terminal given back | the terminal as mode, screen shown, cursor, and what was written on each screen; `Term::new`, `Term::start`, `Drop for Term` and `logline` around the running program of C91, with a failure possible at every operation on the terminal, on log.txt and at the connection (`Model/TermMode`) | `play` writes only on the alternate screen and keeps mode, screen and cursor (induction on the schedule); every exit goes through `finish`; agreement with C91's program when nothing fails; reversed links give C91_only's reasons for an end; the refuted parts by evaluation of each failure |
| C109 what is read | a terminal: grid of cells, cursor with deferred wrap, scrolling, reversed video, the reader of control sequences (`Model/Glass`), run on the drawings of the client | `print_shows`: a text that fits on the rest of a row, by induction on the text; `Filled`: the rows printed so far, kept when the screen scrolls (induction on the rows); then the drawings of C60, C72, C74, C75 one by one; lines with selections by what `format_text` makes of their pieces (`format_text` in `Model/Glass`, `Spec/GlassFaces`), entries with matches in `Props/GlassMenu`, and `RowsDrawn`, where a row may leave reversed video on; the refuted parts from the second half of a long message, the erasing of the last column, and by evaluation; from the start of the client on by an invariant over the run of the client (`Props/GlassUser`: which of menu and view is shown, or waits to be drawn, and whether a hint is left, with the discipline of C103; no claim while another size waits, and what is half read by the terminal does not depend on its size), which is combined with the end of C83 and, for two users, with C106 |
| C51–C53 | client connection | folds over event lists; end to end with a run of the server |
| C54, C55 | session names, short names | round-trip over the recogniser; loop invariant |
| C56, C57, C70 | C library | invariants over call sequences |
| C59, C71 | standalone mode | count of notifications of each operation; induction on the input |
| C60, C72, C74, C75 | drawing | equivalence of the loops with a specification of rows; crash conditions as equivalences |
| C30, C31, C77 | all `Core` operations | totality: an invariant of what drawing needs (`Calm`) under which each request allowed by `Spec/Calm.lean` completes; for closing and selecting views, and for motions, the condition is also necessary |
| C73, C76 | terminal's tasks | invariants over every interleaving of the three tasks |

No property of the list was found impossible to express in the model.
