/-!
# Model of the locks of the programs

Each method is reduced to the locks that it takes, what it does to others while it holds them, and where it gives the control back to
its executor: choices are free (`alt`), loops go round any number of times (`many`).  A temporary guard lives until the end of its
statement: through the whole body of a `for` or an `if let` whose head takes it, not through that of an `if`; the guard of
`let buffer = &lock!(self).buffers[b]` (core.rs:531) lives until the end of its block.  `RwLock`s are taken for exclusive.  The
`RefCell`s of the views are only ever borrowed immutably (there is no `borrow_mut` in the code), so they are left out.
-/

namespace Ced.Locks

/-- The locks: `CoreState` (core.rs:153), the index of the clients of the server (server.rs:72), the state of a connection
(connection.rs:128), and the standard output (taken by each `println!`). -/
inductive Lock where
  | state | index | mirror | stdout
deriving DecidableEq

/-- What a program does, as far as others are concerned: takes or gives back a lock, puts something in a channel (which may have to
wait for room in the standalone editor, clients.rs:14), writes to a client (`block_on`, server.rs:66), or waits: gives the control back
to its executor (`await`), which it also does when it is finished. -/
inductive Act where
  | take (l : Lock)
  | give (l : Lock)
  | tell
  | write
  | wait
deriving DecidableEq

/-- A program. -/
inductive Prog where
  | skip
  | tell
  | write
  | wait
  | hold (l : Lock) (p : Prog)
  | seq (p q : Prog)
  | alt (p q : Prog)
  | many (p : Prog)

/-- What a program may do, one thing after the other, until it is finished. -/
inductive Does : Prog → List Act → Prop
  | skip : Does .skip []
  | tell : Does .tell [.tell]
  | write : Does .write [.write]
  | wait : Does .wait [.wait]
  | hold {l : Lock} {p : Prog} {as : List Act} (h : Does p as) : Does (.hold l p) (.take l :: as ++ [.give l])
  | seq {p q : Prog} {as bs : List Act} (h : Does p as) (h' : Does q bs) : Does (.seq p q) (as ++ bs)
  | left {p q : Prog} {as : List Act} (h : Does p as) : Does (.alt p q) as
  | right {p q : Prog} {as : List Act} (h : Does q as) : Does (.alt p q) as
  | stop {p : Prog} : Does (.many p) []
  | again {p : Prog} {as bs : List Act} (h : Does p as) (h' : Does (.many p) bs) : Does (.many p) (as ++ bs)

/-- Programs, one after the other. -/
def block : List Prog → Prog
  | [] => .skip
  | p :: ps => .seq p (block ps)

/-- One of some programs. -/
def oneOf : List Prog → Prog
  | [] => .skip
  | p :: ps => .alt p (oneOf ps)

/-- Perhaps. -/
def maybe (p : Prog) : Prog := .alt .skip p

/-! ## The methods of `Core` -/

/-- A statement that takes the state and calls nothing that takes a lock: core.rs:177 `cwd`, 181 `buffer_exists`, 185 `buffers`,
189 `view_exists`, 193 `views`, 215-220 `get_selected_text`, 224-228 `get_coord`, 327 `open_scratch`, 332 `open_file`, and the
statements of the other methods. -/
def peek : Prog := .hold .state .skip

/-- core.rs:196-211 `clients_with_buffer`. -/
def clientsWithBuffer : Prog := block [peek, maybe peek]

/-- core.rs:231-241 `notify_view_update`: the notifications are sent while the state is held. -/
def notifyViewUpdate : Prog := .hold .state (.many .tell)

/-- core.rs:244-251 `append_to`. -/
def appendTo : Prog := block [peek, .alt peek peek, clientsWithBuffer, notifyViewUpdate]

/-- core.rs:253-259 `debug`. -/
def debug : Prog := maybe appendTo

/-- core.rs:261-273 `message`, 275-290 `error`. -/
def message : Prog := block [appendTo, .tell]

/-- core.rs:292-318 `add_client`. -/
def addClient : Prog := block [peek, debug, .tell]

/-- core.rs:320-323 `remove_client`. -/
def removeClient : Prog := block [peek, debug]

/-- core.rs:335-349 `add_view`: the loop (339) holds the state through its body. -/
def addView : Prog := block [peek, .hold .state (.many .skip)]

/-- core.rs:352-393 `delete_view`. -/
def deleteView : Prog :=
  block [peek, maybe (block [peek, debug, peek,
    .many (block [peek, maybe (block [peek, debug])]),
    peek, maybe (block [peek, maybe peek, addView]),
    peek, peek, notifyViewUpdate])]

/-- core.rs:395-414 `modify_view`. -/
def modifyView : Prog := block [peek, maybe (block [maybe (block [peek, addView]), deleteView])]

/-- core.rs:456-481 `view`. -/
def view : Prog :=
  block [peek, .alt (block [peek, notifyViewUpdate]) (block [peek, maybe (block [peek, notifyViewUpdate])])]

/-- core.rs:416-454 `edit`. -/
def edit : Prog :=
  block [peek, oneOf [maybe peek, block [peek, maybe debug], block [peek, peek]], addView, view, debug,
    maybe (block [clientsWithBuffer, notifyViewUpdate])]

/-- core.rs:483-486 `delete_current_view`. -/
def deleteCurrentView : Prog := block [peek, deleteView]

/-- core.rs:488-502 `add_to_current_view`, 505-523 `remove_from_current_view`. -/
def changeCurrentView : Prog := block [peek, maybe (block [peek, modifyView])]

/-- core.rs:525-567 `move_cursor`: each round of the loop holds the state until its end. -/
def moveCursor : Prog := block [peek, .many peek, peek, maybe notifyViewUpdate]

/-- core.rs:585-622 `delete_selection`. -/
def deleteSelection : Prog := block [peek, maybe notifyViewUpdate]

/-- core.rs:674-705 `get_context`. -/
def getContext : Prog := block [peek, .many (block [peek, peek, peek])]

/-- Any method of `Core`, called by the editor or by a script (core.rs:659-765), and the sending of a notification. -/
def anyCall : Prog :=
  oneOf [peek, clientsWithBuffer, appendTo, debug, message, addClient, removeClient, addView, deleteView, modifyView, view, edit,
    deleteCurrentView, changeCurrentView, moveCursor, deleteSelection, getContext, .tell, block [peek, edit]]

/-- What the editor does for a request, a client that joins or leaves, or at its start (editor/mod.rs:101-390): some calls of methods of
`Core`, one after the other.  Which ones is left open; a script cannot call a method while another one runs, as no method calls a
script. -/
def editorWork : Prog := .many anyCall

/-! ## The tasks of the server -/

/-- server.rs:78-90: the task of the broadcasts holds the index while it writes. -/
def broadcasts : Prog := block [.many (block [.wait, .hold .index (.many .write)]), .wait]

/-- server.rs:94-138: one event. -/
def eventTurn : Prog :=
  block [oneOf [block [.hold .index .skip, editorWork], block [editorWork, .hold .index .skip],
      block [editorWork, maybe (.hold .index .write)]],
    .many (.hold .index .skip), .hold .index .skip]

/-- server.rs:69-139 `handle_events`. -/
def events : Prog := block [editorWork, .many (block [.wait, eventTurn]), .wait]

/-- server.rs:141-164 `read_client` and 166-192 `serve`: they wait for lines or clients, and for the room in an unbounded channel. -/
def reader : Prog := block [.many (block [.wait, .wait]), .wait]

/-- The tasks of a server: the two that share the index, and any number of readers. -/
def serverTask : Nat → Prog
  | 0 => events
  | 1 => broadcasts
  | _ => reader

/-! ## The tasks of the terminal -/

/-- connection.rs:144-146, 218-232: a method of the connection holds its state for one statement; connection.rs:174-176: a request is
put in an unbounded channel. -/
def connectionCall : Prog := .alt (.hold .mirror .skip) .tell

/-- tui.rs:158-173: the main loop. -/
def mainLoop : Prog := block [.many connectionCall, .many (block [.wait, .many connectionCall]), .wait]

/-- tui.rs:140-155 with connection.rs:157-163: a line updates the state; the event is put in a channel with limited room. -/
def messages : Prog := block [.many (block [.wait, .hold .mirror .skip, .wait]), .wait]

/-- The tasks of a terminal; the keyboard (tui.rs:114-131) and the writing of requests (client.rs:31-37) take no locks. -/
def terminalTask : Nat → Prog
  | 0 => mainLoop
  | 1 => messages
  | _ => reader

/-! ## The threads of the standalone editor -/

/-- clients.rs:13-46 (`println!` holds the standard output while it prints). -/
def standaloneMain : Prog :=
  block [editorWork, .many (block [editorWork, maybe (.hold .stdout .skip)]), editorWork]

/-- clients.rs:26-32: the printing thread; `wait` is the `recv`. -/
def standalonePrinter : Prog := .many (block [.wait, maybe (.hold .stdout .skip)])

end Ced.Locks
