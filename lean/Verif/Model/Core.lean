import Verif.Model.Str
import Verif.Model.StackMap
import Verif.Model.View

/-!
# Model of `core/src/editor/core.rs`

The state behind the mutex is a value (`World`), every method a function from it to a new one, or a panic.  The lock
is never held across a call that takes it again, so it is left out.  Views are shared through `Rc<RefCell<View>>` but
never changed in place (core.rs clones before changing), so they are plain values here.  What is sent on the broadcast
channel is the list `out`; sending never fails (the receiver lives as long as the server).
-/

namespace Ced

/-- core.rs:23 `BUFFER_DEBUG`. -/
def BUFFER_DEBUG : Str := str!"*debug*"
/-- core.rs:24 `BUFFER_SCRATCH`. -/
def BUFFER_SCRATCH : Str := str!"*scratch*"
/-- core.rs:271 the buffer of messages. -/
def BUFFER_MESSAGES : Str := str!"*messages*"
/-- core.rs:287 the buffer of errors. -/
def BUFFER_ERRORS : Str := str!"*errors*"

/-- remote/src/protocol.rs:5-12 `enum Face` (`Selection` is modelled by the highlighted ranges of a view). -/
inductive Face where
  | default | error | match_ | prompt
deriving DecidableEq, Repr

/-- remote/src/protocol.rs:79-84 `struct MenuParamsEntry`; the text is a list of fragments. -/
structure MenuParamsEntry where
  value : Str
  text : List (Str × Face)
  description : Option Str
deriving DecidableEq, Repr

/-- The notifications of remote/src/protocol.rs sent by the core (`status`, `hint` and `menu` are sent by the editor
and the scripts). -/
inductive Note where
  | echo (text : Str) (face : Face)
  | info (client : Str) (session : Str) (cwd : Path)
  | view (items : List ViewParamsItem)
  | status (items : List (Int × Str))
  | hint (lines : List Str)
  | menu (command title search : Str) (entries : List MenuParamsEntry)
deriving DecidableEq, Repr

/-- server.rs:14-37 `struct BroadcastMessage`: the recipients (`none`: all) and the message. -/
structure Broadcast where
  only : Option (List Nat)
  note : Note
deriving DecidableEq, Repr

/-- core.rs:98-102 `struct ClientContext`. -/
structure ClientContext where
  view : View
  selections : Assoc Str (Assoc Str (List Selection))
deriving DecidableEq, Repr

/-- core.rs:104-109 `struct CoreState`, with the messages broadcast so far and core.rs:155 `debug_mode`. -/
structure World where
  cwd : Path
  clients : StackMap Nat ClientContext
  buffers : Assoc Str Buffer
  views : StackMap Str View
  debugMode : Bool
  out : List Broadcast
deriving DecidableEq, Repr

/-- core.rs:117-121 `enum Error`. -/
inductive CoreError where
  | bufferNotFound (name : Str)
  | viewNotFound (viewId : Str)
deriving DecidableEq, Repr

/-- core.rs:123-131 `Display`. -/
def CoreError.display : CoreError → Str
  | bufferNotFound name => str!"buffer not found: " ++ name
  | viewNotFound id => str!"view not found: " ++ id

/-- What an operation depends on besides the state: the segmentation, the files and the clock, the handles of removed
tree nodes (see `StaleHandle`), and how a name is put after the working directory (`PathBuf::push`). -/
structure Env where
  seg : Segmentation
  fs : FileSystem
  now : Nat
  stale : Nat → StaleHandle
  resolve : Path → Str → Path

/-- `String::replace` of a character. -/
def replaceChar (c : Char) (by' : Str) (s : Str) : Str := s.flatMap fun x => if x = c then by' else [x]

/-- `char::is_whitespace`, as far as `normalize_error_message` can see it: Unicode's White_Space. -/
def isWhitespaceChar (c : Char) : Bool :=
  (9 ≤ c.toNat && c.toNat ≤ 13) || c.toNat = 32 || c.toNat = 0x85 || c.toNat = 0xA0 || c.toNat = 0x1680 ||
    (0x2000 ≤ c.toNat && c.toNat ≤ 0x200A) || c.toNat = 0x2028 || c.toNat = 0x2029 || c.toNat = 0x202F ||
    c.toNat = 0x205F || c.toNat = 0x3000

/-- core.rs:135-149 `normalize_error_message`. -/
def normalizeErrorMessage (message : Str) : Str :=
  let s := replaceChar '\t' [' '] (replaceChar '\n' ['\\', 'n'] message)
  (s.foldl (fun (st : Str × Option Char) x =>
    if some x ≠ st.2 then (st.1 ++ [x], if isWhitespaceChar x then some x else none) else st) ([], none)).1

namespace World

/-- core.rs:32-38 `broadcast`. -/
def broadcast (w : World) (only : Option (List Nat)) (n : Note) : World :=
  { w with out := w.out ++ [{ only := only, note := n }] }

/-- core.rs:40-42 `notify`. -/
def notify (w : World) (client : Nat) (n : Note) : World := w.broadcast (some [client]) n

/-- core.rs:44-54 `echo`. -/
def echo (w : World) (client : Option Nat) (text : Str) (face : Face) : World :=
  match client with
  | some id => w.notify id (.echo text face)
  | none => w.broadcast none (.echo text face)

/-- core.rs:73-77 `view_update`. -/
def viewUpdate (w : World) (params : List (Nat × List ViewParamsItem)) : World :=
  params.foldl (fun w p => w.notify p.1 (.view p.2)) w

/-- core.rs:180-182 `buffer_exists`. -/
def bufferExists (w : World) (name : Str) : Bool := w.buffers.has name

/-- core.rs:188-190 `view_exists`. -/
def viewExists (w : World) (id : Str) : Bool := w.views.map.has id

/-- core.rs:196-212 `clients_with_buffer`. -/
def clientsWithBuffer (w : World) (name : Str) : List Nat :=
  if w.bufferExists name = false then []
  else w.clients.map.filterMap fun c => if c.2.view.containsBuffer name then some c.1 else none

/-- core.rs:214-221 `get_selected_text`. -/
def getSelectedText (env : Env) (w : World) (buffer : Str) (sel : Selection) : R (Option Bytes) :=
  match w.buffers.get buffer with
  | none => .ok none
  | some b => do
    let (a, e) ← selectionRange env.seg b.content sel
    b.content.textRange a e

/-- core.rs:223-229 `get_coord`. -/
def getCoord (env : Env) (w : World) (buffer : Str) (offset : Nat) : R (Option Coords) :=
  match w.buffers.get buffer with
  | none => .ok none
  | some b => b.content.offsetToCoord env.seg offset

/-- core.rs:235-239: what a client is shown. -/
def viewParams (env : Env) (w : World) (id : Nat) : R (Nat × List ViewParamsItem) := do
  let ctx ← w.clients.map.at! id
  let items ← ctx.view.toNotificationParams env.seg w.buffers (ctx.selections.get ctx.view.key)
  return (id, items)

/-- core.rs:231-242 `notify_view_update`. -/
def notifyViewUpdate (env : Env) (w : World) (clients : List Nat) : R World := do
  let params ← clients.mapM (w.viewParams env)
  return w.viewUpdate params

/-- core.rs:325-328 `open_scratch`. -/
def openScratch (w : World) (name : Str) (content : Bytes) : World :=
  { w with buffers := w.buffers.set name (Buffer.newScratch name content) }

/-- core.rs:330-333 `open_file`. -/
def openFile (env : Env) (w : World) (name : Str) (path : Path) : R World := do
  let b ← Buffer.newFile env.fs env.now path
  return { w with buffers := w.buffers.set name b }

/-- core.rs:244-251 `append_to`. -/
def appendTo (env : Env) (w : World) (name : Str) (text : Bytes) : R World :=
  let w := match w.buffers.get name with
    | none => w.openScratch name text
    | some b => { w with buffers := w.buffers.set name (b.append text) }
  w.notifyViewUpdate env (w.clientsWithBuffer name)

/-- core.rs:253-259 `debug`. -/
def debug (env : Env) (w : World) (content : Str) : R World :=
  if w.debugMode then w.appendTo env BUFFER_DEBUG (Str.encode (content ++ ['\n'])) else .ok w

/-- core.rs:261-273 `message`. -/
def message (env : Env) (w : World) (client : Option Nat) (content : Str) : R World := do
  let msg := match client with
    | some id => natStr id ++ ['|'] ++ content
    | none => ['*', '|'] ++ content
  let w ← w.appendTo env BUFFER_MESSAGES (Str.encode (msg ++ ['\n']))
  return w.echo client content .default

/-- core.rs:275-290 `error`. -/
def error (env : Env) (w : World) (client : Option Nat) (tag content : Str) : R World := do
  let text := tag ++ str!": " ++ content
  let msg := match client with
    | some id => natStr id ++ ['|'] ++ text
    | none => ['*', '|'] ++ text
  let w ← w.appendTo env BUFFER_ERRORS (Str.encode (msg ++ ['\n']))
  return w.echo client (normalizeErrorMessage text) .error

/-- core.rs:298-307: fresh selections for the buffers of a view. -/
def freshSelections (v : View) : Assoc Str (List Selection) :=
  v.buffers.foldl (fun m b => m.set b [Selection.new]) []

/-- core.rs:295-313: the context of a new client. -/
def joinContext (w : World) : R ClientContext :=
  match w.clients.latest with
  | some c => w.clients.map.at! c
  | none => do
    let v ← unwrapR w.views.latestValue
    return { view := v, selections := [(v.key, freshSelections v)] }

/-- core.rs:292-318 `add_client`. -/
def addClient (env : Env) (w : World) (id : Nat) (session : Str) : R World := do
  let context ← w.joinContext
  let (clients, _) ← w.clients.insert id context
  let w := { w with clients := clients }
  let w ← w.debug env (str!"new client: " ++ natStr id)
  return w.notify id (.info (natStr id) session w.cwd)

/-- core.rs:320-323 `remove_client`. -/
def removeClient (env : Env) (w : World) (id : Nat) : R World :=
  let w := { w with clients := (w.clients.remove id).1 }
  w.debug env (str!"client left: " ++ natStr id)

/-- Change the context of every client (`clients.iter_mut()`). -/
def mapClients (w : World) (f : Nat → ClientContext → ClientContext) : World :=
  { w with clients := { w.clients with map := w.clients.map.mapVals f } }

/-- core.rs:339-348: the selections of a view in the context of a client. -/
def addSelections (v : View) (ctx : ClientContext) : ClientContext :=
  let sels := (ctx.selections.get v.key).getD []
  let sels := v.buffers.foldl (fun m b => m.orInsert b [Selection.new]) sels
  { ctx with selections := ctx.selections.set v.key sels }

/-- core.rs:335-350 `add_view`. -/
def addView (w : World) (v : View) : R World := do
  let (views, _) ← w.views.insert v.key v
  return { w with views := views }.mapClients fun _ ctx => addSelections v ctx

/-- core.rs:364-375: drop a buffer no view shows. -/
def dropBuffer (env : Env) (w : World) (buffer : Str) : R World :=
  if w.views.map.any fun kv => kv.2.buffers.any (· = buffer) then .ok w
  else { w with buffers := w.buffers.del buffer }.debug env (str!"delete buffer: " ++ buffer)

/-- core.rs:376-381: when no view remains, one is made. -/
def ensureView (w : World) : R World :=
  if w.views.map.isEmpty then
    (if w.buffers.isEmpty then w.openScratch BUFFER_SCRATCH [] else w).addView (View.forBuffer BUFFER_SCRATCH)
  else .ok w

/-- core.rs:352-393 `delete_view`. -/
def deleteView (env : Env) (w : World) (id : Str) : R (World × Option CoreError) :=
  if w.viewExists id = false then .ok (w, some (.viewNotFound id))
  else do
    let (views, old) := w.views.remove id
    let v ← unwrapR old
    let w ← { w with views := views }.debug env (str!"delete view: " ++ id)
    let w := w.mapClients fun _ ctx => { ctx with selections := ctx.selections.del id }
    let w ← v.buffers.foldlM (dropBuffer env) w
    let w ← w.ensureView
    let latest ← unwrapR w.views.latestValue
    let toNotify := w.clients.map.filterMap fun c => if c.2.view.key = id then some c.1 else none
    let w := w.mapClients fun _ ctx => if ctx.view.key = id then { ctx with view := latest } else ctx
    let w ← w.notifyViewUpdate env toNotify
    return (w, none)

/-- core.rs:403-407: the selections of the old view become those of the new one. -/
def moveSelections (old new : Str) (ctx : ClientContext) : ClientContext :=
  match ctx.selections.get old with
  | some sels => { ctx with selections := (ctx.selections.del old).set new sels }
  | none => ctx

/-- core.rs:395-414 `modify_view`. -/
def modifyView (env : Env) (w : World) (id : Str) (f : View → View) : R World := do
  let v ← w.views.map.at! id
  let oldKey := v.key
  let new := f v
  let newKey := new.key
  if oldKey ≠ newKey then
    let w ← if new.isEmpty = false then (w.mapClients fun _ => moveSelections oldKey newKey).addView new else pure w
    let (w, e) ← w.deleteView env oldKey
    match e with
    | none => return w
    | some _ => .error .unwrap
  else return w

/-- core.rs:456-481 `view`. -/
def view (env : Env) (w : World) (client : Nat) (id : Str) : R (World × Option CoreError) :=
  if w.viewExists id then do
    let v ← w.views.map.at! id
    let ctx ← unwrapR (w.clients.map.get client)
    let w := { w with clients := { w.clients with map := w.clients.map.set client { ctx with view := v } } }
    let w ← w.notifyViewUpdate env [client]
    return (w, none)
  else if w.bufferExists id then do
    let v := View.forBuffer id
    let ctx ← unwrapR (w.clients.map.get client)
    let w := { w with
      clients := { w.clients with map := w.clients.map.set client { ctx with view := v } },
      views := { w.views with map := w.views.map.orInsert v.key v } }
    let w ← w.notifyViewUpdate env [client]
    return (w, none)
  else .ok (w, some (.viewNotFound id))

/-- core.rs:418-440: the first part of `edit`; also whether other clients must be told. -/
def openForEdit (env : Env) (w : World) (name : Str) (scratch : Bool) : R (World × Bool) :=
  match scratch, w.buffers.get name with
  | true, none => .ok (w.openScratch name [], false)
  | true, some _ => .ok (w, false)
  | false, some b => do
    let (b, reloaded) ← b.loadFromDisk env.stale env.fs env.now
    let w := { w with buffers := w.buffers.set name b }
    if reloaded then
      let w ← w.debug env (str!"reloaded from disk: " ++ name)
      return (w, true)
    else return (w, false)
  | false, none => do
    let w ← w.openFile env name (env.resolve w.cwd name)
    return (w, true)

/-- core.rs:416-454 `edit`. -/
def edit (env : Env) (w : World) (client : Nat) (name : Str) (scratch : Bool) : R World := do
  let (w, notifyChange) ← w.openForEdit env name scratch
  let v := View.forBuffer name
  let w ← w.addView v
  let (w, e) ← w.view env client v.key
  match e with
  | some _ => .error .unwrap
  | none =>
    let w ← w.debug env (str!"edit: " ++ name)
    if notifyChange then w.notifyViewUpdate env ((w.clientsWithBuffer name).filter (· ≠ client))
    else return w

/-- core.rs:483-486 `delete_current_view`. -/
def deleteCurrentView (env : Env) (w : World) (client : Nat) : R World := do
  let ctx ← w.clients.map.at! client
  let (w, e) ← w.deleteView env ctx.view.key
  match e with
  | none => return w
  | some _ => .error .unwrap

/-- core.rs:488-503 `add_to_current_view`. -/
def addToCurrentView (env : Env) (w : World) (client : Nat) (buffer : Str) : R (World × Option CoreError) :=
  if w.bufferExists buffer = false then .ok (w, some (.bufferNotFound buffer))
  else do
    let ctx ← w.clients.map.at! client
    let w ← w.modifyView env ctx.view.key fun v => v.addLens buffer .whole
    return (w, none)

/-- core.rs:505-523 `remove_from_current_view`. -/
def removeFromCurrentView (env : Env) (w : World) (client : Nat) (buffer : Str) : R (World × Option CoreError) :=
  if w.bufferExists buffer = false then .ok (w, some (.bufferNotFound buffer))
  else do
    let ctx ← w.clients.map.at! client
    let w ← w.modifyView env ctx.view.key fun v => if v.containsBuffer buffer then v.removeLensGroup buffer else v
    return (w, none)

/-- core.rs:530-557: the motion of the selections of one buffer. -/
def moveBuffer (env : Env) (w : World) (dir : CursorTarget) (extend : Bool) (bss : Str × List Selection) :
    R (Str × List Selection) := do
  let buffer ← w.buffers.at! bss.1
  let ss ← bss.2.mapM (Selection.move env.seg buffer.content dir extend)
  return (bss.1, ss)

/-- core.rs:525-568 `move_cursor`. -/
def moveCursor (env : Env) (w : World) (client : Nat) (dir : CursorTarget) (extend : Bool) : R World := do
  let ctx ← w.clients.map.at! client
  let cur := ctx.view.key
  let sels ← ctx.selections.at! cur
  let sels' ← sels.mapM (w.moveBuffer env dir extend)
  let w' := { w with clients := { w.clients with
    map := w.clients.map.set client { ctx with selections := ctx.selections.set cur sels' } } }
  if sels' ≠ sels then w'.notifyViewUpdate env [client] else return w'

/-- core.rs:570-583 `clamp_selections`. -/
def clampSelections (w : World) (client : Nat) (name : Str) : R World := do
  let b ← w.buffers.at! name
  let m ← b.content.maxOffset
  let ctx ← unwrapR (w.clients.map.get client)
  let ss ← unwrapR (ctx.selections.get ctx.view.key)
  let sels ← unwrapR (ss.get name)
  let ctx := { ctx with selections := ctx.selections.set ctx.view.key (ss.set name (sels.map (·.clampTo m))) }
  return { w with clients := { w.clients with map := w.clients.map.set client ctx } }

/-- piece_table/mod.rs:550-598 `delete` of a range given by its start and its end, whose text was read before
(core.rs:599-600).  A reversed range whose text could be read starts in a piece that does not start before its end
(`PieceTable.range`), so it meets no piece in `delete` and panics (piece_table/mod.rs:560-566). -/
def deleteRange (env : Env) (t : PieceTable) (a e : Nat) : R PieceTable :=
  if e < a then .error .index else t.delete (env.stale 0) a (e - a)

/-- core.rs:598-605: delete one selection; the texts deleted so far are carried along. -/
def deleteOne (env : Env) (st : PieceTable × List Bytes) (sel : Selection) : R (PieceTable × List Bytes) := do
  let (a, e) ← selectionRange env.seg st.1 sel
  let text ← st.1.textRange a e
  match text with
  | some text => do
    let t ← deleteRange env st.1 a e
    return (t, st.2 ++ [text])
  | none => return st

/-- core.rs:593-611: delete the selections of a buffer; the texts deleted. -/
def deleteInBuffer (env : Env) (b : Buffer) (sels : List Selection) : R (Buffer × List Bytes) := do
  let (t, deleted) ← sels.foldlM (deleteOne env) (b.content, [])
  let t := if t.isEmpty then t.append [NL] else t
  return ({ b with content := t }, deleted)

/-- core.rs:593-611: the loop over the buffers of the view; also the names of the buffers changed. -/
def deleteStep (env : Env) (st : World × List Bytes × List Str) (bss : Str × List Selection) :
    R (World × List Bytes × List Str) := do
  let b ← unwrapR (st.1.buffers.get bss.1)
  let (b, deleted) ← deleteInBuffer env b bss.2
  let w := { st.1 with buffers := st.1.buffers.set bss.1 b }
  return (w, st.2.1 ++ deleted, if deleted = [] then st.2.2 else st.2.2 ++ [bss.1])

/-- core.rs:585-620 `delete_selection`. -/
def deleteSelection (env : Env) (w : World) (client : Nat) : R (World × List Bytes) := do
  let ctx ← w.clients.map.at! client
  let sels ← ctx.selections.at! ctx.view.key
  let (w, deleted, modified) ← sels.foldlM (deleteStep env) (w, [], [])
  let w ← modified.foldlM (fun w name => w.clampSelections client name) w
  if deleted ≠ [] then
    let w ← w.notifyViewUpdate env [client]
    return (w, deleted)
  else return (w, deleted)

/-- core.rs:643-647, 676-687: what a script is told of a selection: the offsets, the coordinates, the text. -/
structure SelectionData where
  anchor : Nat × Coords
  cursor : Nat × Coords
  text : Bytes
deriving DecidableEq, Repr

/-- core.rs:676-687: the data of one selection. -/
def selectionData (env : Env) (w : World) (name : Str) (s : Selection) : R SelectionData := do
  let a ← w.getCoord env name s.anchor
  let a ← unwrapR a
  let c ← w.getCoord env name s.cursor
  let c ← unwrapR c
  let t ← w.getSelectedText env name s
  return { anchor := (s.anchor, a), cursor := (s.cursor, c), text := t.getD [] }

/-- core.rs:664-697 `get_context`: the key of the view and the selections of its buffers. -/
def getContext (env : Env) (w : World) (client : Nat) : R (Str × List (Str × List SelectionData)) := do
  let ctx ← w.clients.map.at! client
  let sels ← ctx.selections.at! ctx.view.key
  let data ← sels.mapM fun kv => do
    let d ← kv.2.mapM (w.selectionData env kv.1)
    return (kv.1, d)
  return (ctx.view.key, data)

/-- core.rs:699-706 the script function `scratch`. -/
def scratch (env : Env) (w : World) (client : Nat) (name : Str) (content : Bytes) : R World :=
  (w.openScratch name content).edit env client name true

/-- core.rs:159-170 `new`. -/
def new (cwd : Path) : World where
  cwd := cwd
  clients := StackMap.new
  buffers := []
  views := StackMap.new
  debugMode := true
  out := []

/-- editor/mod.rs:101-129: the state of a new editor (before the scripts are loaded); `args` is the command line,
`cwdText` the working directory as displayed. -/
def start (env : Env) (cwd : Path) (args cwdText : Str) : R World := do
  let w ← (new cwd).debug env (str!"command: " ++ args)
  let w ← w.debug env (str!"cwd: " ++ cwdText)
  let v := View.addLens [] BUFFER_DEBUG .whole
  let w := w.openScratch BUFFER_SCRATCH []
  let v := v.addLens BUFFER_SCRATCH .whole
  w.addView v

end World
end Ced
