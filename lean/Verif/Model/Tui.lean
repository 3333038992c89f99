import Verif.Model.Connection

/-!
# Model of `core/src/tui.rs`

A drawing is the list of what is queued on the terminal; errors of the terminal are left out.  The decorated texts are
values of a type `T`; what is asked of the crate `ornament` and of the styles of the crate `crossterm` is a parameter
(`Paint`).  The three tasks (keyboard, messages of the server, main loop) communicate by a bounded channel: a step of
the program is the arrival of an event of the keyboard, of a line of the server, or the treatment of the next event by
the main loop.
-/

namespace Ced

/-- `&s[..n]`: the first `n` bytes of a string; panics past the end and off a character boundary. -/
def Str.cut : Str → Nat → R Str
  | _, 0 => .ok []
  | [], _ + 1 => .error .index
  | c :: s, n + 1 =>
    if c.utf8Size ≤ n + 1 then do
      let r ← Str.cut s (n + 1 - c.utf8Size)
      return c :: r
    else .error .index
termination_by structural s => s

/-- `&s[n..]`: a string without its first `n` bytes; panics past the end and off a character boundary. -/
def Str.skip : Str → Nat → R Str
  | s, 0 => .ok s
  | [], _ + 1 => .error .index
  | c :: s, n + 1 => if c.utf8Size ≤ n + 1 then Str.skip s (n + 1 - c.utf8Size) else .error .index
termination_by structural s => s

/-- `str::len`. -/
def Str.byteLen (s : Str) : Nat := (Str.encode s).length

/-- `str::repeat` of one character. -/
def Str.rep (c : Char) (n : Nat) : Str := List.replicate n c

/-- `[String]::join`. -/
def Str.join (sep : Str) : List Str → Str
  | [] => []
  | [s] => s
  | s :: l => s ++ sep ++ Str.join sep l

/-- What is asked of a decorated text: `Text::render(format_text)` (tui.rs:62-69), `Text::render` of an entry of a menu
(tui.rs:266-269), `Text::text_len`, `Text::plain`, `Text::default`. -/
structure Paint (T : Type) where
  render : T → Str
  renderMenu : T → Str
  textLen : T → Nat
  plain : T → Str
  blank : T

/-- What is queued on the terminal: `Clear(ClearType::All)`, `MoveTo` followed by a print (reversed or not), and
`Clear(ClearType::UntilNewLine)`. -/
inductive Draw where
  | clear
  | at (x y : Nat) (reversed : Bool) (s : Str)
  | clearRest
deriving DecidableEq

/-- `u16`. -/
def u16 (n : Nat) : Nat := n % 65536

/-- `a + b` on `u16`. -/
def add16 (a b : Nat) : R Nat := if a + b ≤ 65535 then .ok (a + b) else .error .overflow

namespace Tui
variable {T : Type}

/-- crossterm `KeyCode`: the keys known by tui.rs:36-48 and all the others. -/
inductive Code where
  | char (c : Char)
  | backspace | enter | esc | up | down | left | right
  | other
deriving DecidableEq

/-- crossterm `KeyEvent`. -/
structure Pressed where
  code : Code
  ctrl : Bool
  alt : Bool
  shift : Bool
deriving DecidableEq

/-- tui.rs:36-49. -/
def toKey : Code → Option Key
  | .char c => some (.char c)
  | .backspace => some .backspace
  | .enter => some .enter
  | .esc => some .escape
  | .up => some .up
  | .down => some .down
  | .left => some .left
  | .right => some .right
  | .other => none

/-- tui.rs:33-60 `ToKey::from`, for a key (the other events of the terminal are not sent to `handle_input`,
tui.rs:119-125). -/
def Pressed.event (p : Pressed) : Option KeyEvent :=
  (toKey p.code).map fun k => { ctrl := p.ctrl, alt := p.alt, shift := p.shift, key := k }

/-- tui.rs:194-197: the header of a buffer. -/
def header (width : Nat) (item : RemoteItem T) : R Str := do
  let coords := natStr item.start ++ [':'] ++ natStr item.stop
  let a ← subChecked width 5
  let b ← subChecked a item.buffer.byteLen
  let c ← subChecked b coords.byteLen
  return ['-', '['] ++ item.buffer ++ [']', '['] ++ coords ++ [']'] ++ Str.rep '-' c

/-- tui.rs:205-211: a line. -/
def lineRow (p : Paint T) (width : Nat) (line : T) : R Str :=
  let rendered := p.render line
  if p.textLen line > width then rendered.cut width else .ok rendered

/-- tui.rs:201-213: the lines of a lens; the flag tells that the loop has been left (`break 'outer`). -/
def lineRows (p : Paint T) (width height : Nat) : List T → Nat → List Str → R (Nat × List Str × Bool)
  | [], i, content => .ok (i, content, false)
  | line :: lines, i, content => do
    let last ← subChecked height 1
    if i = last then return (i, content, true)
    let row ← lineRow p width line
    let i ← add16 i 1
    lineRows p width height lines i (content ++ [row])

/-- tui.rs:200-214: the lenses of an item. -/
def lensRows (p : Paint T) (width height : Nat) : List (RemoteLens T) → Nat → List Str → R (Nat × List Str × Bool)
  | [], i, content => .ok (i, content, false)
  | lens :: lenses, i, content => do
    let (i, content, stop) ← lineRows p width height lens.lines i content
    if stop then return (i, content, true)
    lensRows p width height lenses i content

/-- tui.rs:193-215: the items of the view. -/
def itemRows (p : Paint T) (width height : Nat) : List (RemoteItem T) → Nat → List Str → R (List Str)
  | [], _, content => .ok content
  | item :: items, i, content => do
    let h ← header width item
    let i ← add16 i 1
    let (i, content, stop) ← lensRows p width height item.lenses i (content ++ [h])
    if stop then return content
    itemRows p width height items i content

/-- tui.rs:298-318: the text of the status line.  The subtraction of tui.rs:308 is the one of the code. -/
def statusText (p : Paint T) (width : Nat) (s : ConnectionState T) : R Str :=
  let echo := s.echo.getD p.blank
  let status := Str.join ['·'] (s.status.map fun i => p.plain i.2)
  if p.textLen echo ≥ width then .ok (p.render echo)
  else if p.textLen echo + status.byteLen ≥ width then do
    let a ← subChecked (p.textLen echo) width
    let rest ← status.skip (a + 1)
    return p.render echo ++ [' '] ++ rest
  else
    let padding := width - p.textLen echo - status.byteLen
    .ok (p.render echo ++ Str.rep ' ' padding ++ status)

/-- tui.rs:293-329 `draw_status`. -/
def drawStatus (p : Paint T) (width height : Nat) (s : ConnectionState T) : R (List Draw) := do
  let text ← statusText p width s
  return [.at 0 height true text]

/-- tui.rs:185-221 `draw_view`. -/
def drawView (p : Paint T) (width height : Nat) (s : ConnectionState T) : R (List Draw) := do
  let content ← itemRows p width height s.view 0 []
  let status ← drawStatus p width height s
  return [.clear, .at 0 0 false (Str.join ['\r', '\n'] content)] ++ status

/-- tui.rs:230-242: the lines of a hint. -/
def hintRows (p : Paint T) (height x : Nat) : List T → Nat → R (List Draw)
  | [], _ => .ok []
  | line :: lines, y => do
    let d := Draw.at x y true (p.render line)
    let y ← add16 y 1
    if y = height then return [d]
    let ds ← hintRows p height x lines y
    return d :: ds

/-- tui.rs:223-246 `draw_hint`. -/
def drawHint (p : Paint T) (width height : Nat) (hint : List T) : R (List Draw) := do
  let first ← indexR hint 0
  let x ← subChecked width (u16 (p.plain first).length)
  let y ← subChecked height (u16 hint.length)
  hintRows p height x hint y

/-- tui.rs:266-275: an entry. -/
def entryView (p : Paint T) (width : Nat) (e : RemoteEntry T) : R Str :=
  let item := p.renderMenu e.text
  if item.byteLen > width then item.cut width else .ok item

/-- tui.rs:262-287: the entries of a menu, the first one being number `i`. -/
def entryRows (p : Paint T) (width displaySize selected : Nat) : List (RemoteEntry T) → Nat → R (List Draw)
  | [], _ => .ok []
  | e :: es, i =>
    if i = displaySize then .ok []
    else do
      let view ← entryView p width e
      let y ← add16 1 (u16 i)
      let ds ← entryRows p width displaySize selected es (i + 1)
      return .at 0 y (decide (i = selected)) view :: .clearRest :: ds

/-- tui.rs:248-291 `draw_menu`. -/
def drawMenu (p : Paint T) (width height : Nat) (m : RemoteMenu T) : R (List Draw) := do
  let title := m.title ++ [':'] ++ m.search
  let padding ← subChecked width title.byteLen
  let displaySize ← subChecked height 1
  let ds ← entryRows p width displaySize m.selected m.entries 0
  return [.clear, .at 0 0 true (title ++ Str.rep ' ' padding)] ++ ds

/-- tui.rs:71-80 `enum Event`. -/
inductive Event (T : Type) where
  | drawHint (h : List T)
  | drawMenu (m : RemoteMenu T)
  | drawStatus
  | drawView
  | error (msg : Str)
  | input (k : Pressed)
  | resize (w h : Nat)

/-- tui.rs:82-86 `struct Term`. -/
structure Term (T : Type) where
  connection : Connection T
  exitPending : Bool
  width : Nat
  height : Nat

namespace Term

/-- tui.rs:89-101 `new`: a connection on which each file is asked for. -/
def new (width height : Nat) (files : List Str) : R (Term T) := do
  let c ← files.foldlM (fun c f => Connection.call c (.edit f false)) Connection.new
  return { connection := c, exitPending := false, width, height }

/-- A call of the connection. -/
def call (t : Term T) (x : Call) : R (Term T × List Draw) := do
  let c ← t.connection.call x
  return ({ t with connection := c }, [])

/-- The view, drawn after a change of the connection. -/
def view (p : Paint T) (t : Term T) (c : Connection T) : R (Term T × List Draw) := do
  let ds ← drawView p t.width t.height c.state
  return ({ t with connection := c }, ds)

/-- The menu, drawn after a change of the connection. -/
def menu (p : Paint T) (t : Term T) (c : Connection T) : R (Term T × List Draw) := do
  let m ← unwrapR c.state.menu
  let ds ← drawMenu p t.width t.height m
  return ({ t with connection := c }, ds)

/-- tui.rs:353-392: a key, while a menu is open. -/
def menuKey (p : Paint T) (t : Term T) (m : RemoteMenu T) (k : KeyEvent) : R (Term T × List Draw) :=
  match k.key with
  | .escape => view p t t.connection.menuCancel
  | .enter => do
    let c ← t.connection.menuSelect
    view p t c
  | .up => menu p t t.connection.menuPrevious
  | .down => do
    let c ← t.connection.menuNext
    menu p t c
  | .char c => t.call (.menu m.command (m.search ++ [c]))
  | .backspace => t.call (.menu m.command m.search.dropLast)
  | _ => .ok (t, [])

/-- tui.rs:394-437: a key, while no menu is open. -/
def plainKey (t : Term T) (k : KeyEvent) : R (Term T × List Draw) :=
  if k.key = .char 'q' ∧ k.alt then .ok ({ t with exitPending := true }, [])
  else if k.key = .char 'd' ∧ k.ctrl then t.call (.exec str!"editor:debug('coucou')")
  else if k.key = .char 'e' ∧ k.ctrl then t.call (.exec str!"editor:debug(undefined)")
  else if k.key = .char 'f' ∧ k.ctrl then t.call (.menu str!"open" [])
  else if k.key = .char 'p' ∧ k.ctrl then t.call (.menu [] [])
  else if k.key = .char 'v' ∧ k.ctrl then t.call (.menu str!"view_select" [])
  else if k.key = .char 'x' ∧ k.ctrl then .error .explicit
  else match k.key with
    | .char _ => t.call (.keys [k])
    | .escape => t.call (.keys [k])
    | _ => .ok (t, [])

/-- tui.rs:347-440 `handle_input`. -/
def handleInput (p : Paint T) (t : Term T) (k : Pressed) : R (Term T × List Draw) :=
  match k.event with
  | none => .ok (t, [])
  | some k =>
    match t.connection.state.menu with
    | some m => menuKey p t m k
    | none => plainKey t k

/-- tui.rs:331-341 `resize`. -/
def resize (p : Paint T) (t : Term T) (w h : Nat) : R (Term T × List Draw) :=
  if (t.width, t.height) ≠ (w, h) then do
    let t := { t with width := w, height := h }
    let ds ← match t.connection.state.menu with
      | some m => drawMenu p w h m
      | none => drawView p w h t.connection.state
    return (t, ds)
  else .ok (t, [])

/-- tui.rs:161-169: the treatment of one event by the main loop. -/
def treat (p : Paint T) (t : Term T) : Event T → R (Term T × List Draw)
  | .drawMenu m => do
    let ds ← Tui.drawMenu p t.width t.height m
    return (t, ds)
  | .drawView => do
    let ds ← Tui.drawView p t.width t.height t.connection.state
    return (t, ds)
  | .drawHint h => do
    let ds ← Tui.drawHint p t.width t.height h
    return (t, ds)
  | .drawStatus => do
    let ds ← Tui.drawStatus p t.width t.height t.connection.state
    return (t, ds)
  | .error msg => t.call (.exec (str!"editor:error(" ++ msg ++ str!")"))
  | .input k => t.handleInput p k
  | .resize w h => t.resize p w h

end Term

/-- tui.rs:143-151: the event sent to the main loop for a message; the text of an error of connection is a
parameter. -/
def eventOf (errText : Str) : ConnectionEvent T → Option (Event T)
  | .echo _ => some .drawView
  | .view _ => some .drawView
  | .hint h => some (.drawHint h)
  | .info _ _ => none
  | .menu m => some (.drawMenu m)
  | .status _ => some .drawStatus
  | .connErr => some (.error errText)
  | .noop => none

/-- tui.rs:103-175: the running program: the terminal, and the events that wait in the channel. -/
structure App (T : Type) where
  term : Term T
  queue : List (Event T)

/-- A step of one of the three tasks. -/
inductive Step where
  /-- tui.rs:140-152: a line of the server is read; the state of the connection follows at once -/
  | line (l : Str)
  /-- tui.rs:116-131: a key is pressed -/
  | key (k : Pressed)
  /-- tui.rs:123-125: the size changes -/
  | size (w h : Nat)
  /-- tui.rs:126-129: the events of the terminal cannot be read; the text of the error -/
  | fault (text : Str)
  /-- tui.rs:158-173: the main loop takes the next event -/
  | treat

/-- One step; the main loop does nothing once it is left, and waits when the channel is empty.  The bound of the channel
(100) only delays the other two tasks. -/
def App.step (o : Ornament T) (p : Paint T) (parse : Str → Option Json) (errText : Str → Str) (a : App T) :
    Step → R (App T × List Draw)
  | .line l =>
    let (c, ev) := a.term.connection.receive o parse l
    .ok ({ term := { a.term with connection := c }, queue := a.queue ++ (eventOf (errText l) ev).toList }, [])
  | .key k => .ok ({ a with queue := a.queue ++ [.input k] }, [])
  | .size w h => .ok ({ a with queue := a.queue ++ [.resize w h] }, [])
  | .fault text => .ok ({ a with queue := a.queue ++ [.error (str!"\"event read: " ++ text ++ str!"\"")] }, [])
  | .treat =>
    if a.term.exitPending then .ok (a, [])
    else match a.queue with
      | [] => .ok (a, [])
      | e :: q => do
        let (t, ds) ← a.term.treat p e
        return ({ term := t, queue := q }, ds)

/-- Steps, one after the other; the drawings are kept. -/
def App.run (o : Ornament T) (p : Paint T) (parse : Str → Option Json) (errText : Str → Str) :
    App T → List Step → R (App T × List Draw)
  | a, [] => .ok (a, [])
  | a, s :: ss => do
    let (a, ds) ← a.step o p parse errText s
    let (a, ds') ← App.run o p parse errText a ss
    return (a, ds ++ ds')

end Tui
end Ced
