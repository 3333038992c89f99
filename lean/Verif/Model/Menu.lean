import Verif.Model.Core
import Verif.Model.F32

/-!
# Model of `core/src/editor/menu.rs`

Positions in a label are counted in characters (the code counts bytes, always at character boundaries); the length of
a match is counted in bytes, as in the code.  The regular expression engine is a parameter.
-/

namespace Ced

/-- `regex::CaptureLocations`: the whole match, then the groups, each with its range if it took part. -/
abbrev Locations := List (Option (Nat × Nat))

/-- A compiled regular expression: the locations of the first match in a text, if any. -/
abbrev Regex := Str → Option Locations

/-- `Regex::new`: `none` for an invalid pattern. -/
abbrev Compile := Str → Option Regex

namespace Menu

/-- menu.rs:13-17 `struct Token`. -/
structure Token where
  text : Str
  isMatch : Bool
deriving DecidableEq, Repr

/-- The number of bytes of a text between two positions. -/
def byteSpan (text : Str) (a b : Nat) : Nat := (Str.encode ((text.take b).drop a)).length

/-- menu.rs:29-37 `compute_candidate_score`: the length `n` in bytes from the start of the match to the end of the last
group. -/
def scoreSpan (text : Str) (locs : Locations) : R Nat := do
  let first ← unwrapR (locs.headD none)
  let last ← unwrapR (locs.getLastD none)
  return byteSpan text first.1 last.2

/-- menu.rs:33: the score `100.0 / (1 + n) as f32` for the length `n`. -/
def score (n : Nat) : Nat := F32.hundredth (F32.ofNat (1 + n))

/-- menu.rs:39-44 `struct Candidate`; the length of the match is kept in place of the score; `span` is `some` exactly for a match (`score.is_some()`). -/
structure Candidate (T : Type) where
  object : T
  span : Option Nat
  locations : Locations

/-- menu.rs:47-57 `Candidate::new`; without a match no group has a location. -/
def Candidate.new {T : Type} (field : T → Str) (re : Regex) (x : T) : R (Candidate T) :=
  match re (field x) with
  | some locs => do
    let s ← scoreSpan (field x) locs
    return { object := x, span := some s, locations := locs }
  | none => .ok { object := x, span := none, locations := [] }

/-- `&text[a..b]` -/
def slice (text : Str) (a b : Nat) : R Str := sliceR text a b

/-- menu.rs:67-79: the loop over the groups; also the end of the last one. -/
def tokensFrom (text : Str) : Nat → Locations → R (List Token × Nat)
  | last, [] => .ok ([], last)
  | last, none :: gs => tokensFrom text last gs
  | last, some (a, b) :: gs => do
    let before ← slice text last a
    let inside ← slice text a b
    let (rest, e) ← tokensFrom text b gs
    return ({ text := before, isMatch := false } :: { text := inside, isMatch := true } :: rest, e)

/-- menu.rs:63-87 `tokenize`. -/
def tokenize (text : Str) (locs : Locations) : R (List Token) := do
  let (ts, last) ← tokensFrom text 0 locs.tail
  if last < text.length then
    let rest ← slice text last text.length
    return ts ++ [{ text := rest, isMatch := false }]
  else return ts

/-- `Option<f32>` comparison of scores: `a`'s is greater than `b`'s. -/
def scoreGreater : Option Nat → Option Nat → Bool
  | some a, some b => decide (b < a)
  | some _, none => true
  | none, _ => false

/-- menu.rs:102-110, 169: `b.cmp(a) != Greater`, i.e. `a` may stay before `b`. -/
def before {T : Type} (field : T → Str) (a b : Candidate T) : Bool :=
  if a.span.map score = b.span.map score then !strLt (field b.object) (field a.object)
  else scoreGreater (a.span.map score) (b.span.map score)

/-- Stable insertion. -/
def insert {T : Type} (field : T → Str) (c : Candidate T) : List (Candidate T) → List (Candidate T)
  | [] => [c]
  | d :: ds => if before field c d then c :: d :: ds else d :: insert field c ds

/-- `sort_by`: the stable sort, written as an insertion sort. -/
def sort {T : Type} (field : T → Str) : List (Candidate T) → List (Candidate T)
  | [] => []
  | c :: cs => insert field c (sort field cs)

/-- `str::split_whitespace`: the words of a text; `w` is the word being read. -/
def splitWords : Str → Str → List Str
  | [], w => if w = [] then [] else [w]
  | c :: s, w =>
    if isWhitespaceChar c then (if w = [] then splitWords s [] else w :: splitWords s [])
    else splitWords s (w ++ [c])

/-- `[String]::join`. -/
def join (sep : Str) : List Str → Str
  | [] => []
  | [a] => a
  | a :: l => a ++ sep ++ join sep l

/-- menu.rs:149-157: the pattern of a search. -/
def pattern (search : Str) : Str :=
  str!"(?i)" ++ join str!".*" ((splitWords search []).map fun e => ['('] ++ e ++ [')'])

/-- menu.rs:159-171 `filter`; an invalid pattern panics. -/
def filter {T : Type} (field : T → Str) (compile : Compile) (search : Str) (items : List T) : R (List (Candidate T)) := do
  let re ← unwrapR (compile (pattern search))
  let cs ← items.mapM (Candidate.new field re)
  return sort field cs

end Menu

/-- menu.rs:302, command.rs: the actions of the entries of ced's menus (function pointers in the code). -/
inductive MenuAction where
  | submenu
  | quit
  | viewDelete
  | edit
  | scratch
  | view
  | viewAdd
  | viewRemove
  | exec
deriving DecidableEq, Repr

/-- menu.rs:304-310 `struct MenuEntry`. -/
structure MenuEntry where
  key : Str
  label : Str
  description : Option Str
  action : MenuAction
deriving DecidableEq, Repr

/-- menu.rs:318, command.rs: the functions listing the entries. -/
inductive Provider where
  | commands
  | files
  | views
  | buffersAdd
  | buffersRemove
deriving DecidableEq, Repr

/-- menu.rs:320-324 `enum Source`. -/
inductive Source where
  | prompt (message : Str) (action : MenuAction)
  | provider (p : Provider)
deriving DecidableEq, Repr

/-- menu.rs:326-332 `struct Menu`. -/
structure MenuState where
  command : Str
  title : Str
  source : Source
  entries : List MenuEntry
deriving DecidableEq, Repr

/-- mod.rs:31-36 `struct EditorInfo`, with the files below the working directory (`ignore::Walk`, relative, those
with a readable name) in place of the directory. -/
structure EditorInfo where
  session : Str
  files : List Str
  buffers : List Str
  views : List Str

namespace MenuState

/-- menu.rs:335-342 `new`. -/
def new (command title : Str) (p : Provider) : MenuState :=
  { command := command, title := title, source := .provider p, entries := [] }

/-- menu.rs:344-351 `prompt`. -/
def prompt (command title message : Str) (a : MenuAction) : MenuState :=
  { command := command, title := title, source := .prompt message a, entries := [] }

/-- menu.rs:353-359 `is_prompt`. -/
def isPrompt (m : MenuState) : Bool :=
  match m.source with
  | .prompt _ _ => true
  | .provider _ => false

/-- command.rs:38-93 the entries of the menu of commands. -/
def commandEntries : List MenuEntry :=
  [⟨str!"open", str!"Open file", some str!"Open and read a new file.", .submenu⟩,
   ⟨str!"quit", str!"Quit", some str!"Quit the current client.", .quit⟩,
   ⟨str!"scratch", str!"New scratch", some str!"Create a new scratch buffer.", .submenu⟩,
   ⟨str!"view_select", str!"Change view", some str!"Select an existing view or create a new one.", .submenu⟩,
   ⟨str!"view_delete", str!"Delete view", some str!"Delete the current view.", .viewDelete⟩,
   ⟨str!"view_add", str!"Add to view", some str!"Add another buffer to the current view.", .submenu⟩,
   ⟨str!"view_remove", str!"Remove from the view.", some str!"Remove a buffer from the current view.", .submenu⟩,
   ⟨str!"exec", str!"Execute script.", some str!"Execute the lua script source.", .submenu⟩]

/-- An entry whose label is its key. -/
def plainEntry (a : MenuAction) (key : Str) : MenuEntry := { key := key, label := key, description := none, action := a }

/-- command.rs:37-222: the entries a provider lists. -/
def provide (info : EditorInfo) : Provider → List MenuEntry
  | .commands => commandEntries
  | .files => info.files.map (plainEntry .edit)
  | .views => (info.views ++ info.buffers.filter fun b => info.views.all (· ≠ (View.forBuffer b).key)).map (plainEntry .view)
  | .buffersAdd => info.buffers.map (plainEntry .viewAdd)
  | .buffersRemove => info.buffers.map (plainEntry .viewRemove)

/-- menu.rs:361-372 `populate`. -/
def populate (m : MenuState) (info : EditorInfo) : MenuState :=
  { m with entries := match m.source with
    | .prompt message action => [{ key := [], label := message, description := none, action := action }]
    | .provider p => provide info p }

/-- menu.rs:374-376 `get`. -/
def get (m : MenuState) (key : Str) : Option MenuEntry := m.entries.find? fun e => e.key = key

/-- menu.rs:405-417: the fragments of a candidate. -/
def fragments (ts : List Menu.Token) : List (Str × Face) :=
  ts.map fun t => (t.text, if t.isMatch then .match_ else .default)

/-- menu.rs:403-419: what is sent of a candidate. -/
def toEntry (c : Menu.Candidate MenuEntry) : R MenuParamsEntry := do
  let ts ← Menu.tokenize c.object.label c.locations
  return { value := c.object.key, text := fragments ts, description := c.object.description }

/-- menu.rs:383-428 `to_notification_params`. -/
def toNotificationParams (compile : Compile) (m : MenuState) (search : Str) : R Note := do
  let entries ← if m.isPrompt then
      pure (m.entries.map fun e => { value := e.key, text := [(e.label, .prompt)], description := e.description })
    else do
      let cs ← Menu.filter MenuEntry.label compile search m.entries
      (cs.filter fun c => c.span.isSome).mapM toEntry
  return .menu m.command m.title search entries

end MenuState

/-- command.rs:33-225 `default_commands`. -/
def defaultCommands : Assoc Str MenuState :=
  [([], .new [] str!"command" .commands),
   (str!"open", .new str!"open" str!"file" .files),
   (str!"scratch", .prompt str!"scratch" str!"scratch" str!"New scratch buffer name." .scratch),
   (str!"view_select", .new str!"view_select" str!"view" .views),
   (str!"view_add", .new str!"view_add" str!"buffer" .buffersAdd),
   (str!"view_remove", .new str!"view_remove" str!"buffer" .buffersRemove),
   (str!"exec", .prompt str!"exec" str!"lua" str!"Lua script source." .exec)]

end Ced
