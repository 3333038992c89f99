import Verif.Model.Diff

/-! # Model of `core/src/editor/buffer.rs` -/

namespace Ced

/-- Character strings (names, messages). -/
abbrev Str := List Char

/-- A path: its components. (`PathBuf`; the root is the empty list, all paths are absolute.) -/
abbrev Path := List Str

/-- A file on disk, as seen by `fs::metadata` and `File::open`. -/
structure DiskFile where
  content : Bytes
  mtime : Nat
deriving DecidableEq, Repr

/-- The file system (parameter of the model): the readable regular files. -/
abbrev FileSystem := Path → Option DiskFile

/-- buffer.rs:38-42 `enum BufferSource`. -/
inductive BufferSource where
  | scratch (name : Str)
  | file (path : Path)
deriving DecidableEq, Repr

/-- buffer.rs:59-64 `struct Buffer`. -/
structure Buffer where
  source : BufferSource
  content : PieceTable
  lastSync : Option Nat
  modified : Bool
deriving DecidableEq, Repr

/-- `File::read_to_string(..).expect("read file")`: panics on invalid UTF-8, i.e. when lossy decoding changes
something. -/
def readToString (f : DiskFile) : R Bytes :=
  if utf8Lossy f.content = f.content then .ok f.content else .error .unwrap

namespace Buffer

/-- buffer.rs:67-79 `new_scratch`. -/
def newScratch (name : Str) (content : Bytes) : Buffer where
  source := .scratch name
  content := PieceTable.withText (if content = [] then [NL] else content)
  lastSync := none
  modified := false

/-- buffer.rs:81-105 `new_file`, for an absolute path (the canonicalisation of relative ones is external).
`now` is the clock after reading. -/
def newFile (fs : FileSystem) (now : Nat) (path : Path) : R Buffer := do
  let f ← unwrapR (fs path)
  let content ← readToString f
  let content := if content.getLast? = some NL then content else content ++ [NL]
  return { source := .file path, content := PieceTable.withText content, lastSync := some now, modified := false }

/-- buffer.rs:123-142 `is_synced`. -/
def isSynced (fs : FileSystem) (b : Buffer) : Bool :=
  match b.source with
  | .scratch _ => true
  | .file path =>
    match b.lastSync, fs path with
    | some dt, some f => f.mtime < dt
    | _, _ => false

/-- buffer.rs:144-161 `load_from_disk`. -/
def loadFromDisk (hs : Nat → StaleHandle) (fs : FileSystem) (now : Nat) (b : Buffer) : R (Buffer × Bool) :=
  match b.source with
  | .scratch _ => .ok (b, true)
  | .file path =>
    if b.isSynced fs then .ok (b, false)
    else do
      let f ← unwrapR (fs path)
      let content ← readToString f
      let t ← b.content.applyDiff hs content
      return ({ b with content := t, lastSync := some now }, true)

/-- buffer.rs:163-166 `append`. -/
def append (b : Buffer) (text : Bytes) : Buffer :=
  { b with content := b.content.append text, modified := true }

end Buffer
end Ced
