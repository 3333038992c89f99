import Verif.Model.Connection
import Verif.Spec.JsonText

/-! # What a connection shows -/

namespace Ced.Spec
variable {T : Type}

/-- The contract of the crate of decorated texts: what is written is read back, is not `null`, and is a value that
`serde_json` reads as it is written. -/
structure OrnamentOk (o : Ornament T) : Prop where
  back : ∀ t, o.decode (o.encode t) = some t
  some_ : ∀ t, o.encode t ≠ .null
  plain : ∀ t, JsonText.Plain 100 (o.encode t)

/-- The numbers of a notification are numbers of the machine (`usize`, `isize`), as those of the program are. -/
def Fits : Note → Prop
  | .view items => ∀ i ∈ items, i.start < 2 ^ 64 ∧ i.stop < 2 ^ 64 ∧ ∀ l ∈ i.lenses, l.firstLineNum < 2 ^ 64
  | .status items => ∀ i ∈ items, -2 ^ 63 ≤ i.1 ∧ i.1 < 2 ^ 63
  | _ => True

/-- A lens, with its lines decorated. -/
def seenLens (o : Ornament T) (l : ViewParamsLens) : RemoteLens T :=
  { lines := l.lines.map o.decorated, firstLineNum := l.firstLineNum }

/-- A buffer of a view, with its lines decorated. -/
def seenItem (o : Ornament T) (i : ViewParamsItem) : RemoteItem T :=
  { buffer := i.buffer, start := i.start, stop := i.stop, lenses := i.lenses.map (seenLens o) }

/-- An entry of a menu. -/
def seenEntry (o : Ornament T) (e : MenuParamsEntry) : RemoteEntry T :=
  { value := e.value, text := o.fragments e.text, description := e.description }

/-- The last of the notifications of some kind. -/
def lastOf {α : Type} (f : Note → Option α) (l : List Note) : Option α := l.reverse.findSome? f

/-- A view. -/
def viewOf : Note → Option (List ViewParamsItem) | .view items => some items | _ => none
/-- A status. -/
def statusOf : Note → Option (List (Int × Str)) | .status items => some items | _ => none
/-- The identity of a client. -/
def infoOf : Note → Option (Str × Str) | .info c s _ => some (c, s) | _ => none
/-- A message, or a menu, which hides messages. -/
def echoOf (o : Ornament T) : Note → Option (Option T)
  | .echo t f => some (some (o.faced t f))
  | .menu _ _ _ _ => some none
  | _ => none

/-- The notifications of what was written. -/
def notesOf (ws : List Wire) : List Note := ws.filterMap fun w => match w with | .note n => some n | .response _ => none

/-- The lines read in these steps of a client. -/
def linesOf (steps : List Connection.Step) : List Str := steps.filterMap fun s => match s with | .line l => some l | _ => none

/-- The requests made in these steps of a client, apart from the choices in a menu. -/
def callsOf (steps : List Connection.Step) : List Call := steps.filterMap fun s => match s with | .call x => some x | _ => none

/-- The state of a connection is what the notifications say: the last view, the last status, the last name of the client
and of the session; the last message, unless a menu came after it. -/
structure Mirrors (o : Ornament T) (notes : List Note) (s : ConnectionState T) : Prop where
  view : s.view = ((lastOf viewOf notes).getD []).map (seenItem o)
  status : s.status = ((lastOf statusOf notes).getD []).map
    (fun i => (i.1, o.faced i.2 .default))
  info : (s.client, s.session) = (lastOf infoOf notes).getD ([], [])
  echo : s.echo = (lastOf (echoOf o) notes).getD none

/-- A menu as it is just after it was received. -/
def seenMenu (o : Ornament T) (command title search : Str) (entries : List MenuParamsEntry) : RemoteMenu T :=
  { command := command, title := title, search := search, entries := entries.map (seenEntry o), selected := 0 }

end Ced.Spec

namespace Ced.Spec
variable {T : Type}

/-- What was written to a client, in order. -/
def wiresTo (c : Nat) (written : List (Nat × Wire)) : List Wire :=
  written.filterMap fun x => if x.1 = c then some x.2 else none

/-- The name of a face. -/
def faceName : Face → Str
  | .default => str!"Default"
  | .error => str!"Error"
  | .match_ => str!"Match"
  | .prompt => str!"Prompt"

/-- The face of a name. -/
def faceOf (s : Str) : Option Face :=
  [Face.default, .error, .match_, .prompt].find? fun f => faceName f = s

/-- Texts that are lists of fragments, for the examples (the selected parts are not marked). -/
def fragmentTexts : Ornament (List (Str × Face)) where
  faced s f := [(s, f)]
  fragments := id
  decorated l := [(l.text.map fun b => Char.ofNat b.toNat, .default)]
  encode t := .arr (t.map fun x => .arr [.str x.1, .str (faceName x.2)])
  decode
    | .arr l => l.mapM fun j => match j with
      | .arr [.str s, .str f] => (faceOf f).map fun f => (s, f)
      | _ => none
    | _ => none

end Ced.Spec
