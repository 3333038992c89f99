import Verif.Model.Server
import Verif.Spec.Unicode

/-! # What searching a menu means -/

namespace Ced.Spec

/-- The length of a match, in bytes: from its start to the end of its last group. -/
def MatchLength (re : Regex) (label : Str) (n : Nat) : Prop :=
  ∃ locs a a' b b', re label = some locs ∧ locs.head? = some (some (a, a')) ∧ locs.getLast? = some (some (b', b)) ∧
    n = (Str.encode ((label.take b).drop a)).length

/-- `a` is shown before `b`: its match is shorter, or as long and its label is not after that of `b`; nothing is said when one of
the matches is eight million bytes long or longer. -/
def ShownBefore (re : Regex) (a b : MenuEntry) : Prop :=
  ∃ n m, MatchLength re a.label n ∧ MatchLength re b.label m ∧
    (n < 2 ^ 23 → m < 2 ^ 23 → n < m ∨ (n = m ∧ strLt b.label a.label = false))

/-- Ranges of a text of length `len`, in order and disjoint, starting at `from`; those of groups that took no part are
`none`. -/
def InOrderFrom (len : Nat) : Nat → Locations → Prop
  | start, [] => start ≤ len
  | start, none :: gs => InOrderFrom len start gs
  | start, some (a, b) :: gs => start ≤ a ∧ a ≤ b ∧ InOrderFrom len b gs

/-- The positions of a text in one of these ranges. -/
def Inside (locs : Locations) (i : Nat) : Bool :=
  locs.any fun g => match g with | some (a, b) => decide (a ≤ i ∧ i < b) | none => false

/-- The characters of a text with their emphasis, as spelled by its fragments. -/
def spelled (ts : List Menu.Token) : List (Char × Bool) := ts.flatMap fun t => t.text.map fun c => (c, t.isMatch)

/-- The characters of a text, those in the ranges being emphasised. -/
def emphasised (text : Str) (locs : Locations) : List (Char × Bool) :=
  (List.range text.length).zipWith (fun i c => (c, Inside locs i)) text

/-- Two texts are the same but for the case; `same` says when two characters are. -/
def SameBut (same : Char → Char → Bool) : Str → Str → Prop
  | [], [] => True
  | a :: as, b :: bs => same a b = true ∧ SameBut same as bs
  | _, _ => False

/-- The words occur in the text in order, without overlap, the text between them being on one line; `WordsAt` is the
same when the first word is at the start of the text. -/
def WordsAt (same : Char → Char → Bool) : List Str → Str → Prop
  | [], _ => True
  | w :: ws, s => ∃ x rest, s = x ++ rest ∧ SameBut same w x ∧
      (ws = [] ∨ ∃ gap rest', rest = gap ++ rest' ∧ '\n' ∉ gap ∧ WordsAt same ws rest')

def WordsInOrder (same : Char → Char → Bool) (ws : List Str) (s : Str) : Prop :=
  ∃ before rest, s = before ++ rest ∧ WordsAt same ws rest

/-- A plain word: it is not empty, holds no white space and nothing that has a meaning in a pattern. -/
def PlainWord (w : Str) : Prop :=
  w ≠ [] ∧ ∀ c ∈ w, white c = false ∧ c ∉ str!"\\.+*?()|[]{}^$"

/-- So many letters are searched at most: the crate `regex` refuses patterns whose compiled form takes more than 10 MiB, which
those of so many letters do not reach. -/
def searchLimit : Nat := 1000

/-- Plain words, not more of them than can be searched. -/
def PlainWords (ws : List Str) : Prop := (∀ w ∈ ws, PlainWord w) ∧ (ws.map List.length).sum ≤ searchLimit

/-! ## Choosing -/

/-- The menus reached from the menu of commands. -/
def submenus : List Str :=
  [str!"open", str!"scratch", str!"view_select", str!"view_add", str!"view_remove", str!"exec"]

/-- The request that choosing `choice` in the menu `command` amounts to. -/
def selectCall (command choice : Str) : Option Call :=
  if command = [] then
    if choice ∈ submenus then some (.menu choice [])
    else if choice = str!"quit" then some .quit
    else if choice = str!"view_delete" then some .viewDelete
    else none
  else if command = str!"open" then some (.edit choice false)
  else if command = str!"scratch" then some (.edit choice true)
  else if command = str!"view_select" then some (.view choice)
  else if command = str!"view_add" then some (.viewAdd choice)
  else if command = str!"view_remove" then some (.viewRemove choice)
  else if command = str!"exec" then some (.exec choice)
  else none

/-- The choices of a menu that is listed now: the commands; the files; the views, and the buffers without a view of
their own; the buffers; anything for the two prompts. -/
def Offers {L : Type} (env : EditorEnv L) (e : Editor L) (command choice : Str) : Prop :=
  (command = [] ∧ (choice ∈ submenus ∨ choice = str!"quit" ∨ choice = str!"view_delete")) ∨
  (command = str!"open" ∧ choice ∈ env.files e.core.cwd) ∨
  (command = str!"view_select" ∧ (e.core.views.map.has choice = true ∨
    (e.core.buffers.has choice = true ∧ e.core.views.map.has (View.forBuffer choice).key = false))) ∨
  (command ∈ [str!"view_add", str!"view_remove"] ∧ e.core.buffers.has choice = true) ∨
  command ∈ [str!"scratch", str!"exec"]

/-- The commands: value, label, description. -/
def palette : List (Str × Str × Option Str) :=
  [(str!"open", str!"Open file", some str!"Open and read a new file."),
   (str!"quit", str!"Quit", some str!"Quit the current client."),
   (str!"scratch", str!"New scratch", some str!"Create a new scratch buffer."),
   (str!"view_select", str!"Change view", some str!"Select an existing view or create a new one."),
   (str!"view_delete", str!"Delete view", some str!"Delete the current view."),
   (str!"view_add", str!"Add to view", some str!"Add another buffer to the current view."),
   (str!"view_remove", str!"Remove from the view.", some str!"Remove a buffer from the current view."),
   (str!"exec", str!"Execute script.", some str!"Execute the lua script source.")]

/-- The titles of the menus. -/
def menuTitles : List (Str × Str) :=
  [([], str!"command"), (str!"open", str!"file"), (str!"scratch", str!"scratch"), (str!"view_select", str!"view"),
   (str!"view_add", str!"buffer"), (str!"view_remove", str!"buffer"), (str!"exec", str!"lua")]

/-- What a menu that is listed shows, in some order (value, label, description): the commands; the files; the views, and
the buffers without a view of their own; the buffers; the message of a prompt. -/
def menuRows {L : Type} (env : EditorEnv L) (e : Editor L) (command : Str) : List (Str × Str × Option Str) :=
  if command = [] then palette
  else if command = str!"open" then (env.files e.core.cwd).map fun f => (f, f, none)
  else if command = str!"scratch" then [([], str!"New scratch buffer name.", none)]
  else if command = str!"exec" then [([], str!"Lua script source.", none)]
  else if command = str!"view_select" then
    (e.core.views.map.keys ++ e.core.buffers.keys.filter fun b => !e.core.views.map.has (View.forBuffer b).key).map
      fun k => (k, k, none)
  else e.core.buffers.keys.map fun b => (b, b, none)

end Ced.Spec
