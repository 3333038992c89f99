import Verif.Props.CoreDelete
import Verif.Spec.Tui

/-! # Requests that cannot crash the editor (C30, C77) -/

namespace Ced.Spec
open Props

/-- Closing the view `v` works: if it shows the debug log, then everything it shows besides the log is shown by another
view too; and there is another view to fall back to, or a scratch buffer that `v` does not show. -/
def Closable (w : World) (v : View) : Prop :=
  (BUFFER_DEBUG ∈ v.buffers → ∀ b ∈ v.buffers, b ≠ BUFFER_DEBUG → ShownElsewhere w v b) ∧
  ((∃ k v', w.views.map.get k = some v' ∧ v' ≠ v) ∨
    (w.buffers.has BUFFER_SCRATCH = true ∧ BUFFER_SCRATCH ∉ v.buffers))

/-- The offset `o` of `s` is on an empty line. -/
def OnEmptyLine (s : Bytes) (o : Nat) : Prop := ∃ n pre suf, LineAt s n pre [] suf ∧ o = pre.length

/-- No client has a selection in the buffer `n` that is not inside the text `s`. -/
def SelectionsFit (w : World) (n : Str) (s : Bytes) : Prop :=
  ∀ c ctx k m ss, w.clients.map.get c = some ctx → ctx.selections.get k = some m → m.get n = some ss →
    ∀ sel ∈ ss, Inside s sel

/-- A client has no selections, under the identifier of a view, in buffers which that view does not show (`view-remove`
leaves such selections behind). -/
def NoLeftover (ctx : ClientContext) (v : View) : Prop :=
  ∀ m n, ctx.selections.get v.key = some m → m.has n = true → n ∈ v.buffers

/-- The name of a buffer that causes no trouble: ASCII, without `{` (see C26). -/
def PlainName (n : Str) : Prop := AsciiStr n ∧ '{' ∉ n

/-- The text of a buffer that causes no trouble: ASCII, ended by a newline. -/
def PlainBytes (s : Bytes) : Prop := Ascii s ∧ EndsWithNewline s

/-- Requests that do not crash the editor in the state `w`. -/
def Safe (env : Env) (w : World) : CoreOp → Prop
  -- a client joins an editor without clients only if it has a single view (see C36)
  | .join _ _ => w.clients.stack = [] → w.views.map.length = 1
  | .leave _ => True
  -- a new file exists and is ASCII; re-reading an open file works (see C12) and leaves the selections inside
  | .edit c name scratch => w.clients.map.has c = true ∧ PlainName name ∧
      (scratch = false →
        (w.buffers.get name = none → ∃ f, env.fs (env.resolve w.cwd name) = some f ∧ Ascii f.content) ∧
        (∀ b, w.buffers.get name = some b → ∃ b' r s, b.loadFromDisk env.stale env.fs env.now = .ok (b', r) ∧
          Shows b'.content s ∧ PlainBytes s ∧ SelectionsFit w name s))
  | .scratch c name content => w.clients.map.has c = true ∧ PlainName name ∧
      ((content = [] ∧ SelectionsFit w name [NL]) ∨ (PlainBytes content ∧ SelectionsFit w name content))
  -- not by the name of a buffer (see C31)
  | .view c id => w.clients.map.has c = true ∧ (w.views.map.has id = true ∨ w.buffers.has id = false)
  | .viewDelete c => ∃ ctx, w.clients.map.get c = some ctx ∧ Closable w ctx.view
  | .viewAdd c _ => ∃ ctx, w.clients.map.get c = some ctx ∧
      ∀ d x, w.clients.map.get d = some x → NoLeftover x ctx.view
  -- the last buffer of a view: as closing it; another one: if the view shows the log, another view shows the buffer
  | .viewRemove c b => ∃ ctx, w.clients.map.get c = some ctx ∧
      (ctx.view.buffers = [b] → Closable w ctx.view) ∧
      (b ∈ ctx.view.buffers → ctx.view.buffers ≠ [b] → BUFFER_DEBUG ∈ ctx.view.buffers → b ≠ BUFFER_DEBUG →
        ShownElsewhere w ctx.view b)
  -- not to the end of an empty line (see C20)
  | .move c dir _ => ∃ ctx, w.clients.map.get c = some ctx ∧ NoLeftover ctx ctx.view ∧
      (dir = .lineEnd → ∀ m n ss sel b s, ctx.selections.get ctx.view.key = some m → m.get n = some ss → sel ∈ ss →
        w.buffers.get n = some b → Shows b.content s → OnEmptyLine s sel.cursor → s.length = 1)
  -- the final newline of a text is not selected, unless the whole text is; the other selections stay inside the text
  | .deleteSelection c => ∃ ctx, w.clients.map.get c = some ctx ∧ NoLeftover ctx ctx.view ∧
      ∀ m n sel b s, ctx.selections.get ctx.view.key = some m → m.get n = some [sel] → w.buffers.get n = some b →
        Shows b.content s →
        (hi sel + 1 < s.length ∨ lo sel = 0) ∧
        ∀ d x k m' ss, w.clients.map.get d = some x → x.selections.get k = some m' → ¬ (d = c ∧ k = ctx.view.key) →
          m'.get n = some ss → ∀ sel' ∈ ss, Inside (remaining s sel) sel'
  | .append b x xs => PlainName b ∧ PlainBytes (x :: xs)
  | .debug text => AsciiStr text
  | .message _ text => AsciiStr text
  | .error _ tag text => AsciiStr tag ∧ AsciiStr text
  | .notify _ _ => True

/-- The states reached from the start by safe requests; the files, the clock and the rest of the environment may change at
any time. -/
inductive SafeHistory : World → Prop
  | start {env : Env} {cwd : Path} {args cwdText : Str} {w : World} (hseg : IsSegmentation env.seg) (ha : AsciiStr args) (hc : AsciiStr cwdText)
      (h : World.start env cwd args cwdText = .ok w) : SafeHistory w
  | step {env : Env} {w w' : World} {op : CoreOp} (r : SafeHistory w) (hs : Safe env w op)
      (hseg : IsSegmentation env.seg) (hf : ∀ i, (env.stale i).follows = true) (h : op.run env w = .ok w') : SafeHistory w'

end Ced.Spec
