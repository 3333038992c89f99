import Verif.Spec.Calm
import Verif.Spec.Showing

/-! # Requests that cannot crash the editor, in texts of any characters (C95) -/

namespace Ced.Spec
open Props

/-- A selection whose last end is at the offset `b` of `s` can be drawn, and can still be drawn after lines have been appended
to `s`.  Inside a line after the first, this is so at every offset; on the first line, and on the newline of every line, only
at the offsets that are at most the number of grapheme clusters of the line. -/
def Drawable (seg : Segmentation) (s : Bytes) (b : Nat) : Prop :=
  ∃ n pre line suf, LineAt s n pre line suf ∧ pre.length ≤ b ∧ b ≤ pre.length + line.length ∧
    ((n ≠ 1 ∧ b < pre.length + line.length) ∨ b - pre.length < (seg line).length ∨
     -- at the number itself: not on the last line, unless this is its newline
     (b - pre.length = (seg line).length ∧ (suf ≠ [NL] ∨ b = pre.length + line.length)))

/-- The ends of a selection are in the text, and the last one where it can be drawn. -/
def Placed (seg : Segmentation) (s : Bytes) (sel : Selection) : Prop :=
  sel.anchor < s.length ∧ sel.cursor < s.length ∧ Drawable seg s (max sel.anchor sel.cursor)

/-- All the selections in the buffer `n` are placed in the text `s`. -/
def AllPlaced (seg : Segmentation) (w : World) (n : Str) (s : Bytes) : Prop :=
  ∀ c ctx k m ss, w.clients.map.get c = some ctx → ctx.selections.get k = some m → m.get n = some ss →
    ∀ sel ∈ ss, Placed seg s sel

/-- The selection covers the bytes from `a` to before `e` of `s`: to before where a motion to the right from its last end would
put the cursor, or to the end of the text. -/
def Spans (seg : Segmentation) (s : Bytes) (sel : Selection) (a e : Nat) : Prop :=
  a = min sel.anchor sel.cursor ∧
  (max sel.anchor sel.cursor + 1 = s.length ∧ e = s.length ∨
   max sel.anchor sel.cursor + 1 < s.length ∧ ∃ c m n w, ReadAs seg s (max sel.anchor sel.cursor) m c ∧
    Headed seg s (max sel.anchor sel.cursor) c .right n w ∧ LandsOn seg s n w e ∧ e < s.length)

/-- What is left of a text without the bytes from `a` to before `e`: never nothing. -/
def without (s : Bytes) (a e : Nat) : Bytes := if a = 0 ∧ e = s.length then [NL] else s.take a ++ s.drop e

/-- Requests that do not crash the editor in the state `w`, whatever the characters of the texts, of the names and of the
messages. -/
def SafeAny (env : Env) (w : World) : CoreOp → Prop
  | .join _ _ => w.clients.stack = [] → w.views.map.length = 1
  | .leave _ => True
  -- a new file exists and is text; re-reading an open file works (see C12), and leaves a final newline and the selections placed
  | .edit c name scratch => w.clients.map.has c = true ∧ '{' ∉ name ∧
      (scratch = false →
        (w.buffers.get name = none → ∃ f, env.fs (env.resolve w.cwd name) = some f ∧ IsText f.content) ∧
        (∀ b, w.buffers.get name = some b → ∃ b' r s, b.loadFromDisk env.stale env.fs env.now = .ok (b', r) ∧
          Shows b'.content s ∧ EndsWithNewline s ∧ AllPlaced env.seg w name s))
  | .scratch c name content => w.clients.map.has c = true ∧ '{' ∉ name ∧
      ((content = [] ∧ AllPlaced env.seg w name [NL]) ∨ (EndsWithNewline content ∧ AllPlaced env.seg w name content))
  | .view c id => w.clients.map.has c = true ∧ (w.views.map.has id = true ∨ w.buffers.has id = false)
  | .viewDelete c => ∃ ctx, w.clients.map.get c = some ctx ∧ Closable w ctx.view
  | .viewAdd c _ => ∃ ctx, w.clients.map.get c = some ctx ∧
      ∀ d x, w.clients.map.get d = some x → NoLeftover x ctx.view
  | .viewRemove c b => ∃ ctx, w.clients.map.get c = some ctx ∧
      (ctx.view.buffers = [b] → Closable w ctx.view) ∧
      (b ∈ ctx.view.buffers → ctx.view.buffers ≠ [b] → BUFFER_DEBUG ∈ ctx.view.buffers → b ≠ BUFFER_DEBUG →
        ShownElsewhere w ctx.view b)
  -- each cursor of the view can move, to where the selection can be drawn
  | .move c dir ext => ∃ ctx, w.clients.map.get c = some ctx ∧ NoLeftover ctx ctx.view ∧
      ∀ m n ss sel b s, ctx.selections.get ctx.view.key = some m → m.get n = some ss → sel ∈ ss →
        w.buffers.get n = some b → Shows b.content s →
        s.length = 1 ∨ ∃ i k o, Headed env.seg s sel.cursor sel.targetCol dir i k ∧ LandsOn env.seg s i k o ∧
          Drawable env.seg s (max (if ext then sel.anchor else o) o)
  -- something is deleted, and not the final newline unless the deletion begins at the start; the selections stay placed
  | .deleteSelection c => ∃ ctx, w.clients.map.get c = some ctx ∧ NoLeftover ctx ctx.view ∧
      ∀ m n sel b s, ctx.selections.get ctx.view.key = some m → m.get n = some [sel] → w.buffers.get n = some b →
        Shows b.content s →
        ∃ a e, Spans env.seg s sel a e ∧ a < e ∧ (e < s.length ∨ a = 0) ∧
          Placed env.seg (without s a e) (sel.clampTo ((without s a e).length - 1)) ∧
          ∀ d x k m' ss, w.clients.map.get d = some x → x.selections.get k = some m' → ¬ (d = c ∧ k = ctx.view.key) →
            m'.get n = some ss → ∀ sel' ∈ ss, Placed env.seg (without s a e) sel'
  | .append b x xs => '{' ∉ b ∧ EndsWithNewline (x :: xs)
  | .debug _ => True
  | .message _ _ => True
  | .error _ _ _ => True
  | .notify _ _ => True

/-- The states reached from the start by safe requests, the lines being divided into grapheme clusters by `seg`; the files,
the clock and the rest of the environment may change at any time. -/
inductive AnyCharsHistory (seg : Segmentation) : World → Prop
  | start {env : Env} {cwd : Path} {args cwdText : Str} {w : World} (hs : env.seg = seg)
      (h : World.start env cwd args cwdText = .ok w) : AnyCharsHistory seg w
  | step {env : Env} {w w' : World} {op : CoreOp} (r : AnyCharsHistory seg w) (hs : SafeAny env w op)
      (he : env.seg = seg) (hf : ∀ i, (env.stale i).follows = true) (h : op.run env w = .ok w') : AnyCharsHistory seg w'

/-- Requests that do not crash the editor in the state `w` if no cursor has been moved and nothing deleted so far: no
condition is on where the selections are. -/
def SafeStill (env : Env) (w : World) : CoreOp → Prop
  | .join _ _ => w.clients.stack = [] → w.views.map.length = 1
  | .leave _ => True
  | .edit c name scratch => w.clients.map.has c = true ∧ '{' ∉ name ∧
      (scratch = false →
        (w.buffers.get name = none → ∃ f, env.fs (env.resolve w.cwd name) = some f ∧ IsText f.content) ∧
        (∀ b, w.buffers.get name = some b → ∃ b' r s, b.loadFromDisk env.stale env.fs env.now = .ok (b', r) ∧
          Shows b'.content s ∧ EndsWithNewline s))
  | .scratch c name content => w.clients.map.has c = true ∧ '{' ∉ name ∧ (content = [] ∨ EndsWithNewline content)
  | .view c id => w.clients.map.has c = true ∧ (w.views.map.has id = true ∨ w.buffers.has id = false)
  | .viewDelete c => ∃ ctx, w.clients.map.get c = some ctx ∧ Closable w ctx.view
  | .viewAdd c _ => ∃ ctx, w.clients.map.get c = some ctx ∧
      ∀ d x, w.clients.map.get d = some x → NoLeftover x ctx.view
  | .viewRemove c b => ∃ ctx, w.clients.map.get c = some ctx ∧
      (ctx.view.buffers = [b] → Closable w ctx.view) ∧
      (b ∈ ctx.view.buffers → ctx.view.buffers ≠ [b] → BUFFER_DEBUG ∈ ctx.view.buffers → b ≠ BUFFER_DEBUG →
        ShownElsewhere w ctx.view b)
  | .move _ _ _ => False
  | .deleteSelection _ => False
  | .append b x xs => '{' ∉ b ∧ EndsWithNewline (x :: xs)
  | .debug _ => True
  | .message _ _ => True
  | .error _ _ _ => True
  | .notify _ _ => True

/-- The states reached from the start by such requests; even the division into grapheme clusters may change. -/
inductive StillHistory : World → Prop
  | start {env : Env} {cwd : Path} {args cwdText : Str} {w : World} (hseg : IsSegmentation env.seg)
      (h : World.start env cwd args cwdText = .ok w) : StillHistory w
  | step {env : Env} {w w' : World} {op : CoreOp} (r : StillHistory w) (hs : SafeStill env w op)
      (hseg : IsSegmentation env.seg) (hf : ∀ i, (env.stale i).follows = true) (h : op.run env w = .ok w') : StillHistory w'

end Ced.Spec
