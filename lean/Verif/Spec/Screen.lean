import Verif.Spec.Core

/-! # What is on the screen of a client -/

namespace Ced.Spec

/-- A message is for a client. -/
def isFor (c : Nat) (b : Broadcast) : Bool := match b.only with
  | none => true
  | some ids => ids.contains c

/-- What is on the screen of a client after some messages: the last view it was sent. -/
def screen (c : Nat) (out : List Broadcast) : Option (List ViewParamsItem) :=
  (out.reverse.find? fun b => isFor c b && match b.note with | .view _ => true | _ => false).bind fun b =>
    match b.note with | .view items => some items | _ => none

/-- The screen of a client shows the present state of its view. -/
def UpToDate (env : Env) (w : World) (c : Nat) : Prop :=
  ∃ items, screen c w.out = some items ∧ w.viewParams env c = .ok (c, items)

/-- The client sees the buffer. -/
def Sees (w : World) (c : Nat) (name : Str) : Prop :=
  ∃ ctx, w.clients.map.get c = some ctx ∧ name ∈ ctx.view.buffers

/-- The client has selections in the buffer, under its view (its commands change this buffer). -/
def SelectsIn (w : World) (c : Nat) (name : Str) : Prop :=
  ∃ ctx sels, w.clients.map.get c = some ctx ∧ ctx.selections.get ctx.view.key = some sels ∧ sels.has name = true

/-- The view of the client with a change. -/
def Changed (w : World) (c : Nat) (f : View → View) (k : Str) : Prop :=
  ∃ ctx, w.clients.map.get c = some ctx ∧ (f ctx.view).key = k

/-- The operation does not leave the client `c` with an outdated screen.  The operations that may: joining and leaving,
replacing the text of a buffer it sees by a new scratch buffer of another client, an addition to (or removal from) the
view of another client which makes it the view of `c`, and deleting the selection of another client in a buffer `c`
sees (or, for its own selections, in an empty buffer). -/
def Tells (w : World) (c : Nat) : CoreOp → Prop
  | .join id _ => c ≠ id
  | .leave id => c ≠ id
  | .scratch d name _ => c = d ∨ ¬ Sees w c name
  | .viewAdd d b => ∀ ctx, w.clients.map.get c = some ctx → ¬ Changed w d (fun v => v.addLens b .whole) ctx.view.key ∨
      Changed w d id ctx.view.key
  | .viewRemove d b => ∀ ctx, w.clients.map.get c = some ctx → ¬ Changed w d (fun v => v.removeLensGroup b) ctx.view.key ∨
      Changed w d id ctx.view.key
  | .deleteSelection d => ∀ name, SelectsIn w d name → Sees w c name →
      c = d ∧ ∀ b, w.buffers.get name = some b → b.content.isEmpty = false
  | .notify _ note => ∀ items, note ≠ .view items
  | _ => True

end Ced.Spec

namespace Ced.Spec

/-- Operations one after the other, each of which is ordinary and tells the client; files, clock and the rest of the
environment may change between them, the segmentation of text into characters does not. -/
inductive TellingRun (seg : Segmentation) (c : Nat) : World → World → Prop
  | none (w : World) : TellingRun seg c w w
  | next {env : Env} {w w1 w' : World} {op : CoreOp} (hseg : env.seg = seg) (hf : ∀ i, (env.stale i).follows = true)
      (ho : Ordinary w op) (ht : Tells w c op) (h : op.run env w = .ok w1) (r : TellingRun seg c w1 w') : TellingRun seg c w w'

end Ced.Spec
