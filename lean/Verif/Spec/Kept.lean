import Verif.Spec.Core

/-! # What a client had selected when it last saw a view (C92) -/

namespace Ced.Spec

/-- The selections of client `d` in the view with identifier `k` are subject to the operation: they are moved or shrunk at the
request of `d` itself, or the view is the one which the operation closes, replaces, or makes out of another; or `d` itself joins
or leaves. -/
def Concerned (w : World) (d : Nat) (k : Str) : CoreOp → Prop
  | .join c _ => d = c
  | .leave c => d = c
  | .move c _ _ => d = c ∧ ∃ ctx, w.clients.map.get c = some ctx ∧ k = ctx.view.key
  | .deleteSelection c => d = c ∧ ∃ ctx, w.clients.map.get c = some ctx ∧ k = ctx.view.key
  | .viewDelete c => ∃ ctx, w.clients.map.get c = some ctx ∧ k = ctx.view.key
  | .viewAdd c b => ∃ ctx, w.clients.map.get c = some ctx ∧ (k = ctx.view.key ∨ k = (ctx.view.addLens b .whole).key)
  | .viewRemove c b => ∃ ctx, w.clients.map.get c = some ctx ∧ (k = ctx.view.key ∨ k = (ctx.view.removeLensGroup b).key)
  | _ => False

/-- The selections `m`, by buffer, were carried over to `m'`: in buffers which had none there may be a fresh one, at the start of
the text. -/
def Carried (m m' : Assoc Str (List Selection)) : Prop :=
  ∀ n, m'.get n = m.get n ∨ (m.get n = none ∧ m'.get n = some [⟨0, 0, 1⟩])

/-- Any number of operations, by any clients, none of which concerns the selections of `d` in the view `k`; files, clock and the
rest of the environment may change between them. -/
inductive AwayRun (d : Nat) (k : Str) : World → World → Prop
  | none (w : World) : AwayRun d k w w
  | next {env : Env} {w w1 w' : World} {op : CoreOp} (hf : ∀ i, (env.stale i).follows = true) (hn : CleanName w op)
      (ha : ¬ Concerned w d k op) (h : op.run env w = .ok w1) (r : AwayRun d k w1 w') : AwayRun d k w w'

end Ced.Spec
