import Verif.Spec.Core
import Verif.Proofs.Assoc
import Verif.Proofs.StackMap
import Verif.Proofs.View
import Verif.Proofs.Range

/-! # Effects of the operations of the core -/

namespace Ced
open Spec

theorem bind_inv {α β : Type} {x : R α} {f : α → R β} {b : β} (h : (x >>= f) = .ok b) :
    ∃ a, x = .ok a ∧ f a = .ok b := by
  cases x with
  | error e => cases h
  | ok a => exact ⟨a, rfl, h⟩

theorem unwrap_inv {α : Type} {x : Option α} {a : α} (h : unwrapR x = .ok a) : x = some a := by
  cases x with
  | none => cases h
  | some b => cases h; rfl

theorem map_inv {α β : Type} {x : R α} {f : α → β} {b : β} (h : x.map f = .ok b) : ∃ a, x = .ok a ∧ f a = b := by
  cases x with
  | error e => cases h
  | ok a => cases h; exact ⟨a, rfl, rfl⟩

theorem mapM_inv {α β : Type} {f : α → R β} {l : List α} {ys : List β} (h : l.mapM f = .ok ys) :
    ∀ x ∈ l, ∃ y, f x = .ok y := by
  induction l generalizing ys with
  | nil => simp
  | cons x l ih =>
    rw [List.mapM_cons] at h
    obtain ⟨y, hy, h⟩ := bind_inv h
    obtain ⟨zs, hz, h⟩ := bind_inv h
    intro z hm
    rcases List.mem_cons.1 hm with rfl | hm
    · exact ⟨y, hy⟩
    · exact ih hz z hm

theorem foldlM_inv {α β : Type} {f : β → α → R β} {l : List α} {b b' : β} (h : l.foldlM f b = .ok b') :
    ∀ x ∈ l, ∃ acc acc', f acc x = .ok acc' := by
  induction l generalizing b with
  | nil => simp
  | cons x l ih =>
    rw [List.foldlM_cons] at h
    obtain ⟨y, hy, h⟩ := bind_inv h
    intro z hm
    rcases List.mem_cons.1 hm with rfl | hm
    · exact ⟨b, y, hy⟩
    · exact ih h z hm

/-- a fold that completes passes through each element, in a state satisfying an invariant -/
theorem foldlM_at {α β : Type} {f : β → α → R β} {P : β → Prop} {l : List α} {b b' : β} (h : l.foldlM f b = .ok b')
    (h0 : P b) (hs : ∀ x ∈ l, ∀ a a', P a → f a x = .ok a' → P a') :
    ∀ x ∈ l, ∃ a a', P a ∧ f a x = .ok a' := by
  induction l generalizing b with
  | nil => intro x hx; cases hx
  | cons y l ih =>
    rw [List.foldlM_cons] at h
    obtain ⟨z, hz, h⟩ := bind_inv h
    intro x hx
    rcases List.mem_cons.1 hx with rfl | hx
    · exact ⟨b, z, h0, hz⟩
    · exact ih h (hs y (by simp) _ _ h0 hz) (fun x hx => hs x (by simp [hx])) x hx

/-- induction along a fold that completes -/
theorem foldlM_ind {α β : Type} {f : β → α → R β} {P : β → Prop} {l : List α} {b b' : β} (h : l.foldlM f b = .ok b')
    (h0 : P b) (hs : ∀ x ∈ l, ∀ a a', P a → f a x = .ok a' → P a') : P b' := by
  induction l generalizing b with
  | nil => cases h; exact h0
  | cons x l ih =>
    rw [List.foldlM_cons] at h
    obtain ⟨y, hy, h⟩ := bind_inv h
    exact ih h (hs x (by simp) _ _ h0 hy) fun z hz => hs z (by simp [hz])

namespace StackMap
variable {K V : Type} [DecidableEq K]

theorem insert_ok (m : StackMap K V) (k : K) (v : V) :
    ∃ st, m.insert k v = .ok ({ stack := k :: st, map := m.map.set k v }, m.map.get k) ∧
      (m.stack.Nodup → st = m.stack.filter (· ≠ k)) := by
  unfold insert setLast
  simp only [Assoc.has_set, decide_true, Bool.true_or, Bool.true_eq_false, if_false, unwrapR]
  exact ⟨_, rfl, fun hn => eraseIdx_findIdx hn k⟩

theorem remove_some {m : StackMap K V} {k : K} {v : V} (h : (m.remove k).2 = some v) :
    k ∈ m.stack ∧ m.map.get k = some v ∧ (m.remove k).1.map = m.map.del k ∧
      (m.stack.Nodup → (m.remove k).1.stack = m.stack.filter (· ≠ k)) := by
  unfold remove at *
  cases hf : m.stack.findIdx? (· = k) with
  | none => rw [hf] at h; cases h
  | some i =>
    rw [hf] at h
    refine ⟨?_, h, rfl, ?_⟩
    · by_cases hk : k ∈ m.stack
      · exact hk
      · rw [findIdx_none.2 hk] at hf; cases hf
    · intro hn
      have := eraseIdx_findIdx hn k
      rw [hf] at this
      exact this

end StackMap

namespace World
variable {env : Env} {w w' : World}

/-- the messages sent for updates of views -/
def updates (params : List (Nat × List ViewParamsItem)) : List Broadcast :=
  params.map fun p => { only := some [p.1], note := .view p.2 }

theorem viewUpdate_eq (w : World) (params : List (Nat × List ViewParamsItem)) :
    w.viewUpdate params = { w with out := w.out ++ updates params } := by
  unfold viewUpdate updates
  induction params generalizing w with
  | nil => simp
  | cons p ps ih => rw [List.foldl_cons, ih]; simp [notify, broadcast]

theorem notify_ok {ids : List Nat} (h : w.notifyViewUpdate env ids = .ok w') :
    ∃ params, ids.mapM (w.viewParams env) = .ok params ∧ w' = { w with out := w.out ++ updates params } := by
  unfold notifyViewUpdate at h
  obtain ⟨params, hp, h⟩ := bind_inv h
  cases h
  exact ⟨params, hp, viewUpdate_eq w params⟩

/-- the buffer after text is appended to it -/
def appended (old : Option Buffer) (name : Str) (text : Bytes) : Buffer :=
  match old with
  | none => Buffer.newScratch name text
  | some b => b.append text

theorem appendTo_ok {name : Str} {text : Bytes} (h : w.appendTo env name text = .ok w') :
    ∃ o, w' = { w with buffers := w.buffers.set name (appended (w.buffers.get name) name text), out := o } := by
  unfold appendTo at h
  cases hg : w.buffers.get name with
  | none =>
    rw [hg] at h
    obtain ⟨p, _, e⟩ := notify_ok h
    exact ⟨_, e⟩
  | some b =>
    rw [hg] at h
    obtain ⟨p, _, e⟩ := notify_ok h
    exact ⟨_, e⟩

/-- what logging changes: only the debug buffer, which then exists -/
structure Logged (w w' : World) : Prop where
  cwd : w'.cwd = w.cwd
  clients : w'.clients = w.clients
  views : w'.views = w.views
  mode : w'.debugMode = w.debugMode
  others : ∀ n, n ≠ BUFFER_DEBUG → w'.buffers.get n = w.buffers.get n
  keeps : ∀ n, w.buffers.has n = true → w'.buffers.has n = true
  exist : w.debugMode = true → w'.buffers.has BUFFER_DEBUG = true

theorem debug_ok {text : Str} (h : w.debug env text = .ok w') : Logged w w' := by
  unfold debug at h
  split at h
  · obtain ⟨o, rfl⟩ := appendTo_ok h
    refine ⟨rfl, rfl, rfl, rfl, ?_, ?_, ?_⟩
    · intro n hn; exact Assoc.get_set_ne _ hn
    · intro n hn; show Assoc.has _ _ = true; rw [Assoc.has_set, hn]; simp
    · intro _; show Assoc.has _ _ = true; rw [Assoc.has_set]; simp
  · rename_i hd
    cases h
    exact ⟨rfl, rfl, rfl, rfl, fun _ _ => rfl, fun _ h => h, fun h => absurd h hd⟩

theorem addView_ok (w : World) (v : View) :
    ∃ st, w.addView v = .ok { w with
      views := { stack := v.key :: st, map := w.views.map.set v.key v },
      clients := { w.clients with map := w.clients.map.mapVals fun _ ctx => addSelections v ctx } } ∧
      (w.views.stack.Nodup → st = w.views.stack.filter (· ≠ v.key)) := by
  obtain ⟨st, e, hst⟩ := StackMap.insert_ok w.views v.key v
  refine ⟨st, ?_, hst⟩
  unfold addView
  rw [e]
  rfl

theorem openFile_ok {name : Str} {path : Path} (h : w.openFile env name path = .ok w') :
    ∃ b, Buffer.newFile env.fs env.now path = .ok b ∧ w' = { w with buffers := w.buffers.set name b } := by
  unfold openFile at h
  obtain ⟨b, hb, h⟩ := bind_inv h
  cases h
  exact ⟨b, hb, rfl⟩

/-- rendering needs every buffer of the view -/
theorem render_needs {v : View} (hwf : View.WF v) {seg : Segmentation} {buffers : Assoc Str Buffer}
    {sels : Option (Assoc Str (List Selection))} {items : List ViewParamsItem}
    (h : v.toNotificationParams seg buffers sels = .ok items) : ∀ b ∈ v.buffers, buffers.has b = true := by
  unfold View.toNotificationParams at h
  obtain ⟨vi, hvi, h⟩ := bind_inv h
  obtain ⟨r, hr, _⟩ := bind_inv h
  intro b hb
  unfold View.buffers at hb
  obtain ⟨bg, hbg, rfl⟩ := List.mem_map.1 hb
  obtain ⟨f, fs, hg⟩ := List.exists_cons_of_ne_nil (hwf.groups bg hbg)
  have hlens : ViewItem.lens bg.1 f ∈ vi := by
    unfold View.asVec at hvi
    obtain ⟨parts, hp, hvi⟩ := bind_inv hvi
    cases hvi
    have key : ∀ (v : View) (parts : List (List ViewItem)), bg ∈ v → (v.mapM fun bg => do
        let f ← LensGroup.focus bg.2
        return ViewItem.header bg.1 f :: bg.2.map (ViewItem.lens bg.1)) = .ok parts →
        ViewItem.lens bg.1 f ∈ parts.flatten := by
      intro v
      induction v with
      | nil => intro _ hm; cases hm
      | cons x v ih =>
        intro parts hm hp
        rw [List.mapM_cons] at hp
        obtain ⟨y, hy, hp⟩ := bind_inv hp
        obtain ⟨ys, hys, hp⟩ := bind_inv hp
        cases hp
        rw [List.flatten_cons, List.mem_append]
        rcases List.mem_cons.1 hm with rfl | hm
        · left
          obtain ⟨fo, _, hy⟩ := bind_inv hy
          cases hy
          rw [hg]; simp
        · exact Or.inr (ih ys hm hys)
    exact key v parts hbg hp
  obtain ⟨acc, acc', hstep⟩ := foldlM_inv hr _ hlens
  obtain ⟨l, hl, _⟩ := bind_inv hstep
  unfold lensParams at hl
  obtain ⟨bf, hbf, _⟩ := bind_inv hl
  exact Assoc.has_iff.2 ⟨bf, Assoc.at_inv hbf⟩

theorem viewParams_inv {id : Nat} {p : Nat × List ViewParamsItem} (h : w.viewParams env id = .ok p) :
    p.1 = id ∧ ∃ ctx, w.clients.map.get id = some ctx ∧
      ctx.view.toNotificationParams env.seg w.buffers (ctx.selections.get ctx.view.key) = .ok p.2 := by
  unfold viewParams at h
  obtain ⟨ctx, hc, h⟩ := bind_inv h
  obtain ⟨items, hi, h⟩ := bind_inv h
  cases h
  exact ⟨rfl, ctx, Assoc.at_inv hc, hi⟩

end World
end Ced
