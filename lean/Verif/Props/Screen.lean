import Verif.Proofs.CoreScreen
import Verif.Props.Core
import Verif.Props.CoreDelete

/-! # The screens of the clients are up to date: C69 -/

namespace Ced.Props
open Ced Ced.Spec

/-- C69: an operation, of any client, leaves the screen of a client up to date, with the exceptions listed by `Tells`. -/
theorem C69_keeps {w w' : World} (h : CoreHistory Ordinary w) {env : Env} {op : CoreOp} (ho : Ordinary w op) {c : Nat}
    (ht : Tells w c op) (hr : op.run env w = .ok w') (u : UpToDate env w c) : UpToDate env w' c :=
  World.op_keeps (World.inv_history ordinary_clean h) (World.sel_history h) ho.1 ht hr u

theorem upToDate_env {env env' : Env} (h : env'.seg = env.seg) {w : World} {c : Nat} (u : UpToDate env w c) :
    UpToDate env' w c := by
  obtain ⟨items, h1, h2⟩ := u
  exact ⟨items, h1, World.params_same h World.sameFor_refl h2⟩

/-- C69: the screen of a client stays up to date as long as the operations tell it. -/
theorem C69_run {env : Env} {w w' : World} (h : CoreHistory Ordinary w) {c : Nat} (r : TellingRun env.seg c w w')
    (u : UpToDate env w c) : UpToDate env w' c := by
  induction r with
  | none _ => exact u
  | next hseg hf ho ht hop _ ih =>
    exact ih (.step h ho hf hop) (upToDate_env hseg.symm (C69_keeps h ho ht hop (upToDate_env hseg u)))

/-- C69: a client that opens a buffer, or goes to a view, has an up-to-date screen. -/
theorem C69_opens {env : Env} {w w' : World} {c : Nat} :
    (∀ name s, w.edit env c name s = .ok w' → UpToDate env w' c) ∧
    (∀ name content, w.scratch env c name content = .ok w' → UpToDate env w' c) ∧
    (∀ id, w.view env c id = .ok (w', none) → UpToDate env w' c) :=
  ⟨fun _ _ h => World.edit_told h, fun _ _ h => World.edit_told h, fun _ h => World.view_told h⟩

/-- C69: a client that joins and sees the log has an up-to-date screen. -/
theorem C69_join {w w' : World} (h : CoreHistory CleanName w) {env : Env} {c : Nat} {session : Str}
    (hr : w.addClient env c session = .ok w') (hs : Sees w' c BUFFER_DEBUG) : UpToDate env w' c := by
  have i := World.inv_history (fun _ _ h => h) h
  unfold World.addClient at hr
  obtain ⟨ctx, hctx, hr⟩ := bind_inv hr
  obtain ⟨⟨cs, o⟩, hins, hr⟩ := bind_inv hr
  obtain ⟨w1, hd, hr⟩ := bind_inv hr
  cases hr
  have u1 : UpToDate env w1 c := by
    have l := World.debug_ok hd
    have hs : Sees { w with clients := cs } c BUFFER_DEBUG := by
      obtain ⟨x, hx, hm⟩ := hs
      have hx : w1.clients.map.get c = some x := hx
      rw [l.clients] at hx
      exact ⟨x, hx, hm⟩
    unfold World.debug at hd
    rw [if_pos (show ({ w with clients := cs } : World).debugMode = true from i.mode)] at hd
    exact World.append_told hd hs
  refine World.upToDate_same (w := w1) ⟨World.sameFor_refl.seen⟩ ?_ u1
  show screen c (w1.out ++ _) = _
  rw [screen_append, screen_quiet]
  · rfl
  · intro b hb items _ hn
    rw [List.mem_singleton.1 hb] at hn
    cases hn

/-- The operation is not one of those that may leave the only client with an outdated screen: joining and leaving as this
client, deleting the selection while a buffer is empty, and faking a view. -/
def TellsAlone (w : World) (c : Nat) : CoreOp → Prop
  | .join id _ => c ≠ id
  | .leave id => c ≠ id
  | .deleteSelection _ => ∀ name b, w.buffers.get name = some b → b.content.isEmpty = false
  | .notify _ note => ∀ items, note ≠ .view items
  | _ => True

/-- C69: the screen of a client that is alone stays up to date, whatever it does. -/
theorem C69_alone {w w' : World} (h : CoreHistory CleanName w) {env : Env} {op : CoreOp} (ho : CleanName w op) {c : Nat}
    (alone : ∀ d ctx, w.clients.map.get d = some ctx → d = c) (ht : TellsAlone w c op) (hr : op.run env w = .ok w')
    (u : UpToDate env w c) : UpToDate env w' c := by
  have i := World.inv_history (fun _ _ h => h) h
  -- a client that opens a buffer is connected
  have hedit : ∀ {w0 : World} {d name s}, w0.clients = w.clients → w0.edit env d name s = .ok w' → d = c := by
    intro w0 d name s hc h
    unfold World.edit at h
    obtain ⟨⟨w1, b⟩, h1, h⟩ := bind_inv h
    obtain ⟨w2, h2, h⟩ := bind_inv h
    obtain ⟨⟨w3, o⟩, h3, h⟩ := bind_inv h
    have hd2 : ∃ ctx, w2.clients.map.get d = some ctx := by
      unfold World.view at h3
      split at h3
      · obtain ⟨_, _, h3⟩ := bind_inv h3
        obtain ⟨ctx, hx, h3⟩ := bind_inv h3
        exact ⟨ctx, unwrap_inv hx⟩
      · split at h3
        · obtain ⟨ctx, hx, h3⟩ := bind_inv h3
          exact ⟨ctx, unwrap_inv hx⟩
        · cases h3; cases h
    obtain ⟨ctx, hd2⟩ := hd2
    obtain ⟨st, e, _⟩ := World.addView_ok w1 (View.forBuffer name)
    rw [e] at h2
    injection h2 with h2
    subst h2
    have hd2 : Assoc.get (w1.clients.map.mapVals fun _ ctx => World.addSelections (View.forBuffer name) ctx) d = some ctx := hd2
    rw [Assoc.get_mapVals, (World.openForEdit_same h1).1, hc] at hd2
    cases hx : w.clients.map.get d with
    | none => rw [hx] at hd2; cases hd2
    | some x => exact alone d x hx
  cases op with
  | edit d name s => cases hedit rfl hr; exact World.edit_told hr
  | scratch d name content => cases hedit (w0 := w.openScratch name content) rfl hr; exact World.edit_told hr
  | join id x => exact World.op_keeps' i (by simp) (by simp) (op := .join id x) ht hr u
  | leave id => exact World.op_keeps' i (by simp) (by simp) (op := .leave id) ht hr u
  | notify d n => exact World.op_keeps' i (by simp) (by simp) (op := .notify d n) ht hr u
  | deleteSelection d =>
    refine World.op_keeps' i (by simp) (by simp) (op := .deleteSelection d) (fun name hs _ => ⟨?_, fun b hb => ht name b hb⟩) hr u
    obtain ⟨ctx, _, hc, _⟩ := hs
    exact (alone d ctx hc).symm
  | viewAdd d b =>
    refine World.op_keeps' i (by simp) (by simp) (op := .viewAdd d b) (fun x hx => ?_) hr u
    by_cases hd : ∃ ctx, w.clients.map.get d = some ctx
    · obtain ⟨ctx, hd⟩ := hd
      cases alone d ctx hd
      exact .inr ⟨x, hx, rfl⟩
    · exact .inl fun ⟨ctx, hc, _⟩ => hd ⟨ctx, hc⟩
  | viewRemove d b =>
    refine World.op_keeps' i (by simp) (by simp) (op := .viewRemove d b) (fun x hx => ?_) hr u
    by_cases hd : ∃ ctx, w.clients.map.get d = some ctx
    · obtain ⟨ctx, hd⟩ := hd
      cases alone d ctx hd
      exact .inr ⟨x, hx, rfl⟩
    · exact .inl fun ⟨ctx, hc, _⟩ => hd ⟨ctx, hc⟩
  | _ => refine World.op_keeps' i (by simp) (by simp) ?_ hr u; trivial

/-! ### Examples, and why the exceptions are there -/

def screenOps : List CoreOp := [.join 1 [], .edit 1 str!"f" false, .join 2 [], .view 2 str!"f{*}"]
def screenWorld : World := final (checked ordinaryB screenOps)

theorem screen_history' : CoreHistory Ordinary screenWorld :=
  checked_history (fun _ _ => ordinaryB_ok) (final_ok (r := checked ordinaryB screenOps) (by decide +kernel))

/-- whether the screen of a client is up to date -/
def upToDateB (env : Env) (w : World) (c : Nat) : Bool :=
  match screen c w.out, w.viewParams env c with
  | some items, .ok (d, items') => d == c && decide (items = items')
  | _, _ => false

theorem upToDateB_iff {env : Env} {w : World} {c : Nat} : upToDateB env w c = true ↔ UpToDate env w c := by
  unfold upToDateB UpToDate
  cases screen c w.out with
  | none => simp
  | some items =>
    cases hp : w.viewParams env c with
    | error p => simp
    | ok r =>
      obtain ⟨d, items'⟩ := r
      constructor
      · intro h
        obtain ⟨h1, h2⟩ := Bool.and_eq_true_iff.1 h
        have h1 := eq_of_beq h1
        have h2 := of_decide_eq_true h2
        exact ⟨items, rfl, by rw [h1, h2]⟩
      · rintro ⟨i, hi, he⟩
        cases hi; cases he
        simp

/-- C69_keeps and C69_run apply: both clients see the file; the second one moves, the first one deletes in the log. -/
example : UpToDate envA screenWorld 1 ∧ UpToDate envA screenWorld 2 ∧
    Ordinary screenWorld (.move 2 .right false) ∧ Tells screenWorld 1 (.move 2 .right false) :=
  ⟨upToDateB_iff.1 (by decide +kernel), upToDateB_iff.1 (by decide +kernel), ordinaryB_ok (by decide +kernel), trivial⟩

/-- C69_join applies: the first client sees the log. -/
example : ((final (session [])).addClient envA 1 []).toOption.map (upToDateB envA · 1) = some true := by decide +kernel

/-- C69_alone applies. -/
example : let w := final (session [.join 1 [], .edit 1 str!"f" false, .edit 1 str!"g" false])
    UpToDate envA w 1 ∧ w.clients.map.keys = [1] ∧ (CoreOp.run envA w (.viewAdd 1 str!"f")).toOption.map (upToDateB envA · 1) = some true :=
  ⟨upToDateB_iff.1 (by decide +kernel), by decide +kernel, by decide +kernel⟩

/-- C69 is false of a client that joins and does not see the log: it is sent no view. -/
theorem C69_join_refuted :
    let w := final (session [.join 1 [], .edit 1 str!"f" false, .join 2 []])
    Sees w 2 str!"f" ∧ screen 2 w.out = none := by
  have h : let w := final (session [.join 1 [], .edit 1 str!"f" false, .join 2 []])
      (w.clients.map.get 2).map (·.view.buffers) = some [str!"f"] ∧ screen 2 w.out = none := by decide +kernel
  intro w
  refine ⟨?_, h.2⟩
  have h1 : (w.clients.map.get 2).map (·.view.buffers) = some [str!"f"] := h.1
  unfold Sees
  cases hc : w.clients.map.get 2 with
  | none => rw [hc] at h1; cases h1
  | some ctx => rw [hc] at h1; injection h1 with h1; have h1 : ctx.view.buffers = [str!"f"] := h1; exact ⟨ctx, rfl, by rw [h1]; simp⟩

/-- C69 is false of another client that sees the buffer when one deletes its selection, when one makes a scratch buffer
of the same name, and when one adds a buffer to its view and gets the view of the other client, whose selections are
replaced; and of an empty buffer (see C61_empty_refuted), which gets a newline. -/
theorem C69_exceptions :
    (let w := screenWorld
     upToDateB envA w 1 = true ∧ (CoreOp.run envA w (.deleteSelection 2)).toOption.map (upToDateB envA · 1) = some false) ∧
    (let w := screenWorld
     upToDateB envA w 1 = true ∧ (CoreOp.run envA w (.scratch 2 str!"f" [97, 10])).toOption.map (upToDateB envA · 1) = some false) ∧
    (let w := final (session [.join 1 [], .edit 1 str!"g" false, .edit 1 str!"f" false, .move 1 .right false, .join 2 [],
      .viewAdd 2 str!"g", .move 1 .right false, .edit 2 str!"f" false])
     upToDateB envA w 1 = true ∧ (CoreOp.run envA w (.viewAdd 2 str!"g")).toOption.map (upToDateB envA · 1) = some false) ∧
    (let env := { envA with fs := fun _ => some ⟨[99], 9⟩ }
     let w := final ((session [.join 1 [], .edit 1 str!"f" false]).bind fun w => w.edit env 1 str!"f" false)
     upToDateB envA w 1 = true ∧ (CoreOp.run envA w (.deleteSelection 1)).toOption.map (upToDateB envA · 1) = some false) := by
  decide +kernel

end Ced.Props
