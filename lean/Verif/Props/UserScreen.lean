import Verif.Spec.UserScreen
import Verif.Props.SafeServer
import Verif.Props.ConnectionServer
import Verif.Props.Render
import Verif.Props.Standalone
import Verif.Proofs.Lossy

/-! # C83: the screen of a user shows the present state -/

namespace Ced.Props
open Spec Scripts

variable {eng : LuaEngine} {env : EditorEnv LuaState} {e : Ced.Editor LuaState}

section general
variable {R : Rules} {H : World → Prop} (ro : RulesOk R H)
include ro

theorem good_full {w : World} (h : H w) {name : Str} {b : Buffer} (hb : w.buffers.get name = some b) :
    b.content.isEmpty = false := by
  have g := ro.good h hb
  cases he : b.content.isEmpty with
  | false => rfl
  | true =>
    refine absurd ?_ (Ced.ends_ne g)
    unfold PieceTable.isEmpty at he
    unfold PieceTable.content
    rw [List.isEmpty_iff.1 he]
    rfl

/-! ### Requests -/

omit ro in
theorem key_ops {m : KeyMode} {d : Nat} {k : Str} {op : CoreOp} (h : m.op d k = some op) :
    (op = .deleteSelection d ∧ k = str!"d") ∨ (∃ t x, op = .move d t x) ∨ Chatter d op := by
  unfold KeyMode.op at h
  cases m with
  | insertion => cases h
  | normal =>
    dsimp only at h
    split at h
    · cases h; exact .inr (.inl ⟨_, _, rfl⟩)
    · cases h; exact .inr (.inl ⟨_, _, rfl⟩)
    · split at h
      · cases h; exact .inr (.inr trivial)
      · split at h
        · cases h; exact .inr (.inr trivial)
        · split at h
          · rename_i hk
            cases h; exact .inl ⟨rfl, hk⟩
          · cases h
  | moveTo =>
    dsimp only at h
    split at h
    · cases h; exact .inr (.inl ⟨_, _, rfl⟩)
    · split at h
      · cases h; exact .inr (.inl ⟨_, _, rfl⟩)
      · cases h
  | extendTo =>
    dsimp only at h
    split at h
    · cases h; exact .inr (.inl ⟨_, _, rfl⟩)
    · split at h
      · cases h; exact .inr (.inl ⟨_, _, rfl⟩)
      · cases h

omit ro in
theorem tells_chatter {w : World} {c d : Nat} {op : CoreOp} (hh : Honest op) (h : Chatter d op) : Tells w c op := by
  cases op <;> first | exact trivial | exact h.elim | exact fun items hn => hh.2.2 _ items (by rw [hn])

theorem tells_call {w : World} (k : H w) {c d : Nat} {call : Call} {op : CoreOp} (hh : Honest op)
    (hc : Considerate c d call) (ho : OpOf d call op) : Tells w c op := by
  rcases ho with ho | ho
  · exact tells_chatter hh ho
  · cases call with
    | edit n s => cases ho; trivial
    | view id => cases ho; trivial
    | viewDelete => cases ho; trivial
    | viewAdd b =>
      have hc : d = c := hc
      subst hc
      cases ho
      exact fun ctx hx => .inr ⟨ctx, hx, rfl⟩
    | viewRemove b =>
      have hc : d = c := hc
      subst hc
      cases ho
      exact fun ctx hx => .inr ⟨ctx, hx, rfl⟩
    | keys ks =>
      obtain ⟨m, key, hk, ho⟩ := ho
      rcases key_ops ho with ⟨rfl, hd⟩ | ⟨t, x, rfl⟩ | ho
      · rcases hc with hc | hc
        · subst hc
          exact fun name _ _ => ⟨rfl, fun b hb => good_full ro k hb⟩
        · exact absurd hd (hc key hk)
      · trivial
      · exact tells_chatter hh ho
    | exec _ => exact hc.elim
    | menu _ _ => exact ho.elim
    | menuSelect _ _ => exact ho.elim
    | quit => exact ho.elim

theorem tells_any {w : World} (k : H w) {c d : Nat} {call : Call} {op : CoreOp} (hh : Honest op)
    (hc : ConsiderateCall c d call) (ho : AnyOpOf d call op) : Tells w c op := by
  rcases ho with ho | ⟨command, choice, call', rfl, hs, ho⟩
  · cases call with
    | menuSelect _ _ =>
      rcases ho with ho | ho
      · exact tells_chatter hh ho
      · exact ho.elim
    | _ => refine tells_call ro (c := c) k hh ?_ ho; exact hc
  · exact tells_call ro k hh (hc call' hs) ho

/-- a considerate request keeps the screen up to date -/
theorem carries_told (ok : SafeEnv R eng env) (c : Nat) :
    Carries R H eng (fun op => ∀ w, H w → Honest op → Tells w c op) fun w => H w ∧ UpToDate eng.core w c := by
  refine ⟨fun k => k.1, fun {w w' op} k hh hp hs h => ⟨(carries_safe ro ok).step k.1 hh trivial hs h, ?_⟩⟩
  exact C69_keeps (ro.history k.1) (ro.ordinary hs) (hp w k.1 hh) h k.2

/-- and so does any request of a client that is alone -/
theorem carries_alone (ok : SafeEnv R eng env) (c : Nat) :
    Carries R H eng (fun _ => True) fun w => H w ∧ (∀ d, w.clients.map.has d = true → d = c) ∧ UpToDate eng.core w c := by
  refine ⟨fun k => k.1, fun {w w' op} k hh _ hs h => ⟨(carries_safe ro ok).step k.1 hh trivial hs h, ?_, ?_⟩⟩
  · intro d hd
    rw [Ced.Editor.clients_steps (CoreSteps.one (ok := Tidily) ⟨hh.1, hh.2.1, (ro.ordinary hs).1⟩ h)] at hd
    exact k.2.1 d hd
  · refine C69_alone (history_mono ordinary_clean (ro.history k.1)) (ro.ordinary hs).1 (fun d ctx hd => k.2.1 d (Assoc.has_iff.2 ⟨_, hd⟩)) ?_ h k.2.2
    cases op <;> first
      | exact trivial
      | exact absurd rfl (hh.1 _ _)
      | exact absurd rfl (hh.2.1 _)
      | exact fun name b hb => good_full ro k.1 hb
      | exact fun items hn => hh.2.2 _ items (by rw [hn])

/-! ### Events -/

/-- C83: an event of the server, in any state reached by clients that keep to the rules of Spec/SafeServer.lean, keeps the
screen of a client up to date: whatever it asks for when it is alone; whatever the other clients ask for, the exceptions of
C69 aside. -/
theorem rules83_turn {s s' : Server LuaState} (r : SafeServer R s) (ok : SafeEnv R eng env) {ev : ServerEvent} {last : Bool}
    (hs : SafeEvent R eng env s ev) (h : s.turn env true ev = .ok (s', last)) {c : Nat} (hc : c ∈ s.index)
    (hk : ConsiderateEvent env c s ev) (hu : UpToDate env.core s.editor.core c) :
    c ∈ s'.index ∧ UpToDate env.core s'.editor.core c := by
  obtain ⟨rc, k⟩ := safe_server ro r
  obtain ⟨hr, hst, _, hi⟩ := server_run rc
  obtain ⟨s1, last1, h1, k1, _, _, ht⟩ := safe_turn ro ok rc k hs
  rw [h] at h1
  cases h1
  cases ev with
  | join d =>
    obtain ⟨hx, w, n, hw, hn, he⟩ := ht
    have hdc : c ≠ d := fun e => hs.1 (e ▸ hc)
    refine ⟨by rw [hx]; unfold Server.addIndex; split <;> simp [hc], ?_⟩
    have ho : Ordinary s.editor.core (.join d s.editor.session) := by
      refine ⟨fun _ h => (by cases h), fun _ _ h => (by cases h), fun _ _ _ hstk => ?_⟩
      have := ((World.inv_history ordinary_clean (ro.history k)).cstack c).2 ((hi c).1 hc)
      rw [hstk] at this
      cases this
    have u1 : UpToDate env.core w c := C69_keeps (ro.history k) ho (op := .join d s.editor.session) hdc hw hu
    rw [he]
    exact C69_keeps (.step (ro.history k) ho ok.std.follows hw) (op := .notify d n)
      ⟨fun _ h => (by cases h), fun _ _ h => (by cases h), fun _ _ h => (by cases h)⟩ hn rfl u1
  | leave d =>
    obtain ⟨hx, hw⟩ := ht
    have hdc : c ≠ d := fun e => hk e.symm
    refine ⟨by rw [hx]; simp [hc, hdc], ?_⟩
    exact C69_keeps (ro.history k) (op := .leave d)
      ⟨fun _ h => (by cases h), fun _ _ h => (by cases h), fun _ _ h => (by cases h)⟩ hdc hw hu
  | message d line =>
    obtain ⟨hx, a, he⟩ := ht
    obtain ⟨hd, hl⟩ := hs
    refine ⟨by rw [hx]; exact hc, ?_⟩
    rw [ok.std.core] at hu ⊢
    have hmode := C49_modes hr ((hi d).1 hd)
    rcases hk with hk | hk
    · obtain ⟨e', a', h1, k'⟩ := safe_line ro ok (carries_alone ro ok c) (ced_run hr)
        ⟨k, fun x hx => by have := (hi x).2 hx; rw [hk] at this; simpa using this, hu⟩ hmode (fun _ _ => trivial) hl
      rw [he] at h1
      cases h1
      exact k'.2.2
    · obtain ⟨e', a', h1, k'⟩ := safe_line ro ok (carries_told ro ok c) (ced_run hr) ⟨k, hu⟩ hmode (fun op ho w kw hh => by
        rcases ho with ho | ⟨q, call, hq, ha, ho⟩
        · exact tells_chatter hh ho
        · exact tells_any ro kw hh (hk q call hq ha) ho) hl
      rw [he] at h1
      cases h1
      exact k'.2

/-- C83: so does a schedule of any length of such events, with deliveries in between; the server does not crash. -/
theorem rules83_loop {steps : List (Server.Step LuaState)} {seg : Segmentation} {c : Nat} {enw : Env} (hseg : enw.seg = seg) :
    ∀ {s : Server LuaState}, SafeServer R s → c ∈ s.index → UserSchedule R seg c s steps → UpToDate enw s.editor.core c →
    ∃ s' rest, s.loop steps = .ok (s', rest) ∧ SafeServer R s' ∧ c ∈ s'.index ∧ UpToDate enw s'.editor.core c := by
  induction steps with
  | nil => intro s r hc _ u; exact ⟨s, none, rfl, r, hc, u⟩
  | cons x steps ih =>
    intro s r hc hs u
    cases x with
    | deliver broken =>
      have e : (s.deliver broken).editor = s.editor ∧ (s.deliver broken).index = s.index := by
        unfold Server.deliver; split <;> exact ⟨rfl, rfl⟩
      exact ih (.deliver broken r) (by rw [e.2]; exact hc) hs.2 (by rw [e.1]; exact u)
    | event env wr ev =>
      obtain ⟨rfl, hsg, ⟨eng, ok, he⟩, hk, hn⟩ := hs
      obtain ⟨s1, last, h1, r1, _⟩ := rules_turn ro r ok he
      obtain ⟨c1, u1⟩ := rules83_turn ro r ok he h1 hc hk (upToDate_env (hsg.trans hseg.symm) u)
      have u1 := upToDate_env (hseg.trans hsg.symm) u1
      rw [Server.loop, h1]
      cases last with
      | true => exact ⟨s1, some steps, rfl, r1, c1, u1⟩
      | false => exact ih r1 c1 (hn s1 h1) u1

/-! ### When it starts -/

/-- C83: a client that joins, and whose view shows the log, has an up-to-date screen. -/
theorem rules83_joins {s s' : Server LuaState} (r : SafeServer R s) (ok : SafeEnv R eng env) {c : Nat} {last : Bool}
    (hs : SafeEvent R eng env s (.join c)) (h : s.turn env true (.join c) = .ok (s', last))
    (hl : Sees s'.editor.core c BUFFER_DEBUG) : c ∈ s'.index ∧ UpToDate env.core s'.editor.core c := by
  obtain ⟨rc, k⟩ := safe_server ro r
  obtain ⟨s1, last1, h1, _, _, _, ht⟩ := safe_turn ro ok rc k hs
  rw [h] at h1
  cases h1
  obtain ⟨hx, w, n, hw, hn, he⟩ := ht
  refine ⟨by rw [hx]; unfold Server.addIndex; split <;> simp_all, ?_⟩
  have u1 : UpToDate env.core w c := C69_join (history_mono ordinary_clean (ro.history k)) hw (by
    obtain ⟨ctx, h1, h2⟩ := hl
    rw [he] at h1
    exact ⟨ctx, h1, h2⟩)
  have ho : CleanName s.editor.core (.join c s.editor.session) := fun _ h => (by cases h)
  rw [he]
  have i := World.inv_history (fun _ _ h => h) (CoreHistory.step (history_mono ordinary_clean (ro.history k)) ho ok.std.follows hw)
  exact World.op_keeps' i (op := .notify c n) (by simp) (by simp) hn rfl u1

omit ro in
theorem start_single {env : Env} {cwd : Path} {args cwdText : Str} {w : World}
    (h : World.start env cwd args cwdText = .ok w) : w.views.map.length = 1 := by
  unfold World.start at h
  obtain ⟨w1, h1, h⟩ := bind_inv h
  obtain ⟨w2, h2, h⟩ := bind_inv h
  unfold World.addView at h
  obtain ⟨⟨vs, o⟩, h3, h⟩ := bind_inv h
  cases h
  show vs.map.length = 1
  have hv : (w2.openScratch BUFFER_SCRATCH []).views = StackMap.new := by
    show w2.views = _
    rw [(World.debug_ok h2).views, (World.debug_ok h1).views]
    rfl
  rw [hv] at h3
  cases h3
  rfl

omit ro in
/-- joining writes nothing -/
theorem written_join {s s' : Server LuaState} {c : Nat} {wr last : Bool} (h : s.turn env wr (.join c) = .ok (s', last)) :
    s'.written = s.written ∧ s'.delivered = s.delivered := by
  unfold Server.turn at h
  obtain ⟨a, h1, h⟩ := ebind_inv h
  obtain ⟨b, h2, h⟩ := ebind_inv h
  obtain ⟨rfl, -⟩ : b = s' ∧ _ := by
    have := Except.ok.inj h
    exact ⟨congrArg Prod.fst this, trivial⟩
  have e1 : b.written = a.written ∧ b.delivered = a.delivered := by
    unfold Server.purge at h2
    obtain ⟨ix, _, h2⟩ := ebind_inv h2
    cases h2
    exact ⟨rfl, rfl⟩
  simp only [Server.react] at h1
  obtain ⟨x, _, h1⟩ := ebind_inv h1
  cases h1
  exact e1

omit ro in
/-- a new editor: no clients, one view, of the log and the scratch buffer -/
theorem new_world {session : Str} {cwd : Path} {args cwdText : Str}
    (h : Ced.Editor.new env ⟨session, []⟩ (Scripts.prelude eng) session cwd args cwdText = .ok e) :
    e.core.clients.stack = [] ∧ e.core.views.map.length = 1 ∧
      e.core.views.latestValue = some [(BUFFER_DEBUG, [.whole]), (BUFFER_SCRATCH, [.whole])] := by
  unfold Ced.Editor.new at h
  obtain ⟨w, hw, h⟩ := bind_inv h
  obtain ⟨_, c2, _, _, v1, _⟩ := start_world hw
  obtain ⟨⟨l, w', er⟩, h2, h⟩ := bind_inv h
  unfold Scripts.prelude at h2
  obtain ⟨w2, h3, h2⟩ := bind_inv h2
  obtain ⟨w3, h4, h2⟩ := bind_inv h2
  cases h2
  cases h
  have l2 := World.debug_ok h3
  have l3 := World.debug_ok h4
  rw [l3.clients, l2.clients, l3.views, l2.views]
  exact ⟨c2, start_single hw, v1⟩

/-- C83: so has the first client of a server. -/
theorem rules83_first (ok : SafeEnv R eng env) {session : Str} {cwd : Path} {args cwdText : Str} (ha : R.text args)
    (hc : R.text cwdText) (hp : R.text eng.path)
    (h : Ced.Editor.new env ⟨session, []⟩ (Scripts.prelude eng) session cwd args cwdText = .ok e) (c : Nat) :
    ∃ s, (Server.start e).turn env true (.join c) = .ok (s, false) ∧ s.index = [c] ∧ s.written = [] ∧
      UpToDate env.core s.editor.core c := by
  have r : SafeServer R (Server.start e) := .start ok ha hc hp h
  obtain ⟨hcl, hlen, hv⟩ := new_world h
  have hs : SafeEvent R eng env (Server.start e) (.join c) := ⟨List.not_mem_nil, fun _ => hlen⟩
  obtain ⟨rc, k⟩ := safe_server ro r
  obtain ⟨s, last, ht, _, _, _, hx, w, n, hw, hn, he⟩ := safe_turn ro ok rc k hs
  have hi : s.index = [c] := hx
  have hsee : Sees s.editor.core c BUFFER_DEBUG := by
    rw [he]
    unfold World.addClient at hw
    obtain ⟨ctx, hctx, hw⟩ := bind_inv hw
    obtain ⟨⟨cs, o⟩, hcs, hw⟩ := bind_inv hw
    obtain ⟨w1, hd, hw⟩ := bind_inv hw
    cases hw
    refine ⟨ctx, ?_, ?_⟩
    · show w1.clients.map.get c = _
      rw [(World.debug_ok hd).clients]
      obtain ⟨st, e1, _⟩ := StackMap.insert_ok (Server.start e).editor.core.clients c ctx
      rw [e1] at hcs
      cases hcs
      exact Assoc.get_set_self ..
    · unfold World.joinContext StackMap.latest at hctx
      rw [show (Server.start e).editor.core = e.core from rfl, hcl] at hctx
      dsimp only [List.head?] at hctx
      rw [hv] at hctx
      cases hctx
      exact List.mem_cons_self
  have hlast : last = false := by
    unfold Server.turn at ht
    obtain ⟨a, _, ht⟩ := ebind_inv ht
    obtain ⟨b, _, ht⟩ := ebind_inv ht
    cases ht
    simp [Server.isLeave]
  subst hlast
  exact ⟨s, ht, hi, (written_join ht).1, (rules83_joins ro r ok hs ht hsee).2⟩

/-- C83: a client that asks for a buffer, or goes to a view that exists, has an up-to-date screen. -/
theorem rules83_opens {s s' : Server LuaState} (r : SafeServer R s) (ok : SafeEnv R eng env) (hp : JsonText.ReadsBack env.parse) {c : Nat}
    {call : Call} {id : RpcId} (hid : GoodId id) {last : Bool}
    (hs : SafeEvent R eng env s (.message c (call.request id).encode.write))
    (h : s.turn env true (.message c (call.request id).encode.write) = .ok (s', last))
    (ho : (∃ name scratch, call = .edit name scratch) ∨
      ∃ v, call = .view v ∧ ∃ a, s'.written = s.written ++ [(c, .response a)] ∧ a.error = none) :
    UpToDate env.core s'.editor.core c := by
  obtain ⟨rc, k⟩ := safe_server ro r
  obtain ⟨s1, last1, h1, _, _, hw, ht⟩ := safe_turn ro ok rc k hs
  rw [h] at h1
  cases h1
  obtain ⟨_, a, he⟩ := ht
  have hans : ∀ a', s'.written = s.written ++ [(c, .response a')] → a' = a := by
    intro a' hw'
    have ht := h
    unfold Server.turn at ht
    simp only [Server.react, he, Server.lift, bind, Except.bind, pure, Except.pure, show c ∈ s.index from hs.1, if_true] at ht
    rw [purge_calm] at ht
    · have h2 := congrArg (fun x => x.1.written) (Except.ok.inj ht)
      dsimp only at h2
      rw [hw'] at h2
      simpa using (List.append_cancel_left h2).symm
    · exact ((Ced.Editor.menus_handle (menus_editorRun (ced_run (server_run rc).1)) he).2.2.1 (safe_stays hs.2)).trans (server_run rc).2.1
  have hc := C37_call (e := s.editor) (client := c) hp hid call
  rcases ho with ⟨name, scratch, rfl⟩ | ⟨v, rfl, a', hw', hn⟩
  · cases hd : Does env s.editor c (.edit name scratch) with
    | error p => rw [hd] at hc; rw [he] at hc; cases hc
    | ok x =>
      obtain ⟨e', out⟩ := x
      rw [hd] at hc
      obtain ⟨r, hc, _⟩ := hc
      rw [he] at hc
      cases hc
      obtain ⟨w, h1, h2⟩ := map_inv hd
      rw [show s'.editor.core = w from (congrArg (fun x => x.1.core) h2).symm]
      exact C69_opens.1 _ _ h1
  · obtain rfl := hans a' hw'
    cases hd : Does env s.editor c (.view v) with
    | error p => rw [hd] at hc; rw [he] at hc; cases hc
    | ok x =>
      obtain ⟨e', out⟩ := x
      rw [hd] at hc
      obtain ⟨r, hc, _, _, herr⟩ := hc
      rw [he] at hc
      cases hc
      obtain ⟨⟨w, o⟩, h1, h2⟩ := map_inv hd
      rw [show s'.editor.core = w from (congrArg (fun x => x.1.core) h2).symm]
      cases o with
      | none => exact C69_opens.2.2 _ h1
      | some err =>
        have h3 : some _ = out := congrArg Prod.snd h2
        subst h3
        rw [hn] at herr; cases herr

/-! ### End to end -/

omit ro in
theorem steps_prefix {en : Env} {w w' : World} (h : CoreSteps Tidily en w w') : w.out <+: w'.out := by
  induction h with
  | none _ => exact List.prefix_refl _
  | @next w w1 w' op hok h _ ih =>
    refine List.IsPrefix.trans ?_ ih
    cases op with
    | join id s => exact absurd rfl (hok.1 id s)
    | leave id => exact absurd rfl (hok.2.1 id)
    | edit c n s => exact (World.sends_edit h).prefix
    | scratch c n t => exact (World.sends_scratch h).prefix
    | view c id => obtain ⟨⟨w1, o⟩, h1, rfl⟩ := map_inv h; exact (World.sends_view h1).prefix
    | viewDelete c => exact (World.sends_deleteCurrentView h).prefix
    | viewAdd c b => obtain ⟨⟨w1, o⟩, h1, rfl⟩ := map_inv h; exact (World.sends_addTo h1).prefix
    | viewRemove c b => obtain ⟨⟨w1, o⟩, h1, rfl⟩ := map_inv h; exact (World.sends_removeFrom h1).prefix
    | move c d e => exact (World.sends_move h).prefix
    | deleteSelection c => obtain ⟨⟨w1, o⟩, h1, rfl⟩ := map_inv h; exact (World.sends_deleteSelection h1).prefix
    | append b x xs => exact (World.sends_append h).prefix
    | debug t => exact (World.sends_debug h).prefix
    | message o t => exact World.message_prefix h
    | error o tag t => exact World.error_prefix h
    | notify o n => cases h; exact List.prefix_append ..

omit ro in
theorem standard_appends (std : Standard eng env) : Appending env.lua := by
  have l := lua_steps std
  exact ⟨fun c a w b w' m h => steps_prefix (l.add c a w b w' m h), fun c a w b w' m h => steps_prefix (l.remove c a w b w' m h),
    fun c k a w b w' m h => steps_prefix (l.key c k a w b w' m h), fun c x a w b w' m h => steps_prefix (l.exec c x a w b w' m h)⟩

theorem user_schedule {seg : Segmentation} {c : Nat} {steps : List (Server.Step LuaState)} : ∀ {s : Server LuaState}
    {s' : Server LuaState}, SafeServer R s → UserSchedule R seg c s steps → s.loop steps = .ok (s', none) →
    Appends steps ∧ Stays c steps := by
  induction steps with
  | nil => intro s s' _ _ _; exact ⟨fun _ _ _ h => (by cases h), fun _ _ h => (by cases h), fun _ _ _ h => (by cases h), fun _ h => (by cases h)⟩
  | cons x steps ih =>
    intro s s' r hs h
    cases x with
    | deliver broken =>
      obtain ⟨i1, i2, i3, i4⟩ := ih (.deliver broken r) hs.2 h
      refine ⟨fun en wr ev hm => ?_, fun en wr hm => ?_, fun en wr l hm => ?_, fun b hm => ?_⟩
      · rcases List.mem_cons.1 hm with hm | hm
        · cases hm
        · exact i1 en wr ev hm
      · rcases List.mem_cons.1 hm with hm | hm
        · cases hm
        · exact i2 en wr hm
      · rcases List.mem_cons.1 hm with hm | hm
        · cases hm
        · exact i3 en wr l hm
      · rcases List.mem_cons.1 hm with hm | hm
        · cases hm; exact hs.1
        · exact i4 b hm
    | event env wr ev =>
      obtain ⟨rfl, hsg, ⟨eng, ok, he⟩, hk, hn⟩ := hs
      obtain ⟨s1, last, h1, r1, _⟩ := rules_turn ro r ok he
      rw [Server.loop, h1] at h
      cases last with
      | true => cases h
      | false =>
        obtain ⟨i1, i2, i3, i4⟩ := ih r1 (hn s1 h1) h
        refine ⟨fun en wr ev' hm => ?_, fun en wr hm => ?_, fun en wr l hm => ?_, fun b hm => ?_⟩
        · rcases List.mem_cons.1 hm with hm | hm
          · cases hm; exact standard_appends ok.std
          · exact i1 en wr ev' hm
        · rcases List.mem_cons.1 hm with hm | hm
          · cases hm; exact hk rfl
          · exact i2 en wr hm
        · rcases List.mem_cons.1 hm with hm | hm
          · cases hm; exact safe_stays he.2
          · exact i3 en wr l hm
        · rcases List.mem_cons.1 hm with hm | hm
          · cases hm
          · exact i4 b hm

/-- the items of a view of a safe session show the texts -/
theorem shows_text {w : World} (k : H w) {name : Str} {item : ViewParamsItem} (h : ShowsWhole w.buffers name item) :
    ShowsText w name item := by
  have hh : CoreHistory (fun _ _ => True) w := history_mono (fun _ _ _ => trivial) (ro.history k)
  obtain ⟨h1, b, ls, hb, hls, hst, hcount, hne, each⟩ := h
  have g := ro.good k hb
  have hf := World.texts_history hh name b hb
  have hw := (PieceTable.reachable_ready hf).wf
  have hsh := PieceTable.shows_content hw
  obtain ⟨t, ht, hk⟩ := PieceTable.text_keeps hw
  have hl := hk.lines
  refine ⟨h1, b, b.content.content, t, hb, hsh, ht, fun hc => ?_, (forall2_length hl).symm, fun i line hi ha => ?_, ?_⟩
  · have := (C09_text hc hsh).1
    rw [ht] at this
    exact Except.ok.inj this
  · have key : ∀ {ls lt : List Bytes}, List.Forall₂ Ced.Keeps ls lt → ∀ i : Nat, ls[i]? = some line → lt[i]? = some line := by
      intro ls lt hf
      induction hf with
      | nil => intro i hi; cases hi
      | cons hab _ ih =>
        intro i hi
        cases i with
        | zero => cases hi; exact congrArg some (hab.same ha)
        | succ i => exact ih i hi
    exact key hl i hi
  · have hl' : b.content.lines = .ok (cleanLines t) := by
      unfold PieceTable.lines
      rw [ht, except_bind_ok, strLines_clean]; rfl
    rw [hl'] at hls; cases hls
    have hcnt := (C08_lines (PieceTable.forward_steady hf) hsh (Ced.ends_ne g)).1
    rw [hcnt] at hcount
    injection hcount with hcount
    exact ⟨hst, hcount.symm, hne, each⟩

variable {T : Type} {o : Ornament T} {parse : Str → Option Json}

/-- C83, end to end: the user whose screen was up to date when it connected (see `rules83_first` and `rules83_joins`) sees, whenever
everything was delivered and read, exactly the present state of its view: all the lines of the buffers of its view, whatever
it and the others did in between, within the rules of Spec/SafeServer.lean and Spec/UserScreen.lean. -/
theorem rules83_user (ho : OrnamentOk o) (hp : JsonText.ReadsBack parse) {enw : Env} {seg : Segmentation} (hseg : enw.seg = seg)
    {s s' : Server LuaState} (r : SafeServer R s) (hr : ServerRun s) {c : Nat} (hc : c ∈ s.index)
    (hu : UpToDate enw s.editor.core c) (hnew : notesTo c s.written = []) (h0 : s.delivered ≤ s.editor.core.out.length)
    (hsome : (screen c (s.editor.core.out.drop s.delivered)).isSome = true)
    {steps : List (Server.Step LuaState)} (hs : UserSchedule R seg c s steps) (h : s.loop steps = .ok (s', none))
    (hf : ∀ n ∈ notesTo c s'.written, Spec.Fits n) {cs : List Connection.Step} {conn : Connection T}
    (hread : linesOf cs = readLines ((wiresTo c s'.written).flatMap fun w => frame (w.encode o)))
    (hrun : Connection.new.run o parse cs = .ok conn) (hall : s'.delivered = s'.editor.core.out.length) :
    ∃ ctx items, s'.editor.core.clients.map.get c = some ctx ∧ s'.editor.core.viewParams enw c = .ok (c, items) ∧
      conn.state.view = items.map (seenItem o) ∧ List.Forall₂ (ShowsText s'.editor.core) ctx.view.buffers items := by
  obtain ⟨s1, rest, h1, r1, _, u1⟩ := rules83_loop ro hseg r hc hs hu
  rw [h] at h1
  cases h1
  obtain ⟨ha, hst⟩ := user_schedule ro r hs h
  obtain ⟨rc, _⟩ := safe_server ro r
  obtain ⟨her, hstop, _, _⟩ := server_run rc
  have hm := menus_editorRun (ced_run her)
  have hpre := (C65_none_lost hr hm hstop hc h0 ha hst h).2.1
  have hsome' : (screen c (s'.editor.core.out.drop s.delivered)).isSome = true := by
    obtain ⟨t, ht⟩ := hpre
    rw [← ht, List.drop_append_of_le_length h0, screen_append]
    cases screen c t with
    | none => exact hsome
    | some _ => rfl
  obtain ⟨items, h2, h3⟩ := C51_current ho hp hr hm hstop hc h0 ha hst h hnew hf hread hrun hall hsome' u1
  have k1 := (safe_server ro r1).2
  have hh : CoreHistory (fun _ _ => True) s'.editor.core := history_mono (fun _ _ _ => trivial) (ro.history k1)
  obtain ⟨_, ctx, h4, _, h5⟩ := C67_client hh h2
  exact ⟨ctx, items, h4, h2, h3, forall2_mono h5 fun _ _ _ hx => shows_text ro k1 hx⟩

/-- C83, for the first client of a server, from the start of the server. -/
theorem rules83_session (ho : OrnamentOk o) (hp : JsonText.ReadsBack parse) (ok : SafeEnv R eng env) {session : Str} {cwd : Path}
    {args cwdText : Str} (ha : R.text args) (hc : R.text cwdText) (hpath : R.text eng.path)
    (hnew : Ced.Editor.new env ⟨session, []⟩ (Scripts.prelude eng) session cwd args cwdText = .ok e) (c : Nat)
    {steps : List (Server.Step LuaState)}
    (hs : ∀ s, (Server.start e).turn env true (.join c) = .ok (s, false) → UserSchedule R env.core.seg c s steps) :
    ∃ s', (Server.start e).loop (.event env true (.join c) :: steps) = .ok s' ∧ SafeServer R s'.1 ∧ ∀ s1, s' = (s1, none) →
      (∀ n ∈ notesTo c s1.written, Spec.Fits n) → s1.delivered = s1.editor.core.out.length →
      ∀ {cs : List Connection.Step} {conn : Connection T},
        linesOf cs = readLines ((wiresTo c s1.written).flatMap fun w => frame (w.encode o)) →
        Connection.new.run o parse cs = .ok conn →
        ∃ ctx items, s1.editor.core.clients.map.get c = some ctx ∧ conn.state.view = items.map (seenItem o) ∧
          List.Forall₂ (ShowsText s1.editor.core) ctx.view.buffers items := by
  have r0 : SafeServer R (Server.start e) := .start ok ha hc hpath hnew
  obtain ⟨s, ht, hi, hw, hu⟩ := rules83_first ro ok ha hc hpath hnew c
  have hsafe : SafeEvent R eng env (Server.start e) (.join c) := ⟨List.not_mem_nil, fun _ => (new_world hnew).2.1⟩
  have r : SafeServer R s := .event ok r0 hsafe ht
  have hmem : c ∈ s.index := by rw [hi]; exact List.mem_cons_self
  obtain ⟨s', rest, h1, rs, _⟩ := rules83_loop ro rfl r hmem (hs s ht) hu
  refine ⟨(s', rest), by rw [Server.loop, ht]; exact h1, rs, ?_⟩
  rintro s1 he hf hall cs conn hread hrun
  cases he
  have hd : s.delivered = 0 := (written_join ht).2
  obtain ⟨ctx, items, k1, _, k3, k4⟩ := rules83_user ro ho hp rfl r (.event (.start e) ht) hmem hu (by rw [hw]; rfl)
    (by rw [hd]; exact Nat.zero_le _)
    (by obtain ⟨items, h2, _⟩ := hu; rw [hd, List.drop_zero, h2]; rfl) (hs s ht) h1 hf hread hrun hall
  exact ⟨ctx, items, k1, k3, k4⟩

end general

/-! ### Sessions in ASCII -/

/-- in ASCII, what `text()` is does not matter -/
theorem shows_ascii {w : World} (k : SafeHistory w) {name : Str} {item : ViewParamsItem} (h : ShowsText w name item) :
    ShowsBuffer w name item := by
  obtain ⟨h1, b, s, t, hb, hs, ht, _, _, _, hd⟩ := h
  have g := (safe_calm k).drawn.good name b hb
  have hw := (PieceTable.reachable_ready (World.texts_history (history_mono (fun _ _ _ => trivial) (safe_history k)) name b hb)).wf
  have hsc : b.content.content = s := (PieceTable.shows_iff hw).1 hs
  have := text_ascii hw g.text
  rw [ht, hsc] at this
  cases this
  exact ⟨h1, b, s, hb, hs, hd⟩

/-- C83: an event of the server, in any state reached by clients that keep to the rules of Spec/SafeServer.lean, keeps the
screen of a client up to date: whatever it asks for when it is alone; whatever the other clients ask for, the exceptions of
C69 aside. -/
theorem C83_turn {s s' : Server LuaState} (r : SafeServer .ascii s) (ok : SafeEnv .ascii eng env) {ev : ServerEvent} {last : Bool}
    (hs : SafeEvent .ascii eng env s ev) (h : s.turn env true ev = .ok (s', last)) {c : Nat} (hc : c ∈ s.index)
    (hk : ConsiderateEvent env c s ev) (hu : UpToDate env.core s.editor.core c) :
    c ∈ s'.index ∧ UpToDate env.core s'.editor.core c :=
  rules83_turn rules_ascii r ok hs h hc hk hu

/-- C83: so does a schedule of any length of such events, with deliveries in between; the server does not crash. -/
theorem C83_loop {steps : List (Server.Step LuaState)} {seg : Segmentation} {c : Nat} {enw : Env} (hseg : enw.seg = seg)
    {s : Server LuaState} (r : SafeServer .ascii s) (hc : c ∈ s.index) (hs : UserSchedule .ascii seg c s steps)
    (hu : UpToDate enw s.editor.core c) :
    ∃ s' rest, s.loop steps = .ok (s', rest) ∧ SafeServer .ascii s' ∧ c ∈ s'.index ∧ UpToDate enw s'.editor.core c :=
  rules83_loop rules_ascii hseg r hc hs hu

/-- C83: a client that joins, and whose view shows the log, has an up-to-date screen. -/
theorem C83_joins {s s' : Server LuaState} (r : SafeServer .ascii s) (ok : SafeEnv .ascii eng env) {c : Nat} {last : Bool}
    (hs : SafeEvent .ascii eng env s (.join c)) (h : s.turn env true (.join c) = .ok (s', last))
    (hl : Sees s'.editor.core c BUFFER_DEBUG) : c ∈ s'.index ∧ UpToDate env.core s'.editor.core c :=
  rules83_joins rules_ascii r ok hs h hl

/-- C83: so has the first client of a server. -/
theorem C83_first (ok : SafeEnv .ascii eng env) {session : Str} {cwd : Path} {args cwdText : Str} (ha : AsciiStr args)
    (hc : AsciiStr cwdText) (hp : AsciiStr eng.path)
    (h : Ced.Editor.new env ⟨session, []⟩ (Scripts.prelude eng) session cwd args cwdText = .ok e) (c : Nat) :
    ∃ s, (Server.start e).turn env true (.join c) = .ok (s, false) ∧ s.index = [c] ∧ s.written = [] ∧
      UpToDate env.core s.editor.core c :=
  rules83_first rules_ascii ok ha hc hp h c

/-- C83: a client that asks for a buffer, or goes to a view that exists, has an up-to-date screen. -/
theorem C83_opens {s s' : Server LuaState} (r : SafeServer .ascii s) (ok : SafeEnv .ascii eng env)
    (hp : JsonText.ReadsBack env.parse) {c : Nat} {call : Call} {id : RpcId} (hid : GoodId id) {last : Bool}
    (hs : SafeEvent .ascii eng env s (.message c (call.request id).encode.write))
    (h : s.turn env true (.message c (call.request id).encode.write) = .ok (s', last))
    (ho : (∃ name scratch, call = .edit name scratch) ∨
      ∃ v, call = .view v ∧ ∃ a, s'.written = s.written ++ [(c, .response a)] ∧ a.error = none) :
    UpToDate env.core s'.editor.core c :=
  rules83_opens rules_ascii r ok hp hid hs h ho

variable {T : Type} {o : Ornament T} {parse : Str → Option Json}

/-- C83, end to end: the user whose screen was up to date when it connected (see `C83_first` and `C83_joins`) sees, whenever
everything was delivered and read, exactly the present state of its view: all the lines of the buffers of its view, whatever
it and the others did in between, within the rules of Spec/SafeServer.lean and Spec/UserScreen.lean. -/
theorem C83_user (ho : OrnamentOk o) (hp : JsonText.ReadsBack parse) {enw : Env} {seg : Segmentation} (hseg : enw.seg = seg)
    {s s' : Server LuaState} (r : SafeServer .ascii s) (hr : ServerRun s) {c : Nat} (hc : c ∈ s.index)
    (hu : UpToDate enw s.editor.core c) (hnew : notesTo c s.written = []) (h0 : s.delivered ≤ s.editor.core.out.length)
    (hsome : (screen c (s.editor.core.out.drop s.delivered)).isSome = true)
    {steps : List (Server.Step LuaState)} (hs : UserSchedule .ascii seg c s steps) (h : s.loop steps = .ok (s', none))
    (hf : ∀ n ∈ notesTo c s'.written, Spec.Fits n) {cs : List Connection.Step} {conn : Connection T}
    (hread : linesOf cs = readLines ((wiresTo c s'.written).flatMap fun w => frame (w.encode o)))
    (hrun : Connection.new.run o parse cs = .ok conn) (hall : s'.delivered = s'.editor.core.out.length) :
    ∃ ctx items, s'.editor.core.clients.map.get c = some ctx ∧ s'.editor.core.viewParams enw c = .ok (c, items) ∧
      conn.state.view = items.map (seenItem o) ∧ List.Forall₂ (ShowsBuffer s'.editor.core) ctx.view.buffers items := by
  obtain ⟨s1, rest, h1, r1, _⟩ := C83_loop hseg r hc hs hu
  rw [h] at h1
  cases h1
  obtain ⟨ctx, items, e1, e2, e3, e4⟩ := rules83_user rules_ascii ho hp hseg r hr hc hu hnew h0 hsome hs h hf hread hrun hall
  exact ⟨ctx, items, e1, e2, e3, forall2_mono e4 fun _ _ _ hx => shows_ascii (safe_server rules_ascii r1).2 hx⟩

/-- C83, for the first client of a server, from the start of the server. -/
theorem C83_session (ho : OrnamentOk o) (hp : JsonText.ReadsBack parse) (ok : SafeEnv .ascii eng env) {session : Str} {cwd : Path}
    {args cwdText : Str} (ha : AsciiStr args) (hc : AsciiStr cwdText) (hpath : AsciiStr eng.path)
    (hnew : Ced.Editor.new env ⟨session, []⟩ (Scripts.prelude eng) session cwd args cwdText = .ok e) (c : Nat)
    {steps : List (Server.Step LuaState)}
    (hs : ∀ s, (Server.start e).turn env true (.join c) = .ok (s, false) → UserSchedule .ascii env.core.seg c s steps) :
    ∃ s', (Server.start e).loop (.event env true (.join c) :: steps) = .ok s' ∧ ∀ s1, s' = (s1, none) →
      (∀ n ∈ notesTo c s1.written, Spec.Fits n) → s1.delivered = s1.editor.core.out.length →
      ∀ {cs : List Connection.Step} {conn : Connection T},
        linesOf cs = readLines ((wiresTo c s1.written).flatMap fun w => frame (w.encode o)) →
        Connection.new.run o parse cs = .ok conn →
        ∃ ctx items, s1.editor.core.clients.map.get c = some ctx ∧ conn.state.view = items.map (seenItem o) ∧
          List.Forall₂ (ShowsBuffer s1.editor.core) ctx.view.buffers items := by
  obtain ⟨s', h1, r1, h2⟩ := rules83_session rules_ascii ho hp ok ha hc hpath hnew c hs
  refine ⟨s', h1, fun s1 he hf hall cs conn hread hrun => ?_⟩
  obtain ⟨ctx, items, k1, k3, k4⟩ := h2 s1 he hf hall hread hrun
  subst he
  exact ⟨ctx, items, k1, k3, forall2_mono k4 fun _ _ _ hx => shows_ascii (safe_server rules_ascii r1).2 hx⟩

/-! ### Sessions in any characters -/

/-- C95: the first client of a server of a session in any characters has an up-to-date screen. -/
theorem C95_first {g : Segmentation} (ok : SafeEnv (.any g) eng env) {session : Str} {cwd : Path} {args cwdText : Str}
    (h : Ced.Editor.new env ⟨session, []⟩ (Scripts.prelude eng) session cwd args cwdText = .ok e) (c : Nat) :
    ∃ s, (Server.start e).turn env true (.join c) = .ok (s, false) ∧ s.index = [c] ∧ s.written = [] ∧
      UpToDate env.core s.editor.core c :=
  rules83_first (rules_any ok.seg.2) ok trivial trivial trivial h c

/-- C95: whatever it and the others ask for, within the rules for texts of any characters and those of Spec/UserScreen.lean, the
screen of a client stays up to date, and the server does not crash. -/
theorem C95_screens {g : Segmentation} (hg : IsSegmentation g) {steps : List (Server.Step LuaState)} {c : Nat} {enw : Env}
    (hseg : enw.seg = g) {s : Server LuaState} (r : SafeServer (.any g) s) (hc : c ∈ s.index)
    (hs : UserSchedule (.any g) g c s steps) (hu : UpToDate enw s.editor.core c) :
    ∃ s' rest, s.loop steps = .ok (s', rest) ∧ SafeServer (.any g) s' ∧ c ∈ s'.index ∧ UpToDate enw s'.editor.core c :=
  rules83_loop (rules_any hg) hseg r hc hs hu

/-- C95, end to end: a user sees, whenever everything was delivered and read, the present state of its view. -/
theorem C95_user {g : Segmentation} (hg : IsSegmentation g) (ho : OrnamentOk o) (hp : JsonText.ReadsBack parse) {enw : Env}
    (hseg : enw.seg = g) {s s' : Server LuaState} (r : SafeServer (.any g) s) (hr : ServerRun s) {c : Nat} (hc : c ∈ s.index)
    (hu : UpToDate enw s.editor.core c) (hnew : notesTo c s.written = []) (h0 : s.delivered ≤ s.editor.core.out.length)
    (hsome : (screen c (s.editor.core.out.drop s.delivered)).isSome = true)
    {steps : List (Server.Step LuaState)} (hs : UserSchedule (.any g) g c s steps) (h : s.loop steps = .ok (s', none))
    (hf : ∀ n ∈ notesTo c s'.written, Spec.Fits n) {cs : List Connection.Step} {conn : Connection T}
    (hread : linesOf cs = readLines ((wiresTo c s'.written).flatMap fun w => frame (w.encode o)))
    (hrun : Connection.new.run o parse cs = .ok conn) (hall : s'.delivered = s'.editor.core.out.length) :
    ∃ ctx items, s'.editor.core.clients.map.get c = some ctx ∧ s'.editor.core.viewParams enw c = .ok (c, items) ∧
      conn.state.view = items.map (seenItem o) ∧ List.Forall₂ (ShowsText s'.editor.core) ctx.view.buffers items :=
  rules83_user (rules_any hg) ho hp hseg r hr hc hu hnew h0 hsome hs h hf hread hrun hall

/-- C95, for the first client of a server, from the start of the server; here the clusters are any, and no cursor moves. -/
theorem C95_still_session (ho : OrnamentOk o) (hp : JsonText.ReadsBack parse) (ok : SafeEnv .still eng env) {session : Str}
    {cwd : Path} {args cwdText : Str}
    (hnew : Ced.Editor.new env ⟨session, []⟩ (Scripts.prelude eng) session cwd args cwdText = .ok e) (c : Nat)
    {steps : List (Server.Step LuaState)}
    (hs : ∀ s, (Server.start e).turn env true (.join c) = .ok (s, false) → UserSchedule .still env.core.seg c s steps) :
    ∃ s', (Server.start e).loop (.event env true (.join c) :: steps) = .ok s' ∧ SafeServer .still s'.1 ∧ ∀ s1, s' = (s1, none) →
      (∀ n ∈ notesTo c s1.written, Spec.Fits n) → s1.delivered = s1.editor.core.out.length →
      ∀ {cs : List Connection.Step} {conn : Connection T},
        linesOf cs = readLines ((wiresTo c s1.written).flatMap fun w => frame (w.encode o)) →
        Connection.new.run o parse cs = .ok conn →
        ∃ ctx items, s1.editor.core.clients.map.get c = some ctx ∧ conn.state.view = items.map (seenItem o) ∧
          List.Forall₂ (ShowsText s1.editor.core) ctx.view.buffers items :=
  rules83_session rules_still ho hp ok trivial trivial trivial hnew c hs

/-- C95, for the first client of a server, from the start of the server. -/
theorem C95_session {g : Segmentation} (ho : OrnamentOk o) (hp : JsonText.ReadsBack parse) (ok : SafeEnv (.any g) eng env)
    {session : Str} {cwd : Path} {args cwdText : Str}
    (hnew : Ced.Editor.new env ⟨session, []⟩ (Scripts.prelude eng) session cwd args cwdText = .ok e) (c : Nat)
    {steps : List (Server.Step LuaState)}
    (hs : ∀ s, (Server.start e).turn env true (.join c) = .ok (s, false) → UserSchedule (.any g) env.core.seg c s steps) :
    ∃ s', (Server.start e).loop (.event env true (.join c) :: steps) = .ok s' ∧ SafeServer (.any g) s'.1 ∧ ∀ s1, s' = (s1, none) →
      (∀ n ∈ notesTo c s1.written, Spec.Fits n) → s1.delivered = s1.editor.core.out.length →
      ∀ {cs : List Connection.Step} {conn : Connection T},
        linesOf cs = readLines ((wiresTo c s1.written).flatMap fun w => frame (w.encode o)) →
        Connection.new.run o parse cs = .ok conn →
        ∃ ctx items, s1.editor.core.clients.map.get c = some ctx ∧ conn.state.view = items.map (seenItem o) ∧
          List.Forall₂ (ShowsText s1.editor.core) ctx.view.buffers items :=
  rules83_session (rules_any ok.seg.2) ho hp ok trivial trivial trivial hnew c hs

/-! ### A concrete session -/

def considerateDirectB (c d : Nat) : Call → Bool
  | .exec _ => false
  | .viewAdd _ => d == c
  | .viewRemove _ => d == c
  | .keys ks => d == c || ks.all fun k => decide (k.display ≠ str!"d")
  | _ => true

theorem considerateDirectB_ok {c d : Nat} {call : Call} (h : considerateDirectB c d call = true) : Considerate c d call := by
  cases call with
  | exec _ => cases h
  | viewAdd b => exact show d = c by simpa [considerateDirectB] using h
  | viewRemove b => exact show d = c by simpa [considerateDirectB] using h
  | keys ks =>
    rcases Bool.or_eq_true_iff.1 h with h | h
    · exact .inl (by simpa using h)
    · exact .inr fun k hk => by simpa using List.all_eq_true.1 h k hk
  | _ => trivial

def considerateCallB (c d : Nat) : Call → Bool
  | .menuSelect command choice => match selectCall command choice with | none => true | some call => considerateDirectB c d call
  | call => considerateDirectB c d call

theorem considerateCallB_ok {c d : Nat} {call : Call} (h : considerateCallB c d call = true) : ConsiderateCall c d call := by
  cases call with
  | menuSelect command choice =>
    intro call hc
    have h : (match selectCall command choice with | none => true | some call => considerateDirectB c d call) = true := h
    rw [hc] at h
    exact considerateDirectB_ok h
  | quit => trivial
  | edit n x => trivial
  | view id => trivial
  | viewDelete => trivial
  | menu n x => trivial
  | viewAdd b => exact considerateDirectB_ok (call := .viewAdd b) h
  | viewRemove b => exact considerateDirectB_ok (call := .viewRemove b) h
  | keys ks => exact considerateDirectB_ok (call := .keys ks) h
  | exec x => cases h

def considerateB (c : Nat) (s : Server LuaState) : SafeDo → Bool
  | .join _ => true
  | .leave d => d != c
  | .call d call => s.index == [c] || considerateCallB c d call
  | .junk _ _ => true

theorem considerateB_ok {c : Nat} {s : Server LuaState} {x : SafeDo} (hd : safeDoB s x = true) (h : considerateB c s x = true) :
    ConsiderateEvent safeEnvA c s x.event := by
  cases x with
  | join d => trivial
  | leave d => exact show d ≠ c by simpa [considerateB] using h
  | call d call =>
    rcases Bool.or_eq_true_iff.1 h with h | h
    · exact .inl (by simpa using h)
    · refine .inr fun q call' hq ha => ?_
      obtain ⟨q', hq', _, hm, hr⟩ := C38_call (id := .number 1) (by exact ⟨by decide, by decide⟩) call
      rw [show safeEnvA.parse = JsonText.parse from rfl, JsonText.parse_write, Option.bind_some, hq'] at hq
      cases hq
      rw [asks_unique ha ⟨hm, hr⟩]
      exact considerateCallB_ok h
  | junk d line =>
    refine .inr fun q call hq _ => ?_
    unfold safeDoB at hd
    simp only [Bool.and_eq_true, Option.isNone_iff_eq_none] at hd
    rw [show (safeEnvA.parse line).bind Request.decode = none from hd.2] at hq
    cases hq

/-- what happens, and five deliveries after each event -/
def userSteps (xs : List SafeDo) : List (Server.Step LuaState) :=
  xs.flatMap fun x => [.event safeEnvA true x.event, .deliver [], .deliver [], .deliver [], .deliver [], .deliver []]

def delivered5 (s : Server LuaState) : Server LuaState :=
  ((((s.deliver []).deliver []).deliver []).deliver []).deliver []

def userB (c : Nat) : Server LuaState → List SafeDo → Bool
  | _, [] => true
  | s, x :: xs => safeDoB s x && considerateB c s x &&
    match s.turn safeEnvA true x.event with | .ok (s', _) => userB c (delivered5 s') xs | .error _ => false

theorem userB_ok {c : Nat} : ∀ {xs : List SafeDo} {s : Server LuaState}, SafeServer .ascii s → userB c s xs = true →
    UserSchedule .ascii safeEnvA.core.seg c s (userSteps xs)
  | [], _, _, _ => trivial
  | x :: xs, s, r, h => by
    unfold userB at h
    rw [Bool.and_eq_true, Bool.and_eq_true] at h
    have he := safeDoB_ok (safe_server rules_ascii r).2 h.1.1
    refine ⟨rfl, rfl, ⟨engA, safeEnvA_ok, he⟩, considerateB_ok h.1.1 h.1.2, fun s' ht => ?_⟩
    have h2 := h.2
    rw [ht] at h2
    refine ⟨List.not_mem_nil, List.not_mem_nil, List.not_mem_nil, List.not_mem_nil, List.not_mem_nil, ?_⟩
    exact userB_ok (.deliver _ (.deliver _ (.deliver _ (.deliver _ (.deliver _ (.event safeEnvA_ok r he ht)))))) h2

/-- The first client opens a file, moves in it and deletes; a second one joins, adds files, moves, closes a view and leaves;
the first one runs a script. -/
def userDos : List SafeDo :=
  [.call 1 (.edit ['f'] false), .call 1 (.keys [press 'l', press 'g', press 'l']), .join 2, .call 2 (.edit ['g'] false),
   .call 2 (.keys [press 'l', press 'i']), .junk 2 (str!"hello"), .call 1 (.viewAdd ['g']), .call 1 (.keys [press 'd']), .call 2 .viewDelete,
   .leave 2, .call 1 (.exec (str!"hi"))]

def userServer : Except Crash (Server LuaState) := do
  let e ← Server.lift (Ced.Editor.new safeEnvA ⟨str!"s", []⟩ (Scripts.prelude engA) str!"s" [] [] [])
  let (s, _) ← (Server.start e).turn safeEnvA true (.join 1)
  return s

def userEnd : Except Crash (Server LuaState) := do
  let s ← userServer
  let (s, _) ← s.loop (userSteps userDos ++ List.replicate 20 (.deliver []))
  return s

/-- the schedule keeps to the rules -/
example : userServer.toOption.map (fun s => userB 1 s userDos) = some true := by decide +kernel

/-- what the first client then has on its screen: the buffers, with their texts -/
def userShown : List (Str × List Str) :=
  match userEnd with
  | .error _ => []
  | .ok s => if s.delivered = s.editor.core.out.length then
      match Connection.new.run fragmentTexts JsonText.parse
        ((readLines ((wiresTo 1 s.written).flatMap fun w => frame (w.encode fragmentTexts))).map .line) with
      | .error _ => []
      | .ok c => c.state.view.flatMap fun i => i.lenses.map fun l => (i.buffer, l.lines.map fun t => t.flatMap (·.1))
    else []

/-- everything was delivered, and the screen of the client shows both files as they are after the deletion -/
example : userShown = [(['f'], [str!"1234 "]), (['g'], [str!" ", str!"b "])] := by
  decide +kernel

end Ced.Props
