import Verif.Model.Standalone
import Verif.Props.Session

/-!
# C59: starting without a server; C71: the standalone session
-/

namespace Ced.Props

open Standalone

/-- The client is the only one. -/
def Alone (w : World) (c : Nat) : Prop := ∃ x, w.clients.map = [(c, x)]

/-- No client sees the debug buffer. -/
def Quiet (w : World) : Prop := ∀ p ∈ w.clients.map, p.2.view.containsBuffer BUFFER_DEBUG = false

theorem updates_length (params : List (Nat × List ViewParamsItem)) : (World.updates params).length = params.length := by
  simp [World.updates]

theorem mapM_length {α β : Type} {f : α → R β} {l : List α} {r : List β} (h : l.mapM f = .ok r) :
    r.length = l.length := by
  induction l generalizing r with
  | nil => cases h; rfl
  | cons a l ih =>
    rw [List.mapM_cons] at h
    obtain ⟨b, _, h⟩ := bind_inv h
    obtain ⟨bs, hbs, h⟩ := bind_inv h
    cases h
    simp [ih hbs]

theorem notify_count {env : Env} {w w' : World} {ids : List Nat} (h : w.notifyViewUpdate env ids = .ok w') :
    w'.out.length = w.out.length + ids.length ∧ w'.clients = w.clients := by
  obtain ⟨ps, hps, rfl⟩ := World.notify_ok h
  refine ⟨?_, rfl⟩
  show (w.out ++ World.updates ps).length = _
  rw [List.length_append, updates_length, mapM_length hps]

/-- Logging sends one message to each client that sees the debug buffer. -/
theorem debug_count {env : Env} {w w' : World} {line : Str} (h : w.debug env line = .ok w') :
    w'.clients = w.clients ∧ w'.out.length = w.out.length + (if w.debugMode then
      (w.clients.map.filterMap fun c => if c.2.view.containsBuffer BUFFER_DEBUG then some c.1 else none).length else 0) := by
  unfold World.debug at h
  split at h
  · rename_i hd
    have key : ∃ w1 : World, w1.notifyViewUpdate env (w1.clientsWithBuffer BUFFER_DEBUG) = .ok w' ∧ w1.clients = w.clients ∧
        w1.out = w.out ∧ w1.bufferExists BUFFER_DEBUG = true := by
      unfold World.appendTo at h
      cases hg : w.buffers.get BUFFER_DEBUG with
      | none =>
        rw [hg] at h
        exact ⟨_, h, rfl, rfl, by simp [World.openScratch, World.bufferExists, Assoc.has_set]⟩
      | some b =>
        rw [hg] at h
        exact ⟨_, h, rfl, rfl, by simp [World.bufferExists, Assoc.has_set]⟩
    obtain ⟨w1, h1, hc, ho, hb⟩ := key
    obtain ⟨h2, h3⟩ := notify_count h1
    refine ⟨by rw [h3, hc], ?_⟩
    rw [h2, ho, World.clientsWithBuffer, hb, if_neg (by decide), hc]
    simp [hd]
  · cases h
    rename_i hd
    exact ⟨rfl, by simp [hd]⟩

theorem quiet_debug {env : Env} {w w' : World} {line : Str} (hq : Quiet w) (h : w.debug env line = .ok w') :
    w'.clients = w.clients ∧ w'.out.length = w.out.length := by
  obtain ⟨h1, h2⟩ := debug_count h
  refine ⟨h1, ?_⟩
  rw [h2]
  have : (w.clients.map.filterMap fun c => if c.2.view.containsBuffer BUFFER_DEBUG then some c.1 else none) = [] := by
    rw [List.filterMap_eq_nil_iff]
    intro p hp
    rw [hq p hp]; rfl
  rw [this]; simp

/-- Opening a file by the only client sends it one message; afterwards it does not see the debug buffer. -/
theorem edit_alone {env : Env} {w w' : World} {c : Nat} {name : Str} (ha : Alone w c) (hn : name ≠ BUFFER_DEBUG)
    (hq : w.buffers.get name = none ∨ Quiet w) (h : w.edit env c name false = .ok w') :
    Alone w' c ∧ Quiet w' ∧ w'.out.length = w.out.length + 1 := by
  unfold World.edit at h
  obtain ⟨⟨w1, n⟩, h1, h'⟩ := bind_inv h
  clear h
  have s1 : w1.clients = w.clients ∧ w1.out.length = w.out.length := by
    unfold World.openForEdit at h1
    cases hg : w.buffers.get name with
    | none =>
      rw [hg] at h1
      obtain ⟨w2, h2, h1⟩ := bind_inv h1
      cases h1
      obtain ⟨b, _, rfl⟩ := World.openFile_ok h2
      exact ⟨rfl, rfl⟩
    | some b =>
      rw [hg] at h1
      have hq : Quiet w := hq.resolve_left (by rw [hg]; simp)
      obtain ⟨⟨b', re⟩, _, h1⟩ := bind_inv h1
      dsimp only at h1
      split at h1
      · obtain ⟨w2, h2, h1⟩ := bind_inv h1
        cases h1
        exact quiet_debug (w := { w with buffers := w.buffers.set name b' }) hq h2
      · cases h1; exact ⟨rfl, rfl⟩
  obtain ⟨x, hx⟩ := ha
  dsimp only at h'
  obtain ⟨st, e2, _⟩ := World.addView_ok w1 (View.forBuffer name)
  rw [e2] at h'
  simp only [except_bind_ok] at h'
  obtain ⟨⟨w3, er⟩, h3, h'⟩ := bind_inv h'
  have s3 : er = none → Alone w3 c ∧ Quiet w3 ∧ w3.out.length = w.out.length + 1 := by
    rintro rfl
    unfold World.view at h3
    have hv : World.viewExists { w1 with
      views := { stack := (View.forBuffer name).key :: st, map := w1.views.map.set (View.forBuffer name).key (View.forBuffer name) },
      clients := { w1.clients with map := w1.clients.map.mapVals fun _ ctx => World.addSelections (View.forBuffer name) ctx } }
        (View.forBuffer name).key = true := by
      simp [World.viewExists, Assoc.has_set]
    rw [if_pos hv] at h3
    obtain ⟨v, hv, h3⟩ := bind_inv h3
    obtain ⟨ctx, hctx, h3⟩ := bind_inv h3
    obtain ⟨w4, h4, h3⟩ := bind_inv h3
    cases h3
    have hv' : v = View.forBuffer name := by
      have := Assoc.at_inv hv
      dsimp only at this
      rw [Assoc.get_set_self] at this
      injection this with this
      exact this.symm
    subst hv'
    obtain ⟨hl, hc⟩ := notify_count h4
    have hm : w3.clients.map = [(c, { ctx with view := View.forBuffer name })] := by
      rw [hc]
      dsimp only
      rw [s1.1, hx]
      simp [Assoc.mapVals, Assoc.set]
    refine ⟨⟨_, hm⟩, ?_, ?_⟩
    · intro p hp
      rw [hm, List.mem_singleton] at hp
      subst hp
      
      have hf : View.forBuffer name = [(name, [.whole])] := rfl
      rw [hf]
      simp [View.containsBuffer, hn]
    · rw [hl]; simp [s1.2]
  dsimp only at h'
  cases er with
  | some _ => cases h'
  | none =>
    obtain ⟨a3, q3, o3⟩ := s3 rfl
    dsimp only at h'
    obtain ⟨w5, h5, h'⟩ := bind_inv h'
    obtain ⟨c5, o5⟩ := quiet_debug q3 h5
    have a5 : Alone w5 c := by unfold Alone; rw [c5]; exact a3
    have q5 : Quiet w5 := by unfold Quiet; rw [c5]; exact q3
    split at h'
    · have hnil : (w5.clientsWithBuffer name).filter (· ≠ c) = [] := by
        rw [List.filter_eq_nil_iff]
        intro d hd
        unfold World.clientsWithBuffer at hd
        split at hd
        · cases hd
        · obtain ⟨y, hy⟩ := a5
          rw [hy, List.mem_filterMap] at hd
          obtain ⟨p, hp, hd⟩ := hd
          rw [List.mem_singleton] at hp
          subst hp
          split at hd
          · injection hd with hd; simp [← hd]
          · cases hd
      rw [hnil] at h'
      obtain ⟨k1, k2⟩ := notify_count h'
      refine ⟨by unfold Alone; rw [k2]; exact a5, by unfold Quiet; rw [k2]; exact q5, ?_⟩
      rw [k1]; simp only [List.length_nil]; omega
    · cases h'
      exact ⟨a5, q5, by omega⟩

/-- The files of a command line whose names are ordinary: not the debug buffer, and the first one is not the name of a
buffer that is open from the start. -/
def FileNames (files : List Str) : Prop :=
  BUFFER_DEBUG ∉ files ∧ files.head? ≠ some BUFFER_SCRATCH

theorem openFiles_count {L : Type} {env : EditorEnv L} {files : List Str} {e : Editor L} {r : Started L}
    (ha : Alone e.core Standalone.client) (hn : BUFFER_DEBUG ∉ files)
    (hq : (∀ f, files.head? = some f → e.core.buffers.get f = none) ∨ Quiet e.core)
    (h0 : e.core.out.length ≤ 100)
    (h : openFiles env e files = .ok r) :
    (∃ e', r = .ready e') ↔
      e.core.out.length + files.length ≤ 100 := by
  induction files generalizing e with
  | nil => cases h; exact ⟨fun _ => h0, fun _ => ⟨e, rfl⟩⟩
  | cons f fs ih =>
    unfold openFiles at h
    obtain ⟨⟨e1, a⟩, h1, h⟩ := bind_inv h
    unfold Editor.commandEdit at h1
    obtain ⟨w, hw, h1⟩ := bind_inv h1
    cases h1
    rw [List.mem_cons, not_or] at hn
    obtain ⟨a1, q1, o1⟩ := edit_alone ha (Ne.symm hn.1) (hq.imp_left fun hh => hh f rfl) hw
    dsimp only at h
    split at h
    · rename_i hf
      have hf' : w.out.length ≤ 100 := of_decide_eq_true hf
      have := ih (e := { e with core := w }) a1 hn.2 (.inr q1) hf' h
      dsimp only at this
      rw [o1] at this
      simp only [List.length_cons]
      rw [this]
      omega
    · rename_i hf
      cases h
      have hf' : ¬ w.out.length ≤ 100 := fun hh => hf (decide_eq_true hh)
      simp only [List.length_cons]
      constructor
      · rintro ⟨e', hr⟩; cases hr
      · intro hl; omega

theorem empty_debug {env : Env} {w w' : World} {line : Str} (hq : w.clients.map = []) (h : w.debug env line = .ok w') :
    w'.out.length = w.out.length :=
  (quiet_debug (by intro p hp; rw [hq] at hp; cases hp) h).2

/-- A new editor: no clients, nothing sent, one view, with the debug and the scratch buffer. -/
theorem start_world {env : Env} {cwd : Path} {args cwdText : Str} {w : World}
    (h : World.start env cwd args cwdText = .ok w) :
    w.clients.map = [] ∧ w.clients.stack = [] ∧ w.out.length = 0 ∧ w.debugMode = true ∧
      w.views.latestValue = some [(BUFFER_DEBUG, [.whole]), (BUFFER_SCRATCH, [.whole])] ∧
      ∀ n, n ≠ BUFFER_DEBUG → n ≠ BUFFER_SCRATCH → w.buffers.get n = none := by
  obtain ⟨c1, c2⟩ := World.start_clients h
  refine ⟨c1, c2, ?_⟩
  unfold World.start at h
  obtain ⟨w1, h1, h'⟩ := bind_inv h
  clear h
  obtain ⟨w2, h2, h'⟩ := bind_inv h'
  have l1 := World.debug_ok h1
  have l2 := World.debug_ok h2
  have o1 := empty_debug (w := World.new cwd) rfl h1
  have o2 := empty_debug (w := w1) (by rw [l1.clients]; rfl) h2
  obtain ⟨st, e, -⟩ := World.addView_ok (w2.openScratch BUFFER_SCRATCH [])
    ((View.addLens [] BUFFER_DEBUG .whole).addLens BUFFER_SCRATCH .whole)
  dsimp only at h'
  rw [e] at h'
  cases h'
  refine ⟨?_, ?_, ?_, ?_⟩
  · show w2.out.length = 0
    rw [o2, o1]; rfl
  · show w2.debugMode = true
    rw [l2.mode, l1.mode]; rfl
  · have hv : ((View.addLens [] BUFFER_DEBUG .whole).addLens BUFFER_SCRATCH .whole) =
        [(BUFFER_DEBUG, [.whole]), (BUFFER_SCRATCH, [.whole])] := by decide +kernel
    rw [hv]
    simp [StackMap.latestValue, StackMap.latest, Assoc.get_set_self]
  · intro n hn hs
    show Assoc.get (Assoc.set w2.buffers BUFFER_SCRATCH _) n = none
    rw [Assoc.get_set_ne _ hs, l2.others n hn, l1.others n hn]
    rfl

/-- The scripts of ced tell a new client three things: what it sees, who it is, and its status line. -/
theorem joined_standard {eng : LuaEngine} {env : EditorEnv LuaState} (hs : env.lua = Scripts.lua eng) {lua : LuaState}
    {cwd : Path} {args cwdText : Str} {e0 e : Editor LuaState}
    (h0 : Editor.new env lua (Scripts.prelude eng) [] cwd args cwdText = .ok e0)
    (h : e0.addClient env Standalone.client = .ok e) :
    Alone e.core Standalone.client ∧ e.core.out.length = 3 ∧
      ∀ n, n ≠ BUFFER_DEBUG → n ≠ BUFFER_SCRATCH → e.core.buffers.get n = none := by
  unfold Editor.new at h0
  obtain ⟨w, hw, h0⟩ := bind_inv h0
  obtain ⟨c1, c2, o1, d1, v1, b1⟩ := start_world hw
  obtain ⟨⟨l, w', er⟩, hp, h0⟩ := bind_inv h0
  unfold Scripts.prelude at hp
  obtain ⟨w2, h2, hp⟩ := bind_inv hp
  obtain ⟨w3, h3, hp⟩ := bind_inv hp
  cases hp
  cases h0
  have l2 := World.debug_ok h2
  have l3 := World.debug_ok h3
  have o2 := empty_debug c1 h2
  have o3 := empty_debug (by rw [l2.clients, c1]) h3
  unfold Editor.addClient World.addClient at h
  obtain ⟨w4, h4, h'⟩ := bind_inv h
  clear h
  dsimp only at h4 h'
  obtain ⟨ctx, hctx, h4⟩ := bind_inv h4
  obtain ⟨⟨cs, o⟩, hcs, h4⟩ := bind_inv h4
  obtain ⟨w5, h5, h4⟩ := bind_inv h4
  cases h4
  have hcl : w'.clients = w.clients := by rw [l3.clients, l2.clients]
  have hview : ctx.view = [(BUFFER_DEBUG, [.whole]), (BUFFER_SCRATCH, [.whole])] := by
    unfold World.joinContext at hctx
    have hlat : w'.clients.latest = none := by
      rw [hcl]; simp [StackMap.latest, c2]
    rw [hlat] at hctx
    dsimp only at hctx
    have hv : w'.views.latestValue = w.views.latestValue := by rw [l3.views, l2.views]
    rw [hv, v1] at hctx
    cases hctx
    rfl
  obtain ⟨st, e1, -⟩ := StackMap.insert_ok w'.clients Standalone.client ctx
  rw [e1] at hcs
  cases hcs
  have hmap : (Assoc.set w'.clients.map Standalone.client ctx) = [(Standalone.client, ctx)] := by
    rw [hcl, c1]; rfl
  obtain ⟨k1, k2⟩ := debug_count h5
  have l5 := World.debug_ok h5
  dsimp only at k1 k2
  rw [hmap] at k1 k2
  have d3 : w'.debugMode = true := by rw [l3.mode, l2.mode, d1]
  have k3 : w5.out.length = 1 := by
    rw [k2, d3]
    simp [hview, View.containsBuffer, o3, o2, o1]
  unfold Editor.execLua at h'
  rw [hs] at h'
  simp only [Scripts.lua, Scripts.addClient, except_bind_ok] at h'
  cases h'
  refine ⟨⟨ctx, ?_⟩, ?_, ?_⟩
  · show w5.clients.map = _
    rw [k1]
  · show ((w5.out ++ [_]) ++ [_]).length = 3
    simp [k3]
  · intro n hn hsn
    show w5.buffers.get n = none
    rw [l5.others n hn]
    show w'.buffers.get n = none
    rw [l3.others n hn, l2.others n hn, b1 n hn hsn]

/-- C59: starting with files of ordinary names — if it does not crash on one of them — gets ready exactly if there are
at most 97 files; with more it waits for ever. -/
theorem C59_ready {eng : LuaEngine} {env : EditorEnv LuaState} (hs : env.lua = Scripts.lua eng) {lua : LuaState}
    {cwd : Path} {args cwdText : Str} {files : List Str} (hf : FileNames files) {r : Started LuaState}
    (h : Standalone.start env lua (Scripts.prelude eng) cwd args cwdText files = .ok r) :
    (∃ e, r = .ready e) ↔ files.length ≤ 97 := by
  unfold Standalone.start at h
  obtain ⟨e0, h0, h'⟩ := bind_inv h
  clear h
  obtain ⟨e1, h1, h'⟩ := bind_inv h'
  obtain ⟨a1, o1, b1⟩ := joined_standard hs h0 h1
  have hfits : fits e1 = true := decide_eq_true (by rw [o1]; decide)
  rw [if_pos hfits] at h'
  have key := openFiles_count a1 hf.1 (.inl fun f hh => b1 f
    (fun e => hf.1 (e ▸ List.mem_of_mem_head? hh)) (fun e => hf.2 (e ▸ hh))) (by omega) h'
  rw [o1] at key
  rw [key]
  omega

/-- the notifications of a standalone editor just after its client joined -/
theorem start_cwd {env : Env} {cwd : Path} {args cwdText : Str} {w : World}
    (h : World.start env cwd args cwdText = .ok w) : w.cwd = cwd := by
  unfold World.start at h
  obtain ⟨w1, h1, h⟩ := bind_inv h
  obtain ⟨w2, h2, h⟩ := bind_inv h
  obtain ⟨st, e, -⟩ := World.addView_ok (w2.openScratch BUFFER_SCRATCH []) ((View.addLens [] BUFFER_DEBUG .whole).addLens BUFFER_SCRATCH .whole)
  have h' := e.symm.trans h
  cases h'
  show w2.cwd = cwd
  rw [(World.debug_ok h2).cwd, (World.debug_ok h1).cwd]
  rfl

theorem joined_out {eng : LuaEngine} {env : EditorEnv LuaState} (hs : env.lua = Scripts.lua eng) {lua : LuaState}
    {cwd : Path} {args cwdText : Str} {e0 e : Editor LuaState}
    (h0 : Editor.new env lua (Scripts.prelude eng) [] cwd args cwdText = .ok e0)
    (h : e0.addClient env Standalone.client = .ok e) :
    ∃ v, e.core.out = [⟨some [1], .view v⟩, ⟨some [1], .info str!"1" [] cwd⟩,
      ⟨some [1], .status [(100, str!"[1@" ++ lua.session ++ str!"]")]⟩] := by
  obtain ⟨ha, hlen, -⟩ := joined_standard hs h0 h
  have l0 : e0.core.out = [] ∧ (∀ c, e0.core.clients.map.has c = false) ∧ e0.session = [] ∧ e0.lua.session = lua.session ∧
      e0.core.cwd = cwd := by
    unfold Editor.new at h0
    obtain ⟨w, hw, h0⟩ := bind_inv h0
    obtain ⟨c1, c2, o1, d1, v1, b1⟩ := start_world hw
    obtain ⟨⟨l, w', er⟩, hp, h0⟩ := bind_inv h0
    unfold Scripts.prelude at hp
    obtain ⟨w2, h2, hp⟩ := bind_inv hp
    obtain ⟨w3, h3, hp⟩ := bind_inv hp
    cases hp
    cases h0
    have l2 := World.debug_ok h2
    have l3 := World.debug_ok h3
    have o2 := empty_debug c1 h2
    have o3 := empty_debug (by rw [l2.clients, c1]) h3
    refine ⟨List.eq_nil_of_length_eq_zero (by show w'.out.length = 0; omega), fun c => ?_, rfl, rfl,
      by show w'.cwd = cwd; rw [l3.cwd, l2.cwd, start_cwd hw]⟩
    show w'.clients.map.has c = false
    rw [l3.clients, l2.clients, c1]
    rfl
  obtain ⟨w, h1, e1, o, h2, rfl⟩ := add_inv h
  unfold Editor.execLua at h2
  rw [hs] at h2
  simp only [Scripts.lua, Scripts.addClient, except_bind_ok] at h2
  cases h2
  unfold World.addClient at h1
  obtain ⟨ctx, hctx, h1⟩ := bind_inv h1
  obtain ⟨⟨cs, o⟩, hcs, h1⟩ := bind_inv h1
  obtain ⟨w5, h5, h1⟩ := bind_inv h1
  cases h1
  obtain ⟨hsame, new, hnew, hviews⟩ := World.sends_debug h5
  dsimp only at hnew
  rw [l0.1, List.nil_append] at hnew
  have hone : w5.out.length = 1 := by
    have : (w5.out ++ [_] ++ [_]).length = 3 := hlen
    simpa using this
  rw [hnew] at hone
  obtain ⟨x, rfl⟩ : ∃ x, new = [x] := by
    match new, hone with
    | [x], _ => exact ⟨x, rfl⟩
  obtain ⟨c, items, rfl, hc⟩ := hviews x (List.mem_singleton.2 rfl)
  obtain ⟨st, e1, -⟩ := StackMap.insert_ok e0.core.clients Standalone.client ctx
  rw [e1] at hcs
  cases hcs
  have hc1 : c = 1 := by
    have hc : (e0.core.clients.map.set Standalone.client ctx).has c = true := hc
    rw [Assoc.has_set, l0.2.1 c] at hc
    simp [Standalone.client] at hc
    exact of_decide_eq_true hc
  subst hc1
  have hcwd : w5.cwd = cwd := by
    have := (World.debug_ok h5).cwd
    rw [this, ← l0.2.2.2.2]
  refine ⟨items, ?_⟩
  show (w5.out ++ [_]) ++ [_] = _
  rw [hnew, l0.2.2.1, hcwd]
  show _ = _ :: _ :: [(⟨some [1], .status [(100, str!"[1@" ++ lua.session ++ str!"]")]⟩ : Broadcast)]
  rw [← l0.2.2.2.1]
  rfl

theorem openFiles_sends {L : Type} {env : EditorEnv L} {files : List Str} {e e' : Editor L}
    (h : openFiles env e files = .ok (.ready e')) : World.Sends e.core e'.core := by
  induction files generalizing e with
  | nil => cases h; exact .refl _
  | cons f fs ih =>
    unfold openFiles at h
    obtain ⟨⟨e1, r⟩, h1, h⟩ := bind_inv h
    unfold Editor.commandEdit at h1
    obtain ⟨w, hw, h1⟩ := bind_inv h1
    cases h1
    dsimp only at h
    split at h
    · exact (World.sends_edit hw).trans (ih h)
    · cases h

/-- C59: what a standalone editor says when it is ready: it shows a view, greets its user as client 1 of a session
without a name in the working directory, shows the status line, and then only views, all to this client. -/
theorem C59_greeting {eng : LuaEngine} {env : EditorEnv LuaState} (hs : env.lua = Scripts.lua eng) {lua : LuaState}
    {cwd : Path} {args cwdText : Str} {files : List Str} {e : Editor LuaState}
    (h : Standalone.start env lua (Scripts.prelude eng) cwd args cwdText files = .ok (.ready e)) :
    ∃ v rest, e.core.out = ⟨some [1], .view v⟩ :: ⟨some [1], .info str!"1" [] cwd⟩ ::
        ⟨some [1], .status [(100, str!"[1@" ++ lua.session ++ str!"]")]⟩ :: rest ∧
      ∀ b ∈ rest, ∃ items, b = ⟨some [1], .view items⟩ := by
  unfold Standalone.start at h
  obtain ⟨e0, h0, h'⟩ := bind_inv h
  clear h
  obtain ⟨e1, h1, h'⟩ := bind_inv h'
  obtain ⟨v, hout⟩ := joined_out hs h0 h1
  obtain ⟨⟨ctx, halone⟩, -, -⟩ := joined_standard hs h0 h1
  split at h'
  · obtain ⟨hsame, new, hnew, hviews⟩ := openFiles_sends h'
    refine ⟨v, new, by rw [hnew, hout]; rfl, fun b hb => ?_⟩
    obtain ⟨c, items, rfl, hc⟩ := hviews b hb
    rw [halone] at hc
    have : c = 1 := by
      rw [Assoc.has_iff] at hc
      obtain ⟨y, hy⟩ := hc
      rcases Nat.decEq c 1 with hne | he
      · simp [Standalone.client, Ne.symm hne, Assoc.get] at hy
      · exact he
    rw [this]
    exact ⟨items, rfl⟩
  · cases h'

/-- C59 (C59_ready, C59_greeting) is not vacuous on either side: 97 times a file is ready, 98 times is blocked. -/
def standaloneA (n : Nat) : R (Started LuaState) :=
  Standalone.start cedEnv ⟨str!"s", []⟩ (Scripts.prelude engA) [] [] [] (List.replicate n str!"f")

def readyB : R (Started LuaState) → Option Bool
  | .ok (.ready _) => some true
  | .ok .blocked => some false
  | .error _ => none

set_option maxRecDepth 100000 in
/-- C59, refuted in general: with 98 files starting blocks. -/
theorem C59_blocks : readyB (standaloneA 97) = some true ∧ readyB (standaloneA 98) = some false := by
  decide +kernel

/-! ## C71: a standalone session -/

/-- The response answers the line: it has the identifier of the request on it, and either a result or an error. -/
def Answers {L : Type} (env : EditorEnv L) (line : Str) (r : Response) : Prop :=
  r.id = (match (env.parse line).bind Request.decode with | some q => q.id | none => .null) ∧ OneOutcome r

theorem lines_answers {L : Type} {env : EditorEnv L} {e e' : Editor L} {input : List Str} {rs : List Response}
    (h : Standalone.lines env e input = .ok (e', rs)) : List.Forall₂ (Answers env) input rs := by
  induction input generalizing e rs with
  | nil => cases h; exact .nil
  | cons l ls ih =>
    unfold Standalone.lines at h
    obtain ⟨⟨e2, r⟩, h2, h3⟩ := bind_inv h
    clear h
    obtain ⟨⟨e4, rs4⟩, h4, h3⟩ := bind_inv h3
    cases h3
    obtain ⟨k1, k2, -⟩ := C37_response h2
    exact .cons ⟨k1, k2⟩ (ih h4)

/-- C71: a standalone session that does not crash answers every line of its input, in order. -/
theorem C71_answers {L : Type} {env : EditorEnv L} {e e' : Editor L} {input : List Str} {rs : List Response}
    (h : Standalone.session env e input = .ok (e', rs)) : List.Forall₂ (Answers env) input rs := by
  unfold Standalone.session at h
  obtain ⟨⟨e1, rs1⟩, h1, h'⟩ := bind_inv h
  obtain ⟨_, _, h'⟩ := bind_inv h'
  cases h'
  exact lines_answers h1

/-- Without the client, opening a file crashes. -/
theorem edit_absent {env : Env} {w w' : World} {c : Nat} {name : Str} {scratch : Bool}
    (ha : w.clients.map.get c = none) : w.edit env c name scratch ≠ .ok w' := by
  intro h
  unfold World.edit at h
  obtain ⟨⟨w1, n⟩, h1, h'⟩ := bind_inv h
  clear h
  obtain ⟨hc1, -⟩ := World.openForEdit_same h1
  dsimp only at h'
  obtain ⟨st, e2, _⟩ := World.addView_ok w1 (View.forBuffer name)
  rw [e2] at h'
  simp only [except_bind_ok] at h'
  obtain ⟨⟨w3, er⟩, h3, h'⟩ := bind_inv h'
  have hv : World.viewExists { w1 with
      views := { stack := (View.forBuffer name).key :: st, map := w1.views.map.set (View.forBuffer name).key (View.forBuffer name) },
      clients := { w1.clients with map := w1.clients.map.mapVals fun _ ctx => World.addSelections (View.forBuffer name) ctx } }
        (View.forBuffer name).key = true := by
    simp [World.viewExists, Assoc.has_set]
  unfold World.view at h3
  rw [if_pos hv] at h3
  obtain ⟨v, _, h3⟩ := bind_inv h3
  obtain ⟨ctx, hctx, h3⟩ := bind_inv h3
  dsimp only at hctx
  rw [Assoc.get_mapVals, hc1, ha] at hctx
  cases hctx

/-- C71, refuted for quitting: after `quit` a standalone editor goes on reading its input, without its client, and
crashes at the next request to open a file. -/
theorem C71_quit_goes_on {L : Type} {env : EditorEnv L} {e : Editor L} {name : Str} {scratch : Bool}
    (ha : e.core.clients.map.get Standalone.client = none) :
    ∀ x, e.commandEdit env Standalone.client (name, scratch) ≠ .ok x := by
  intro x h
  unfold Editor.commandEdit at h
  obtain ⟨w, hw, _⟩ := bind_inv h
  exact edit_absent ha hw

/-- The outcome of a concrete session: the number of responses, or a crash. -/
def sessionA (input : List Str) : Option Nat :=
  match standaloneA 2 with
  | .ok (.ready e) => match Standalone.session cedEnv e input with
    | .ok r => some r.2.length
    | .error _ => none
  | _ => none

/-- C71 is not vacuous, and its refutation applies: two requests to quit are both answered; opening a file after
quitting crashes. -/
theorem C71_sessions : sessionA [editLine, str!"x", quitLine] = some 3 ∧ sessionA [editLine, quitLine, quitLine] = some 3 ∧
    sessionA [editLine, quitLine, editLine] = none := by decide +kernel

end Ced.Props
