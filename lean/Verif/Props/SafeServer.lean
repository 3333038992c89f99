import Verif.Spec.SafeServer
import Verif.Props.Calm
import Verif.Props.MenuSelect
import Verif.Props.CalmCheck
import Verif.Props.AnyChars

/-! # C81: clients that keep to the rules never crash the server -/

namespace Ced.Props
open Spec Scripts

variable {eng : LuaEngine} {env : EditorEnv LuaState} {e : Ced.Editor LuaState}

/-! ### The requests complete -/

/-- Rules that keep the editor from crashing, `H` being the states reached within them. -/
structure RulesOk (R : Rules) (H : World → Prop) : Prop where
  seg : ∀ {g}, R.seg g → IsSegmentation g
  start : ∀ {env : Env} (cwd : Path) {args cwdText : Str}, R.seg env.seg → R.text args → R.text cwdText →
    ∃ w, World.start env cwd args cwdText = .ok w ∧ H w
  step : ∀ {env : Env} {w : World} {op : CoreOp}, H w → R.seg env.seg → (∀ i, (env.stale i).follows = true) → R.safe env w op →
    ∃ w', op.run env w = .ok w' ∧ H w'
  history : ∀ {w}, H w → CoreHistory Ordinary w
  ordinary : ∀ {env : Env} {w : World} {op : CoreOp}, R.safe env w op → Ordinary w op
  join : ∀ {env : Env} {w : World} {c : Nat} {s : Str}, (w.clients.stack = [] → w.views.map.length = 1) → R.safe env w (.join c s)
  leave : ∀ {env : Env} {w : World} {c : Nat}, R.safe env w (.leave c)
  notify : ∀ {env : Env} {w : World} {c : Nat} {n : Note}, R.safe env w (.notify c n)
  debug : ∀ {env : Env} {w : World} {t : Str}, R.text t → R.safe env w (.debug t)
  error : ∀ {env : Env} {w : World} {c : Option Nat} {tag t : Str}, R.text tag → R.text t → R.safe env w (.error c tag t)
  lit : ∀ {t : Str}, AsciiStr t → R.text t
  app : ∀ {a b : Str}, R.text a → R.text b → R.text (a ++ b)
  good : ∀ {w : World} {n : Str} {b : Buffer}, H w → w.buffers.get n = some b → EndsWithNewline b.content.content

theorem rules_ascii : RulesOk .ascii SafeHistory where
  seg h := h
  start _ _ _ hs ha hc := C77_start hs ha hc
  step k hs hf h := C77_step k hs hf h
  history := safe_history
  ordinary := World.safe_ordinary
  join h := h
  leave := trivial
  notify := trivial
  debug h := h
  error h1 h2 := ⟨h1, h2⟩
  lit h := h
  app := asciiStr_append
  good k hb := ((safe_calm k).drawn.good _ _ hb).ends

/-- requests safe in any characters are ordinary -/
theorem any_ordinary {env : Env} {w : World} {op : CoreOp} (h : SafeAny env w op) : Ordinary w op := by
  refine ⟨?_, ?_, ?_⟩
  · intro name hn
    cases op <;> simp only [CoreOp.creates] at hn <;> cases hn
    · exact h.2.1
    · exact h.2.1
    · exact h.1
  · rintro c id rfl; exact h.2
  · rintro id s rfl; exact h

theorem still_ordinary {env : Env} {w : World} {op : CoreOp} (h : SafeStill env w op) : Ordinary w op := by
  refine ⟨?_, ?_, ?_⟩
  · intro name hn
    cases op <;> simp only [CoreOp.creates] at hn <;> cases hn
    · exact h.2.1
    · exact h.2.1
    · exact h.1
  · rintro c id rfl; exact h.2
  · rintro id s rfl; exact h

theorem any_ordinary_history {g : Segmentation} {w : World} (h : AnyCharsHistory g w) : CoreHistory Ordinary w := by
  induction h with
  | start _ h => exact .start h
  | step _ hs _ hf h ih => exact .step ih (any_ordinary hs) hf h

theorem still_ordinary_history {w : World} (h : StillHistory w) : CoreHistory Ordinary w := by
  induction h with
  | start _ h => exact .start h
  | step _ hs _ hf h ih => exact .step ih (still_ordinary hs) hf h

theorem rules_any {g : Segmentation} (hg : IsSegmentation g) : RulesOk (.any g) (AnyCharsHistory g) where
  seg h := by rw [h.1]; exact hg
  start cwd args cwdText hs _ _ := by
    obtain ⟨w, h1, h2, _⟩ := C95_start (by rw [hs.1]; exact hg) cwd args cwdText
    exact ⟨w, h1, by rw [← hs.1]; exact h2⟩
  step k hs hf h := C95_step hg k hs.1 hf h
  history := any_ordinary_history
  ordinary := any_ordinary
  join h := h
  leave := trivial
  notify := trivial
  debug _ := trivial
  error _ _ := trivial
  lit _ := trivial
  app _ _ := trivial
  good k hb := ((any_calm hg k).drawn.good _ _ hb).ends

theorem rules_still : RulesOk .still StillHistory where
  seg h := h
  start cwd args cwdText hs _ _ := by
    obtain ⟨w, h1, _, h2⟩ := C95_start hs cwd args cwdText
    exact ⟨w, h1, h2⟩
  step k hs hf h := C95_still k hs hf h
  history := still_ordinary_history
  ordinary := still_ordinary
  join h := h
  leave := trivial
  notify := trivial
  debug _ := trivial
  error _ _ := trivial
  lit _ := trivial
  app _ _ := trivial
  good k hb := ((still_calm k).drawn.good _ _ hb).ends

section general
variable {R : Rules} {H : World → Prop} (ro : RulesOk R H)

/-- A property of states that safe operations of a kind keep. -/
structure Carries (R : Rules) (H : World → Prop) (eng : LuaEngine) (P : CoreOp → Prop) (K : World → Prop) : Prop where
  safe : ∀ {w}, K w → H w
  step : ∀ {w w' op}, K w → Honest op → P op → R.safe eng.core w op → op.run eng.core w = .ok w' → K w'

/-- messages to a client, and the log -/
def Chatter (c : Nat) : CoreOp → Prop
  | .debug _ => True
  | .message _ _ => True
  | .error _ _ _ => True
  | .notify d _ => d = c
  | _ => False

/-- the operations that a call of a client may ask for -/
def OpOf (c : Nat) (call : Call) (op : CoreOp) : Prop :=
  Chatter c op ∨ match call with
    | .edit n s => op = .edit c n s
    | .view id => op = .view c id
    | .viewDelete => op = .viewDelete c
    | .viewAdd b => op = .viewAdd c b
    | .viewRemove b => op = .viewRemove c b
    | .keys ks => ∃ (m : KeyMode) (k : KeyEvent), k ∈ ks ∧ m.op c k.display = some op
    | .exec _ => True
    | _ => False

/-- the same, where a choice in a menu counts as the call it stands for -/
def AnyOpOf (c : Nat) (call : Call) (op : CoreOp) : Prop :=
  OpOf c call op ∨ ∃ command choice call', call = .menuSelect command choice ∧ selectCall command choice = some call' ∧ OpOf c call' op

/-- the operations that a line of a client may ask for -/
def LineOp (env : EditorEnv LuaState) (c : Nat) (line : Str) (op : CoreOp) : Prop :=
  Chatter c op ∨ ∃ q call, (env.parse line).bind Request.decode = some q ∧ Asks q call ∧ AnyOpOf c call op

include ro

theorem safe_step (ok : SafeEnv R eng env) {w : World} (k : H w) {op : CoreOp} (hs : R.safe eng.core w op) :
    ∃ w', op.run eng.core w = .ok w' ∧ H w' :=
  ro.step k (by rw [← ok.std.core]; exact ok.seg) (by rw [← ok.std.core]; exact ok.std.follows) hs

theorem carries_safe (ok : SafeEnv R eng env) : Carries R H eng (fun _ => True) H := by
  refine ⟨fun k => k, fun {w w' op} k _ _ hs h => ?_⟩
  obtain ⟨w1, e1, k1⟩ := safe_step ro ok k hs
  rw [h] at e1
  cases e1
  exact k1

/-- it is neither a notification nor about who is connected -/
def plainOp : CoreOp → Bool
  | .join _ _ => false
  | .leave _ => false
  | .notify _ _ => false
  | _ => true

omit ro in
theorem honest_plain {op : CoreOp} (h : plainOp op = true) : Honest op := by
  refine ⟨?_, ?_, ?_⟩
  · rintro id s rfl; cases h
  · rintro id rfl; cases h
  · rintro c i rfl; cases h

omit ro in
theorem honest_note {c : Nat} {n : Note} (h : ∀ items, n ≠ .view items) : Honest (.notify c n) := by
  refine ⟨?_, ?_, ?_⟩
  · intro id s he; cases he
  · intro id he; cases he
  · intro d i he; cases he; exact h i rfl

omit ro in
theorem honest_op {m : KeyMode} {c : Nat} {k : Str} {op : CoreOp} (h : m.op c k = some op) : Honest op := by
  refine honest_plain ?_
  unfold KeyMode.op at h
  cases m with
  | insertion => cases h
  | normal =>
    dsimp only at h
    split at h
    · cases h; rfl
    · cases h; rfl
    · split at h
      · cases h; rfl
      · split at h
        · cases h; rfl
        · split at h
          · cases h; rfl
          · cases h
  | moveTo =>
    dsimp only at h
    split at h
    · cases h; rfl
    · split at h
      · cases h; rfl
      · cases h
  | extendTo =>
    dsimp only at h
    split at h
    · cases h; rfl
    · split at h
      · cases h; rfl
      · cases h

omit ro in
theorem notes_honest {session : Str} {c : Nat} {m : KeyMode} {k : Str} : ∀ n ∈ keyNotes eng session c m k, ∀ items, n ≠ .view items := by
  intro n hn items
  unfold keyNotes hintOf at hn
  rcases List.mem_append.1 hn with hn | hn
  · split at hn
    · have hm : ∀ mode, n ∈ (modeHint eng mode).toList → n ≠ .view items := by
        intro mode hn
        unfold modeHint at hn
        revert hn
        split <;> intro hn <;> simp at hn
        rw [← hn.2]
        simp
      split at hn
      · cases hn
      · cases hn
      · exact hm _ hn
      · exact hm _ hn
    · cases hn
  · rw [List.mem_singleton.1 hn]
    simp [statusLine]

variable {K : World → Prop} {P : CoreOp → Prop}

theorem carry_step (ok : SafeEnv R eng env) (cr : Carries R H eng P K) {w : World} (k : K w) {op : CoreOp} (hh : Honest op) (hp : P op)
    (hs : R.safe eng.core w op) : ∃ w', op.run eng.core w = .ok w' ∧ K w' := by
  obtain ⟨w', h, _⟩ := safe_step ro ok (cr.safe k) hs
  exact ⟨w', h, cr.step k hh hp hs h⟩

theorem safe_steps (ok : SafeEnv R eng env) (cr : Carries R H eng P K) (hp : ∀ op, P op) {w w' : World} (k : K w) (r : SafeSteps R eng.core w w') : K w' := by
  induction r with
  | none => exact k
  | next hh hs h _ ih =>
    obtain ⟨w1, e1, k1⟩ := carry_step ro ok cr k hh (hp _) hs
    rw [h] at e1
    cases e1
    exact ih k1

theorem safe_notify (ok : SafeEnv R eng env) (cr : Carries R H eng P K) {w : World} (k : K w) (c : Nat) (hp : ∀ op, Chatter c op → P op) {n : Note}
    (hn : ∀ items, n ≠ .view items) : K (w.notify c n) := by
  obtain ⟨w', e, k'⟩ := carry_step ro ok cr (op := .notify c n) k (honest_note hn) (hp _ rfl) ro.notify
  cases e
  exact k'

theorem safe_tell (ok : SafeEnv R eng env) (cr : Carries R H eng P K) (c : Nat) (hp : ∀ op, Chatter c op → P op) {ns : List Note}
    (hn : ∀ n ∈ ns, ∀ items, n ≠ .view items) : ∀ {w : World}, K w → K (tell c ns w) := by
  suffices ∀ ns : List Note, (∀ n ∈ ns, ∀ items, n ≠ .view items) → ∀ {w : World}, K w → K (tell c ns.reverse w) by
    intro w k
    have := this ns.reverse (fun n h => hn n (List.mem_reverse.1 h)) k
    rwa [List.reverse_reverse] at this
  clear hn
  intro ns hn
  induction ns with
  | nil => intro w k; rw [List.reverse_nil, tell_nil]; exact k
  | cons n ns ih =>
    intro w k
    rw [List.reverse_cons, ← tell_notify]
    exact safe_notify ro ok cr (ih (fun x hx => hn x (by simp [hx])) k) c hp (hn n (by simp))

omit ro in
theorem keys_cons {session : Str} {c : Nat} {m : KeyMode} {k : KeyEvent} {ks : List KeyEvent} {w : World} :
    keysDo eng session c m (k :: ks) w = keysDo eng session c m [k] w >>= keysDo eng session c (m.next k.display) ks := by
  rw [keysDo, keysDo]
  split
  · cases (doOp eng.core w (m.op c k.display)) <;> rfl
  · rfl

theorem safe_keys (ok : SafeEnv R eng env) (cr : Carries R H eng P K) {session : Str} {c : Nat} (hc : ∀ op, Chatter c op → P op) {ks : List KeyEvent}
    (hp : ∀ (m : KeyMode) (k : KeyEvent) op, k ∈ ks → m.op c k.display = some op → P op) : ∀ {m : KeyMode} {w : World}, K w →
    SafeKeys R eng session c m ks w → ∃ w', keysDo eng session c m ks w = .ok w' ∧ K w' := by
  induction ks with
  | nil => intro m w k _; exact ⟨w, rfl, k⟩
  | cons key ks ih =>
    intro m w k hs
    have one : ∃ w', keysDo eng session c m [key] w = .ok w' ∧ K w' := by
      rw [keysDo]
      by_cases hh : m.handles key.display
      · rw [if_pos hh]
        cases ho : m.op c key.display with
        | none => exact ⟨_, rfl, safe_tell ro ok cr c hc notes_honest k⟩
        | some op =>
          obtain ⟨w', e, k'⟩ := carry_step ro ok cr k (honest_op ho) (hp m key op List.mem_cons_self ho) (hs.1 op ho)
          refine ⟨tell c (keyNotes eng session c m key.display) w', ?_, safe_tell ro ok cr c hc notes_honest k'⟩
          show (op.run eng.core w).map _ >>= _ = _
          rw [e]
          rfl
      · rw [if_neg hh]; exact ⟨w, rfl, k⟩
    obtain ⟨w1, e1, k1⟩ := one
    obtain ⟨w2, e2, k2⟩ := ih (fun m k op hk => hp m k op (List.mem_cons_of_mem _ hk)) k1 (hs.2 w1 e1)
    exact ⟨w2, by rw [keys_cons, e1]; exact e2, k2⟩

theorem safe_logged (ok : SafeEnv R eng env) (cr : Carries R H eng P K) (k : K e.core) {c : Nat} (hp : ∀ op, Chatter c op → P op) {message : Str} (ha : R.text message) :
    ∃ w, (e.core.debug env.core (str!"client " ++ natStr c ++ str!": exec error: " ++ str!"exec" ++
      str!"\n<<<<<<<\n" ++ message ++ str!"\n>>>>>>>") >>= fun w => w.error env.core (some c) str!"exec" message) = .ok w ∧
      K w := by
  rw [ok.std.core]
  obtain ⟨w1, e1, k1⟩ := carry_step ro ok cr (op := .debug (str!"client " ++ natStr c ++ str!": exec error: " ++ str!"exec" ++
      str!"\n<<<<<<<\n" ++ message ++ str!"\n>>>>>>>")) k (honest_plain rfl) (hp _ trivial) (by
    refine ro.debug (ro.app (ro.app (ro.app (ro.app (ro.app (ro.app
      (ro.lit (asciiStrB_iff.1 rfl)) (ro.lit (World.natStr_ascii c))) (ro.lit (asciiStrB_iff.1 rfl))) (ro.lit (asciiStrB_iff.1 rfl))) (ro.lit (asciiStrB_iff.1 rfl))) ha)
      (ro.lit (asciiStrB_iff.1 rfl))))
  obtain ⟨w2, e2, k2⟩ := carry_step ro ok cr (op := .error (some c) str!"exec" message) k1 (honest_plain rfl) (hp _ trivial) (ro.error (ro.lit (asciiStrB_iff.1 rfl)) ha)
  refine ⟨w2, ?_, k2⟩
  show (CoreOp.run eng.core e.core (.debug _) >>= _) = _
  rw [e1]
  exact e2

theorem safe_menu (ok : SafeEnv R eng env) (cr : Carries R H eng P K) (hm : e.Menus) (k : K e.core) {c : Nat} (hp : ∀ op, Chatter c op → P op)
    {command search : Str}
    (hs : ∃ ws, WordsOf search ws ∧ PlainWords ws) :
    ∃ e' a, e.commandMenu env c (command, search) = .ok (e', a) ∧ K e'.core := by
  obtain ⟨ws, hw, hpw⟩ := hs
  obtain ⟨same, hpl⟩ := ok.plain
  have note : ∀ m : MenuState, ∃ n, m.toNotificationParams env.compile search = .ok n := by
    intro m
    cases hpr : m.isPrompt with
    | true => exact ⟨_, C44_prompt hpr⟩
    | false =>
      obtain ⟨sorted, shown, h, _⟩ := C46_search hpl hw hpw hpr
      exact ⟨_, h⟩
  have hv : ∀ (m : MenuState) n, m.toNotificationParams env.compile search = .ok n → ∀ items, n ≠ .view items := by
    intro m n h items
    unfold MenuState.toNotificationParams at h
    dsimp only at h
    split at h
    · obtain ⟨entries, _, h⟩ := bind_inv h
      cases h
      simp
    · obtain ⟨cs, _, h⟩ := bind_inv h
      obtain ⟨entries, _, h⟩ := bind_inv h
      cases h
      simp
  unfold Editor.commandMenu
  cases hg : e.menus.get command with
  | none => exact ⟨e, _, rfl, k⟩
  | some menu =>
    dsimp only
    have send : ∀ (e1 : Ced.Editor LuaState) (m : MenuState), e1.core = e.core → e1.menus.get command = some m →
        ∃ e', e1.sendMenu env c command search = .ok e' ∧ K e'.core := by
      intro e1 m hc hm
      obtain ⟨n, hn⟩ := note m
      refine ⟨{ e1 with core := e1.core.notify c n }, ?_, by rw [show ({ e1 with core := e1.core.notify c n } : Ced.Editor LuaState).core = e.core.notify c n by rw [← hc]]; exact safe_notify ro ok cr k c hp (hv m n hn)⟩
      unfold Editor.sendMenu
      rw [show e1.menus.at! command = .ok m from Assoc.at_ok hm, except_bind_ok, hn]
      rfl
    by_cases hse : search = []
    · rw [if_pos hse]
      obtain ⟨e', h1, h2⟩ := send { e with menus := e.menus.set command (menu.populate (e.info env)) } _ rfl (Assoc.get_set_self ..)
      exact ⟨e', none, by rw [h1]; rfl, h2⟩
    · rw [if_neg hse]
      obtain ⟨e', h1, h2⟩ := send e menu rfl hg
      exact ⟨e', none, by rw [h1]; rfl, h2⟩

theorem safe_direct (ok : SafeEnv R eng env) (cr : Carries R H eng P K) (hm : e.Menus) (k : K e.core) {c : Nat} (hmode : ∃ m, InMode e.lua c m) {call : Call}
    (hp : ∀ op, OpOf c call op → P op) (hs : SafeDirect R eng e c call) : ∃ e' o, Does env e c call = .ok (e', o) ∧ K e'.core := by
  have two : ∀ {x : Ced.R (World × Option CoreError)} {w' : World}, x.map Prod.fst = .ok w' → ∃ o, x = .ok (w', o) := by
    intro x w' h
    obtain ⟨⟨w1, o⟩, h1, h2⟩ := map_inv h
    cases h2
    exact ⟨o, h1⟩
  cases call with
  | quit => exact hs.elim
  | menuSelect _ _ => exact hs.elim
  | edit n s =>
    obtain ⟨w', h, k'⟩ := carry_step ro ok cr (op := .edit c n s) k (honest_plain rfl) (hp _ (.inr rfl)) hs
    refine ⟨{ e with core := w' }, none, ?_, k'⟩
    simp only [Does]
    rw [ok.std.core, show e.core.edit eng.core c n s = .ok w' from h]; rfl
  | view id =>
    obtain ⟨w', h, k'⟩ := carry_step ro ok cr (op := .view c id) k (honest_plain rfl) (hp _ (.inr rfl)) hs
    obtain ⟨o, h⟩ := two (show (e.core.view eng.core c id).map Prod.fst = .ok w' from h)
    refine ⟨{ e with core := w' }, o.map fun err => (-32600, err.display), ?_, k'⟩
    simp only [Does]
    rw [ok.std.core, h]; rfl
  | viewDelete =>
    obtain ⟨w', h, k'⟩ := carry_step ro ok cr (op := .viewDelete c) k (honest_plain rfl) (hp _ (.inr rfl)) hs
    refine ⟨{ e with core := w' }, none, ?_, k'⟩
    simp only [Does]
    rw [ok.std.core, show e.core.deleteCurrentView eng.core c = .ok w' from h]; rfl
  | viewAdd b =>
    obtain ⟨w', h, k'⟩ := carry_step ro ok cr (op := .viewAdd c b) k (honest_plain rfl) (hp _ (.inr rfl)) hs
    obtain ⟨o, h⟩ := two (show (e.core.addToCurrentView eng.core c b).map Prod.fst = .ok w' from h)
    refine ⟨{ e with core := w' }, o.map fun err => (-32600, err.display), ?_, k'⟩
    simp only [Does]
    rw [ok.std.core, h]; rfl
  | viewRemove b =>
    obtain ⟨w', h, k'⟩ := carry_step ro ok cr (op := .viewRemove c b) k (honest_plain rfl) (hp _ (.inr rfl)) hs
    obtain ⟨o, h⟩ := two (show (e.core.removeFromCurrentView eng.core c b).map Prod.fst = .ok w' from h)
    refine ⟨{ e with core := w' }, o.map fun err => (-32600, err.display), ?_, k'⟩
    simp only [Does]
    rw [ok.std.core, h]; rfl
  | menu command search =>
    obtain ⟨e', a, h, k'⟩ := safe_menu ro ok cr hm k (fun op h => hp op (.inl h)) (command := command) (c := c) hs
    refine ⟨e', outcome a, ?_, k'⟩
    simp only [Does]
    rw [h]; rfl
  | keys ks =>
    obtain ⟨m, hmm⟩ := hmode
    obtain ⟨w', h, k'⟩ := safe_keys ro ok cr (fun op h => hp op (.inl h)) (fun m key op h1 h2 => hp op (.inr ⟨m, key, h1, h2⟩)) k (hs m hmm)
    rcases C49_keys ok.std hmm ks with ⟨p, _, h2⟩ | ⟨e', h1, h2, _⟩
    · rw [h] at h2; cases h2
    · rw [h] at h2
      cases h2
      exact ⟨e', none, h1, k'⟩
  | exec source =>
    obtain ⟨l, w, m, h, hst, ha⟩ := hs
    have k1 := safe_steps ro ok cr (fun op => hp op (.inr trivial)) k hst
    simp only [Does]
    unfold Editor.execLua
    rw [ok.std.lua, show (Scripts.lua eng).exec c source e.lua e.core = .ok (l, w, m) from h]
    cases m with
    | none => exact ⟨_, none, rfl, k1⟩
    | some text =>
      obtain ⟨w2, h2, k2⟩ := safe_logged ro (e := { e with lua := l, core := w }) ok cr k1 (c := c) (fun op h => hp op (.inl h)) (ha text rfl)
      obtain ⟨w3, h3, h4⟩ := bind_inv h2
      refine ⟨{ e with lua := l, core := w2 }, some (1, text), ?_, k2⟩
      rw [except_bind_ok]
      dsimp only
      rw [show World.debug env.core w _ = .ok w3 from h3, except_bind_ok, h4]
      rfl

theorem safe_call (ok : SafeEnv R eng env) (cr : Carries R H eng P K) (r : EditorRun e) (k : K e.core) {c : Nat} (hmode : ∃ m, InMode e.lua c m)
    {call : Call} (hp : ∀ op, AnyOpOf c call op → P op) (hs : SafeCall R eng e c call) : ∃ e' o, Does env e c call = .ok (e', o) ∧ K e'.core := by
  cases call with
  | menuSelect command choice =>
    rcases C47_select r env c command choice with ⟨msg, h⟩ | ⟨_, call, h1, h2⟩
    · exact ⟨e, _, h, k⟩
    · rw [h2]
      exact safe_direct ro ok cr (menus_editorRun r) k hmode (fun op h => hp op (.inr ⟨_, _, call, rfl, h1, h⟩)) (hs call h1)
  | _ => exact safe_direct ro ok cr (menus_editorRun r) k hmode (fun op h => hp op (.inl h)) hs

/-! ### The lines -/

omit ro in
/-- a request of a known method asks for something, or is answered with an error at once -/
theorem dispatch_cases (env : EditorEnv LuaState) (e : Ced.Editor LuaState) (c : Nat) (q : Request) (hm : q.method ∈ methods) :
    (∃ call, Asks q call) ∨ ∃ err, e.dispatch env c q = some (.ok (e, some err)) := by
  have par : ∀ {α : Type} (dec : Json → Option α) (call : Ced.Editor LuaState → α → Ced.R (Ced.Editor LuaState × Ced.Editor.Answer)),
      (∃ p, Params.get dec q = .ok (some p)) ∨ ∃ err, e.withParams env q dec call = .ok (e, some err) := by
    intro α dec call
    unfold Ced.Editor.withParams
    cases hp : Params.get dec q with
    | error u => exact .inr ⟨_, rfl⟩
    | ok o =>
      cases o with
      | none => exact .inr ⟨_, rfl⟩
      | some p => exact .inl ⟨p, rfl⟩
  simp only [methods, List.mem_cons, List.not_mem_nil, or_false] at hm
  unfold Ced.Editor.dispatch
  rcases hm with h | h | h | h | h | h | h | h | h | h <;> rw [h]
  · rcases par Params.edit fun e p => e.commandEdit env c p with ⟨p, hp⟩ | ⟨err, hp⟩
    · exact .inl ⟨.edit p.1 p.2, h, hp⟩
    · exact .inr ⟨err, congrArg some hp⟩
  · exact .inl ⟨.quit, h, trivial⟩
  · rcases par Params.string fun e p => e.commandView env c p with ⟨p, hp⟩ | ⟨err, hp⟩
    · exact .inl ⟨.view p, h, hp⟩
    · exact .inr ⟨err, congrArg some hp⟩
  · exact .inl ⟨.viewDelete, h, trivial⟩
  · rcases par Params.string fun e p => e.commandViewAdd env c p with ⟨p, hp⟩ | ⟨err, hp⟩
    · exact .inl ⟨.viewAdd p, h, hp⟩
    · exact .inr ⟨err, congrArg some hp⟩
  · rcases par Params.string fun e p => e.commandViewRemove env c p with ⟨p, hp⟩ | ⟨err, hp⟩
    · exact .inl ⟨.viewRemove p, h, hp⟩
    · exact .inr ⟨err, congrArg some hp⟩
  · rcases par Params.menu fun e p => e.commandMenu env c p with ⟨p, hp⟩ | ⟨err, hp⟩
    · exact .inl ⟨.menu p.1 p.2, h, hp⟩
    · exact .inr ⟨err, congrArg some hp⟩
  · rcases par Params.menuSelect fun e p => e.commandMenuSelect env c p with ⟨p, hp⟩ | ⟨err, hp⟩
    · exact .inl ⟨.menuSelect p.1 p.2, h, hp⟩
    · exact .inr ⟨err, congrArg some hp⟩
  · rcases par Params.keys fun e p => e.commandKeys env c p with ⟨p, hp⟩ | ⟨err, hp⟩
    · exact .inl ⟨.keys p, h, hp⟩
    · exact .inr ⟨err, congrArg some hp⟩
  · rcases par Params.string fun e p => e.commandExec env c p with ⟨p, hp⟩ | ⟨err, hp⟩
    · exact .inl ⟨.exec p, h, hp⟩
    · exact .inr ⟨err, congrArg some hp⟩

theorem safe_line (ok : SafeEnv R eng env) (cr : Carries R H eng P K) (r : EditorRun e) (k : K e.core) {c : Nat} (hmode : ∃ m, InMode e.lua c m)
    {line : Str} (hp : ∀ op, LineOp env c line op → P op) (hs : SafeLine R eng env e c line) : ∃ e' a, e.handle env c line = .ok (e', a) ∧ K e'.core := by
  have log : ∀ text, R.text text → ∃ w, e.core.error env.core (some c) str!"protocol" text = .ok w ∧ K w := by
    intro text ht
    rw [ok.std.core]
    exact carry_step ro ok cr (op := .error (some c) str!"protocol" text) k (honest_plain rfl) (hp _ (.inl trivial)) (ro.error (ro.lit (asciiStrB_iff.1 rfl)) ht)
  unfold SafeLine at hs
  unfold Ced.Editor.handle Ced.Editor.readLine
  cases hq : (env.parse line).bind Request.decode with
  | none =>
    rw [hq] at hs
    obtain ⟨w, h, k'⟩ := log _ (ro.app (ro.app hs.1 (b := str!": ") (ro.lit (asciiStrB_iff.1 rfl))) hs.2)
    refine ⟨{ e with core := w }, Response.invalidRequest .null line, ?_, k'⟩
    dsimp only
    rw [h]; rfl
  | some q =>
    rw [hq] at hs
    dsimp only at hs ⊢
    by_cases hm : q.method ∈ methods
    · rcases dispatch_cases env e c q hm with ⟨call, ha⟩ | ⟨err, he⟩
      · obtain ⟨e', o, h, k'⟩ := safe_call ro ok cr r k hmode (fun op h => hp op (.inr ⟨q, call, hq, ha, h⟩)) (hs.1 call ha)
        obtain ⟨run, hd, hdo, _⟩ := does_eq env e c q.id call ha.1 ha.2
        rw [hd]
        rw [h] at hdo
        obtain ⟨⟨e1, a⟩, h1, h2⟩ := map_inv hdo.symm
        cases h2
        refine ⟨e1, Ced.Editor.respond q.id a, ?_, k'⟩
        dsimp only
        rw [h1]; rfl
      · rw [he]
        exact ⟨e, _, rfl, k⟩
    · rw [dispatch_unknown hm]
      obtain ⟨w, h, k'⟩ := log (str!"unknown command: " ++ q.encode.write ++ ['\n'])
        (ro.app (ro.app (ro.lit (asciiStrB_iff.1 rfl)) (hs.2 hm)) (b := ['\n']) (ro.lit (asciiStrB_iff.1 rfl)))
      refine ⟨{ e with core := w }, Response.methodNotFound q.id q.method, ?_, k'⟩
      dsimp only
      rw [h]; rfl

/-! ### The server -/

theorem safe_line_clean {c : Nat} {line : Str} (hs : SafeLine R eng env e c line) : CleanLine env line := by
  intro q hq
  unfold SafeLine at hs
  rw [hq] at hs
  refine ⟨fun name scratch hm hp => ?_, fun command choice hm hp hc => ?_⟩
  · have := hs.1 (.edit name scratch) ⟨hm, hp⟩
    exact (ro.ordinary this).1 name rfl
  · have h := hs.1 (.menuSelect command choice) ⟨hm, hp⟩
    simp only [List.mem_cons, List.not_mem_nil, or_false] at hc
    rcases hc with rfl | rfl
    · exact (ro.ordinary (h (.edit choice false) (by simp [selectCall]))).1 choice rfl
    · exact (ro.ordinary (h (.edit choice true) (by simp [selectCall]))).1 choice rfl

omit ro in
theorem safe_stays {c : Nat} {line : Str} (hs : SafeLine R eng env e c line) : ¬ QuitLine env line := by
  rintro ⟨q, hq, hi⟩
  unfold SafeLine at hs
  rw [hq] at hs
  rcases hi with hm | ⟨hm, hp⟩
  · exact hs.1 .quit ⟨hm, trivial⟩
  · exact hs.1 (.menuSelect [] str!"quit") ⟨hm, hp⟩ .quit (by decide)

/-- what an event does to the editor -/
def Turned (env : EditorEnv LuaState) (s : Server LuaState) (s' : Server LuaState) : ServerEvent → Prop
  | .join c => s'.index = Server.addIndex s.index c ∧ ∃ w n, s.editor.core.addClient env.core c s.editor.session = .ok w ∧
      (∀ items, n ≠ .view items) ∧ s'.editor.core = w.notify c n
  | .leave c => s'.index = s.index.filter (· ≠ c) ∧ s.editor.core.removeClient env.core c = .ok s'.editor.core
  | .message c line => s'.index = s.index ∧ ∃ a, s.editor.handle env c line = .ok (s'.editor, a)

/-- a safe event is treated -/
theorem safe_turn {s : Server LuaState} (ok : SafeEnv R eng env) (r : CedServer s) (k : H s.editor.core) {ev : ServerEvent}
    (hs : SafeEvent R eng env s ev) : ∃ s' last, s.turn env true ev = .ok (s', last) ∧ H s'.editor.core ∧ CedServer s' ∧
      (∀ c line, ev = .message c line → (∃ a, s'.written = s.written ++ [(c, .response a)])) ∧ Turned env s s' ev := by
  obtain ⟨hr, hst, _, hi⟩ := server_run r
  have hinv := (World.inv_history ordinary_clean (ro.history k))
  cases ev with
  | join c =>
    obtain ⟨hn, h1⟩ := hs
    have hj : R.safe eng.core s.editor.core (.join c s.editor.session) := by
      refine ro.join fun hstk => ?_
      apply h1
      apply List.eq_nil_iff_forall_not_mem.2
      intro x hx
      have := (hinv.cstack x).2 ((hi x).1 hx)
      rw [hstk] at this
      cases this
    obtain ⟨w, hw, k'⟩ := safe_step ro ok k hj
    have hw : s.editor.core.addClient env.core c s.editor.session = .ok w := by rw [ok.std.core]; exact hw
    have he : ∃ e', s.editor.addClient env c = .ok e' ∧ H e'.core ∧ ∃ n, (∀ items, n ≠ .view items) ∧ e'.core = w.notify c n := by
      unfold Ced.Editor.addClient
      rw [hw, except_bind_ok]
      unfold Ced.Editor.execLua
      rw [ok.std.lua]
      refine ⟨_, rfl, safe_notify ro ok (carries_safe ro ok) k' c (fun _ _ => trivial) (by intro i h; cases h), _, ?_, rfl⟩
      intro i h; cases h
    obtain ⟨e', he, k2, n, hnv, hen⟩ := he
    have ht : s.turn env true (.join c) = .ok ({ s with index := Server.addIndex s.index c, editor := e' }, (Server.addIndex s.index c).isEmpty && false) := by
      unfold Server.turn
      simp only [Server.react, he, Server.lift, bind, Except.bind, pure, Except.pure]
      rw [purge_calm (by exact (Ced.Editor.same_addClient he).stopped.trans hst)]
      rfl
    exact ⟨_, _, ht, k2, .event ok.std r (by intro c line h; cases h) ht, (by intro c line h; cases h), rfl, w, n, hw, hnv, hen⟩
  | leave c =>
    have hs : c ∈ s.index := hs
    obtain ⟨w, hw, k'⟩ := safe_step ro ok (op := .leave c) k ro.leave
    have hw : s.editor.core.removeClient env.core c = .ok w := by rw [ok.std.core]; exact hw
    have he : ∃ e', s.editor.removeClient env c = .ok e' ∧ H e'.core ∧ e'.core = w := by
      unfold Ced.Editor.removeClient
      rw [hw, except_bind_ok]
      unfold Ced.Editor.execLua
      rw [ok.std.lua]
      exact ⟨_, rfl, k', rfl⟩
    obtain ⟨e', he, k2, hew⟩ := he
    have ht : s.turn env true (.leave c) =
        .ok ({ s with index := s.index.filter (· ≠ c), editor := e' }, (s.index.filter (· ≠ c)).isEmpty && true) := by
      unfold Server.turn
      simp only [Server.react, he, Server.lift, bind, Except.bind, pure, Except.pure, Server.removeIndex, hs, if_true]
      rw [purge_calm (by exact (Ced.Editor.same_removeClient he).stopped.trans hst)]
      rfl
    exact ⟨_, _, ht, k2, .event ok.std r (by intro c line h; cases h) ht, (by intro c line h; cases h), rfl, by rw [hw]; exact congrArg _ hew.symm⟩
  | message c line =>
    obtain ⟨hc, hl⟩ := hs
    obtain ⟨e', a, he, k2⟩ := safe_line ro ok (carries_safe ro ok) (ced_run hr) k (C49_modes hr ((hi c).1 hc)) (fun _ _ => trivial) hl
    have ht : s.turn env true (.message c line) =
        .ok ({ s with editor := e', written := s.written ++ [(c, .response a)] }, s.index.isEmpty && false) := by
      unfold Server.turn
      simp only [Server.react, he, Server.lift, bind, Except.bind, pure, Except.pure, hc, if_true]
      rw [purge_calm (by exact ((Ced.Editor.menus_handle (menus_editorRun (ced_run hr)) he).2.2.1 (safe_stays hl)).trans hst)]
      rfl
    refine ⟨_, _, ht, k2, .event ok.std r ?_ ht, ?_, rfl, a, he⟩
    · intro c' line' h; cases h; exact safe_line_clean ro hl
    · intro c' line' h; cases h; exact ⟨a, rfl⟩

/-- what is known of a server of such clients -/
theorem safe_server {s : Server LuaState} (r : SafeServer R s) : CedServer s ∧ H s.editor.core := by
  induction r with
  | @start eng env ok session cwd args cwdText ha hc hp e h =>
    refine ⟨.start ok.std h, ?_⟩
    show H e.core
    unfold Ced.Editor.new at h
    obtain ⟨w, h1, h⟩ := bind_inv h
    obtain ⟨⟨l, w', err⟩, h2, h⟩ := bind_inv h
    unfold Scripts.prelude at h2
    obtain ⟨w2, h3, h2⟩ := bind_inv h2
    obtain ⟨w3, h4, h2⟩ := bind_inv h2
    have hw3 : w3 = e.core := by
      cases h2; cases h; rfl
    have k1 : H w := by
      obtain ⟨x1, e1, k1⟩ := ro.start (env := env.core) cwd ok.seg ha hc
      rw [h1] at e1
      cases e1
      exact k1
    obtain ⟨x2, e2, k2⟩ := safe_step ro ok (op := .debug str!"lua state ready") k1 (ro.debug (ro.lit (asciiStrB_iff.1 rfl)))
    rw [show CoreOp.run eng.core w (.debug str!"lua state ready") = .ok w2 from h3] at e2
    cases e2
    obtain ⟨x3, e3, k3⟩ := safe_step ro ok (op := .debug (str!"lua path: " ++ eng.path)) k2 (ro.debug (ro.app (ro.lit (asciiStrB_iff.1 rfl)) hp))
    rw [show CoreOp.run eng.core w2 (.debug (str!"lua path: " ++ eng.path)) = .ok w3 from h4] at e3
    cases e3
    rw [← hw3]
    exact k3
  | event ok r hs h ih =>
    obtain ⟨s1, last1, h1, k1, c1, _, _⟩ := safe_turn ro ok ih.1 ih.2 hs
    rw [h] at h1
    cases h1
    exact ⟨c1, k1⟩
  | @deliver s broken _ ih =>
    refine ⟨.deliver broken ih.1, ?_⟩
    have e : (s.deliver broken).editor = s.editor := by unfold Server.deliver; split <;> rfl
    rw [e]
    exact ih.2

/-- the server starts -/
theorem rules_start (ok : SafeEnv R eng env) (session : Str) (cwd : Path) {args cwdText : Str} (ha : R.text args)
    (hc : R.text cwdText) (hp : R.text eng.path) :
    ∃ e, Ced.Editor.new env ⟨session, []⟩ (Scripts.prelude eng) session cwd args cwdText = .ok e ∧ SafeServer R (Server.start e) := by
  obtain ⟨w, h1, k1⟩ := ro.start (env := env.core) cwd ok.seg ha hc
  obtain ⟨w2, h2, k2⟩ := safe_step ro ok (op := .debug str!"lua state ready") k1 (ro.debug (ro.lit (asciiStrB_iff.1 rfl)))
  obtain ⟨w3, h3, k3⟩ := safe_step ro ok (op := .debug (str!"lua path: " ++ eng.path)) k2 (ro.debug (ro.app (ro.lit (asciiStrB_iff.1 rfl)) hp))
  have h : ∃ e, Ced.Editor.new env ⟨session, []⟩ (Scripts.prelude eng) session cwd args cwdText = .ok e := by
    unfold Ced.Editor.new
    rw [h1, except_bind_ok]
    unfold Scripts.prelude
    rw [show World.debug eng.core w str!"lua state ready" = .ok w2 from h2, except_bind_ok,
      show World.debug eng.core w2 (str!"lua path: " ++ eng.path) = .ok w3 from h3]
    exact ⟨_, rfl⟩
  obtain ⟨e, h⟩ := h
  exact ⟨e, h, .start ok ha hc hp h⟩

/-- the next event -/
theorem rules_turn {s : Server LuaState} (r : SafeServer R s) (ok : SafeEnv R eng env) {ev : ServerEvent}
    (hs : SafeEvent R eng env s ev) : ∃ s' last, s.turn env true ev = .ok (s', last) ∧ SafeServer R s' ∧
      ∀ c line, ev = .message c line → ∃ a, s'.written = s.written ++ [(c, .response a)] := by
  obtain ⟨s', last, h, _, _, hw, _⟩ := safe_turn ro ok (safe_server ro r).1 (safe_server ro r).2 hs
  exact ⟨s', last, h, .event ok r hs h, hw⟩

/-- schedules -/
theorem rules_loop {steps : List (Server.Step LuaState)} : ∀ {s : Server LuaState}, SafeServer R s → SafeSchedule R s steps →
    ∃ s' rest, s.loop steps = .ok (s', rest) ∧ SafeServer R s' ∧
      ∀ l, rest = some l → s'.index = [] ∧ ∃ pre env wr c, steps = pre ++ .event env wr (.leave c) :: l := by
  induction steps with
  | nil => intro s r _; exact ⟨s, none, rfl, r, fun l hl => by cases hl⟩
  | cons x steps ih =>
    intro s r hs
    cases x with
    | deliver broken =>
      obtain ⟨s2, rest, h2, r2, h3⟩ := ih (.deliver broken r) hs
      refine ⟨s2, rest, h2, r2, fun l hl => ?_⟩
      obtain ⟨h4, pre, env, wr, c, h5⟩ := h3 l hl
      exact ⟨h4, .deliver broken :: pre, env, wr, c, by rw [h5]; rfl⟩
    | event env wr ev =>
      obtain ⟨rfl, ⟨eng, ok, he⟩, hn⟩ := hs
      obtain ⟨s1, last, h1, r1, _⟩ := rules_turn ro r ok he
      rw [Server.loop, h1]
      cases last with
      | true =>
        refine ⟨s1, some steps, rfl, r1, fun l hl => ?_⟩
        cases hl
        unfold Server.turn at h1
        obtain ⟨s2, _, h1⟩ := ebind_inv h1
        obtain ⟨s3, _, h1⟩ := ebind_inv h1
        injection h1 with h1
        injection h1 with h1 h2
        subst h1
        rw [Bool.and_eq_true] at h2
        refine ⟨List.isEmpty_iff.1 h2.1, ?_⟩
        cases ev with
        | leave c => exact ⟨[], env, true, c, rfl⟩
        | join c => cases h2.2
        | message c l => cases h2.2
      | false =>
        obtain ⟨s2, rest, h2, r2, h3⟩ := ih r1 (hn s1 h1)
        refine ⟨s2, rest, h2, r2, fun l hl => ?_⟩
        obtain ⟨h4, pre, env', wr, c, h5⟩ := h3 l hl
        exact ⟨h4, .event env true ev :: pre, env', wr, c, by rw [h5]; rfl⟩

end general

/-- C81: the server starts. -/
theorem C81_start (ok : SafeEnv .ascii eng env) (session : Str) (cwd : Path) {args cwdText : Str} (ha : AsciiStr args)
    (hc : AsciiStr cwdText) (hp : AsciiStr eng.path) :
    ∃ e, Ced.Editor.new env ⟨session, []⟩ (Scripts.prelude eng) session cwd args cwdText = .ok e ∧
      SafeServer .ascii (Server.start e) :=
  rules_start rules_ascii ok session cwd ha hc hp

/-- C81: whatever its clients have done before, as long as they keep to the rules of Spec/SafeServer.lean, the server treats
the next event without crashing, and a line is answered. -/
theorem C81_turn {s : Server LuaState} (r : SafeServer .ascii s) (ok : SafeEnv .ascii eng env) {ev : ServerEvent}
    (hs : SafeEvent .ascii eng env s ev) : ∃ s' last, s.turn env true ev = .ok (s', last) ∧ SafeServer .ascii s' ∧
      ∀ c line, ev = .message c line → ∃ a, s'.written = s.written ++ [(c, .response a)] :=
  rules_turn rules_ascii r ok hs

/-- C81: a schedule of any length of such events, with deliveries of notifications in between, never crashes the server; and
it treats all of them, unless a client leaves and nobody is connected any more, which ends the loop. -/
theorem C81_loop {steps : List (Server.Step LuaState)} {s : Server LuaState} (r : SafeServer .ascii s)
    (hs : SafeSchedule .ascii s steps) :
    ∃ s' rest, s.loop steps = .ok (s', rest) ∧ SafeServer .ascii s' ∧
      ∀ l, rest = some l → s'.index = [] ∧ ∃ pre env wr c, steps = pre ++ .event env wr (.leave c) :: l :=
  rules_loop rules_ascii r hs

/-- C95: a server starts, in any characters. -/
theorem C95_server_start {g : Segmentation} (ok : SafeEnv (.any g) eng env) (session : Str) (cwd : Path) (args cwdText : Str) :
    ∃ e, Ced.Editor.new env ⟨session, []⟩ (Scripts.prelude eng) session cwd args cwdText = .ok e ∧
      SafeServer (.any g) (Server.start e) :=
  rules_start (rules_any ok.seg.2) ok session cwd trivial trivial trivial

/-- C95: as long as its clients keep to the rules for texts of any characters, the server treats the next event without
crashing, and a line is answered. -/
theorem C95_server_turn {g : Segmentation} {s : Server LuaState} (r : SafeServer (.any g) s) (ok : SafeEnv (.any g) eng env)
    {ev : ServerEvent} (hs : SafeEvent (.any g) eng env s ev) :
    ∃ s' last, s.turn env true ev = .ok (s', last) ∧ SafeServer (.any g) s' ∧
      ∀ c line, ev = .message c line → ∃ a, s'.written = s.written ++ [(c, .response a)] :=
  rules_turn (rules_any ok.seg.2) r ok hs

/-- C95: schedules of any length. -/
theorem C95_server_loop {g : Segmentation} (hg : IsSegmentation g) {steps : List (Server.Step LuaState)} {s : Server LuaState}
    (r : SafeServer (.any g) s) (hs : SafeSchedule (.any g) s steps) :
    ∃ s' rest, s.loop steps = .ok (s', rest) ∧ SafeServer (.any g) s' ∧
      ∀ l, rest = some l → s'.index = [] ∧ ∃ pre env wr c, steps = pre ++ .event env wr (.leave c) :: l :=
  rules_loop (rules_any hg) r hs

/-- C95: and as long as they keep to the rules for sessions in which no cursor moves, whatever the clusters are. -/
theorem C95_server_still {steps : List (Server.Step LuaState)} {s : Server LuaState} (r : SafeServer .still s)
    (hs : SafeSchedule .still s steps) :
    ∃ s' rest, s.loop steps = .ok (s', rest) ∧ SafeServer .still s' ∧
      ∀ l, rest = some l → s'.index = [] ∧ ∃ pre env wr c, steps = pre ++ .event env wr (.leave c) :: l :=
  rules_loop rules_still r hs

/-! ### A concrete server -/

/-- the environment of `cedEnv`, with regular expressions -/
def safeEnvA : EditorEnv LuaState := { cedEnv with compile := plainCompile }

theorem safeEnvA_ok : SafeEnv .ascii engA safeEnvA :=
  ⟨⟨standardA.lua, standardA.core, standardA.tame, standardA.follows⟩, bytewise_ok, sameA, plainCompile_engine⟩

/-- a search for one plain word, or for nothing -/
def searchB (s : Str) : Bool :=
  decide (s.length ≤ searchLimit) && s.all fun c => !white c && !(str!"\\.+*?()|[]{}^$").contains c

theorem searchB_ok {s : Str} (h : searchB s = true) : ∃ ws, WordsOf s ws ∧ PlainWords ws := by
  obtain ⟨hlen, h⟩ := Bool.and_eq_true_iff.1 h
  have hlen : s.length ≤ searchLimit := of_decide_eq_true hlen
  have h : ∀ c ∈ s, white c = false ∧ c ∉ str!"\\.+*?()|[]{}^$" := by
    intro c hc
    have := List.all_eq_true.1 h c hc
    rw [Bool.and_eq_true] at this
    exact ⟨by simpa using this.1, by simpa using this.2⟩
  cases s with
  | nil => exact ⟨[], .done (by intro c hc; cases hc), ⟨(by intro w hw; cases hw), (by simp)⟩⟩
  | cons x s =>
    refine ⟨[x :: s], ?_, ⟨?_, by simpa using hlen⟩⟩
    · have := WordsOf.word (b := []) (w := x :: s) (rest := []) (ws := []) (by intro c hc; cases hc) (by simp) (fun c hc => (h c hc).1)
        (by intro c hc; cases hc) (.done (by intro c hc; cases hc))
      simpa using this
    · intro w hw
      simp only [List.mem_cons, List.not_mem_nil, or_false] at hw
      subst hw
      exact ⟨by simp, h⟩

def safeKeysB (session : Str) (c : Nat) : KeyMode → List KeyEvent → World → Bool
  | _, [], _ => true
  | m, k :: ks, w =>
    (match m.op c k.display with | none => true | some op => safeB envA w op) &&
    (match keysDo engA session c m [k] w with | .error _ => true | .ok w' => safeKeysB session c (m.next k.display) ks w')

theorem safeKeysB_ok {session : Str} {c : Nat} : ∀ {ks : List KeyEvent} {m : KeyMode} {w : World}, SafeHistory w →
    safeKeysB session c m ks w = true → SafeKeys .ascii engA session c m ks w
  | [], _, _, _, _ => trivial
  | k :: ks, m, w, hk, h => by
    rw [safeKeysB, Bool.and_eq_true] at h
    have h1 : ∀ op, m.op c k.display = some op → Safe engA.core w op := by
      intro op ho
      have := h.1
      rw [ho] at this
      exact safeB_ok hk (fun _ => rfl) this
    refine ⟨h1, fun w' hw => ?_⟩
    have h2 := h.2
    rw [hw] at h2
    obtain ⟨w1, e1, k1⟩ := safe_keys rules_ascii (ks := [k]) safeEnvA_ok (carries_safe rules_ascii safeEnvA_ok) (fun _ _ => trivial) (fun _ _ _ _ _ => trivial) hk (m := m) (session := session) (c := c) ⟨h1, fun _ _ => trivial⟩
    rw [hw] at e1
    cases e1
    exact safeKeysB_ok k1 h2

/-- the mode of a client, read off its stack -/
def modeB (l : LuaState) (c : Nat) : Option KeyMode :=
  match l.clients.get c with
  | none => none
  | some h => [KeyMode.normal, .insertion, .moveTo, .extendTo].find? fun m => h.modeStack = m.stack

theorem modeB_ok {l : LuaState} {c : Nat} {m : KeyMode} (h : InMode l c m) : modeB l c = some m := by
  obtain ⟨x, hx, hs⟩ := h
  unfold modeB
  rw [hx]
  dsimp only
  rw [hs]
  cases m <;> rfl

def safeDirectB (e : Ced.Editor LuaState) (c : Nat) : Call → Bool
  | .edit name scratch => safeB envA e.core (.edit c name scratch)
  | .view id => safeB envA e.core (.view c id)
  | .viewDelete => safeB envA e.core (.viewDelete c)
  | .viewAdd b => safeB envA e.core (.viewAdd c b)
  | .viewRemove b => safeB envA e.core (.viewRemove c b)
  | .menu _ search => searchB search
  | .keys ks => match modeB e.lua c with | none => true | some m => safeKeysB e.lua.session c m ks e.core
  | .exec source => safeB envA e.core (.message (some c) source)
  | .quit => false
  | .menuSelect _ _ => false

theorem safeDirectB_ok {e : Ced.Editor LuaState} (hk : SafeHistory e.core) {c : Nat} {call : Call} (h : safeDirectB e c call = true) :
    SafeDirect .ascii engA e c call := by
  cases call with
  | quit => cases h
  | menuSelect _ _ => cases h
  | edit n s => exact safeB_ok (env := envA) (op := .edit c n s) hk (fun _ => rfl) h
  | view id => exact safeB_ok (env := envA) (op := .view c id) hk (fun _ => rfl) h
  | viewDelete => exact safeB_ok (env := envA) (op := .viewDelete c) hk (fun _ => rfl) h
  | viewAdd b => exact safeB_ok (env := envA) (op := .viewAdd c b) hk (fun _ => rfl) h
  | viewRemove b => exact safeB_ok (env := envA) (op := .viewRemove c b) hk (fun _ => rfl) h
  | menu _ s => exact searchB_ok h
  | keys ks =>
    intro m hm
    have h : (match modeB e.lua c with | none => true | some m => safeKeysB e.lua.session c m ks e.core) = true := h
    rw [modeB_ok hm] at h
    exact safeKeysB_ok hk h
  | exec source =>
    have hs : Safe engA.core e.core (.message (some c) source) := safeB_ok (env := envA) (op := .message (some c) source) hk (fun _ => rfl) h
    obtain ⟨w, hw, _⟩ := safe_step rules_ascii safeEnvA_ok hk (op := .message (some c) source) hs
    refine ⟨e.lua, w, none, ?_, .next (op := .message (some c) source) (honest_plain rfl) hs hw (.none _), by intro t ht; cases ht⟩
    show (e.core.message envA (some c) source).map _ = _
    rw [show e.core.message envA (some c) source = .ok w from hw]
    rfl

def safeCallB (e : Ced.Editor LuaState) (c : Nat) : Call → Bool
  | .menuSelect command choice => match selectCall command choice with | none => true | some call => safeDirectB e c call
  | call => safeDirectB e c call

theorem safeCallB_ok {e : Ced.Editor LuaState} (hk : SafeHistory e.core) {c : Nat} {call : Call} (h : safeCallB e c call = true) :
    SafeCall .ascii engA e c call := by
  cases call with
  | menuSelect command choice =>
    intro call hc
    have h : (match selectCall command choice with | none => true | some call => safeDirectB e c call) = true := h
    rw [hc] at h
    exact safeDirectB_ok hk h
  | edit n s => exact safeDirectB_ok (call := .edit n s) hk h
  | view id => exact safeDirectB_ok (call := .view id) hk h
  | viewDelete => exact safeDirectB_ok (call := .viewDelete) hk h
  | viewAdd b => exact safeDirectB_ok (call := .viewAdd b) hk h
  | viewRemove b => exact safeDirectB_ok (call := .viewRemove b) hk h
  | menu n s => exact safeDirectB_ok (c := c) (call := .menu n s) hk h
  | keys ks => exact safeDirectB_ok (call := .keys ks) hk h
  | exec source => exact safeDirectB_ok (call := .exec source) hk h
  | quit => cases h

/-- the events of the example: connections, calls as the clients of ced write them, lines that hold no request, departures -/
inductive SafeDo where
  | join (c : Nat)
  | call (c : Nat) (what : Call)
  | junk (c : Nat) (line : Str)
  | leave (c : Nat)

def SafeDo.event : SafeDo → ServerEvent
  | .join c => .join c
  | .call c x => .message c (x.request (.number 1)).encode.write
  | .junk c line => .message c line
  | .leave c => .leave c

def safeDoB (s : Server LuaState) : SafeDo → Bool
  | .join c => !s.index.contains c && (!s.index.isEmpty || decide (s.editor.core.views.map.length = 1))
  | .call c call => s.index.contains c && safeCallB s.editor c call
  | .junk c line => s.index.contains c && asciiStrB line && ((JsonText.parse line).bind Request.decode).isNone
  | .leave c => s.index.contains c

theorem asks_unique {q : Request} {a b : Call} (ha : Asks q a) (hb : Asks q b) : a = b := by
  obtain ⟨ma, ra⟩ := ha
  obtain ⟨mb, rb⟩ := hb
  rw [ma] at mb
  cases a <;> cases b <;> simp only [Call.method, List.cons.injEq, reduceCtorEq, Char.reduceEq, false_and, and_false] at mb <;>
    simp only [ReadBack] at ra rb <;> first | rfl | (rw [ra] at rb; simp_all)

theorem safeDoB_ok {s : Server LuaState} (hk : SafeHistory s.editor.core) {x : SafeDo} (h : safeDoB s x = true) :
    SafeEvent .ascii engA safeEnvA s x.event := by
  cases x with
  | join c =>
    unfold safeDoB at h
    simp only [Bool.and_eq_true, Bool.not_eq_true', Bool.or_eq_true, decide_eq_true_eq] at h
    show _ ∧ _
    refine ⟨by simpa using h.1, fun hi => ?_⟩
    rcases h.2 with h2 | h2
    · rw [hi] at h2; cases h2
    · exact h2
  | leave c =>
    show c ∈ s.index
    simpa [safeDoB] using h
  | call c call =>
    unfold safeDoB at h
    rw [Bool.and_eq_true] at h
    show _ ∧ _
    refine ⟨by simpa using h.1, ?_⟩
    obtain ⟨q, hq, _, hm, hr⟩ := C38_call (id := .number 1) (by exact ⟨by decide, by decide⟩) call
    have hp : (safeEnvA.parse (call.request (.number 1)).encode.write).bind Request.decode = some q := by
      rw [show safeEnvA.parse = JsonText.parse from rfl, JsonText.parse_write, Option.bind_some, hq]
    show SafeLine .ascii engA safeEnvA s.editor c _
    unfold SafeLine
    rw [hp]
    refine ⟨fun call' ha => ?_, fun hn => absurd ?_ hn⟩
    · rw [asks_unique ha ⟨hm, hr⟩]
      exact safeCallB_ok hk h.2
    · rw [hm]
      cases call <;> simp [methods, Call.method]
  | junk c line =>
    unfold safeDoB at h
    simp only [Bool.and_eq_true, Option.isNone_iff_eq_none] at h
    show _ ∧ _
    refine ⟨by simpa using h.1.1, ?_⟩
    show SafeLine .ascii engA safeEnvA s.editor c _
    unfold SafeLine
    rw [show (safeEnvA.parse line).bind Request.decode = none from h.2]
    exact ⟨asciiStrB_iff.1 rfl, asciiStrB_iff.1 h.1.2⟩

def safeRun (xs : List SafeDo) : Except Crash (Server LuaState) := do
  let e ← Server.lift (Ced.Editor.new safeEnvA ⟨str!"s", []⟩ (Scripts.prelude engA) str!"s" [] [] [])
  xs.foldlM (fun s x => do
    if safeDoB s x then
      let (s, _) ← s.turn safeEnvA true x.event
      return s.deliver []
    else .error .write) (Server.start e)

theorem safeRun_ok {xs : List SafeDo} {s : Server LuaState} (h : safeRun xs = .ok s) : SafeServer .ascii s := by
  unfold safeRun at h
  obtain ⟨e, h0, h1⟩ := ebind_inv h
  clear h
  have start : SafeServer .ascii (Server.start e) :=
    .start safeEnvA_ok (by intro c hc; cases hc) (by intro c hc; cases hc) (asciiStrB_iff.1 rfl) (lift_ok h0)
  generalize Server.start e = s0 at h1 start
  clear h0
  have h := h1
  clear h1
  induction xs generalizing s0 with
  | nil => cases h; exact start
  | cons x xs ih =>
    rw [List.foldlM_cons] at h
    obtain ⟨s1, h1, h⟩ := ebind_inv h
    refine ih s1 ?_ h
    split at h1
    · rename_i hb
      obtain ⟨⟨s2, l⟩, h2, h1⟩ := ebind_inv h1
      cases h1
      exact .deliver _ (.event safeEnvA_ok start (safeDoB_ok (safe_server rules_ascii start).2 hb) h2)
    · cases h1

/-- Three clients: files, motions, deletions, menus, messages, a line that holds no request, and departures. -/
def safeDos : List SafeDo :=
  [.join 1, .call 1 (.edit ['f'] false), .call 1 (.keys [press 'l', press 'g', press 'l', press 'h']), .join 2, .call 2 (.menu [] []),
   .call 2 (.menuSelect [] (str!"scratch")), .call 2 (.menuSelect (str!"scratch") ['z']), .junk 1 (str!"hello"), .call 1 (.exec (str!"hi")),
   .call 1 (.keys [press 'd', press 'i', press 'd']), .call 2 (.edit ['g'] false), .call 2 (.viewAdd ['f']), .call 2 (.menu (str!"open") (str!"ab")),
   .leave 1, .join 3, .call 3 (.view (str!"f{*}")), .call 2 .viewDelete]

example : ((safeRun safeDos).toOption.map fun s => s.index) = some [2, 3] := by decide +kernel

example : ∃ s, SafeServer .ascii s ∧ s.index = [2, 3] := by
  have h : ((safeRun safeDos).toOption.map fun s => s.index) = some [2, 3] := by decide +kernel
  cases hs : safeRun safeDos with
  | error p => rw [hs] at h; cases h
  | ok s => rw [hs] at h; exact ⟨s, safeRun_ok hs, by injection h⟩

/-- In that state the second client sends a line that holds no request, which is a safe schedule. -/
example : ∃ s, SafeServer .ascii s ∧ SafeSchedule .ascii s [.event safeEnvA true (.message 2 (str!"hello")), .deliver []] := by
  have h : ((safeRun safeDos).toOption.map fun s => s.index) = some [2, 3] := by decide +kernel
  cases hs : safeRun safeDos with
  | error p => rw [hs] at h; cases h
  | ok s =>
    rw [hs] at h
    have hi : s.index = [2, 3] := by injection h
    have r := safeRun_ok hs
    have hj : SafeEvent .ascii engA safeEnvA s (.message 2 (str!"hello")) := by
      refine safeDoB_ok (safe_server rules_ascii r).2 (x := .junk 2 (str!"hello")) ?_
      show (s.index.contains 2 && _ && _) = true
      rw [hi]
      decide +kernel
    exact ⟨s, r, rfl, ⟨engA, safeEnvA_ok, hj⟩, fun _ _ => trivial⟩

end Ced.Props
