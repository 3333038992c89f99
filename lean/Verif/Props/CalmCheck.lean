import Verif.Props.CalmExact

/-! # C77 on concrete sessions: a check of safety that can be computed, and sessions that pass it -/

namespace Ced.Props
open Spec PieceTable

variable {w : World} {env : Env}

def plainNameB (n : Str) : Bool := asciiStrB n && !n.contains '{'

def plainBytesB (s : Bytes) : Bool := s.all (fun b => decide (b < 128)) && decide (s.getLast? = some NL)

def insideB (s : Bytes) (sel : Selection) : Bool :=
  decide (sel.anchor < s.length) && decide (sel.cursor < s.length) && decide (1 ≤ sel.targetCol)

/-- the selections of all clients in `n`, under every identifier, except those of the client and identifier given -/
def fitB (w : World) (n : Str) (s : Bytes) (except : Option (Nat × Str)) : Bool :=
  w.clients.map.all fun c => c.2.selections.all fun km => km.2.all fun kv =>
    decide (except = some (c.1, km.1)) || decide (kv.1 ≠ n) || kv.2.all (insideB s)

def elsewhereB (w : World) (v : View) (n : Str) : Bool :=
  w.views.map.any fun kv => decide (kv.2 ≠ v) && decide (n ∈ kv.2.buffers)

def closableB (w : World) (v : View) : Bool :=
  (decide (BUFFER_DEBUG ∉ v.buffers) || v.buffers.all fun b => decide (b = BUFFER_DEBUG) || elsewhereB w v b) &&
  ((w.views.map.any fun kv => decide (kv.2 ≠ v)) || (w.buffers.has BUFFER_SCRATCH && decide (BUFFER_SCRATCH ∉ v.buffers)))

def noLeftoverB (ctx : ClientContext) (v : View) : Bool :=
  match ctx.selections.get v.key with
  | none => true
  | some m => m.all fun kv => decide (kv.1 ∈ v.buffers)

/-- the text of a buffer, read off its piece table -/
def textIn (w : World) (n : Str) : Bytes := match w.buffers.get n with
  | some b => b.content.content
  | none => []

def safeB (env : Env) (w : World) : CoreOp → Bool
  | .join _ _ => !w.clients.stack.isEmpty || decide (w.views.map.length = 1)
  | .leave _ => true
  | .edit c name scratch => w.clients.map.has c && plainNameB name && (scratch ||
      match w.buffers.get name with
      | none => match env.fs (env.resolve w.cwd name) with
        | some f => f.content.all (fun b => decide (b < 128))
        | none => false
      | some b => match b.loadFromDisk env.stale env.fs env.now with
        | .ok r => plainBytesB r.1.content.content && fitB w name r.1.content.content none
        | .error _ => false)
  | .scratch c name content => w.clients.map.has c && plainNameB name &&
      ((decide (content = []) && fitB w name [NL] none) || (plainBytesB content && fitB w name content none))
  | .view c id => w.clients.map.has c && (w.views.map.has id || !w.buffers.has id)
  | .viewDelete c => match w.clients.map.get c with
    | some ctx => closableB w ctx.view
    | none => false
  | .viewAdd c _ => match w.clients.map.get c with
    | some ctx => w.clients.map.all fun d => noLeftoverB d.2 ctx.view
    | none => false
  | .viewRemove c b => match w.clients.map.get c with
    | some ctx => (decide (ctx.view.buffers ≠ [b]) || closableB w ctx.view) &&
        (decide (b ∉ ctx.view.buffers) || decide (ctx.view.buffers = [b]) || decide (BUFFER_DEBUG ∉ ctx.view.buffers) ||
          decide (b = BUFFER_DEBUG) || elsewhereB w ctx.view b)
    | none => false
  | .move c dir _ => match w.clients.map.get c with
    | some ctx => noLeftoverB ctx ctx.view && (decide (dir ≠ .lineEnd) || match ctx.selections.get ctx.view.key with
      | none => true
      | some m => m.all fun kv => kv.2.all fun sel =>
          decide ((textIn w kv.1).length = 1) || decide (((textIn w kv.1)[sel.cursor]?).getD NL ≠ NL))
    | none => false
  | .deleteSelection c => match w.clients.map.get c with
    | some ctx => noLeftoverB ctx ctx.view && match ctx.selections.get ctx.view.key with
      | none => true
      | some m => m.all fun kv => kv.2.all fun sel =>
          (decide (hi sel + 1 < (textIn w kv.1).length) || decide (lo sel = 0)) &&
          fitB w kv.1 (remaining (textIn w kv.1) sel) (some (c, ctx.view.key))
    | none => false
  | .append b x xs => plainNameB b && plainBytesB (x :: xs)
  | .debug text => asciiStrB text
  | .message _ text => asciiStrB text
  | .error _ tag text => asciiStrB tag && asciiStrB text
  | .notify _ _ => true

theorem plainNameB_ok {n : Str} (h : plainNameB n = true) : PlainName n := by
  unfold plainNameB at h
  rw [Bool.and_eq_true] at h
  exact ⟨asciiStrB_iff.1 h.1, by simpa using h.2⟩

theorem asciiB_ok {s : Bytes} (h : (s.all fun b => decide (b < 128)) = true) : Ascii s := by
  intro b hb
  exact of_decide_eq_true (List.all_eq_true.1 h b hb)

theorem plainBytesB_ok {s : Bytes} (h : plainBytesB s = true) : PlainBytes s := by
  unfold plainBytesB at h
  rw [Bool.and_eq_true] at h
  exact ⟨asciiB_ok h.1, by simpa [EndsWithNewline] using h.2⟩

theorem insideB_ok {s : Bytes} {sel : Selection} (h : insideB s sel = true) : Inside s sel := by
  unfold insideB at h
  simp only [Bool.and_eq_true, decide_eq_true_eq] at h
  exact ⟨h.1.1, h.1.2, h.2⟩

theorem fitB_ok {n : Str} {s : Bytes} {x : Option (Nat × Str)} (h : fitB w n s x = true) {c : Nat} {ctx : ClientContext} {k : Str}
    {m : Assoc Str (List Selection)} {ss : List Selection} (hc : w.clients.map.get c = some ctx)
    (hk : ctx.selections.get k = some m) (hx : x ≠ some (c, k)) (hn : m.get n = some ss) : ∀ sel ∈ ss, Inside s sel := by
  unfold fitB at h
  have h1 := List.all_eq_true.1 h _ (Assoc.get_mem hc)
  have h2 := List.all_eq_true.1 h1 _ (Assoc.get_mem hk)
  have h3 := List.all_eq_true.1 h2 _ (Assoc.get_mem hn)
  simp only [Bool.or_eq_true, decide_eq_true_eq] at h3
  rcases h3 with (h3 | h3) | h3
  · exact absurd h3 hx
  · exact absurd rfl h3
  · intro sel hsel
    exact insideB_ok (List.all_eq_true.1 h3 sel hsel)

theorem selectionsFit_ok {n : Str} {s : Bytes} (h : fitB w n s none = true) : SelectionsFit w n s :=
  fun _ _ _ _ _ hc hk hn => fitB_ok h hc hk (by simp) hn

theorem elsewhereB_ok (i : World.Inv w) {v : View} {n : Str} (h : elsewhereB w v n = true) : ShownElsewhere w v n := by
  unfold elsewhereB at h
  obtain ⟨⟨k, v'⟩, hm, h⟩ := List.any_eq_true.1 h
  simp only [Bool.and_eq_true, decide_eq_true_eq] at h
  exact ⟨k, v', Assoc.mem_get i.vnodup hm, h.1, h.2⟩

theorem closableB_ok (i : World.Inv w) {v : View} (h : closableB w v = true) : Closable w v := by
  unfold closableB at h
  simp only [Bool.and_eq_true, Bool.or_eq_true, decide_eq_true_eq] at h
  refine ⟨?_, ?_⟩
  · intro hd b hb hne
    rcases h.1 with h1 | h1
    · exact absurd hd h1
    · have := List.all_eq_true.1 h1 b hb
      simp only [Bool.or_eq_true, decide_eq_true_eq] at this
      exact elsewhereB_ok i (this.resolve_left hne)
  · rcases h.2 with h2 | h2
    · obtain ⟨⟨k, v'⟩, hm, h2⟩ := List.any_eq_true.1 h2
      exact Or.inl ⟨k, v', Assoc.mem_get i.vnodup hm, of_decide_eq_true h2⟩
    · exact Or.inr h2

theorem noLeftoverB_ok {ctx : ClientContext} {v : View} (h : noLeftoverB ctx v = true) : NoLeftover ctx v := by
  intro m n hm hn
  unfold noLeftoverB at h
  rw [hm] at h
  obtain ⟨ss, hs⟩ := Assoc.has_iff.1 hn
  exact of_decide_eq_true (List.all_eq_true.1 h _ (Assoc.get_mem hs))

theorem onEmptyLine_newline {s : Bytes} {o : Nat} (h : OnEmptyLine s o) : (s[o]?).getD NL = NL := by
  obtain ⟨n, pre, suf, hl, rfl⟩ := h
  rw [hl.split]
  simp only [List.append_nil, List.getElem?_append_right (Nat.le_refl _), Nat.sub_self]
  rcases hl.stops with e | e
  · rw [e]; rfl
  · cases suf with
    | nil => rfl
    | cons x xs => simpa using e

theorem textIn_shows (k : World.Calm asciiKind w) {n : Str} {b : Buffer} {s : Bytes} (hb : w.buffers.get n = some b) (hs : Shows b.content s) :
    textIn w n = s := by
  unfold textIn
  rw [hb]
  exact PieceTable.shows_unique (shows_content (reachable_ready (forward_any (k.drawn.good n b hb).history)).wf) hs

/-- The check is sound. -/
theorem safeB_ok (hw : SafeHistory w) (hf : ∀ i, (env.stale i).follows = true) {op : CoreOp} (h : safeB env w op = true) : Safe env w op := by
  have k := safe_calm hw
  have i := k.inv
  cases op with
  | join id s =>
    intro hs
    simpa [safeB, hs] using h
  | leave id => trivial
  | edit c name sc =>
    simp only [safeB, Bool.and_eq_true, Bool.or_eq_true] at h
    refine ⟨h.1.1, plainNameB_ok h.1.2, fun hsc => ?_⟩
    rcases h.2 with h2 | h2
    · rw [hsc] at h2; cases h2
    · refine ⟨fun hn => ?_, fun b hb => ?_⟩
      · rw [hn] at h2
        dsimp only at h2
        cases hfs : env.fs (env.resolve w.cwd name) with
        | none => rw [hfs] at h2; cases h2
        | some f => rw [hfs] at h2; exact ⟨f, rfl, asciiB_ok h2⟩
      · rw [hb] at h2
        dsimp only at h2
        cases hl : b.loadFromDisk env.stale env.fs env.now with
        | error e => rw [hl] at h2; cases h2
        | ok r =>
          rw [hl] at h2
          simp only [Bool.and_eq_true] at h2
          have hfw := World.forward_load hf (k.drawn.good name b hb).history hl
          exact ⟨r.1, r.2, _, rfl, shows_content (reachable_ready (forward_any hfw)).wf, plainBytesB_ok h2.1, selectionsFit_ok h2.2⟩
  | scratch c name content =>
    simp only [safeB, Bool.and_eq_true, Bool.or_eq_true, decide_eq_true_eq] at h
    refine ⟨h.1.1, plainNameB_ok h.1.2, ?_⟩
    rcases h.2 with h2 | h2
    · exact Or.inl ⟨h2.1, selectionsFit_ok h2.2⟩
    · exact Or.inr ⟨plainBytesB_ok h2.1, selectionsFit_ok h2.2⟩
  | view c id =>
    simp only [safeB, Bool.and_eq_true, Bool.or_eq_true, Bool.not_eq_true'] at h
    exact h
  | viewDelete c =>
    simp only [safeB] at h
    cases hc : w.clients.map.get c with
    | none => rw [hc] at h; cases h
    | some ctx => rw [hc] at h; exact ⟨ctx, hc, closableB_ok i h⟩
  | viewAdd c b =>
    simp only [safeB] at h
    cases hc : w.clients.map.get c with
    | none => rw [hc] at h; cases h
    | some ctx =>
      rw [hc] at h
      refine ⟨ctx, hc, fun d x hd => ?_⟩
      exact noLeftoverB_ok (List.all_eq_true.1 h _ (Assoc.get_mem hd))
  | viewRemove c b =>
    simp only [safeB] at h
    cases hc : w.clients.map.get c with
    | none => rw [hc] at h; cases h
    | some ctx =>
      rw [hc] at h
      simp only [Bool.and_eq_true, Bool.or_eq_true, decide_eq_true_eq] at h
      refine ⟨ctx, hc, fun e => ?_, fun h1 h2 h3 h4 => ?_⟩
      · exact closableB_ok i (h.1.resolve_left (fun hne => hne e))
      · rcases h.2 with (((h5 | h5) | h5) | h5) | h5
        · exact absurd h1 h5
        · exact absurd h5 h2
        · exact absurd h3 h5
        · exact absurd h5 h4
        · exact elsewhereB_ok i h5
  | move c dir ext =>
    simp only [safeB] at h
    cases hc : w.clients.map.get c with
    | none => rw [hc] at h; cases h
    | some ctx =>
      rw [hc] at h
      simp only [Bool.and_eq_true, Bool.or_eq_true, decide_eq_true_eq] at h
      refine ⟨ctx, hc, noLeftoverB_ok h.1, ?_⟩
      intro hdir m n ss sel b s hm hn hsel hb hs hl
      rcases h.2 with h2 | h2
      · exact absurd hdir h2
      · rw [hm] at h2
        have h3 := List.all_eq_true.1 (List.all_eq_true.1 h2 _ (Assoc.get_mem hn)) sel hsel
        rw [textIn_shows k hb hs] at h3
        simp only [Bool.or_eq_true, decide_eq_true_eq] at h3
        exact h3.resolve_right (fun hne => hne (onEmptyLine_newline hl))
  | deleteSelection c =>
    simp only [safeB] at h
    cases hc : w.clients.map.get c with
    | none => rw [hc] at h; cases h
    | some ctx =>
      rw [hc] at h
      simp only [Bool.and_eq_true] at h
      refine ⟨ctx, hc, noLeftoverB_ok h.1, ?_⟩
      intro m n sel b s hm hn hb hs
      have h2 := h.2
      rw [hm] at h2
      have h3 := List.all_eq_true.1 (List.all_eq_true.1 h2 _ (Assoc.get_mem hn)) sel (by simp)
      rw [textIn_shows k hb hs] at h3
      simp only [Bool.and_eq_true, Bool.or_eq_true, decide_eq_true_eq] at h3
      refine ⟨h3.1, ?_⟩
      intro d x k' m' ss hd hk' hne hn'
      refine fitB_ok h3.2 hd hk' ?_ hn'
      intro e
      cases e
      exact hne ⟨rfl, rfl⟩
  | append b x xs =>
    simp only [safeB, Bool.and_eq_true] at h
    exact ⟨plainNameB_ok h.1, plainBytesB_ok h.2⟩
  | debug text => exact asciiStrB_iff.1 h
  | message c text => exact asciiStrB_iff.1 h
  | error c tag text =>
    simp only [safeB, Bool.and_eq_true] at h
    exact ⟨asciiStrB_iff.1 h.1, asciiStrB_iff.1 h.2⟩
  | notify c note => trivial

theorem checked_safe {ops : List CoreOp} (h : checked (safeB envA) ops = .ok w) : SafeHistory w := by
  unfold checked at h
  obtain ⟨w0, h0, h⟩ := bind_inv h
  refine foldlM_ind (P := SafeHistory) h (.start bytewise_ok (by intro c hc; cases hc) (by intro c hc; cases hc) h0) ?_
  intro op _ a a' ha hs
  split at hs
  · rename_i hb
    exact .step ha (safeB_ok ha (fun _ => rfl) hb) bytewise_ok (fun _ => rfl) hs
  · cases hs

/-- a session of two clients: files, scratch buffers, messages, motions, deletions, views -/
def safeOps : List CoreOp :=
  [.join 1 str!"s", .edit 1 ['f'] false, .join 2 str!"s", .edit 2 ['g'] false, .viewAdd 2 ['f'], .move 2 .right false,
   .move 2 .right true, .message (some 1) str!"hi", .error none str!"oops" str!"bad", .move 1 .lineEnd false,
   .move 2 .left false, .deleteSelection 2, .viewDelete 2, .scratch 2 ['s'] [97, 98, 10, 99, 10], .move 2 .down false,
   .move 2 .lineEnd true, .append ['s'] 100 [10], .edit 1 ['g'] false, .view 1 str!"f{*}", .viewAdd 1 ['g'],
   .viewRemove 1 ['f'], .view 2 str!"g{*}", .view 1 str!"nothing", .leave 1, .join 3 [], .edit 3 ['f'] false, .viewDelete 3]


/-- the session is safe -/
theorem safeOps_safe : SafeHistory (final (checked (safeB envA) safeOps)) := checked_safe (final_ok (by decide +kernel))

/-- C77: the next request -/
example : ∃ w', (CoreOp.edit 2 ['f'] false).run envA (final (checked (safeB envA) safeOps)) = .ok w' ∧ SafeHistory w' :=
  C77_step safeOps_safe bytewise_ok (fun _ => rfl) (safeB_ok safeOps_safe (fun _ => rfl) (by decide +kernel))

/-- a client, and a buffer nobody shows, added to its view -/
def addedOps : List CoreOp :=
  [.join 1 str!"s", .edit 1 ['f'] false, .append ['s'] 10 [97, 98, 10], .viewAdd 1 ['s']]

theorem addedOps_safe (n : Nat) (h : (checked (safeB envA) (addedOps.take n)).toOption.isSome = true) :
    SafeHistory (final (checked (safeB envA) (addedOps.take n))) := checked_safe (final_ok h)

/-- the state of client 1 -/
def ctx1 (w : World) : ClientContext := (w.clients.map.get 1).getD ⟨[], []⟩

/-- C30: with the initial view, which shows the log and the scratch buffer, the request crashes … -/
example : ¬ ∃ w', (final (checked (safeB envA) (addedOps.take 1))).deleteCurrentView envA 1 = .ok w' := by
  rw [C30_exact (ctx := ctx1 (final (checked (safeB envA) (addedOps.take 1))))
    (addedOps_safe 1 (by decide +kernel)) bytewise_ok (by decide +kernel)]
  rintro ⟨h, _⟩
  obtain ⟨k, v, hk, hne, _⟩ := h (by decide +kernel) BUFFER_SCRATCH (by decide +kernel) (by decide)
  have hall : ∀ kv ∈ (final (checked (safeB envA) (addedOps.take 1))).views.map,
      kv.2 = (ctx1 (final (checked (safeB envA) (addedOps.take 1)))).view := by decide +kernel
  exact hne (hall _ (Assoc.get_mem hk))

/-- … and with the view of a file it completes. -/
example : ∃ w', (final (checked (safeB envA) (addedOps.take 2))).deleteCurrentView envA 1 = .ok w' :=
  (C30_exact (ctx := ctx1 (final (checked (safeB envA) (addedOps.take 2))))
    (addedOps_safe 2 (by decide +kernel)) bytewise_ok (by decide +kernel)).2
    (closableB_ok (safe_calm (addedOps_safe 2 (by decide +kernel))).inv (by decide +kernel))

/-- C31: the view of the file by identifier and by name; the other buffer by name -/
example : ∃ w' x, (final (checked (safeB envA) (addedOps.take 3))).view envA 1 str!"f{*}" = .ok (w', none) ∧ SafeHistory w' ∧
    w'.clients.map.get 1 = some x ∧ x.view = View.forBuffer ['f'] :=
  C31_view (addedOps_safe 3 (by decide +kernel)) bytewise_ok (fun _ => rfl) (by decide +kernel) (by decide +kernel)
example : ∃ w' x, (final (checked (safeB envA) (addedOps.take 3))).view envA 1 ['f'] = .ok (w', none) ∧ SafeHistory w' ∧
    w'.clients.map.get 1 = some x ∧ x.view = View.forBuffer ['f'] :=
  C31_buffer (addedOps_safe 3 (by decide +kernel)) bytewise_ok (fun _ => rfl) (by decide +kernel) (by decide +kernel)
    (by decide +kernel) (by decide +kernel)
example : ∃ w' x, (final (checked (safeB envA) (addedOps.take 3))).view envA 1 ['s'] = .ok (w', none) ∧
    w'.clients.map.get 1 = some x ∧ x.view.buffers = [['s']] ∧ Stuck w' 1 :=
  C31_stuck (addedOps_safe 3 (by decide +kernel)) bytewise_ok (by decide +kernel) (by decide +kernel)
    (by decide +kernel) (by decide +kernel)

/-- C33: the other buffer is shown, removed from the view, and then the client cannot move -/
example : ∃ w', (final (checked (safeB envA) addedOps)).removeFromCurrentView envA 1 ['s'] = .ok (w', none) ∧
    ∀ dir ext w'', w'.moveCursor envA 1 dir ext ≠ .ok w'' := by
  have hs := addedOps_safe 4 (by decide +kernel)
  have hs : SafeHistory (final (checked (safeB envA) addedOps)) := hs
  obtain ⟨w', e⟩ : ∃ w', (final (checked (safeB envA) addedOps)).removeFromCurrentView envA 1 ['s'] = .ok w' := by
    have h : ((final (checked (safeB envA) addedOps)).removeFromCurrentView envA 1 ['s']).toOption.isSome = true := by decide +kernel
    revert h
    cases (final (checked (safeB envA) addedOps)).removeFromCurrentView envA 1 ['s'] with
    | ok r => exact fun _ => ⟨r, rfl⟩
    | error e => intro h; cases h
  have hc : (final (checked (safeB envA) addedOps)).clients.map.get 1 = some (ctx1 (final (checked (safeB envA) addedOps))) := by
    decide +kernel
  have hm : ['s'] ∈ (ctx1 (final (checked (safeB envA) addedOps))).view.buffers := by decide +kernel
  have hm' : ['f'] ∈ (ctx1 (final (checked (safeB envA) addedOps))).view.buffers := by decide +kernel
  have hall : ∀ kv ∈ (final (checked (safeB envA) addedOps)).views.map,
      ['s'] ∈ kv.2.buffers → kv.2 = (ctx1 (final (checked (safeB envA) addedOps))).view := by decide +kernel
  have hn : ¬ ShownElsewhere (final (checked (safeB envA) addedOps)) (ctx1 (final (checked (safeB envA) addedOps))).view ['s'] := by
    rintro ⟨k, v, hk, hne, hb⟩
    exact hne (hall _ (Assoc.get_mem hk) hb)
  obtain ⟨w', e'⟩ := w'
  have he := (C33_remove (safe_clean hs) hc hm hm' (by decide) e).1
  subst he
  exact ⟨w', e, (C33_leftover (safe_history hs) hc hm hm' (by decide) (by decide) hn e envA).1⟩

def noRemovalB (op : CoreOp) : Bool := cleanB op && match op with
  | .viewRemove _ _ => false
  | _ => true

theorem noRemovalB_ok {w : World} {op : CoreOp} (h : noRemovalB op = true) : NoRemoval w op := by
  unfold noRemovalB at h
  rw [Bool.and_eq_true] at h
  refine ⟨cleanB_ok h.1, ?_⟩
  rintro c b rfl
  cases h.2

example : NoLeftover (ctx1 (final (checked (fun _ => noRemovalB) opsA))) (ctx1 (final (checked (fun _ => noRemovalB) opsA))).view :=
  (C33_no_leftover (checked_history (ops := opsA) (fun _ _ => noRemovalB_ok) (final_ok (by decide +kernel))) (c := 1) (by decide +kernel)).1

/-- C20: the other buffer starts with an empty line; the client moves to the right, but not to the end of the line. -/
theorem added4 : SafeHistory (final (checked (safeB envA) addedOps)) := addedOps_safe 4 (by decide +kernel)

theorem added4_ctx : (final (checked (safeB envA) addedOps)).clients.map.get 1 = some (ctx1 (final (checked (safeB envA) addedOps))) := by
  decide +kernel

theorem added4_neat : NoLeftover (ctx1 (final (checked (safeB envA) addedOps))) (ctx1 (final (checked (safeB envA) addedOps))).view :=
  noLeftoverB_ok (by decide +kernel)

example : ∃ w', (final (checked (safeB envA) addedOps)).moveCursor envA 1 .right false = .ok w' :=
  (C20_request added4 bytewise_ok added4_ctx added4_neat .right false).2 (fun h => by cases h.1)

example : ¬ ∃ w', (final (checked (safeB envA) addedOps)).moveCursor envA 1 .lineEnd false = .ok w' := by
  rw [C20_request added4 bytewise_ok added4_ctx added4_neat]
  intro h
  apply h
  have hb : (final (checked (safeB envA) addedOps)).buffers.get ['s'] =
      some (((final (checked (safeB envA) addedOps)).buffers.get ['s']).getD (Buffer.newScratch [] [])) := by decide +kernel
  have hcon : (((final (checked (safeB envA) addedOps)).buffers.get ['s']).getD (Buffer.newScratch [] [])).content.content =
      [10, 97, 98, 10] := by decide +kernel
  have hg := (safe_calm added4).drawn.good _ _ hb
  have hs := shows_content (reachable_ready (forward_any hg.history)).wf
  rw [hcon] at hs
  refine ⟨rfl, ⟨0, 0, 1⟩, _, ⟨_, _, _, _, (?_ : _ = some [(['f'], [⟨0, 0, 1⟩]), (['s'], [⟨0, 0, 1⟩])]), (?_ : _ = some [⟨0, 0, 1⟩]), by simp, hb, hs⟩,
    ⟨1, [], [10, 97, 98, 10], ⟨rfl, by decide, .inl rfl, by decide, .inr rfl, by decide⟩, rfl⟩, by decide⟩
  · decide +kernel
  · decide +kernel

/-- C58 -/
example : ∃ r, (final (checked (safeB envA) addedOps)).getContext envA 1 = .ok r :=
  C58_total added4 bytewise_ok added4_ctx added4_neat

end Ced.Props
