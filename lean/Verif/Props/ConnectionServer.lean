import Verif.Props.Connection
import Verif.Props.CoreOut
import Verif.Props.Screen
import Verif.Props.MenuSelect

/-! # A connection and the server: C51, C52 and C53 end to end -/

namespace Ced.Props
open Spec
variable {T L : Type} {o : Ornament T} {parse : Str → Option Json}

theorem notesOf_wiresTo (c : Nat) (written : List (Nat × Wire)) : notesOf (wiresTo c written) = notesTo c written := by
  induction written with
  | nil => rfl
  | cons x l ih =>
    obtain ⟨d, w⟩ := x
    by_cases hd : d = c
    · cases w with
      | response r =>
        have e1 : wiresTo c ((d, .response r) :: l) = .response r :: wiresTo c l := by simp [wiresTo, hd]
        have e2 : notesTo c ((d, .response r) :: l) = notesTo c l := by simp [notesTo]
        rw [e1, e2, ← ih]; rfl
      | note n =>
        have e1 : wiresTo c ((d, .note n) :: l) = .note n :: wiresTo c l := by simp [wiresTo, hd]
        have e2 : notesTo c ((d, .note n) :: l) = n :: notesTo c l := by simp [notesTo, hd]
        rw [e1, e2, ← ih]; rfl
    · have e1 : wiresTo c ((d, w) :: l) = wiresTo c l := by simp [wiresTo, hd]
      have e2 : notesTo c ((d, w) :: l) = notesTo c l := by cases w <;> simp [notesTo, hd]
      rw [e1, e2, ih]

theorem isFor_iff {c : Nat} {b : Broadcast} : isFor c b = true ↔ Addressed b c := by
  unfold isFor Addressed
  cases b.only <;> simp

/-- the screen of a client is the last view addressed to it -/
theorem screen_last (c : Nat) (bs : List Broadcast) :
    screen c bs = lastOf viewOf (notesFor c bs) := by
  unfold screen lastOf notesFor
  rw [← List.map_reverse, ← List.filter_reverse]
  induction bs.reverse with
  | nil => rfl
  | cons b l ih =>
    by_cases ha : Addressed b c
    · have hf := isFor_iff.2 ha
      rw [List.filter_cons_of_pos (by simpa using ha), List.map_cons, List.findSome?_cons, List.find?_cons]
      cases hn : b.note with
      | view items => simp [hf, hn, viewOf]
      | _ => simp [hf, ih, viewOf]
    · have hf : isFor c b = false := by
        cases h : isFor c b
        · rfl
        · exact absurd (isFor_iff.1 h) ha
      rw [List.filter_cons_of_neg (by simpa using ha), List.find?_cons]
      simp [hf, ih]

/-- C51, end to end: a client that was connected and stays connected, and has read what was written to it, shows the last
of the views that were queued for it and taken from the queue, whatever its user and the other clients do. -/
theorem C51_server (ho : OrnamentOk o) (hp : JsonText.ReadsBack parse)
    {steps : List (Server.Step L)} {s s' : Server L} {r : Option (List (Server.Step L))} {c : Nat}
    (hr : ServerRun s) (hm : MenusOk s.editor.menus ∧ NoOtherMenus s.editor.menus) (hs : s.editor.stopped = [])
    (hc : c ∈ s.index) (h0 : s.delivered ≤ s.editor.core.out.length) (hl : Appends steps) (hst : Stays c steps)
    (h : s.loop steps = .ok (s', r)) (hnew : notesTo c s.written = [])
    (hf : ∀ n ∈ notesTo c s'.written, Fits n) {cs : List Connection.Step} {conn : Connection T}
    (hread : linesOf cs = readLines ((wiresTo c s'.written).flatMap fun w => frame (w.encode o)))
    (hrun : Connection.new.run o parse cs = .ok conn) :
    conn.state.view = ((screen c ((s'.editor.core.out.take s'.delivered).drop s.delivered)).getD []).map (seenItem o) := by
  have key := (C65_none_lost hr hm hs hc h0 hl hst h).1
  rw [hnew, List.nil_append] at key
  have hf' : ∀ n, .note n ∈ wiresTo c s'.written → Fits n := by
    intro n hn
    refine hf n ?_
    rw [← notesOf_wiresTo]
    exact List.mem_filterMap.2 ⟨_, hn, rfl⟩
  have hmir := (C51_mirrors ho hp hf' hread hrun).view
  rw [notesOf_wiresTo, key] at hmir
  rw [hmir, screen_last]

/-- C51 with C69: when everything queued was taken and a view was queued for the client since it is connected, it shows
the present state of its view, if its screen is up to date in the sense of C69 (Props/Screen). -/
theorem C51_current (ho : OrnamentOk o) (hp : JsonText.ReadsBack parse)
    {steps : List (Server.Step L)} {s s' : Server L} {r : Option (List (Server.Step L))} {c : Nat}
    (hr : ServerRun s) (hm : MenusOk s.editor.menus ∧ NoOtherMenus s.editor.menus) (hs : s.editor.stopped = [])
    (hc : c ∈ s.index) (h0 : s.delivered ≤ s.editor.core.out.length) (hl : Appends steps) (hst : Stays c steps)
    (h : s.loop steps = .ok (s', r)) (hnew : notesTo c s.written = [])
    (hf : ∀ n ∈ notesTo c s'.written, Fits n) {cs : List Connection.Step} {conn : Connection T}
    (hread : linesOf cs = readLines ((wiresTo c s'.written).flatMap fun w => frame (w.encode o)))
    (hrun : Connection.new.run o parse cs = .ok conn)
    (hall : s'.delivered = s'.editor.core.out.length)
    (hsome : (screen c (s'.editor.core.out.drop s.delivered)).isSome = true)
    {env : Env} (hu : UpToDate env s'.editor.core c) :
    ∃ items, s'.editor.core.viewParams env c = .ok (c, items) ∧ conn.state.view = items.map (seenItem o) := by
  have hv := C51_server ho hp hr hm hs hc h0 hl hst h hnew hf hread hrun
  rw [hall, List.take_length] at hv
  obtain ⟨items, h1, h2⟩ := hu
  refine ⟨items, h2, ?_⟩
  rw [hv]
  have e : s'.editor.core.out = s'.editor.core.out.take s.delivered ++ s'.editor.core.out.drop s.delivered :=
    (List.take_append_drop ..).symm
  rw [e, screen_append] at h1
  cases hx : screen c (s'.editor.core.out.drop s.delivered) with
  | none => rw [hx] at hsome; cases hsome
  | some i => rw [hx] at h1; cases h1; rfl

/-- The lines of a client that the server treats. -/
def linesFrom (c : Nat) (steps : List (Server.Step L)) : List Str :=
  steps.filterMap fun s => match s with
    | .event _ _ (.message c' line) => if c' = c then some line else none
    | _ => none

/-- C53, end to end: a client whose requests the server has treated so far is answered in the order of its requests:
the identifiers of the responses are 0, 1, 2, ... -/
theorem C53_responses {steps : List (Server.Step L)} {s s' : Server L} (h : s.loop steps = .ok (s', none)) {c : Nat}
    (hnew : responseIds c s.written = [])
    (hp : ∀ env wr ev, Server.Step.event env wr ev ∈ steps → JsonText.ReadsBack env.parse)
    {cs : List Connection.Step} {conn : Connection T} (hrun : Connection.new.run o parse cs = .ok conn)
    (hlines : linesFrom c steps <+: readLines (conn.sent.flatMap fun r => frame r.encode)) :
    responseIds c s'.written = (List.range (linesFrom c steps).length).map fun n : Nat => RpcId.number n := by
  rw [C40_run h c, hnew, List.nil_append]
  obtain ⟨calls, hsent, hlen⟩ := C53_ids hrun
  have e : (conn.sent.flatMap fun r => frame r.encode) = (conn.sent.map Request.encode).flatMap frame := by
    rw [List.flatMap_map]
  rw [e, C62_framing, List.map_map, hsent, List.map_map] at hlines
  have key : ∀ (steps : List (Server.Step L)) (k : Nat) (calls : List Call),
      (∀ env wr ev, Server.Step.event env wr ev ∈ steps → JsonText.ReadsBack env.parse) →
      k + calls.length ≤ 2147483647 →
      linesFrom c steps <+: (calls.zipIdx k).map (fun x => (Call.request (.number x.2) x.1).encode.write) →
      requestIds c steps = (List.range' k (linesFrom c steps).length).map fun n : Nat => RpcId.number n := by
    intro steps
    induction steps with
    | nil => intro k calls _ _ _; rfl
    | cons x steps ih =>
      intro k calls hp hk hpre
      have hp' : ∀ env wr ev, Server.Step.event env wr ev ∈ steps → JsonText.ReadsBack env.parse :=
        fun env wr ev hm => hp env wr ev (List.mem_cons_of_mem _ hm)
      by_cases hx : ∃ env wr line, x = .event env wr (.message c line)
      · obtain ⟨env, wr, line, rfl⟩ := hx
        have e1 : linesFrom c (.event env wr (.message c line) :: steps) = line :: linesFrom c steps := by simp [linesFrom]
        rw [e1] at hpre ⊢
        cases calls with
        | nil => simp at hpre
        | cons call calls =>
          rw [List.zipIdx_cons, List.map_cons, List.cons_prefix_cons] at hpre
          obtain ⟨hline, hpre⟩ := hpre
          have ih := ih (k + 1) calls hp' (by simp at hk; omega) hpre
          have e2 : requestIds c (.event env wr (.message c line) :: steps) =
              (match (env.parse line).bind Request.decode with | some q => q.id | none => .null) :: requestIds c steps := by
            simp [requestIds]
            rfl
          have hgood : GoodId (.number (k : Int)) := by
            show (-2147483648 : Int) ≤ k ∧ (k : Int) ≤ 2147483647
            simp at hk; omega
          obtain ⟨q, hq, hid, _⟩ := C38_call hgood call
          have e3 : (env.parse line).bind Request.decode = some q := by
            rw [hline, (hp env wr _ List.mem_cons_self).back _ (JsonText.message_call hgood call)]; exact hq
          rw [e2, e3, ih, List.length_cons, List.range'_succ, List.map_cons]
          show q.id :: _ = _
          rw [hid]
      · have e1 : linesFrom c (x :: steps) = linesFrom c steps := by
          cases x with
          | deliver b => rfl
          | event env wr ev =>
            cases ev with
            | message d line =>
              have : d ≠ c := fun hd => hx ⟨env, wr, line, by rw [hd]⟩
              simp [linesFrom, this]
            | _ => rfl
        have e2 : requestIds c (x :: steps) = requestIds c steps := by
          cases x with
          | deliver b => rfl
          | event env wr ev =>
            cases ev with
            | message d line =>
              have : d ≠ c := fun hd => hx ⟨env, wr, line, by rw [hd]⟩
              simp [requestIds, this]
            | _ => rfl
        rw [e1] at hpre ⊢
        rw [e2]
        exact ih k calls hp' hk hpre
  have := key steps 0 calls hp (by omega) hlines
  rw [this, List.range_eq_range']

/-! ### Examples -/

/-- what the client reads in the example of C65 -/
def stayingSteps : List Connection.Step :=
  match joinedServer.loop stayingClient with
  | .ok (s, _) => .call (.edit str!"f" false) ::
      (readLines ((wiresTo 1 s.written).flatMap fun w => frame (w.encode fragmentTexts))).map .line
  | .error _ => []

instance : DecidableEq (List (RemoteItem (List (Str × Face)))) := inferInstance

/-- C51_server, C51_current and C53_responses apply to the client that joins and opens a file: it shows the file. -/
example : (Connection.new.run fragmentTexts JsonText.parse stayingSteps).toOption.map (fun c => c.state.view) =
    some [⟨str!"f", 1, 1, [⟨[[(str!"12345 ", .default)]], 1⟩]⟩] ∧
    notesTo 1 joinedServer.written = [] ∧
    (joinedServer.loop stayingClient).toOption.map (fun x => (linesFrom 1 stayingClient, responseIds 1 x.1.written,
      decide (x.1.delivered = x.1.editor.core.out.length), upToDateB envA x.1.editor.core 1,
      (screen 1 (x.1.editor.core.out.drop joinedServer.delivered)).isSome)) =
      some ([editLine], [.number 0], true, true, true) := by
  refine ⟨?_, ?_, ?_⟩
  · decide +kernel
  · decide +kernel
  · decide +kernel

/-- C52 fails end to end: the server answers a search without result by a menu without entries; when the user then asks
for the chosen entry, or goes down, the client crashes. -/
theorem C52_no_match_crashes :
    let sent := (calls [.menu [] str!"z"]).map fun e => notesFor 1 e.core.out
    ∃ notes, sent = some notes ∧
      let c := (Connection.new (T := List (Str × Face))).run fragmentTexts JsonText.parse
        (notes.map fun n => .line ((Wire.note n).encode fragmentTexts).write)
      (c.toOption.bind fun c => c.state.menu.map fun m => m.entries.length) = some 0 ∧
      c.bind Connection.menuSelect = .error .index ∧ c.bind Connection.menuNext = .error .overflow := by
  exact ⟨_, rfl, by decide +kernel, by decide +kernel, by decide +kernel⟩

end Ced.Props
