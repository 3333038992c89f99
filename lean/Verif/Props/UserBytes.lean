import Verif.Props.Conversation
import Verif.Props.AnyServer

/-!
# The screen of a user, over connections in bytes (C102)
-/

namespace Ced.Props
open Spec Flow Scripts

variable {L T : Type} {o : Ornament T} {room : Nat} {parse : Str → Option Json}

theorem messages_wires (s : Server L) (c : Nat) : wiresTo c s.written = messagesTo s c := by
  unfold wiresTo messagesTo
  induction s.written with
  | nil => rfl
  | cons x l ih => by_cases hx : x.1 = c <;> simp [hx] at ih ⊢ <;> exact ih

/-- A client that has read all the bytes there are for it has read the lines of all the messages for it. -/
theorem read_all {e : Ced.Editor L} {as : List (Act L)} {f : Flow L} (hf : Run o room (Flow.start e) as f) {c : Nat}
    (hopen : c ∉ f.closed) (htodo : ∀ p ∈ f.todo, p.client ≠ c) (hway : f.way c = []) {lines : List Bytes} {rest : Bytes}
    {texts : List Str} (hc : Cuts (f.got c) lines rest) (hh : Hears lines texts false) :
    texts = readLines ((wiresTo c f.server.written).flatMap fun w => frame (w.encode o)) := by
  have h1 := (C100_stream hf c).2.2 hopen htodo
  rw [hway, List.append_nil, sent_lines] at h1
  rw [h1] at hc
  have hc2 : Cuts (((messagesTo f.server c).map fun x => encode (x.encode o).write).flatMap (· ++ [10]))
      ((messagesTo f.server c).map fun x => encode (x.encode o).write) [] := by
    refine ⟨by simp, fun l hl => ?_, by simp⟩
    obtain ⟨m, _, rfl⟩ := List.mem_map.1 hl
    exact write_newline _
  obtain ⟨rfl, _⟩ := cuts_unique hc hc2
  have := hears_texts hh (js := (messagesTo f.server c).map fun x => x.encode o) (by rw [List.map_map]; rfl)
  rw [this, messages_wires, show ((messagesTo f.server c).flatMap fun w => frame (w.encode o)) =
    ((messagesTo f.server c).map fun w => w.encode o).flatMap frame by rw [List.flatMap_map], C62_framing]

variable {eng : LuaEngine} {env : EditorEnv LuaState} {e : Ced.Editor LuaState}

/-- C102, to the screen: the first client of a server, in a session of texts of any characters (C95).  However little the
connections hold, and however the clients read: when the server has taken all it was asked (`stepsOf as`, within the rules of
Spec/UserScreen.lean) and has delivered all notifications, and the client has read all its bytes and treated the lines in them,
then it shows the present state of its view: all the lines of all its buffers. -/
theorem C102_screen {g : Segmentation} (ho : OrnamentOk o) (hp : JsonText.ReadsBack parse) (ok : SafeEnv (.any g) eng env)
    {session : Str} {cwd : Ced.Path} {args cwdText : Str}
    (hnew : Ced.Editor.new env ⟨session, []⟩ (Scripts.prelude eng) session cwd args cwdText = .ok e) (c : Nat)
    {as : List (Act LuaState)} {f : Flow LuaState} (hf : Run o room (Flow.start e) as f)
    {steps : List (Server.Step LuaState)} (hsteps : stepsOf as = .event env true (.join c) :: steps)
    (hs : ∀ s, (Server.start e).turn env true (.join c) = .ok (s, false) → UserSchedule (.any g) env.core.seg c s steps)
    (hrun : f.ended = false) (hall : f.server.delivered = f.server.editor.core.out.length)
    (hfit : ∀ n ∈ notesTo c f.server.written, Spec.Fits n)
    (hopen : c ∉ f.closed) (htodo : ∀ p ∈ f.todo, p.client ≠ c) (hway : f.way c = [])
    {lines : List Bytes} {rest : Bytes} {texts : List Str} (hcut : Cuts (f.got c) lines rest) (hh : Hears lines texts false)
    {cs : List Connection.Step} {conn : Connection T} (hread : linesOf cs = texts) (hconn : Connection.new.run o parse cs = .ok conn) :
    ∃ ctx items, f.server.editor.core.clients.map.get c = some ctx ∧ conn.state.view = items.map (seenItem o) ∧
      List.Forall₂ (ShowsText f.server.editor.core) ctx.view.buffers items := by
  have hsame := C100_same hf
  rw [hrun, hsteps] at hsame
  obtain ⟨s', h1, _, h2⟩ := C95_session ho hp ok hnew c hs
  rw [hsame] at h1
  cases h1
  exact h2 f.server rfl hfit hall (hread.trans (read_all hf hopen htodo hway hcut hh)) hconn

/-! ## Non-vacuity -/

instance : DecidablePred Spec.Fits := fun n => by unfold Spec.Fits; cases n <;> infer_instance

/-- the session of Props/AnyServer.lean has taken everything, and everything was delivered -/
theorem endsE : (match (do let s ← serverE0; s.loop stepsE) with
    | .ok (s, rest) => rest.isNone && decide (s.delivered = s.editor.core.out.length) && decide (2 ≤ (wiresTo 1 s.written).length) &&
        decide (∀ n ∈ notesTo 1 s.written, Spec.Fits n)
    | .error _ => false) = true := by decide +kernel

theorem hears_written (js : List Json) : Hears (js.map fun j => encode j.write) (js.map Json.write) false := by
  induction js with
  | nil => exact .all
  | cons j js ih => exact .line (.inr ⟨rfl, fun t ht => by
      have := printable_write j '\r' (by rw [ht]; simp)
      exact absurd this (by decide)⟩) ih

/-- That session (a client opens a file with an `é` and goes down a line) over connections that hold a single byte: the
hypotheses of `C102_screen` hold of it, and the lines the client reads there are those it shows in `shownE` -/
example : ∃ (e : Ced.Editor LuaState) (as : List (Act LuaState)) (f : Flow LuaState) (lines : List Bytes) (texts : List Str),
    Ced.Editor.new safeEnvE ⟨str!"s", []⟩ (Scripts.prelude engE) str!"s" [] (str!"é") [] = .ok e ∧
    Run fragmentTexts 1 (Flow.start e) as f ∧ stepsOf as = .event safeEnvE true (.join 1) :: stepsE ∧
    (∀ s, (Server.start e).turn safeEnvE true (.join 1) = .ok (s, false) →
      UserSchedule (.any clusters) safeEnvE.core.seg 1 s stepsE) ∧
    f.ended = false ∧ f.server.delivered = f.server.editor.core.out.length ∧ 1 ∉ f.closed ∧ (∀ p ∈ f.todo, p.client ≠ 1) ∧
    (∀ n ∈ notesTo 1 f.server.written, Spec.Fits n) ∧ f.way 1 = [] ∧ Cuts (f.got 1) lines [] ∧ Hears lines texts false ∧ 2 ≤ texts.length := by
  obtain ⟨e, s, he, ht, hs, r⟩ := serverE0_ok
  obtain ⟨s', h1, _, hu⟩ := userE
  rw [hs] at h1
  cases h1
  have hend := endsE
  rw [hs] at hend
  rw [show ((Except.ok s : Except Crash (Server LuaState)) >>= fun s => s.loop stepsE) = s.loop stepsE from rfl] at hend
  split at hend
  · next s2 rest hl =>
    simp only [Bool.and_eq_true, Option.isNone_iff_eq_none, decide_eq_true_eq] at hend
    obtain ⟨⟨⟨rfl, hd⟩, hw⟩, hfit⟩ := hend
    have hloop : (Server.start e).loop (.event safeEnvE true (.join 1) :: stepsE) = .ok (s2, none) := by
      unfold Server.loop
      rw [ht]
      exact hl
    obtain ⟨as, f, hf, h2, h3, h4, h5, h6, h7⟩ := C100_realised (o := fragmentTexts) (room := 1) (by decide) (by
      intro x hx
      rcases List.mem_cons.1 hx with rfl | hx
      · exact .inl ⟨_, _, rfl⟩
      · unfold stepsE at hx
        obtain ⟨y, _, hy⟩ := List.mem_flatMap.1 hx
        rcases List.mem_cons.1 hy with rfl | hy
        · exact .inl ⟨_, _, rfl⟩
        · exact .inr (List.eq_of_mem_replicate hy)) hloop 1
    have hgot := (C100_stream hf 1).2.2 (by rw [h6]; exact List.not_mem_nil) (by rw [h5]; exact fun _ h => absurd h List.not_mem_nil)
    rw [h7, List.append_nil, sent_lines] at hgot
    refine ⟨e, as, f, (messagesTo f.server 1).map fun x => encode (x.encode fragmentTexts).write,
      ((messagesTo f.server 1).map fun x => x.encode fragmentTexts).map Json.write, he, hf, h2, ?_, h4, by rw [h3]; exact hd,
      by rw [h6]; exact List.not_mem_nil, by rw [h5]; exact fun _ h => absurd h List.not_mem_nil,
      by rw [h3]; exact hfit, h7, ?_, ?_, ?_⟩
    · intro s' hs'
      rw [ht] at hs'
      cases hs'
      exact hu
    · rw [hgot]
      refine ⟨by simp, fun l hl => ?_, by simp⟩
      obtain ⟨m, _, rfl⟩ := List.mem_map.1 hl
      exact write_newline _
    · have := hears_written ((messagesTo f.server 1).map fun x => x.encode fragmentTexts)
      rw [List.map_map] at this
      exact this
    · rw [List.length_map, List.length_map, ← messages_wires, h3]
      exact hw
  · cases hend

end Ced.Props
