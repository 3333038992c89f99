import Verif.Spec.Relay
import Verif.Model.Editor
import Verif.Props.Wire

/-! # The client that relays between its standard streams and a session: C86 -/

namespace Ced.Props
open Spec

/-! ## What was read is written and read again without change -/

theorem decode_id {j : Json} {i : RpcId} (h : RpcId.decode j = some i) : GoodId i := by
  unfold RpcId.decode at h
  split at h
  · split at h
    · rename_i hn
      cases h
      simpa [GoodId, Json.isI32] using hn
    · cases h
  · cases h; trivial
  · cases h; trivial
  · cases h

theorem asValue_ne (v : Option Json) : Json.asValue v ≠ some .null := by
  rcases v with _ | v
  · simp [Json.asValue]
  · cases v <;> simp [Json.asValue]

theorem obind {α β : Type} {x : Option α} {f : α → Option β} {b : β} (h : x.bind f = some b) :
    ∃ a, x = some a ∧ f a = some b := Option.bind_eq_some_iff.1 h

/-- What a request that was read looks like. -/
theorem request_read {j : Json} {q : Request} (h : Request.decode j = some q) : GoodId q.id ∧ q.params ≠ some .null := by
  unfold Request.decode at h
  obtain ⟨fs, _, h⟩ := obind h
  split at h
  · obtain ⟨v, _, h⟩ := obind h
    obtain ⟨i, _, h⟩ := obind h
    obtain ⟨i', hi, h⟩ := obind h
    obtain ⟨m, _, h⟩ := obind h
    cases h
    exact ⟨decode_id hi, asValue_ne _⟩
  · cases h

theorem request_again {j : Json} {q : Request} (h : Request.decode j = some q) : Request.decode q.encode = some q := by
  obtain ⟨h1, h2⟩ := request_read h
  obtain ⟨r', e, _, _, _, _, e'⟩ := C38_request h1
  rw [e, e' h2]

theorem notification_again {j : Json} {n : Notification} (h : Notification.decode j = some n) :
    Notification.decode n.encode = some n := by
  have hp : n.params ≠ some .null := by
    unfold Notification.decode at h
    obtain ⟨fs, _, h⟩ := obind h
    split at h
    · obtain ⟨v, _, h⟩ := obind h
      obtain ⟨m, _, h⟩ := obind h
      cases h
      exact asValue_ne _
    · cases h
  obtain ⟨n', e, e1, e2, e3⟩ := C38_notification n
  rw [if_neg hp] at e3
  rw [e]
  obtain ⟨a, b, c⟩ := n
  obtain ⟨a', b', c'⟩ := n'
  simp only at e1 e2 e3
  subst e1 e2 e3
  rfl

theorem asI32_good {v : Option Json} {c : Int} (h : Json.asI32 v = some c) : -2147483648 ≤ c ∧ c ≤ 2147483647 := by
  unfold Json.asI32 at h
  split at h
  · split at h
    · rename_i hn
      cases h
      simpa [Json.isI32] using hn
    · cases h
  · cases h

theorem error_read {j : Json} {e : RpcError} (h : RpcError.decode j = some e) : GoodError e ∧ e.data ≠ some .null := by
  unfold RpcError.decode at h
  obtain ⟨fs, _, h⟩ := obind h
  split at h
  · obtain ⟨c, hc, h⟩ := obind h
    obtain ⟨m, _, h⟩ := obind h
    cases h
    exact ⟨asI32_good hc, asValue_ne _⟩
  · cases h

theorem error_again {j : Json} {e : RpcError} (h : RpcError.decode j = some e) : RpcError.decode e.encode = some e := by
  obtain ⟨h1, h2⟩ := error_read h
  obtain ⟨c, m, d⟩ := e
  have h1' : -2147483648 ≤ c ∧ c ≤ 2147483647 := h1
  cases d with
  | none =>
    simp [RpcError.decode, RpcError.encode, Json.fields, Json.field, Json.lookupAll, Json.asStr, Json.asI32, Json.isI32,
      h1', Json.asValue]
  | some v =>
    have hv : Json.asValue (some v) = some v := by
      cases v <;> first | rfl | exact absurd rfl h2
    simp [RpcError.decode, RpcError.encode, Json.fields, Json.field, Json.lookupAll, Json.asStr, Json.asI32, Json.isI32,
      h1', hv]

theorem response_again {j : Json} {r : Response} (h : Response.decode j = some r) :
    Response.decode r.encode = some r ∧ Notification.decode r.encode = none := by
  have hr : GoodId r.id ∧ r.result ≠ some .null ∧ ∀ e, r.error = some e → RpcError.decode e.encode = some e := by
    unfold Response.decode at h
    obtain ⟨fs, _, h⟩ := obind h
    split at h
    · obtain ⟨v, _, h⟩ := obind h
      obtain ⟨i, _, h⟩ := obind h
      obtain ⟨i', hi, h⟩ := obind h
      obtain ⟨e, he, h⟩ := obind h
      cases h
      refine ⟨decode_id hi, asValue_ne _, ?_⟩
      intro e' he'
      dsimp only at he'
      subst he'
      unfold Response.asError at he
      split at he
      · cases he
      · cases he
      · obtain ⟨e2, h2, h3⟩ := Option.map_eq_some_iff.1 he
        cases h3
        exact error_again h2
    · cases h
  obtain ⟨v, i, res, err⟩ := r
  obtain ⟨h1, h2, h3⟩ := hr
  have hid := id_roundtrip h1
  simp only at hid h2 h3
  have hres : Json.asValue res = res := by
    cases res with
    | none => rfl
    | some v => cases v <;> first | rfl | exact absurd rfl h2
  constructor
  · cases res with
    | none =>
      cases err with
      | none =>
        simp [Response.decode, Response.encode, optMember, Json.fields, Json.field, Json.lookupAll, Json.asStr, hid,
          Response.asError, Json.asValue]
      | some e =>
        have := h3 e rfl
        have hnn : Response.asError (some e.encode) = some (some e) := by
          have : Response.asError (some e.encode) = (RpcError.decode e.encode).map some := rfl
          rw [this, h3 e rfl]; rfl
        simp [Response.decode, Response.encode, optMember, Json.fields, Json.field, Json.lookupAll, Json.asStr, hid,
          hnn, Json.asValue]
    | some w =>
      cases err with
      | none =>
        simp [Response.decode, Response.encode, optMember, Json.fields, Json.field, Json.lookupAll, Json.asStr, hid,
          Response.asError, hres]
      | some e =>
        have hnn : Response.asError (some e.encode) = some (some e) := by
          have : Response.asError (some e.encode) = (RpcError.decode e.encode).map some := rfl
          rw [this, h3 e rfl]; rfl
        simp [Response.decode, Response.encode, optMember, Json.fields, Json.field, Json.lookupAll, Json.asStr, hid,
          hnn, hres]
  · cases res <;> cases err <;> simp [Notification.decode, Response.encode, optMember, Json.fields, Json.field,
      Json.lookupAll, Json.asStr]

theorem event_again {j : Json} {e : ClientEvent} (h : ClientEvent.decode j = some e) :
    ClientEvent.decode e.encode = some e := by
  unfold ClientEvent.decode at h
  split at h
  · rename_i n hn
    cases h
    have := notification_again hn
    simp [ClientEvent.decode, ClientEvent.encode, this]
  · obtain ⟨r, hr, rfl⟩ := Option.map_eq_some_iff.1 h
    obtain ⟨h1, h2⟩ := response_again hr
    simp [ClientEvent.decode, ClientEvent.encode, h1, h2]

/-! ## The tasks -/

/-- The requests of lines. -/
def requestsOf (parse : Str → Option Json) (lines : List Str) : List Request :=
  lines.filterMap fun l => (parse l).bind Request.decode

/-- The events of lines. -/
def eventsIn (parse : Str → Option Json) (lines : List Str) : List ClientEvent :=
  lines.filterMap fun l => (parse l).bind ClientEvent.decode

theorem inputLines_append (a b : List RelayStep) : inputLines (a ++ b) = inputLines a ++ inputLines b := by
  simp [inputLines]

theorem sessionLines_append (a b : List RelayStep) : sessionLines (a ++ b) = sessionLines a ++ sessionLines b := by
  simp [sessionLines]

theorem relay_inv {parse : Str → Option Json} {steps : List RelayStep} {r r' : Relay}
    (h : r.run parse steps = .ok r') (hw : ∀ w, .send w ∈ steps → w = true) {sent : List Request}
    (hs : r.socket = (sent.map Request.encode).flatMap frame) :
    ∃ more, r'.socket = ((sent ++ more).map Request.encode).flatMap frame ∧
      r.channel ++ requestsOf parse (inputLines steps) = more ++ r'.channel ∧
      r'.stdout = r.stdout ++ stdioOutput (eventsIn parse (sessionLines steps)) := by
  unfold Relay.run at h
  induction steps generalizing r sent with
  | nil => cases h; exact ⟨[], by simpa using hs, by simp [requestsOf, inputLines],
      by simp [eventsIn, sessionLines, stdioOutput]⟩
  | cons s steps ih =>
    rw [List.foldlM_cons] at h
    obtain ⟨r1, h1, h⟩ : ∃ r1, Relay.step parse r s = .ok r1 ∧ _ = _ := by
      cases hx : Relay.step parse r s with
      | error e => rw [hx] at h; cases h
      | ok r1 => rw [hx] at h; exact ⟨r1, rfl, h⟩
    have hw' : ∀ w, RelayStep.send w ∈ steps → w = true := fun w hm => hw w (List.mem_cons_of_mem _ hm)
    have hin : inputLines (s :: steps) = inputLines [s] ++ inputLines steps := inputLines_append [s] steps
    have hse : sessionLines (s :: steps) = sessionLines [s] ++ sessionLines steps := sessionLines_append [s] steps
    cases s with
    | input item =>
      cases item with
      | none =>
        cases h1
        exact ih h hw' hs
      | some line =>
        simp only [Relay.step] at h1
        split at h1
        · rename_i q hq
          cases h1
          obtain ⟨more, a, b, c⟩ := ih (r := { r with channel := r.channel ++ [q] }) h hw' hs
          refine ⟨more, a, ?_, c⟩
          rw [← b, hin]
          have : requestsOf parse (inputLines [.input (some line)] ++ inputLines steps) =
              q :: requestsOf parse (inputLines steps) := by
            simp [requestsOf, inputLines, hq]
          rw [this]; simp
        · rename_i hq
          cases h1
          obtain ⟨more, a, b, c⟩ := ih h hw' hs
          refine ⟨more, a, ?_, c⟩
          rw [← b, hin]
          have : requestsOf parse (inputLines [.input (some line)] ++ inputLines steps) =
              requestsOf parse (inputLines steps) := by
            simp [requestsOf, inputLines, hq]
          rw [this]
    | send w =>
      have := hw w List.mem_cons_self
      subst this
      simp only [Relay.step] at h1
      split at h1
      · cases h1
        exact ih h hw' hs
      · rename_i q rest hq
        cases h1
        simp only [if_true] at h
        obtain ⟨more, a, b, c⟩ := ih (r := { r with channel := rest, socket := r.socket ++ frame q.encode }) h hw'
          (sent := sent ++ [q]) (by simp [hs])
        refine ⟨q :: more, by simpa using a, ?_, c⟩
        rw [hq]
        have : requestsOf parse (inputLines (.send true :: steps)) = requestsOf parse (inputLines steps) := rfl
        rw [this, List.cons_append, List.cons_append]
        exact congrArg _ b
    | event item =>
      cases item with
      | none => cases h1
      | some line =>
        simp only [Relay.step] at h1
        split at h1
        · rename_i e he
          cases h1
          obtain ⟨more, a, b, c⟩ := ih (r := { r with stdout := r.stdout ++ stdioOutput [e] }) h hw' hs
          refine ⟨more, a, b, ?_⟩
          rw [c, hse]
          have : eventsIn parse (sessionLines [.event (some line)] ++ sessionLines steps) =
              e :: eventsIn parse (sessionLines steps) := by
            simp [eventsIn, sessionLines, he]
          rw [this]; simp [stdioOutput]
        · rename_i he
          cases h1
          obtain ⟨more, a, b, c⟩ := ih h hw' hs
          refine ⟨more, a, b, ?_⟩
          rw [c, hse]
          have : eventsIn parse (sessionLines [.event (some line)] ++ sessionLines steps) =
              eventsIn parse (sessionLines steps) := by
            simp [eventsIn, sessionLines, he]
          rw [this]

theorem relay_stdout {parse : Str → Option Json} {steps : List RelayStep} {r r' : Relay}
    (h : r.run parse steps = .ok r') :
    r'.stdout = r.stdout ++ stdioOutput (eventsIn parse (sessionLines steps)) := by
  unfold Relay.run at h
  induction steps generalizing r with
  | nil => cases h; simp [eventsIn, sessionLines, stdioOutput]
  | cons s steps ih =>
    rw [List.foldlM_cons] at h
    obtain ⟨r1, h1, h⟩ : ∃ r1, Relay.step parse r s = .ok r1 ∧ _ = _ := by
      cases hx : Relay.step parse r s with
      | error e => rw [hx] at h; cases h
      | ok r1 => rw [hx] at h; exact ⟨r1, rfl, h⟩
    rw [ih h]
    have hse : sessionLines (s :: steps) = sessionLines [s] ++ sessionLines steps := sessionLines_append [s] steps
    have hev : eventsIn parse (sessionLines (s :: steps)) =
        eventsIn parse (sessionLines [s]) ++ eventsIn parse (sessionLines steps) := by
      rw [hse]; simp [eventsIn]
    have hout : ∀ a b, stdioOutput (a ++ b) = stdioOutput a ++ stdioOutput b := by simp [stdioOutput]
    rw [hev, hout, ← List.append_assoc]
    congr 1
    cases s with
    | input item =>
      have : r1.stdout = r.stdout := by
        cases item with
        | none => cases h1; rfl
        | some l => simp only [Relay.step] at h1; split at h1 <;> cases h1 <;> rfl
      rw [this]
      cases item <;> simp [eventsIn, sessionLines, stdioOutput]
    | send w =>
      have : r1.stdout = r.stdout := by
        simp only [Relay.step] at h1; split at h1 <;> cases h1 <;> rfl
      rw [this]
      simp [eventsIn, sessionLines, stdioOutput]
    | event item =>
      cases item with
      | none => cases h1
      | some l =>
        simp only [Relay.step] at h1
        split at h1
        · rename_i e he
          cases h1
          simp [eventsIn, sessionLines, he]
        · rename_i he
          cases h1
          simp [eventsIn, sessionLines, he, stdioOutput]

open Classical in
/-- C86: whatever lines are given to the relay, and in whatever order its tasks run, what it has written to the session
is one line for each of the first lines that hold a request, holding the same request, in the same order; the lines
that hold no request are dropped.  When no request waits in the channel, none is missing.  (`hv`: the parameters hold no
fractions, which `serde_json` may write otherwise than it read them; what else it reads is of this kind.) -/
theorem C86_requests {parse : Str → Option Json} (hp : JsonText.ReadsBack parse) {steps : List RelayStep} {r : Relay}
    (h : Relay.start.run parse steps = .ok r) (hw : ∀ w, .send w ∈ steps → w = true)
    (hv : ∀ l ∈ inputLines steps, ∀ q, (parse l).bind Request.decode = some q → ∀ p, q.params = some p → JsonText.Plain 126 p) :
    ∃ sent waiting, (inputLines steps).filter (fun l => decide (IsRequest parse l)) = sent ++ waiting ∧
      List.Forall₂ (SameRequest parse) sent (readLines r.socket) ∧ waiting.length = r.channel.length := by
  obtain ⟨more, h1, h2, _⟩ := relay_inv h hw (sent := []) rfl
  rw [List.nil_append] at h1
  have h2' : requestsOf parse (inputLines steps) = more ++ r.channel := h2
  have key : ∀ (lines : List Str) (a b : List Request),
      (∀ l ∈ lines, ∀ q, (parse l).bind Request.decode = some q → ∀ p, q.params = some p → JsonText.Plain 126 p) →
      requestsOf parse lines = a ++ b →
      ∃ sent waiting, lines.filter (fun l => decide (IsRequest parse l)) = sent ++ waiting ∧
        List.Forall₂ (SameRequest parse) sent (a.map fun q => q.encode.write) ∧ waiting.length = b.length := by
    intro lines
    induction lines with
    | nil =>
      intro a b _ hab
      have : a = [] ∧ b = [] := by simpa [requestsOf] using hab
      obtain ⟨rfl, rfl⟩ := this
      exact ⟨[], [], rfl, .nil, rfl⟩
    | cons l lines ih =>
      intro a b hv hab
      have ih := fun a b => ih a b fun x hx => hv x (List.mem_cons_of_mem _ hx)
      cases hl : (parse l).bind Request.decode with
      | none =>
        have hn : ¬ IsRequest parse l := by rintro ⟨q, hq⟩; rw [hl] at hq; cases hq
        rw [List.filter_cons_of_neg (by simpa using hn)]
        refine ih a b ?_
        rw [← hab]; simp [requestsOf, hl]
      | some q =>
        have hy : IsRequest parse l := ⟨q, hl⟩
        rw [List.filter_cons_of_pos (by simpa using hy)]
        have hc : requestsOf parse (l :: lines) = q :: requestsOf parse lines := by simp [requestsOf, hl]
        rw [hc] at hab
        obtain ⟨j, hj, hd⟩ := obind hl
        have hsame : SameRequest parse l q.encode.write := ⟨q, hl, by
          rw [hp.back _ (JsonText.message_request (request_read hd).1 (hv l List.mem_cons_self q hl))]; exact request_again hd⟩
        cases a with
        | nil =>
          cases b with
          | nil => cases hab
          | cons q' b =>
            obtain ⟨s, w, k1, k2, k3⟩ := ih [] b (List.cons.inj hab).2
            cases k2
            exact ⟨[], l :: w, by rw [k1]; rfl, .nil, by simp [k3]⟩
        | cons q' a =>
          obtain ⟨e1, e2⟩ := List.cons.inj hab
          obtain ⟨s, w, k1, k2, k3⟩ := ih a b e2
          exact ⟨l :: s, w, by rw [k1]; rfl, .cons (by rw [← e1]; exact hsame) k2, k3⟩
  obtain ⟨sent, waiting, k1, k2, k3⟩ := key _ _ _ hv h2'
  refine ⟨sent, waiting, k1, ?_, k3⟩
  rw [h1, C62_framing, List.map_map]
  exact k2

/-- C86: a line that holds the same request is treated in the same way, with the same answer. -/
theorem C86_same {L : Type} {env : EditorEnv L} {a b : Str} (h : SameRequest env.parse a b) (e : Ced.Editor L) (c : Nat) :
    e.handle env c a = e.handle env c b := by
  obtain ⟨q, h1, h2⟩ := h
  unfold Ced.Editor.handle Ced.Editor.readLine
  rw [h1, h2]

theorem value_obj (l : List (Str × Json)) (rest : Str) :
    JsonText.value ((Json.obj l).write.length) ((Json.obj l).write ++ rest) = some (.obj l, rest) := by
  cases l with
  | nil => rfl
  | cons x l =>
    obtain ⟨k, a⟩ := x
    obtain ⟨c, s, hc⟩ : ∃ c s, (Json.obj ((k, a) :: l)).write = c :: s := by
      cases hw : (Json.obj ((k, a) :: l)).write with
      | nil => exact absurd hw (write_ne _)
      | cons c s => exact ⟨c, s, rfl⟩
    have hw : (Json.obj ((k, a) :: l)).write = '{' :: (Json.writeObj ((k, a) :: l) ++ ['}']) := by
      rw [Json.write]; rfl
    obtain ⟨x, hx, _⟩ := JsonText.writeObj_head (k := k) (a := a) (l := l)
    rw [hw, List.length_cons]
    have hm := JsonText.members_write k a l ((Json.writeObj ((k, a) :: l) ++ ['}']).length) rest (by simp)
    rw [List.cons_append, JsonText.value.eq_def]
    simp only
    rw [hx] at hm ⊢
    simp only [List.cons_append, List.append_assoc, List.nil_append] at hm ⊢
    show (JsonText.members _ _).map (fun x => (Json.obj x.1, x.2)) = _
    rw [hm]
    rfl

/-- C86: what the relay prints is, one immediately after the other, the values of the events the session sent (lines that
are no event are dropped): a reader of successive JSON values finds them, and each says the same. -/
theorem C86_printed {parse : Str → Option Json} {steps : List RelayStep} {r : Relay}
    (h : Relay.start.run parse steps = .ok r) :
    ∃ values, Stream r.stdout values ∧
      values.map ClientEvent.decode =
        ((sessionLines steps).filterMap fun l => (parse l).bind ClientEvent.decode).map some := by
  have h3' : r.stdout = stdioOutput (eventsIn parse (sessionLines steps)) := relay_stdout h
  rw [h3']
  refine ⟨(eventsIn parse (sessionLines steps)).map ClientEvent.encode, ?_, ?_⟩
  · generalize eventsIn parse (sessionLines steps) = evs
    induction evs with
    | nil => exact .done
    | cons e evs ih =>
      obtain ⟨l, hl⟩ : ∃ l, e.encode = .obj l := by cases e <;> exact ⟨_, rfl⟩
      have : stdioOutput (e :: evs) = e.encode.write ++ stdioOutput evs := by simp [stdioOutput]
      rw [this, List.map_cons, hl]
      exact .value _ (value_obj l _) ih
  · have : ∀ lines, ((eventsIn parse lines).map ClientEvent.encode).map ClientEvent.decode =
        (eventsIn parse lines).map some := by
      intro lines
      rw [List.map_map]
      apply List.map_congr_left
      intro e he
      obtain ⟨l, _, hl⟩ := List.mem_filterMap.1 he
      obtain ⟨j, _, hj⟩ := obind hl
      exact event_again hj
    exact this _

/-- C86: the relay crashes exactly when reading from the session fails. -/
theorem C86_crash {parse : Str → Option Json} {steps : List RelayStep} (r : Relay) :
    (∃ e, r.run parse steps = .error e) ↔ .event none ∈ steps := by
  unfold Relay.run
  induction steps generalizing r with
  | nil => exact ⟨fun ⟨e, h⟩ => (by cases h), fun h => (by cases h)⟩
  | cons s steps ih =>
    rw [List.foldlM_cons]
    have hok : s ≠ .event none → ∃ r1, Relay.step parse r s = .ok r1 := by
      intro hne
      cases s with
      | input item =>
        cases item with
        | none => exact ⟨_, rfl⟩
        | some l => simp only [Relay.step]; split <;> exact ⟨_, rfl⟩
      | send w => simp only [Relay.step]; split <;> exact ⟨_, rfl⟩
      | event item =>
        cases item with
        | none => exact absurd rfl hne
        | some l => simp only [Relay.step]; split <;> exact ⟨_, rfl⟩
    by_cases hs : s = .event none
    · subst hs
      exact ⟨fun _ => List.mem_cons_self, fun _ => ⟨.unwrap, rfl⟩⟩
    · obtain ⟨r1, h1⟩ := hok hs
      rw [h1]
      have hx : (.event none ∈ s :: steps) ↔ RelayStep.event none ∈ steps := by
        rw [List.mem_cons]
        exact ⟨fun h => h.resolve_left fun e => hs e.symm, .inr⟩
      rw [hx]
      exact ih r1

/-! ## Example -/

/-- a request with a member more, a line that is no request, another request; one is written, one waits; two events -/
def relayA : List RelayStep :=
  [.input (some str!"{\"id\":1,\"x\":0,\"method\":\"quit\",\"jsonrpc\":\"2.0\",\"params\":null}"), .input (some str!"[]"),
   .send true, .input none, .input (some str!"{\"id\":2,\"method\":\"quit\",\"jsonrpc\":\"2.0\"}"),
   .event (some str!"{\"jsonrpc\":\"2.0\",\"method\":\"a\"}"), .event (some str!"1"),
   .event (some str!"{\"jsonrpc\":\"2.0\",\"id\":1,\"result\":3}")]

example : (match Relay.start.run JsonText.parse relayA with
    | .ok r => some (readLines r.socket, r.channel.length, r.stdout)
    | .error _ => none) =
    some ([str!"{\"jsonrpc\":\"2.0\",\"id\":1,\"method\":\"quit\"}"], 1,
      str!"{\"jsonrpc\":\"2.0\",\"method\":\"a\"}{\"jsonrpc\":\"2.0\",\"id\":1,\"result\":3}") := by decide

example : ∀ w, .send w ∈ relayA → w = true := by intro w h; simp [relayA] at h; exact h

end Ced.Props
