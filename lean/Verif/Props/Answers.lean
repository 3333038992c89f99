import Verif.Props.Requests
import Verif.Props.Relay

/-! # C62: what the server answers is read by the client as it was sent -/

namespace Ced.Props
open Spec
variable {L : Type}

/-- a response of the server is made of the identifier, and of `null` or of an error -/
theorem handle_shape {env : EditorEnv L} {e e' : Ced.Editor L} {client : Nat} {line : Str} {r : Response}
    (h : e.handle env client line = .ok (e', r)) :
    ∃ res, r = Response.new r.id res ∧ (∀ v, res = .ok v → v = .null) := by
  unfold Ced.Editor.handle at h
  split at h
  · obtain ⟨w, _, h⟩ := bind_inv h
    cases h
    exact ⟨_, rfl, fun v hv => nomatch hv⟩
  · dsimp only at h
    split at h
    · obtain ⟨⟨e1, a⟩, _, h⟩ := bind_inv h
      cases h
      cases a with
      | none => exact ⟨.ok .null, rfl, fun v hv => by cases hv; rfl⟩
      | some err => exact ⟨.error err, rfl, fun v hv => nomatch hv⟩
    · obtain ⟨w, _, h⟩ := bind_inv h
      cases h
      exact ⟨_, rfl, fun v hv => nomatch hv⟩

theorem handle_id {env : EditorEnv L} {e e' : Ced.Editor L} {client : Nat} {line : Str} {r : Response}
    (h : e.handle env client line = .ok (e', r)) : GoodId r.id := by
  rw [(C37_response h).1]
  split
  · rename_i q hq
    obtain ⟨j, _, hd⟩ := Option.bind_eq_some_iff.1 hq
    exact (request_read hd).1
  · exact trivial

theorem handle_error {env : EditorEnv L} {e e' : Ced.Editor L} {client : Nat} {line : Str} {r : Response}
    (h : e.handle env client line = .ok (e', r)) {err : RpcError} (he : r.error = some err) : GoodError err := by
  have := (C37_errors h err he).1
  simp only [errorTexts, List.mem_cons, Prod.mk.injEq, List.not_mem_nil, or_false] at this
  unfold GoodError
  omega

/-- C62: whatever line it treats, the response of the server is a message a client reads back: it is one line, and it is read
as a response with the same identifier, outcome, code, message and data. -/
theorem C62_answered {parse : Str → Option Json} (hp : JsonText.ReadsBack parse) {env : EditorEnv L} {e e' : Ced.Editor L}
    {client : Nat} {line : Str} {r : Response} (h : e.handle env client line = .ok (e', r)) :
    readLines (frame r.encode) = [r.encode.write] ∧
    ∃ r', (parse r.encode.write).bind ClientEvent.decode = some (.response r') ∧ SameResponse r r' := by
  have hm : JsonText.Message r.encode := by
    refine JsonText.message_response (handle_id h) (fun v hv => ?_) fun err he => ⟨handle_error h he, fun d hd => ?_⟩
    · obtain ⟨res, hr, hn⟩ := handle_shape h
      rw [hr] at hv
      cases res with
      | ok w => injection hv with hv; rw [← hv, hn w rfl]; exact .null
      | error w => cases hv
    · obtain ⟨s, hs⟩ := (C37_errors h err he).2
      rw [hs] at hd
      cases hd
      exact .str _
  refine ⟨?_, ?_⟩
  · have := C62_framing [r.encode]
    simpa using this
  · obtain ⟨res, hr, hn⟩ := handle_shape h
    obtain ⟨r', h1, h2⟩ := C39_events.2 r.id res (handle_id h) fun err he => handle_error h (by rw [hr, he]; rfl)
    rw [← hr] at h1 h2
    exact ⟨r', by rw [hp.back _ hm]; exact h1, h2⟩

-- C62_answered applies: the refusal of a line that is no request, with the line in it, is read back
example : (match editorA.handle editorEnvA 1 str!"oops\n\"" with
    | .ok (_, r) => (JsonText.parseMessage r.encode.write).bind ClientEvent.decode
    | .error _ => none) =
    some (.response ⟨str!"2.0", .null, none,
      some ⟨-32600, str!"The JSON sent is not a valid Request object.", some (.str str!"oops\n\"")⟩⟩) := by
  decide +kernel

end Ced.Props
