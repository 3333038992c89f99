import Verif.Model.Wire
import Verif.Props.Rpc
import Verif.Proofs.Messages
import Batteries.Data.List.Basic

/-! # Framing: C62, C63 -/

namespace Ced.Props

/-! ## What is written has no control characters -/

/-- No control character. -/
def Printable (s : Str) : Prop := ∀ c ∈ s, 32 ≤ c.toNat

theorem printable_append {a b : Str} : Printable (a ++ b) ↔ Printable a ∧ Printable b := by
  constructor
  · exact fun h => ⟨fun c hc => h c (List.mem_append_left _ hc), fun c hc => h c (List.mem_append_right _ hc)⟩
  · rintro ⟨h1, h2⟩ c hc
    rcases List.mem_append.1 hc with hc | hc
    · exact h1 c hc
    · exact h2 c hc

theorem printable_hex : ∀ n < 16, 32 ≤ (Json.hexDigit n).toNat := by decide

theorem printable_escape (c : Char) : Printable (Json.escapeChar c) := by
  intro d hd
  unfold Json.escapeChar at hd
  split at hd
  · revert d; decide
  split at hd
  · revert d; decide
  split at hd
  · revert d; decide
  split at hd
  · revert d; decide
  split at hd
  · revert d; decide
  split at hd
  · revert d; decide
  split at hd
  · revert d; decide
  split at hd
  · rename_i h
    simp only [List.mem_cons, List.not_mem_nil, or_false] at hd
    rcases hd with h | h | h | h | h | h <;> subst h
    · decide
    · decide
    · decide
    · decide
    · exact printable_hex _ (by omega)
    · exact printable_hex _ (by omega)
  · simp only [List.mem_cons, List.not_mem_nil, or_false] at hd
    subst hd; omega

theorem printable_str (s : Str) : Printable (Json.writeStr s) := by
  unfold Json.writeStr
  rw [printable_append, printable_append]
  refine ⟨⟨by intro c; revert c; decide, fun c hc => ?_⟩, by intro c; revert c; decide⟩
  obtain ⟨d, _, hd⟩ := List.mem_flatMap.1 hc
  exact printable_escape d c hd

theorem printable_nat (n : Nat) : Printable (natStr n) := by
  intro c hc
  have := decimal_digit hc
  simp only [Char.isDigit, Bool.and_eq_true, decide_eq_true_eq] at this
  have h : (48 : UInt32).toNat ≤ c.val.toNat := UInt32.le_iff_toNat_le.1 this.1
  have h' : 48 ≤ c.toNat := h
  omega

theorem printable_int (n : Int) : Printable (Json.writeInt n) := by
  cases n with
  | ofNat n => exact printable_nat n
  | negSucc n =>
    intro c hc
    rcases List.mem_cons.1 hc with h | h
    · subst h; decide
    · exact printable_nat _ c h

theorem printable_lit {s : Str} (h : s.all (fun c => decide (32 ≤ c.toNat)) = true) : Printable s := by
  intro c hc; simpa using List.all_eq_true.1 h c hc

mutual
theorem printable_write : ∀ j : Json, Printable j.write
  | .null => by unfold Json.write; exact printable_lit (by decide)
  | .bool true => by unfold Json.write; exact printable_lit (by decide)
  | .bool false => by unfold Json.write; exact printable_lit (by decide)
  | .num n => by unfold Json.write; exact printable_int n
  | .frac m e => by
    unfold Json.write
    rw [printable_append, printable_append]
    exact ⟨⟨printable_int m, printable_lit (by decide)⟩, printable_int e⟩
  | .str s => by unfold Json.write; exact printable_str s
  | .arr l => by
    unfold Json.write
    rw [printable_append, printable_append]
    exact ⟨⟨printable_lit (by decide), printable_list l⟩, printable_lit (by decide)⟩
  | .obj l => by
    unfold Json.write
    rw [printable_append, printable_append]
    exact ⟨⟨printable_lit (by decide), printable_obj l⟩, printable_lit (by decide)⟩
theorem printable_list : ∀ l : List Json, Printable (Json.writeList l)
  | [] => by unfold Json.writeList; exact printable_lit (by decide)
  | [a] => by unfold Json.writeList; exact printable_write a
  | a :: b :: l => by
    unfold Json.writeList
    rw [printable_append, printable_append]
    exact ⟨⟨printable_write a, printable_lit (by decide)⟩, printable_list (b :: l)⟩
theorem printable_obj : ∀ l : List (Str × Json), Printable (Json.writeObj l)
  | [] => by unfold Json.writeObj; exact printable_lit (by decide)
  | [(k, a)] => by
    unfold Json.writeObj
    rw [printable_append, printable_append]
    exact ⟨⟨printable_str k, printable_lit (by decide)⟩, printable_write a⟩
  | (k, a) :: b :: l => by
    unfold Json.writeObj
    rw [printable_append, printable_append, printable_append, printable_append]
    exact ⟨⟨⟨⟨printable_str k, printable_lit (by decide)⟩, printable_write a⟩, printable_lit (by decide)⟩,
      printable_obj (b :: l)⟩
end

theorem write_ne (j : Json) : j.write ≠ [] := by
  cases j with
  | bool b => cases b <;> simp [Json.write]
  | num n =>
    cases n with
    | ofNat n => simpa [Json.write, Json.writeInt, natStr] using decimal_ne n
    | negSucc n => simp [Json.write, Json.writeInt]
  | _ => simp [Json.write, Json.writeStr]

/-! ## Reading -/

theorem readLinesFrom_line {acc s t : Str} (hs : Printable s) :
    readLinesFrom acc (s ++ '\n' :: t) =
      (if (acc ++ s).getLast? = some '\r' then (acc ++ s).dropLast else acc ++ s) :: readLinesFrom [] t := by
  induction s generalizing acc with
  | nil => simp [readLinesFrom]
  | cons c s ih =>
    have hc : c ≠ '\n' := by
      rintro rfl; exact absurd (hs '\n' List.mem_cons_self) (by decide)
    rw [List.cons_append, readLinesFrom, if_neg hc, ih fun d hd => hs d (List.mem_cons_of_mem _ hd)]
    simp

theorem readLinesFrom_last {acc s : Str} (hs : Printable s) (h : acc ++ s ≠ []) : readLinesFrom acc s = [acc ++ s] := by
  induction s generalizing acc with
  | nil => simp only [List.append_nil] at h ⊢; simp [readLinesFrom, h]
  | cons c s ih =>
    have hc : c ≠ '\n' := by
      rintro rfl; exact absurd (hs '\n' List.mem_cons_self) (by decide)
    rw [readLinesFrom, if_neg hc, ih (fun d hd => hs d (List.mem_cons_of_mem _ hd)) (by simp)]
    simp

theorem not_cr {s : Str} (hs : Printable s) : s.getLast? ≠ some '\r' := by
  intro h
  exact absurd (hs '\r' (List.mem_of_getLast? h)) (by decide)

/-- C62 (the text): what is written for a value is JSON text for that value: a reader of JSON (`Spec/JsonText`: escapes, numbers,
arrays and objects as in RFC 8259) reads it back. -/
theorem C62_text (j : Json) : JsonText.parse j.write = some j := JsonText.parse_write j

example : JsonText.parse (Json.write (.obj [(str!"a\n\"", .arr [.num (-3), .str [Char.ofNat 12, Char.ofNat 1], .null])])) =
    some (.obj [(str!"a\n\"", .arr [.num (-3), .str [Char.ofNat 12, Char.ofNat 1], .null])]) := C62_text _

/-- C62: whatever messages are written one after the other on a connection, the reader gets one line for each, in order,
and the line is the text of the message; a line that is cut by the end of the connection is read as it is. -/
theorem C62_framing (ms : List Json) : readLines (ms.flatMap frame) = ms.map Json.write := by
  unfold readLines
  induction ms with
  | nil => rfl
  | cons m ms ih =>
    have hm := printable_write m
    rw [List.flatMap_cons, frame, List.append_assoc, List.singleton_append, readLinesFrom_line hm, List.nil_append,
      if_neg (not_cr hm), ih, List.map_cons]

example : readLines ([Json.str str!"a\nb\r", .arr [.num (-3), .null]].flatMap frame) =
    [str!"\"a\\nb\\r\"", str!"[-3,null]"] := by decide

/-- C62, at the level of messages: when the parser reads what the writer wrote, the server gets the calls of a client in
order, with their identifiers. -/
theorem C62_calls {parse : Str → Option Json} (hp : JsonText.ReadsBack parse) {calls : List (RpcId × Call)}
    (hi : ∀ x ∈ calls, GoodId x.1) :
    List.Forall₂ (fun x line => ∃ r, (parse line).bind Request.decode = some r ∧ r.id = x.1 ∧ r.method = x.2.method ∧
        ReadBack x.2 r) calls
      (readLines (calls.flatMap fun x => frame (x.2.request x.1).encode)) := by
  have : (calls.flatMap fun x => frame (x.2.request x.1).encode) =
      (calls.map fun x => (x.2.request x.1).encode).flatMap frame := by
    rw [List.flatMap_map]
  rw [this, C62_framing, List.map_map]
  clear this
  induction calls with
  | nil => exact .nil
  | cons x l ih =>
    refine .cons ?_ (ih fun y hy => hi y (List.mem_cons_of_mem _ hy))
    obtain ⟨r, h, h1, h2, h3⟩ := C38_call (hi x List.mem_cons_self) x.2
    exact ⟨r, by simp [hp.back _ (JsonText.message_call (hi x List.mem_cons_self) x.2), h], h1, h2, h3⟩

example : JsonText.ReadsBack JsonText.parse ∧ JsonText.ReadsBack JsonText.parseMessage ∧ JsonText.ReadsBack JsonText.limited :=
  ⟨JsonText.parse_readsBack, JsonText.parseMessage_readsBack, JsonText.limited_readsBack⟩

example : (readLines ([(RpcId.number 0, Call.edit str!"a\n" true), (.number 1, .quit)].flatMap
      fun x => frame (x.2.request x.1).encode)).map (fun l => ((JsonText.parse l).bind Request.decode).map Request.id) =
    [some (.number 0), some (.number 1)] := by decide

/-- C62, at the level of messages: likewise a client gets the events sent by the server, in order and
with what they carry (which is of the kind `serde_json` reads as it is written: no fractions, integers of 64 bits, no more levels
of nesting than it accepts). -/
theorem C62_events {parse : Str → Option Json} (hp : JsonText.ReadsBack parse) {l : List (Notification ⊕ Response)}
    (hn : ∀ n, .inl n ∈ l → ∀ p, n.params = some p → JsonText.Plain 126 p)
    (hr : ∀ r, .inr r ∈ l → GoodId r.id ∧ ∃ res, r = Response.new r.id res ∧ (∀ v, res = .ok v → JsonText.Plain 126 v) ∧
      ∀ e, res = .error e → GoodError e ∧ ∀ d, e.data = some d → JsonText.Plain 125 d) :
    List.Forall₂ (fun x line => match x with
        | .inl n => ∃ n', (parse line).bind ClientEvent.decode = some (.notification n') ∧ SameNotification n n'
        | .inr r => ∃ r', (parse line).bind ClientEvent.decode = some (.response r') ∧ SameResponse r r') l
      (readLines (l.flatMap fun x => frame (match x with | .inl n => n.encode | .inr r => r.encode))) := by
  have : (l.flatMap fun x => frame (match x with | .inl n => n.encode | .inr r => r.encode)) =
      (l.map fun x => (match x with | .inl n => n.encode | .inr r => r.encode)).flatMap frame := by
    rw [List.flatMap_map]
  rw [this, C62_framing, List.map_map]
  clear this
  induction l with
  | nil => exact .nil
  | cons x l ih =>
    refine .cons ?_ (ih (fun n hn' => hn n (List.mem_cons_of_mem _ hn')) fun r hr' => hr r (List.mem_cons_of_mem _ hr'))
    cases x with
    | inl n =>
      obtain ⟨n', h, hm⟩ := C39_events.1 n
      have hb := hp.back _ (JsonText.message_notification (hn n List.mem_cons_self))
      exact ⟨n', by simpa [hb, ClientEvent.encode] using h, hm⟩
    | inr r =>
      obtain ⟨hi, res, he, hok, hres⟩ := hr r List.mem_cons_self
      obtain ⟨r', h, hid⟩ := C39_events.2 r.id res hi fun e h => (hres e h).1
      have hb := hp.back _ (JsonText.message_response (r := r) hi
        (fun v hv => hok v (by
          cases res with
          | ok w => rw [he] at hv; injection hv with hv; rw [hv]
          | error w => rw [he] at hv; cases hv))
        (fun e hv => hres e (by
          cases res with
          | ok w => rw [he] at hv; cases hv
          | error w => rw [he] at hv; injection hv with hv; rw [hv])))
      rw [← he] at h hid
      exact ⟨r', by simpa [hb, ClientEvent.encode] using h, hid⟩

/-- C62_events applies: a hint and an answer are read as they were sent. -/
example : (readLines ([Notification.encode (Notification.new str!"hint" (some (.str str!"a\nb"))),
      Response.encode (Response.new (.number 3) (.ok (.num 7)))].flatMap frame)).map
        (fun l => (JsonText.parse l).bind ClientEvent.decode) =
    [some (.notification (Notification.new str!"hint" (some (.str str!"a\nb")))),
     some (.response (Response.new (.number 3) (.ok (.num 7))))] := by decide

/-- C63 is false: whatever two or more events the stdio client prints, its reader gets a single line, which is the texts
of all of them glued together. -/
theorem C63_stdio_refuted {events : List ClientEvent} (h : events ≠ []) :
    readLines (stdioOutput events) = [events.flatMap fun e => e.encode.write] := by
  have hp : Printable (stdioOutput events) := by
    intro c hc
    obtain ⟨e, _, he⟩ := List.mem_flatMap.1 hc
    exact printable_write _ c he
  have hn : stdioOutput events ≠ [] := by
    obtain ⟨e, l, rfl⟩ := List.exists_cons_of_ne_nil h
    simp [stdioOutput, write_ne]
  exact readLinesFrom_last (acc := []) hp hn

example : readLines (stdioOutput [.notification (Notification.new str!"a" none), .notification (Notification.new str!"b" none)]) =
    [str!"{\"jsonrpc\":\"2.0\",\"method\":\"a\"}{\"jsonrpc\":\"2.0\",\"method\":\"b\"}"] := by decide

end Ced.Props
