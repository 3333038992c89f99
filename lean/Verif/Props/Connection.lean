import Verif.Spec.Connection
import Verif.Props.Wire
import Verif.Proofs.Core
import Verif.Proofs.Heard

/-! # Properties of the client's connection: C51, C52, C53 -/

namespace Ced.Props
open Spec
variable {T : Type} {o : Ornament T} {parse : Str → Option Json}

theorem mapM_encode {α β : Type} {enc : α → Json} {dec : Json → Option β} {f : α → β} :
    ∀ {l : List α}, (∀ a ∈ l, dec (enc a) = some (f a)) → (l.map enc).mapM dec = some (l.map f)
  | [], _ => rfl
  | a :: l, h => by
    rw [List.map_cons, List.mapM_cons, h a List.mem_cons_self, mapM_encode fun b hb => h b (List.mem_cons_of_mem _ hb)]
    rfl

theorem asUsize_num {n : Nat} (h : n < 2 ^ 64) : Reads.asUsize (some (.num n)) = some n := by
  have : (0 : Int) ≤ n ∧ (n : Int) < 18446744073709551616 := by omega
  simp only [Reads.asUsize, this, and_self, if_true, Int.toNat_natCast]

theorem lens_read (ho : OrnamentOk o) {l : ViewParamsLens} (h : l.firstLineNum < 2 ^ 64) :
    Reads.lens o (Note.encodeLens o l) = some (seenLens o l) := by
  have h1 : Reads.asVec o.decode (some (.arr (l.lines.map fun x => o.encode (o.decorated x)))) =
      some (l.lines.map o.decorated) := mapM_encode fun a _ => ho.back _
  have h0 : Json.fields [str!"lines", str!"first_line_num"] (Note.encodeLens o l) =
      some [some (.arr (l.lines.map fun x => o.encode (o.decorated x))), some (.num l.firstLineNum)] := rfl
  unfold Reads.lens
  rw [h0]
  simp only [Option.bind_eq_bind, Option.bind_some, h1, asUsize_num h]
  rfl

theorem item_fields {j : Json} {b x y l : Option Json} {b' : Str} {x' y' : Nat} {l' : List (RemoteLens T)}
    (h0 : Json.fields [str!"buffer", str!"start", str!"end", str!"lenses"] j = some [b, x, y, l])
    (hb : Json.asStr b = some b') (hx : Reads.asUsize x = some x') (hy : Reads.asUsize y = some y')
    (hl : Reads.asVec (Reads.lens o) l = some l') : Reads.item o j = some ⟨b', x', y', l'⟩ := by
  unfold Reads.item
  rw [h0]
  simp [hb, hx, hy, hl]

theorem item_read (ho : OrnamentOk o) {i : ViewParamsItem}
    (h : i.start < 2 ^ 64 ∧ i.stop < 2 ^ 64 ∧ ∀ l ∈ i.lenses, l.firstLineNum < 2 ^ 64) :
    Reads.item o (Note.encodeItem o i) = some (seenItem o i) := by
  have h1 : Reads.asVec (Reads.lens o) (some (.arr (i.lenses.map (Note.encodeLens o)))) =
      some (i.lenses.map (seenLens o)) := mapM_encode fun a ha => lens_read ho (h.2.2 a ha)
  have h0 : Json.fields [str!"buffer", str!"start", str!"end", str!"lenses"] (Note.encodeItem o i) =
      some [some (.str i.buffer), some (.num i.start), some (.num i.stop),
        some (.arr (i.lenses.map (Note.encodeLens o)))] := rfl
  exact item_fields h0 rfl (asUsize_num h.1) (asUsize_num h.2.1) h1

theorem entry_read (ho : OrnamentOk o) (e : MenuParamsEntry) :
    Reads.entry o (Note.encodeEntry o e) = some (seenEntry o e) := by
  cases hd : e.description <;>
    simp [Reads.entry, Note.encodeEntry, Json.fields, Json.field, Json.lookupAll, Json.asStr, Reads.asText, ho.back, hd,
      Note.encodeOption, Reads.asOption, seenEntry]

theorem status_read (ho : OrnamentOk o) {i : Int × Str} (h : -2 ^ 63 ≤ i.1 ∧ i.1 < 2 ^ 63) :
    Reads.statusItem o (.obj [(str!"index", .num i.1), (str!"text", o.encode (o.faced i.2 .default))]) =
      some (i.1, o.faced i.2 .default) := by
  have : -9223372036854775808 ≤ i.1 ∧ i.1 < 9223372036854775808 := by omega
  simp [Reads.statusItem, Json.fields, Json.field, Json.lookupAll, Reads.asText, ho.back, Reads.asIsize, this]

/-- what a connection does with a notification of the server -/
def afterNote (o : Ornament T) (s : ConnectionState T) : Note → ConnectionState T
  | .echo t f => { s with echo := some (o.faced t f) }
  | .hint _ => s
  | .info c se _ => { s with client := c, session := se }
  | .menu c t se es => { s with menu := some (seenMenu o c t se es), echo := none }
  | .status items => { s with status := items.map fun i => (i.1, o.faced i.2 .default) }
  | .view items => { s with view := items.map (seenItem o) }

/-- the event that a notification of the server gives -/
def noteEvent (o : Ornament T) : Note → ConnectionEvent T
  | .echo t f => .echo (o.faced t f)
  | .hint lines => .hint (lines.map fun l => o.faced l .default)
  | .info c se _ => .info c se
  | .menu c t se es => .menu (seenMenu o c t se es)
  | .status items => .status (items.map fun i => (i.1, o.faced i.2 .default))
  | .view items => .view (items.map (seenItem o))

theorem note_update (ho : OrnamentOk o) {n : Note} (hf : Fits n) (s : ConnectionState T) :
    ∃ n', Notification.decode (n.notification o).encode = some n' ∧ n' = n.notification o ∧
      s.eventUpdate o (.notification n') = (afterNote o s n, some (noteEvent o n)) := by
  have hnn : (n.notification o).params ≠ some .null := by
    cases n <;> simp [Note.notification, Notification.new, Note.params, ho.some_]
  obtain ⟨n', h1, h2, h3, h4⟩ := C38_notification (n.notification o)
  rw [if_neg hnn] at h4
  have he : n' = n.notification o := by cases n'; cases hn : n.notification o; simp_all
  refine ⟨n', h1, he, ?_⟩
  rw [he]
  have read : ∀ {α : Type} (dec : Json → Option α), (n.notification o).read dec = dec (n.params o) := by
    intro α dec
    unfold Notification.read
    have : (n.notification o).params = some (n.params o) := rfl
    rw [this] at hnn ⊢
    split
    · rename_i h; cases h
    · rename_i h; exact absurd h hnn
    · rename_i h; cases h; rfl
  unfold ConnectionState.eventUpdate
  simp only [read]
  have hm : (n.notification o).method = n.method := rfl
  rw [hm]
  cases n with
  | echo t f =>
    rw [if_pos (by rfl)]
    simp only [Note.params, ho.back, afterNote, noteEvent]
  | hint l =>
    rw [if_neg (by simp [Note.method]), if_pos (by rfl)]
    have h1 : Reads.asVec o.decode (some (.arr (l.map fun l => o.encode (o.faced l .default)))) =
        some (l.map fun l => o.faced l .default) := mapM_encode fun a _ => ho.back _
    simp [Note.params, Reads.hint, Json.fields, Json.field, Json.lookupAll, h1, afterNote, noteEvent]
  | info c se d =>
    rw [if_neg (by simp [Note.method]), if_neg (by simp [Note.method]), if_pos (by rfl)]
    simp [Note.params, Reads.info, Json.fields, Json.field, Json.lookupAll, Json.asStr, afterNote, noteEvent]
  | menu c t se es =>
    rw [if_neg (by simp [Note.method]), if_neg (by simp [Note.method]), if_neg (by simp [Note.method]), if_pos (by rfl)]
    have h1 : Reads.asVec (Reads.entry o) (some (.arr (es.map (Note.encodeEntry o)))) = some (es.map (seenEntry o)) :=
      mapM_encode fun a _ => entry_read ho a
    simp [Note.params, Reads.menu, Json.fields, Json.field, Json.lookupAll, Json.asStr, afterNote, noteEvent, h1, seenMenu]
  | status items =>
    rw [if_neg (by simp [Note.method]), if_neg (by simp [Note.method]), if_neg (by simp [Note.method]), if_neg (by simp [Note.method]), if_pos (by rfl)]
    have h1 : Reads.status o (Note.params o (.status items)) = some (items.map fun i => (i.1, o.faced i.2 .default)) :=
      mapM_encode fun a ha => status_read ho (hf a ha)
    simp [h1, afterNote, noteEvent]
  | view items =>
    rw [if_neg (by simp [Note.method]), if_neg (by simp [Note.method]), if_neg (by simp [Note.method]), if_neg (by simp [Note.method]), if_neg (by simp [Note.method]), if_pos (by rfl)]
    have h1 : Reads.view o (Note.params o (.view items)) = some (items.map (seenItem o)) :=
      mapM_encode fun a ha => item_read ho (hf a ha)
    simp [h1, afterNote, noteEvent]

theorem response_not_note (r : Response) : Notification.decode r.encode = none := by
  obtain ⟨v, i, res, err⟩ := r
  cases res <;> cases err <;>
    simp [Notification.decode, Response.encode, optMember, Json.fields, Json.field, Json.lookupAll, Json.asStr]

/-- whatever is read from the text of a response is no notification -/
theorem response_names_not_note (hp : JsonText.ReadsBack parse) {r : Response} {j : Json}
    (hj : parse r.encode.write = some j) : Notification.decode j = none := by
  obtain ⟨l', rfl, hn⟩ := hp.names _ _ hj
  have hm : Json.lookupAll str!"method" l' = [] := by
    have key : ∀ l : List (Str × Json), str!"method" ∉ l.map Prod.fst → Json.lookupAll str!"method" l = [] := by
      intro l
      induction l with
      | nil => intro _; rfl
      | cons x l ih =>
        obtain ⟨k, v⟩ := x
        intro h
        rw [Json.lookupAll, if_neg (fun e => h (by rw [e]; exact List.mem_cons_self))]
        exact ih fun h' => h (List.mem_cons_of_mem _ h')
    refine key l' ?_
    rw [hn]
    obtain ⟨v, i, res, err⟩ := r
    cases res <;> cases err <;> simp [optMember]
  simp only [Notification.decode, Json.fields, List.mapM_cons, List.mapM_nil, Json.field, hm]
  split <;> simp_all [Json.asStr]
  all_goals
    split <;> simp_all [Json.asStr]

theorem receive_event (ho : OrnamentOk o) (hp : JsonText.ReadsBack parse) {n : Note} (hf : Fits n) (c : Connection T) :
    c.receive o parse ((Wire.note n).encode o).write = ({ c with state := afterNote o c.state n }, noteEvent o n) := by
  obtain ⟨n', h1, _, h2⟩ := note_update ho hf c.state
  have : (parse ((Wire.note n).encode o).write).bind ClientEvent.decode = some (.notification n') := by
    rw [hp.back _ (JsonText.message_note ho hf)]
    show ClientEvent.decode (n.notification o).encode = _
    unfold ClientEvent.decode
    rw [h1]
  unfold Connection.receive
  rw [this]
  simp only [h2]
  rfl

theorem receive_note (ho : OrnamentOk o) (hp : JsonText.ReadsBack parse) {n : Note} (hf : Fits n) (c : Connection T) :
    (c.receive o parse ((Wire.note n).encode o).write).1 = { c with state := afterNote o c.state n } := by
  rw [receive_event ho hp hf]

theorem receive_response (hp : JsonText.ReadsBack parse) (r : Response) (c : Connection T) :
    (c.receive o parse ((Wire.response r).encode o).write).1 = c := by
  unfold Connection.receive
  cases hj : parse ((Wire.response r).encode o).write with
  | none => rfl
  | some j =>
    show (match ClientEvent.decode j with | some e => _ | none => _ : Connection T × ConnectionEvent T).1 = c
    unfold ClientEvent.decode
    rw [response_names_not_note hp hj]
    cases Response.decode j <;> rfl

/-- what the steps of a connection that are not lines leave as it is -/
theorem step_state {c c' : Connection T} {x : Connection.Step} (hx : ∀ l, x ≠ .line l)
    (h : c.step o parse x = .ok c') :
    c'.state.view = c.state.view ∧ c'.state.status = c.state.status ∧ c'.state.client = c.state.client ∧
      c'.state.session = c.state.session ∧ c'.state.echo = c.state.echo := by
  cases x with
  | line l => exact absurd rfl (hx l)
  | call x =>
    simp only [Connection.step, Connection.call, Connection.requestId] at h
    split at h
    · cases h; exact ⟨rfl, rfl, rfl, rfl, rfl⟩
    · cases h
  | menuSelect =>
    simp only [Connection.step, Connection.menuSelect] at h
    split at h
    · cases h; exact ⟨rfl, rfl, rfl, rfl, rfl⟩
    · obtain ⟨v, _, h⟩ := bind_inv h
      obtain ⟨c1, h1, h⟩ := bind_inv h
      cases h
      simp only [Connection.call, Connection.requestId] at h1
      split at h1
      · cases h1; exact ⟨rfl, rfl, rfl, rfl, rfl⟩
      · cases h1
  | menuNext =>
    simp only [Connection.step, Connection.menuNext] at h
    split at h
    · cases h; exact ⟨rfl, rfl, rfl, rfl, rfl⟩
    · obtain ⟨v, _, h⟩ := bind_inv h
      cases h; exact ⟨rfl, rfl, rfl, rfl, rfl⟩
  | menuPrevious => cases h; exact ⟨rfl, rfl, rfl, rfl, rfl⟩
  | menuCancel => cases h; exact ⟨rfl, rfl, rfl, rfl, rfl⟩

theorem lastOf_append {α : Type} (f : Note → Option α) (l : List Note) (n : Note) :
    lastOf f (l ++ [n]) = (f n).or (lastOf f l) := by
  unfold lastOf
  rw [List.reverse_append, List.reverse_singleton, List.singleton_append, List.findSome?_cons]
  cases f n <;> rfl

theorem mirrors_note {notes : List Note} {s : ConnectionState T} (h : Mirrors o notes s) (n : Note) :
    Mirrors o (notes ++ [n]) (afterNote o s n) := by
  obtain ⟨h1, h2, h3, h4⟩ := h
  constructor <;> rw [lastOf_append] <;> cases n <;>
    first
    | exact h1 | exact h2 | exact h3 | exact h4
    | simp [afterNote, viewOf, statusOf, infoOf, echoOf]

theorem mirrors_run (ho : OrnamentOk o) (hp : JsonText.ReadsBack parse) {ws : List Wire}
    (hf : ∀ n, .note n ∈ ws → Fits n) {steps : List Connection.Step} {c c' : Connection T} {notes : List Note}
    (hm : Mirrors o notes c.state) (hl : linesOf steps = ws.map fun w => (w.encode o).write)
    (h : c.run o parse steps = .ok c') : Mirrors o (notes ++ notesOf ws) c'.state := by
  induction steps generalizing ws c notes with
  | nil =>
    cases h
    cases ws with
    | nil => simpa [notesOf] using hm
    | cons w ws => cases hl
  | cons x steps ih =>
    unfold Connection.run at h
    rw [List.foldlM_cons] at h
    obtain ⟨c1, h1, h'⟩ := bind_inv h
    clear h
    have h : c1.run o parse steps = .ok c' := h'
    by_cases hx : ∃ l, x = .line l
    · obtain ⟨l, rfl⟩ := hx
      cases ws with
      | nil => cases hl
      | cons w ws =>
        have hl : l :: linesOf steps = (w.encode o).write :: ws.map fun w => (w.encode o).write := hl
        injection hl with hl1 hl2
        have h1 : (c.receive o parse l).1 = c1 := by injection h1
        rw [hl1] at h1
        cases w with
        | response r =>
          rw [receive_response hp] at h1
          cases h1
          exact ih (fun n hn => hf n (List.mem_cons_of_mem _ hn)) hm hl2 h
        | note n =>
          rw [receive_note ho hp (hf n List.mem_cons_self)] at h1
          have := ih (c := c1) (notes := notes ++ [n]) (fun n hn => hf n (List.mem_cons_of_mem _ hn))
            (by rw [← h1]; exact mirrors_note hm n) hl2 h
          rw [List.append_assoc] at this
          exact this
    · have hx : ∀ l, x ≠ .line l := fun l e => hx ⟨l, e⟩
      obtain ⟨e1, e2, e3, e4, e5⟩ := step_state hx h1
      have hl : linesOf steps = ws.map fun w => (w.encode o).write := by
        rw [← hl]; cases x <;> first | rfl | exact absurd rfl (hx _)
      refine ih hf (c := c1) ⟨?_, ?_, ?_, ?_⟩ hl h
      · rw [e1]; exact hm.view
      · rw [e2]; exact hm.status
      · rw [e3, e4]; exact hm.info
      · rw [e5]; exact hm.echo

/-- C51: whatever its user does meanwhile, a connection that has read what the server wrote to it holds the last view, the
last status, the last identity it was sent, and the last message unless a menu came after it. -/
theorem C51_mirrors (ho : OrnamentOk o) (hp : JsonText.ReadsBack parse) {ws : List Wire}
    (hf : ∀ n, .note n ∈ ws → Fits n) {steps : List Connection.Step} {c : Connection T}
    (hl : linesOf steps = readLines (ws.flatMap fun w => frame (w.encode o)))
    (h : Connection.new.run o parse steps = .ok c) : Mirrors o (notesOf ws) c.state := by
  have e : (ws.flatMap fun w => frame (w.encode o)) = (ws.map fun w => w.encode o).flatMap frame := by
    rw [List.flatMap_map]
  rw [e, C62_framing, List.map_map] at hl
  exact mirrors_run (notes := []) ho hp hf ⟨rfl, rfl, rfl, rfl⟩ hl h

/-- what a notification read says, and what is done with it -/
theorem says_update {s : ConnectionState T} {n : Notification} :
    (∀ p e, n.params = some p → p ≠ .null → Says o n.method p e →
      s.eventUpdate o (.notification n) = (told s e, some e)) ∧
    ((∀ p e, n.params = some p → p ≠ .null → ¬ Says o n.method p e) → s.eventUpdate o (.notification n) = (s, none)) := by
  have hr : ∀ {α : Type} (dec : Json → Option α) p, n.params = some p → p ≠ .null → n.read dec = dec p := by
    intro α dec p hp hn
    unfold Notification.read
    rw [hp]
    cases p <;> first | rfl | exact absurd rfl hn
  have hno : ∀ {α : Type} (dec : Json → Option α) a, n.read dec = some a → ∃ p, n.params = some p ∧ p ≠ .null ∧ dec p = some a := by
    intro α dec a h
    unfold Notification.read at h
    split at h
    · cases h
    · cases h
    · rename_i p hp hn; exact ⟨p, hn, by rintro rfl; exact hp rfl, h⟩
  have nil : ∀ {α : Type} (dec : Json → Option α), (∀ p a, n.params = some p → p ≠ .null → dec p ≠ some a) → n.read dec = none := by
    intro α dec h
    cases hx : n.read dec with
    | none => rfl
    | some a => obtain ⟨p, h1, h2, h3⟩ := hno dec a hx; exact absurd h3 (h p a h1 h2)
  constructor
  · intro p e hp hn he
    unfold ConnectionState.eventUpdate
    dsimp only
    cases e with
    | connErr => exact he.elim
    | noop => exact he.elim
    | echo t => rw [if_pos he.1, hr _ p hp hn, he.2]; rfl
    | hint l =>
      rw [if_neg (by rw [he.1]; simp), if_pos he.1, hr _ p hp hn, (hintOf_iff p l).2 he.2]; rfl
    | info c se =>
      rw [if_neg (by rw [he.1]; simp), if_neg (by rw [he.1]; simp), if_pos he.1, hr _ p hp hn, (infoOf_iff p c se).2 he.2]
      rfl
    | menu m =>
      rw [if_neg (by rw [he.1]; simp), if_neg (by rw [he.1]; simp), if_neg (by rw [he.1]; simp), if_pos he.1, hr _ p hp hn,
        (menuOf_iff p m).2 he.2]
      rfl
    | status l =>
      rw [if_neg (by rw [he.1]; simp), if_neg (by rw [he.1]; simp), if_neg (by rw [he.1]; simp), if_neg (by rw [he.1]; simp),
        if_pos he.1, hr _ p hp hn, (statusOf_iff p l).2 he.2]
      rfl
    | view l =>
      rw [if_neg (by rw [he.1]; simp), if_neg (by rw [he.1]; simp), if_neg (by rw [he.1]; simp), if_neg (by rw [he.1]; simp),
        if_neg (by rw [he.1]; simp), if_pos he.1, hr _ p hp hn, (viewOf_iff p l).2 he.2]
      rfl
  · intro h
    unfold ConnectionState.eventUpdate
    dsimp only
    split
    · rename_i hm; rw [nil _ fun p a h1 h2 h3 => h p (.echo a) h1 h2 ⟨hm, h3⟩]
    split
    · rename_i hm; rw [nil _ fun p a h1 h2 h3 => h p (.hint a) h1 h2 ⟨hm, (hintOf_iff p a).1 h3⟩]; rfl
    split
    · rename_i hm; rw [nil _ fun p a h1 h2 h3 => h p (.info a.1 a.2) h1 h2 ⟨hm, (infoOf_iff p a.1 a.2).1 h3⟩]
    split
    · rename_i hm; rw [nil _ fun p a h1 h2 h3 => h p (.menu a) h1 h2 ⟨hm, (menuOf_iff p a).1 h3⟩]
    split
    · rename_i hm; rw [nil _ fun p a h1 h2 h3 => h p (.status a) h1 h2 ⟨hm, (statusOf_iff p a).1 h3⟩]
    split
    · rename_i hm; rw [nil _ fun p a h1 h2 h3 => h p (.view a) h1 h2 ⟨hm, (viewOf_iff p a).1 h3⟩]
    · rfl

theorem notification_param {j : Json} {m : Str} {p : Json} (h : NotificationOf j m (some p)) : p ≠ .null := by
  obtain ⟨_, q, _, h | h⟩ := h
  · rintro rfl; exact h.2 h.1
  · cases h.2

/-- C51: a line that says something changes what the connection knows accordingly, and nothing else, and gives this
event. -/
theorem C51_heard {c : Connection T} {line : Str} {e : ConnectionEvent T} (h : LineSays o parse line e) :
    c.receive o parse line = ({ c with state := told c.state e }, e) := by
  obtain ⟨j, m, p, hj, hn, hs⟩ := h
  have hnull := notification_param hn
  obtain ⟨n, hd, rfl, hp⟩ := (notificationOf_iff j m (some p)).1 hn
  unfold Connection.receive
  have : (parse line).bind ClientEvent.decode = some (.notification n) := by
    rw [hj, Option.bind_some, ClientEvent.decode, hd]
  rw [this]
  simp only [(says_update (s := c.state)).1 p e hp hnull hs]
  rfl

/-- C51: any other line changes nothing: one that is not a message is reported as such; a response, a notification of
another kind, and one whose parameters are missing or not of the right type give no event. -/
theorem C51_ignored {c : Connection T} {line : Str} (h : ∀ e, ¬ LineSays o parse line e) :
    (IsMessage parse line → c.receive o parse line = (c, .noop)) ∧
      (¬ IsMessage parse line → c.receive o parse line = (c, .connErr)) := by
  unfold Connection.receive
  cases hj : parse line with
  | none =>
    refine ⟨fun ⟨j, hj', _⟩ => ?_, fun _ => rfl⟩
    rw [hj] at hj'; cases hj'
  | some j =>
    rw [Option.bind_some]
    cases hn : Notification.decode j with
    | some n =>
      have hm : IsMessage parse line := ⟨j, hj, .inl ⟨_, _, (notificationOf_iff j _ _).2 ⟨n, hn, rfl, rfl⟩⟩⟩
      refine ⟨fun _ => ?_, fun hx => absurd hm hx⟩
      have : ClientEvent.decode j = some (.notification n) := by rw [ClientEvent.decode, hn]
      rw [this]
      have := (says_update (o := o) (n := n) (s := c.state)).2 fun p e hp hnull hs =>
        h e ⟨j, n.method, p, hj, (notificationOf_iff j _ _).2 ⟨n, hn, rfl, hp⟩, hs⟩
      simp only [this]
      rfl
    | none =>
      cases hr : Response.decode j with
      | some r =>
        have hm : IsMessage parse line := ⟨j, hj, .inr ((isResponse_iff j).2 ⟨r, hr⟩)⟩
        refine ⟨fun _ => ?_, fun hx => absurd hm hx⟩
        have : ClientEvent.decode j = some (.response r) := by rw [ClientEvent.decode, hn, hr]; rfl
        rw [this]
        rfl
      | none =>
        refine ⟨fun ⟨j', hj', hm⟩ => ?_, fun _ => ?_⟩
        · rw [hj] at hj'; cases hj'
          rcases hm with ⟨m, p, hm⟩ | hm
          · obtain ⟨n, hd, _⟩ := (notificationOf_iff j m p).1 hm
            rw [hn] at hd; cases hd
          · obtain ⟨r, hd⟩ := (isResponse_iff j).1 hm
            rw [hr] at hd; cases hd
        · have : ClientEvent.decode j = none := by rw [ClientEvent.decode, hn, hr]; rfl
          rw [this]

/-- C51_heard and C51_ignored apply: a status with the least index there is; the same with the next lower one, a
notification of another kind, and a response say nothing. -/
example : LineSays fragmentTexts JsonText.parse
      (str!"{\"jsonrpc\":\"2.0\",\"method\":\"status\",\"params\":[[-9223372036854775808,[]]]}")
      (.status [(-9223372036854775808, [])]) ∧
    (∀ line ∈ [(str!"{\"jsonrpc\":\"2.0\",\"method\":\"status\",\"params\":[[-9223372036854775809,[]]]}"),
        (str!"{\"jsonrpc\":\"2.0\",\"method\":\"bell\",\"params\":1}"),
        (str!"{\"jsonrpc\":\"2.0\",\"id\":3,\"result\":null}")],
      IsMessage JsonText.parse line ∧ ∀ e, ¬ LineSays fragmentTexts JsonText.parse line e) := by
  refine ⟨⟨.obj [(str!"jsonrpc", .str str!"2.0"), (str!"method", .str str!"status"),
      (str!"params", .arr [.arr [.num (-9223372036854775808), .arr []]])], str!"status",
      .arr [.arr [.num (-9223372036854775808), .arr []]], by decide +kernel, ?_, rfl, _, rfl, ?_⟩, ?_⟩
  · exact (notificationOf_iff _ _ _).2 ⟨⟨str!"2.0", str!"status", some (.arr [.arr [.num (-9223372036854775808), .arr []]])⟩,
      by decide +kernel, rfl, rfl⟩
  · exact .cons ((statusItemOf_iff _ _).1 (by decide +kernel)) .nil
  · have key : ∀ line n, (JsonText.parse line).bind Notification.decode = some n →
        (∀ e, ¬ Says fragmentTexts n.method (n.params.getD .null) e) →
        IsMessage JsonText.parse line ∧ ∀ e, ¬ LineSays fragmentTexts JsonText.parse line e := by
      intro line n hn hs
      obtain ⟨j, hj, hn⟩ := Option.bind_eq_some_iff.1 hn
      refine ⟨⟨j, hj, .inl ⟨_, _, (notificationOf_iff _ _ _).2 ⟨n, hn, rfl, rfl⟩⟩⟩, ?_⟩
      rintro e ⟨j', m, p, hj', hm, he⟩
      rw [hj] at hj'; cases hj'
      obtain ⟨n', h1, rfl, h2⟩ := (notificationOf_iff _ _ _).1 hm
      rw [hn] at h1; cases h1
      exact hs e (by rw [h2]; exact he)
    intro line hl
    simp only [List.mem_cons, List.not_mem_nil, or_false] at hl
    rcases hl with rfl | rfl | rfl
    · refine key _ ⟨str!"2.0", str!"status", some (.arr [.arr [.num (-9223372036854775809), .arr []]])⟩ (by decide +kernel) ?_
      intro e he
      cases e <;> first
        | (cases he.1; done)
        | exact he
        | (obtain ⟨_, js, h, hf⟩ := he
           cases h
           cases hf with
           | cons h _ => have := (statusItemOf_iff _ _).2 h; cases this)
    · refine key _ ⟨str!"2.0", str!"bell", some (.num 1)⟩ (by decide +kernel) ?_
      intro e he
      cases e <;> first | (cases he.1; done) | exact he
    · refine ⟨⟨.obj [(str!"jsonrpc", .str str!"2.0"), (str!"id", .num 3), (str!"result", .null)], by decide +kernel,
        .inr ((isResponse_iff _).2 ⟨⟨str!"2.0", .number 3, none, none⟩, by decide +kernel⟩)⟩, ?_⟩
      rintro e ⟨j, m, p, hj, hn, _⟩
      obtain ⟨n, hn, _⟩ := (notificationOf_iff _ _ _).1 hn
      have : (JsonText.parse (str!"{\"jsonrpc\":\"2.0\",\"id\":3,\"result\":null}")).bind Notification.decode = none := by
        decide +kernel
      rw [hj, Option.bind_some, hn] at this
      cases this

theorem fragmentTexts_ok : OrnamentOk fragmentTexts where
  plain t := by
    refine .arr fun j hj => ?_
    obtain ⟨x, _, rfl⟩ := List.mem_map.1 hj
    refine .arr fun j hj => ?_
    simp only [List.mem_cons, List.not_mem_nil, or_false] at hj
    rcases hj with rfl | rfl <;> exact .str _
  back t := by
    show (t.map fun x => Json.arr [.str x.1, .str (faceName x.2)]).mapM _ = some t
    have := mapM_encode (l := t) (enc := fun x => Json.arr [.str x.1, .str (faceName x.2)])
      (dec := fun j => match j with
        | .arr [.str s, .str f] => (faceOf f).map fun f => (s, f)
        | _ => none) (f := id) (by
          intro a _
          obtain ⟨s, f⟩ := a
          cases f <;> rfl)
    rw [List.map_id] at this
    exact this
  some_ t := by intro h; cases h

/-- what the server writes in the examples: it greets the client, shows a view, a message and a menu, answers a request -/
def exampleWires : List Wire :=
  [.note (.info str!"1" str!"s" [str!"home"]),
   .note (.view [⟨str!"f", 1, 1, [⟨[⟨[97, 32], [(0, 1)]⟩], 1⟩]⟩]),
   .note (.echo str!"hi" .default),
   .response (.new (.number 0) (.ok .null)),
   .note (.menu str!"open" str!"file" [] [⟨str!"a", [(str!"a", .match_)], none⟩, ⟨str!"b", [(str!"b", .default)], some str!"x"⟩]),
   .note (.status [(80, str!"gg")])]

/-- a client that edits a file first, reads the first five lines, moves in the menu, reads the last line -/
def exampleSteps : List Connection.Step :=
  let ls := readLines (exampleWires.flatMap fun w => frame (w.encode fragmentTexts))
  .call (.edit str!"f" false) :: (ls.take 5).map .line ++ [.menuNext] ++ (ls.drop 5).map .line

/-- C51_mirrors applies. -/
example : (∀ n, .note n ∈ exampleWires → Fits n) ∧
    linesOf exampleSteps = readLines (exampleWires.flatMap fun w => frame (w.encode fragmentTexts)) ∧
    (Connection.new.run fragmentTexts JsonText.parse exampleSteps).toOption.map (·.state) =
      some { client := str!"1", session := str!"s", echo := none, status := [(80, [(str!"gg", .default)])],
             view := [⟨str!"f", 1, 1, [⟨[[(str!"a ", .default)]], 1⟩]⟩],
             menu := some ⟨str!"open", str!"file", [],
              [⟨str!"a", [(str!"a", .match_)], none⟩, ⟨str!"b", [(str!"b", .default)], some str!"x"⟩], 1⟩ } := by
  refine ⟨?_, by decide +kernel, by decide +kernel⟩
  intro n hn
  simp [exampleWires] at hn
  rcases hn with h | h | h | h | h <;> subst h <;> simp [Fits]

/-! ## C52 -/

/-- C52: a menu that is received is shown as it was sent, with its first entry highlighted; whatever else is read leaves
it, and so do the calls. -/
theorem C52_opens (ho : OrnamentOk o) (hp : JsonText.ReadsBack parse) (c : Connection T) :
    (∀ cmd title search entries,
      (c.receive o parse ((Wire.note (.menu cmd title search entries)).encode o).write).1.state.menu =
        some (seenMenu o cmd title search entries)) ∧
    (∀ n, Fits n → (∀ cmd title search entries, n ≠ .menu cmd title search entries) →
      (c.receive o parse ((Wire.note n).encode o).write).1.state.menu = c.state.menu) ∧
    (∀ r, (c.receive o parse ((Wire.response r).encode o).write).1.state.menu = c.state.menu) ∧
    (∀ x c', c.call x = .ok c' → c'.state.menu = c.state.menu) := by
  refine ⟨fun cmd title search entries => ?_, fun n hn hx => ?_, fun r => ?_, fun x c' h => ?_⟩
  · rw [receive_note ho hp (by exact trivial)]; rfl
  · rw [receive_note ho hp hn]
    cases n with
    | menu a b d e => exact absurd rfl (hx a b d e)
    | _ => rfl
  · rw [receive_response hp]
  · simp only [Connection.call, Connection.requestId] at h
    split at h
    · cases h; rfl
    · cases h

/-- the highlighted entry is one of the entries -/
def Highlights (s : ConnectionState T) : Prop := ∀ m, s.menu = some m → m.entries ≠ [] → m.selected < m.entries.length

theorem highlights_receive {c : Connection T} (h : Highlights c.state) (l : Str) :
    Highlights (c.receive o parse l).1.state := by
  unfold Connection.receive
  split
  · rename_i e _
    show Highlights (c.state.eventUpdate o e).1
    unfold ConnectionState.eventUpdate
    cases e with
    | response r => exact h
    | notification n =>
      dsimp only
      split
      · split <;> exact h
      split
      · exact h
      split
      · split <;> exact h
      split
      · split
        · rename_i m hm
          intro m' hm' he
          have : m = m' := by injection hm'
          subst this
          have : m.selected = 0 := by
            unfold Notification.read at hm
            split at hm
            · cases hm
            · cases hm
            · unfold Reads.menu at hm
              simp only [Option.bind_eq_bind, Option.bind_eq_some_iff] at hm
              obtain ⟨fs, _, hm⟩ := hm
              split at hm
              · simp only [Option.bind_eq_some_iff] at hm
                obtain ⟨_, _, _, _, _, _, _, _, hm⟩ := hm
                cases hm; rfl
              · cases hm
          rw [this]
          exact List.length_pos_iff.2 he
        · exact h
      split
      · split <;> exact h
      split
      · split <;> exact h
      · exact h
  · exact h

/-- C52: at any time, whatever was received, the highlighted entry of an open menu that has entries is one of them. -/
theorem C52_bounds {steps : List Connection.Step} {c : Connection T} (h : Connection.new.run o parse steps = .ok c) :
    Highlights c.state := by
  have : ∀ {c0 : Connection T}, Highlights c0.state → c0.run o parse steps = .ok c → Highlights c.state := by
    clear h
    induction steps with
    | nil => intro c0 h0 h; cases h; exact h0
    | cons x steps ih =>
      intro c0 h0 h
      unfold Connection.run at h
      rw [List.foldlM_cons] at h
      obtain ⟨c1, h1, h⟩ := bind_inv h
      refine ih (c0 := c1) ?_ h
      cases x with
      | line l => cases h1; exact highlights_receive h0 l
      | call x =>
        simp only [Connection.step, Connection.call, Connection.requestId] at h1
        split at h1
        · cases h1; exact h0
        · cases h1
      | menuSelect =>
        simp only [Connection.step, Connection.menuSelect] at h1
        split at h1
        · cases h1; exact h0
        · obtain ⟨v, _, h1⟩ := bind_inv h1
          obtain ⟨c2, h2, h1⟩ := bind_inv h1
          cases h1
          intro m hm; cases hm
      | menuNext =>
        simp only [Connection.step, Connection.menuNext] at h1
        split at h1
        · cases h1; exact h0
        · rename_i m hm
          obtain ⟨v, hv, h1⟩ := bind_inv h1
          cases h1
          intro m' hm' he
          cases hm'
          simp only [RemoteMenu.selectNext] at hv
          obtain ⟨k, hk, hv⟩ := bind_inv hv
          have hk : k = m.entries.length - 1 := by
            unfold subChecked at hk; split at hk <;> cases hk; rfl
          have hv : (if m.selected < k then { m with selected := m.selected + 1 } else m) = v := by injection hv
          subst hv
          split
          · show m.selected + 1 < m.entries.length
            omega
          · rename_i hlt
            rw [if_neg hlt] at he
            exact h0 m hm he
      | menuPrevious =>
        cases h1
        intro m' hm' he
        simp only [Connection.menuPrevious] at hm'
        cases hm : c0.state.menu with
        | none => rw [hm] at hm'; cases hm'
        | some m =>
          rw [hm] at hm'
          have hm' : m.selectPrevious = m' := by injection hm'
          subst hm'
          unfold RemoteMenu.selectPrevious at he ⊢
          split
          · rename_i hp
            rw [if_pos hp] at he
            have := h0 m hm he
            show m.selected - 1 < m.entries.length
            omega
          · rename_i hp
            rw [if_neg hp] at he
            exact h0 m hm he
      | menuCancel => cases h1; intro m hm; cases hm
  exact this (by intro m hm; cases hm) h

/-- C52: in a menu with entries, going down highlights the next entry, or stays at the last one; going up highlights the
previous one, or stays at the first one; nothing else changes. -/
theorem C52_moves {c : Connection T} {m : RemoteMenu T} (hm : c.state.menu = some m) (he : m.entries ≠ []) :
    c.menuNext = .ok { c with state := { c.state with menu := some { m with
      selected := if m.selected + 1 < m.entries.length then m.selected + 1 else m.selected } } } ∧
    c.menuPrevious = { c with state := { c.state with menu := some { m with selected := m.selected - 1 } } } := by
  have h1 : 1 ≤ m.entries.length := List.length_pos_iff.2 he
  constructor
  · unfold Connection.menuNext RemoteMenu.selectNext
    rw [hm]
    simp only [subChecked_ok h1, except_bind_ok]
    by_cases hlt : m.selected + 1 < m.entries.length
    · rw [if_pos hlt, if_pos (by omega)]; rfl
    · rw [if_neg hlt, if_neg (by omega)]; rfl
  · unfold Connection.menuPrevious RemoteMenu.selectPrevious
    rw [hm]
    by_cases hp : m.selected > 0
    · simp [hp]
    · have : m.selected = 0 := by omega
      cases m; simp_all

/-- C52: choosing sends one request, which names the command of the menu and the value of the highlighted entry - what
was typed if that value is empty - and closes the menu. -/
theorem C52_select {c c' : Connection T} {m : RemoteMenu T} (hm : c.state.menu = some m) (h : c.menuSelect = .ok c') :
    ∃ e choice, m.entries[m.selected]? = some e ∧ choice = (if e.value = [] then m.search else e.value) ∧
      c'.sent = c.sent ++ [Call.request (.number c.nextRequestId) (.menuSelect m.command choice)] ∧
      c'.state = { c.state with menu := none } := by
  unfold Connection.menuSelect at h
  rw [hm] at h
  obtain ⟨v, hv, h⟩ := bind_inv h
  obtain ⟨c1, h1, h⟩ := bind_inv h
  cases h
  unfold RemoteMenu.selectedItem at hv
  split at hv
  · rename_i e he
    have hv : e.value = v := by injection hv
    subst hv
    refine ⟨e, _, he, rfl, ?_⟩
    simp only [Connection.call, Connection.requestId] at h1
    split at h1
    · cases h1
      have : (if e.value.isEmpty = true then m.search else e.value) = if e.value = [] then m.search else e.value := by
        simp [List.isEmpty_iff]
      simp only [this]
      exact ⟨rfl, rfl⟩
    · cases h1
  · cases hv

/-- C52: choosing in a menu with entries succeeds (while there are request identifiers left). -/
theorem C52_select_ok {steps : List Connection.Step} {c : Connection T} (h : Connection.new.run o parse steps = .ok c)
    (hi : c.nextRequestId < 2147483647) {m : RemoteMenu T} (hm : c.state.menu = some m) (he : m.entries ≠ []) :
    ∃ c', c.menuSelect = .ok c' := by
  have hb := C52_bounds h m hm he
  have hi' : c.nextRequestId + 1 ≤ 2147483647 := by omega
  unfold Connection.menuSelect
  rw [hm]
  simp [RemoteMenu.selectedItem, hb, Connection.call, Connection.requestId, hi', bind, Except.bind, pure, Except.pure]

/-- C52 is false of a menu without entries, which the server sends when nothing matches what was typed (see
`empty_menu` in Props/ConnectionServer): choosing and going down both crash the client. -/
theorem C52_empty_refuted {c : Connection T} {m : RemoteMenu T} (hm : c.state.menu = some m) (he : m.entries = []) :
    c.menuSelect = .error .index ∧ c.menuNext = .error .overflow := by
  unfold Connection.menuSelect Connection.menuNext
  rw [hm]
  simp [RemoteMenu.selectedItem, RemoteMenu.selectNext, he, subChecked, bind, Except.bind]

/-- The theorems of C52 apply: in the example the second entry is highlighted; going up and choosing sends `a`. -/
example : (Connection.new.run fragmentTexts JsonText.parse (exampleSteps ++ [.menuNext, .menuPrevious, .menuSelect])).toOption.map
    (fun c => (c.state.menu.isNone, c.sent)) =
    some (true, [Call.request (.number 0) (.edit str!"f" false), Call.request (.number 1) (.menuSelect str!"open" str!"a")]) := by
  decide +kernel

/-! ## C53 -/

theorem step_sent {c c' : Connection T} {x : Connection.Step} (h : c.step o parse x = .ok c') :
    (c'.sent = c.sent ∧ c'.nextRequestId = c.nextRequestId) ∨
    ∃ call, c'.sent = c.sent ++ [Call.request (.number c.nextRequestId) call] ∧
      c'.nextRequestId = c.nextRequestId + 1 ∧ c.nextRequestId + 1 ≤ 2147483647 := by
  have hc : ∀ {c c' : Connection T} {x : Call}, c.call x = .ok c' →
      c'.sent = c.sent ++ [Call.request (.number c.nextRequestId) x] ∧ c'.nextRequestId = c.nextRequestId + 1 ∧
        c.nextRequestId + 1 ≤ 2147483647 := by
    intro c c' x h
    simp only [Connection.call, Connection.requestId] at h
    split at h
    · rename_i hn; cases h; exact ⟨rfl, rfl, hn⟩
    · cases h
  cases x with
  | line l =>
    cases h
    left
    unfold Connection.receive
    split <;> exact ⟨rfl, rfl⟩
  | call x => exact .inr ⟨x, hc h⟩
  | menuSelect =>
    simp only [Connection.step, Connection.menuSelect] at h
    split at h
    · cases h; exact .inl ⟨rfl, rfl⟩
    · obtain ⟨v, _, h⟩ := bind_inv h
      obtain ⟨c1, h1, h⟩ := bind_inv h
      cases h
      obtain ⟨e1, e2, e3⟩ := hc h1
      exact .inr ⟨_, e1, e2, e3⟩
  | menuNext =>
    simp only [Connection.step, Connection.menuNext] at h
    split at h
    · cases h; exact .inl ⟨rfl, rfl⟩
    · obtain ⟨v, _, h⟩ := bind_inv h
      cases h; exact .inl ⟨rfl, rfl⟩
  | menuPrevious => cases h; exact .inl ⟨rfl, rfl⟩
  | menuCancel => cases h; exact .inl ⟨rfl, rfl⟩

theorem sent_run {steps : List Connection.Step} {c c' : Connection T} (h : c.run o parse steps = .ok c')
    {calls : List Call}
    (h0 : c.sent = (calls.zipIdx).map (fun x => Call.request (.number x.2) x.1) ∧ c.nextRequestId = calls.length ∧
      c.nextRequestId ≤ 2147483647) :
    ∃ calls', c'.sent = (calls'.zipIdx).map (fun x => Call.request (.number x.2) x.1) ∧
      c'.nextRequestId = calls'.length ∧ c'.nextRequestId ≤ 2147483647 ∧ calls <+: calls' := by
  induction steps generalizing c calls with
  | nil => cases h; exact ⟨calls, h0.1, h0.2.1, h0.2.2, List.prefix_refl _⟩
  | cons x steps ih =>
    unfold Connection.run at h
    rw [List.foldlM_cons] at h
    obtain ⟨c1, h1, h⟩ := bind_inv h
    rcases step_sent h1 with ⟨e1, e2⟩ | ⟨call, e1, e2, e3⟩
    · exact ih h ⟨e1 ▸ h0.1, e2 ▸ h0.2.1, e2 ▸ h0.2.2⟩
    · obtain ⟨calls', g1, g2, g3, g4⟩ := ih h (calls := calls ++ [call]) ⟨by
        rw [e1, h0.1, h0.2.1, List.zipIdx_append]
        simp, by rw [e2, h0.2.1]; simp, by rw [e2]; exact e3⟩
      exact ⟨calls', g1, g2, g3, (List.prefix_append _ _).trans g4⟩

/-- C53: the requests of a connection carry the identifiers 0, 1, 2, ... in the order in which they are made. -/
theorem C53_ids {steps : List Connection.Step} {c : Connection T} (h : Connection.new.run o parse steps = .ok c) :
    ∃ calls : List Call, c.sent = (calls.zipIdx).map (fun x => Call.request (.number x.2) x.1) ∧
      calls.length ≤ 2147483647 := by
  obtain ⟨calls, h1, h2, h3, _⟩ := sent_run h (calls := []) ⟨rfl, rfl, by simp [Connection.new]⟩
  exact ⟨calls, h1, by omega⟩

/-- C53: so no identifier is used twice, and each can be written and read back. -/
theorem C53_distinct {steps : List Connection.Step} {c : Connection T} (h : Connection.new.run o parse steps = .ok c) :
    (c.sent.map Request.id).Nodup ∧ ∀ r ∈ c.sent, GoodId r.id := by
  obtain ⟨calls, h1, h2⟩ := C53_ids h
  have e : c.sent.map Request.id = (List.range calls.length).map fun n : Nat => RpcId.number (n : Int) := by
    rw [h1, List.map_map]
    apply List.ext_getElem
    · simp
    · intro n _ _
      simp [Call.request, Request.new]
  constructor
  · rw [e]
    refine List.pairwise_map.2 (List.Pairwise.imp ?_ (List.nodup_range (n := calls.length)))
    intro a b hab he
    injection he with he
    exact hab (by omega)
  · intro r hr
    have : r.id ∈ c.sent.map Request.id := List.mem_map_of_mem hr
    rw [e] at this
    obtain ⟨n, hn, hid⟩ := List.mem_map.1 this
    rw [← hid]
    have := List.mem_range.1 hn
    show (-2147483648 : Int) ≤ n ∧ (n : Int) ≤ 2147483647
    omega

/-- C53 needs the bound: a connection that has made 2^31 - 1 requests cannot make another one. -/
theorem C53_exhausted {c : Connection T} (h : c.nextRequestId = 2147483647) (x : Call) : c.call x = .error .overflow := by
  simp [Connection.call, Connection.requestId, h, bind, Except.bind]

end Ced.Props
