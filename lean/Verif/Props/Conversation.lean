import Verif.Spec.Conversation
import Verif.Props.Flow
import Verif.Props.Reader
import Verif.Props.Standalone

/-!
# Conversations in bytes (C102)
-/

namespace Ced.Props
open Spec Flow

variable {L T : Type} {o : Ornament T} {room : Nat}

/-! ## Lines in a beginning of lines -/

theorem first_newline : ∀ {a b : Bytes} {s t : Bytes}, (10 : UInt8) ∉ a → (10 : UInt8) ∉ b → a ++ 10 :: s <+: b ++ 10 :: t → a = b ∧ s <+: t
  | [], [], s, t, _, _, h => ⟨rfl, by simpa using h⟩
  | [], y :: b, s, t, _, hb, h => by
    simp only [List.nil_append, List.cons_append, List.cons_prefix_cons] at h
    exact absurd (by rw [h.1]; simp) hb
  | x :: a, [], s, t, ha, _, h => by
    simp only [List.nil_append, List.cons_append, List.cons_prefix_cons] at h
    exact absurd (by rw [h.1]; simp) ha
  | x :: a, y :: b, s, t, ha, hb, h => by
    simp only [List.cons_append, List.cons_prefix_cons] at h
    obtain ⟨h1, h2⟩ := first_newline (fun hm => ha (List.mem_cons_of_mem _ hm)) (fun hm => hb (List.mem_cons_of_mem _ hm)) h.2
    exact ⟨by rw [h.1, h1], h2⟩

theorem before_newline : ∀ {a b t : Bytes}, (10 : UInt8) ∉ a → a <+: b ++ 10 :: t → a <+: b
  | [], _, _, _, _ => List.nil_prefix
  | x :: a, [], t, ha, h => by
    simp only [List.nil_append, List.cons_prefix_cons] at h
    exact absurd (by rw [h.1]; simp) ha
  | x :: a, y :: b, t, ha, h => by
    simp only [List.cons_append, List.cons_prefix_cons] at h ⊢
    exact ⟨h.1, before_newline (fun hm => ha (List.mem_cons_of_mem _ hm)) h.2⟩

/-- The whole lines in a beginning of lines are the first of them. -/
theorem prefix_cuts {s : Bytes} {lines : List Bytes} {rest : Bytes} (hc : Cuts s lines rest) {ls : List Bytes}
    (hn : ∀ l ∈ ls, (10 : UInt8) ∉ l) (h : s <+: ls.flatMap (· ++ [10])) :
    ∃ later, ls = lines ++ later ∧ rest <+: later.flatMap (· ++ [10]) := by
  induction lines generalizing s ls with
  | nil =>
    refine ⟨ls, rfl, ?_⟩
    have := hc.bytes
    simp only [List.flatMap_nil, List.nil_append] at this
    rw [← this]; exact h
  | cons x xs ih =>
    have hb := hc.bytes
    rw [List.flatMap_cons, List.append_assoc, List.append_assoc, List.singleton_append] at hb
    cases ls with
    | nil =>
      simp only [List.flatMap_nil, List.prefix_nil] at h
      rw [h] at hb
      simp at hb
    | cons l ls =>
      rw [hb, List.flatMap_cons, List.append_assoc, List.singleton_append] at h
      obtain ⟨rfl, h'⟩ := first_newline (hc.whole x (by simp)) (hn l (by simp)) h
      obtain ⟨later, e1, e2⟩ := ih (s := xs.flatMap (· ++ [10]) ++ rest) ⟨rfl, fun y hy => hc.whole y (List.mem_cons_of_mem _ hy), hc.last⟩
        (fun y hy => hn y (List.mem_cons_of_mem _ hy)) h'
      exact ⟨later, by rw [e1]; rfl, e2⟩

theorem write_newline (j : Json) : (10 : UInt8) ∉ encode j.write := fun h =>
  absurd (printable_write j '\n' (newline_mem.1 h)) (by decide)

theorem frame_bytes (j : Json) : encode (frame j) = encode j.write ++ [10] := by
  unfold frame
  rw [encode_append, encode_newline]

theorem wire_bytes (x : Wire) : x.bytes o = encode (x.encode o).write ++ [10] := frame_bytes _

theorem sent_lines (s : Server L) (c : Nat) :
    sentTo o s c = ((messagesTo s c).map fun x => encode (x.encode o).write).flatMap (· ++ [10]) := by
  unfold sentTo messagesTo
  rw [List.map_map, List.flatMap_map]
  induction s.written.filter (fun x => x.1 = c) with
  | nil => rfl
  | cons x l ih =>
    simp only [List.map_cons, List.flatten_cons, List.flatMap_cons, Function.comp] at ih ⊢
    rw [wire_bytes, ih]

/-- C102: the whole lines a client has read are the texts of the first messages the server decided to write to it, one line for
each, which parse to these messages; what follows the last newline is the beginning of the text of the next one. -/
theorem C102_lines {e : Ced.Editor L} {steps : List NetworkStep} {evs : List ServerEvent} {as : List (Act L)} {f : Flow L}
    (h : Conversation o room e steps evs as f) {c : Nat} {lines : List Bytes} {rest : Bytes} (hc : Cuts (f.got c) lines rest) :
    ∃ ms later, messagesTo f.server c = ms ++ later ∧ lines = ms.map (fun m => encode (m.encode o).write) ∧
      (∀ m ∈ ms, JsonText.parse (m.encode o).write = some (m.encode o)) ∧
      (rest ≠ [] → ∃ m later', later = m :: later' ∧ rest <+: encode (m.encode o).write) := by
  have hp : f.got c <+: sentTo o f.server c := (List.prefix_append ..).trans (C100_stream h.flow c).1
  rw [sent_lines] at hp
  obtain ⟨later, e1, e2⟩ := prefix_cuts hc (by
    intro l hl
    obtain ⟨m, _, rfl⟩ := List.mem_map.1 hl
    exact write_newline _) hp
  obtain ⟨ms, later', h1, h2, h3⟩ := List.map_eq_append_iff.1 e1
  refine ⟨ms, later', h1, h2.symm, fun m _ => C62_text _, fun hr => ?_⟩
  cases later' with
  | nil =>
    rw [← h3] at e2
    simp at e2
    exact absurd e2 hr
  | cons m l =>
    refine ⟨m, l, rfl, ?_⟩
    rw [← h3, List.map_cons, List.flatMap_cons, List.append_assoc] at e2
    exact before_newline hc.last e2

/-! ## The responses -/

theorem messages_append {s s' : Server L} {new : List (Nat × Wire)} (h : s'.written = s.written ++ new) (c : Nat) :
    messagesTo s' c = messagesTo s c ++ (new.filter fun x => x.1 = c).map Prod.snd := by
  unfold messagesTo
  rw [h, List.filter_append, List.map_append]

theorem replies_append (a b : List Wire) : repliesIn (a ++ b) = repliesIn a ++ repliesIn b := by
  unfold repliesIn; rw [List.filterMap_append]

theorem conv_append {α β : Type} {P : α → β → Prop} {a b : List α} {x y : List β} (h : List.Forall₂ P a x) (h' : List.Forall₂ P b y) :
    List.Forall₂ P (a ++ b) (x ++ y) := by
  induction h with
  | nil => exact h'
  | cons h _ ih => exact .cons h ih

theorem conv_length {α β : Type} {P : α → β → Prop} {a : List α} {x : List β} (h : List.Forall₂ P a x) : a.length = x.length := by
  induction h with
  | nil => rfl
  | cons _ _ ih => simp [ih]

/-- Each line that is taken is answered, in order. -/
theorem taken_answered {f g : Flow L} {as : List (Act L)} (h : Run o room f as g) (c : Nat) :
    ∃ rs, repliesIn (messagesTo g.server c) = repliesIn (messagesTo f.server c) ++ rs ∧
      List.Forall₂ (fun x r => Answers x.1 x.2 r) (takenLines c as) rs := by
  induction h with
  | nil f => exact ⟨[], by simp, .nil⟩
  | @cons f g h a as hs _ ih =>
    obtain ⟨rs, h1, h2⟩ := ih
    have one : ∃ rs, repliesIn (messagesTo g.server c) = repliesIn (messagesTo f.server c) ++ rs ∧
        List.Forall₂ (fun x r => Answers x.1 x.2 r) (takenLines c [a]) rs := by
      cases hs with
      | @event env ev s last todo _ _ ht _ =>
        cases ev with
        | message d line =>
          obtain ⟨_, e', r, hh, hw⟩ := C40_response ht
          obtain ⟨k1, k2, -⟩ := C37_response hh
          by_cases hd : d = c
          · subst hd
            refine ⟨[r], ?_, ?_⟩
            · rw [messages_append hw, replies_append]; simp [repliesIn]
            · simp only [takenLines, List.filterMap_cons, List.filterMap_nil, if_true]
              exact .cons ⟨k1, k2⟩ .nil
          · refine ⟨[], ?_, ?_⟩
            · rw [messages_append hw, replies_append]; simp [repliesIn, hd]
            · simp only [takenLines, List.filterMap_cons, List.filterMap_nil, if_neg hd]; exact .nil
        | join d =>
          have hw := C40_quiet ht (by intros; simp)
          exact ⟨[], by rw [messages_append (hw.trans (List.append_nil _).symm)]; simp [replies_append, repliesIn], .nil⟩
        | leave d =>
          have hw := C40_quiet ht (by intros; simp)
          exact ⟨[], by rw [messages_append (hw.trans (List.append_nil _).symm)]; simp [replies_append, repliesIn], .nil⟩
      | deliver _ _ _ =>
        refine ⟨[], ?_, .nil⟩
        rw [List.append_nil]
        show repliesIn (messagesTo (f.server.deliver []) c) = _
        unfold Server.deliver
        split
        · rfl
        · rename_i b _
          rw [messages_append rfl, replies_append]
          have : ∀ l : List Nat, repliesIn (((l.map fun c => (c, Wire.note b.note)).filter fun x => x.1 = c).map Prod.snd) = [] := by
            intro l
            induction l with
            | nil => rfl
            | cons x l ih => by_cases hx : x = c <;> simp [hx, repliesIn] at ih ⊢ <;> exact ih
          rw [this]; simp
      | _ => exact ⟨[], by simp, .nil⟩
    obtain ⟨rs0, g1, g2⟩ := one
    refine ⟨rs0 ++ rs, by rw [h1, g1, List.append_assoc], ?_⟩
    have : takenLines c (a :: as) = takenLines c [a] ++ takenLines c as := by
      unfold takenLines
      rw [show a :: as = [a] ++ as from rfl, List.filterMap_append]
    rw [this]
    exact conv_append g2 h2

/-- The messages of a client among events. -/
def saidBy (c : Nat) (evs : List ServerEvent) : List Str :=
  evs.filterMap fun | .message d l => if d = c then some l else none | _ => none

theorem saidBy_from (c : Nat) (evs : List ServerEvent) : saidBy c evs = saidBy c (eventsFrom c evs) := by
  induction evs with
  | nil => rfl
  | cons ev evs ih =>
    unfold eventsFrom
    rw [List.filter_cons]
    unfold saidBy eventsFrom at *
    cases ev with
    | join d => by_cases hd : d = c <;> simp [Spec.clientOf, hd, ih]
    | leave d => by_cases hd : d = c <;> simp [Spec.clientOf, hd, ih]
    | message d l => by_cases hd : d = c <;> simp [Spec.clientOf, hd, ih]

theorem taken_lines (c : Nat) (as : List (Act L)) : (takenLines c as).map Prod.snd = saidBy c (takenEvents as) := by
  induction as with
  | nil => rfl
  | cons a as ih =>
    unfold takenLines takenEvents saidBy at *
    cases a with
    | event env ev =>
      cases ev with
      | message d l => by_cases hd : d = c <;> simp [hd, ih]
      | _ => simpa using ih
    | _ => simpa using ih

/-- The texts of lines that are JSON texts, each on its line. -/
theorem hears_texts {lines : List Bytes} {texts : List Str} (h : Hears lines texts false) {js : List Json}
    (hl : lines = js.map fun j => encode j.write) : texts = js.map Json.write := by
  induction js generalizing lines texts with
  | nil => subst hl; cases h; rfl
  | cons j js ih =>
    subst hl
    cases h with
    | line ht h' =>
      rw [List.map_cons, ← ih h' rfl]
      congr 1
      refine lineText_unique ht (.inr ⟨rfl, fun t ht => ?_⟩)
      exact not_cr (printable_write j) (by rw [ht]; simp)

/-- What the server hears of a client that sends JSON texts, each on its line. -/
theorem heard_texts {steps : List NetworkStep} {n : ByteNetwork} {evs : List ServerEvent}
    (h : ByteNetwork.start.run steps = some (n, evs)) {c : Nat} (hj : .join c ∈ evs) (hl : .leave c ∉ evs)
    (he : .eof c ∉ steps) {js : List Json} (hr : received c steps <+: encode (js.flatMap frame)) :
    saidBy c evs <+: js.map Json.write ∧
      (received c steps = encode (js.flatMap frame) → n.step (.poll c) = none → saidBy c evs = js.map Json.write) := by
  have hfl : ∀ js : List Json, encode (js.flatMap frame) = (js.map fun j => encode j.write).flatMap (· ++ [10]) := by
    intro js
    induction js with
    | nil => rfl
    | cons j js ih => rw [List.flatMap_cons, encode_append, ih, List.map_cons, List.flatMap_cons, frame_bytes]
  have hnl : ∀ l ∈ js.map (fun j => encode j.write), (10 : UInt8) ∉ l := by
    intro l hl
    obtain ⟨m, _, rfl⟩ := List.mem_map.1 hl
    exact write_newline _
  obtain ⟨lines, rest, hc⟩ := cuts_exists (received c steps)
  obtain ⟨heard, waiting, texts, k1, k2, k3, k4⟩ := C85_running h hj hl he hc
  rw [hfl] at hr
  obtain ⟨later, e1, e2⟩ := prefix_cuts hc hnl hr
  have htexts : saidBy c evs = texts := by
    rw [saidBy_from, k3]
    unfold saidBy
    rw [List.filterMap_cons]
    clear k3 k2 k1
    induction texts with
    | nil => rfl
    | cons t ts ih => simp at ih ⊢; exact ih
  obtain ⟨js1, js2, f1, f2, f3⟩ := List.map_eq_append_iff.1 (show js.map (fun j => encode j.write) = heard ++ (waiting ++ later) by rw [e1, k1, List.append_assoc])
  have ht := hears_texts k2 f2.symm
  rw [htexts]
  refine ⟨by rw [ht, f1, List.map_append]; exact List.prefix_append .., fun hw hp => ?_⟩
  have hwait := k4 hp
  rw [hwait, List.append_nil] at k1
  rw [hw, hfl] at hc
  have hc2 : Cuts ((js.map fun j => encode j.write).flatMap (· ++ [10])) (js.map fun j => encode j.write) [] :=
    ⟨by simp, hnl, by simp⟩
  obtain ⟨g1, _⟩ := cuts_unique hc hc2
  exact hears_texts k2 (k1 ▸ g1)

theorem answers_ids {calls : List (RpcId × Call)} (hi : ∀ x ∈ calls, GoodId x.1) {taken : List (EditorEnv L × Str)} {rs : List Response}
    (ha : List.Forall₂ (fun x r => Answers x.1 x.2 r) taken rs) (hp : ∀ x ∈ taken, JsonText.ReadsBack x.1.parse)
    (ht : taken.map Prod.snd <+: calls.map fun x => (x.2.request x.1).encode.write) :
    rs.map Response.id <+: calls.map Prod.fst := by
  induction ha generalizing calls with
  | nil => exact List.nil_prefix
  | @cons x r taken rs hx _ ih =>
    cases calls with
    | nil => simp at ht
    | cons y calls =>
      simp only [List.map_cons, List.cons_prefix_cons] at ht ⊢
      refine ⟨?_, ih (fun z hz => hi z (List.mem_cons_of_mem _ hz)) (fun z hz => hp z (List.mem_cons_of_mem _ hz)) ht.2⟩
      obtain ⟨q, h1, h2, _⟩ := C38_call (hi y List.mem_cons_self) y.2
      have := hx.1
      rw [ht.1, (hp x List.mem_cons_self).back _ (JsonText.message_call (hi y List.mem_cons_self) y.2), Option.bind_some, h1] at this
      rw [this]; exact h2

/-- C102: a client that sends requests, as ced's clients write them, and stays: however its bytes and those of all the others
arrive, and however slowly anybody reads, the responses written to it have the identifiers of its first requests, in order, and so
have those among the lines it has read. -/
theorem C102_ids {e : Ced.Editor L} {steps : List NetworkStep} {evs : List ServerEvent} {as : List (Act L)} {f : Flow L}
    (h : Conversation o room e steps evs as f) {c : Nat} (hj : .join c ∈ evs) (hl : .leave c ∉ evs) (he : .eof c ∉ steps)
    (hparse : ∀ env ev, Act.event env ev ∈ as → JsonText.ReadsBack env.parse)
    {calls : List (RpcId × Call)} (hi : ∀ x ∈ calls, GoodId x.1)
    (hr : received c steps <+: encode (calls.flatMap fun x => frame (x.2.request x.1).encode)) :
    (repliesIn (messagesTo f.server c)).map Response.id <+: calls.map Prod.fst ∧
    ∀ lines rest, Cuts (f.got c) lines rest →
      ∃ ms, lines = ms.map (fun m => encode (m.encode o).write) ∧ (repliesIn ms).map Response.id <+: calls.map Prod.fst := by
  obtain ⟨n, hn⟩ := h.heard
  obtain ⟨rs, h1, h2⟩ := taken_answered h.flow c
  have h0 : repliesIn (messagesTo (Flow.start e).server c) = [] := rfl
  rw [h0, List.nil_append] at h1
  have hr' : received c steps <+: encode ((calls.map fun x => (x.2.request x.1).encode).flatMap frame) := by
    rw [List.flatMap_map]; exact hr
  have ht := (heard_texts hn hj hl he hr').1
  have hpre : (takenLines c as).map Prod.snd <+: calls.map fun x => (x.2.request x.1).encode.write := by
    rw [taken_lines]
    refine List.IsPrefix.trans ?_ (by rw [List.map_map] at ht; exact ht)
    obtain ⟨t, ht⟩ := h.order
    unfold saidBy
    rw [← ht, List.filterMap_append]
    exact List.prefix_append ..
  have hp : ∀ x ∈ takenLines c as, JsonText.ReadsBack x.1.parse := by
    intro x hx
    unfold takenLines at hx
    obtain ⟨a, ha, hm⟩ := List.mem_filterMap.1 hx
    cases a with
    | event env ev =>
      cases ev with
      | message d l =>
        by_cases hd : d = c
        · simp [hd] at hm
          rw [← hm]
          exact hparse env _ ha
        · simp [hd] at hm
      | _ => simp at hm
    | _ => simp at hm
  have main := answers_ids hi h2 hp hpre
  rw [← h1] at main
  refine ⟨main, fun lines rest hc => ?_⟩
  obtain ⟨ms, later, m1, m2, _, _⟩ := C102_lines h hc
  refine ⟨ms, m2, List.IsPrefix.trans ?_ main⟩
  rw [m1, replies_append, List.map_append]
  exact List.prefix_append ..

/-- C102: and when all its bytes have arrived and are looked at, the loop has taken all events, and the client has read all there
is, then it has read the response to every request, each once, in order. -/
theorem C102_settled {e : Ced.Editor L} {steps : List NetworkStep} {evs : List ServerEvent} {as : List (Act L)} {f : Flow L}
    {n : ByteNetwork} (hn : ByteNetwork.start.run steps = some (n, evs)) (hf : Run o room (Flow.start e) as f)
    (hall : takenEvents as = evs) {c : Nat} (hj : .join c ∈ evs) (hl : .leave c ∉ evs) (he : .eof c ∉ steps)
    (hpoll : n.step (.poll c) = none)
    (hparse : ∀ env ev, Act.event env ev ∈ as → JsonText.ReadsBack env.parse)
    {calls : List (RpcId × Call)} (hi : ∀ x ∈ calls, GoodId x.1)
    (hr : received c steps = encode (calls.flatMap fun x => frame (x.2.request x.1).encode))
    (ho : c ∉ f.closed) (htodo : ∀ p ∈ f.todo, p.client ≠ c) (hway : f.way c = []) :
    ∃ ms, Cuts (f.got c) (ms.map fun m => encode (m.encode o).write) [] ∧ ms = messagesTo f.server c ∧
      (repliesIn ms).map Response.id = calls.map Prod.fst := by
  have hcon : Conversation o room e steps evs as f := ⟨⟨n, hn⟩, hf, by rw [hall]; exact List.prefix_refl _⟩
  refine ⟨messagesTo f.server c, ⟨?_, ?_, by simp⟩, rfl, ?_⟩
  · have := (C100_stream hf c).2.2 ho htodo
    rw [hway, List.append_nil] at this
    rw [this, sent_lines, List.append_nil]
  · intro l hl
    obtain ⟨m, _, rfl⟩ := List.mem_map.1 hl
    exact write_newline _
  · have h1 := (C102_ids hcon hj hl he hparse hi (by rw [hr]; exact List.prefix_refl _)).1
    refine List.IsPrefix.eq_of_length h1 ?_
    obtain ⟨rs, g1, g2⟩ := taken_answered hf c
    have h0 : repliesIn (messagesTo (Flow.start e).server c) = [] := rfl
    rw [h0, List.nil_append] at g1
    have ht := (heard_texts (js := calls.map fun x => (x.2.request x.1).encode) hn hj hl he
      (by rw [hr, List.flatMap_map]; exact List.prefix_refl _)).2 (by rw [hr, List.flatMap_map]) hpoll
    rw [g1, List.length_map, List.length_map, ← conv_length g2, ← List.length_map (f := Prod.snd), taken_lines, hall, ht]
    simp

/-! ## Examples -/

/-- a client sends two requests, cut in the middle of the first -/
def chatCalls : List (RpcId × Call) := [(.number 0, .edit str!"f" false), (.number 1, .viewDelete)]
def chatBytes : Bytes := encode (chatCalls.flatMap fun x => frame (x.2.request x.1).encode)
def arrivals : List NetworkStep := [.accept, .data 1 (chatBytes.take 9), .poll 1, .data 1 (chatBytes.drop 9), .poll 1, .poll 1]
def chatLine (k : Nat) : Str := ((chatCalls.map fun x => (x.2.request x.1).encode.write)[k]?).getD []

/-- the server writes the two answers, and the client reads them in two portions -/
def chatA : List (Act Unit) :=
  [.event editorEnvA (.join 1), .event editorEnvA (.message 1 (chatLine 0))] ++ List.replicate 39 .byte ++
  [.done, .read 1 7, .event editorEnvA (.message 1 (chatLine 1))] ++ List.replicate 39 .byte ++ [.done, .read 1 100]

example : (ByteNetwork.start.run arrivals).map (fun x => (x.2, (x.1.step (.poll 1)).isNone)) =
    some ([.join 1, .message 1 (chatLine 0), .message 1 (chatLine 1)], true) := by decide +kernel
example : received 1 arrivals = chatBytes ∧ takenEvents chatA = [.join 1, .message 1 (chatLine 0), .message 1 (chatLine 1)] := by
  decide +kernel
example : (∀ x ∈ chatCalls, GoodId x.1) ∧ JsonText.ReadsBack editorEnvA.parse := by
  refine ⟨?_, JsonText.parse_readsBack⟩
  intro x hx
  simp only [chatCalls, List.mem_cons, List.not_mem_nil, or_false] at hx
  rcases hx with rfl | rfl <;> simp [GoodId]

/-- what is left on its way, to do, and how many messages and responses it was sent -/
def chatSeen (f : Flow Unit) : Nat × Nat × Nat × List RpcId :=
  ((f.way 1).length, f.todo.length, (f.got 1).length, (repliesIn (messagesTo f.server 1)).map Response.id)

example : (tryRun bareO 72 chatA (Flow.start emptyEditor)).map chatSeen = some (0, 0, 78, [.number 0, .number 1]) := by
  decide +kernel

end Ced.Props
