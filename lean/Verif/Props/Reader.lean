import Verif.Proofs.ReaderNet
import Verif.Props.Wire

/-! # What the server hears of the bytes that arrive: C85 -/

namespace Ced.Props
open Spec

/-! ## The events are those of a network of lines -/

theorem item_emits {n n' : ByteNetwork} {c : Nat} {x : Lines × Option (Option Str)} {evs : List ServerEvent}
    (h : n.item c x = (n', evs)) (hc : n.readers.has c = true) {m : Network} (hn : m.next = n.next)
    (ho : ∀ d, d ∈ m.opened ↔ n.readers.has d = true) {rest : List ServerEvent}
    (ih : ∀ m' : Network, m'.next = n'.next → (∀ d, d ∈ m'.opened ↔ n'.readers.has d = true) → m'.Emits rest) :
    m.Emits (evs ++ rest) := by
  have hset : ∀ l d, d ∈ m.opened ↔ (n.readers.set c l).has d = true := by
    intro l d
    rw [ho, Assoc.has_set]
    by_cases hd : d = c
    · subst hd; simp [hc]
    · simp [hd]
  obtain ⟨l, _ | _ | line⟩ := x
  · cases h
    exact ih m hn (hset l)
  · cases h
    refine Network.Emits.close ((ho c).2 hc) (ih _ hn fun d => ?_)
    rw [Assoc.has_del, List.mem_filter, ho]
    by_cases hd : d = c
    · simp [hd]
    · simp [hd]
  · cases h
    exact Network.Emits.line line ((ho c).2 hc) (ih m hn (hset l))

theorem run_emits {steps : List NetworkStep} {n n' : ByteNetwork} {evs : List ServerEvent}
    (h : n.run steps = some (n', evs)) {m : Network} (hn : m.next = n.next)
    (ho : ∀ d, d ∈ m.opened ↔ n.readers.has d = true) : m.Emits evs := by
  induction steps generalizing n evs m with
  | nil => cases h; exact .done _
  | cons s steps ih =>
    obtain ⟨n1, e1, e2, h1, h2, rfl⟩ := run_cons h
    have ih' : ∀ m' : Network, m'.next = n1.next → (∀ d, d ∈ m'.opened ↔ n1.readers.has d = true) → m'.Emits e2 :=
      fun m' a b => ih h2 a b
    have gone : ∀ c l, n.readers.get c = some l → n1 = { n with readers := n.readers.del c } → e1 = [.leave c] →
        m.Emits (e1 ++ e2) := by
      rintro c l hl rfl rfl
      have hc : n.readers.has c = true := Assoc.has_iff.2 ⟨l, hl⟩
      exact item_emits (x := (l, some none)) rfl hc hn ho ih'
    cases s with
    | accept =>
      cases h1
      rw [← hn]
      refine Network.Emits.accept (ih' _ (by rw [hn]) fun d => ?_)
      rw [Assoc.has_set, List.mem_cons, ho, hn]
      simp
    | data c chunk =>
      simp only [ByteNetwork.step] at h1
      split at h1
      · rename_i l hl
        split at h1
        · have hc : n.readers.has c = true := Assoc.has_iff.2 ⟨l, hl⟩
          cases h1
          exact item_emits (n := n) (x := ({ l with buf := chunk }, none)) rfl hc hn ho ih'
        · cases h1
      · cases h1
    | poll c =>
      simp only [ByteNetwork.step] at h1
      split at h1
      · rename_i l hl
        split at h1
        · cases h1
        · exact item_emits (Option.some.inj h1) (Assoc.has_iff.2 ⟨l, hl⟩) hn ho ih'
      · cases h1
    | eof c =>
      simp only [ByteNetwork.step] at h1
      split at h1
      · rename_i l hl
        split at h1
        · split at h1
          · cases h1; exact gone c l hl rfl rfl
          · exact item_emits (Option.some.inj h1) (Assoc.has_iff.2 ⟨l, hl⟩) hn ho ih'
        · cases h1
      · cases h1
    | reset c =>
      simp only [ByteNetwork.step] at h1
      split at h1
      · rename_i l hl
        split at h1
        · cases h1; exact gone c l hl rfl rfl
        · cases h1
      · cases h1

/-- C85: however bytes arrive, what the server's loop is given is a sequence of events of clients that come with new
numbers, send lines while they are connected, and go once. -/
theorem C85_events {steps : List NetworkStep} {n : ByteNetwork} {evs : List ServerEvent}
    (h : ByteNetwork.start.run steps = some (n, evs)) : Network.start.Emits evs :=
  run_emits h rfl (fun d => by simp [Network.start, ByteNetwork.start, Assoc.has])

/-! ## Each connection -/

theorem eventsFrom_join {c : Nat} {evs : List ServerEvent} (h : .join c ∈ evs) : eventsFrom c evs ≠ [] := by
  intro he
  have : ServerEvent.join c ∈ eventsFrom c evs := List.mem_filter.2 ⟨h, by simp [clientOf]⟩
  rw [he] at this; cases this

theorem known_of_join {steps : List NetworkStep} {n : ByteNetwork} {evs : List ServerEvent}
    (i : NetInv steps evs n) {c : Nat} (hj : .join c ∈ evs) : 1 ≤ c ∧ c < n.next := by
  rcases Nat.lt_or_ge c n.next with h | h
  · refine ⟨?_, h⟩
    rcases Nat.eq_zero_or_pos c with h0 | h0
    · exact absurd (i.unknown c (.inl h0)).2.1 (eventsFrom_join hj)
    · exact h0
  · exact absurd (i.unknown c (.inr h)).2.1 (eventsFrom_join hj)

theorem inv_of_run {steps : List NetworkStep} {n : ByteNetwork} {evs : List ServerEvent}
    (h : ByteNetwork.start.run steps = some (n, evs)) : NetInv steps evs n := by
  simpa using netInv_run netInv_start h

theorem mem_eventsFrom {c : Nat} {evs : List ServerEvent} : .leave c ∈ evs ↔ .leave c ∈ eventsFrom c evs := by
  simp [eventsFrom, clientOf]

/-- C85: while a connection lasts and its client has not closed it, the server is given the coming of the client and
then, in order, the texts of lines it has sent, all of which were UTF-8; nothing else.  When nothing of what arrived
remains to be looked at, these are all the lines completed so far. -/
theorem C85_running {steps : List NetworkStep} {n : ByteNetwork} {evs : List ServerEvent}
    (h : ByteNetwork.start.run steps = some (n, evs)) {c : Nat} (hj : .join c ∈ evs) (hl : .leave c ∉ evs)
    (he : .eof c ∉ steps) {lines : List Bytes} {rest : Bytes} (hc : Cuts (received c steps) lines rest) :
    ∃ heard waiting texts, lines = heard ++ waiting ∧ Hears heard texts false ∧
      eventsFrom c evs = .join c :: texts.map (.message c) ∧ (n.step (.poll c) = none → waiting = []) := by
  have i := inv_of_run h
  obtain ⟨h1, h2⟩ := known_of_join i hj
  have hk := i.known c h1 h2
  cases hg : n.readers.get c with
  | none =>
    rw [hg] at hk
    obtain ⟨ts, l, r, e, _⟩ := hk
    exact absurd (mem_eventsFrom.2 (by rw [e]; simp)) hl
  | some l =>
    rw [hg] at hk
    obtain ⟨ls, ts, k1, k2, k3, k4 | k4⟩ := hk
    · obtain ⟨e1, e2, e3, e4, e5⟩ := k4
      obtain ⟨m, r, hm⟩ := cuts_exists (l.acc ++ l.buf)
      obtain ⟨rfl, rfl⟩ := cuts_unique hc (by rw [e4]; exact cuts_append k1 hm)
      refine ⟨ls, m, ts, rfl, k2, e5, fun hp => ?_⟩
      simp only [ByteNetwork.step, hg] at hp
      split at hp
      · rename_i hb
        have : Cuts (l.acc ++ l.buf) [] l.acc := ⟨by rw [hb]; simp, by simp, e3⟩
        exact (cuts_unique hm this).1
      · cases hp
    · exact absurd k4.2.1 he

/-- C85: when a connection is over, what the server was given of it is, in this order, the coming of the client, texts,
and its going, and these texts are: those of the lines before the first that is not UTF-8, if there is one; otherwise,
if the client closed the connection, those of all lines and of what it sent after the last newline, unless that is empty
or not UTF-8; otherwise, the connection being lost, those of all lines. -/
theorem C85_over {steps : List NetworkStep} {n : ByteNetwork} {evs : List ServerEvent}
    (h : ByteNetwork.start.run steps = some (n, evs)) {c : Nat} (hl : .leave c ∈ evs) {lines : List Bytes}
    {rest : Bytes} (hc : Cuts (received c steps) lines rest) :
    ∃ texts, eventsFrom c evs = .join c :: texts.map (.message c) ++ [.leave c] ∧
      (Hears lines texts true ∨
       (.eof c ∈ steps ∧ ∃ whole last, Hears lines whole false ∧ HearsLast rest last ∧ texts = whole ++ last) ∨
       (.reset c ∈ steps ∧ .eof c ∉ steps ∧ Hears lines texts false)) := by
  have i := inv_of_run h
  have hne : eventsFrom c evs ≠ [] := by
    intro he
    have := mem_eventsFrom.1 hl
    rw [he] at this; cases this
  have h12 : 1 ≤ c ∧ c < n.next := by
    rcases Nat.lt_or_ge c n.next with h | h
    · refine ⟨?_, h⟩
      rcases Nat.eq_zero_or_pos c with h0 | h0
      · exact absurd (i.unknown c (.inl h0)).2.1 hne
      · exact h0
    · exact absurd (i.unknown c (.inr h)).2.1 hne
  have hk := i.known c h12.1 h12.2
  cases hg : n.readers.get c with
  | none =>
    rw [hg] at hk
    obtain ⟨ts, l, r, e, hcut, hh⟩ := hk
    obtain ⟨rfl, rfl⟩ := cuts_unique hc hcut
    exact ⟨ts, e, hh⟩
  | some l =>
    rw [hg] at hk
    have hm := mem_eventsFrom.1 hl
    obtain ⟨ls, ts, k1, k2, k3, k4 | k4⟩ := hk
    · obtain ⟨e1, e2, e3, e4, e5⟩ := k4
      rw [e5] at hm; simp at hm
    · obtain ⟨e1, e2, e3, e4, t, e5, e6, e7, e8⟩ := k4
      rw [e8] at hm; simp at hm

/-! ## Texts -/

/-- The lines of a text, as bytes and as characters. -/
theorem readLinesFrom_cuts (s acc : Str) (ha : '\n' ∉ acc) :
    ∃ lines rest whole last, Cuts (encode (acc ++ s)) lines rest ∧ Hears lines whole false ∧ HearsLast rest last ∧
      readLinesFrom acc s = whole ++ last := by
  induction s generalizing acc with
  | nil =>
    refine ⟨[], encode acc, [], if acc = [] then [] else [acc], ⟨by simp, by simp, ?_⟩, .all, ?_, ?_⟩
    · exact fun hm => ha (newline_mem.1 hm)
    · by_cases h : acc = []
      · subst h; exact .inl ⟨rfl, by simp⟩
      · refine .inr (.inl ⟨fun he => h (encode_inj (b := []) (by rw [he]; rfl)), acc, rfl, by simp [h]⟩)
    · simp [readLinesFrom]
  | cons c s ih =>
    rw [readLinesFrom]
    by_cases hc : c = '\n'
    · subst hc
      rw [if_pos rfl]
      obtain ⟨lines, rest, whole, last, h1, h2, h3, h4⟩ := ih [] (by simp)
      rw [List.nil_append] at h1
      refine ⟨encode acc :: lines, rest, _ :: whole, last, ?_, .line (lineText_chomp acc) h2, h3, ?_⟩
      · have : encode (acc ++ '\n' :: s) = [encode acc].flatMap (· ++ [10]) ++ encode s := by
          rw [encode_append, encode_cons]
          have : String.utf8EncodeChar '\n' = [10] := by decide
          rw [this]; simp
        rw [this]
        exact cuts_append (by
          intro x hx
          rw [List.mem_singleton.1 hx]
          exact fun hm => ha (newline_mem.1 hm)) h1
      · rw [chomp_line, h4]; simp
    · rw [if_neg hc]
      obtain ⟨lines, rest, whole, last, h1, h2, h3, h4⟩ := ih (acc ++ [c]) (by
        simp only [List.mem_append, List.mem_singleton, not_or]
        exact ⟨ha, fun e => hc e.symm⟩)
      exact ⟨lines, rest, whole, last, by simpa using h1, h2, h3, h4⟩

theorem lineText_unique {raw : Bytes} {t t' : Str} (h : LineText raw t) (h' : LineText raw t') : t = t' := by
  rcases h with h | ⟨h, hn⟩
  · rcases h' with h' | ⟨h', hn'⟩
    · exact List.append_cancel_right (encode_inj (h.symm.trans h'))
    · exact absurd (encode_inj (h'.symm.trans h)) (hn' t)
  · rcases h' with h' | ⟨h', hn'⟩
    · exact absurd (encode_inj (h.symm.trans h')) (hn t')
    · exact encode_inj (h.symm.trans h')

theorem lineText_isText {raw : Bytes} {t : Str} (h : LineText raw t) : IsText raw := by
  rcases h with h | ⟨h, _⟩
  · exact ⟨_, h⟩
  · exact ⟨_, h⟩

/-- What is heard of lines is determined. -/
theorem hears_unique {l : List Bytes} {t t' : List Str} {b b' : Bool} (h : Hears l t b) (h' : Hears l t' b') :
    t = t' ∧ b = b' := by
  induction h generalizing t' with
  | all => cases h'; exact ⟨rfl, rfl⟩
  | bad hr =>
    cases h' with
    | bad => exact ⟨rfl, rfl⟩
    | line ht _ => exact absurd (lineText_isText ht) hr
  | line ht _ ih =>
    cases h' with
    | bad hr => exact absurd (lineText_isText ht) hr
    | line ht' h'' =>
      obtain ⟨rfl, rfl⟩ := ih h''
      exact ⟨by rw [lineText_unique ht ht'], rfl⟩

theorem hearsLast_unique {rest : Bytes} {t t' : List Str} (h : HearsLast rest t) (h' : HearsLast rest t') : t = t' := by
  rcases h with ⟨h, rfl⟩ | ⟨h, u, hu, rfl⟩ | ⟨h, rfl⟩ <;> rcases h' with ⟨h', rfl⟩ | ⟨h', u', hu', rfl⟩ | ⟨h', rfl⟩
  · rfl
  · exact absurd h h'
  · rfl
  · exact absurd h' h
  · rw [encode_inj (hu.symm.trans hu')]
  · exact absurd ⟨u, hu⟩ h'
  · rfl
  · exact absurd ⟨u', hu'⟩ h
  · rfl

/-- C85: a client that sends a text, in pieces cut anywhere (even inside a character), and closes the connection: the
server is given its coming, the lines of the text, and its going. -/
theorem C85_text {steps : List NetworkStep} {n : ByteNetwork} {evs : List ServerEvent}
    (h : ByteNetwork.start.run steps = some (n, evs)) {c : Nat} (hl : .leave c ∈ evs) (he : .eof c ∈ steps) {s : Str}
    (hs : received c steps = encode s) :
    eventsFrom c evs = .join c :: (readLines s).map (.message c) ++ [.leave c] := by
  obtain ⟨lines, rest, whole, last, h1, h2, h3, h4⟩ := readLinesFrom_cuts s [] (by simp)
  rw [List.nil_append] at h1
  obtain ⟨texts, e, hh⟩ := C85_over h hl (by rw [hs]; exact h1)
  rw [e]
  unfold readLines
  rw [h4]
  rcases hh with hh | ⟨_, w, l, k1, k2, rfl⟩ | ⟨_, k, _⟩
  · have := (hears_unique hh h2).2; cases this
  · rw [(hears_unique k1 h2).1, hearsLast_unique k2 h3]
  · exact absurd he k

/-- C85: so a client that sends messages as ced's clients write them, and closes the connection, is heard exactly: its
messages, in order, each as its own text. -/
theorem C85_messages {steps : List NetworkStep} {n : ByteNetwork} {evs : List ServerEvent}
    (h : ByteNetwork.start.run steps = some (n, evs)) {c : Nat} (hl : .leave c ∈ evs) (he : .eof c ∈ steps)
    {ms : List Json} (hs : received c steps = encode (ms.flatMap frame)) :
    eventsFrom c evs = .join c :: (ms.map fun m => .message c m.write) ++ [.leave c] := by
  rw [C85_text h hl he hs, C62_framing, List.map_map]
  rfl

/-! ## Examples -/

/-- two clients: `"é\r\nb"` cut inside the character, then closed; and a line that is not UTF-8 -/
def stepsA : List NetworkStep :=
  [.accept, .data 1 [0xC3], .accept, .poll 1, .data 2 [97, 10, 0xFF, 10, 98, 10], .data 1 [0xA9, 13, 10, 98], .poll 2,
   .poll 1, .poll 1, .poll 2, .eof 1, .eof 1]

example : (ByteNetwork.start.run stepsA).map (fun x => (x.2, x.1.readers)) =
    some ([.join 1, .join 2, .message 2 ['a'], .message 1 ['é'], .leave 2, .message 1 ['b'], .leave 1], []) := by decide

/-- the hypotheses of `C85_over`, `C85_text` and of `C85_running` -/
example : received 1 stepsA = encode ['é', '\r', '\n', 'b'] ∧ .eof 1 ∈ stepsA ∧
    Cuts (received 2 stepsA) [[97], [0xFF], [98]] [] ∧
    (ByteNetwork.start.run (stepsA.take 7)).map (fun x => (x.2, (x.1.step (.poll 1)).isSome)) =
      some ([.join 1, .join 2, .message 2 ['a']], true) ∧
    Cuts (received 1 (stepsA.take 7)) [[0xC3, 0xA9, 13]] [98] := by
  refine ⟨by decide, by decide, ⟨by decide, by decide, by decide⟩, by decide, ⟨by decide, by decide, by decide⟩⟩

/-- the hypotheses of `C85_messages` -/
example : (ByteNetwork.start.run [.accept, .data 1 (encode (frame (.str ['a'])) ++ encode (frame (.num 3))), .poll 1,
      .poll 1, .eof 1]).map (fun x => x.2) =
    some [.join 1, .message 1 (str!"\"a\""), .message 1 ['3'], .leave 1] := by decide

end Ced.Props
