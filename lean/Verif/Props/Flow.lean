import Verif.Spec.Flow
import Verif.Props.Server

/-!
# Connections with limited room (C100)
-/

namespace Ced.Props
open Spec Flow

variable {L T : Type} {o : Ornament T} {room : Nat}

/-! ## What is on its way, and what is left -/

/-- The bytes for a client in a list of writes that are not over. -/
def leftFor (c : Nat) (todo : List Pending) : Bytes := ((todo.filter (·.client = c)).map (·.left)).flatten

theorem leftFor_nil (c : Nat) : leftFor c [] = [] := rfl

theorem leftFor_cons (c : Nat) (p : Pending) (l : List Pending) :
    leftFor c (p :: l) = if p.client = c then p.left ++ leftFor c l else leftFor c l := by
  unfold leftFor
  by_cases h : p.client = c <;> simp [List.filter_cons, h]

theorem turn_written {env : EditorEnv L} {wr last : Bool} {s s' : Server L} {ev : ServerEvent} (h : s.turn env wr ev = .ok (s', last)) :
    ∃ new, s'.written = s.written ++ new := by
  cases ev with
  | join c => exact ⟨[], by rw [C40_quiet h (by intros; simp), List.append_nil]⟩
  | leave c => exact ⟨[], by rw [C40_quiet h (by intros; simp), List.append_nil]⟩
  | message c line =>
    obtain ⟨_, _, r, _, hw⟩ := C40_response h
    exact ⟨_, hw⟩

theorem deliver_written (s : Server L) (broken : List Nat) : ∃ new, (s.deliver broken).written = s.written ++ new := by
  unfold Server.deliver
  split
  · exact ⟨[], by simp⟩
  · exact ⟨_, rfl⟩

theorem sent_news {s s' : Server L} (h : ∃ new, s'.written = s.written ++ new) (c : Nat) :
    sentTo o s' c = sentTo o s c ++ leftFor c (news o s s') := by
  obtain ⟨new, h⟩ := h
  unfold sentTo leftFor news
  rw [h, List.drop_left, List.filter_append, List.map_append, List.flatten_append]
  congr 2
  clear h
  induction new with
  | nil => rfl
  | cons x new ih => by_cases hx : x.1 = c <;> simp [hx] at ih ⊢ <;> exact ih

theorem arranged_left {todo new : List Pending} (h : Arranged todo new) (c : Nat) : leftFor c todo = leftFor c new := by
  unfold leftFor
  rw [h c]

theorem arranged_one {todo : List Pending} {p : Pending} (h : Arranged todo [p]) : todo = [p] := by
  have hall : ∀ q ∈ todo, q.client = p.client := by
    intro q hq
    have hm : q ∈ todo.filter (·.client = q.client) := List.mem_filter.2 ⟨hq, by simp⟩
    rw [h q.client] at hm
    have := List.mem_filter.1 hm
    simp at this
    rw [this]
  have h2 := h p.client
  rw [List.filter_eq_self.2 (by simpa using hall)] at h2
  rw [h2]; simp

/-! ## What the clients receive -/

/-- What holds all the time. -/
structure FlowOk (o : Ornament T) (room : Nat) (f : Flow L) : Prop where
  fits : ∀ c, (f.way c).length ≤ room
  all : ∀ c, c ∉ f.closed → f.got c ++ f.way c ++ leftFor c f.todo = sentTo o f.server c
  first : ∀ c, f.got c ++ f.way c <+: sentTo o f.server c

theorem flow_start (e : Editor L) : FlowOk o room (Flow.start e) :=
  ⟨fun _ => Nat.zero_le _, fun _ _ => rfl, fun _ => List.nil_prefix⟩

theorem flow_step {f g : Flow L} {a : Act L} (i : FlowOk o room f) (h : Step o room f a g) : FlowOk o room g := by
  cases h with
  | event _ ht hs ha =>
    have hw := sent_news (o := o) (turn_written hs)
    refine ⟨i.fits, fun c hc => ?_, fun c => ?_⟩
    · dsimp only
      rw [hw c, ← i.all c hc, ht, arranged_left ha, leftFor_nil, List.append_nil]
    · dsimp only
      rw [hw c]
      exact (i.first c).trans (List.prefix_append ..)
  | deliver _ ht ha =>
    have hw := sent_news (o := o) (deliver_written f.server [])
    refine ⟨i.fits, fun c hc => ?_, fun c => ?_⟩
    · dsimp only
      rw [hw c, ← i.all c hc, ht, arranged_left ha, leftFor_nil, List.append_nil]
    · dsimp only
      rw [hw c]
      exact (i.first c).trans (List.prefix_append ..)
  | @byte c note b bs rest ht hc hr =>
    have hall : ∀ d, d ∉ f.closed → f.got d ++ put f.way c (f.way c ++ [b]) d ++ leftFor d (⟨c, note, bs⟩ :: rest) = sentTo o f.server d := by
      intro d hd
      rw [← i.all d hd, ht, leftFor_cons, leftFor_cons]
      unfold put
      by_cases hdc : d = c
      · subst hdc; simp
      · rw [if_neg hdc, if_neg (fun h => hdc h.symm), if_neg (fun h => hdc h.symm)]
    refine ⟨fun d => ?_, hall, fun d => ?_⟩
    · show (put f.way c _ d).length ≤ room
      unfold put
      split
      · simp; omega
      · exact i.fits d
    · show f.got d ++ put f.way c (f.way c ++ [b]) d <+: sentTo o f.server d
      by_cases hd : d ∈ f.closed
      · have hdc : d ≠ c := fun h => hc (h ▸ hd)
        unfold put
        rw [if_neg hdc]
        exact i.first d
      · rw [← hall d hd]
        exact List.prefix_append ..
  | @done c note rest ht =>
    refine ⟨i.fits, fun d hd => ?_, i.first⟩
    have := i.all d hd
    rw [ht, leftFor_cons] at this
    dsimp only at this ⊢
    split at this <;> simpa using this
  | @fail c b bs rest ht hc =>
    refine ⟨i.fits, fun d hd => ?_, i.first⟩
    have := i.all d hd
    rw [ht, leftFor_cons, if_neg (by intro (h : c = d); exact hd (h ▸ hc))] at this
    exact this
  | read c n =>
    have he : ∀ d, put f.got c (f.got c ++ (f.way c).take n) d ++ put f.way c ((f.way c).drop n) d = f.got d ++ f.way d := by
      intro d
      unfold put
      split
      · rename_i h; subst h; simp
      · rfl
    refine ⟨fun d => ?_, fun d hd => ?_, fun d => ?_⟩
    · show (put f.way c _ d).length ≤ room
      unfold put
      split
      · have := i.fits c; simp; omega
      · exact i.fits d
    · dsimp only
      rw [he d]
      exact i.all d hd
    · dsimp only
      rw [he d]
      exact i.first d
  | hangUp c =>
    exact ⟨i.fits, fun d hd => i.all d (fun h => hd (List.mem_cons_of_mem _ h)), i.first⟩

theorem flow_run {f g : Flow L} {as : List (Act L)} (h : Run o room f as g) (i : FlowOk o room f) : FlowOk o room g := by
  induction h with
  | nil => exact i
  | cons hs _ ih => exact ih (flow_step i hs)

/-- C100: however much room the connections have, and whenever the clients read: what a client has read, followed by what is on
its way, is the beginning of what the server has decided to write to it; unless it has hung up, only what is being written to
it right now is missing; and no connection holds more than it has room for. -/
theorem C100_stream {e : Editor L} {as : List (Act L)} {f : Flow L} (h : Run o room (Flow.start e) as f) (c : Nat) :
    f.got c ++ f.way c <+: sentTo o f.server c ∧ (f.way c).length ≤ room ∧
    (c ∉ f.closed → (∀ p ∈ f.todo, p.client ≠ c) → f.got c ++ f.way c = sentTo o f.server c) := by
  have i := flow_run h (flow_start e)
  refine ⟨i.first c, i.fits c, fun hc hn => ?_⟩
  rw [← i.all c hc]
  have : f.todo.filter (·.client = c) = [] := List.filter_eq_nil_iff.2 (by simpa using hn)
  unfold leftFor
  rw [this]; simp

/-! ## A client that does not read -/

theorem step_idle {f g : Flow L} {a : Act L} (h : Step o room f a g) {c : Nat} (h1 : ∀ n, a ≠ .read c n) (h2 : a ≠ .hangUp c)
    (hc : c ∉ f.closed) : c ∉ g.closed ∧ g.got c = f.got c := by
  cases h with
  | read d n =>
    refine ⟨hc, ?_⟩
    show put f.got d _ c = _
    unfold put
    rw [if_neg (fun e => h1 n (by rw [e]))]
  | hangUp d =>
    refine ⟨fun h => ?_, rfl⟩
    rcases List.mem_cons.1 h with e | h
    · exact h2 (by rw [e])
    · exact hc h
  | _ => exact ⟨hc, rfl⟩

theorem idle_cons {c : Nat} {a : Act L} {as : List (Act L)} (h : Idle c (a :: as)) :
    (∀ n, a ≠ .read c n) ∧ a ≠ .hangUp c ∧ Idle c as :=
  ⟨fun n e => h.1 n (by rw [e]; simp), fun e => h.2 (by rw [e]; simp), fun n hn => h.1 n (by simp [hn]), fun hn => h.2 (by simp [hn])⟩

theorem left_of_full {f : Flow L} (i : FlowOk o room f) {c : Nat} (hc : c ∉ f.closed) (hg : f.got c = [])
    (h : room < (sentTo o f.server c).length) : f.todo ≠ [] := by
  intro ht
  have h1 := i.all c hc
  rw [hg, ht, leftFor_nil] at h1
  have h2 := i.fits c
  have := congrArg List.length h1
  simp at this
  omega

theorem idle_run {f g : Flow L} {as : List (Act L)} (hr : Run o room f as g) {c : Nat} (hi : Idle c as) (h1 : c ∉ f.closed)
    (h2 : f.got c = []) : c ∉ g.closed ∧ g.got c = [] := by
  induction hr with
  | nil => exact ⟨h1, h2⟩
  | cons hs _ ih =>
    obtain ⟨a1, a2, a3⟩ := idle_cons hi
    obtain ⟨b1, b2⟩ := step_idle hs a1 a2 h1
    exact ih a3 b1 (b2.trans h2)

/-- C100, violated: from the moment the server has decided to write more to a client than its connection has room for, and as
long as that client reads nothing and does not hang up, the server does nothing for anybody: no event is taken - no request of
any other client, nobody who comes or leaves - and no notification. -/
theorem C100_silent_refuted {e : Editor L} {as bs : List (Act L)} {f g : Flow L} (h : Run o room (Flow.start e) as f) {c : Nat}
    (hi : Idle c as) (hfull : room < (sentTo o f.server c).length) (h2 : Run o room f bs g) (hj : Idle c bs) :
    g.server = f.server ∧ g.ended = f.ended ∧ (∀ env ev, Act.event env ev ∉ bs) ∧ Act.deliver ∉ bs := by
  have i := flow_run h (flow_start e)
  have hc : c ∉ f.closed ∧ f.got c = [] := idle_run h hi (by simp [Flow.start]) rfl
  obtain ⟨hc, hg⟩ := hc
  clear h hi
  induction h2 with
  | nil => exact ⟨rfl, rfl, by simp, by simp⟩
  | cons hs _ ih =>
    obtain ⟨a1, a2, a3⟩ := idle_cons hj
    obtain ⟨b1, b2⟩ := step_idle hs a1 a2 hc
    have hne := left_of_full i hc hg hfull
    have key : ∀ {f' g' : Flow L} {a : Act L}, Step o room f' a g' → f'.todo ≠ [] →
        g'.server = f'.server ∧ g'.ended = f'.ended ∧ (∀ env ev, a ≠ Act.event env ev) ∧ a ≠ Act.deliver := by
      intro f' g' a hs hne
      cases hs with
      | event _ ht => exact absurd ht hne
      | deliver _ ht => exact absurd ht hne
      | _ => exact ⟨rfl, rfl, by simp, by simp⟩
    obtain ⟨k1, k2, k3, k4⟩ := key hs hne
    obtain ⟨j1, j2, j3, j4⟩ := ih (by rw [k1]; exact hfull) a3 (flow_step i hs) b1 (b2.trans hg)
    refine ⟨j1.trans k1, j2.trans k2, fun env ev hm => ?_, fun hm => ?_⟩
    · rcases List.mem_cons.1 hm with e | hm
      · exact k3 env ev e.symm
      · exact j3 env ev hm
    · rcases List.mem_cons.1 hm with e | hm
      · exact k4 e.symm
      · exact j4 hm

/-- each line taken adds a byte -/
theorem bytes_ne (x : Wire) : 1 ≤ (x.bytes o).length := by
  unfold Wire.bytes frame
  have : Str.encode ((x.encode o).write ++ ['\n']) = Str.encode (x.encode o).write ++ Str.encode ['\n'] := by
    unfold Str.encode; simp
  rw [this, List.length_append]
  have : (Str.encode ['\n']).length = 1 := by decide
  omega

theorem lines_sent {f g : Flow L} {as : List (Act L)} (h : Run o room f as g) (c : Nat) :
    (sentTo o f.server c).length + linesTaken c as ≤ (sentTo o g.server c).length := by
  induction h with
  | nil => simp [linesTaken]
  | @cons f g h a as hs _ ih =>
    have hone : (sentTo o f.server c).length + (linesTaken c [a]) ≤ (sentTo o g.server c).length := by
      cases hs with
      | @event env ev s last todo _ _ ht _ =>
        dsimp only
        rw [sent_news (turn_written ht) c]
        cases ev with
        | message d line =>
          by_cases hd : d = c
          · subst hd
            obtain ⟨_, _, r, _, hw⟩ := C40_response ht
            have hn : news o f.server s = [⟨d, false, Wire.bytes o (.response r)⟩] := by
              unfold news; rw [hw, List.drop_left]; rfl
            rw [hn, leftFor_cons, if_pos rfl]
            have := bytes_ne (o := o) (.response r)
            simp [linesTaken]; omega
          · simp [linesTaken, hd]
        | join d => simp [linesTaken]
        | leave d => simp [linesTaken]
      | deliver _ _ _ =>
        dsimp only
        rw [sent_news (deliver_written f.server []) c]
        simp [linesTaken]
      | _ => simp [linesTaken]
    have : linesTaken c (a :: as) = linesTaken c [a] + linesTaken c as := by
      unfold linesTaken
      rw [show a :: as = [a] ++ as from rfl, List.countP_append]
    omega

/-- C100, violated: of a client that reads nothing, the server takes at most one line more than its connection has room for in
bytes, and then stops for everybody. -/
theorem C100_lines_refuted {e : Editor L} {as : List (Act L)} {f : Flow L} (h : Run o room (Flow.start e) as f) {c : Nat}
    (hi : Idle c as) : linesTaken c as ≤ room + 1 := by
  -- the last line that is taken
  have main : ∀ {f0 : Flow L} {as : List (Act L)} {f : Flow L}, Run o room f0 as f → FlowOk o room f0 → c ∉ f0.closed → f0.got c = [] →
      Idle c as → ∀ n, n ≤ (sentTo o f0.server c).length → n ≤ room + 1 → n + linesTaken c as ≤ room + 1 := by
    intro f0 as f hr
    induction hr with
    | nil => intro _ _ _ _ n _ h; simpa [linesTaken] using h
    | @cons f g h a as hs _ ih =>
      intro i hc hg hi n hn1 hn2
      obtain ⟨a1, a2, a3⟩ := idle_cons hi
      obtain ⟨b1, b2⟩ := step_idle hs a1 a2 hc
      have hsum : linesTaken c (a :: as) = linesTaken c [a] + linesTaken c as := by
        unfold linesTaken
        rw [show a :: as = [a] ++ as from rfl, List.countP_append]
      have hl := lines_sent (Run.cons hs (Run.nil g)) c
      have := ih (flow_step i hs) b1 (b2.trans hg) a3 (n + linesTaken c [a]) (by omega) (by
        by_cases h0 : linesTaken c [a] = 0
        · omega
        · have h1 : linesTaken c [a] ≤ 1 := by unfold linesTaken; exact (List.countP_le_length ..)
          have hf : (sentTo o f.server c).length ≤ room := by
            rcases Nat.lt_or_ge room (sentTo o f.server c).length with hx | hx
            · exfalso
              have hne := left_of_full i hc hg hx
              cases hs with
              | event _ ht => exact hne ht
              | _ => simp [linesTaken] at h0
            · exact hx
          omega)
      omega
  have := main h (flow_start e) (by simp [Flow.start]) rfl hi 0 (Nat.zero_le _) (Nat.zero_le _)
  omega

/-! ## When the server waits -/

/-- C100: a server that has something to write goes on, unless it waits for a client whose connection is full, or the client
it answers has hung up (which ends it, C68). -/
theorem C100_waits (f : Flow L) (hne : f.todo ≠ []) :
    (∃ a g, Step o room f a g ∧ (a = .byte ∨ a = .done ∨ a = .fail)) ↔
      (¬ ∃ c, WaitsFor room f c) ∧ ¬ ∃ c b bs rest, f.todo = ⟨c, false, b :: bs⟩ :: rest ∧ c ∈ f.closed := by
  cases ht : f.todo with
  | nil => exact absurd ht hne
  | cons p rest =>
    obtain ⟨c, note, left⟩ := p
    constructor
    · rintro ⟨a, g, hs, ha⟩
      constructor
      · rintro ⟨d, hc, hr, note', b, bs, rest', h⟩
        rw [ht] at h; cases h
        cases hs with
        | byte h h1 h2 => rw [ht] at h; cases h; omega
        | done h => rw [ht] at h; cases h
        | fail h h1 => rw [ht] at h; cases h; exact hc h1
        | _ => simp at ha
      · rintro ⟨d, b, bs, rest', h, hc⟩
        cases h
        cases hs with
        | byte h h1 h2 => rw [ht] at h; cases h; exact h1 hc
        | done h => rw [ht] at h; cases h
        | fail h h1 => rw [ht] at h; cases h
        | _ => simp at ha
    · rintro ⟨h1, h2⟩
      cases left with
      | nil => exact ⟨_, _, .done ht, by simp⟩
      | cons b bs =>
        by_cases hc : c ∈ f.closed
        · cases note with
          | false => exact absurd ⟨c, b, bs, rest, rfl, hc⟩ h2
          | true => exact ⟨_, _, .fail ht hc, by simp⟩
        · by_cases hr : (f.way c).length < room
          · exact ⟨_, _, .byte ht hc hr, by simp⟩
          · exact absurd ⟨c, hc, by omega, note, b, bs, rest, ht⟩ h1

/-- What is being written is the rest of messages the server has decided to write; an error is only logged for notifications. -/
theorem kinds_run {f g : Flow L} {as : List (Act L)} (h : Run o room f as g)
    (hf : ∀ p ∈ f.todo, ∃ w, (p.client, w) ∈ f.server.written ∧ p.left <:+ w.bytes o ∧ p.note = (match w with | .note _ => true | .response _ => false)) :
    ∀ p ∈ g.todo, ∃ w, (p.client, w) ∈ g.server.written ∧ p.left <:+ w.bytes o ∧ p.note = (match w with | .note _ => true | .response _ => false) := by
  induction h with
  | nil => exact hf
  | @cons f g h a as hs _ ih =>
    refine ih ?_
    have fresh : ∀ {todo : List Pending} {s s' : Server L}, Arranged todo (news o s s') → ∀ p ∈ todo, ∃ w, (p.client, w) ∈ s'.written ∧
        p.left <:+ w.bytes o ∧ p.note = (match w with | .note _ => true | .response _ => false) := by
      intro todo s s' ha p hp
      have hm : p ∈ todo.filter (·.client = p.client) := List.mem_filter.2 ⟨hp, by simp⟩
      rw [ha p.client] at hm
      obtain ⟨⟨c, w⟩, hx, rfl⟩ := List.mem_map.1 (List.mem_filter.1 hm).1
      exact ⟨w, List.mem_of_mem_drop hx, List.suffix_refl _, by cases w <;> rfl⟩
    cases hs with
    | event _ _ _ ha => exact fresh ha
    | deliver _ _ ha => exact fresh ha
    | byte ht _ _ =>
      intro p hp
      rcases List.mem_cons.1 hp with rfl | hp
      · obtain ⟨w, h1, h2, h3⟩ := hf _ (by rw [ht]; exact List.mem_cons_self ..)
        exact ⟨w, h1, (List.suffix_cons ..).trans h2, h3⟩
      · exact hf p (by rw [ht]; exact List.mem_cons_of_mem _ hp)
    | done ht => exact fun p hp => hf p (by rw [ht]; exact List.mem_cons_of_mem _ hp)
    | fail ht _ => exact fun p hp => hf p (by rw [ht]; exact List.mem_cons_of_mem _ hp)
    | read => exact hf
    | hangUp => exact hf

/-- C100: what the server is writing is the rest of messages it has decided to write to these clients; when a client turns out to be
gone, this ends the server exactly for responses. -/
theorem C100_writing {e : Editor L} {as : List (Act L)} {f : Flow L} (h : Run o room (Flow.start e) as f) {p : Pending}
    (hp : p ∈ f.todo) : ∃ w, (p.client, w) ∈ f.server.written ∧ p.left <:+ w.bytes o ∧
      p.note = (match w with | .note _ => true | .response _ => false) :=
  kinds_run h (fun _ hq => (by cases hq)) p hp

/-- How many steps the writes take that are not over. -/
def toWrite (todo : List Pending) : Nat := (todo.map fun p => p.left.length + 1).sum

/-- C100: however the clients read, the writes of one step of the server take a bounded number of steps; so it goes on for ever
if it never waits for ever. -/
theorem C100_bounded {f g : Flow L} {as : List (Act L)} (h : Run o room f as g)
    (hq : ∀ a ∈ as, (∀ env ev, a ≠ .event env ev) ∧ a ≠ .deliver) :
    g.server = f.server ∧
    toWrite g.todo + as.countP (fun a => match a with | .byte => true | .done => true | .fail => true | _ => false) ≤ toWrite f.todo := by
  induction h with
  | nil => simp
  | cons hs _ ih =>
    obtain ⟨i1, i2⟩ := ih (fun a ha => hq a (List.mem_cons_of_mem _ ha))
    rw [List.countP_cons]
    cases hs with
    | event => exact absurd rfl ((hq _ (List.mem_cons_self ..)).1 _ _)
    | deliver => exact absurd rfl ((hq _ (List.mem_cons_self ..)).2)
    | byte ht => refine ⟨i1, ?_⟩; rw [ht]; simp [toWrite] at i2 ⊢; omega
    | done ht => refine ⟨i1, ?_⟩; rw [ht]; simp [toWrite] at i2 ⊢; omega
    | fail ht => refine ⟨i1, ?_⟩; rw [ht]; simp [toWrite] at i2 ⊢; omega
    | read => exact ⟨i1, by simpa using i2⟩
    | hangUp => exact ⟨i1, by simpa using i2⟩

/-- C100: if the clients read, the server gets through: with room for a byte and nobody gone, there are readings after which
all is written, and nothing else has happened. -/
theorem C100_completes (hroom : 0 < room) (f : Flow L) (hc : f.closed = []) :
    ∃ as g, Run o room f as g ∧ g.todo = [] ∧ g.server = f.server ∧ g.ended = f.ended ∧
      ∀ a ∈ as, a = .byte ∨ a = .done ∨ ∃ p ∈ f.todo, ∃ n, a = .read p.client n := by
  obtain ⟨k, hk⟩ : ∃ k, k = toWrite f.todo := ⟨_, rfl⟩
  induction k using Nat.strongRecOn generalizing f with
  | _ k ih =>
    cases ht : f.todo with
    | nil => exact ⟨[], f, .nil f, ht, rfl, rfl, by simp⟩
    | cons p rest =>
      obtain ⟨c, note, left⟩ := p
      cases left with
      | nil =>
        obtain ⟨as, g, h1, h2, h3, h4, h5⟩ := ih (toWrite rest) (by rw [hk, ht]; simp [toWrite]) { f with todo := rest } hc rfl
        refine ⟨.done :: as, g, .cons (.done ht) h1, h2, h3, h4, ?_⟩
        intro a ha
        rcases List.mem_cons.1 ha with rfl | ha
        · exact .inr (.inl rfl)
        · rcases h5 a ha with h | h | ⟨p, hp, n, h⟩
          · exact .inl h
          · exact .inr (.inl h)
          · exact .inr (.inr ⟨p, List.mem_cons_of_mem _ hp, n, h⟩)
      | cons b bs =>
        have hw : ((put f.way c ((f.way c).drop (f.way c).length)) c).length < room := by simp [put, hroom]
        let f1 : Flow L := { f with
          got := put f.got c (f.got c ++ (f.way c).take (f.way c).length), way := put f.way c ((f.way c).drop (f.way c).length) }
        have s1 : Step o room f (.read c (f.way c).length) f1 := .read c _
        have ht1 : f1.todo = ⟨c, note, b :: bs⟩ :: rest := ht
        have s2 := Step.byte (o := o) (room := room) ht1 (by show c ∉ f.closed; rw [hc]; simp) hw
        obtain ⟨as, g, h1, h2, h3, h4, h5⟩ := ih (toWrite (⟨c, note, bs⟩ :: rest)) (by rw [hk, ht]; simp [toWrite])
          { f1 with todo := ⟨c, note, bs⟩ :: rest, way := put f1.way c (f1.way c ++ [b]) } hc rfl
        refine ⟨.read c (f.way c).length :: .byte :: as, g, .cons s1 (.cons s2 h1), h2, h3, h4, ?_⟩
        intro a ha
        rcases List.mem_cons.1 ha with rfl | ha
        · exact .inr (.inr ⟨_, List.mem_cons_self .., _, rfl⟩)
        rcases List.mem_cons.1 ha with rfl | ha
        · exact .inl rfl
        · rcases h5 a ha with h | h | ⟨p, hp, n, h⟩
          · exact .inl h
          · exact .inr (.inl h)
          · rcases List.mem_cons.1 hp with rfl | hp
            · exact .inr (.inr ⟨_, List.mem_cons_self .., n, h⟩)
            · exact .inr (.inr ⟨p, List.mem_cons_of_mem _ hp, n, h⟩)

/-! ## It is the server of the other properties -/

theorem ended_stays {f g : Flow L} {as : List (Act L)} (h : Run o room f as g) (he : f.ended = true) :
    g.server = f.server ∧ g.ended = true := by
  induction h with
  | nil => exact ⟨rfl, he⟩
  | cons hs _ ih =>
    cases hs with
    | event h => rw [h] at he; cases he
    | deliver h => rw [h] at he; cases he
    | _ => exact ih he

/-- C100: what the server has decided, however slowly its clients read, it would have decided with connections that take
everything at once, from the same events and in the same order: the theorems about `Server.loop` speak about it. -/
theorem C100_same {e : Ced.Editor L} {as : List (Act L)} {f : Flow L} (h : Run o room (Flow.start e) as f) :
    (Server.start e).loop (stepsOf as) = .ok (f.server, if f.ended then some [] else none) := by
  have quiet : ∀ {f g : Flow L} {as : List (Act L)}, Run o room f as g → f.ended = true → stepsOf as = [] := by
    intro f g as h
    induction h with
    | nil => intro _; rfl
    | cons hs _ ih =>
      intro he
      cases hs with
      | event h => rw [h] at he; cases he
      | deliver h => rw [h] at he; cases he
      | _ => exact ih he
  have main : ∀ {f g : Flow L} {as : List (Act L)}, Run o room f as g → f.ended = false →
      f.server.loop (stepsOf as) = .ok (g.server, if g.ended then some [] else none) := by
    intro f g as h
    induction h with
    | nil f => intro he; simp [stepsOf, Server.loop, he]
    | @cons f g h a as hs hr ih =>
      intro he
      cases hs with
      | @event env ev s last todo _ _ ht _ =>
        show f.server.loop (.event env true ev :: stepsOf as) = _
        cases last with
        | false =>
          simp only [Server.loop, ht, bind, Except.bind, Bool.false_eq_true, if_false]
          exact ih rfl
        | true =>
          obtain ⟨e1, e2⟩ := ended_stays hr rfl
          rw [quiet hr rfl]
          simp only [Server.loop, ht, bind, Except.bind, if_true, e1, e2]
          rfl
      | deliver _ _ _ => exact ih he
      | _ => exact ih he
  exact main h rfl

theorem flow_append {f g h : Flow L} {as bs : List (Act L)} (h1 : Run o room f as g) (h2 : Run o room g bs h) :
    Run o room f (as ++ bs) h := by
  induction h1 with
  | nil => exact h2
  | cons hs _ ih => exact .cons hs (ih h2)

theorem closed_stays {f g : Flow L} {as : List (Act L)} (h : Run o room f as g) (hn : ∀ c, Act.hangUp c ∉ as) : g.closed = f.closed := by
  induction h with
  | nil => rfl
  | cons hs _ ih =>
    refine (ih fun c hc => hn c (List.mem_cons_of_mem _ hc)).trans ?_
    cases hs with
    | hangUp c => exact absurd List.mem_cons_self (hn c)
    | _ => rfl

/-- C100: and whatever the server decides with connections that take everything at once, it can decide with connections that have
room for a single byte, if the clients read: there are readings after which everything is written and a given client has read all
there is for it. -/
theorem C100_realised (hroom : 0 < room) {e : Ced.Editor L} {steps : List (Server.Step L)} {s' : Server L}
    (hs : ∀ x ∈ steps, (∃ env ev, x = .event env true ev) ∨ x = .deliver [])
    (h : (Server.start e).loop steps = .ok (s', none)) (c : Nat) :
    ∃ as f, Run o room (Flow.start e) as f ∧ stepsOf as = steps ∧ f.server = s' ∧ f.ended = false ∧ f.todo = [] ∧
      f.closed = [] ∧ f.way c = [] := by
  have quiet : ∀ {f : Flow L} {as : List (Act L)}, (∀ a ∈ as, a = .byte ∨ a = .done ∨ ∃ p ∈ f.todo, ∃ n, a = .read p.client n) →
      stepsOf as = [] ∧ ∀ c, Act.hangUp c ∉ as := by
    intro f as ha
    constructor
    · unfold stepsOf
      refine List.filterMap_eq_nil_iff.2 fun a hm => ?_
      rcases ha a hm with rfl | rfl | ⟨p, _, n, rfl⟩ <;> rfl
    · intro c hm
      rcases ha _ hm with h | h | ⟨p, _, n, h⟩ <;> cases h
  have main : ∀ {steps : List (Server.Step L)} {f : Flow L}, (∀ x ∈ steps, (∃ env ev, x = .event env true ev) ∨ x = .deliver []) →
      f.server.loop steps = .ok (s', none) → f.ended = false → f.todo = [] → f.closed = [] →
      ∃ as g, Run o room f as g ∧ stepsOf as = steps ∧ g.server = s' ∧ g.ended = false ∧ g.todo = [] ∧ g.closed = [] := by
    intro steps
    induction steps with
    | nil =>
      intro f _ h he ht hc
      cases h
      exact ⟨[], f, .nil f, rfl, rfl, he, ht, hc⟩
    | cons x steps ih =>
      intro f hs h he ht hc
      have hs' := fun y hy => hs y (List.mem_cons_of_mem _ hy)
      rcases hs x List.mem_cons_self with ⟨env, ev, rfl⟩ | rfl
      · unfold Server.loop at h
        obtain ⟨⟨s1, last⟩, h1, h⟩ := ebind_inv h
        dsimp only at h
        cases last with
        | true => rw [if_pos rfl] at h; cases h
        | false =>
          rw [if_neg (by simp)] at h
          have st : Step o room f (.event env ev) { f with server := s1, ended := false, todo := news o f.server s1 } :=
            .event he ht h1 (fun _ => rfl)
          obtain ⟨as1, g, r1, t1, e1, e2, a1⟩ := C100_completes (o := o) hroom
            { f with server := s1, ended := false, todo := news o f.server s1 } hc
          obtain ⟨q1, q2⟩ := quiet a1
          obtain ⟨as2, k, r2, u1, u2⟩ := ih (f := g) hs' (by rw [e1]; exact h) e2 t1 ((closed_stays r1 q2).trans hc)
          refine ⟨.event env ev :: (as1 ++ as2), k, .cons st (flow_append r1 r2), ?_, u2⟩
          have : stepsOf (Act.event env ev :: (as1 ++ as2)) = .event env true ev :: (stepsOf as1 ++ stepsOf as2) := by
            simp [stepsOf]
          rw [this, q1, u1]; rfl
      · have st : Step o room f .deliver { f with server := f.server.deliver [], todo := news o f.server (f.server.deliver []) } :=
          .deliver he ht (fun _ => rfl)
        obtain ⟨as1, g, r1, t1, e1, e2, a1⟩ := C100_completes (o := o) hroom
          { f with server := f.server.deliver [], todo := news o f.server (f.server.deliver []) } hc
        obtain ⟨q1, q2⟩ := quiet a1
        obtain ⟨as2, k, r2, u1, u2⟩ := ih (f := g) hs' (by rw [e1]; exact h) (e2.trans he) t1 ((closed_stays r1 q2).trans hc)
        refine ⟨.deliver :: (as1 ++ as2), k, .cons st (flow_append r1 r2), ?_, u2⟩
        have : stepsOf (Act.deliver :: (as1 ++ as2)) = .deliver [] :: (stepsOf as1 ++ stepsOf as2) := by
          simp [stepsOf]
        rw [this, q1, u1]; rfl
  obtain ⟨as, f, r1, r2, r3, r4, r5, r6⟩ := main hs (f := Flow.start e) h rfl rfl rfl
  refine ⟨as ++ [.read c (f.way c).length],
    { f with got := put f.got c (f.got c ++ (f.way c).take (f.way c).length),
             way := put f.way c ((f.way c).drop (f.way c).length) },
    flow_append r1 (.cons (.read c _) (.nil _)), ?_, r3, r4, r5, r6, ?_⟩
  · have : stepsOf (as ++ [Act.read c (f.way c).length]) = stepsOf as := by simp [stepsOf]
    rw [this, r2]
  · simp [put]

/-! ## Examples -/

/-- A step, where the clients are written to in the order of the index. -/
def tryStep (o : Ornament T) (room : Nat) (f : Flow L) : Act L → Option (Flow L)
  | .event env ev =>
    if f.ended = false ∧ f.todo = [] then
      match f.server.turn env true ev with
      | .ok (s, last) => some { f with server := s, ended := last, todo := news o f.server s }
      | .error _ => none
    else none
  | .deliver =>
    if f.ended = false ∧ f.todo = [] then
      some { f with server := f.server.deliver [], todo := news o f.server (f.server.deliver []) }
    else none
  | .byte =>
    match f.todo with
    | ⟨c, note, b :: bs⟩ :: rest =>
      if c ∉ f.closed ∧ (f.way c).length < room then
        some { f with todo := ⟨c, note, bs⟩ :: rest, way := put f.way c (f.way c ++ [b]) }
      else none
    | _ => none
  | .done =>
    match f.todo with
    | ⟨_, _, []⟩ :: rest => some { f with todo := rest }
    | _ => none
  | .fail =>
    match f.todo with
    | ⟨c, true, _ :: _⟩ :: rest => if c ∈ f.closed then some { f with todo := rest } else none
    | _ => none
  | .read c n => some { f with
      got := put f.got c (f.got c ++ (f.way c).take n), way := put f.way c ((f.way c).drop n) }
  | .hangUp c => some { f with closed := c :: f.closed }

def tryRun (o : Ornament T) (room : Nat) : List (Act L) → Flow L → Option (Flow L)
  | [], f => some f
  | a :: as, f => (tryStep o room f a).bind (tryRun o room as)

theorem tryStep_ok {f g : Flow L} {a : Act L} (h : tryStep o room f a = some g) : Step o room f a g := by
  cases a with
  | event env ev =>
    simp only [tryStep] at h
    split at h
    · rename_i hc
      split at h
      · rename_i s last ht
        cases h
        exact .event hc.1 hc.2 ht (fun _ => rfl)
      · cases h
    · cases h
  | deliver =>
    simp only [tryStep] at h
    split at h
    · rename_i hc
      cases h
      exact .deliver hc.1 hc.2 (fun _ => rfl)
    · cases h
  | byte =>
    simp only [tryStep] at h
    split at h
    · rename_i c note b bs rest ht
      split at h
      · rename_i hc
        cases h
        exact .byte ht hc.1 hc.2
      · cases h
    · cases h
  | done =>
    simp only [tryStep] at h
    split at h
    · rename_i c note rest ht
      cases h
      exact .done ht
    · cases h
  | fail =>
    simp only [tryStep] at h
    split at h
    · rename_i c b bs rest ht
      split at h
      · rename_i hc
        cases h
        exact .fail ht hc
      · cases h
    · cases h
  | read c n => cases h; exact .read c n
  | hangUp c => cases h; exact .hangUp c

theorem tryRun_ok {as : List (Act L)} : ∀ {f g : Flow L}, tryRun o room as f = some g → Run o room f as g := by
  induction as with
  | nil => intro f g h; cases h; exact .nil f
  | cons a as ih =>
    intro f g h
    unfold tryRun at h
    cases hs : tryStep o room f a with
    | none => rw [hs] at h; cases h
    | some f1 => rw [hs] at h; exact .cons (tryStep_ok hs) (ih h)

/-- no decoration at all -/
def bareO : Ornament Str where
  faced s _ := s
  fragments l := l.flatMap Prod.fst
  decorated _ := []
  encode s := .str s
  decode | .str s => some s | _ => none

/-- two clients join, and the second one sends a line; after eight bytes of the answer its connection is full -/
def stuckActs : List (Act Unit) :=
  [.event editorEnvA (.join 1), .event editorEnvA (.join 2), .event editorEnvA (.message 2 editLine),
    .byte, .byte, .byte, .byte, .byte, .byte, .byte, .byte]

/-- ... and then it reads, and the server goes on -/
def freedActs : List (Act Unit) := stuckActs ++ [.read 1 3, .read 2 5, .byte, .byte, .byte]

/-- the state of the second client: on its way, read, and how much is left of the write to it -/
def glance (f : Flow Unit) : Nat × Nat × Nat × List Nat :=
  ((f.way 2).length, (f.got 2).length, (leftFor 2 f.todo).length, f.todo.map (·.client))

theorem stuck_glance : (tryRun bareO 8 stuckActs (Flow.start emptyEditor)).map glance = some (8, 0, 31, [2]) := by
  decide +kernel
example : (tryRun bareO 8 freedActs (Flow.start emptyEditor)).map glance = some (6, 5, 28, [2]) := by
  decide +kernel

/-- the hypotheses of `C100_silent_refuted` are met: the server waits for the second client, with 31 bytes to go, and the
first one can say what it likes -/
theorem flow_example : ∃ f : Flow Unit, Run bareO 8 (Flow.start emptyEditor) stuckActs f ∧
    Idle 2 stuckActs ∧ WaitsFor 8 f 2 ∧ 8 < (sentTo bareO f.server 2).length ∧ linesTaken 2 stuckActs = 1 := by
  have h := stuck_glance
  have hidle : Idle 2 stuckActs := by
    constructor
    · intro n; simp [stuckActs]
    · simp [stuckActs]
  cases hr : tryRun bareO 8 stuckActs (Flow.start emptyEditor) with
  | none => rw [hr] at h; cases h
  | some f =>
    rw [hr] at h
    simp only [glance, Option.map_some, Option.some.injEq, Prod.mk.injEq] at h
    obtain ⟨h1, h2, h3, h4⟩ := h
    have hrun := tryRun_ok hr
    have i := flow_run hrun (flow_start emptyEditor)
    have hc : (2 : Nat) ∉ f.closed ∧ f.got 2 = [] := idle_run hrun hidle (by simp [Flow.start]) rfl
    refine ⟨f, hrun, hidle, ⟨hc.1, by omega, ?_⟩, ?_, rfl⟩
    · cases ht : f.todo with
      | nil => rw [ht] at h4; cases h4
      | cons p rest =>
        obtain ⟨c, note, left⟩ := p
        rw [ht] at h4
        simp only [List.map_cons, List.cons.injEq, List.map_eq_nil_iff] at h4
        obtain ⟨rfl, rfl⟩ := h4
        rw [ht, leftFor_cons, if_pos rfl, leftFor_nil, List.append_nil] at h3
        cases left with
        | nil => cases h3
        | cons b bs => exact ⟨note, b, bs, [], rfl⟩
    · have := congrArg List.length (i.all 2 hc.1)
      simp only [List.length_append] at this
      omega

end Ced.Props
