import Verif.Proofs.Reader

/-! Auxiliary lemmas: the readers of the server, step by step. -/

namespace Ced
open Spec

/-- What is known of a connection: its reader, the bytes that arrived, its events, and whether it was closed or lost. -/
def ConnInv (c : Nat) (r : Option Lines) (bytes : Bytes) (evs : List ServerEvent) (eof reset : Prop) : Prop :=
  match r with
  | some l => ∃ lines ts, (∀ x ∈ lines, (10 : UInt8) ∉ x) ∧ Hears lines ts false ∧ ¬ reset ∧
      ((l.ended = false ∧ ¬ eof ∧ (10 : UInt8) ∉ l.acc ∧ bytes = lines.flatMap (· ++ [10]) ++ (l.acc ++ l.buf) ∧
          evs = .join c :: ts.map (.message c)) ∨
        (l.ended = true ∧ eof ∧ l.acc = [] ∧ l.buf = [] ∧ ∃ t, encode t ≠ [] ∧ (10 : UInt8) ∉ encode t ∧
          bytes = lines.flatMap (· ++ [10]) ++ encode t ∧ evs = .join c :: (ts ++ [t]).map (.message c)))
  | none => ∃ ts lines rest, evs = .join c :: ts.map (.message c) ++ [.leave c] ∧ Cuts bytes lines rest ∧
      (Hears lines ts true ∨
       (eof ∧ ∃ ts0 last, Hears lines ts0 false ∧ HearsLast rest last ∧ ts = ts0 ++ last) ∨
       (reset ∧ ¬ eof ∧ Hears lines ts false))

/-- What is known of all of them. -/
structure NetInv (steps : List NetworkStep) (evs : List ServerEvent) (n : ByteNetwork) : Prop where
  next : 1 ≤ n.next
  unknown : ∀ c, c = 0 ∨ n.next ≤ c → n.readers.get c = none ∧ eventsFrom c evs = [] ∧ received c steps = [] ∧
    NetworkStep.eof c ∉ steps ∧ NetworkStep.reset c ∉ steps
  known : ∀ c, 1 ≤ c → c < n.next →
    ConnInv c (n.readers.get c) (received c steps) (eventsFrom c evs) (.eof c ∈ steps) (.reset c ∈ steps)

theorem received_append (c : Nat) (a b : List NetworkStep) : received c (a ++ b) = received c a ++ received c b := by
  simp [received]

theorem eventsFrom_append (c : Nat) (a b : List ServerEvent) :
    eventsFrom c (a ++ b) = eventsFrom c a ++ eventsFrom c b := by
  simp [eventsFrom]

theorem netInv_start : NetInv [] [] ByteNetwork.start :=
  ⟨Nat.le_refl _, fun c _ => ⟨rfl, rfl, rfl, by simp, by simp⟩,
    fun c h1 h2 => by have : c < 1 := h2; omega⟩

/-- The connection a step is about. -/
def stepClient (n : ByteNetwork) : NetworkStep → Nat
  | .accept => n.next
  | .data c _ => c
  | .poll c => c
  | .eof c => c
  | .reset c => c

theorem item_next (n : ByteNetwork) (c : Nat) (x : Lines × Option (Option Str)) : (n.item c x).1.next = n.next := by
  obtain ⟨l, _ | _ | _⟩ := x <;> rfl

theorem item_other {n : ByteNetwork} {c d : Nat} (hd : d ≠ c) (x : Lines × Option (Option Str)) :
    (n.item c x).1.readers.get d = n.readers.get d ∧ eventsFrom d (n.item c x).2 = [] := by
  have hcd : c ≠ d := fun e => hd e.symm
  obtain ⟨l, _ | _ | _⟩ := x
  · exact ⟨Assoc.get_set_ne _ hd, rfl⟩
  · exact ⟨Assoc.get_del_ne hd, by simp [ByteNetwork.item, eventsFrom, clientOf, hcd]⟩
  · exact ⟨Assoc.get_set_ne _ hd, by simp [ByteNetwork.item, eventsFrom, clientOf, hcd]⟩

/-- A step does not touch the other connections. -/
theorem step_other {n n' : ByteNetwork} {s : NetworkStep} {evs : List ServerEvent} (h : n.step s = some (n', evs))
    {d : Nat} (hd : d ≠ stepClient n s) :
    n'.readers.get d = n.readers.get d ∧ eventsFrom d evs = [] ∧ received d [s] = [] ∧
      .eof d ≠ s ∧ .reset d ≠ s := by
  have hd' : stepClient n s ≠ d := fun e => hd e.symm
  cases s with
  | accept =>
    cases h
    exact ⟨Assoc.get_set_ne _ hd, by simp only [stepClient] at hd'; simp [eventsFrom, clientOf, hd'], rfl, by simp, by simp⟩
  | data c chunk =>
    simp only [ByteNetwork.step] at h
    simp only [stepClient] at hd hd'
    split at h
    · split at h
      · cases h
        exact ⟨Assoc.get_set_ne _ hd, rfl, by simp [received, hd'], by simp, by simp⟩
      · cases h
    · cases h
  | poll c =>
    simp only [ByteNetwork.step] at h
    simp only [stepClient] at hd hd'
    split at h
    · split at h
      · cases h
      · rename_i l _ _
        have h0 := item_other (n := n) hd l.poll
        rw [Option.some.inj h] at h0
        exact ⟨h0.1, h0.2, rfl, by simp, by simp⟩
    · cases h
  | eof c =>
    simp only [ByteNetwork.step] at h
    simp only [stepClient] at hd hd'
    split at h
    · split at h
      · split at h
        · cases h
          exact ⟨Assoc.get_del_ne hd, by simp [eventsFrom, clientOf, hd'], rfl, by simpa using hd, by simp⟩
        · rename_i l _ _ _
          have h0 := item_other (n := n) hd l.finish
          rw [Option.some.inj h] at h0
          exact ⟨h0.1, h0.2, rfl, by simpa using hd, by simp⟩
      · cases h
    · cases h
  | reset c =>
    simp only [ByteNetwork.step] at h
    simp only [stepClient] at hd hd'
    split at h
    · split at h
      · cases h
        exact ⟨Assoc.get_del_ne hd, by simp [eventsFrom, clientOf, hd'], rfl, by simp, by simpa using hd⟩
      · cases h
    · cases h

theorem step_next {n n' : ByteNetwork} {s : NetworkStep} {evs : List ServerEvent} (h : n.step s = some (n', evs)) :
    n'.next = if s = .accept then n.next + 1 else n.next := by
  cases s with
  | accept => cases h; rfl
  | data c chunk =>
    simp only [ByteNetwork.step] at h
    split at h
    · split at h
      · cases h; rfl
      · cases h
    · cases h
  | poll c =>
    simp only [ByteNetwork.step] at h
    split at h
    · split at h
      · cases h
      · rename_i l _ _
        have h0 := item_next n c l.poll
        rw [Option.some.inj h] at h0; exact h0
    · cases h
  | eof c =>
    simp only [ByteNetwork.step] at h
    split at h
    · split at h
      · split at h
        · cases h; rfl
        · rename_i l _ _ _
          have h0 := item_next n c l.finish
          rw [Option.some.inj h] at h0; exact h0
      · cases h
    · cases h
  | reset c =>
    simp only [ByteNetwork.step] at h
    split at h
    · split at h
      · cases h; rfl
      · cases h
    · cases h

/-- The connection of a step, except when it is accepted, is known. -/
theorem step_known {n n' : ByteNetwork} {s : NetworkStep} {evs : List ServerEvent} (h : n.step s = some (n', evs))
    (ha : s ≠ .accept) : ∃ l, n.readers.get (stepClient n s) = some l := by
  cases s with
  | accept => exact absurd rfl ha
  | data c chunk =>
    simp only [ByteNetwork.step] at h
    split at h
    · rename_i l hl; exact ⟨l, hl⟩
    · cases h
  | poll c =>
    simp only [ByteNetwork.step] at h
    split at h
    · rename_i l hl; exact ⟨l, hl⟩
    · cases h
  | eof c =>
    simp only [ByteNetwork.step] at h
    split at h
    · rename_i l hl; exact ⟨l, hl⟩
    · cases h
  | reset c =>
    simp only [ByteNetwork.step] at h
    split at h
    · rename_i l hl; exact ⟨l, hl⟩
    · cases h

theorem eventsFrom_self (c : Nat) (l : Str) : eventsFrom c [.message c l] = [.message c l] ∧
    eventsFrom c [.leave c] = [.leave c] ∧ eventsFrom c [.join c] = [.join c] := by
  simp [eventsFrom, clientOf]

theorem hears_snoc {lines : List Bytes} {ts : List Str} (h : Hears lines ts false) {raw : Bytes} {t : Str}
    (ht : LineText raw t) : Hears (lines ++ [raw]) (ts ++ [t]) false := hears_append h (.line ht .all)

theorem ended_false {l : Lines} (h : l.ended = true) (h' : l.ended = false) : False := by rw [h] at h'; cases h'

/-- A step keeps what is known of its own connection. -/
theorem step_self {n n' : ByteNetwork} {s : NetworkStep} {evs evs0 : List ServerEvent} {steps : List NetworkStep}
    (h : n.step s = some (n', evs)) (ha : s ≠ .accept)
    (hi : ConnInv (stepClient n s) (n.readers.get (stepClient n s)) (received (stepClient n s) steps)
      (eventsFrom (stepClient n s) evs0) (.eof (stepClient n s) ∈ steps) (.reset (stepClient n s) ∈ steps)) :
    ConnInv (stepClient n s) (n'.readers.get (stepClient n s)) (received (stepClient n s) (steps ++ [s]))
      (eventsFrom (stepClient n s) (evs0 ++ evs)) (.eof (stepClient n s) ∈ steps ++ [s])
      (.reset (stepClient n s) ∈ steps ++ [s]) := by
  rw [received_append, eventsFrom_append]
  cases s with
  | accept => exact absurd rfl ha
  | data c chunk =>
    simp only [ByteNetwork.step] at h
    simp only [stepClient] at hi ⊢
    split at h
    · rename_i l hl
      split at h
      · rename_i hc
        cases h
        rw [hl] at hi
        obtain ⟨lines, ts, h1, h2, h3, h4 | h4⟩ := hi
        · obtain ⟨e1, e2, e3, e4, e5⟩ := h4
          simp only [Assoc.get_set_self]
          refine ⟨lines, ts, h1, h2, by simpa using h3, .inl ⟨e1, by simpa using e2, e3, ?_, ?_⟩⟩
          · rw [e4, hc.1]; simp [received]
          · rw [e5]; simp [eventsFrom]
        · exact absurd hc.2.2 (fun e => ended_false h4.1 e)
      · cases h
    · cases h
  | poll c =>
    simp only [ByteNetwork.step] at h
    simp only [stepClient] at hi ⊢
    split at h
    · rename_i l hl
      split at h
      · cases h
      · rename_i hc
        rw [hl] at hi
        obtain ⟨lines, ts, h1, h2, h3, h4 | h4⟩ := hi
        · obtain ⟨e1, e2, e3, e4, e5⟩ := h4
          have hrec : received c [NetworkStep.poll c] = [] := rfl
          rw [hrec, List.append_nil]
          have he : (NetworkStep.eof c ∈ steps ++ [.poll c]) = (NetworkStep.eof c ∈ steps) := by simp
          have hr : (NetworkStep.reset c ∈ steps ++ [.poll c]) = (NetworkStep.reset c ∈ steps) := by simp
          rw [he, hr]
          unfold Lines.poll at h
          rcases findIdx_newline (s := l.buf) with ⟨i, hi, a, b, hab, rfl, ha'⟩ | ⟨hi, ha'⟩
          · rw [hi] at h
            simp only at h
            have ht : l.buf.take (a.length + 1) = a ++ [10] := by
              rw [hab, List.take_length_add_append]; rfl
            have hdr : l.buf.drop (a.length + 1) = b := by
              rw [hab, List.drop_length_add_append]; rfl
            rw [ht, hdr, ← List.append_assoc] at h
            have hraw : (10 : UInt8) ∉ l.acc ++ a := by
              simp only [List.mem_append, not_or]; exact ⟨e3, ha'⟩
            have hb : received c steps = (lines ++ [l.acc ++ a]).flatMap (· ++ [10]) ++ b := by
              rw [e4, hab]; simp
            have hw : ∀ x ∈ lines ++ [l.acc ++ a], (10 : UInt8) ∉ x := by
              intro x hx
              rcases List.mem_append.1 hx with hx | hx
              · exact h1 x hx
              · rw [List.mem_singleton.1 hx]; exact hraw
            rcases lineItem_line (l.acc ++ a) with ⟨t, ht1, ht2⟩ | ⟨ht1, ht2⟩
            · rw [ht1] at h
              cases h
              simp only [ByteNetwork.item, Assoc.get_set_self]
              refine ⟨lines ++ [l.acc ++ a], ts ++ [t], hw, hears_snoc h2 ht2, h3, .inl ⟨e1, e2, by simp, ?_, ?_⟩⟩
              · rw [hb]; simp
              · rw [e5, (eventsFrom_self c t).1]; simp
            · rw [ht1] at h
              cases h
              simp only [ByteNetwork.item, Assoc.get_del_self]
              obtain ⟨m, r, hm⟩ := cuts_exists b
              refine ⟨ts, lines ++ [l.acc ++ a] ++ m, r, by rw [e5, (eventsFrom_self c []).2.1], ?_, .inl ?_⟩
              · rw [hb]; exact cuts_append hw hm
              · rw [List.append_assoc]
                have := hears_append h2 (Hears.bad (lines := m) ht2)
                simpa using this
          · rw [hi] at h
            cases h
            simp only [ByteNetwork.item, Assoc.get_set_self]
            refine ⟨lines, ts, h1, h2, h3, .inl ⟨e1, e2, ?_, ?_, ?_⟩⟩
            · simp only [List.mem_append, not_or]; exact ⟨e3, ha'⟩
            · rw [e4]; simp
            · rw [e5]; simp [eventsFrom]
        · exact absurd h4.2.2.2.1 hc
    · cases h
  | eof c =>
    simp only [ByteNetwork.step] at h
    simp only [stepClient] at hi ⊢
    split at h
    · rename_i l hl
      have hrec : received c [NetworkStep.eof c] = [] := rfl
      rw [hrec, List.append_nil]
      have he : (NetworkStep.eof c ∈ steps ++ [.eof c]) = True := by simp
      have hr : (NetworkStep.reset c ∈ steps ++ [.eof c]) = (NetworkStep.reset c ∈ steps) := by simp
      rw [he, hr]
      rw [hl] at hi
      obtain ⟨lines, ts, h1, h2, h3, h4 | h4⟩ := hi
      · obtain ⟨e1, e2, e3, e4, e5⟩ := h4
        split at h
        · rename_i hbuf
          have hcut : Cuts (received c steps) lines l.acc := ⟨by rw [e4, hbuf]; simp, h1, e3⟩
          split at h
          · rename_i hacc
            cases h
            simp only [Assoc.get_del_self]
            refine ⟨ts, lines, [], by rw [e5, (eventsFrom_self c []).2.1], by rw [← hacc]; exact hcut, .inr (.inl ⟨trivial, ts, [], h2, .inl ⟨rfl, rfl⟩, by simp⟩)⟩
          · rename_i hacc
            simp only [Lines.finish, if_neg hacc] at h
            rcases lineItem_last e3 with ⟨t, ht1, ht2⟩ | ⟨ht1, ht2⟩
            · rw [ht1] at h
              cases h
              simp only [ByteNetwork.item, Assoc.get_set_self]
              refine ⟨lines, ts, h1, h2, h3, .inr ⟨rfl, trivial, rfl, hbuf, t, by rw [← ht2]; exact hacc,
                by rw [← ht2]; exact e3, by rw [← ht2, hcut.bytes], ?_⟩⟩
              rw [e5, (eventsFrom_self c t).1]; simp
            · rw [ht1] at h
              cases h
              simp only [ByteNetwork.item, Assoc.get_del_self]
              exact ⟨ts, lines, l.acc, by rw [e5, (eventsFrom_self c []).2.1], hcut,
                .inr (.inl ⟨trivial, ts, [], h2, .inr (.inr ⟨ht2, rfl⟩), by simp⟩)⟩
        · cases h
      · obtain ⟨e1, e2, e3, e4, t, e5, e6, e7, e8⟩ := h4
        rw [if_pos e4, if_pos e3] at h
        cases h
        simp only [Assoc.get_del_self]
        exact ⟨ts ++ [t], lines, encode t, by rw [e8, (eventsFrom_self c []).2.1], ⟨e7, h1, e6⟩,
          .inr (.inl ⟨trivial, ts, [t], h2, .inr (.inl ⟨e5, t, rfl, rfl⟩), rfl⟩)⟩
    · cases h
  | reset c =>
    simp only [ByteNetwork.step] at h
    simp only [stepClient] at hi ⊢
    split at h
    · rename_i l hl
      have hrec : received c [NetworkStep.reset c] = [] := rfl
      rw [hrec, List.append_nil]
      have he : (NetworkStep.eof c ∈ steps ++ [.reset c]) = (NetworkStep.eof c ∈ steps) := by simp
      have hr : (NetworkStep.reset c ∈ steps ++ [.reset c]) = True := by simp
      rw [he, hr]
      rw [hl] at hi
      split at h
      · rename_i hbuf
        cases h
        simp only [Assoc.get_del_self]
        obtain ⟨lines, ts, h1, h2, h3, h4 | h4⟩ := hi
        · obtain ⟨e1, e2, e3, e4, e5⟩ := h4
          exact ⟨ts, lines, l.acc, by rw [e5, (eventsFrom_self c []).2.1], ⟨by rw [e4, hbuf]; simp, h1, e3⟩,
            .inr (.inr ⟨trivial, e2, h2⟩)⟩
        · obtain ⟨e1, e2, e3, e4, t, e5, e6, e7, e8⟩ := h4
          exact ⟨ts ++ [t], lines, encode t, by rw [e8, (eventsFrom_self c []).2.1], ⟨e7, h1, e6⟩,
            .inr (.inl ⟨e2, ts, [t], h2, .inr (.inl ⟨e5, t, rfl, rfl⟩), rfl⟩)⟩
      · cases h
    · cases h

/-- A step keeps what is known. -/
theorem netInv_step {steps : List NetworkStep} {evs evs' : List ServerEvent} {n n' : ByteNetwork} {s : NetworkStep}
    (i : NetInv steps evs n) (h : n.step s = some (n', evs')) : NetInv (steps ++ [s]) (evs ++ evs') n' := by
  have hnext := step_next h
  have hle : n.next ≤ n'.next := by rw [hnext]; split <;> omega
  refine ⟨Nat.le_trans i.next hle, fun c hc => ?_, fun c h1 h2 => ?_⟩
  · have hne : c ≠ stepClient n s := by
      by_cases ha : s = .accept
      · subst ha
        rw [if_pos rfl] at hnext
        have := i.next
        simp only [stepClient]; omega
      · rintro rfl
        obtain ⟨l, hl⟩ := step_known h ha
        have : n.readers.get (stepClient n s) = none := (i.unknown _ (by omega)).1
        rw [hl] at this; cases this
    obtain ⟨a1, a2, a3, a4, a5⟩ := i.unknown c (by omega)
    obtain ⟨b1, b2, b3, b4, b5⟩ := step_other h hne
    refine ⟨by rw [b1, a1], by rw [eventsFrom_append, a2, b2]; rfl, by rw [received_append, a3, b3]; rfl, ?_, ?_⟩
    · simp only [List.mem_append, List.mem_singleton, not_or]; exact ⟨a4, b4⟩
    · simp only [List.mem_append, List.mem_singleton, not_or]; exact ⟨a5, b5⟩
  · by_cases hne : c = stepClient n s
    · by_cases ha : s = .accept
      · subst ha
        cases h
        simp only [stepClient] at hne
        subst hne
        obtain ⟨a1, a2, a3, a4, a5⟩ := i.unknown n.next (by omega)
        simp only [Assoc.get_set_self]
        refine ⟨[], [], by simp, .all, by simpa using a5, .inl ⟨rfl, by simpa using a4, by simp [Lines.new], ?_, ?_⟩⟩
        · rw [received_append, a3]; rfl
        · rw [eventsFrom_append, a2, (eventsFrom_self n.next []).2.2]; rfl
      · subst hne
        rw [hnext, if_neg ha] at h2
        exact step_self h ha (i.known _ h1 h2)
    · obtain ⟨b1, b2, b3, b4, b5⟩ := step_other h hne
      have h2' : c < n.next := by
        rw [hnext] at h2
        split at h2
        · rename_i ha; subst ha; simp only [stepClient] at hne; omega
        · exact h2
      rw [b1, eventsFrom_append, b2, received_append, b3, List.append_nil, List.append_nil]
      have he : (NetworkStep.eof c ∈ steps ++ [s]) = (NetworkStep.eof c ∈ steps) := by simp [b4]
      have hr : (NetworkStep.reset c ∈ steps ++ [s]) = (NetworkStep.reset c ∈ steps) := by simp [b5]
      rw [he, hr]
      exact i.known c h1 h2'

theorem run_cons {n n' : ByteNetwork} {s : NetworkStep} {steps : List NetworkStep} {evs : List ServerEvent}
    (h : n.run (s :: steps) = some (n', evs)) :
    ∃ n1 e1 e2, n.step s = some (n1, e1) ∧ n1.run steps = some (n', e2) ∧ evs = e1 ++ e2 := by
  rw [ByteNetwork.run] at h
  split at h
  · cases h
  · rename_i n1 e1 h1
    split at h
    · cases h
    · rename_i n2 e2 h2
      cases h
      exact ⟨n1, e1, e2, h1, h2, rfl⟩

theorem netInv_run {steps pre : List NetworkStep} {evs evs' : List ServerEvent} {n n' : ByteNetwork}
    (i : NetInv pre evs n) (h : n.run steps = some (n', evs')) : NetInv (pre ++ steps) (evs ++ evs') n' := by
  induction steps generalizing pre evs evs' n with
  | nil => cases h; simpa using i
  | cons s steps ih =>
    obtain ⟨n1, e1, e2, h1, h2, rfl⟩ := run_cons h
    have := ih (netInv_step i h1) h2
    simpa using this

end Ced
