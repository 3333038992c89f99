import Verif.Spec.GlassUser
import Verif.Props.GlassMenu
import Verif.Props.TuiMenu
import Verif.Props.UserTerminal
import Verif.Props.Agree

/-! # C109: what a user reads on the terminal, from the start of a session on -/

namespace Ced.Props
open Spec Scripts Tui Glass

variable {T : Type} {o : Ornament T} {p : Paint T} {parse : Str → Option Json} {errText : Str → Str}

/-- The rows above the status line read as those of a view: from the top on, the last ones when there are more than the screen has, and
nothing below them. -/
def ReadsView (p : Paint T) (g : Glass) (view : List (RemoteItem T)) : Prop :=
  ∀ y, y + 1 < g.height →
    match (drawn g.height (rowsOf view))[(drawn g.height (rowsOf view)).length - g.height + y]? with
      | some r => ReadsRow p g y r
      | none => Reads g y [] false

theorem readsView_row {g : Glass} {view : List (RemoteItem T)} (h : ReadsView p g view) {y : Nat} (hy : y + 1 < g.height) {r : Row T}
    (hr : (drawn g.height (rowsOf view))[(drawn g.height (rowsOf view)).length - g.height + y]? = some r) : ReadsRow p g y r := by
  have := h y hy
  rw [hr] at this
  exact this

/-- A header that is read. -/
theorem reads_header {g : Glass} {y : Nat} {b : Str} {n m : Nat} (h : ReadsRow p g y (.header b n m)) :
    Reads g y (rowText p g.width (.header b n m)) false := by
  obtain ⟨l, ⟨_, rfl⟩, h2⟩ := h
  intro x hx
  rw [h2 x hx, List.getElem?_map]
  split
  · rename_i h; rw [List.getElem?_eq_getElem h]; rfl
  · rename_i h; rw [List.getElem?_eq_none (by omega)]; rfl

theorem reads_letters {g : Glass} {y : Nat} {s : Str} {rev : Bool} (h : Reads g y s rev) : ReadsLetters g y s := by
  intro x hx
  rw [h x hx]
  split
  · rename_i h; rw [List.getElem?_eq_getElem h]; rfl
  · rename_i h; rw [List.getElem?_eq_none (by omega)]; rfl

/-- The last row begins with the status line, in reversed video. -/
def ReadsStatus (p : Paint T) (g : Glass) (s : ConnectionState T) : Prop :=
  ∀ x c, (lastLine p g.width s)[x]? = some c → g.cells (g.height - 1) x = ⟨c, true⟩


/-- A menu is read: in the first row its title and what was typed, in reversed video, then one entry per row, of which the last
column is not shown, with the selected one in reversed video, up to the end of its first match; the last row may be the status line. -/
def ReadsMenu (p : Paint T) (g : Glass) (m : RemoteMenu T) : Prop :=
  (1 < g.height → Reads g 0 ((m.title ++ str!":" ++ m.search ++ List.replicate g.width ' ').take g.width) true) ∧
  ∀ i, i + 2 < g.height → match m.entries[i]? with
    | some e => ∃ l, EntryLook p g.width (decide (i = m.selected)) e.text l ∧
        ∀ x < g.width, g.cells (i + 1) x = ((l.take (g.width - 1))[x]?).getD .blank
    | none => Reads g (i + 1) [] false

namespace C109

/-- The sizes that wait are sizes. -/
def Calm (q : List (Event T)) : Prop := ∀ e ∈ q, ∀ w h, e = .resize w h → 0 < w ∧ 0 < h ∧ h ≤ 65535

/-- The size after an event, and after several. -/
def nextSize (s : Nat × Nat) : Event T → Nat × Nat
  | .resize w h => (w, h)
  | _ => s

def queueSize (s : Nat × Nat) (q : List (Event T)) : Nat × Nat := q.foldl nextSize s

/-- No other size is waiting. -/
def Still (s : Nat × Nat) (q : List (Event T)) : Prop := ∀ w h, .resize w h ∈ q → (w, h) = s

theorem still_last {s : Nat × Nat} {q : List (Event T)} (h : Still s q) : queueSize s q = s := by
  induction q with
  | nil => rfl
  | cons e q ih =>
    have e1 : nextSize s e = s := by
      cases e with
      | resize w h' => exact h w h' List.mem_cons_self
      | _ => rfl
    show queueSize (nextSize s e) q = s
    rw [e1]
    exact ih fun w h' hm => h w h' (List.mem_cons_of_mem _ hm)

abbrev sizeOf' (t : Term T) : Nat × Nat := (t.width, t.height)

/-- No hint is waiting. -/
def NoHint (q : List (Event T)) : Prop := ∀ h, .drawHint h ∉ q

/-- What the glass shows, `q` being what waits. -/
def Agrees (p : Paint T) (t : Term T) (q : List (Event T)) (g : Glass) : Prop :=
  match t.connection.state.menu with
  | some m => ReadsMenu p g m
  | none => t.connection.state.view = [] ∨
      ReadsView p g t.connection.state.view ∧ (.drawStatus ∈ q ∨ ReadsStatus p g t.connection.state)

theorem agrees_menu {t : Term T} {q : List (Event T)} {g : Glass} {m : RemoteMenu T} (hm : t.connection.state.menu = some m) :
    Agrees p t q g ↔ ReadsMenu p g m := by unfold Agrees; rw [hm]

theorem agrees_view {t : Term T} {q : List (Event T)} {g : Glass} (hm : t.connection.state.menu = none) :
    Agrees p t q g ↔ t.connection.state.view = [] ∨
      ReadsView p g t.connection.state.view ∧ (.drawStatus ∈ q ∨ ReadsStatus p g t.connection.state) := by unfold Agrees; rw [hm]

/-- The glass shows the terminal, or will when the events that wait are treated, unless a hint is left. -/
def Shown (p : Paint T) (left : Bool) (a : App T) (g : Glass) : Prop :=
  match a.term.connection.state.menu with
  | some m => (∃ q1 q2, a.queue = q1 ++ .drawMenu m :: q2 ∧ (∀ k, .input k ∈ q1 → ¬ Decides k) ∧ NoneWaits q2 ∧ (left = true ∨ NoHint q2)) ∨
      NoneWaits a.queue ∧ (left = true ∨ NoHint a.queue ∧ (Still (sizeOf' a.term) a.queue → Agrees p a.term a.queue g))
  | none => (∀ m, .drawMenu m ∉ a.queue) ∧
      (left = true ∨ (∃ q1 q2, a.queue = q1 ++ .drawView :: q2 ∧ NoHint q2) ∨ NoHint a.queue ∧ (Still (sizeOf' a.term) a.queue → Agrees p a.term a.queue g))

theorem shown_menu {left : Bool} {a : App T} {g : Glass} {m : RemoteMenu T} (hm : a.term.connection.state.menu = some m) :
    Shown p left a g ↔
      (∃ q1 q2, a.queue = q1 ++ .drawMenu m :: q2 ∧ (∀ k, .input k ∈ q1 → ¬ Decides k) ∧ NoneWaits q2 ∧ (left = true ∨ NoHint q2)) ∨
      NoneWaits a.queue ∧ (left = true ∨ NoHint a.queue ∧ (Still (sizeOf' a.term) a.queue → Agrees p a.term a.queue g)) := by unfold Shown; rw [hm]

theorem shown_view {left : Bool} {a : App T} {g : Glass} (hm : a.term.connection.state.menu = none) :
    Shown p left a g ↔ (∀ m, .drawMenu m ∉ a.queue) ∧
      (left = true ∨ (∃ q1 q2, a.queue = q1 ++ .drawView :: q2 ∧ NoHint q2) ∨ NoHint a.queue ∧ (Still (sizeOf' a.term) a.queue → Agrees p a.term a.queue g)) := by
  unfold Shown; rw [hm]

/-- The invariant. -/
structure WillRead (p : Paint T) (left : Bool) (a : App T) (g : Glass) : Prop where
  ready : Ready g
  sized : queueSize (sizeOf' a.term) a.queue = (g.width, g.height)
  pos : 0 < a.term.width ∧ 0 < a.term.height ∧ a.term.height ≤ 65535
  calm : Calm a.queue
  shown : Shown p left a g

theorem calm_append {q : List (Event T)} {e : Event T} (hc : Calm q)
    (h3 : ∀ w h, e = .resize w h → 0 < w ∧ 0 < h ∧ h ≤ 65535) : Calm (q ++ [e]) := by
  intro x hx
  rcases List.mem_append.1 hx with hx | hx
  · exact hc x hx
  · rw [List.mem_singleton.1 hx]; exact h3

theorem noHint_append {q q' : List (Event T)} (h : NoHint q) (h1 : NoHint q') : NoHint (q ++ q') := by
  intro m hm
  rcases List.mem_append.1 hm with hm | hm
  · exact h m hm
  · exact h1 m hm

theorem agrees_queue {t t' : Term T} {q q' : List (Event T)} {g : Glass} (h : Agrees p t q g)
    (hm : t'.connection.state.menu = t.connection.state.menu) (hv : t'.connection.state.view = t.connection.state.view)
    (hs : sameStatus t.connection.state t'.connection.state ∨ .drawStatus ∈ q') : Agrees p t' (q ++ q') g := by
  cases hx : t.connection.state.menu with
  | some m => exact (agrees_menu (hm.trans hx)).2 ((agrees_menu hx).1 h)
  | none =>
    refine (agrees_view (hm.trans hx)).2 ?_
    rw [hv]
    rcases (agrees_view hx).1 h with h | ⟨h1, h2⟩
    · exact .inl h
    · refine .inr ⟨h1, ?_⟩
      rcases hs with hs | hs
      · refine h2.imp (List.mem_append_left _) fun h => ?_
        have e : lastLine p g.width t'.connection.state = lastLine p g.width t.connection.state := by
          unfold lastLine echoLen statusShown
          rw [hs.1, hs.2]
        unfold ReadsStatus
        rw [e]
        exact h
      · exact .inl (List.mem_append_right _ hs)

/-- Events that draw neither a view nor a menu nor a hint come to wait. -/
theorem shown_queue {left : Bool} {a a' : App T} {g : Glass} {e : List (Event T)} (h : Shown p left a g) (he : NoneWaits e) (hn : NoHint e)
    (hm : a'.term.connection.state.menu = a.term.connection.state.menu)
    (hv : a'.term.connection.state.view = a.term.connection.state.view)
    (hs : sameStatus a.term.connection.state a'.term.connection.state ∨ .drawStatus ∈ e)
    (hz : sizeOf' a'.term = sizeOf' a.term)
    (hq : a'.queue = a.queue ++ e) : Shown p left a' g := by
  have still : Still (sizeOf' a'.term) (a.queue ++ e) → Still (sizeOf' a.term) a.queue := fun hs w h hm => by
    rw [← hz]; exact hs w h (List.mem_append_left _ hm)
  cases hx : a.term.connection.state.menu with
  | some m =>
    refine (shown_menu (hm.trans hx)).2 ?_
    rcases (shown_menu hx).1 h with ⟨q1, q2, h1, h2, h3, h4⟩ | ⟨h1, h2⟩
    · exact .inl ⟨q1, q2 ++ e, by rw [hq, h1]; simp, h2, noneWaits_append h3 he, h4.imp_right fun h => noHint_append h hn⟩
    · refine .inr ⟨by rw [hq]; exact noneWaits_append h1 he, h2.imp_right fun h => ?_⟩
      rw [hq]
      exact ⟨noHint_append h.1 hn, fun st => agrees_queue (h.2 (still st)) hm hv hs⟩
  | none =>
    refine (shown_view (hm.trans hx)).2 ?_
    obtain ⟨h1, h2⟩ := (shown_view hx).1 h
    refine ⟨fun m => by rw [hq]; simp [h1 m, he.2 m], ?_⟩
    rcases h2 with h2 | ⟨q1, q2, h3, h4⟩ | h2
    · exact .inl h2
    · exact .inr (.inl ⟨q1, q2 ++ e, by rw [hq, h3]; simp, noHint_append h4 hn⟩)
    · exact .inr (.inr (by rw [hq]; exact ⟨noHint_append h2.1 hn, fun st => agrees_queue (h2.2 (still st)) hm hv hs⟩))

/-- What a line of the server tells, and how the state follows. -/
theorem receive_all (c : Connection T) (l : Str) :
    (∃ m, (c.receive o parse l).2 = .menu m ∧ (c.receive o parse l).1.state.menu = some m) ∨
    ((c.receive o parse l).1.state.menu = c.state.menu ∧ ((∃ x, (c.receive o parse l).2 = .view x) ∨ ∃ x, (c.receive o parse l).2 = .echo x)) ∨
    ((c.receive o parse l).1.state.menu = c.state.menu ∧ (c.receive o parse l).1.state.view = c.state.view ∧
      ((∃ x, (c.receive o parse l).2 = .status x) ∨
        sameStatus c.state (c.receive o parse l).1.state ∧ ((∃ x, (c.receive o parse l).2 = .hint x) ∨
          (∃ x y, (c.receive o parse l).2 = .info x y) ∨ (c.receive o parse l).2 = .connErr ∨ (c.receive o parse l).2 = .noop))) := by
  unfold Connection.receive
  split
  · rename_i e he
    cases e with
    | response r => exact .inr (.inr ⟨rfl, rfl, .inr ⟨⟨rfl, rfl⟩, .inr (.inr (.inr rfl))⟩⟩)
    | notification n =>
      dsimp only
      unfold ConnectionState.eventUpdate
      dsimp only
      split
      · split
        · exact .inr (.inl ⟨rfl, .inr ⟨_, rfl⟩⟩)
        · exact .inr (.inr ⟨rfl, rfl, .inr ⟨⟨rfl, rfl⟩, .inr (.inr (.inr rfl))⟩⟩)
      split
      · refine .inr (.inr ⟨rfl, rfl, .inr ⟨⟨rfl, rfl⟩, ?_⟩⟩)
        cases Notification.read (Reads.hint o) n with
        | none => exact .inr (.inr (.inr rfl))
        | some x => exact .inl ⟨x, rfl⟩
      split
      · split
        · exact .inr (.inr ⟨rfl, rfl, .inr ⟨⟨rfl, rfl⟩, .inr (.inl ⟨_, _, rfl⟩)⟩⟩)
        · exact .inr (.inr ⟨rfl, rfl, .inr ⟨⟨rfl, rfl⟩, .inr (.inr (.inr rfl))⟩⟩)
      split
      · split
        · exact .inl ⟨_, rfl, rfl⟩
        · exact .inr (.inr ⟨rfl, rfl, .inr ⟨⟨rfl, rfl⟩, .inr (.inr (.inr rfl))⟩⟩)
      split
      · split
        · exact .inr (.inr ⟨rfl, rfl, .inl ⟨_, rfl⟩⟩)
        · exact .inr (.inr ⟨rfl, rfl, .inr ⟨⟨rfl, rfl⟩, .inr (.inr (.inr rfl))⟩⟩)
      split
      · split
        · exact .inr (.inl ⟨rfl, .inl ⟨_, rfl⟩⟩)
        · exact .inr (.inr ⟨rfl, rfl, .inr ⟨⟨rfl, rfl⟩, .inr (.inr (.inr rfl))⟩⟩)
      · exact .inr (.inr ⟨rfl, rfl, .inr ⟨⟨rfl, rfl⟩, .inr (.inr (.inr rfl))⟩⟩)
  · exact .inr (.inr ⟨rfl, rfl, .inr ⟨⟨rfl, rfl⟩, .inr (.inr (.inl rfl))⟩⟩)

theorem clear_view {w h : Nat} {s : ConnectionState T} {ds : List Draw} (hd : drawView p w h s = .ok ds) : Draw.clear ∈ ds := by
  unfold drawView at hd
  obtain ⟨x, _, hd⟩ := bind_inv hd
  obtain ⟨y, _, hd⟩ := bind_inv hd
  cases hd
  simp

theorem clear_menu {w h : Nat} {m : RemoteMenu T} {ds : List Draw} (hd : drawMenu p w h m = .ok ds) : Draw.clear ∈ ds := by
  unfold drawMenu at hd
  obtain ⟨x, _, hd⟩ := bind_inv hd
  obtain ⟨y, _, hd⟩ := bind_inv hd
  obtain ⟨z, _, hd⟩ := bind_inv hd
  cases hd
  simp

/-- What is drawn over the screen. -/
theorem over_draws {t t' : Term T} {e : Event T} {ds : List Draw} (h : t.treat p e = .ok (t', ds))
    (hc : Draw.clear ∉ ds) : (ds = [] ∧ e ≠ .drawStatus ∧ ∀ w h, e = .resize w h → (w, h) = sizeOf' t) ∨ (e = .drawStatus ∧ drawStatus p t.width t.height t.connection.state = .ok ds) ∨
      ∃ m, e = .drawHint m ∧ drawHint p t.width t.height m = .ok ds := by
  have call : ∀ {x : Call}, t.call x = .ok (t', ds) → ds = [] := by
    intro x h
    obtain ⟨c, hc, h⟩ := bind_inv h
    cases h
    rfl
  cases e with
  | drawMenu m => obtain ⟨d, h1, h⟩ := bind_inv h; cases h; exact absurd (clear_menu h1) hc
  | drawView => obtain ⟨d, h1, h⟩ := bind_inv h; cases h; exact absurd (clear_view h1) hc
  | drawHint m => obtain ⟨d, h1, h⟩ := bind_inv h; cases h; exact .inr (.inr ⟨m, rfl, h1⟩)
  | drawStatus => obtain ⟨d, h1, h⟩ := bind_inv h; cases h; exact .inr (.inl ⟨rfl, h1⟩)
  | error msg => exact .inl ⟨call h, by simp, by simp⟩
  | resize w hh =>
    have h : t.resize p w hh = .ok (t', ds) := h
    unfold Term.resize at h
    split at h
    · dsimp only at h
      split at h
      · obtain ⟨d, h1, h⟩ := bind_inv h; cases h; exact absurd (clear_menu h1) hc
      · obtain ⟨d, h1, h⟩ := bind_inv h; cases h; exact absurd (clear_view h1) hc
    · rename_i hn
      cases h
      refine .inl ⟨rfl, by simp, fun w' h' he => ?_⟩
      cases he
      simp only [ne_eq, Prod.mk.injEq, Decidable.not_not] at hn ⊢
      exact ⟨hn.1.symm, hn.2.symm⟩
  | input k =>
    refine .inl ⟨?_, by simp, by simp⟩
    have h : t.handleInput p k = .ok (t', ds) := h
    unfold Term.handleInput at h
    split at h
    · cases h; rfl
    · split at h
      · unfold Term.menuKey at h
        split at h
        · unfold Term.view at h
          obtain ⟨d, h1, h⟩ := bind_inv h
          cases h
          exact absurd (clear_view h1) hc
        · obtain ⟨c1, h1, h⟩ := bind_inv h
          unfold Term.view at h
          obtain ⟨d, h2, h⟩ := bind_inv h
          cases h
          exact absurd (clear_view h2) hc
        · unfold Term.menu at h
          obtain ⟨m1, h1, h⟩ := bind_inv h
          obtain ⟨d2, h2, h⟩ := bind_inv h
          cases h
          exact absurd (clear_menu h2) hc
        · obtain ⟨c1, h1, h⟩ := bind_inv h
          unfold Term.menu at h
          obtain ⟨d, h2, h⟩ := bind_inv h
          obtain ⟨d2, h3, h⟩ := bind_inv h
          cases h
          exact absurd (clear_menu h3) hc
        · exact call h
        · exact call h
        · cases h; rfl
      · unfold Term.plainKey at h
        rcases ite_inv h with ⟨_, h⟩ | ⟨_, h⟩
        · cases h; rfl
        rcases ite_inv h with ⟨_, h⟩ | ⟨_, h⟩
        · exact call h
        rcases ite_inv h with ⟨_, h⟩ | ⟨_, h⟩
        · exact call h
        rcases ite_inv h with ⟨_, h⟩ | ⟨_, h⟩
        · exact call h
        rcases ite_inv h with ⟨_, h⟩ | ⟨_, h⟩
        · exact call h
        rcases ite_inv h with ⟨_, h⟩ | ⟨_, h⟩
        · exact call h
        rcases ite_inv h with ⟨_, h⟩ | ⟨_, h⟩
        · cases h
        split at h
        · exact call h
        · exact call h
        · cases h; rfl

/-- Only a change of size changes the size. -/
theorem treat_size {t t' : Term T} {e : Event T} {ds : List Draw} (h : t.treat p e = .ok (t', ds)) :
    sizeOf' t' = nextSize (sizeOf' t) e := by
  cases e with
  | drawMenu m => obtain ⟨d, h1, h⟩ := bind_inv h; cases h; rfl
  | drawView => obtain ⟨d, h1, h⟩ := bind_inv h; cases h; rfl
  | drawHint m => obtain ⟨d, h1, h⟩ := bind_inv h; cases h; rfl
  | drawStatus => obtain ⟨d, h1, h⟩ := bind_inv h; cases h; rfl
  | error msg => obtain ⟨d, h1, h⟩ := bind_inv h; cases h; rfl
  | resize w hh =>
    have h : t.resize p w hh = .ok (t', ds) := h
    unfold Term.resize at h
    split at h
    · dsimp only at h
      split at h <;> (obtain ⟨d, h1, h⟩ := bind_inv h; cases h; rfl)
    · rename_i hn
      cases h
      show (t.width, t.height) = (w, hh)
      simp only [ne_eq, Prod.mk.injEq, Decidable.not_not] at hn ⊢
      exact hn
  | input k =>
    obtain ⟨h1, h2⟩ := (input_treated h).2
    show (t'.width, t'.height) = (t.width, t.height)
    rw [h1, h2]

theorem drawStatus_read {g : Glass} (hg : Ready g) {s : ConnectionState T} {ds : List Draw} (hc : FacedState p g.width s)
    (hw : echoLen p s ≤ g.width) (h : drawStatus p g.width g.height s = .ok ds) :
    Ready (g.drawAll ds) ∧ (g.drawAll ds).width = g.width ∧ (g.drawAll ds).height = g.height ∧
    (∀ y, y + 1 < g.height → ∀ x, (g.drawAll ds).cells y x = g.cells y x) ∧ ReadsStatus p (g.drawAll ds) s := by
  obtain ⟨rfl, h2, h3⟩ := status_text hc.echo hc.status hw h
  obtain ⟨i1, i2, i3, i4⟩ := C109_kept hg (ds := [.at 0 g.height true (lastLine p g.width s)])
    (fun d hd => ⟨_, List.mem_singleton.1 hd, h3, h2⟩)
  refine ⟨i1, i2, i3, i4, ?_⟩
  obtain ⟨_, _, _, _, _, _, j7⟩ := draw_at hg (x := 0) (y := g.height) (rev := true) (s := lastLine p g.width s)
    (shows_reversed (shows_plain true h3)) hg.width (by rw [List.length_map]; omega)
  intro x c hx
  have e : g.drawAll [.at 0 g.height true (lastLine p g.width s)] = g.draw (.at 0 g.height true (lastLine p g.width s)) := rfl
  have hh := hg.height
  rw [i2] at hx
  rw [i3, e, j7, if_pos ⟨by omega, Nat.zero_le _⟩, Nat.sub_zero, List.getElem?_map, hx]
  rfl

theorem type_size (g : Glass) (c : Char) : (g.type c).width = g.width ∧ (g.type c).height = g.height := by
  have hlf : ∀ g : Glass, g.lineFeed.width = g.width ∧ g.lineFeed.height = g.height := by
    intro g; unfold lineFeed; split <;> exact ⟨rfl, rfl⟩
  unfold type
  split
  · split
    · exact ⟨rfl, rfl⟩
    split
    · exact ⟨rfl, rfl⟩
    split
    · exact hlf g
    split
    · exact ⟨rfl, rfl⟩
    split
    · exact ⟨rfl, rfl⟩
    split
    · exact ⟨rfl, rfl⟩
    · unfold put
      split
      · obtain ⟨h1, h2⟩ := hlf g.carriageReturn
        exact ⟨h1, h2⟩
      · exact ⟨rfl, rfl⟩
  · exact ⟨rfl, rfl⟩
  · split
    · dsimp only
      split
      · exact ⟨rfl, rfl⟩
      · split <;> exact ⟨rfl, rfl⟩
    · exact ⟨rfl, rfl⟩

theorem print_size (s : Str) (g : Glass) : (g.print s).width = g.width ∧ (g.print s).height = g.height := by
  induction s generalizing g with
  | nil => exact ⟨rfl, rfl⟩
  | cons c s ih =>
    obtain ⟨h1, h2⟩ := type_size g c
    obtain ⟨h3, h4⟩ := ih (g.type c)
    exact ⟨h3.trans h1, h4.trans h2⟩

theorem drawAll_size (ds : List Draw) (g : Glass) : (g.drawAll ds).width = g.width ∧ (g.drawAll ds).height = g.height := by
  induction ds generalizing g with
  | nil => exact ⟨rfl, rfl⟩
  | cons d ds ih =>
    obtain ⟨h3, h4⟩ := ih (g.draw d)
    have : (g.draw d).width = g.width ∧ (g.draw d).height = g.height := by
      cases d with
      | clear => exact ⟨rfl, rfl⟩
      | clearRest => exact ⟨rfl, rfl⟩
      | «at» x y r s => exact print_size _ _
    exact ⟨h3.trans this.1, h4.trans this.2⟩

theorem hint_drawn {g : Glass} (hg : Ready g) {hint : List T} (hf : FittingHint p g.width g.height hint) {ds : List Draw}
    (h : drawHint p g.width g.height hint = .ok ds) : Ready (g.drawAll ds) := by
  obtain ⟨first, rest, h1, h2, h3, h4⟩ := hf.first
  obtain ⟨ds', e, i, _⟩ := C109_hint hg hf.heightOk hf.widthOk h1 h4 h2 h3 hf.fits
  rw [h] at e
  cases e
  exact i

/-- What is half read, and the video, do not depend on the size nor on what is on the glass. -/
theorem type_reading {g g' : Glass} (h : g'.reading = g.reading ∧ g'.reversed = g.reversed) (c : Char) :
    (g'.type c).reading = (g.type c).reading ∧ (g'.type c).reversed = (g.type c).reversed := by
  have hlf : ∀ g : Glass, g.lineFeed.reading = g.reading ∧ g.lineFeed.reversed = g.reversed := by
    intro g; unfold lineFeed; split <;> exact ⟨rfl, rfl⟩
  have hput : ∀ g : Glass, (g.put c).reading = g.reading ∧ (g.put c).reversed = g.reversed := by
    intro g; unfold put; split
    · exact hlf g.carriageReturn
    · exact ⟨rfl, rfl⟩
  unfold type
  rw [h.1]
  split
  · split
    · exact ⟨rfl, h.2⟩
    split
    · exact h
    split
    · exact ⟨(hlf g').1.trans (h.1.trans (hlf g).1.symm), (hlf g').2.trans (h.2.trans (hlf g).2.symm)⟩
    split
    · exact ⟨rfl, h.2⟩
    split
    · exact ⟨rfl, h.2⟩
    split
    · exact h
    · exact ⟨(hput g').1.trans (h.1.trans (hput g).1.symm), (hput g').2.trans (h.2.trans (hput g).2.symm)⟩
  · exact ⟨rfl, h.2⟩
  · split
    · dsimp only
      split
      · exact ⟨rfl, by rw [h.2]⟩
      · split
        · exact ⟨rfl, h.2⟩
        · exact ⟨rfl, h.2⟩
    · exact ⟨rfl, h.2⟩

theorem print_reading (s : Str) {g g' : Glass} (h : g'.reading = g.reading ∧ g'.reversed = g.reversed) :
    (g'.print s).reading = (g.print s).reading ∧ (g'.print s).reversed = (g.print s).reversed := by
  induction s generalizing g g' with
  | nil => exact h
  | cons c s ih => exact ih (type_reading h c)

theorem drawAll_reading (ds : List Draw) {g g' : Glass} (h : g'.reading = g.reading ∧ g'.reversed = g.reversed) :
    (g'.drawAll ds).reading = (g.drawAll ds).reading ∧ (g'.drawAll ds).reversed = (g.drawAll ds).reversed := by
  induction ds generalizing g g' with
  | nil => exact h
  | cons d ds ih =>
    refine ih ?_
    cases d with
    | clear => exact h
    | clearRest => exact h
    | «at» x y r s => exact print_reading _ h

/-- A drawing for one size leaves a terminal of another size ready, too. -/
theorem ready_any {w h : Nat} {ds : List Draw} {g : Glass} (hg : Ready g) (hw : 0 < w) (hh : 0 < h)
    (hd : ∀ g0 : Glass, Ready g0 → g0.width = w → g0.height = h → Ready (g0.drawAll ds)) : Ready (g.drawAll ds) := by
  let g0 : Glass := ⟨w, h, fun _ _ => .blank, 0, 0, false, false, .ground⟩
  have h0 := hd g0 ⟨hw, hh, rfl, rfl⟩ rfl rfl
  obtain ⟨e1, e2⟩ := drawAll_reading ds (g := g0) (g' := g) ⟨hg.reading, hg.reversed⟩
  obtain ⟨e3, e4⟩ := drawAll_size ds g
  exact ⟨by rw [e3]; exact hg.width, by rw [e4]; exact hg.height, e1.trans h0.reading, e2.trans h0.reversed⟩

theorem menu_drawn {g : Glass} (hg : Ready g) (hh : g.height ≤ 65535) {m : RemoteMenu T} (hm : LegibleMenu p g.width m) {ds : List Draw}
    (h : drawMenu p g.width g.height m = .ok ds) : Ready (g.drawAll ds) ∧ ReadsMenu p (g.drawAll ds) m := by
  obtain ⟨i1, i2, i3, i4, i5⟩ := C109_matches hg hh hm.1 hm.2 h
  refine ⟨i1, fun _ => by rw [i2]; exact i4, fun i hi => ?_⟩
  rw [i3] at hi
  rw [i2]
  exact i5 i (by omega)

theorem view_drawn {g : Glass} (hg : Ready g) {s : ConnectionState T} (hc : FacedState p g.width s) (hw : echoLen p s ≤ g.width) {ds : List Draw}
    (h : drawView p g.width g.height s = .ok ds) :
    Ready (g.drawAll ds) ∧ ReadsView p (g.drawAll ds) s.view ∧ ReadsStatus p (g.drawAll ds) s := by
  obtain ⟨i1, i2, i3, i4, i5, i6⟩ := C109_faces hg hc hw h
  refine ⟨i1, ?_, ?_⟩
  · intro y hy
    rw [i3] at hy ⊢
    cases hr : (drawn g.height (rowsOf s.view))[(drawn g.height (rowsOf s.view)).length - g.height + y]? with
    | some r => exact i4 y hy r hr
    | none =>
      have := List.getElem?_eq_none_iff.1 hr
      exact i5 y hy (by omega)
  · intro x c hx
    rw [i2] at hx
    rw [i3]
    obtain ⟨hlt, hx⟩ := List.getElem?_eq_some_iff.1 hx
    rw [i6 x hlt, hx]

/-- Rows that do not change read the same. -/
theorem reads_kept {g g' : Glass} (hw : g'.width = g.width) {y : Nat} (hk : ∀ x, g'.cells y x = g.cells y x) {s : Str} {r : Bool}
    (h : Reads g y s r) : Reads g' y s r := by
  intro x hx
  rw [hw] at hx
  rw [hk]
  exact h x hx

theorem willRead_treat {left : Bool} {a : App T} {g : Glass} (h : WillRead p left a g) (hl : Legible p a) {t : Term T} {e : Event T}
    {q : List (Event T)} {ds : List Draw} (hl' : Legible p ⟨t, q⟩) (hq : a.queue = e :: q)
    (hf : ∀ x, e = .drawHint x → FittingHint p a.term.width a.term.height x)
    (hfm : ∀ m, e = .drawMenu m → LegibleMenu p a.term.width m) (ht : a.term.treat p e = .ok (t, ds)) :
    WillRead p left ⟨t, q⟩ (g.drawAll ds) := by
  have he := h.calm e (by rw [hq]; exact List.mem_cons_self)
  have hsz := treat_size ht
  obtain ⟨z1, z2⟩ := drawAll_size ds g
  have hcalm : Calm q := fun x hx => h.calm x (by rw [hq]; exact List.mem_cons_of_mem _ hx)
  have hsized : queueSize (sizeOf' t) q = (g.width, g.height) := by rw [hsz, ← h.sized, hq]; rfl
  have hpos : 0 < t.width ∧ 0 < t.height ∧ t.height ≤ 65535 := by
    cases e with
    | resize w hh =>
      have := he w hh rfl
      obtain ⟨f1, f2⟩ := Prod.mk.inj hsz
      rw [f1, f2]
      exact this
    | _ => obtain ⟨f1, f2⟩ := Prod.mk.inj hsz; rw [f1, f2]; exact h.pos
  have fits : Still (sizeOf' t) q → t.width = g.width ∧ t.height = g.height := by
    intro hs
    rw [still_last hs] at hsized
    exact Prod.mk.inj hsized
  have tail : NoHint (e :: q) → NoHint q := fun hn m hm => hn m (List.mem_cons_of_mem _ hm)
  have first : e ≠ .drawView → (∃ q1 q2, e :: q = q1 ++ .drawView :: q2 ∧ NoHint q2) → ∃ q1 q2, q = q1 ++ .drawView :: q2 ∧ NoHint q2 := by
    rintro hne ⟨q1, q2, e1, e2⟩
    cases q1 with
    | nil => cases e1; exact absurd rfl hne
    | cons x q1 => cases e1; exact ⟨q1, q2, rfl, e2⟩
  suffices hs : Ready (g.drawAll ds) ∧ Shown p left ⟨t, q⟩ (g.drawAll ds) from
    { ready := hs.1, sized := (by rw [z1, z2]; exact hsized), pos := hpos, calm := hcalm, shown := hs.2 }
  have hs := h.shown
  cases treats ht with
  | over hst hw hh hc h1 h2 =>
    -- what is drawn over the screen
    have hsame : sizeOf' t = sizeOf' a.term := by show (t.width, t.height) = _; rw [hw, hh]
    have hover : Ready (g.drawAll ds) ∧ (NoHint (e :: q) → (Still (sizeOf' a.term) (e :: q) → Agrees p a.term (e :: q) g) →
        Still (sizeOf' t) q → Agrees p t q (g.drawAll ds)) := by
      rcases over_draws ht hc with ⟨rfl, hne, hsame'⟩ | ⟨rfl, hd⟩ | ⟨m, rfl, hd⟩
      · refine ⟨h.ready, fun _ ha hst' => ?_⟩
        have ha := ha (fun w h' hm => by
          rcases List.mem_cons.1 hm with hm | hm
          · exact hsame' w h' hm.symm
          · rw [← hsame]; exact hst' w h' hm)
        show Agrees p t q g
        cases hx : a.term.connection.state.menu with
        | some m => exact (agrees_menu (by rw [hst, hx])).2 ((agrees_menu hx).1 ha)
        | none =>
          refine (agrees_view (by rw [hst, hx])).2 ?_
          rw [hst]
          refine ((agrees_view hx).1 ha).imp_right fun ⟨h1, h2⟩ => ⟨h1, h2.imp_left fun h => ?_⟩
          rcases List.mem_cons.1 h with h | h
          · exact absurd h.symm hne
          · exact h
      · refine ⟨ready_any h.ready h.pos.1 h.pos.2.1 fun g0 hg0 e1 e2 =>
          (drawStatus_read hg0 (by rw [e1]; exact hl.state) (by rw [e1]; exact hl.echo) (by rw [e1, e2]; exact hd)).1, fun _ ha hst' => ?_⟩
        obtain ⟨f1, f2⟩ := fits hst'
        rw [hw] at f1
        rw [hh] at f2
        have ha := ha (fun w h' hm => by
          rcases List.mem_cons.1 hm with hm | hm
          · cases hm
          · rw [← hsame]; exact hst' w h' hm)
        have hecho := hl.echo
        rw [f1] at hecho
        rw [f1, f2] at hd
        obtain ⟨i1, i2, i3, i4, i5⟩ := drawStatus_read h.ready (by rw [← f1]; exact hl.state) hecho hd
        cases hx : a.term.connection.state.menu with
        | some m =>
          refine (agrees_menu (by rw [hst, hx])).2 ?_
          obtain ⟨j1, j2⟩ := (agrees_menu hx).1 ha
          refine ⟨fun hy => ?_, fun i hi => ?_⟩
          · rw [i3] at hy
            rw [i2]
            exact reads_kept i2 (i4 0 (by omega)) (j1 hy)
          · rw [i3] at hi
            rw [i2]
            have := j2 i hi
            revert this
            cases m.entries[i]? with
            | some e =>
              rintro ⟨l, l1, l2⟩
              exact ⟨l, l1, fun x hx => by rw [i4 (i + 1) (by omega)]; exact l2 x hx⟩
            | none => exact fun h => reads_kept i2 (i4 (i + 1) (by omega)) h
        | none =>
          refine (agrees_view (by rw [hst, hx])).2 ?_
          rw [hst]
          refine ((agrees_view hx).1 ha).imp_right fun ⟨j1, _⟩ => ⟨fun y hy => ?_, .inr i5⟩
          rw [i3] at hy ⊢
          have := j1 y hy
          revert this
          cases (drawn g.height (rowsOf a.term.connection.state.view))[(drawn g.height (rowsOf a.term.connection.state.view)).length -
            g.height + y]? with
          | some r =>
            rintro ⟨l, l1, l2⟩
            exact ⟨l, by rw [i2]; exact l1, fun x hx => by rw [i2] at hx; rw [i4 y hy]; exact l2 x hx⟩
          | none => exact fun h => reads_kept i2 (i4 y hy) h
      · exact ⟨ready_any h.ready h.pos.1 h.pos.2.1 fun g0 hg0 e1 e2 =>
          hint_drawn hg0 (by rw [e1, e2]; exact hf m rfl) (by rw [e1, e2]; exact hd), fun hn => absurd List.mem_cons_self (hn m)⟩
    refine ⟨hover.1, ?_⟩
    cases hx : a.term.connection.state.menu with
    | some m =>
      have hs := (shown_menu hx).1 hs
      rw [hq] at hs
      refine (shown_menu (a := ⟨t, q⟩) (m := m) (by show t.connection.state.menu = _; rw [hst, hx])).2 ?_
      rcases hs with ⟨q1, q2, e1, e2, e3, e4⟩ | ⟨e1, e2⟩
      · cases q1 with
        | nil => cases e1; exact absurd rfl (h2 m)
        | cons y q1 => cases e1; exact .inl ⟨q1, q2, rfl, fun k hk => e2 k (List.mem_cons_of_mem _ hk), e3, e4⟩
      · exact .inr ⟨noneWaits_tail e1, e2.imp_right fun e2 => ⟨tail e2.1, hover.2 e2.1 e2.2⟩⟩
    | none =>
      obtain ⟨h0, hs⟩ := (shown_view hx).1 hs
      rw [hq] at hs h0
      refine (shown_view (a := ⟨t, q⟩) (by show t.connection.state.menu = _; rw [hst, hx])).2
        ⟨fun m hm => h0 m (List.mem_cons_of_mem _ hm), ?_⟩
      exact hs.imp_right fun hs => hs.imp (first h1) fun hs => ⟨tail hs.1, hover.2 hs.1 hs.2⟩
  | @menu _ m' hm ho hd h1 h2 =>
    refine ⟨ready_any h.ready hpos.1 hpos.2.1 fun g0 hg0 e1 e2 =>
      (menu_drawn hg0 (by rw [e2]; exact hpos.2.2) (by rw [e1]; exact hl'.menu m' hm) (by rw [e1, e2]; exact hd)).1, ?_⟩
    have now : Still (sizeOf' t) q → ReadsMenu p (g.drawAll ds) m' := fun hst' => by
      obtain ⟨f1, f2⟩ := fits hst'
      rw [f1, f2] at hd
      exact (menu_drawn h.ready (by rw [← f2]; exact hpos.2.2) (by rw [← f1]; exact hl'.menu m' hm) hd).2
    cases hx : a.term.connection.state.menu with
    | some m =>
      have hs := (shown_menu hx).1 hs
      rw [hq] at hs
      refine (shown_menu (a := ⟨t, q⟩) hm).2 ?_
      rcases hs with ⟨q1, q2, e1, e2, e3, e4⟩ | ⟨e1, e2⟩
      · cases q1 with
        | nil => cases e1; exact absurd rfl (h2 m)
        | cons y q1 =>
          cases e1
          rcases ho with ho | ⟨k, m0, rfl, hk, _⟩
          · rw [hx] at ho
            cases ho
            exact .inl ⟨q1, q2, rfl, fun k hk => e2 k (List.mem_cons_of_mem _ hk), e3, e4⟩
          · exact absurd hk (e2 k List.mem_cons_self)
      · exact .inr ⟨noneWaits_tail e1, e2.imp_right fun e2 => ⟨tail e2.1, fun hst' => (agrees_menu hm).2 (now hst')⟩⟩
    | none => rcases ho with ho | ⟨k, m0, rfl, hk, ho⟩ <;> rw [hx] at ho <;> cases ho
  | view hm hv ho hd h1 h2 =>
    have hecho : echoLen p t.connection.state ≤ t.width := hl'.echo
    refine ⟨ready_any h.ready hpos.1 hpos.2.1 fun g0 hg0 e1 e2 =>
      (view_drawn hg0 (by rw [e1]; exact hl'.state) (by rw [e1]; exact hecho) (by rw [e1, e2]; exact hd)).1, ?_⟩
    have now : Still (sizeOf' t) q → Agrees p t q (g.drawAll ds) := fun hst' => by
      obtain ⟨f1, f2⟩ := fits hst'
      rw [f1] at hecho
      rw [f1, f2] at hd
      obtain ⟨_, i2, i3⟩ := view_drawn h.ready (by rw [← f1]; exact hl'.state) hecho hd
      exact (agrees_view hm).2 (.inr ⟨i2, .inr i3⟩)
    cases hx : a.term.connection.state.menu with
    | some m =>
      have hs := (shown_menu hx).1 hs
      rw [hq] at hs
      rcases hs with ⟨q1, q2, e1, e2, e3, e4⟩ | ⟨e1, e2⟩
      · rcases ho with ho | ⟨k, rfl, hk⟩
        · rw [hx] at ho; cases ho
        · cases q1 with
          | nil => cases e1
          | cons y q1 => cases e1; exact absurd hk (e2 k List.mem_cons_self)
      · refine (shown_view (a := ⟨t, q⟩) hm).2 ⟨(noneWaits_tail e1).2, ?_⟩
        rcases e2 with e2 | e2
        · exact .inl e2
        · exact .inr (.inr ⟨tail e2.1, now⟩)
    | none =>
      obtain ⟨h0, hs⟩ := (shown_view hx).1 hs
      rw [hq] at hs h0
      exact (shown_view (a := ⟨t, q⟩) hm).2 ⟨fun m hm => h0 m (List.mem_cons_of_mem _ hm),
        hs.imp_right fun hs => hs.imp (first h1) fun hs => ⟨tail hs.1, now⟩⟩
  | @drawMenu m' hst hd =>
    subst hst
    refine ⟨ready_any h.ready hpos.1 hpos.2.1 fun g0 hg0 e1 e2 =>
      (menu_drawn hg0 (by rw [e2]; exact hpos.2.2) (by rw [e1]; exact hfm m' rfl) (by rw [e1, e2]; exact hd)).1, ?_⟩
    have now : Still (sizeOf' a.term) q → ReadsMenu p (g.drawAll ds) m' := fun hst' => by
      obtain ⟨f1, f2⟩ := fits hst'
      rw [f1, f2] at hd
      exact (menu_drawn h.ready (by rw [← f2]; exact hpos.2.2) (by rw [← f1]; exact hfm m' rfl) hd).2
    cases hx : a.term.connection.state.menu with
    | some m =>
      have hs := (shown_menu hx).1 hs
      rw [hq] at hs
      refine (shown_menu (a := ⟨a.term, q⟩) hx).2 ?_
      rcases hs with ⟨q1, q2, e1, e2, e3, e4⟩ | ⟨e1, e2⟩
      · cases q1 with
        | nil =>
          cases e1
          exact .inr ⟨e3, e4.imp_right fun e4 => ⟨e4, fun hst' => (agrees_menu hx).2 (now hst')⟩⟩
        | cons y q1 => cases e1; exact .inl ⟨q1, q2, rfl, fun k hk => e2 k (List.mem_cons_of_mem _ hk), e3, e4⟩
      · exact absurd List.mem_cons_self (e1.2 m')
    | none =>
      obtain ⟨h0, _⟩ := (shown_view hx).1 hs
      rw [hq] at h0
      exact absurd List.mem_cons_self (h0 m')
  | drawView hst hd =>
    subst hst
    have hecho := hl.echo
    refine ⟨ready_any h.ready hpos.1 hpos.2.1 fun g0 hg0 e1 e2 =>
      (view_drawn hg0 (by rw [e1]; exact hl.state) (by rw [e1]; exact hecho) (by rw [e1, e2]; exact hd)).1, ?_⟩
    cases hx : a.term.connection.state.menu with
    | some m =>
      have hs := (shown_menu hx).1 hs
      rw [hq] at hs
      refine (shown_menu (a := ⟨a.term, q⟩) hx).2 ?_
      rcases hs with ⟨q1, q2, e1, e2, e3, e4⟩ | ⟨e1, e2⟩
      · cases q1 with
        | nil => cases e1
        | cons y q1 => cases e1; exact .inl ⟨q1, q2, rfl, fun k hk => e2 k (List.mem_cons_of_mem _ hk), e3, e4⟩
      · exact absurd List.mem_cons_self e1.1
    | none =>
      obtain ⟨h0, hs⟩ := (shown_view hx).1 hs
      rw [hq] at hs h0
      refine (shown_view (a := ⟨a.term, q⟩) hx).2 ⟨fun m hm => h0 m (List.mem_cons_of_mem _ hm), ?_⟩
      have now : Still (sizeOf' a.term) q → Agrees p a.term q (g.drawAll ds) := fun hst' => by
        obtain ⟨f1, f2⟩ := fits hst'
        rw [f1] at hecho
        rw [f1, f2] at hd
        obtain ⟨_, i2, i3⟩ := view_drawn h.ready (by rw [← f1]; exact hl.state) hecho hd
        exact (agrees_view hx).2 (.inr ⟨i2, .inr i3⟩)
      rcases hs with hs | ⟨q1, q2, e1, e2⟩ | hs
      · exact .inl hs
      · cases q1 with
        | nil => cases e1; exact .inr (.inr ⟨e2, now⟩)
        | cons x q1 => cases e1; exact .inr (.inl ⟨q1, q2, rfl, e2⟩)
      · exact .inr (.inr ⟨tail hs.1, now⟩)

/-- What a line tells does not depend on what was received before. -/
theorem receive_kind (c c' : Connection T) (l : Str) : (c.receive o parse l).2 = (c'.receive o parse l).2 := by
  unfold Connection.receive
  split
  · rename_i e he
    cases e with
    | response r => rfl
    | notification n =>
      show (c.state.eventUpdate o (.notification n)).2.getD .noop = (c'.state.eventUpdate o (.notification n)).2.getD .noop
      unfold ConnectionState.eventUpdate
      dsimp only
      split
      · split <;> rfl
      split
      · rfl
      split
      · split <;> rfl
      split
      · split <;> rfl
      split
      · split <;> rfl
      split
      · split <;> rfl
      · rfl
  · rfl

theorem queueSize_append (s : Nat × Nat) (q q' : List (Event T)) : queueSize s (q ++ q') = queueSize (queueSize s q) q' := List.foldl_append ..

theorem willRead_push {left : Bool} {a : App T} {g : Glass} {e : Event T} (h : WillRead p left a g) (h1 : ∀ m, e ≠ .drawMenu m)
    (h2 : ∀ m, e ≠ .drawHint m) (h3 : ∀ w h, e ≠ .resize w h) (h4 : e ≠ .drawView) : WillRead p left { a with queue := a.queue ++ [e] } g :=
  { ready := h.ready, pos := h.pos
    sized := (by
      show queueSize (sizeOf' a.term) (a.queue ++ [e]) = _
      rw [queueSize_append, h.sized]
      cases e with
      | resize w hh => exact absurd rfl (h3 w hh)
      | _ => rfl)
    calm := calm_append h.calm (fun w hh hm => absurd hm (h3 w hh))
    shown := shown_queue h.shown (e := [e]) ⟨by simpa using h4.symm, fun m => by simpa using (h1 m).symm⟩ (fun m => by simpa using (h2 m).symm)
      rfl rfl (.inl ⟨rfl, rfl⟩) rfl rfl }

/-- The size changes, and the client will hear of it. -/
theorem willRead_size {left : Bool} {a : App T} {g g' : Glass} {w hh : Nat} (h : WillRead p left a g) (hp : 0 < w ∧ 0 < hh ∧ hh ≤ 65535)
    (hg : Ready g') (hw : g'.width = w) (hh' : g'.height = hh) (hsame : w = g.width ∧ hh = g.height → g' = g) :
    WillRead p left { a with queue := a.queue ++ [.resize w hh] } g' := by
  have hk : ∀ {q : List (Event T)}, NoHint q → NoHint (q ++ [.resize w hh]) := fun h => noHint_append h (fun m => by simp)
  have ha : (Still (sizeOf' a.term) a.queue → Agrees p a.term a.queue g) → Still (sizeOf' a.term) (a.queue ++ [.resize w hh]) →
      Agrees p a.term (a.queue ++ [.resize w hh]) g' := by
    intro hag hst
    have st : Still (sizeOf' a.term) a.queue := fun w' h' hm => hst w' h' (List.mem_append_left _ hm)
    have e1 := hst w hh (List.mem_append_right _ List.mem_cons_self)
    have e2 := h.sized
    rw [still_last st, ← e1] at e2
    cases e2
    rw [hsame ⟨rfl, rfl⟩]
    exact agrees_queue (hag st) rfl rfl (.inl ⟨rfl, rfl⟩)
  refine { ready := hg, pos := h.pos, sized := ?_, calm := calm_append h.calm (fun w' h' he => by cases he; exact hp), shown := ?_ }
  · show queueSize (sizeOf' a.term) (a.queue ++ [.resize w hh]) = _
    rw [queueSize_append, hw, hh']
    rfl
  · cases hx : a.term.connection.state.menu with
    | some m =>
      refine (shown_menu (a := { a with queue := a.queue ++ [.resize w hh] }) hx).2 ?_
      rcases (shown_menu hx).1 h.shown with ⟨q1, q2, h1, h2, h3, h4⟩ | ⟨h1, h2⟩
      · exact .inl ⟨q1, q2 ++ [.resize w hh], by simp [h1], h2, noneWaits_append h3 ⟨by simp, by simp⟩, h4.imp_right hk⟩
      · exact .inr ⟨noneWaits_append h1 ⟨by simp, by simp⟩, h2.imp_right fun h2 => ⟨hk h2.1, ha h2.2⟩⟩
    | none =>
      obtain ⟨h1, h2⟩ := (shown_view hx).1 h.shown
      refine (shown_view (a := { a with queue := a.queue ++ [.resize w hh] }) hx).2 ⟨fun m => by simp [h1 m], ?_⟩
      rcases h2 with h2 | ⟨q1, q2, h3, h4⟩ | h2
      · exact .inl h2
      · exact .inr (.inl ⟨q1, q2 ++ [.resize w hh], by simp [h3], hk h4⟩)
      · exact .inr (.inr ⟨hk h2.1, ha h2.2⟩)

/-- A hint comes to wait. -/
theorem shown_hint {left : Bool} {a a' : App T} {g : Glass} {x : List T} (h : Shown p left a g)
    (hm : a'.term.connection.state.menu = a.term.connection.state.menu) (hq : a'.queue = a.queue ++ [.drawHint x]) :
    Shown p true a' g := by
  cases hx : a.term.connection.state.menu with
  | some m =>
    refine (shown_menu (hm.trans hx)).2 ?_
    rcases (shown_menu hx).1 h with ⟨q1, q2, h1, h2, h3, h4⟩ | ⟨h1, h2⟩
    · exact .inl ⟨q1, q2 ++ [.drawHint x], by rw [hq, h1]; simp, h2, noneWaits_append h3 ⟨by simp, by simp⟩, .inl rfl⟩
    · exact .inr ⟨by rw [hq]; exact noneWaits_append h1 ⟨by simp, by simp⟩, .inl rfl⟩
  | none =>
    refine (shown_view (hm.trans hx)).2 ⟨fun m => ?_, .inl rfl⟩
    rw [hq]
    simp [((shown_view hx).1 h).1 m]

theorem willRead_run {steps : List Tui.Step} {left : Bool} {a a' : App T} {g g' : Glass} (h0 : WillRead p left a g)
    (hl : LegibleRun o p parse errText a steps) (h : GlassRun o p parse errText a g steps a' g') :
    WillRead p ((linesIn steps).foldl (leftAfter o parse) left) a' g' := by
  induction steps generalizing left a g with
  | nil => obtain ⟨rfl, rfl⟩ := h; exact h0
  | cons s ss ih =>
    obtain ⟨a1, ds, g1, h1, hg, h2⟩ := h
    have hu := hl.2.1
    have hn := hl.2.2 _ _ h1
    have hl1 : Legible p a1 := by cases ss with
      | nil => exact hn
      | cons _ _ => exact hn.1
    cases s with
    | key k => cases h1; cases hg; exact ih (willRead_push h0 (by simp) (by simp) (by simp) (by simp)) hn h2
    | size w hh =>
      cases h1
      have hg : if w = g.width ∧ hh = g.height then g1 = g else Ready g1 ∧ g1.width = w ∧ g1.height = hh := hg
      split at hg
      · rename_i e
        cases hg
        exact ih (willRead_size h0 hu.2 h0.ready e.1.symm e.2.symm fun _ => rfl) hn h2
      · rename_i e
        exact ih (willRead_size h0 hu.2 hg.1 hg.2.1 hg.2.2 fun e' => absurd e' e) hn h2
    | fault text => cases h1; cases hg; exact ih (willRead_push h0 (by simp) (by simp) (by simp) (by simp)) hn h2
    | treat =>
      cases hg
      refine ih ?_ hn h2
      simp only [App.step] at h1
      rcases ite_inv h1 with ⟨_, h1⟩ | ⟨_, h1⟩
      · cases h1; exact h0
      · cases hq : a.queue with
        | nil => simp only [hq] at h1; cases h1; exact h0
        | cons e q =>
          simp only [hq] at h1
          obtain ⟨⟨t, d⟩, ht, h1⟩ := bind_inv h1
          cases h1
          exact willRead_treat h0 hl.1 hl1 hq (fun x hx => hu.2.1 x q (by rw [hq, hx])) (fun m hm => hu.2.2 m q (by rw [hq, hm])) ht
    | line l =>
      rw [linesIn_cons, show linesIn [.line l] = [l] from rfl, List.singleton_append, List.foldl_cons]
      refine ih ?_ hn h2
      clear ih hn h2
      simp only [App.step, Except.ok.injEq, Prod.mk.injEq] at h1
      obtain ⟨rfl, rfl⟩ := h1
      cases hg
      show WillRead p _ _ g
      obtain ⟨ht, _⟩ := hu
      simp only [InTurn] at ht
      unfold leftAfter
      rw [receive_kind (o := o) (parse := parse) Connection.new a.term.connection l]
      have cases4 := receive_all (o := o) (parse := parse) a.term.connection l
      generalize (Connection.receive o parse a.term.connection l).2 = k at *
      generalize (Connection.receive o parse a.term.connection l).1 = c' at *
      have build : ∀ {left' : Bool},
          (∀ x, eventOf (errText l) k = some x → ∀ w h, x ≠ .resize w h) →
          Shown p left' ⟨{ a.term with connection := c' }, a.queue ++ (eventOf (errText l) k).toList⟩ g →
          WillRead p left' ⟨{ a.term with connection := c' }, a.queue ++ (eventOf (errText l) k).toList⟩ g := by
        intro left' hx hs
        refine { ready := h0.ready, pos := h0.pos, sized := ?_, calm := ?_, shown := hs }
        · show queueSize (sizeOf' a.term) (a.queue ++ (eventOf (errText l) k).toList) = _
          rw [queueSize_append, h0.sized]
          cases he : eventOf (errText l) k with
          | none => rfl
          | some x =>
            have x3 := hx x he
            cases x with
            | resize w h => exact absurd rfl (x3 w h)
            | _ => rfl
        · show Calm (a.queue ++ (eventOf (errText l) k).toList)
          cases he : eventOf (errText l) k with
          | none => rw [Option.toList_none, List.append_nil]; exact h0.calm
          | some x => have x3 := hx x he; exact calm_append h0.calm (fun w h he => absurd he (x3 w h))
      rcases cases4 with ⟨m, rfl, e2⟩ | ⟨e1, e2⟩ | ⟨e1, e2, e3⟩
      · refine build (fun x hx => ?_) ?_
        · cases hx
          simp
        · exact (shown_menu (m := m) e2).2 (.inl ⟨a.queue, [], rfl, ht, ⟨List.not_mem_nil, fun _ => List.not_mem_nil⟩, .inr fun _ => List.not_mem_nil⟩)
      · have hnone : a.term.connection.state.menu = none := by
          rcases e2 with ⟨x, rfl⟩ | ⟨x, rfl⟩ <;> exact ht
        have hshown : ∀ left', Shown p left' ⟨{ a.term with connection := c' },
            a.queue ++ (some (Event.drawView : Event T)).toList⟩ g := by
          intro left'
          refine (shown_view (e1.trans hnone)).2 ⟨fun m hm => ?_, .inr (.inl ⟨a.queue, [], rfl, fun _ => List.not_mem_nil⟩)⟩
          have hm : _ ∈ a.queue ++ [Event.drawView] := hm
          simp [((shown_view hnone).1 h0.shown).1 m] at hm
        rcases e2 with ⟨x, rfl⟩ | ⟨x, rfl⟩ <;>
          exact build (fun x hx => by cases hx; simp) (hshown _)
      · rcases e3 with ⟨x, rfl⟩ | ⟨e3, ⟨x, rfl⟩ | ⟨x, y, rfl⟩ | rfl | rfl⟩
        · refine build (fun x hx => by cases hx; simp) ?_
          exact shown_queue h0.shown (e := [.drawStatus]) ⟨by simp, by simp⟩ (fun m => by simp) e1 e2 (.inr (by simp)) rfl rfl
        · refine build (fun y hy => ?_) (shown_hint (x := x) h0.shown e1 rfl)
          cases hy
          simp
        · refine build (fun x hx => by cases hx) ?_
          exact shown_queue h0.shown (e := []) ⟨by simp, by simp⟩ (fun m => by simp) e1 e2 (.inl e3) rfl rfl
        · refine build (fun x hx => by cases hx; simp) ?_
          exact shown_queue h0.shown (e := [.error _]) ⟨by simp, by simp⟩ (fun m => by simp) e1 e2 (.inl e3) rfl rfl
        · refine build (fun x hx => by cases hx) ?_
          exact shown_queue h0.shown (e := []) ⟨by simp, by simp⟩ (fun m => by simp) e1 e2 (.inl e3) rfl rfl

end C109
open C109

/-- The client runs, whatever it runs in front of. -/
theorem glassRun_run {steps : List Tui.Step} {a a' : App T} {g g' : Glass} (h : GlassRun o p parse errText a g steps a' g') :
    ∃ ds, a.run o p parse errText steps = .ok (a', ds) := by
  induction steps generalizing a g with
  | nil => obtain ⟨rfl, _⟩ := h; exact ⟨[], rfl⟩
  | cons s ss ih =>
    obtain ⟨a1, d1, g1, h1, _, h2⟩ := h
    obtain ⟨d2, h2⟩ := ih h2
    refine ⟨d1 ++ d2, ?_⟩
    simp only [App.run, h1, h2, except_bind_ok]
    rfl

/-- C109, from the start of the terminal client on: whatever keys are pressed, however the size of the screen changes and whatever is
received in turn (C103), as long as the hints that are drawn fit and the texts are printable: once everything that waits is treated,
and no hint came after the last view, menu or message, the user reads the open menu; when none is open, above the last row, the rows of
the view that was last received, and in the last row the present message and status. -/
theorem C109_session {width height : Nat} {files : List Str} {t : Term T} (ht : Term.new width height files = .ok t) {g g' : Glass}
    (hg : Ready g) (hw : g.width = width) (hh : g.height = height) (hb : height ≤ 65535) {steps : List Tui.Step}
    (hl : LegibleRun o p parse errText ⟨t, []⟩ steps) {a : App T}
    (hrun : GlassRun o p parse errText ⟨t, []⟩ g steps a g') (hq : a.queue = []) (hleft : hintLeft o parse (linesIn steps) = false) :
    (∀ m, a.term.connection.state.menu = some m → ReadsMenu p g' m) ∧
    (a.term.connection.state.menu = none → a.term.connection.state.view ≠ [] →
      ReadsView p g' a.term.connection.state.view ∧ ReadsStatus p g' a.term.connection.state) := by
  obtain ⟨_, hs, _, hw', hh'⟩ := new_numbered ht
  have hm : t.connection.state.menu = none := by rw [hs]; rfl
  have h0 : WillRead p false (⟨t, []⟩ : App T) g :=
    { ready := hg, sized := (by show (t.width, t.height) = _; rw [hw', hh', hw, hh])
      pos := (by show 0 < t.width ∧ 0 < t.height ∧ t.height ≤ 65535; rw [hw', hh', ← hw, ← hh]; exact ⟨hg.width, hg.height, by rw [hh]; exact hb⟩)
      calm := (fun e he => by cases he)
      shown := (shown_view hm).2 ⟨fun m hm => (by cases hm), .inr (.inr ⟨fun m hm => (by cases hm), fun _ =>
        (agrees_view hm).2 (.inl (by show t.connection.state.view = []; rw [hs]; rfl))⟩)⟩ }
  have i := (willRead_run h0 hl hrun).shown
  have still : Still (sizeOf' a.term) a.queue := by rw [hq]; exact fun w h hm => by cases hm
  refine ⟨fun m hm => ?_, fun hm hv => ?_⟩
  · rcases (shown_menu hm).1 i with ⟨q1, q2, h, _⟩ | ⟨_, h | ⟨_, h⟩⟩
    · rw [hq] at h; cases q1 <;> cases h
    · unfold hintLeft at hleft; rw [hleft] at h; cases h
    · exact (agrees_menu hm).1 (h still)
  · rcases ((shown_view hm).1 i).2 with h | ⟨q1, q2, h, _⟩ | ⟨_, h⟩
    · unfold hintLeft at hleft; rw [hleft] at h; cases h
    · rw [hq] at h; cases q1 <;> cases h
    · rcases (agrees_view hm).1 (h still) with h | ⟨h1, h | h2⟩
      · exact absurd h hv
      · rw [hq] at h; cases h
      · exact ⟨h1, h2⟩

/-- C109: when everything is treated, the client knows the size of the screen. -/
theorem C109_size {width height : Nat} {files : List Str} {t : Term T} (ht : Term.new width height files = .ok t) {g g' : Glass}
    (hw : g.width = width) (hh : g.height = height) {steps : List Tui.Step} {a : App T}
    (hrun : GlassRun o p parse errText ⟨t, []⟩ g steps a g') (hq : a.queue = []) :
    a.term.width = g'.width ∧ a.term.height = g'.height := by
  obtain ⟨_, _, _, hw', hh'⟩ := new_numbered ht
  have key : ∀ {ss : List Tui.Step} {b : App T} {g : Glass}, queueSize (sizeOf' b.term) b.queue = (g.width, g.height) →
      GlassRun o p parse errText b g ss a g' → queueSize (sizeOf' a.term) a.queue = (g'.width, g'.height) := by
    intro ss
    induction ss with
    | nil => rintro b g h0 ⟨rfl, rfl⟩; exact h0
    | cons s ss ih =>
      rintro b g h0 ⟨a1, ds, g1, h1, hg, h2⟩
      refine ih ?_ h2
      have push : ∀ e : Event T, (∀ w h, e ≠ .resize w h) → queueSize (sizeOf' b.term) (b.queue ++ [e]) = (g.width, g.height) := by
        intro e he
        rw [queueSize_append, h0]
        cases e with
        | resize w h => exact absurd rfl (he w h)
        | _ => rfl
      cases s with
      | key k => cases h1; cases hg; exact push _ (by simp)
      | fault text => cases h1; cases hg; exact push _ (by simp)
      | size w h =>
        cases h1
        have hg : if w = g.width ∧ h = g.height then g1 = g else Ready g1 ∧ g1.width = w ∧ g1.height = h := hg
        show queueSize (sizeOf' b.term) (b.queue ++ [.resize w h]) = _
        rw [queueSize_append]
        show (w, h) = _
        split at hg
        · rename_i e; cases hg; rw [e.1, e.2]
        · rw [hg.2.1, hg.2.2]
      | line l =>
        have hg : g1 = g.drawAll ds := hg
        simp only [App.step, Except.ok.injEq, Prod.mk.injEq] at h1
        obtain ⟨rfl, rfl⟩ := h1
        cases hg
        show queueSize (sizeOf' b.term) (b.queue ++ (eventOf (errText l) (Connection.receive o parse b.term.connection l).2).toList) = (g.width, g.height)
        cases (Connection.receive o parse b.term.connection l).2 <;> first
          | exact push _ (by simp)
          | (show queueSize (sizeOf' b.term) (b.queue ++ []) = _; rw [List.append_nil]; exact h0)
      | treat =>
        have hg : g1 = g.drawAll ds := hg
        subst hg
        obtain ⟨z1, z2⟩ := drawAll_size ds g
        rw [z1, z2]
        simp only [App.step] at h1
        rcases ite_inv h1 with ⟨_, h1⟩ | ⟨_, h1⟩
        · cases h1; exact h0
        · cases hq : b.queue with
          | nil => simp only [hq] at h1; cases h1; exact h0
          | cons e q =>
            simp only [hq] at h1
            obtain ⟨⟨t, d⟩, ht, h1⟩ := bind_inv h1
            cases h1
            show queueSize (sizeOf' t) q = _
            rw [treat_size ht, ← h0, hq]
            rfl
  have := key (b := ⟨t, []⟩) (by show (t.width, t.height) = _; rw [hw', hh', hw, hh]) hrun
  rw [hq] at this
  exact Prod.mk.inj this

/-- C109, to the end: such a user of a server within the rules of C83 reads the present state of the buffers of its view: all their
lines, cut to the screen; of more rows than the screen has, the ones that C60 says. -/
theorem C109_user (ho : OrnamentOk o) (hp : JsonText.ReadsBack parse) {enw : Env} {seg : Segmentation} (hseg : enw.seg = seg)
    {s s' : Server LuaState} (r : SafeServer .ascii s) (hr : ServerRun s) {c : Nat} (hc : c ∈ s.index)
    (hu : UpToDate enw s.editor.core c) (hnew : notesTo c s.written = []) (h0 : s.delivered ≤ s.editor.core.out.length)
    (hsome : (screen c (s.editor.core.out.drop s.delivered)).isSome = true)
    {steps : List (Server.Step LuaState)} (hs : UserSchedule .ascii seg c s steps) (h : s.loop steps = .ok (s', none))
    (hf : ∀ n ∈ notesTo c s'.written, Spec.Fits n) (hall : s'.delivered = s'.editor.core.out.length)
    {width height : Nat} {files : List Str} {t : Term T} (ht : Term.new width height files = .ok t) {ts : List Tui.Step} {a : App T}
    {g g' : Glass} (hread : linesIn ts = readLines ((wiresTo c s'.written).flatMap fun w => frame (w.encode o)))
    (hl : LegibleRun o p parse errText ⟨t, []⟩ ts)
    (hrun : GlassRun o p parse errText ⟨t, []⟩ g ts a g') (hq : a.queue = [])
    (hleft : hintLeft o parse (linesIn ts) = false) (hg : Ready g) (hw : g.width = width) (hh : g.height = height)
    (hb : height ≤ 65535) :
    ∃ ctx items, s'.editor.core.clients.map.get c = some ctx ∧
      List.Forall₂ (ShowsBuffer s'.editor.core) ctx.view.buffers items ∧
      (∀ m, a.term.connection.state.menu = some m → ReadsMenu p g' m) ∧
      (a.term.connection.state.menu = none → ctx.view.buffers ≠ [] → ReadsView p g' (items.map (seenItem o)) ∧
        ReadsStatus p g' a.term.connection.state) := by
  obtain ⟨ds, hrun'⟩ := glassRun_run hrun
  obtain ⟨xs, h1, h2⟩ := app_connection hrun'
  have h3 := conn_run_append (new_run (o := o) (parse := parse) ht) h2
  obtain ⟨ctx, items, k1, _, k3, k4⟩ := rules83_user rules_ascii ho hp hseg r hr hc hu hnew h0 hsome hs h hf
    (by rw [linesOf_append, h1, no_lines, List.nil_append, hread]) h3 hall
  obtain ⟨s1, rest, e1, r1, _⟩ := C83_loop hseg r hc hs hu
  rw [h] at e1
  cases e1
  refine ⟨ctx, items, k1, forall2_mono k4 fun _ _ _ hx => shows_ascii (safe_server rules_ascii r1).2 hx, ?_⟩
  obtain ⟨i0, i⟩ := C109_session ht hg hw hh hb hl hrun hq hleft
  refine ⟨i0, fun hm hne => ?_⟩
  have hv : a.term.connection.state.view ≠ [] := by
    rw [k3]
    intro hv
    rw [List.map_eq_nil_iff.1 hv] at k4
    cases hb : ctx.view.buffers with
    | nil => exact hne hb
    | cons b bs => rw [hb] at k4; cases k4
  obtain ⟨i1, i2⟩ := i hm hv
  rw [k3] at i1
  exact ⟨i1, i2⟩

/-- C109, for a view of one buffer that is read as `C109_session` says: the user reads its name and the number of its lines in the
first row, and then its lines. -/
theorem C109_buffer (hplain : ∀ l, p.plain (o.decorated l) = l.text.map fun b => Char.ofNat b.toNat) {g : Glass} (hh : 2 ≤ g.height)
    {w : World} {name : Str} {item : ViewParamsItem} (hs : ShowsBuffer w name item) (hr : ReadsView p g [seenItem o item]) :
    ∃ b s, w.buffers.get name = some b ∧ Shows b.content s ∧
      Reads g 0 ((str!"-[" ++ name ++ str!"][1:" ++ natStr (Spec.lines s).length ++ str!"]" ++ List.replicate g.width '-').take g.width) false ∧
      ∀ k line, (cleanLines s)[k]? = some line → k + 2 < g.height →
        ReadsLetters g (k + 1) ((line.map (fun b => Char.ofNat b.toNat) ++ [' ']).take g.width) := by
  obtain ⟨rfl, b, s, e1, e2, e3, e4, e5, e6⟩ := hs
  have hd : ∀ k, k + 1 < g.height → (drawn g.height (rowsOf [seenItem o item]))[(drawn g.height (rowsOf [seenItem o item])).length - g.height + k]? =
      (rowsOf [seenItem o item])[k]? := by
    intro k hk
    have hn := C60_one (height := g.height) (seenItem o item) hh
    rw [show (drawn g.height (rowsOf [seenItem o item])).length - g.height + k = k by omega]
    unfold drawn
    split
    · rw [List.getElem?_take]; rw [if_pos (by omega)]
    · rfl
  refine ⟨b, s, e1, e2, ?_, fun k line hk hlt => ?_⟩
  · have := reads_header (readsView_row hr (y := 0) (by omega) (r := .header item.buffer 1 (Spec.lines s).length)
      (by rw [hd 0 (by omega), ← e3, ← e4]; rfl))
    have e : natStr 1 = str!"1" := by decide +kernel
    simpa [rowText, e] using this
  · cases hl : item.lenses with
    | nil => exact absurd hl e5
    | cons l ls =>
      obtain ⟨_, e7⟩ := e6 l (by rw [hl]; exact List.mem_cons_self)
      have hx : ∃ d, l.lines[k]? = some d ∧ d.text = line ++ [32] := by
        have : (l.lines.map (·.text))[k]? = some (line ++ [32]) := by rw [e7, List.getElem?_map, hk]; rfl
        rw [List.getElem?_map] at this
        obtain ⟨d, h1, h2⟩ := Option.map_eq_some_iff.1 this
        exact ⟨d, h1, h2⟩
      obtain ⟨d, h1, h2⟩ := hx
      have hrow : (rowsOf [seenItem o item])[k + 1]? = some (.line (o.decorated d)) := by
        have hkl : k < l.lines.length := (List.getElem?_eq_some_iff.1 h1).1
        simp only [rowsOf, seenItem, seenLens, hl, List.flatMap_cons, List.flatMap_nil, List.append_nil, List.map_cons, List.getElem?_cons_succ,
          List.map_append]
        rw [List.getElem?_append_left (by simpa using hkl)]
        simp [h1]
      have := readsRow_letters (readsView_row hr (y := k + 1) (by omega) (by rw [hd _ (by omega)]; exact hrow))
      have e8 : (p.plain (o.decorated d)).take g.width = (line.map (fun b => Char.ofNat b.toNat) ++ [' ']).take g.width := by
        rw [hplain, h2, List.map_append]
        rfl
      rw [e8] at this
      exact this

/-- C109: in a view of one buffer that is read as `C109_session` says, every line shows the letters that the server sent, in reversed
video where a selection covers them and nowhere else. -/
theorem C109_marked (ho : FaithfulLines o p) {g : Glass} (hh : 2 ≤ g.height) {item : ViewParamsItem}
    (hr : ReadsView p g [seenItem o item]) {k : Nat} {d : DecoratedLine} (hk : (item.lenses.flatMap (·.lines))[k]? = some d)
    (hd : ∀ b ∈ d.text, OneCell (Char.ofNat b.toNat)) (hlt : k + 2 < g.height) :
    ∀ x < g.width, g.cells (k + 1) x = ((markedCells d)[x]?).getD .blank := by
  have hn := C60_one (height := g.height) (seenItem o item) hh
  have hrow : (rowsOf [seenItem o item])[k + 1]? = some (.line (o.decorated d)) := by
    have e : (seenItem o item).lenses.flatMap (·.lines) = (item.lenses.flatMap (·.lines)).map o.decorated := by
      simp only [seenItem, seenLens, List.flatMap_map, List.map_flatMap]
    simp only [rowsOf, List.flatMap_cons, List.flatMap_nil, List.append_nil, List.getElem?_cons_succ, e, List.getElem?_map, hk,
      Option.map_some]
  refine reads_marked ho hd (readsView_row hr (y := k + 1) (by omega) ?_)
  rw [show (drawn g.height (rowsOf [seenItem o item])).length - g.height + (k + 1) = k + 1 by omega]
  unfold drawn
  split
  · rw [List.getElem?_take, if_pos (by omega)]; exact hrow
  · exact hrow

/-- C109: of a buffer that two users look at, each in a view of that buffer alone, the same letters are read on both glasses, in every
place that both have: its name, the number of its lines, and its lines; each user sees other selections. -/
theorem C109_same (hplain : ∀ l, p.plain (o.decorated l) = l.text.map fun b => Char.ofNat b.toNat) {g1 g2 : Glass}
    (hh1 : 2 ≤ g1.height) (hh2 : 2 ≤ g2.height) {w : World} {name : Str} {i1 i2 : ViewParamsItem} (hs1 : ShowsBuffer w name i1)
    (hs2 : ShowsBuffer w name i2) (hr1 : ReadsView p g1 [seenItem o i1]) (hr2 : ReadsView p g2 [seenItem o i2]) :
    ∃ b s, w.buffers.get name = some b ∧ Shows b.content s ∧
      ∀ y x, y ≤ (cleanLines s).length → y + 1 < g1.height → y + 1 < g2.height → x < g1.width → x < g2.width →
        (g1.cells y x).letter = (g2.cells y x).letter := by
  obtain ⟨b, s, e1, e2, e3, e4⟩ := C109_buffer hplain hh1 hs1 hr1
  obtain ⟨b', s', f1, f2, f3, f4⟩ := C109_buffer hplain hh2 hs2 hr2
  rw [e1] at f1
  cases f1
  cases PieceTable.shows_unique e2 f2
  have same : ∀ {y : Nat} {t1 t2 : Str}, ReadsLetters g1 y (t1.take g1.width) → ReadsLetters g2 y (t2.take g2.width) →
      ∀ x, t1[x]? = t2[x]? → x < g1.width → x < g2.width → (g1.cells y x).letter = (g2.cells y x).letter := by
    intro y t1 t2 r1 r2 x ht h1 h2
    rw [r1 x h1, r2 x h2, List.getElem?_take, List.getElem?_take, if_pos h1, if_pos h2, ht]
  refine ⟨b, s, e1, e2, fun y x hy h1 h2 h3 h4 => ?_⟩
  cases y with
  | zero =>
    refine same (reads_letters e3) (reads_letters f3) x ?_ h3 h4
    simp only [List.append_assoc]
    have : ∀ l : Str, (l ++ List.replicate g1.width '-')[x]? = (l ++ List.replicate g2.width '-')[x]? := by
      intro l
      by_cases hx : x < l.length
      · rw [List.getElem?_append_left hx, List.getElem?_append_left hx]
      · rw [List.getElem?_append_right (by omega), List.getElem?_append_right (by omega), List.getElem?_replicate,
          List.getElem?_replicate, if_pos (by omega), if_pos (by omega)]
    simpa only [List.append_assoc] using this (str!"-[" ++ name ++ str!"][1:" ++ natStr (Spec.lines s).length ++ str!"]")
  | succ k =>
    obtain ⟨line, hl⟩ : ∃ line, (cleanLines s)[k]? = some line := ⟨_, List.getElem?_eq_getElem (by omega)⟩
    exact same (e4 k line hl (by omega)) (f4 k line hl (by omega)) x rfl h3 h4

/-- C109: what a user within the rules of C83 reads, whichever the rules are. -/
theorem C109_seated {R : Rules} (hR : Known R) (ho : OrnamentOk o) (hp : JsonText.ReadsBack parse) {env : Env} {c : Nat}
    {s : Server LuaState} {a : App T} {g : Glass} (h : Seated R env o p parse errText c s a g) :
    ∃ ctx items, s.editor.core.clients.map.get c = some ctx ∧ List.Forall₂ (ShowsText s.editor.core) ctx.view.buffers items ∧
      (∀ m, a.term.connection.state.menu = some m → ReadsMenu p g m) ∧
      (a.term.connection.state.menu = none → ctx.view.buffers ≠ [] → ReadsView p g (items.map (seenItem o)) ∧
        ReadsStatus p g a.term.connection.state) := by
  obtain ⟨width, height, files, t, g0, ts, ht, hg, hw, hh, hb, hl, hrun, hread, hleft⟩ := h.session
  obtain ⟨ds, hrun'⟩ := glassRun_run hrun
  obtain ⟨xs, h1, h2⟩ := app_connection hrun'
  have h3 := conn_run_append (new_run (o := o) (parse := parse) ht) h2
  obtain ⟨ctx, items, k1, k3, k4⟩ := watching_shows hR ho hp
    ⟨h.since, h.fit, ⟨_, by rw [linesOf_append, h1, no_lines, List.nil_append, hread], h3⟩, h.all⟩
  obtain ⟨i0, i⟩ := C109_session ht hg hw hh hb hl hrun h.treated hleft
  refine ⟨ctx, items, k1, k4, i0, fun hm hne => ?_⟩
  have hv : a.term.connection.state.view ≠ [] := by
    rw [k3]
    intro hv
    rw [List.map_eq_nil_iff.1 hv] at k4
    cases hb : ctx.view.buffers with
    | nil => exact hne hb
    | cons b bs => rw [hb] at k4; cases k4
  obtain ⟨i1, i2⟩ := i hm hv
  rw [k3] at i1
  exact ⟨i1, i2⟩

/-- C109 and C106: two users, each in a view of the same buffer alone and without an open menu, read the same letters on their glasses, in every
place that both have, whenever they connected and whatever they and others did since. -/
theorem C109_two (ho : OrnamentOk o) (hp : JsonText.ReadsBack parse)
    (hplain : ∀ l, p.plain (o.decorated l) = l.text.map fun b => Char.ofNat b.toNat) {env : Env} {c d : Nat} {s : Server LuaState}
    {a b : App T} {g1 g2 : Glass} (ha : Seated .ascii env o p parse errText c s a g1) (hb : Seated .ascii env o p parse errText d s b g2)
    (hma : a.term.connection.state.menu = none) (hmb : b.term.connection.state.menu = none) {name : Str} {cx dx : ClientContext}
    (hc : s.editor.core.clients.map.get c = some cx) (hcv : cx.view.buffers = [name])
    (hd : s.editor.core.clients.map.get d = some dx) (hdv : dx.view.buffers = [name]) (hh1 : 2 ≤ g1.height) (hh2 : 2 ≤ g2.height) :
    ∃ b x, s.editor.core.buffers.get name = some b ∧ Shows b.content x ∧
      ∀ y col, y ≤ (cleanLines x).length → y + 1 < g1.height → y + 1 < g2.height → col < g1.width → col < g2.width →
        (g1.cells y col).letter = (g2.cells y col).letter := by
  have hsafe : SafeServer .ascii s := by
    obtain ⟨s0, steps, k, hs, hl⟩ := ha.since
    obtain ⟨s1, rest, e1, r1, _⟩ := C83_loop rfl k.safe k.there hs k.current
    rw [hl] at e1
    cases e1
    exact r1
  have one : ∀ {e : Nat} {x : App T} {g : Glass} {ex : ClientContext}, Seated .ascii env o p parse errText e s x g →
      x.term.connection.state.menu = none → s.editor.core.clients.map.get e = some ex → ex.view.buffers = [name] →
      ∃ item, ShowsBuffer s.editor.core name item ∧ ReadsView p g [seenItem o item] := by
    intro e x g ex hx hm he hv
    obtain ⟨ctx, items, k1, k2, _, k3⟩ := C109_seated .ascii ho hp hx
    rw [he] at k1
    cases k1
    rw [hv] at k2 k3
    cases k2 with
    | cons h t =>
      cases t
      exact ⟨_, shows_ascii (safe_server rules_ascii hsafe).2 h, (k3 hm (by simp)).1⟩
  obtain ⟨i1, a1, a2⟩ := one ha hma hc hcv
  obtain ⟨i2, b1, b2⟩ := one hb hmb hd hdv
  exact C109_same hplain hh1 hh2 a1 b1 a2 b2

/-! ### The example of Props/UserScreen.lean, on a glass of 50 columns and 8 rows -/

def cellB (c : Char) : Bool := !decide (c.toNat < 32) && !decide (127 ≤ c.toNat ∧ c.toNat < 160)

theorem cellB_ok {c : Char} (h : cellB c = true) : OneCell c := by
  simp only [cellB, Bool.and_eq_true, Bool.not_eq_true', decide_eq_false_iff_not] at h
  exact fun h' => h'.elim h.1 h.2

def textB (t : List (Str × Face)) : Bool := (bare.plain t).all fun c => decide (c.val < 128) && cellB c

theorem textB_ok {t : List (Str × Face)} (h : textB t = true) : CleanText bare t := by
  have h : ∀ c ∈ bare.plain t, c.val < 128 ∧ OneCell c := fun c hc => by
    have := List.all_eq_true.1 h c hc
    simp only [Bool.and_eq_true, decide_eq_true_eq] at this
    exact ⟨this.1, cellB_ok this.2⟩
  exact { ascii := fun c hc => (h c hc).1, len := rfl, render := rfl, renderMenu := rfl, oneCell := fun c hc => (h c hc).2 }

def menuB (m : RemoteMenu (List (Str × Face))) : Bool :=
  ((m.title ++ m.search).all fun c => decide (c.val < 128) && cellB c) && m.entries.all fun e => textB e.text

theorem menuB_ok {m : RemoteMenu (List (Str × Face))} {w : Nat} (h : menuB m = true) : LegibleMenu bare w m := by
  simp only [menuB, Bool.and_eq_true] at h
  refine ⟨fun c hc => ?_, fun e he rev => ⟨_, .inl ⟨textB_ok (List.all_eq_true.1 h.2 e he), rfl⟩⟩⟩
  have := List.all_eq_true.1 h.1 c hc
  simp only [Bool.and_eq_true, decide_eq_true_eq] at this
  exact ⟨this.1, cellB_ok this.2⟩

def legibleB (a : App (List (Str × Face))) : Bool :=
  let s := a.term.connection.state
  ((rowsOf s.view).all fun r => match r with | .header b _ _ => textB [(b, .default)] | .line t => textB t) &&
  textB (s.echo.getD []) && (s.status.all fun i => (bare.plain i.2).all cellB) && decide (echoLen bare s ≤ a.term.width) &&
    s.menu.all menuB

theorem legibleB_ok {a : App (List (Str × Face))} (h : legibleB a = true) : Legible bare a := by
  simp only [legibleB, Bool.and_eq_true, decide_eq_true_eq] at h
  obtain ⟨⟨⟨⟨h1, h2⟩, h3⟩, h4⟩, h5⟩ := h
  refine ⟨⟨fun r hr => ?_, textB_ok h2, fun i hi c hc => ?_⟩, h4, fun m hm => menuB_ok (by rw [hm] at h5; exact h5)⟩
  · have := List.all_eq_true.1 h1 r hr
    cases r with
    | line t => exact ⟨_, .inl ⟨textB_ok this, rfl⟩⟩
    | header b x y =>
      have h := textB_ok this
      have e : bare.plain [(b, .default)] = b := by simp [bare]
      exact ⟨_, fun c hc => ⟨h.ascii c (by rw [e]; exact hc), h.oneCell c (by rw [e]; exact hc)⟩, rfl⟩
  · exact cellB_ok (List.all_eq_true.1 (List.all_eq_true.1 h3 i hi) c hc)

def lineB (t : List (Str × Face)) : Bool := (bare.plain t).all cellB

theorem lineB_ok {t : List (Str × Face)} (h : lineB t = true) : LegibleText bare t :=
  ⟨rfl, fun c hc => cellB_ok (List.all_eq_true.1 h c hc)⟩

def hintB (w h : Nat) (hint : List (List (Str × Face))) : Bool :=
  decide (w ≤ 65535) && decide (h ≤ 65535) && decide (hint.length ≤ h) && match hint with
    | [] => false
    | first :: _ => decide (0 < (bare.plain first).length) && decide ((bare.plain first).length ≤ w) &&
        hint.all fun l => lineB l && decide ((bare.plain l).length ≤ (bare.plain first).length)

theorem hintB_ok {w h : Nat} {hint : List (List (Str × Face))} (hb : hintB w h hint = true) : FittingHint bare w h hint := by
  simp only [hintB, Bool.and_eq_true, decide_eq_true_eq] at hb
  obtain ⟨⟨⟨h1, h2⟩, h3⟩, h4⟩ := hb
  refine ⟨h1, h2, h3, ?_⟩
  cases hint with
  | nil => cases h4
  | cons first rest =>
    simp only [Bool.and_eq_true, decide_eq_true_eq] at h4
    obtain ⟨⟨h5, h6⟩, h7⟩ := h4
    refine ⟨first, rest, rfl, h5, h6, fun l hl => ?_⟩
    have := List.all_eq_true.1 h7 l hl
    simp only [Bool.and_eq_true, decide_eq_true_eq] at this
    exact ⟨lineB_ok this.1, this.2⟩

def unhinderedB (o : Ornament (List (Str × Face))) (parse : Str → Option Json) (a : App (List (Str × Face))) (s : Tui.Step) : Bool :=
  inTurnB o parse a s && match s with
    | .treat => match a.queue with
      | .drawHint h :: _ => hintB a.term.width a.term.height h
      | .drawMenu m :: _ => menuB m
      | _ => true
    | .size w h => decide (0 < w) && decide (0 < h) && decide (h ≤ 65535)
    | _ => true

theorem unhinderedB_ok {o : Ornament (List (Str × Face))} {a : App (List (Str × Face))} {s : Tui.Step}
    (h : unhinderedB o parse a s = true) : Unhindered o bare parse a s := by
  simp only [unhinderedB, Bool.and_eq_true] at h
  refine ⟨inTurnB_ok h.1, ?_⟩
  have h := h.2
  cases s with
  | treat =>
    refine ⟨fun x q hx => ?_, fun m q hx => ?_⟩
    · dsimp only at h
      rw [hx] at h
      exact hintB_ok h
    · dsimp only at h
      rw [hx] at h
      exact menuB_ok h
  | size w hh =>
    simp only [Bool.and_eq_true, decide_eq_true_eq] at h
    exact ⟨h.1.1, h.1.2, h.2⟩
  | _ => trivial

def legibleRunB (o : Ornament (List (Str × Face))) (parse : Str → Option Json) (errText : Str → Str) :
    App (List (Str × Face)) → List Tui.Step → Bool
  | a, [] => legibleB a
  | a, s :: ss => legibleB a && unhinderedB o parse a s && match a.step o bare parse errText s with
    | .ok (a', _) => legibleRunB o parse errText a' ss
    | .error _ => true

theorem legibleRunB_ok {o : Ornament (List (Str × Face))} {steps : List Tui.Step} {a : App (List (Str × Face))}
    (h : legibleRunB o parse errText a steps = true) : LegibleRun o bare parse errText a steps := by
  induction steps generalizing a with
  | nil => exact legibleB_ok h
  | cons s ss ih =>
    simp only [legibleRunB, Bool.and_eq_true] at h
    refine ⟨legibleB_ok h.1.1, unhinderedB_ok h.1.2, fun a' ds hs => ih ?_⟩
    have := h.2
    rw [hs] at this
    exact this

/-- A run in front of a glass; where the size changes, the cells stay where they are. -/
def watch (o : Ornament (List (Str × Face))) (parse : Str → Option Json) (errText : Str → Str) :
    App (List (Str × Face)) → Glass → List Tui.Step → Option (App (List (Str × Face)) × Glass)
  | a, g, [] => some (a, g)
  | a, g, s :: ss => match a.step o bare parse errText s with
    | .error _ => none
    | .ok (a1, ds) => match s with
      | .size w h =>
        if w = g.width ∧ h = g.height then watch o parse errText a1 g ss
        else if 0 < w ∧ 0 < h then watch o parse errText a1 { emptyGlass w h with cells := g.cells } ss else none
      | _ => watch o parse errText a1 (g.drawAll ds) ss

theorem watch_ok {o : Ornament (List (Str × Face))} {steps : List Tui.Step} {a a' : App (List (Str × Face))} {g g' : Glass}
    (h : watch o parse errText a g steps = some (a', g')) : GlassRun o bare parse errText a g steps a' g' := by
  induction steps generalizing a g with
  | nil => cases h; exact ⟨rfl, rfl⟩
  | cons s ss ih =>
    unfold watch at h
    split at h
    · cases h
    · rename_i a1 ds h1
      have other : watch o parse errText a1 (g.drawAll ds) ss = some (a', g') → (∀ w h, s ≠ .size w h) →
          GlassRun o bare parse errText a g (s :: ss) a' g' := fun h hs => by
        refine ⟨a1, ds, g.drawAll ds, h1, ?_, ih h⟩
        cases s with
        | size w hh => exact absurd rfl (hs w hh)
        | _ => rfl
      cases s with
      | size w hh =>
        have h : (if w = g.width ∧ hh = g.height then watch o parse errText a1 g ss
          else if 0 < w ∧ 0 < hh then watch o parse errText a1 { emptyGlass w hh with cells := g.cells } ss else none) = some (a', g') := h
        split at h
        · rename_i e
          exact ⟨a1, ds, g, h1, by simp only [if_pos e], ih h⟩
        · rename_i e
          split at h
          · rename_i e'
            exact ⟨a1, ds, _, h1, by simp only [if_neg e]; exact ⟨⟨e'.1, e'.2, rfl, rfl⟩, rfl, rfl⟩, ih h⟩
          · cases h
      | _ => exact other h (by simp)

/-- What is read at the end of a session, row by row, and whether the row begins in reversed video, if everything was treated; it is none
if a hypothesis of C109_session is not met. -/
def readAfter (width height : Nat) (steps : List Tui.Step) : Option (List (Str × Bool)) :=
  match Term.new width height [] with
  | .error _ => none
  | .ok t =>
    match watch fragmentTexts JsonText.parse (fun _ => []) { term := t, queue := [] } (emptyGlass width height) steps with
    | none => none
    | some (a, g) =>
      if a.queue.isEmpty && legibleRunB fragmentTexts JsonText.parse (fun _ => []) { term := t, queue := [] } steps &&
          !hintLeft (T := List (Str × Face)) fragmentTexts JsonText.parse (linesIn steps) then
        some ((List.range g.height).map fun y => (letters g y, (g.cells y 0).reversed))
      else none

/-- The glass of the first client there (keys are pressed meanwhile). -/
def userGlass : Option (List Str) :=
  match userEnd with
  | .error _ => none
  | .ok s =>
    let ls := readLines ((wiresTo 1 s.written).flatMap fun w => frame (w.encode fragmentTexts))
    let steps := ls.map Tui.Step.line ++ [.key ⟨.char 'g', false, false, false⟩] ++ List.replicate (ls.length + 1) Tui.Step.treat
    (readAfter 50 8 steps).map (·.map (·.1))

/-- Both files, as they are after the deletion; the message; the status at the right, as many columns short of the end as it has dots. -/
example : userGlass = some [str!"-[f][1:1]-----------------------------------------",
    str!"1234                                              ",
    str!"-[g][1:2]-----------------------------------------", str!"                                                  ",
    str!"b                                                 ", str!"                                                  ",
    str!"                                                  ", str!"hi                                     d·N·[1@s]  "] := by
  decide +kernel

/-- And of the session of C103: the menu that was opened while the view was still to be drawn, after `down` twice, and then the
window becomes 20 columns and 6 rows. -/
example : readAfter 30 6 stepsM = some [(str!"file:               ", true), (str!"a                   ", false),
    (str!"b                   ", true), (str!"                    ", false),
    (str!"                    ", false), (str!"                    ", false)] := by
  decide +kernel

/-! ### The two users of Props/Agree.lean, on glasses of 50 columns and 5 rows and of 40 columns and 6 rows -/

/-- What the terminal client of user `c` goes through. -/
def seatSteps (c : Nat) (s : Server LuaState) : List Tui.Step :=
  let ls := readLines ((wiresTo c s.written).flatMap fun w => frame (w.encode fragmentTexts))
  ls.map Tui.Step.line ++ List.replicate ls.length Tui.Step.treat

def seatB (c width height : Nat) (s : Server LuaState) : Bool :=
  decide (linesIn (seatSteps c s) = readLines ((wiresTo c s.written).flatMap fun w => frame (w.encode fragmentTexts))) &&
  !hintLeft (T := List (Str × Face)) fragmentTexts JsonText.parse (linesIn (seatSteps c s)) &&
  (match s.editor.core.clients.map.get c with | some ctx => ctx.view.buffers == [['f']] | none => false) &&
  match Term.new width height [] with
  | .error _ => false
  | .ok t =>
    legibleRunB fragmentTexts JsonText.parse (fun _ => []) { term := t, queue := [] } (seatSteps c s) &&
    match watch fragmentTexts JsonText.parse (fun _ => []) { term := t, queue := [] } (emptyGlass width height) (seatSteps c s) with
    | none => false
    | some (a, g) => a.queue.isEmpty && a.term.connection.state.menu.isNone && decide (g.width = width ∧ g.height = height)

theorem seatB_ok {c width height : Nat} {s : Server LuaState} (hw : 0 < width) (hh : 0 < height) (hb : height ≤ 65535)
    (since : ∃ s0 steps, Connected .ascii envA c s0 ∧ UserSchedule .ascii envA.seg c s0 steps ∧ s0.loop steps = .ok (s, none))
    (fit : ∀ n ∈ notesTo c s.written, Spec.Fits n) (all : s.delivered = s.editor.core.out.length) (h : seatB c width height s = true) :
    ∃ a g ctx, Seated .ascii envA fragmentTexts bare JsonText.parse (fun _ => []) c s a g ∧ a.term.connection.state.menu = none ∧
      s.editor.core.clients.map.get c = some ctx ∧ ctx.view.buffers = [['f']] ∧ g.width = width ∧ g.height = height := by
  unfold seatB at h
  simp only [Bool.and_eq_true, decide_eq_true_eq, Bool.not_eq_true'] at h
  obtain ⟨⟨⟨h1, h2⟩, h3⟩, h4⟩ := h
  split at h3
  · rename_i ctx hctx
    split at h4
    · cases h4
    · rename_i t ht
      rw [Bool.and_eq_true] at h4
      obtain ⟨h5, h4⟩ := h4
      split at h4
      · cases h4
      · rename_i a g hag
        simp only [Bool.and_eq_true, decide_eq_true_eq, List.isEmpty_iff, Option.isNone_iff_eq_none] at h4
        exact ⟨a, g, ctx, ⟨since, fit, all, ⟨width, height, [], t, emptyGlass width height, seatSteps c s, ht, ⟨hw, hh, rfl, rfl⟩, rfl, rfl, hb,
          legibleRunB_ok h5, watch_ok hag, h1, h2⟩, h4.1.1⟩, h4.1.2, hctx, by simpa using h3, h4.2.1, h4.2.2⟩
  · cases h3

/-- C109_two applies. -/
example : ∃ s a b g1 g2 cx dx, Seated .ascii envA fragmentTexts bare JsonText.parse (fun _ => []) 1 s a g1 ∧
    Seated .ascii envA fragmentTexts bare JsonText.parse (fun _ => []) 2 s b g2 ∧
    a.term.connection.state.menu = none ∧ b.term.connection.state.menu = none ∧
    s.editor.core.clients.map.get 1 = some cx ∧ cx.view.buffers = [['f']] ∧
    s.editor.core.clients.map.get 2 = some dx ∧ dx.view.buffers = [['f']] ∧ 2 ≤ g1.height ∧ 2 ≤ g2.height := by
  obtain ⟨s, h1, h2, f1, f2, hall, h⟩ := agree_world (extra := fun s => seatB 1 50 5 s && seatB 2 40 6 s) (by decide +kernel)
  rw [Bool.and_eq_true] at h
  obtain ⟨a, g1, cx, a1, a2, a3, a4, a5, a6⟩ := seatB_ok (by decide) (by decide) (by decide) h1 f1 hall h.1
  obtain ⟨b, g2, dx, b1, b2, b3, b4, b5, b6⟩ := seatB_ok (by decide) (by decide) (by decide) h2 f2 hall h.2
  exact ⟨s, a, b, g1, g2, cx, dx, a1, b1, a2, b2, a3, a4, b3, b4, by rw [a6]; decide, by rw [b6]; decide⟩

/-! ### A line with a selection -/

/-- `let x` and the space for the end of the line, with a selection of `x`. -/
def markedItem : ViewParamsItem :=
  { buffer := str!"f", start := 1, stop := 1
    lenses := [{ lines := [{ text := [108, 101, 116, 32, 120, 32], selected := [(4, 5)] }], firstLineNum := 1 }] }

/-- The state of a client that received it. -/
def markedState : ConnectionState (List LinePart) :=
  { (Connection.new : Connection (List LinePart)).state with view := [seenItem pieceTexts markedItem] }

theorem markedState_faced : FacedState pieced 14 markedState := by
  refine ⟨fun r hr => ?_, ?_, fun i hi => (by cases hi)⟩
  · have e : rowsOf markedState.view = [.header str!"f" 1 1, .line (pieceTexts.decorated
        { text := [108, 101, 116, 32, 120, 32], selected := [(4, 5)] })] := rfl
    rw [e] at hr
    simp only [List.mem_cons, List.not_mem_nil, or_false] at hr
    rcases hr with rfl | rfl
    · refine ⟨_, fun c hc => ?_, rfl⟩
      simp only [List.mem_cons, List.not_mem_nil, or_false] at hc; subst hc; unfold OneCell; decide
    · refine ⟨_, .inr ⟨_, ⟨rfl, rfl, ?_⟩, by decide +kernel, by decide +kernel, rfl⟩⟩
      unfold OneCell
      decide +kernel
  · exact { ascii := (by intro c hc; cases hc), len := rfl, render := rfl, renderMenu := rfl, oneCell := (by intro c hc; cases hc) }

/-- C109_marked applies: what is read of this line, and that nothing but `x` is in reversed video. -/
example : ∃ ds, drawView pieced 14 5 markedState = .ok ds ∧
    ReadsView pieced ((emptyGlass 14 5).drawAll ds) [seenItem pieceTexts markedItem] ∧
    (letters ((emptyGlass 14 5).drawAll ds) 1 = str!"let x         ") ∧
    ∀ x < 14, (((emptyGlass 14 5).drawAll ds).cells 1 x).reversed = decide (x = 4) := by
  cases h : drawView pieced 14 5 markedState with
  | error e =>
    have : (drawView pieced 14 5 markedState).toOption.isSome = true := by decide +kernel
    rw [h] at this
    cases this
  | ok ds =>
    have hr := (view_drawn (g := emptyGlass 14 5) ⟨by decide, by decide, rfl, rfl⟩ markedState_faced (by decide +kernel) h).2.1
    have hw : ((emptyGlass 14 5).drawAll ds).width = 14 := (drawAll_size ds (emptyGlass 14 5)).1
    have hm := C109_marked pieceTexts_faithful (by rw [(drawAll_size ds (emptyGlass 14 5)).2]; decide) hr (k := 0) (d := _) rfl
      (by unfold OneCell; decide +kernel) (by rw [(drawAll_size ds (emptyGlass 14 5)).2]; decide)
    rw [hw] at hm
    refine ⟨ds, rfl, hr, ?_, fun x hx => ?_⟩
    · unfold letters
      rw [hw]
      have : ∀ x ∈ List.range 14, (((emptyGlass 14 5).drawAll ds).cells 1 x).letter =
          (((markedCells { text := [108, 101, 116, 32, 120, 32], selected := [(4, 5)] })[x]?).getD .blank).letter := fun x hx => by
        rw [← hm x (List.mem_range.1 hx)]
      rw [List.map_congr_left this]
      decide +kernel
    · rw [hm x hx]
      revert x
      decide +kernel

end Ced.Props
