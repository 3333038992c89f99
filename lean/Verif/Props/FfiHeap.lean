import Verif.Proofs.FfiHeap
import Verif.Props.FfiGen

/-!
# C90: the memory of the C library

A C program gets pointers from the library, asks iterators for their items and frees what it got.  The statements are about
what such a program knows: the list of its calls and what it got from each (`Spec/FfiHeap`).
-/

namespace Ced.Props
open Spec Ffi FfiGen

variable {T : Type} {frags : T → List Fragment} {tr : List (Entry T)} {h h' : Heap T}

/-- C90 (what is in memory): in every history of a program, a block is in memory exactly if the program got a pointer to it
and did not free it: nothing is freed behind its back (not even the parts of an event that it frees), and nothing is left that
it cannot reach.  What it contains is what it contained at first, but for the position of an iterator, which depends on the
number of calls for that iterator only. -/
theorem C90_alive (hh : History frags tr h) (p : Addr) (o' : Obj T) :
    h.get p = some o' ↔ ∃ o, Holds tr p o ∧ o' = afterAsking (asked tr p) o := (accounted hh).state p o'

/-- C90 (each pointer once): no pointer is handed out twice, so that what one call gives is not freed by freeing what another
gave. -/
theorem C90_once (hh : History frags tr h) : ((tr.flatMap (·.got)).map Prod.fst).Nodup := (accounted hh).nodup

theorem got_unique {p : Addr} {o1 o2 : Obj T} (hh : History frags tr h) (h1 : Got tr p o1) (h2 : Got tr p o2) : o1 = o2 := by
  have key : ∀ l : List (Addr × Obj T), (l.map Prod.fst).Nodup → ∀ {p a b}, (p, a) ∈ l → (p, b) ∈ l → a = b := by
    intro l
    induction l with
    | nil => intro _ _ _ _ h; cases h
    | cons x l ih =>
      intro hn p a b ha hb
      rw [List.map_cons, List.nodup_cons] at hn
      rcases List.mem_cons.1 ha with ha | ha
      · rcases List.mem_cons.1 hb with hb | hb
        · rw [← ha] at hb; cases hb; rfl
        · exact absurd (List.mem_map.2 ⟨_, hb, by rw [← ha]⟩) hn.1
      · rcases List.mem_cons.1 hb with hb | hb
        · exact absurd (List.mem_map.2 ⟨_, ha, by rw [← hb]⟩) hn.1
        · exact ih hn.2 ha hb
  obtain ⟨e1, m1, g1⟩ := h1
  obtain ⟨e2, m2, g2⟩ := h2
  exact key _ (C90_once hh) (List.mem_flatMap.2 ⟨e1, m1, g1⟩) (List.mem_flatMap.2 ⟨e2, m2, g2⟩)

theorem after_ty (k : Nat) (o : Obj T) : (afterAsking k o).ty = o.ty := by cases o <;> rfl

/-- In terms of the history: which type is at a pointer. -/
theorem ty_iff (hh : History frags tr h) (p : Addr) (t : Ty) :
    (∃ o, h.get p = some o ∧ o.ty = t) ↔ ∃ o, Holds tr p o ∧ o.ty = t := by
  constructor
  · rintro ⟨o', h1, h2⟩
    obtain ⟨o, ho, e⟩ := (C90_alive hh p o').1 h1
    exact ⟨o, ho, by rw [← h2, e, after_ty]⟩
  · rintro ⟨o, ho, h2⟩
    exact ⟨_, (C90_alive hh p _).2 ⟨o, ho, rfl⟩, by rw [after_ty, h2]⟩

/-- A result that is not a memory error. -/
def Sound {α : Type} (x : Except Fault α) : Prop := x ≠ .error .memory

theorem sound_ok {α : Type} (a : α) : Sound (.ok a : Except Fault α) := by intro h; cases h

theorem sound_panic {α : Type} (e : Panic) : Sound (.error (.panic e) : Except Fault α) := by intro h; cases h

theorem sound_bind {α β : Type} {x : Except Fault α} {f : α → Except Fault β} (hx : Sound x) (hf : ∀ a, Sound (f a)) :
    Sound (x >>= f) := by
  cases x with
  | error e => intro h; exact hx (by cases h; rfl)
  | ok a => exact hf a

theorem sound_string (h : Heap T) (s : Str) : Sound (h.string s) := by
  unfold Heap.string
  split
  · exact sound_panic _
  · exact sound_ok _

theorem sound_event (h : Heap T) (ev : ConnectionEvent T) : Sound (h.event frags ev) := by
  cases ev with
  | echo t => exact sound_ok _
  | info c s => exact sound_bind (sound_string _ _) fun _ => sound_bind (sound_string _ _) fun _ => sound_ok _
  | menu m =>
    exact sound_bind (sound_string _ _) fun _ => sound_bind (sound_string _ _) fun _ => sound_bind (sound_string _ _) fun _ => sound_ok _
  | status l => exact sound_ok _
  | view l => exact sound_ok _
  | hint l => exact sound_panic _
  | connErr => exact sound_panic _
  | noop => exact sound_panic _

theorem sound_advance {α : Type} {make : Heap T → α → Except Fault (Heap T × Addr)} (hm : ∀ h x, Sound (make h x))
    (h : Heap T) (p : Addr) (wrap : Iter α → Obj T) (it : Iter α) : Sound (h.advance make p wrap it) := by
  unfold Heap.advance
  split
  · exact sound_ok _
  · exact sound_bind (hm _ _) fun _ => sound_ok _

/-- C90 (memory errors): in every history, a call makes a memory error (uses a pointer to nothing or to something else) exactly
if it breaks the rules, which a program can follow from what it knows: pass pointers that it got from the library, of the
right type, and did not free.  So a program that follows them makes none. -/
theorem C90_memory (hh : History frags tr h) (c : HeapCall T) : h.step frags c = .error .memory ↔ ¬ Allowed tr c := by
  cases c with
  | version a b c d =>
    refine ⟨fun e => absurd e ?_, fun e => absurd trivial e⟩
    exact sound_bind (sound_string _ _) fun _ => sound_bind (sound_string _ _) fun _ => sound_bind (sound_string _ _) fun _ =>
      sound_bind (sound_string _ _) fun _ => sound_ok _
  | connect s =>
    refine ⟨fun e => absurd e ?_, fun e => absurd trivial e⟩
    cases s <;> exact sound_ok _
  | nextEvent p ev =>
    cases p with
    | none => exact ⟨fun _ ⟨q, o, e, _⟩ => (by cases e), fun _ => rfl⟩
    | some p =>
      have e1 : Allowed tr (.nextEvent (some p) ev) ↔ ∃ o, h.get p = some o ∧ o.ty = .connection := by
        rw [ty_iff hh]
        constructor
        · rintro ⟨q, o, e, h1⟩; cases e; exact ⟨o, h1⟩
        · rintro ⟨o, h1⟩; exact ⟨p, o, rfl, h1⟩
      rw [e1]
      simp only [Heap.step]
      split
      · rename_i hp
        refine ⟨fun e => absurd e ?_, fun e => absurd ⟨_, hp, rfl⟩ e⟩
        split
        · exact sound_ok _
        · exact sound_bind (sound_event _ _) fun _ => sound_ok _
      · rename_i hp
        refine ⟨fun _ => ?_, fun _ => rfl⟩
        rintro ⟨o, h1, h2⟩
        cases o <;> first | exact hp h1 | cases h2
  | nextItem f p =>
    cases p with
    | none => exact ⟨fun _ ⟨q, o, e, _⟩ => (by cases e), fun _ => rfl⟩
    | some p =>
      have e1 : Allowed tr (.nextItem f (some p)) ↔ ∃ o, h.get p = some o ∧ o.ty = f.ty := by
        rw [ty_iff hh]
        constructor
        · rintro ⟨q, o, e, h1⟩; cases e; exact ⟨o, h1⟩
        · rintro ⟨o, h1⟩; exact ⟨p, o, rfl, h1⟩
      rw [e1]
      simp only [Heap.step]
      have st : ∀ (h : Heap T) (x : Fragment), Sound (h.textItem x) := fun h x =>
        sound_bind (sound_string _ _) fun _ => sound_bind (sound_string _ _) fun _ => sound_ok _
      have sv : ∀ (h : Heap T) (x : RemoteItem T), Sound (h.viewItem x) := fun h x =>
        sound_bind (sound_string _ _) fun _ => sound_ok _
      cases hp : h.get p with
      | none => exact ⟨fun _ ⟨o, h1, _⟩ => (by cases h1), fun _ => (by cases f <;> rfl)⟩
      | some o =>
        cases f <;> cases o <;> first
          | exact ⟨fun _ ⟨o, h1, h2⟩ => (by cases h1; cases h2), fun _ => rfl⟩
          | exact ⟨fun e => absurd e (sound_advance st _ _ _ _), fun e => absurd ⟨_, rfl, rfl⟩ e⟩
          | exact ⟨fun e => absurd e (sound_advance sv _ _ _ _), fun e => absurd ⟨_, rfl, rfl⟩ e⟩
          | exact ⟨fun e => absurd e (sound_advance (fun _ _ => sound_ok _) _ _ _ _), fun e => absurd ⟨_, rfl, rfl⟩ e⟩
  | destroy f p =>
    cases p with
    | none =>
      refine ⟨fun e => absurd e (sound_ok _), fun e => absurd ?_ e⟩
      intro q hq; cases hq
    | some p =>
      have e1 : Allowed tr (.destroy f (some p)) ↔ ∃ o, h.get p = some o ∧ o.ty = f.ty := by
        rw [ty_iff hh]
        constructor
        · intro h1; exact h1 p rfl
        · rintro ⟨o, h1⟩ q e; cases e; exact ⟨o, h1⟩
      rw [e1]
      simp only [Heap.step]
      split
      · rename_i o hp
        split
        · rename_i ht
          exact ⟨fun e => absurd e (sound_ok _), fun e => absurd ⟨_, hp, ht⟩ e⟩
        · rename_i ht
          refine ⟨fun _ => ?_, fun _ => rfl⟩
          rintro ⟨o2, h1, h2⟩
          rw [hp] at h1; cases h1; exact ht h2
      · rename_i hp
        refine ⟨fun _ => ?_, fun _ => rfl⟩
        rintro ⟨o2, h1, h2⟩
        rw [hp] at h1; cases h1

/-! ### What is handed out -/

/-- The events that the library can hand out: not hints, and no text that becomes a C string contains a zero byte. -/
def Handed : ConnectionEvent T → Prop
  | .info c s => NoZero c ∧ NoZero s
  | .menu m => NoZero m.command ∧ NoZero m.title ∧ NoZero m.search
  | .echo _ => True
  | .status _ => True
  | .view _ => True
  | _ => False

theorem string_zero (h : Heap T) {s : Str} (hs : ¬ NoZero s) : h.string s = .error (.panic .unwrap) := by
  unfold Heap.string
  rw [if_pos (by unfold NoZero at hs; simpa using hs)]

theorem event_ok (h : Heap T) {ev : ConnectionEvent T} (hv : Handed ev) : ∃ x, h.event frags ev = .ok x := by
  cases ev with
  | echo t => exact ⟨_, rfl⟩
  | status t => exact ⟨_, rfl⟩
  | view t => exact ⟨_, rfl⟩
  | hint l => exact hv.elim
  | connErr => exact hv.elim
  | noop => exact hv.elim
  | info c s => simp only [Heap.event, heap_string_some _ hv.1, heap_string_some _ hv.2]; exact ⟨_, rfl⟩
  | menu m =>
    simp only [Heap.event, heap_string_some _ hv.1, heap_string_some _ hv.2.1, heap_string_some _ hv.2.2]; exact ⟨_, rfl⟩

theorem event_handed {q : Addr} {ev : ConnectionEvent T} (he : h.event frags ev = .ok (h', q)) : Handed ev := by
  cases ev with
  | connErr => cases he
  | noop => cases he
  | hint l => cases he
  | echo t => trivial
  | status l => trivial
  | view l => trivial
  | info c s =>
    obtain ⟨⟨h1, a⟩, e1, he⟩ := fault_inv he
    obtain ⟨⟨h2, b⟩, e2, he⟩ := fault_inv he
    exact ⟨(heap_string e1).1, (heap_string e2).1⟩
  | menu m =>
    obtain ⟨⟨h1, a⟩, e1, he⟩ := fault_inv he
    obtain ⟨⟨h2, b⟩, e2, he⟩ := fault_inv he
    obtain ⟨⟨h3, c⟩, e3, he⟩ := fault_inv he
    exact ⟨(heap_string e1).1, (heap_string e2).1, (heap_string e3).1⟩

/-- C90 (events): a program that asks a connection that it holds for the next event gets the event that arrived, whole, in new
memory; null if none arrived in time; and the library crashes exactly for the events that it cannot hand out. -/
theorem C90_event (hh : History frags tr h) {p : Addr} {o : Obj T} (hp : Holds tr p o) (ho : o.ty = .connection)
    (ev : Option (ConnectionEvent T)) :
    (∀ h' r, h.step frags (.nextEvent (some p) ev) = .ok (h', r) →
      match ev with | none => r = none ∧ h' = h | some ev => r ≠ none ∧ EventGot frags ev (gets h' r)) ∧
    ((∃ x, h.step frags (.nextEvent (some p) ev) = .ok x) ↔ ∀ e, ev = some e → Handed e) := by
  have hc : h.get p = some .connection := by
    rw [C90_alive hh]
    refine ⟨o, hp, ?_⟩
    cases o <;> first | rfl | cases ho
  constructor
  · intro h' r he
    simp only [Heap.step, hc] at he
    cases ev with
    | none => cases he; exact ⟨rfl, rfl⟩
    | some ev =>
      obtain ⟨⟨h1, q⟩, e1, he⟩ := fault_inv he
      cases he
      obtain ⟨new, got, hm, hg⟩ := event_makes e1
      exact ⟨by simp, by rw [hm.result]; exact hg⟩
  · simp only [Heap.step, hc]
    cases ev with
    | none => exact ⟨fun _ e h => (by cases h), fun _ => ⟨_, rfl⟩⟩
    | some ev =>
      constructor
      · rintro ⟨⟨h1, q⟩, he⟩ e hev
        cases hev
        obtain ⟨⟨h1, q⟩, e1, he⟩ := fault_inv he
        exact event_handed e1
      · intro hv
        obtain ⟨⟨h1, q⟩, e⟩ := event_ok (frags := frags) h (hv ev rfl)
        exact ⟨(h1, some q), by dsimp only; rw [e]; rfl⟩

/-- C90 (version and connection): what a program gets from `ced_version` (whose parts contain no zero byte) and from connecting. -/
theorem C90_created (h : Heap T) {a b c d : Str} (ha : NoZero a) (hb : NoZero b) (hc : NoZero c) (hd : NoZero d) (s : Bool) :
    (∃ h' r p w x y z, h.step frags (.version a b c d) = .ok (h', r) ∧
      gets h' r = [(p, .version w x y z), (w, .string a), (x, .string b), (y, .string c), (z, .string d)]) ∧
    ∃ h' r, h.step frags (.connect s) = .ok (h', r) ∧ if s then ∃ p, gets h' r = [(p, .connection)] else r = none ∧ h' = h := by
  constructor
  · have hs : ∃ x, h.step frags (.version a b c d) = .ok x := by
      simp only [Heap.step, heap_string_some _ ha, heap_string_some _ hb, heap_string_some _ hc, heap_string_some _ hd]
      exact ⟨_, rfl⟩
    obtain ⟨⟨h', r⟩, hs⟩ := hs
    obtain ⟨q, new, got, rfl, hm, p, w, x, y, z, hg⟩ := version_makes hs
    exact ⟨h', _, p, w, x, y, z, hs, by rw [hm.result, hg]⟩
  · cases s with
    | false => exact ⟨h, none, rfl, rfl, rfl⟩
    | true =>
      obtain ⟨q, new, got, e, hm, hg⟩ := connect_makes (frags := frags) (h := h) rfl
      exact ⟨_, _, rfl, q, by rw [e, hm.result, hg]⟩

theorem next_answers {α : Type} {make : Heap T → α → Except Fault (Heap T × Addr)} {item : α → List (Addr × Obj T) → Prop}
    (hmake : ∀ {h h' x q}, make h x = .ok (h', q) → ∃ new got, Makes h h' q new got ∧ item x got)
    {wrap : Iter α → Obj T} (hw : ∀ it, bump (wrap it) = wrap (bumpIter it)) {f : Nexter} {p : Addr} {l : List α} {k : Nat}
    (hg : h.get p = some (wrap ⟨l, min k l.length⟩)) {r : Option Addr}
    (he : h.advance make p wrap ⟨l, min k l.length⟩ = .ok (h', r)) : Answers l k item r (gets h' r) := by
  obtain ⟨h0, new, ef, ha⟩ := effect_advance (make := make) hmake hw hg he f
  unfold Answers
  dsimp only at ha
  rcases Nat.lt_or_ge k l.length with hk | hk
  · rw [Nat.min_eq_left (Nat.le_of_lt hk)] at ha
    exact ha
  · rw [Nat.min_eq_right hk, List.getElem?_eq_none (Nat.le_refl _)] at ha
    rw [List.getElem?_eq_none hk]; exact ha

theorem advance_ok {α : Type} {make : Heap T → α → Except Fault (Heap T × Addr)} {good : α → Prop}
    (hmake : ∀ h x, (∃ y, make h x = .ok y) ↔ good x) {wrap : Iter α → Obj T} {p : Addr} {l : List α} {k : Nat} :
    (∃ y, h.advance make p wrap ⟨l, min k l.length⟩ = .ok y) ↔ ∀ x, l[k]? = some x → good x := by
  unfold Heap.advance
  dsimp only
  rcases Nat.lt_or_ge k l.length with hk | hk
  · rw [Nat.min_eq_left (Nat.le_of_lt hk), List.getElem?_eq_getElem hk]
    dsimp only
    constructor
    · rintro ⟨y, hy⟩ x hx
      cases hx
      obtain ⟨z, e, _⟩ := fault_inv hy
      exact (hmake _ _).1 ⟨z, e⟩
    · intro hg
      obtain ⟨⟨h1, q⟩, e⟩ := (hmake (h.set p (some (wrap ⟨l, k + 1⟩))) l[k]).2 (hg _ rfl)
      exact ⟨(h1, some q), by rw [e]; rfl⟩
  · rw [Nat.min_eq_right hk, List.getElem?_eq_none (Nat.le_refl _), List.getElem?_eq_none hk]
    exact ⟨fun _ x hx => (by cases hx), fun _ => ⟨_, rfl⟩⟩

/-- C90 (texts): a program that asks an iterator over the fragments of a text that it holds, for the `k`-th time, gets the
`k`-th fragment, and null after the last; whatever it did in between.  The call crashes exactly if that fragment contains a
zero byte. -/
theorem C90_text (hh : History frags tr h) {p : Addr} {l : List Fragment} (hp : Holds tr p (.textIterator (iter l))) :
    (∀ h' r, h.step frags (.nextItem .text (some p)) = .ok (h', r) → Answers l (asked tr p) FragmentGot r (gets h' r)) ∧
    ((∃ x, h.step frags (.nextItem .text (some p)) = .ok x) ↔ ∀ x, l[asked tr p]? = some x → NoZero x.1 ∧ NoZero x.2) := by
  have hg : h.get p = some (.textIterator ⟨l, min (asked tr p) l.length⟩) := (C90_alive hh _ _).2 ⟨_, hp, rfl⟩
  simp only [Heap.step, hg]
  refine ⟨fun h' r he => next_answers (make := Heap.textItem) text_makes (fun _ => rfl) (f := .text) hg he,
    advance_ok (good := fun x : Fragment => NoZero x.1 ∧ NoZero x.2) ?_⟩
  intro h x
  constructor
  · rintro ⟨y, he⟩
    obtain ⟨⟨h1, a⟩, e1, he⟩ := fault_inv he
    obtain ⟨⟨h2, b⟩, e2, he⟩ := fault_inv he
    exact ⟨(heap_string e1).1, (heap_string e2).1⟩
  · rintro ⟨h1, h2⟩
    simp only [Heap.textItem, heap_string_some _ h1, heap_string_some _ h2]; exact ⟨_, rfl⟩

/-- C90 (status lines): the same for the items of a status; such a call never crashes. -/
theorem C90_status (hh : History frags tr h) {p : Addr} {l : List (Int × T)} (hp : Holds tr p (.statusIterator (iter l))) :
    ∃ h' r, h.step frags (.nextItem .status (some p)) = .ok (h', r) ∧ Answers l (asked tr p) (StatusGot frags) r (gets h' r) := by
  have hg : h.get p = some (.statusIterator ⟨l, min (asked tr p) l.length⟩) := (C90_alive hh _ _).2 ⟨_, hp, rfl⟩
  simp only [Heap.step, hg]
  obtain ⟨⟨h', r⟩, he⟩ := (advance_ok (h := h) (make := Heap.statusItem frags) (good := fun _ => True)
    (fun h x => ⟨fun _ => trivial, fun _ => ⟨_, rfl⟩⟩) (wrap := .statusIterator) (p := p) (l := l) (k := asked tr p)).2
    fun _ _ => trivial
  exact ⟨h', r, he, next_answers (make := Heap.statusItem frags) status_makes (fun _ => rfl) (f := .status) hg he⟩

/-- C90 (views): the same for the buffers of a view; the call crashes exactly if the name of the buffer contains a zero byte. -/
theorem C90_view (hh : History frags tr h) {p : Addr} {l : List (RemoteItem T)} (hp : Holds tr p (.viewIterator (iter l))) :
    (∀ h' r, h.step frags (.nextItem .view (some p)) = .ok (h', r) → Answers l (asked tr p) ItemGot r (gets h' r)) ∧
    ((∃ x, h.step frags (.nextItem .view (some p)) = .ok x) ↔ ∀ x, l[asked tr p]? = some x → NoZero x.buffer) := by
  have hg : h.get p = some (.viewIterator ⟨l, min (asked tr p) l.length⟩) := (C90_alive hh _ _).2 ⟨_, hp, rfl⟩
  simp only [Heap.step, hg]
  refine ⟨fun h' r he => next_answers (make := Heap.viewItem) item_makes (fun _ => rfl) (f := .view) hg he,
    advance_ok (good := fun x : RemoteItem T => NoZero x.buffer) ?_⟩
  intro h x
  constructor
  · rintro ⟨y, he⟩
    obtain ⟨⟨h1, a⟩, e1, he⟩ := fault_inv he
    exact (heap_string e1).1
  · intro h1
    simp only [Heap.viewItem, heap_string_some _ h1]; exact ⟨_, rfl⟩

/-- C90 (lenses): the same for the lenses of a buffer; such a call never crashes. -/
theorem C90_lenses (hh : History frags tr h) {p : Addr} {l : List (RemoteLens T)} (hp : Holds tr p (.lensIterator (iter l))) :
    ∃ h' r, h.step frags (.nextItem .lens (some p)) = .ok (h', r) ∧ Answers l (asked tr p) LensGot r (gets h' r) := by
  have hg : h.get p = some (.lensIterator ⟨l, min (asked tr p) l.length⟩) := (C90_alive hh _ _).2 ⟨_, hp, rfl⟩
  simp only [Heap.step, hg]
  obtain ⟨⟨h', r⟩, he⟩ := (advance_ok (h := h) (make := Heap.lensItem) (good := fun _ => True)
    (fun h x => ⟨fun _ => trivial, fun _ => ⟨_, rfl⟩⟩) (wrap := .lensIterator) (p := p) (l := l) (k := asked tr p)).2
    fun _ _ => trivial
  exact ⟨h', r, he, next_answers (make := Heap.lensItem) lens_makes (fun _ => rfl) (f := .lens) hg he⟩

/-- C90 (freeing): a program may free what it holds, by the function for its type, and null by any; this never crashes. -/
theorem C90_free (hh : History frags tr h) (f : Destroyer) (p : Option Addr) (ha : Allowed tr (.destroy f p)) :
    ∃ h', h.step frags (.destroy f p) = .ok (h', none) := by
  cases p with
  | none => exact ⟨h, rfl⟩
  | some p =>
    obtain ⟨o, h1, h2⟩ := (ty_iff hh p f.ty).2 (ha p rfl)
    simp only [Heap.step, h1, if_pos h2]
    exact ⟨_, rfl⟩

/-! ### What is never freed -/

theorem allowed_of_ok (hh : History frags tr h) {c : HeapCall T} {x : Heap T × Option Addr} (he : h.step frags c = .ok x) :
    Allowed tr c := by
  refine Classical.byContradiction fun hn => ?_
  rw [(C90_memory hh c).2 hn] at he; cases he

theorem freed_ty (hh : History frags tr h) : ∀ {p : Addr} {o : Obj T}, Freed tr p → Got tr p o → ∃ f : Destroyer, o.ty = f.ty := by
  induction hh with
  | start => rintro p o ⟨e, he, _⟩; cases he
  | @call tr h h' c r hh hs ih =>
    intro p o hf hg
    have acc := accounted hh
    obtain ⟨h0, new, ef⟩ := step_effect hs
    have hnew : ∀ {p : Nat} {o}, (p, o) ∈ gets h' r → h.length ≤ p := by
      intro p o hm
      obtain ⟨i, rfl, _⟩ := (ef.all p o).1 hm
      exact Nat.le_add_right _ _
    have hlt : (p : Nat) < h.length := by
      rcases freed_append.1 hf with hf | ⟨f, hf⟩
      · exact acc.freedBound p hf
      · exact ef.freed f p hf
    have hg' : Got tr p o := by
      rcases got_append.1 hg with hg | hg
      · exact hg
      · exact absurd (hnew hg) (Nat.not_le.2 hlt)
    rcases freed_append.1 hf with hf | ⟨f, hf⟩
    · exact ih hf hg'
    · have hf : c = .destroy f (some p) := hf
      subst hf
      obtain ⟨o2, h1, h2⟩ := allowed_of_ok hh hs p rfl
      rw [got_unique hh h1.1 hg'] at h2
      exact ⟨f, h2⟩

theorem destroyer_iff (t : Ty) : (∃ f : Destroyer, t = f.ty) ↔ ¬ Lasting t := by
  constructor
  · rintro ⟨f, rfl⟩ h
    cases f <;> (rcases h with h | h | h <;> cases h)
  · intro h
    cases t with
    | string => exact absurd (.inl rfl) h
    | menuIterator => exact absurd (.inr (.inl rfl)) h
    | lineIterator => exact absurd (.inr (.inr rfl)) h
    | version => exact ⟨.version, rfl⟩
    | connection => exact ⟨.connection, rfl⟩
    | event => exact ⟨.event, rfl⟩
    | textIterator => exact ⟨.textIterator, rfl⟩
    | textItem => exact ⟨.textItem, rfl⟩
    | statusIterator => exact ⟨.statusIterator, rfl⟩
    | statusItem => exact ⟨.statusItem, rfl⟩
    | viewIterator => exact ⟨.viewIterator, rfl⟩
    | viewItem => exact ⟨.viewItem, rfl⟩
    | lensIterator => exact ⟨.lensIterator, rfl⟩
    | lens => exact ⟨.lens, rfl⟩

/-- C90 fails for freeing everything: whatever a program does, the C strings, the iterators over the entries of a menu and those
over the lines of a lens that it got are never freed: every event of a menu, every fragment of a text and every lens that it
reads costs memory for ever. -/
theorem C90_leak_refuted (hh : History frags tr h) {p : Addr} {o : Obj T} (hg : Got tr p o) (hl : Lasting o.ty) :
    ¬ Freed tr p ∧ h.get p ≠ none := by
  have nf : ¬ Freed tr p := fun hf => (destroyer_iff o.ty).1 (freed_ty hh hf hg) hl
  exact ⟨nf, by rw [(C90_alive hh p _).2 ⟨o, ⟨hg, nf⟩, rfl⟩]; simp⟩

/-- C90 (everything else can be freed): at any time a program can, by freeing alone, come to a state in which no other memory is
used. -/
theorem C90_rest (hh : History frags tr h) : ∃ frees h', History frags (tr ++ frees) h' ∧
    (∀ e ∈ frees, ∃ f p, e.call = .destroy f (some p) ∧ e.got = []) ∧
    ∀ p o, h'.get p = some o ↔ (∃ o1, Holds tr p o1 ∧ o = afterAsking (asked tr p) o1) ∧ Lasting o.ty := by
  have key : ∀ n : Nat, n ≤ h.length → ∃ frees h', History frags (tr ++ frees) h' ∧
      (∀ e ∈ frees, ∃ f p, e.call = .destroy f (some p) ∧ e.got = []) ∧ h'.length = h.length ∧
      ∀ (p : Nat) o, h'.get p = some o ↔ h.get p = some o ∧ (p < n → Lasting o.ty) := by
    intro n
    induction n with
    | zero =>
      intro _
      refine ⟨[], h, by simpa using hh, fun e he => (by cases he), rfl, fun p o => ?_⟩
      exact ⟨fun e => ⟨e, fun h => absurd h (Nat.not_lt_zero _)⟩, fun e => e.1⟩
    | succ n ih =>
      intro hn
      obtain ⟨frees, h1, i1, i2, i3, i4⟩ := ih (by omega)
      by_cases hd : ∃ o, h1.get n = some o ∧ ¬ Lasting o.ty
      · obtain ⟨o, ho, hl⟩ := hd
        obtain ⟨f, hf⟩ := (destroyer_iff _).2 hl
        have hs : h1.step frags (.destroy f (some n)) = .ok (h1.set n none, none) := by
          simp only [Heap.step, ho, if_pos hf]
        have i5 := History.call i1 hs
        rw [List.append_assoc] at i5
        refine ⟨_, _, i5, ?_, by rw [List.length_set]; exact i3, fun p o' => ?_⟩
        · intro e he
          rcases List.mem_append.1 he with he | he
          · exact i2 e he
          · rw [List.mem_singleton] at he; subst he; exact ⟨f, n, rfl, rfl⟩
        · rw [heap_get_set _ _ _ _ (by omega)]
          by_cases e : p = n
          · subst e
            rw [if_pos rfl]
            refine ⟨fun h => (by cases h), fun ⟨h2, h3⟩ => ?_⟩
            have := (i4 p o').2 ⟨h2, fun h => absurd h (Nat.lt_irrefl _)⟩
            rw [ho] at this; cases this
            exact absurd (h3 (Nat.lt_succ_self _)) hl
          · rw [if_neg e, i4]
            refine and_congr Iff.rfl ⟨fun h2 h3 => h2 (by omega), fun h2 h3 => h2 (by omega)⟩
      · refine ⟨frees, h1, i1, i2, i3, fun p o => ?_⟩
        rw [i4]
        refine ⟨fun ⟨h2, h3⟩ => ⟨h2, fun h4 => ?_⟩, fun ⟨h2, h3⟩ => ⟨h2, fun h4 => h3 (by omega)⟩⟩
        by_cases e : p = n
        · subst e
          exact Classical.byContradiction fun hn => hd ⟨o, (i4 p o).2 ⟨h2, h3⟩, hn⟩
        · exact h3 (by omega)
  obtain ⟨frees, h', i1, i2, _, i4⟩ := key h.length (Nat.le_refl _)
  refine ⟨frees, h', i1, i2, fun p o => ?_⟩
  rw [i4, C90_alive hh]
  refine and_congr_right fun h2 => ⟨fun h3 => h3 (heap_get_lt ((C90_alive hh p o).2 h2)), fun h3 _ => h3⟩

/-! ### The functions of the model are those that are generated -/

/-- The name of the type of blocks in the interface. -/
def tyName : Ty → Str
  | .string => str!"c_char"
  | .version => str!"CedVersion"
  | .connection => str!"CedConnection"
  | .event => str!"CedEvent"
  | .textIterator => str!"CedTextIterator"
  | .textItem => str!"CedTextItem"
  | .menuIterator => str!"MenuIterator"
  | .statusIterator => str!"StatusIterator"
  | .statusItem => str!"StatusItem"
  | .viewIterator => str!"ViewIterator"
  | .viewItem => str!"ViewItem"
  | .lensIterator => str!"ViewLensIterator"
  | .lens => str!"ViewLens"
  | .lineIterator => str!"ViewLensLineIterator"

/-- C90 (the generated functions): the types that the functions of C82 free are exactly those that a program can free here, and the
iterators that they advance are exactly those that it can ask here. -/
theorem C90_functions {upper : Char → Bool} (hu : AsciiUpper upper) (t : Ty) :
    ((∃ name, .destroy name (tyName t) ∈ (generate upper FfiGen.ced).decls) ↔ ∃ f : Destroyer, t = f.ty) ∧
    ((∃ name item, .nextItem name (tyName t) item ∈ (generate upper FfiGen.ced).decls) ↔ ∃ f : Nexter, t = f.ty) := by
  rw [C82_ced hu]
  have e1 : ∀ (t : Ty) (ds : List Decl), (∃ name, Decl.destroy name (tyName t) ∈ ds) ↔
      ds.any (fun d => match d with | .destroy _ x => decide (x = tyName t) | _ => false) = true := by
    intro t ds
    rw [List.any_eq_true]
    constructor
    · rintro ⟨n, h⟩; exact ⟨_, h, by simp⟩
    · rintro ⟨d, h, e⟩
      cases d with
      | destroy n x => simp only [decide_eq_true_eq] at e; subst e; exact ⟨n, h⟩
      | nextItem n x y => cases e
  have e2 : ∀ (t : Ty) (ds : List Decl), (∃ name item, Decl.nextItem name (tyName t) item ∈ ds) ↔
      ds.any (fun d => match d with | .nextItem _ x _ => decide (x = tyName t) | _ => false) = true := by
    intro t ds
    rw [List.any_eq_true]
    constructor
    · rintro ⟨n, i, h⟩; exact ⟨_, h, by simp⟩
    · rintro ⟨d, h, e⟩
      cases d with
      | nextItem n x y => simp only [decide_eq_true_eq] at e; subst e; exact ⟨n, y, h⟩
      | destroy n x => cases e
  rw [e1, e2, destroyer_iff]
  have e3 : (∃ f : Nexter, t = f.ty) ↔ t ∈ [Ty.textIterator, .statusIterator, .viewIterator, .lensIterator] := by
    constructor
    · rintro ⟨f, rfl⟩; cases f <;> decide
    · intro h
      cases t with
      | textIterator => exact ⟨.text, rfl⟩
      | statusIterator => exact ⟨.status, rfl⟩
      | viewIterator => exact ⟨.view, rfl⟩
      | lensIterator => exact ⟨.lens, rfl⟩
      | _ => exact absurd h (by decide)
  rw [e3]
  unfold Lasting
  cases t <;> decide

/-! ### An example -/

/-- A program that connects, gets a view of a buffer `f`, reads it and frees all it can. -/
def exampleCalls : List (HeapCall (List (Str × Face))) := [
  .connect true, .nextEvent (some 0) (some (.view [⟨str!"f", 1, 2, [⟨[[(str!"a", .default)]], 1⟩]⟩])),
  .nextItem .view (some 1), .nextItem .view (some 1), .nextItem .lens (some 4), .nextItem .lens (some 4), .destroy .lens (some 7),
  .destroy .event (some 2), .destroy .viewItem (some 5), .destroy .viewIterator (some 1), .destroy .lensIterator (some 4),
  .destroy .connection (some 0)]

/-- The calls of a program, one after the other, with what it gets. -/
def exampleRun (frags : T → List Fragment) : Heap T → List (HeapCall T) → Except Fault (List (Entry T) × Heap T)
  | h, [] => .ok ([], h)
  | h, c :: cs => do
    let (h, r) ← h.step frags c
    let (tr, h') ← exampleRun frags h cs
    return (⟨c, gets h r⟩ :: tr, h')

theorem run_history {cs : List (HeapCall T)} {tr1 tr2 : List (Entry T)} (hh : History frags tr1 h)
    (hr : exampleRun frags h cs = .ok (tr2, h')) : History frags (tr1 ++ tr2) h' := by
  induction cs generalizing h tr1 tr2 with
  | nil => cases hr; simpa using hh
  | cons c cs ih =>
    obtain ⟨⟨h1, r⟩, e1, hr⟩ := fault_inv hr
    obtain ⟨⟨tr3, h3⟩, e2, hr⟩ := fault_inv hr
    cases hr
    have := ih (History.call hh e1) e2
    simpa using this

/-- It ends with the name of the buffer and the iterator over the lines of the lens, which it cannot free. -/
example : (exampleRun (fun _ => []) [] exampleCalls).toOption.map (fun x => (x.1.map (fun e => e.got.map Prod.fst),
    x.2.map (fun o => o.map Obj.ty))) = some ([[0], [2, 1], [5, 3, 4], [], [7, 6], [], [], [], [], [], [], []],
      [none, none, none, some .string, none, none, some .lineIterator, none]) := by decide +kernel

/-- A second event freed twice, and a string, are memory errors. -/
example : (exampleRun (fun _ => []) [] (exampleCalls ++ [.destroy .event (some 2)])).toOption.isNone ∧
    (exampleRun (fun _ => []) [] (exampleCalls ++ [.destroy .event (some 3)])).toOption.isNone ∧
    (exampleRun (fun _ => []) [] (exampleCalls ++ [.destroy .event none])).toOption.isSome := by decide +kernel

/-- The theorems apply to it. -/
example : ∃ tr h, History (fun _ : List (Str × Face) => []) tr h ∧ tr.length = 12 ∧ ∃ p o, Got tr p o ∧ Lasting o.ty := by
  cases hx : exampleRun (fun _ => []) [] exampleCalls with
  | error e =>
    have : (exampleRun (fun _ : List (Str × Face) => []) [] exampleCalls).toOption.isSome = true := by decide +kernel
    rw [hx] at this; cases this
  | ok x =>
    have e1 : (exampleRun (fun _ : List (Str × Face) => []) [] exampleCalls).toOption.map (fun x => x.1.length) = some 12 := by
      decide +kernel
    have e2 : (exampleRun (fun _ : List (Str × Face) => []) [] exampleCalls).toOption.map (fun x => x.1.any fun e => e.got.any fun g =>
      decide (g.2.ty = .string)) = some true := by decide +kernel
    rw [hx] at e1 e2
    refine ⟨x.1, x.2, by simpa using run_history .start hx, by simpa [Except.toOption] using e1, ?_⟩
    simp only [Except.toOption, Option.map_some, Option.some.injEq, List.any_eq_true, decide_eq_true_eq] at e2
    obtain ⟨e, he, g, hg, ht⟩ := e2
    exact ⟨g.1, g.2, ⟨e, he, hg⟩, .inl ht⟩

end Ced.Props
