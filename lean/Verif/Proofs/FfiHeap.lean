import Verif.Spec.FfiHeap

/-! # Lemmas about the memory of the C library (C90) -/

namespace Ced
open Ffi Spec

variable {T : Type} {frags : T → List Fragment}

theorem fault_inv {ε α β : Type} {x : Except ε α} {f : α → Except ε β} {b : β} (h : x >>= f = .ok b) :
    ∃ a, x = .ok a ∧ f a = .ok b := by
  cases x with
  | error e => cases h
  | ok a => exact ⟨a, rfl, h⟩

theorem heap_get_append (h : Heap T) (l : List (Obj T)) (i : Nat) : Heap.get (h ++ l.map some) (h.length + i) = l[i]? := by
  unfold Heap.get
  rw [List.getElem?_append_right (by omega), Nat.add_sub_cancel_left, List.getElem?_map]
  cases l[i]? <;> rfl

theorem heap_get_old (h : Heap T) (l : Heap T) {p : Nat} (hp : p < h.length) : Heap.get (h ++ l) p = h.get p := by
  unfold Heap.get
  rw [List.getElem?_append_left hp]

theorem heap_get_lt {h : Heap T} {p : Nat} {o : Obj T} (hg : h.get p = some o) : p < h.length := by
  unfold Heap.get at hg
  rcases Nat.lt_or_ge p h.length with hp | hp
  · exact hp
  · rw [List.getElem?_eq_none hp] at hg; cases hg

theorem heap_get_set (h : Heap T) (p q : Nat) (o : Option (Obj T)) (hp : p < h.length) :
    Heap.get (h.set p o) q = if q = p then o else h.get q := by
  unfold Heap.get
  rw [List.getElem?_set]
  by_cases e : p = q
  · subst e; simp [hp]
  · rw [if_neg e, if_neg (fun x => e x.symm)]

theorem heap_string {h h' : Heap T} {s : Str} {a : Addr} (hs : h.string s = .ok (h', a)) :
    NoZero s ∧ h' = h ++ [some (.string s)] ∧ a = h.length := by
  unfold Heap.string at hs
  split at hs
  · cases hs
  · rename_i hz
    cases hs
    exact ⟨hz, rfl, rfl⟩

theorem heap_string_some (h : Heap T) {s : Str} (hs : NoZero s) : h.string s = .ok (h ++ [some (.string s)], h.length) := by
  unfold Heap.string
  rw [if_neg hs]; rfl

/-- New blocks `new`, of which the program gets all, and a pointer to the one number `i`. -/
structure Makes (h h' : Heap T) (q : Addr) (new : List (Obj T)) (got : List (Addr × Obj T)) : Prop where
  heap : h' = h ++ new.map some
  result : gets h' (some q) = got
  all : ∀ (p : Nat) o, (p, o) ∈ got ↔ ∃ i, p = h.length + i ∧ new[i]? = some o
  nodup : (got.map Prod.fst).Nodup
  fresh : ∀ o ∈ new, afterAsking 0 o = o

theorem gets_new (h : Heap T) (new : List (Obj T)) (i : Nat) {o : Obj T} (ho : new[i]? = some o) {is : List Nat}
    (hf : o.fields = is.map (h.length + ·)) :
    gets (h ++ new.map some) (some (h.length + i)) = (i :: is).filterMap fun j => new[j]?.map fun o => (h.length + j, o) := by
  unfold gets
  dsimp only
  rw [heap_get_append, ho]
  dsimp only [Option.map_some, Option.getD_some]
  rw [hf]
  have : ((h.length + i) :: is.map (h.length + ·)) = (i :: is).map (h.length + ·) := rfl
  rw [this, List.filterMap_map]
  congr 1
  funext j
  simp only [Function.comp]
  rw [heap_get_append]

theorem makes_of (h : Heap T) (new : List (Obj T)) (i : Nat) {o : Obj T} (ho : new[i]? = some o) {is : List Nat}
    (hf : o.fields = is.map (h.length + ·)) (hn : (i :: is).Nodup) (hall : ∀ j, j ∈ i :: is ↔ j < new.length)
    (hfresh : ∀ o ∈ new, afterAsking 0 o = o) :
    Makes h (h ++ new.map some) (h.length + i) new ((i :: is).filterMap fun j => new[j]?.map fun o => (h.length + j, o)) := by
  refine ⟨rfl, gets_new h new i ho hf, ?_, ?_, hfresh⟩
  · intro p x
    rw [List.mem_filterMap]
    constructor
    · rintro ⟨j, _, he⟩
      rw [Option.map_eq_some_iff] at he
      obtain ⟨y, hy, e⟩ := he
      cases e
      exact ⟨j, rfl, hy⟩
    · rintro ⟨j, rfl, hj⟩
      refine ⟨j, (hall j).2 ?_, by rw [hj]; rfl⟩
      rcases Nat.lt_or_ge j new.length with hl | hl
      · exact hl
      · rw [List.getElem?_eq_none hl] at hj; cases hj
  · have key : ∀ l : List Nat, l.Nodup →
        ((l.filterMap fun j => new[j]?.map fun o => (h.length + j, o)).map Prod.fst).Nodup ∧
        ∀ p, p ∈ (l.filterMap fun j => new[j]?.map fun o => (h.length + j, o)).map Prod.fst → ∃ j ∈ l, p = h.length + j := by
      intro l
      induction l with
      | nil => intro _; exact ⟨List.nodup_nil, fun p hp => by cases hp⟩
      | cons j l ih =>
        intro hnd
        rw [List.nodup_cons] at hnd
        obtain ⟨h1, h2⟩ := ih hnd.2
        cases hj : new[j]? with
        | none =>
          rw [List.filterMap_cons, hj]
          exact ⟨h1, fun p hp => by obtain ⟨k, hk, e⟩ := h2 p hp; exact ⟨k, List.mem_cons_of_mem _ hk, e⟩⟩
        | some y =>
          rw [List.filterMap_cons, hj]
          refine ⟨?_, ?_⟩
          · show ((h.length + j) :: _).Nodup
            rw [List.nodup_cons]
            refine ⟨fun hm => ?_, h1⟩
            obtain ⟨k, hk, e⟩ := h2 _ hm
            have : k = j := by omega
            exact hnd.1 (this ▸ hk)
          · intro p hp
            rcases List.mem_cons.1 hp with hp | hp
            · exact ⟨j, List.mem_cons_self, hp⟩
            · obtain ⟨k, hk, e⟩ := h2 p hp
              exact ⟨k, List.mem_cons_of_mem _ hk, e⟩
    exact (key _ hn).1

theorem append_two (h : Heap T) (a b : Option (Obj T)) : h ++ [a] ++ [b] = h ++ [a, b] := by simp

/-! ### What each function makes -/

theorem iter_ofList {α : Type} (l : List α) : Iter.ofList l = iter l := rfl




theorem event_makes {h h' : Heap T} {ev : ConnectionEvent T} {q : Addr} (he : h.event frags ev = .ok (h', q)) :
    ∃ new got, Makes h h' q new got ∧ EventGot frags ev got := by
  cases ev with
  | connErr => cases he
  | noop => cases he
  | hint l => cases he
  | echo t =>
    cases he
    have := makes_of h [.textIterator (iter (frags t)), .event (.echo (h.length + 0))] 1 rfl (is := [0]) rfl (by decide)
      (by intro j; simp; omega) (by simp [afterAsking, iter])
    exact ⟨_, _, by simpa [Heap.alloc, iter_ofList, asU32] using this, _, _, rfl⟩
  | status l =>
    cases he
    have := makes_of h [.statusIterator (iter l), .event (.status (h.length + 0))] 1 rfl (is := [0]) rfl (by decide)
      (by intro j; simp; omega) (by simp [afterAsking, iter])
    exact ⟨_, _, by simpa [Heap.alloc, iter_ofList, asU32] using this, _, _, rfl⟩
  | view l =>
    cases he
    have := makes_of h [.viewIterator (iter l), .event (.view (h.length + 0))] 1 rfl (is := [0]) rfl (by decide)
      (by intro j; simp; omega) (by simp [afterAsking, iter])
    exact ⟨_, _, by simpa [Heap.alloc, iter_ofList, asU32] using this, _, _, rfl⟩
  | info c s =>
    obtain ⟨⟨h1, a⟩, e1, he⟩ := fault_inv he
    obtain ⟨⟨h2, b⟩, e2, he⟩ := fault_inv he
    obtain ⟨_, rfl, rfl⟩ := heap_string e1
    obtain ⟨_, rfl, rfl⟩ := heap_string e2
    cases he
    have := makes_of h [.string c, .string s, .event (.info (h.length + 0) (h.length + 1))] 2 rfl (is := [0, 1]) rfl (by decide)
      (by intro j; simp; omega) (by simp [afterAsking, iter])
    exact ⟨_, _, by simpa [Heap.alloc] using this, _, _, _, rfl⟩
  | menu m =>
    obtain ⟨⟨h1, a⟩, e1, he⟩ := fault_inv he
    obtain ⟨⟨h2, b⟩, e2, he⟩ := fault_inv he
    obtain ⟨⟨h3, c⟩, e3, he⟩ := fault_inv he
    obtain ⟨_, rfl, rfl⟩ := heap_string e1
    obtain ⟨_, rfl, rfl⟩ := heap_string e2
    obtain ⟨_, rfl, rfl⟩ := heap_string e3
    cases he
    have := makes_of h [.string m.command, .string m.title, .string m.search, .menuIterator (iter m.entries),
      .event (.menu (h.length + 0) (h.length + 1) (h.length + 2) (h.length + 3) (asU32 m.selected))] 4 rfl (is := [0, 1, 2, 3]) rfl
      (by decide) (by intro j; simp; omega) (by simp [afterAsking, iter])
    exact ⟨_, _, by simpa [Heap.alloc, iter_ofList, asU32] using this, _, _, _, _, _, rfl⟩

theorem text_makes {h h' : Heap T} {x : Fragment} {q : Addr} (he : h.textItem x = .ok (h', q)) :
    ∃ new got, Makes h h' q new got ∧ FragmentGot x got := by
  obtain ⟨⟨h1, a⟩, e1, he⟩ := fault_inv he
  obtain ⟨⟨h2, b⟩, e2, he⟩ := fault_inv he
  obtain ⟨_, rfl, rfl⟩ := heap_string e1
  obtain ⟨_, rfl, rfl⟩ := heap_string e2
  cases he
  have := makes_of h [.string x.1, .string x.2, .textItem (h.length + 0) (h.length + 1)] 2 rfl (is := [0, 1]) rfl (by decide)
    (by intro j; simp; omega) (by simp [afterAsking, iter])
  exact ⟨_, _, by simpa [Heap.alloc] using this, _, _, _, rfl⟩

theorem status_makes {h h' : Heap T} {x : Int × T} {q : Addr} (he : h.statusItem frags x = .ok (h', q)) :
    ∃ new got, Makes h h' q new got ∧ StatusGot frags x got := by
  cases he
  have := makes_of h [.textIterator (iter (frags x.2)), .statusItem (asI32 x.1) (h.length + 0)] 1 rfl (is := [0]) rfl (by decide)
    (by intro j; simp; omega) (by simp [afterAsking, iter])
  refine ⟨_, _, by simpa [Heap.alloc, iter_ofList, asU32] using this, _, _, _, rfl, ?_⟩
  intro h1 h2
  unfold asI32
  omega

theorem item_makes {h h' : Heap T} {x : RemoteItem T} {q : Addr} (he : h.viewItem x = .ok (h', q)) :
    ∃ new got, Makes h h' q new got ∧ ItemGot x got := by
  obtain ⟨⟨h1, a⟩, e1, he⟩ := fault_inv he
  obtain ⟨_, rfl, rfl⟩ := heap_string e1
  cases he
  have := makes_of h [.string x.buffer, .lensIterator (iter x.lenses),
    .viewItem (h.length + 0) (asU32 x.start) (asU32 x.stop) (h.length + 1)] 2 rfl (is := [0, 1]) rfl (by decide)
    (by intro j; simp; omega) (by simp [afterAsking, iter])
  exact ⟨_, _, by simpa [Heap.alloc, iter_ofList, asU32] using this, _, _, _, rfl⟩

theorem lens_makes {h h' : Heap T} {x : RemoteLens T} {q : Addr} (he : h.lensItem x = .ok (h', q)) :
    ∃ new got, Makes h h' q new got ∧ LensGot x got := by
  cases he
  have := makes_of h [.lineIterator (iter x.lines), .lens (h.length + 0) (asU32 x.firstLineNum)] 1 rfl (is := [0]) rfl (by decide)
    (by intro j; simp; omega) (by simp [afterAsking, iter])
  exact ⟨_, _, by simpa [Heap.alloc, iter_ofList, asU32] using this, _, _, rfl⟩

theorem version_makes {h h' : Heap T} {a b c d : Str} {r : Option Addr} (he : h.step frags (.version a b c d) = .ok (h', r)) :
    ∃ q new got, r = some q ∧ Makes h h' q new got ∧ ∃ p w x y z,
      got = [(p, .version w x y z), (w, .string a), (x, .string b), (y, .string c), (z, .string d)] := by
  obtain ⟨⟨h1, a'⟩, e1, he⟩ := fault_inv he
  obtain ⟨⟨h2, b'⟩, e2, he⟩ := fault_inv he
  obtain ⟨⟨h3, c'⟩, e3, he⟩ := fault_inv he
  obtain ⟨⟨h4, d'⟩, e4, he⟩ := fault_inv he
  obtain ⟨_, rfl, rfl⟩ := heap_string e1
  obtain ⟨_, rfl, rfl⟩ := heap_string e2
  obtain ⟨_, rfl, rfl⟩ := heap_string e3
  obtain ⟨_, rfl, rfl⟩ := heap_string e4
  cases he
  have := makes_of h [.string a, .string b, .string c, .string d,
      .version (h.length + 0) (h.length + 1) (h.length + 2) (h.length + 3)] 4 rfl (is := [0, 1, 2, 3]) rfl
      (by decide) (by intro j; simp; omega) (by simp [afterAsking, iter])
  exact ⟨_, _, _, rfl, by simpa [Heap.alloc] using this, _, _, _, _, _, rfl⟩

theorem connect_makes {h h' : Heap T} {r : Option Addr} (he : h.step frags (.connect true) = .ok (h', r)) :
    ∃ q new got, r = some q ∧ Makes h h' q new got ∧ got = [(q, .connection)] := by
  cases he
  have := makes_of h [.connection] 0 rfl (is := []) rfl (by decide) (by intro j; simp) (by simp [afterAsking, iter])
  exact ⟨_, _, _, rfl, by simpa [Heap.alloc] using this, by simp⟩

/-! ### What a call does -/

/-- Whether a call asks for the next item of `p`. -/
def asksFor (p : Addr) : HeapCall T → Bool
  | .nextItem _ (some q) => decide (q = p)
  | _ => false

/-- The iterator one further, unless it is at the end. -/
def bumpIter {α : Type} (it : Iter α) : Iter α := if it.nextIdx < it.items.length then ⟨it.items, it.nextIdx + 1⟩ else it

/-- An object one item further. -/
def bump : Obj T → Obj T
  | .textIterator it => .textIterator (bumpIter it)
  | .menuIterator it => .menuIterator (bumpIter it)
  | .statusIterator it => .statusIterator (bumpIter it)
  | .viewIterator it => .viewIterator (bumpIter it)
  | .lensIterator it => .lensIterator (bumpIter it)
  | .lineIterator it => .lineIterator (bumpIter it)
  | o => o

theorem bumpIter_after {α : Type} (l : List α) (k : Nat) : bumpIter ⟨l, min k l.length⟩ = ⟨l, min (k + 1) l.length⟩ := by
  unfold bumpIter
  dsimp only
  split
  · congr 1; omega
  · congr 1; omega

theorem bump_after (k : Nat) (o : Obj T) : bump (afterAsking k o) = afterAsking (k + 1) o := by
  cases o <;> simp [bump, afterAsking, bumpIter_after]

/-- What a call does to the heap. -/
structure Effect (h h' : Heap T) (c : HeapCall T) (r : Option Addr) (h0 : Heap T) (new : List (Obj T)) : Prop where
  heap : h' = h0 ++ new.map some
  length : h0.length = h.length
  all : ∀ (p : Nat) o, (p, o) ∈ gets h' r ↔ ∃ i, p = h.length + i ∧ new[i]? = some o
  nodup : ((gets h' r).map Prod.fst).Nodup
  fresh : ∀ o ∈ new, afterAsking 0 o = o
  gone : ∀ p : Nat, (∃ f, c = .destroy f (some p)) → h0.get p = none
  old : ∀ p : Nat, (¬ ∃ f, c = .destroy f (some p)) → h0.get p = (h.get p).map fun o => if asksFor p c then bump o else o
  freed : ∀ f (p : Nat), c = .destroy f (some p) → p < h.length
  asks : ∀ p : Nat, asksFor p c = true → p < h.length

theorem effect_none {h : Heap T} {c : HeapCall T} (h1 : ∀ f p, c ≠ .destroy f (some p))
    (h2 : ∀ p : Nat, asksFor p c = true → p < h.length ∧ (h.get p).map bump = h.get p) : Effect h h c none h [] := by
  refine ⟨by simp, rfl, by intro p o; simp [gets], by simp [gets], by simp, fun p e => absurd e.choose_spec (h1 _ p), ?_,
    fun f p e => absurd e (h1 f p), fun p e => (h2 p e).1⟩
  intro p _
  by_cases e : asksFor p c = true
  · simp only [e, if_true]; exact (h2 p e).2.symm
  · simp only [e]; simp

theorem effect_new {h h' : Heap T} {c : HeapCall T} {q : Addr} {new : List (Obj T)} {got : List (Addr × Obj T)}
    (hm : Makes h h' q new got) (h1 : ∀ f p, c ≠ .destroy f (some p)) (h2 : ∀ p : Nat, asksFor p c = false) :
    Effect h h' c (some q) h new := by
  refine ⟨hm.heap, rfl, by rw [hm.result]; exact hm.all, by rw [hm.result]; exact hm.nodup, hm.fresh, fun p e => absurd e.choose_spec (h1 _ p), ?_,
    fun f p e => absurd e (h1 f p), fun p e => (by rw [h2 p] at e; cases e)⟩
  intro p _
  simp [h2 p]

theorem effect_advance {α : Type} {make : Heap T → α → Except Fault (Heap T × Addr)} {item : α → List (Addr × Obj T) → Prop}
    (hmake : ∀ {h h' x q}, make h x = .ok (h', q) → ∃ new got, Makes h h' q new got ∧ item x got)
    {wrap : Iter α → Obj T} (hw : ∀ it, bump (wrap it) = wrap (bumpIter it)) {h h' : Heap T} {p : Addr} {it : Iter α}
    (hp : h.get p = some (wrap it)) {r : Option Addr} (he : h.advance make p wrap it = .ok (h', r)) (f : Nexter) :
    ∃ h0 new, Effect h h' (.nextItem f (some p)) r h0 new ∧
      match it.items[it.nextIdx]? with
      | none => r = none ∧ gets h' r = []
      | some x => r ≠ none ∧ item x (gets h' r) := by
  unfold Heap.advance at he
  have hl := heap_get_lt hp
  cases hx : it.items[it.nextIdx]? with
  | none =>
    rw [hx] at he
    cases he
    refine ⟨h, [], effect_none (by intro f p e; cases e) ?_, rfl, rfl⟩
    intro q hq
    have : p = q := by simpa [asksFor] using hq
    subst this
    refine ⟨hl, ?_⟩
    rw [hp, Option.map_some, hw]
    have := List.getElem?_eq_none_iff.1 hx
    unfold bumpIter
    rw [if_neg (by omega)]
  | some x =>
    rw [hx] at he
    obtain ⟨⟨h1, q⟩, e1, he⟩ := fault_inv he
    cases he
    obtain ⟨new, got, hm, hi⟩ := hmake e1
    have hlen : (h.set p (some (wrap { it with nextIdx := it.nextIdx + 1 }))).length = h.length := List.length_set
    refine ⟨_, new, ⟨hm.heap, hlen, ?_, by rw [hm.result]; exact hm.nodup, hm.fresh, (by rintro p ⟨f, e⟩; cases e), ?_,
      (by intro f p e; cases e), ?_⟩,
      by simp, by rw [hm.result]; exact hi⟩
    · rw [hm.result, ← hlen]; exact hm.all
    · intro q' _
      rw [heap_get_set _ _ _ _ hl]
      by_cases e : q' = p
      · subst e
        rw [if_pos rfl, hp]
        have hlt : it.nextIdx < it.items.length := by
          rcases Nat.lt_or_ge it.nextIdx it.items.length with h' | h'
          · exact h'
          · rw [List.getElem?_eq_none h'] at hx; cases hx
        simp [asksFor, hw, bumpIter, hlt]
      · rw [if_neg e]
        have : asksFor q' (T := T) (.nextItem f (some p)) = false := by simp [asksFor]; exact fun x => e x.symm
        simp [this]
    · intro q' hq
      have : p = q' := by simpa [asksFor] using hq
      subst this
      exact hl

/-- Every call that returns has such an effect. -/
theorem step_effect {h h' : Heap T} {c : HeapCall T} {r : Option Addr} (he : h.step frags c = .ok (h', r)) :
    ∃ h0 new, Effect h h' c r h0 new := by
  cases c with
  | version a b c d =>
    obtain ⟨q, new, got, rfl, hm, _⟩ := version_makes he
    exact ⟨h, new, effect_new hm (by intro f p e; cases e) (fun p => rfl)⟩
  | connect s =>
    cases s with
    | false => cases he; exact ⟨h, [], effect_none (by intro f p e; cases e) (by intro p e; cases e)⟩
    | true =>
      obtain ⟨q, new, got, rfl, hm, _⟩ := connect_makes he
      exact ⟨h, new, effect_new hm (by intro f p e; cases e) (fun p => rfl)⟩
  | nextEvent p ev =>
    cases p with
    | none => cases he
    | some p =>
      simp only [Heap.step] at he
      split at he
      · cases ev with
        | none => cases he; exact ⟨h, [], effect_none (by intro f p e; cases e) (by intro p e; cases e)⟩
        | some ev =>
          obtain ⟨⟨h1, q⟩, e1, he⟩ := fault_inv he
          cases he
          obtain ⟨new, got, hm, _⟩ := event_makes e1
          exact ⟨h, new, effect_new hm (by intro f p e; cases e) (fun p => rfl)⟩
      · cases he
  | nextItem f p =>
    cases p with
    | none => cases he
    | some p =>
      simp only [Heap.step] at he
      split at he
      · rename_i hp
        obtain ⟨h0, new, hef, _⟩ := effect_advance (make := Heap.textItem) text_makes (fun _ => rfl) hp he .text
        exact ⟨h0, new, hef⟩
      · rename_i hp
        obtain ⟨h0, new, hef, _⟩ := effect_advance (make := Heap.statusItem frags) status_makes (fun _ => rfl) hp he .status
        exact ⟨h0, new, hef⟩
      · rename_i hp
        obtain ⟨h0, new, hef, _⟩ := effect_advance (make := Heap.viewItem) item_makes (fun _ => rfl) hp he .view
        exact ⟨h0, new, hef⟩
      · rename_i hp
        obtain ⟨h0, new, hef, _⟩ := effect_advance (make := Heap.lensItem) lens_makes (fun _ => rfl) hp he .lens
        exact ⟨h0, new, hef⟩
      · cases he
  | destroy f p =>
    cases p with
    | none => cases he; exact ⟨h, [], effect_none (by intro f p e; cases e) (by intro p e; cases e)⟩
    | some p =>
      simp only [Heap.step] at he
      split at he
      · rename_i o hp
        split at he
        · cases he
          have hl := heap_get_lt hp
          refine ⟨h.set p none, [], ⟨by simp, List.length_set, by intro p o; simp [gets], by simp [gets], by simp, ?_, ?_, ?_,
            (by intro p e; cases e)⟩⟩
          · rintro q ⟨f', e⟩
            cases e
            rw [heap_get_set _ _ _ _ hl, if_pos rfl]
          · intro q hq
            rw [heap_get_set _ _ _ _ hl]
            by_cases e : q = p
            · subst e; exact absurd ⟨f, rfl⟩ hq
            · rw [if_neg e]
              simp [asksFor]
          · intro f q e
            cases e; exact hl
        · cases he
      · cases he

/-! ### Histories -/

theorem got_append {tr : List (Entry T)} {e : Entry T} {p : Addr} {o : Obj T} :
    Got (tr ++ [e]) p o ↔ Got tr p o ∨ (p, o) ∈ e.got := by
  unfold Got
  constructor
  · rintro ⟨x, hx, ho⟩
    rcases List.mem_append.1 hx with hx | hx
    · exact .inl ⟨x, hx, ho⟩
    · rw [List.mem_singleton] at hx; subst hx; exact .inr ho
  · rintro (⟨x, hx, ho⟩ | ho)
    · exact ⟨x, List.mem_append_left _ hx, ho⟩
    · exact ⟨e, List.mem_append_right _ List.mem_cons_self, ho⟩

theorem freed_append {tr : List (Entry T)} {e : Entry T} {p : Addr} :
    Freed (tr ++ [e]) p ↔ Freed tr p ∨ ∃ f, e.call = .destroy f (some p) := by
  unfold Freed
  constructor
  · rintro ⟨x, hx, ho⟩
    rcases List.mem_append.1 hx with hx | hx
    · exact .inl ⟨x, hx, ho⟩
    · rw [List.mem_singleton] at hx; subst hx; exact .inr ho
  · rintro (⟨x, hx, ho⟩ | ho)
    · exact ⟨x, List.mem_append_left _ hx, ho⟩
    · exact ⟨e, List.mem_append_right _ List.mem_cons_self, ho⟩

theorem asked_append (tr : List (Entry T)) (e : Entry T) (p : Addr) :
    asked (tr ++ [e]) p = asked tr p + if asksFor p e.call then 1 else 0 := by
  unfold asked
  rw [List.filter_append, List.length_append]
  congr 1
  rcases e with ⟨c, g⟩
  cases c with
  | nextItem f q => cases q <;> simp [asksFor, List.filter_cons] <;> split <;> rfl
  | _ => rfl

/-- The heap is what the history says. -/
structure Accounted (tr : List (Entry T)) (h : Heap T) : Prop where
  state : ∀ (p : Nat) o', h.get p = some o' ↔ ∃ o, Holds tr p o ∧ o' = afterAsking (asked tr p) o
  bound : ∀ (p : Nat) o, Got tr p o → p < h.length
  freedBound : ∀ p : Nat, Freed tr p → p < h.length
  askedBound : ∀ p : Nat, h.length ≤ p → asked tr p = 0
  nodup : ((tr.flatMap (·.got)).map Prod.fst).Nodup

theorem got_mem {tr : List (Entry T)} {p : Addr} : p ∈ (tr.flatMap (·.got)).map Prod.fst ↔ ∃ o, Got tr p o := by
  simp only [List.mem_map, List.mem_flatMap, Got]
  constructor
  · rintro ⟨⟨q, o⟩, ⟨e, he, hm⟩, rfl⟩; exact ⟨o, e, he, hm⟩
  · rintro ⟨o, e, he, hm⟩; exact ⟨(p, o), ⟨e, he, hm⟩, rfl⟩

theorem accounted {tr : List (Entry T)} {h : Heap T} (hh : History frags tr h) : Accounted tr h := by
  induction hh with
  | start =>
    refine ⟨?_, (by rintro p o ⟨e, he, _⟩; cases he), (by rintro p ⟨e, he, _⟩; cases he), fun _ _ => rfl, List.nodup_nil⟩
    intro p o'
    constructor
    · intro h; cases h
    · rintro ⟨o, ⟨⟨e, he, _⟩, _⟩, _⟩; cases he
  | @call tr h h' c r hh hs ih =>
    obtain ⟨h0, new, ef⟩ := step_effect hs
    have hlen : h'.length = h.length + new.length := by rw [ef.heap, List.length_append, ef.length, List.length_map]
    have hnew : ∀ (p : Nat) o, (p, o) ∈ gets h' r → h.length ≤ p ∧ p < h'.length := by
      intro p o hm
      obtain ⟨i, rfl, hi⟩ := (ef.all p o).1 hm
      have : i < new.length := by
        rcases Nat.lt_or_ge i new.length with h' | h'
        · exact h'
        · rw [List.getElem?_eq_none h'] at hi; cases hi
      omega
    refine ⟨?_, ?_, ?_, ?_, ?_⟩
    · intro p o'
      have hcall : (∃ f, (⟨c, gets h' r⟩ : Entry T).call = .destroy f (some p)) ↔ ∃ f, c = .destroy f (some p) := Iff.rfl
      rcases Nat.lt_or_ge p h.length with hp | hp
      · have e1 : h'.get p = h0.get p := by rw [ef.heap]; exact heap_get_old _ _ (by rw [ef.length]; exact hp)
        rw [e1]
        by_cases hd : ∃ f, c = .destroy f (some p)
        · rw [ef.gone p hd]
          constructor
          · intro h; cases h
          · rintro ⟨o, ⟨_, hf⟩, _⟩
            exact absurd (freed_append.2 (.inr hd)) hf
        · rw [ef.old p hd, Option.map_eq_some_iff]
          have hask : asked (tr ++ [⟨c, gets h' r⟩]) p = asked tr p + if asksFor p c then 1 else 0 := asked_append _ _ _
          constructor
          · rintro ⟨o1, h1, h2⟩
            obtain ⟨o, ho, e⟩ := (ih.state p o1).1 h1
            refine ⟨o, ⟨got_append.2 (.inl ho.1), fun hf => ?_⟩, ?_⟩
            · rcases freed_append.1 hf with hf | hf
              · exact ho.2 hf
              · exact hd hf
            · rw [hask, ← h2, e]
              cases asksFor p c
              · simp
              · simp [bump_after]
          · rintro ⟨o, ⟨hg, hf⟩, e⟩
            have hg : Got tr p o := by
              rcases got_append.1 hg with hg | hg
              · exact hg
              · exact absurd (hnew p o hg).1 (by omega)
            have hf : ¬ Freed tr p := fun x => hf (freed_append.2 (.inl x))
            refine ⟨_, (ih.state p _).2 ⟨o, ⟨hg, hf⟩, rfl⟩, ?_⟩
            rw [e, hask]
            cases asksFor p c
            · simp
            · simp [bump_after]
      · obtain ⟨i, rfl⟩ : ∃ i, p = h.length + i := ⟨p - h.length, by omega⟩
        have e1 : h'.get (h.length + i) = new[i]? := by
          rw [ef.heap, ← ef.length]; exact heap_get_append _ _ _
        have hask : asked (tr ++ [⟨c, gets h' r⟩]) (h.length + i) = 0 := by
          rw [asked_append, ih.askedBound _ hp]
          cases ha : asksFor (h.length + i) c
          · simp [ha]
          · exact absurd (ef.asks _ ha) (by omega)
        rw [e1, hask]
        constructor
        · intro hi
          refine ⟨o', ⟨got_append.2 (.inr ((ef.all _ _).2 ⟨i, rfl, hi⟩)), fun hf => ?_⟩, ?_⟩
          · rcases freed_append.1 hf with hf | ⟨f, hf⟩
            · exact absurd (ih.freedBound _ hf) (by omega)
            · exact absurd (ef.freed f _ hf) (by omega)
          · exact (ef.fresh o' (List.mem_of_getElem? hi)).symm
        · rintro ⟨o, ⟨hg, _⟩, e⟩
          rcases got_append.1 hg with hg | hg
          · exact absurd (ih.bound _ _ hg) (by omega)
          · obtain ⟨j, hj, hn⟩ := (ef.all _ _).1 hg
            have : i = j := by omega
            subst this
            rw [hn, e, ef.fresh o (List.mem_of_getElem? hn)]
    · intro p o hg
      rcases got_append.1 hg with hg | hg
      · have := ih.bound p o hg; omega
      · exact (hnew p o hg).2
    · intro p hf
      rcases freed_append.1 hf with hf | ⟨f, hf⟩
      · have := ih.freedBound p hf; omega
      · have := ef.freed f p hf; omega
    · intro p hp
      rw [asked_append, ih.askedBound p (by omega)]
      cases ha : asksFor p c
      · simp [ha]
      · exact absurd (ef.asks _ ha) (by omega)
    · rw [List.flatMap_append, List.map_append]
      refine List.nodup_append.2 ⟨ih.nodup, ?_, ?_⟩
      · simpa using ef.nodup
      · intro a ha b hb e
        subst e
        obtain ⟨o, ho⟩ := got_mem.1 ha
        have h1 := ih.bound _ _ ho
        simp only [List.flatMap_cons, List.flatMap_nil, List.append_nil, List.mem_map] at hb
        obtain ⟨⟨q, o2⟩, hq, rfl⟩ := hb
        have h2 : h.length ≤ q := (hnew q o2 hq).1
        have h1 : q < h.length := h1
        omega

end Ced
