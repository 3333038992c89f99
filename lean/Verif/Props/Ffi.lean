import Verif.Model.Ffi
import Verif.Proofs.Core

/-!
# C56, C57, C70: the C library
-/

namespace Ced.Props

open Ffi

/-! ## C56: iterators -/

theorem next_at {α β : Type} (f : α → β) (l : List α) (i : Nat) :
    (Iter.mk l i).next (fun a => .ok (f a)) = .ok (l[i]?.map f, ⟨l, if i < l.length then i + 1 else i⟩) := by
  unfold Iter.next
  dsimp only
  cases h : l[i]? with
  | none =>
    have := List.getElem?_eq_none_iff.mp h
    rw [if_neg (by omega)]; rfl
  | some a =>
    have : i < l.length := by
      rcases Nat.lt_or_ge i l.length with h' | h'
      · exact h'
      · rw [List.getElem?_eq_none h'] at h; cases h
    rw [if_pos this]; rfl

theorem calls_at {α β : Type} (f : α → β) (l : List α) (n : Nat) : ∀ i ≤ l.length,
    (Iter.mk l i).calls (fun a => .ok (f a)) n = .ok ((List.range n).map fun k => (l[i + k]?).map f) := by
  induction n with
  | zero => intro i _; rfl
  | succ n ih =>
    intro i hi
    unfold Iter.calls
    rw [next_at]
    simp only [except_bind_ok]
    rw [ih _ (by split <;> omega)]
    rw [List.range_succ_eq_map]
    simp only [except_bind_ok, List.map_cons, List.map_map, Nat.add_zero]
    have : ∀ k, l[(if i < l.length then i + 1 else i) + k]? = l[i + (k + 1)]? := by
      intro k
      split
      · congr 1; omega
      · rw [List.getElem?_eq_none (by omega), List.getElem?_eq_none (by omega)]
    simp only [this]
    rfl

/-- C56: of any number of calls of a new iterator, the k-th returns the k-th item, and null when there are no more
items. -/
theorem C56_calls {α β : Type} (f : α → β) (l : List α) (n : Nat) :
    (Iter.ofList l).calls (fun a => .ok (f a)) n = .ok ((List.range n).map fun k => (l[k]?).map f) := by
  have := calls_at f l n 0 (Nat.zero_le _)
  simpa [Iter.ofList] using this

/-- C56 (loops): a loop that calls until null sees each item once, in order; if converting an item crashes, so does
the loop. -/
theorem drain_at {α β : Type} (conv : α → R β) (l : List α) : ∀ n i, l.length < i + n →
    (Iter.mk l i).drain conv n = (l.drop i).mapM conv := by
  intro n
  induction n with
  | zero => intro i h; rw [List.drop_eq_nil_iff.mpr (by omega)]; rfl
  | succ n ih =>
    intro i h
    unfold Iter.drain Iter.next
    dsimp only
    cases hi : l[i]? with
    | none =>
      have := List.getElem?_eq_none_iff.mp hi
      rw [List.drop_eq_nil_iff.mpr this]; rfl
    | some a =>
      have hl : i < l.length := by
        rcases Nat.lt_or_ge i l.length with h' | h'
        · exact h'
        · rw [List.getElem?_eq_none h'] at hi; cases hi
      have hd : l.drop i = a :: l.drop (i + 1) := by
        rw [List.drop_eq_getElem_cons hl]
        rw [List.getElem?_eq_getElem hl] at hi
        injection hi with hi
        rw [hi]
      rw [hd, List.mapM_cons]
      dsimp only
      cases conv a with
      | error e => rfl
      | ok b =>
        simp only [except_bind_ok, except_pure]
        rw [ih (i + 1) (by omega)]

theorem C56_drain {α β : Type} (conv : α → R β) (l : List α) (n : Nat) (h : l.length < n) :
    (Iter.ofList l).drain conv n = l.mapM conv := by
  have := drain_at conv l n 0 (by omega)
  simpa [Iter.ofList] using this

example : (Iter.ofList [str!"a", str!"b"]).calls (fun a => .ok a) 4 =
    .ok [some str!"a", some str!"b", none, none] := by decide

/-! ## C57: the last error -/

/-- The pending error after some calls, the newest one first: the message of the last failure, unless it was fetched
since (with a buffer that is not null). -/
def newestFirst : List ErrorCall → Option Bytes
  | [] => none
  | .fail m :: _ => some m
  | .message (some _) _ :: _ => none
  | _ :: older => newestFirst older

/-- The pending error after some calls. -/
def pendingAfter (cs : List ErrorCall) : Option Bytes := newestFirst cs.reverse

/-- The buffers of a call are as long as the program says. -/
def BufferOk : ErrorCall → Prop
  | .message (some memory) length => 0 ≤ length ∧ length ≤ memory.length ∧ length ≤ 2147483647
  | _ => True

theorem pendingAfter_snoc (cs : List ErrorCall) (c : ErrorCall) : pendingAfter (cs ++ [c]) = match c with
    | .fail m => some m
    | .message (some _) _ => none
    | _ => pendingAfter cs := by
  unfold pendingAfter
  rw [List.reverse_append]
  cases c with
  | fail m => rfl
  | length => rfl
  | message b n => cases b <;> rfl

theorem errorCalls_append {p : Option Bytes} {cs ds : List ErrorCall} :
    errorCalls p (cs ++ ds) = (errorCalls p cs).bind fun x =>
      (errorCalls x.1 ds).bind fun y => .ok (y.1, x.2 ++ y.2) := by
  induction cs generalizing p with
  | nil =>
    simp only [List.nil_append, errorCalls, Except.bind]
    cases errorCalls p ds <;> rfl
  | cons c cs ih =>
    simp only [List.cons_append, errorCalls]
    cases errorCall p c with
    | error e => rfl
    | ok x =>
      simp only [except_bind_ok]
      rw [ih]
      cases errorCalls x.1 cs with
      | error e => rfl
      | ok y =>
        cases e : errorCalls y.1 ds <;> simp [e, bind, Except.bind, pure, Except.pure]

theorem asUsize_nat {n : Int} (h0 : 0 ≤ n) (h1 : n ≤ 2147483647) : asUsize n = n.toNat := by
  unfold asUsize; omega

theorem asI32_small {n : Int} (h0 : -2147483648 ≤ n) (h1 : n ≤ 2147483647) : asI32 n = n := by
  unfold asI32; omega

/-- C57 (histories): whatever the calls, with buffers as long as the program says, nothing is written outside them,
and the pending error is the message of the last failure unless it was fetched since. -/
theorem C57_pending (cs : List ErrorCall) (h : ∀ c ∈ cs, BufferOk c) :
    ∃ rs, errorCalls none cs = .ok (pendingAfter cs, rs) ∧ rs.length = cs.length := by
  induction hn : cs.length generalizing cs with
  | zero => rw [List.length_eq_zero_iff.mp hn]; exact ⟨[], rfl, rfl⟩
  | succ n ih =>
    have hne : cs ≠ [] := by rintro rfl; cases hn
    obtain ⟨l, c, rfl⟩ : ∃ l c, cs = l ++ [c] :=
      ⟨cs.dropLast, cs.getLast hne, (List.dropLast_concat_getLast hne).symm⟩
    obtain ⟨rs, h1, h2⟩ := ih l (fun x hx => h x (by simp [hx])) (by simpa using hn)
    rw [errorCalls_append, h1, pendingAfter_snoc]
    have hb := h c (by simp)
    simp only [Except.bind, errorCalls]
    have one : ∃ r, errorCall (pendingAfter l) c = .ok ((match c with
        | .fail m => some m
        | .message (some _) _ => none
        | _ => pendingAfter l), r) := by
      cases c with
      | fail m => exact ⟨_, rfl⟩
      | length =>
        unfold errorCall
        dsimp only
        cases pendingAfter l <;> exact ⟨_, rfl⟩
      | message b len =>
        cases b with
        | none => exact ⟨_, rfl⟩
        | some memory =>
          unfold errorCall
          dsimp only
          cases pendingAfter l with
          | none => exact ⟨_, rfl⟩
          | some m =>
            dsimp only
            obtain ⟨b0, b1, b2⟩ := hb
            rw [asUsize_nat b0 b2]
            split
            · exact ⟨_, rfl⟩
            · rw [if_pos (by omega)]
              exact ⟨_, rfl⟩
    obtain ⟨r, hr⟩ := one
    rw [hr]
    exact ⟨rs ++ [r], rfl, by simp [h2]⟩

/-- C57 (length): after any calls, the length is -1 exactly if no error is pending, and otherwise the length of its
message. -/
theorem C57_length {cs : List ErrorCall} {p : Option Bytes} {rs : List ErrorResult}
    (h : ∀ c ∈ cs, BufferOk c) (hsmall : ∀ m, .fail m ∈ cs → m.length ≤ 2147483647)
    (hr : errorCalls none cs = .ok (p, rs)) :
    errorCall p .length = .ok (p, ⟨match pendingAfter cs with | none => -1 | some m => m.length, none⟩) := by
  obtain ⟨rs', h1, -⟩ := C57_pending cs h
  rw [h1] at hr
  injection hr with hr
  injection hr with hr _
  subst hr
  have hmem : ∀ m, pendingAfter cs = some m → .fail m ∈ cs := by
    clear h h1 hsmall
    intro m hm
    induction hn : cs.length generalizing cs with
    | zero => rw [List.length_eq_zero_iff.mp hn] at hm; cases hm
    | succ n ih =>
      have hne : cs ≠ [] := by rintro rfl; cases hn
      obtain ⟨l, c, rfl⟩ : ∃ l c, cs = l ++ [c] :=
        ⟨cs.dropLast, cs.getLast hne, (List.dropLast_concat_getLast hne).symm⟩
      rw [pendingAfter_snoc] at hm
      cases c with
      | fail m' => injection hm with hm; simp [hm]
      | length => exact List.mem_append_left _ (ih hm (by simpa using hn))
      | message b len =>
        cases b with
        | none => exact List.mem_append_left _ (ih hm (by simpa using hn))
        | some _ => cases hm
  unfold errorCall
  dsimp only
  cases hp : pendingAfter cs with
  | none => rfl
  | some m =>
    have := hsmall m (hmem m hp)
    dsimp only
    rw [asI32_small (by omega) (by omega)]
    rfl

/-- C57 (fetching): with a pending error and a buffer as long as the program says: if the message and a terminator
fit, exactly they are written, at the start of the buffer, and the message's length is returned; otherwise nothing is
written and the result is -2.  Either way the error is consumed. -/
theorem C57_message {m memory : Bytes} {len : Nat} (h : len ≤ memory.length) (hlen : len ≤ 2147483647) :
    errorCall (some m) (.message (some memory) len) = .ok (none,
      if m.length + 1 ≤ len then ⟨m.length, some (m ++ [0] ++ memory.drop (m.length + 1))⟩
      else ⟨-2, some memory⟩) := by
  unfold errorCall
  dsimp only
  rw [asUsize_nat (by omega) (by omega)]
  simp only [Int.toNat_natCast]
  split
  · rw [if_neg (by omega)]; rfl
  · rw [if_pos (by omega), if_pos (by omega), asI32_small (by omega) (by omega)]
    simp [pure, Except.pure]

/-- C57 (nothing to fetch): without a pending error the result is 0 and nothing is written; with a null buffer it is -1
and the error stays. -/
theorem C57_nothing (p : Option Bytes) (memory : Bytes) (len : Int) :
    errorCall none (.message (some memory) len) = .ok (none, ⟨0, some memory⟩) ∧
      errorCall p (.message none len) = .ok (p, ⟨-1, none⟩) := ⟨rfl, rfl⟩

/-- C57 is not vacuous: a failure, its length, fetching it with room to spare, and nothing left. -/
example : errorCalls none [.length, .fail [104, 105], .length, .message none 9, .message (some [7, 7, 7, 7, 7]) 4, .length] =
    .ok (none, [⟨-1, none⟩, ⟨0, none⟩, ⟨2, none⟩, ⟨-1, none⟩, ⟨2, some [104, 105, 0, 7, 7]⟩, ⟨-1, none⟩]) := by
  decide +kernel

/-- C57: a buffer that is too small loses the message: it cannot be fetched with a larger one. -/
theorem C57_too_small_loses : errorCalls none [.fail [104, 105], .message (some [7, 7]) 2,
      .message (some [7, 7, 7]) 3] =
    .ok (none, [⟨0, none⟩, ⟨-2, some [7, 7]⟩, ⟨0, some [7, 7, 7]⟩]) := by decide +kernel

/-- C57, refuted for negative lengths: the length is taken for a huge one, and the message is written behind the end of
the memory. -/
theorem C57_negative : errorCalls none [.fail [104, 105], .message (some [7, 7]) (-1)] = .error .index := by
  decide +kernel

/-! ## C70: events -/

section
variable {T : Type}

/-- An event with its texts as lists of fragments. -/
def textsOf (frags : T → List Fragment) : ConnectionEvent T → ConnectionEvent (List Fragment)
  | .connErr => .connErr
  | .noop => .noop
  | .echo t => .echo (frags t)
  | .hint l => .hint (l.map frags)
  | .info c s => .info c s
  | .menu m => .menu ⟨m.command, m.title, m.search, m.entries.map fun e => ⟨e.value, frags e.text, e.description⟩, m.selected⟩
  | .status l => .status (l.map fun i => (i.1, frags i.2))
  | .view l => .view (l.map fun i => ⟨i.buffer, i.start, i.stop, i.lenses.map fun x => ⟨x.lines.map frags, x.firstLineNum⟩⟩)

/-- Reading a text to its end. -/
def readText (n : Nat) (it : Iter Fragment) : R (List Fragment) := it.drain textItem n

/-- A C program that reads everything in an event, calling each iterator until null; at most `n - 1` items each. -/
def readEvent (frags : T → List Fragment) (n : Nat) : Event T → R (ConnectionEvent (List Fragment))
  | .echo it => do
    let t ← readText n it
    return .echo t
  | .info c s => return .info c s
  | .menu c t s items sel => do
    let items ← items.drain (menuItem frags) n
    let es ← items.mapM fun i => do
      let x ← readText n i.text
      return (⟨i.value, x, i.description⟩ : RemoteEntry (List Fragment))
    return .menu ⟨c, t, s, es, sel⟩
  | .status items => do
    let items ← items.drain (statusItem frags) n
    let es ← items.mapM fun i => do
      let x ← readText n i.text
      return (i.index, x)
    return .status es
  | .view items => do
    let items ← items.drain viewItem n
    let es ← items.mapM fun i => do
      let lenses ← i.lenses.drain viewLens n
      let ls ← lenses.mapM fun l => do
        let lines ← l.lines.drain (fun t => .ok (Iter.ofList (frags t))) n
        let lines ← lines.mapM (readText n)
        return (⟨lines, l.firstLineNum⟩ : RemoteLens (List Fragment))
      return (⟨i.buffer, i.start, i.stop, ls⟩ : RemoteItem (List Fragment))
    return .view es

/-- A string C can hold. -/
def CStr (s : Str) : Prop := Char.ofNat 0 ∉ s

/-- A text C can hold, with fewer than `n` fragments. -/
def CText (n : Nat) (t : List Fragment) : Prop := t.length < n ∧ ∀ f ∈ t, CStr f.1 ∧ CStr f.2

/-- An unsigned 32-bit number. -/
def U32 (n : Nat) : Prop := n < 4294967296

/-- An event that the C library can show: no zero bytes, numbers of at most 32 bits, and of a kind it has. -/
def Showable (frags : T → List Fragment) (n : Nat) : ConnectionEvent T → Prop
  | .echo t => CText n (frags t)
  | .info c s => CStr c ∧ CStr s
  | .menu m => CStr m.command ∧ CStr m.title ∧ CStr m.search ∧ U32 m.selected ∧ m.entries.length < n ∧
      ∀ e ∈ m.entries, CStr e.value ∧ CText n (frags e.text) ∧ ∀ d, e.description = some d → CStr d
  | .status l => l.length < n ∧ ∀ i ∈ l, (-2147483648 ≤ i.1 ∧ i.1 ≤ 2147483647) ∧ CText n (frags i.2)
  | .view l => l.length < n ∧ ∀ i ∈ l, CStr i.buffer ∧ U32 i.start ∧ U32 i.stop ∧ i.lenses.length < n ∧
      ∀ x ∈ i.lenses, U32 x.firstLineNum ∧ x.lines.length < n ∧ ∀ t ∈ x.lines, CText n (frags t)
  | .hint _ => False
  | .connErr => False
  | .noop => False

theorem cstring_ok {s : Str} (h : CStr s) : cstring s = .ok s := if_neg h

theorem asU32_ok {n : Nat} (h : U32 n) : asU32 n = n := Nat.mod_eq_of_lt h

theorem mapM_map {α β : Type} {f : α → R β} {g : α → β} {l : List α} (h : ∀ a ∈ l, f a = .ok (g a)) :
    l.mapM f = .ok (l.map g) := by
  induction l with
  | nil => rfl
  | cons a l ih =>
    rw [List.mapM_cons, h a (by simp), ih fun x hx => h x (by simp [hx])]
    rfl

theorem readText_ok {n : Nat} {t : List Fragment} (h : CText n t) : readText n (.ofList t) = .ok t := by
  unfold readText
  rw [C56_drain _ _ _ h.1, mapM_map (g := id)]
  · simp
  · intro f hf
    unfold textItem
    rw [cstring_ok (h.2 f hf).1, cstring_ok (h.2 f hf).2]
    rfl

theorem drain_ok {α β : Type} {f : α → R β} {g : α → β} {l : List α} {n : Nat} (hn : l.length < n)
    (h : ∀ a ∈ l, f a = .ok (g a)) : (Iter.ofList l).drain f n = .ok (l.map g) := by
  rw [C56_drain _ _ _ hn, mapM_map h]

/-- C70: a C program that reads an event to its ends gets its whole content — every string, number, entry, line and
fragment, in order — if the event holds no zero byte, its numbers have at most 32 bits, and it is not a hint, an error
or a response. -/
theorem C70_content (frags : T → List Fragment) (n : Nat) {e : ConnectionEvent T} (h : Showable frags n e) :
    ∃ c, Event.ofConnection frags e = .ok c ∧ readEvent frags n c = .ok (textsOf frags e) := by
  cases e with
  | connErr => exact h.elim
  | noop => exact h.elim
  | hint l => exact h.elim
  | echo t =>
    refine ⟨_, rfl, ?_⟩
    unfold readEvent
    dsimp only
    rw [readText_ok h]
    rfl
  | info c s =>
    refine ⟨.info c s, ?_, rfl⟩
    unfold Event.ofConnection
    dsimp only
    rw [cstring_ok h.1, cstring_ok h.2]
    rfl
  | menu m =>
    obtain ⟨h1, h2, h3, h4, h5, h6⟩ := h
    refine ⟨.menu m.command m.title m.search (.ofList m.entries) m.selected, ?_, ?_⟩
    · unfold Event.ofConnection
      dsimp only
      rw [cstring_ok h1, cstring_ok h2, cstring_ok h3, asU32_ok h4]
      rfl
    · unfold readEvent
      dsimp only
      rw [drain_ok (g := fun e => ⟨e.value, .ofList (frags e.text), e.description⟩) h5]
      · simp only [except_bind_ok]
        rw [mapM_map (g := fun i => ⟨i.value, i.text.items, i.description⟩)]
        · simp [textsOf, Iter.ofList, except_bind_ok, except_pure, Function.comp_def]
        · intro i hi
          obtain ⟨e, he, rfl⟩ := List.mem_map.mp hi
          dsimp only
          rw [readText_ok (h6 e he).2.1]
          rfl
      · intro e he
        obtain ⟨g1, g2, g3⟩ := h6 e he
        unfold menuItem
        rw [cstring_ok g1]
        cases hd : e.description with
        | none => rfl
        | some d => simp only [except_bind_ok, cstring_ok (g3 d hd)]; rfl
  | status l =>
    obtain ⟨h1, h2⟩ := h
    refine ⟨_, rfl, ?_⟩
    unfold readEvent
    dsimp only
    rw [drain_ok (g := fun i => ⟨i.1, .ofList (frags i.2)⟩) h1]
    · simp only [except_bind_ok]
      rw [mapM_map (g := fun i => (i.index, i.text.items))]
      · simp [textsOf, Iter.ofList, except_bind_ok, except_pure, Function.comp_def]
      · intro i hi
        obtain ⟨e, he, rfl⟩ := List.mem_map.mp hi
        dsimp only
        rw [readText_ok (h2 e he).2]
        rfl
    · intro i hi
      unfold statusItem
      rw [asI32_small (h2 i hi).1.1 (h2 i hi).1.2]
      rfl
  | view l =>
    obtain ⟨h1, h2⟩ := h
    refine ⟨_, rfl, ?_⟩
    unfold readEvent
    dsimp only
    rw [drain_ok (g := fun i => ⟨i.buffer, i.start, i.stop, .ofList i.lenses⟩) h1]
    · simp only [except_bind_ok]
      rw [mapM_map (g := fun i => ⟨i.buffer, i.start, i.stop, i.lenses.items.map fun x => ⟨x.lines.map frags, x.firstLineNum⟩⟩)]
      · simp [textsOf, Iter.ofList, except_bind_ok, except_pure, Function.comp_def]
      · intro i hi
        obtain ⟨e, he, rfl⟩ := List.mem_map.mp hi
        obtain ⟨-, -, -, g1, g2⟩ := h2 e he
        dsimp only
        rw [drain_ok (g := fun x => ⟨.ofList x.lines, x.firstLineNum⟩) g1]
        · simp only [except_bind_ok]
          rw [mapM_map (g := fun x => ⟨x.lines.items.map frags, x.firstLineNum⟩)]
          · simp [Iter.ofList, except_bind_ok, except_pure, Function.comp_def]
          · intro x hx
            obtain ⟨y, hy, rfl⟩ := List.mem_map.mp hx
            obtain ⟨-, k1, k2⟩ := g2 y hy
            dsimp only
            rw [drain_ok (g := fun t => Iter.ofList (frags t)) k1 (fun _ _ => rfl)]
            simp only [except_bind_ok]
            rw [mapM_map (g := fun it => it.items)]
            · simp [Iter.ofList, except_bind_ok, except_pure, Function.comp_def]
            · intro it hit
              obtain ⟨t, ht, rfl⟩ := List.mem_map.mp hit
              exact readText_ok (k2 t ht)
        · intro x hx
          unfold viewLens
          rw [asU32_ok (g2 x hx).1]
          rfl
    · intro i hi
      obtain ⟨g1, g2, g3, -⟩ := h2 i hi
      unfold viewItem
      rw [cstring_ok g1, asU32_ok g2, asU32_ok g3]
      rfl

/-- C70, refuted without its conditions: hints, lines that cannot be read and responses crash the program. -/
theorem C70_crash (frags : T → List Fragment) (l : List T) :
    (Event.ofConnection frags (.hint l)).isOk = false ∧ (Event.ofConnection frags (.connErr : ConnectionEvent T)).isOk = false ∧
      (Event.ofConnection frags (.noop : ConnectionEvent T)).isOk = false := ⟨rfl, rfl, rfl⟩

/-- C70, refuted (zero bytes): a status line with a zero byte crashes the program when it is read. -/
theorem C70_zero : readText 5 (.ofList [([Char.ofNat 0], str!"default")]) = .error .unwrap := by decide +kernel

/-- C70, refuted (large numbers): numbers lose their high bits. -/
theorem C70_large : asU32 4294967296 = 0 ∧ asI32 2147483648 = -2147483648 := by decide

/-- C70 is not vacuous. -/
example : Showable (T := List Fragment) id 5 (.view [⟨str!"f", 1, 2, [⟨[[(str!"ab", str!"default")], []], 1⟩]⟩]) := by
  simp [Showable, CText, CStr, U32]

end
end Ced.Props
