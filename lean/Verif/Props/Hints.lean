import Verif.Props.Session

/-! # The frames of hints: C66 -/

namespace Ced.Props
open Ced Ced.Spec Ced.Scripts

/-- A line of ASCII characters. -/
def AsciiLine (s : Str) : Prop := ∀ c ∈ s, c.val < 128

/-- The length of the longest line. -/
def widest (lines : List Str) : Nat := (lines.map List.length).foldr max 0

/-- All lines have this length. -/
def Rectangle (width : Nat) (lines : List Str) : Prop := ∀ l ∈ lines, l.length = width

theorem len_ascii {s : Str} (h : AsciiLine s) : len s = s.length := by
  unfold len Str.encode
  induction s with
  | nil => rfl
  | cons c s ih =>
    have hc : c.utf8Size = 1 := by
      have := h c (List.mem_cons_self ..)
      rw [Char.utf8Size]
      have h1 : c.val ≤ 127 := by
        rw [UInt32.le_iff_toNat_le]; rw [UInt32.lt_iff_toNat_lt] at this
        have e1 : (128 : UInt32).toNat = 128 := rfl
        have e2 : (127 : UInt32).toNat = 127 := rfl
        omega
      simp [h1]
    rw [List.flatMap_cons, List.length_append, ih fun c hc => h c (List.mem_cons_of_mem _ hc)]
    rw [String.length_utf8EncodeChar, hc, List.length_cons]; omega

theorem maxLength_ascii {lines : List Str} (h : ∀ l ∈ lines, AsciiLine l) : maxLength lines = widest lines := by
  have key : ∀ (ls : List Str) (m : Nat), (∀ l ∈ ls, AsciiLine l) →
      ls.foldl (fun m l => if len l > m then len l else m) m = max m (widest ls) := by
    intro ls
    induction ls with
    | nil => intro m _; simp [widest]
    | cons l ls ih =>
      intro m hl
      rw [List.foldl_cons, ih _ fun x hx => hl x (List.mem_cons_of_mem _ hx), len_ascii (hl l (List.mem_cons_self ..))]
      unfold widest
      rw [List.map_cons, List.foldr_cons]
      split <;> omega
  unfold maxLength
  rw [key lines 0 h]; omega

theorem le_widest {lines : List Str} {l : Str} (h : l ∈ lines) : l.length ≤ widest lines := by
  induction lines with
  | nil => cases h
  | cons x ls ih =>
    unfold widest
    rw [List.map_cons, List.foldr_cons]
    rcases List.mem_cons.1 h with rfl | h
    · omega
    · have := ih h; unfold widest at this; omega

theorem rep_length {s : Str} (hs : s.length = 1) (n : Nat) : (rep s n).length = n := by
  unfold rep
  induction n with
  | zero => rfl
  | succ n ih => rw [List.replicate_succ, List.flatten_cons, List.length_append, ih, hs]; omega

/-- C66: a framed hint of ASCII lines, the first of which is its title, is a rectangle that holds every line, exactly
when some other line is longer than the title by two characters or more; otherwise its first line sticks out. -/
theorem C66_frame {title : Str} {rest : List Str} (ha : ∀ l ∈ title :: rest, AsciiLine l) :
    (framed (title :: rest)).length = rest.length + 2 ∧
    (Rectangle (widest (title :: rest) + 4) (framed (title :: rest)) ↔ title.length + 2 ≤ widest rest) ∧
    (∃ fill, (framed (title :: rest))[0]? = some (str!"╭─ " ++ title ++ str!" " ++ fill ++ str!"─╮")) ∧
    ∀ i (h : i < rest.length), ∃ gap, (∀ c ∈ gap, c = ' ') ∧
      (framed (title :: rest))[i + 1]? = some (str!"│ " ++ rest[i] ++ gap ++ str!" │") := by
  have hw := maxLength_ascii ha
  have hwid : widest (title :: rest) = max title.length (widest rest) := rfl
  refine ⟨by simp [framed], ?_, ⟨_, rfl⟩, ?_⟩
  · constructor
    · intro h
      have := h _ (List.mem_append_left _ (List.mem_cons_self ..))
      rw [hw] at this
      simp only [List.length_append, rep_length (s := ['─']) rfl, len_ascii (ha title (List.mem_cons_self ..)), List.length_cons,
        List.length_nil] at this
      omega
    · intro h l hl
      unfold framed at hl
      dsimp only at hl
      rw [hw] at hl
      rcases List.mem_append.1 hl with hl | hl
      · rcases List.mem_cons.1 hl with rfl | hl
        · simp only [List.length_append, rep_length (s := ['─']) rfl, len_ascii (ha title (List.mem_cons_self ..)), List.length_cons,
            List.length_nil]
          omega
        · obtain ⟨x, hx, rfl⟩ := List.mem_map.1 hl
          have hm := le_widest (List.mem_cons_of_mem title hx)
          simp only [List.length_append, rep_length (s := [' ']) rfl, len_ascii (ha x (List.mem_cons_of_mem _ hx)), List.length_cons,
            List.length_nil]
          omega
      · rw [List.mem_singleton.1 hl]
        simp only [List.length_append, rep_length (s := ['─']) rfl, List.length_cons, List.length_nil]
        omega
  · intro i hi
    refine ⟨rep str!" " (maxLength (title :: rest) - len rest[i]), ?_, ?_⟩
    · intro c hc
      unfold rep at hc
      obtain ⟨x, hx, hc⟩ := List.mem_flatten.1 hc
      rw [(List.mem_replicate.1 hx).2] at hc
      simpa using hc
    · unfold framed
      dsimp only
      rw [List.getElem?_append_left (by simp; omega), List.getElem?_cons_succ, List.getElem?_map, List.getElem?_eq_getElem hi]
      simp

/-- `pairs` enumerates the entries of a table, each once, in some order. -/
def PairsEnumerates (eng : LuaEngine) : Prop := ∀ l, (eng.pairs l).Perm l

/-- C66: entering a go-to mode sends one hint; it is a rectangle with the name of the mode in its first line, and, between
the first and the last line, one line for each key of the mode with what it does. -/
theorem C66_goto {eng : LuaEngine} (hp : PairsEnumerates eng) {m : KeyMode} {title : Str}
    (hm : (m = .moveTo ∧ title = str!"move to") ∨ (m = .extendTo ∧ title = str!"extend to")) :
    ∃ top a b bottom, hintOf eng m = [.hint [top, a, b, bottom]] ∧ Rectangle 17 [top, a, b, bottom] ∧
      (∃ fill, top = str!"╭─ " ++ title ++ str!" " ++ fill ++ str!"─╮") ∧
      [a, b].Perm [str!"│ h: line begin │", str!"│ l: line end   │"] := by
  have perm : ∀ l : List (Str × Str), l.Perm [(str!"h", str!"line begin"), (str!"l", str!"line end")] →
      l = [(str!"h", str!"line begin"), (str!"l", str!"line end")] ∨ l = [(str!"l", str!"line end"), (str!"h", str!"line begin")] := by
    intro l h
    have hlen := h.length_eq
    match l, hlen with
    | [x, y], _ =>
      have hx := h.mem_iff (a := x)
      have hy := h.mem_iff (a := y)
      have h1 := h.mem_iff (a := (str!"h", str!"line begin"))
      have h2 := h.mem_iff (a := (str!"l", str!"line end"))
      simp only [List.mem_cons, List.not_mem_nil, or_false, true_or, or_true, iff_true, true_iff] at hx hy h1 h2
      rcases hx with rfl | rfl <;> rcases hy with rfl | rfl
      · exact absurd h2 (by decide)
      · exact .inl rfl
      · exact .inr rfl
      · exact absurd h1 (by decide)
  have h := perm _ (hp [(str!"h", str!"line begin"), (str!"l", str!"line end")])
  have e1 : hintOf eng .moveTo = [.hint (framed (str!"move to" ::
      (eng.pairs [(str!"h", str!"line begin"), (str!"l", str!"line end")]).map fun kv => kv.1 ++ str!": " ++ kv.2))] := rfl
  have e2 : hintOf eng .extendTo = [.hint (framed (str!"extend to" ::
      (eng.pairs [(str!"h", str!"line begin"), (str!"l", str!"line end")]).map fun kv => kv.1 ++ str!": " ++ kv.2))] := rfl
  rcases hm with ⟨rfl, rfl⟩ | ⟨rfl, rfl⟩
  · rw [e1]
    rcases h with h | h <;> rw [h]
    · exact ⟨_, _, _, _, rfl, by unfold Rectangle; decide +kernel, ⟨str!"────", by decide +kernel⟩, by decide +kernel⟩
    · exact ⟨_, _, _, _, rfl, by unfold Rectangle; decide +kernel, ⟨str!"────", by decide +kernel⟩, by decide +kernel⟩
  · rw [e2]
    rcases h with h | h <;> rw [h]
    · exact ⟨_, _, _, _, rfl, by unfold Rectangle; decide +kernel, ⟨str!"──", by decide +kernel⟩, by decide +kernel⟩
    · exact ⟨_, _, _, _, rfl, by unfold Rectangle; decide +kernel, ⟨str!"──", by decide +kernel⟩, by decide +kernel⟩

example : PairsEnumerates engA := fun l => List.Perm.refl l
example : ∀ l ∈ [str!"keys", str!"a: about"], AsciiLine l := by unfold AsciiLine; decide
example : framed [str!"keys", str!"a: about", str!"q"] =
    [str!"╭─ keys ───╮", str!"│ a: about │", str!"│ q        │", str!"╰──────────╯"] := by decide +kernel
/-- the title sticks out -/
example : framed [str!"keys", str!"a"] = [str!"╭─ keys ─╮", str!"│ a    │", str!"╰──────╯"] := by decide +kernel

end Ced.Props
