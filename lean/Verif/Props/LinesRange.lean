import Verif.Props.Coords
import Verif.Props.MenuSelect

/-!
# Lines with carriage returns, lines between two places (C08, C07), and what a refused choice is told (C47)
-/

namespace Ced.Props
open Spec PieceTable

/-- C08: all the lines at once, for texts edited between characters: the carriage return of a line break is left out, one
at the end of a text without final newline is not. -/
theorem C08_every_line {t : PieceTable} (h : CleanHistory t) {s : Bytes} (hs : Shows t s) : t.lines = .ok (cleanLines s) := by
  obtain ⟨hr, ht⟩ := clean_ok h
  have hc := (shows_iff hr.wf).1 hs
  subst hc
  unfold PieceTable.lines
  rw [text_eq hr.wf ht.pieces]
  simp only [except_bind_ok, except_pure]
  rw [strLines_clean]

/-- `a⏎`, `b` and `c` with a carriage return behind them: only the last one stays. -/
example : (PieceTable.withText [97, 13, 10, 98, 13, 10, 99, 13]).lines = .ok [[97], [98], [99, 13]] := by
  have h : CleanHistory (PieceTable.withText [97, 13, 10, 98, 13, 10, 99, 13]) :=
    .withText (by simp) ⟨['a', '\r', '\n', 'b', '\r', '\n', 'c', '\r'], by decide⟩
  have hs : Shows (PieceTable.withText [97, 13, 10, 98, 13, 10, 99, 13]) [97, 13, 10, 98, 13, 10, 99, 13] :=
    (shows_iff (clean_ok h).1.wf).2 (by decide)
  exact C08_every_line h hs

/-- C07: the lines between two places: those of the text from the one to the other; reading backwards crashes. -/
theorem C07_lines_range {t : PieceTable} (h : SteadyHistory t) {s : Bytes} (hs : Shows t s) {seg : Segmentation}
    (hseg : IsSegmentation seg) {n c m d i j : Nat} (hi : ClusterAt seg s i n c) (hj : ClusterAt seg s j m d)
    (hn : 1 ≤ n) (hc : 1 ≤ c) (hm : 1 ≤ m) (hd : 1 ≤ d) (hne : s ≠ []) :
    (i ≤ j → IsText (slice s i j) → t.linesRange seg ⟨n, c⟩ ⟨m, d⟩ = .ok (cleanLines (slice s i j))) ∧
    (j < i → t.linesRange seg ⟨n, c⟩ ⟨m, d⟩ = .error .overflow) := by
  have hw := (reachable_ready (steady_any h)).wf
  have h1 := ((C15_coord_to_offset h hs hne hseg hn hc).2 i).2 hi
  have h2 := ((C15_coord_to_offset h hs hne hseg hm hd).2 j).2 hj
  have hcs := (shows_iff hw).1 hs
  subst hcs
  constructor
  · intro hij ht
    unfold linesRange
    rw [h1]
    simp only [except_bind_ok]
    rw [h2]
    simp only [except_bind_ok]
    have hsub : subChecked j i = .ok (j - i) := by unfold subChecked; rw [if_pos hij]
    rw [hsub]
    simp only [except_bind_ok]
    have he : i + (j - i) = j := by omega
    rw [he]
    unfold textRange
    rw [range_eq hw hij]
    simp only [except_bind_ok, except_pure]
    by_cases hil : i < t.content.length
    · rw [if_pos hil]
      simp only [Option.map_some, Option.getD_some]
      rw [lossy_of_isText ht, strLines_clean]
    · rw [if_neg hil]
      have : slice t.content i j = [] := by
        unfold slice
        simp; omega
      rw [this]
      rfl
  · intro hji
    unfold linesRange
    rw [h1]
    simp only [except_bind_ok]
    rw [h2]
    simp only [except_bind_ok]
    have hsub : subChecked j i = .error .overflow := by unfold subChecked; rw [if_neg (by omega)]
    rw [hsub]
    rfl

/-- Of `"ab", "", "c"`: from the second byte of the first line to the end of the third. -/
example : TA.linesRange bytewise ⟨1, 2⟩ ⟨3, 2⟩ = .ok [[98], [], [99]] ∧
    TA.linesRange bytewise ⟨3, 2⟩ ⟨1, 2⟩ = .error .overflow := by
  have h1 : ClusterAt bytewise [97, 98, 10, 10, 99, 10] 1 1 2 :=
    ⟨[], [97, 98], [10, 10, 99, 10], ⟨rfl, rfl, by decide, by decide, by decide, by decide⟩, by omega, by decide, by decide⟩
  have h2 : ClusterAt bytewise [97, 98, 10, 10, 99, 10] 5 3 2 :=
    ⟨[97, 98, 10, 10], [99], [10], ⟨rfl, rfl, by decide, by decide, by decide, by decide⟩, by omega, by decide, by decide⟩
  exact ⟨(C07_lines_range (forward_steady TA_forward) TA_shows bytewise_ok h1 h2 (by omega) (by omega) (by omega) (by omega)
      (by decide)).1 (by omega) ⟨['b', '\n', '\n', 'c'], by decide⟩,
    (C07_lines_range (forward_steady TA_forward) TA_shows bytewise_ok h2 h1 (by omega) (by omega) (by omega) (by omega)
      (by decide)).2 (by omega)⟩

/-- C07: there is nothing between places one of which the text does not have. -/
theorem C07_lines_range_none {t : PieceTable} (h : SteadyHistory t) {s : Bytes} (hs : Shows t s) {seg : Segmentation}
    (hseg : IsSegmentation seg) {n c m d : Nat} (hn : 1 ≤ n) (hc : 1 ≤ c) (hm : 1 ≤ m) (hd : 1 ≤ d) (hne : s ≠ [])
    (hno : (∀ i, ¬ ClusterAt seg s i n c) ∨ ∀ j, ¬ ClusterAt seg s j m d) :
    t.linesRange seg ⟨n, c⟩ ⟨m, d⟩ = .ok [] := by
  obtain ⟨⟨r1, h1⟩, k1⟩ := C15_coord_to_offset h hs hne hseg hn hc
  obtain ⟨⟨r2, h2⟩, k2⟩ := C15_coord_to_offset h hs hne hseg hm hd
  unfold linesRange
  rw [h1]
  simp only [except_bind_ok]
  cases r1 with
  | none => rfl
  | some i =>
    dsimp only
    rw [h2]
    simp only [except_bind_ok]
    cases r2 with
    | none => rfl
    | some j => rcases hno with hno | hno
                · exact absurd ((k1 i).1 h1) (hno i)
                · exact absurd ((k2 j).1 h2) (hno j)

/-- C47: what a refused choice is told: that there is no such menu, or no such choice in it. -/
theorem C47_refused {L : Type} {env : EditorEnv L} {e : Ced.Editor L} {client : Nat} {command choice : Str}
    (h : Refused env e client command choice) :
    e.commandMenuSelect env client (command, choice) = .ok (e, some
      { code := -32602, message := str!"Invalid method parameter(s).",
        data := some (.str (if (e.menus.get command).isNone then str!"unknown command: " ++ command
          else str!"unknown choice: " ++ choice)) }) := by
  rw [refused_iff] at h
  unfold Editor.commandMenuSelect
  cases hg : e.menus.get command with
  | none => rfl
  | some m =>
    dsimp only
    rw [h m hg]
    rfl

end Ced.Props
