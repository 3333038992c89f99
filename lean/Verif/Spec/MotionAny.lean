import Verif.Spec.Coords

/-!
# Motions in texts of any characters

Columns are counted in grapheme clusters when the cursor is put at a column (`ClusterAt`), but the column the editor
reads off the cursor is counted in three different ways: in clusters inside the lines after the first, in bytes inside
the first line, and in bytes on the newline that ends a line.  This file says where a motion goes, given the two.
-/

namespace Ced.Spec

/-- The line and the column the editor reads off an offset. -/
def ReadAs (seg : Segmentation) (s : Bytes) (o n c : Nat) : Prop :=
  ∃ pre line suf, LineAt s n pre line suf ∧
    -- on the newline that ends the line
    ((suf ≠ [] ∧ o = pre.length + line.length ∧ c = line.length + 1) ∨
    -- inside the first line
     (n = 1 ∧ o < line.length ∧ c = o + 1) ∨
    -- inside a later line
     (n ≠ 1 ∧ ∃ before g after k, seg line = before ++ g :: after ∧ k < g.length ∧
        o = pre.length + before.flatten.length + k ∧ c = before.length + 1))

/-- From line `m` and column `c` of `s`, where the cluster (or the newline) at offset `p` is, and with the wished column
`tc`, a motion is headed for line `n` and wishes column `w`. -/
inductive HeadedFrom (seg : Segmentation) (s : Bytes) (m c p tc : Nat) : CursorTarget → Nat → Nat → Prop
  /-- left of the start of the text: no motion -/
  | leftStart : m = 1 → c = 1 → HeadedFrom seg s m c p tc .left 1 tc
  /-- left of the start of a line: behind the previous line, whose length counts in bytes -/
  | leftLine {n : Nat} {pre line suf : Bytes} : m = n + 1 → c = 1 → LineAt s n pre line suf →
      HeadedFrom seg s m c p tc .left n (line.length + 1)
  | left {w : Nat} : c = w + 1 → 1 ≤ w → HeadedFrom seg s m c p tc .left m w
  /-- the column is the one of the last byte of the text: no motion -/
  | rightEnd : ReadAs seg s (s.length - 1) m c → HeadedFrom seg s m c p tc .right m tc
  | rightLine : ¬ ReadAs seg s (s.length - 1) m c → s[p]? = some NL → HeadedFrom seg s m c p tc .right (m + 1) 1
  /-- one *byte* on, and that offset is read again -/
  | right {b : UInt8} {n w : Nat} : ¬ ReadAs seg s (s.length - 1) m c → s[p]? = some b → b ≠ NL → ReadAs seg s (p + 1) n w →
      HeadedFrom seg s m c p tc .right n w
  | rightLast {b : UInt8} : ¬ ReadAs seg s (s.length - 1) m c → s[p]? = some b → b ≠ NL → p + 1 = s.length →
      HeadedFrom seg s m c p tc .right m tc
  | upFirst : m = 1 → HeadedFrom seg s m c p tc .up 1 tc
  | up {n : Nat} : m = n + 1 → 1 ≤ n → HeadedFrom seg s m c p tc .up n tc
  | downLast : m = lineCount s → HeadedFrom seg s m c p tc .down m tc
  | down : m < lineCount s → HeadedFrom seg s m c p tc .down (m + 1) tc
  | begin : HeadedFrom seg s m c p tc .begin 1 1
  | «end» {n w : Nat} : ReadAs seg s (s.length - 1) n w → HeadedFrom seg s m c p tc .end n w
  | lineBegin : HeadedFrom seg s m c p tc .lineBegin m 1
  /-- the last column of the line, in bytes -/
  | lineEnd {pre line suf : Bytes} : LineAt s m pre line suf → HeadedFrom seg s m c p tc .lineEnd m line.length

/-- A motion from offset `o`: the column read off must be one of the line, counted in clusters. -/
def Headed (seg : Segmentation) (s : Bytes) (o tc : Nat) (d : CursorTarget) (n w : Nat) : Prop :=
  ∃ m c p, ReadAs seg s o m c ∧ ClusterAt seg s p m c ∧ HeadedFrom seg s m c p tc d n w

/-- Offset `o` is on line `n`, at the cluster of column `w`, or at the end of the line if it has fewer clusters. -/
def LandsOn (seg : Segmentation) (s : Bytes) (n w o : Nat) : Prop :=
  ∃ pre line suf, LineAt s n pre line suf ∧ 1 ≤ w ∧
    o = pre.length + ((seg line).take (min w ((seg line).length + 1) - 1)).flatten.length

/-- What a motion makes of a selection of a client.  In a text of one byte nothing moves; a cursor behind the text is taken for
the start of the text; in an empty text, and when the motion leads nowhere, there is no such selection. -/
def MovesTo (seg : Segmentation) (s : Bytes) (d : CursorTarget) (extend : Bool) (sel sel' : Selection) : Prop :=
  (s.length = 1 ∧ sel' = sel) ∨
  (2 ≤ s.length ∧ ∃ e n w o, (sel.cursor < s.length → e = sel.cursor) ∧ (s.length ≤ sel.cursor → e = 0) ∧
    Headed seg s e sel.targetCol d n w ∧ LandsOn seg s n w o ∧ o < s.length ∧
    sel' = ⟨if extend then sel.anchor else o, o, w⟩)

end Ced.Spec
