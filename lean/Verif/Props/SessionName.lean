import Verif.Model.SessionName
import Verif.Proofs.JsonText

/-!
# C54: the daemon started for a session listens where the client connects
-/

namespace Ced

theorem pieces_none {sep : Char} {a : Str} (h : sep ∉ a) : pieces sep a = [a] := by
  induction a with
  | nil => rfl
  | cons c a ih =>
    rw [List.mem_cons, not_or] at h
    simp [pieces, Ne.symm h.1, ih h.2]

theorem pieces_cons {sep : Char} {a b : Str} (h : sep ∉ a) :
    pieces sep (a ++ sep :: b) = a :: pieces sep b := by
  induction a with
  | nil => simp [pieces]
  | cons c a ih =>
    rw [List.mem_cons, not_or] at h
    simp [pieces, Ne.symm h.1, ih h.2]

theorem pieces_ne {sep : Char} (a : Str) : pieces sep a ≠ [] := by
  cases a with
  | nil => simp [pieces]
  | cons c a =>
    unfold pieces
    split
    · simp
    · split <;> simp

/-- The pieces, joined again. -/
def joined (sep : Char) : List Str → Str
  | [] => []
  | [p] => p
  | p :: q :: ps => p ++ sep :: joined sep (q :: ps)

theorem joined_pieces (sep : Char) (s : Str) : joined sep (pieces sep s) = s := by
  induction s with
  | nil => rfl
  | cons c s ih =>
    unfold pieces
    have hne := pieces_ne (sep := sep) s
    split
    · rename_i h
      cases hp : pieces sep s with
      | nil => exact absurd hp hne
      | cons p ps => rw [hp] at ih; simp [joined, ih, h]
    · cases hp : pieces sep s with
      | nil => exact absurd hp hne
      | cons p ps =>
        rw [hp] at ih
        cases ps with
        | nil => simpa [joined] using ih
        | cons q ps => simpa [joined] using ih

theorem pieces_free (sep : Char) (s : Str) : ∀ p ∈ pieces sep s, sep ∉ p := by
  induction s with
  | nil => simp [pieces]
  | cons c s ih =>
    unfold pieces
    split
    · intro p hp
      rcases List.mem_cons.mp hp with rfl | hp
      · simp
      · exact ih p hp
    · rename_i hc
      cases hp : pieces sep s with
      | nil => intro p hp; simp at hp; subst hp; simpa using Ne.symm hc
      | cons q ps =>
        rw [hp] at ih
        intro p hp
        rcases List.mem_cons.mp hp with rfl | hp
        · rw [List.mem_cons, not_or]
          exact ⟨Ne.symm hc, ih q List.mem_cons_self⟩
        · exact ih p (List.mem_cons_of_mem _ hp)

theorem pieces_pair {sep : Char} {s a b : Str} : pieces sep s = [a, b] ↔
    s = a ++ sep :: b ∧ sep ∉ a ∧ sep ∉ b := by
  constructor
  · intro h
    have h1 := joined_pieces sep s
    have h2 := pieces_free sep s
    rw [h] at h1 h2
    exact ⟨h1.symm, h2 a (by simp), h2 b (by simp)⟩
  · rintro ⟨rfl, ha, hb⟩
    rw [pieces_cons ha, pieces_none hb]

theorem pieces_four {sep : Char} {s a b c d : Str} : pieces sep s = [a, b, c, d] ↔
    s = a ++ sep :: (b ++ sep :: (c ++ sep :: d)) ∧ sep ∉ a ∧ sep ∉ b ∧ sep ∉ c ∧ sep ∉ d := by
  constructor
  · intro h
    have h1 := joined_pieces sep s
    have h2 := pieces_free sep s
    rw [h] at h1 h2
    exact ⟨h1.symm, h2 a (by simp), h2 b (by simp), h2 c (by simp), h2 d (by simp)⟩
  · rintro ⟨rfl, ha, hb, hc, hd⟩
    rw [pieces_cons ha, pieces_cons hb, pieces_cons hc, pieces_none hd]

end Ced

namespace Ced.Props

open SessionName

/-- The names that the pattern `^@(\w+|\d+\.\d\.\d+\.\d+)?:(\d+)$` matches: `@`, optionally a word or
four numbers separated by dots of which the second is a single digit, `:` and a number. -/
def TcpName (cls : Classes) (name : Str) : Prop :=
  ∃ a p, name = '@' :: a ++ ':' :: p ∧ p ≠ [] ∧ (∀ c ∈ p, cls.digit c = true) ∧
    (a = [] ∨ (∀ c ∈ a, cls.word c = true) ∨
      ∃ w x y z, a = w ++ '.' :: [x] ++ '.' :: y ++ '.' :: z ∧ w ≠ [] ∧ y ≠ [] ∧ z ≠ [] ∧
        ∀ c ∈ w ++ x :: y ++ z, cls.digit c = true)

theorem not_mem_of {f : Char → Bool} {c : Char} {s : Str} (h : f c = false)
    (hs : ∀ x ∈ s, f x = true) : c ∉ s := fun hc => by
  have := hs c hc; rw [h] at this; cases this

theorem dotted_iff {cls : Classes} (ok : cls.Ok) {a : Str} : dotted cls a = true ↔
    ∃ w x y z, a = w ++ '.' :: [x] ++ '.' :: y ++ '.' :: z ∧ w ≠ [] ∧ y ≠ [] ∧ z ≠ [] ∧
        ∀ c ∈ w ++ x :: y ++ z, cls.digit c = true := by
  constructor
  · intro h
    unfold dotted at h
    split at h
    · rename_i w x y z hp
      obtain ⟨ha, -⟩ := pieces_four.mp hp
      simp only [List.all_cons, List.all_nil, Bool.and_true, Bool.and_eq_true, decide_eq_true_eq,
        List.all_eq_true] at h
      obtain ⟨⟨⟨hw, hw'⟩, ⟨hx, hx'⟩, ⟨hy, hy'⟩, hz, hz'⟩, hl⟩ := h
      obtain ⟨x, rfl⟩ := List.length_eq_one_iff.mp hl
      refine ⟨w, x, y, z, by simp [ha], hw, hy, hz, ?_⟩
      intro c hc
      simp only [List.cons_append, List.append_assoc, List.mem_append, List.mem_cons] at hc
      rcases hc with hc | rfl | hc | hc
      · exact hw' c hc
      · exact hx' c (by simp)
      · exact hy' c hc
      · exact hz' c hc
    · cases h
  · rintro ⟨w, x, y, z, rfl, hw, hy, hz, hd⟩
    have hf : ∀ s : Str, (∀ c ∈ s, c ∈ w ++ x :: y ++ z) → '.' ∉ s := fun s hs =>
      not_mem_of ok.dot.2 fun c hc => hd c (hs c hc)
    have : pieces '.' (w ++ '.' :: [x] ++ '.' :: y ++ '.' :: z) = [w, [x], y, z] := by
      rw [pieces_four]
      refine ⟨by simp, hf w fun c hc => by simp [hc], hf [x] fun c hc => ?_, hf y fun c hc => by simp [hc],
        hf z fun c hc => by simp [hc]⟩
      simp only [List.mem_singleton] at hc; simp [hc]
    unfold dotted
    rw [this]
    simp only [List.all_cons, List.all_nil, Bool.and_true, Bool.and_eq_true, decide_eq_true_eq,
        List.all_eq_true]
    refine ⟨⟨⟨hw, fun c hc => hd c (by simp [hc])⟩, ⟨by simp, hd x (by simp)⟩, ⟨hy, fun c hc => hd c (by simp [hc])⟩,
      hz, fun c hc => hd c (by simp [hc])⟩, rfl⟩

theorem dotted_colon {cls : Classes} (ok : cls.Ok) {a : Str} (h : dotted cls a = true) : ':' ∉ a := by
  obtain ⟨w, x, y, z, rfl, -, -, -, hd⟩ := (dotted_iff ok).mp h
  intro hc
  have hn : ':' ∉ w ++ x :: y ++ z := not_mem_of ok.colon.2 hd
  simp at hc hn
  rcases hc with h | h | h | h
  · exact hn.1 h
  · exact hn.2.1 h
  · exact hn.2.2.1 h
  · exact hn.2.2.2 h

/-- What the pattern captures. -/
theorem captures_some {cls : Classes} (ok : cls.Ok) {s : Str} {g : Option Str × Str} :
    captures cls s = some g ↔ ∃ a, s = '@' :: a ++ ':' :: g.2 ∧ g.1 = (if a = [] then none else some a) ∧
      g.2 ≠ [] ∧ (∀ c ∈ g.2, cls.digit c = true) ∧
      (a = [] ∨ (∀ c ∈ a, cls.word c = true) ∨ dotted cls a = true) := by
  constructor
  · intro h
    unfold captures at h
    split at h
    · split at h
      · rename_i r a p hp
        split at h
        · rename_i hc
          injection h with h
          subst h
          simp only [Bool.and_eq_true, Bool.or_eq_true, decide_eq_true_eq, List.all_eq_true] at hc
          exact ⟨a, by simp [(pieces_pair.mp hp).1], rfl, hc.1.1, hc.1.2, by
            rcases hc.2 with (h | h) | h
            · exact .inl h
            · exact .inr (.inl h)
            · exact .inr (.inr h)⟩
        · cases h
      · cases h
    · cases h
  · rintro ⟨a, rfl, hg, hne, hd, ha⟩
    have hcp : ':' ∉ g.2 := not_mem_of ok.colon.2 hd
    have hca : ':' ∉ a := by
      rcases ha with rfl | h | h
      · simp
      · exact not_mem_of ok.colon.1 h
      · exact dotted_colon ok h
    have : pieces ':' (a ++ ':' :: g.2) = [a, g.2] := pieces_pair.mpr ⟨rfl, hca, hcp⟩
    simp only [captures, List.cons_append, this]
    rw [if_pos]
    · rw [← hg]
    · simp only [Bool.and_eq_true, Bool.or_eq_true, decide_eq_true_eq, List.all_eq_true]
      refine ⟨⟨hne, hd⟩, ?_⟩
      rcases ha with h | h | h
      · exact .inl (.inl h)
      · exact .inl (.inr h)
      · exact .inr h

/-- The names recognised as addresses. -/
theorem isTcp_iff {cls : Classes} (ok : cls.Ok) {s : Str} : isTcp cls s = true ↔ TcpName cls s := by
  unfold isTcp
  rw [Option.isSome_iff_exists]
  constructor
  · rintro ⟨g, hg⟩
    obtain ⟨a, hs, -, h1, h2, h3⟩ := (captures_some ok).mp hg
    refine ⟨a, g.2, hs, h1, h2, ?_⟩
    rcases h3 with h | h | h
    · exact .inl h
    · exact .inr (.inl h)
    · exact .inr (.inr ((dotted_iff ok).mp h))
  · rintro ⟨a, p, hs, h1, h2, h3⟩
    refine ⟨(if a = [] then none else some a, p), (captures_some ok).mpr ⟨a, hs, rfl, h1, h2, ?_⟩⟩
    rcases h3 with h | h | h
    · exact .inl h
    · exact .inr (.inl h)
    · exact .inr (.inr ((dotted_iff ok).mpr h))

/-- A name that is a single path component. -/
def PlainName (n : Str) : Prop := n ≠ [] ∧ '/' ∉ n ∧ n ≠ ['.'] ∧ n ≠ ['.', '.']

/-- The root of the sessions: an absolute path, without a slash at its end. -/
def RootOk (root : Str) : Prop := root.head? = some '/' ∧ root.getLast? ≠ some '/'

theorem tcp_head {cls : Classes} {s : Str} (h : isTcp cls s = true) : s.head? = some '@' := by
  unfold isTcp captures at h
  split at h
  · rfl
  · cases h

theorem push_head {root name : Str} (hr : RootOk root) : (push root name).head? = some '/' := by
  unfold push
  split
  · rfl
  · obtain ⟨c, r, rfl⟩ := List.exists_cons_of_ne_nil (l := root) (by rintro rfl; cases hr.1)
    have := hr.1
    split <;> simpa using this

/-- Where a session with a name that is not an address is found. -/
theorem fromName_socket {cls : Classes} {root name : Str} (hr : RootOk root) (h : ¬ isTcp cls name = true) :
    fromName cls root name = .ok (.socket (push root name)) := by
  unfold fromName
  rw [if_neg h]
  have hh : captures cls (push root name) = none := by
    have := push_head (name := name) hr
    cases hc : captures cls (push root name) with
    | none => rfl
    | some g =>
      have := tcp_head (cls := cls) (s := push root name) (by simp [isTcp, hc])
      rw [push_head hr] at this
      cases this
  simp [parse, hh, pure, Except.pure]

theorem fromName_tcp {cls : Classes} {root name : Str} (h : isTcp cls name = true) :
    fromName cls root name = parse cls name := by
  unfold fromName
  rw [if_pos h]

theorem fileName_plain {path n : Str} (h : fileName path = some n) : PlainName n := by
  unfold fileName at h
  split at h
  · rename_i p hp
    split at h
    · cases h
    · injection h with h
      subst h
      rename_i hdd
      have hm := List.mem_of_getLast? hp
      rw [List.mem_filter] at hm
      simp only [Bool.and_eq_true, decide_eq_true_eq] at hm
      exact ⟨hm.2.1, pieces_free _ _ _ hm.1, hm.2.2, hdd⟩
  · cases h

theorem pieces_append (sep : Char) (a b : Str) (h : sep ∉ b) :
    ∃ l, pieces sep (a ++ sep :: b) = l ++ [b] := by
  induction a with
  | nil => exact ⟨[[]], by simp [pieces, pieces_none h]⟩
  | cons c a ih =>
    obtain ⟨l, hl⟩ := ih
    simp only [List.cons_append]
    unfold pieces
    split
    · exact ⟨[] :: l, by rw [hl]; rfl⟩
    · rw [hl]
      cases l with
      | nil =>
        have hj := joined_pieces sep (a ++ sep :: b)
        rw [hl] at hj
        simp only [List.nil_append, joined] at hj
        exact absurd (by rw [hj]; simp) h
      | cons p ps => exact ⟨(c :: p) :: ps, rfl⟩

theorem fileName_push {root n : Str} (h : PlainName n) : fileName (root ++ '/' :: n) = some n := by
  obtain ⟨l, hl⟩ := pieces_append '/' root n h.2.1
  unfold fileName
  rw [hl, List.filter_append]
  have : ([n].filter fun p => p ≠ [] && p ≠ ['.']) = [n] := by simp [h.1, h.2.2.1]
  rw [this, List.getLast?_append]
  simp [h.2.2.2]

theorem push_plain {root n : Str} (hr : RootOk root) (h : PlainName n) : push root n = root ++ '/' :: n := by
  unfold push
  split
  · exact absurd List.mem_cons_self h.2.1
  · rw [if_neg hr.2]

/-- C54 (sockets): a session on a local socket — the daemon started for it listens on the path where the
client connects exactly if that path is directly below the sessions' root, under a name that is not an
address. -/
theorem C54_socket {cls : Classes} {root path : Str} (hr : RootOk root) :
    daemonMode cls root (.socket path) = .ok (.socket path) ↔
      ∃ n, PlainName n ∧ ¬ isTcp cls n = true ∧ path = root ++ '/' :: n := by
  constructor
  · intro h
    unfold daemonMode Mode.display at h
    dsimp only at h
    cases hf : fileName path with
    | none => rw [hf] at h; cases h
    | some n =>
      rw [hf] at h
      change fromName cls root n = _ at h
      have hp := fileName_plain hf
      by_cases ht : isTcp cls n = true
      · rw [fromName_tcp ht] at h
        unfold parse at h
        split at h
        · rename_i a p hc
          cases hpa : parseAddr (a.getD str!"127.0.0.1" ++ ':' :: p) with
          | none => rw [hpa] at h; cases h
          | some x => rw [hpa] at h; cases h
        · rename_i hc
          rw [isTcp, hc] at ht; cases ht
      · rw [fromName_socket hr ht] at h
        injection h with h
        injection h with h
        exact ⟨n, hp, ht, by rw [← h, push_plain hr hp]⟩
  · rintro ⟨n, hp, ht, rfl⟩
    unfold daemonMode Mode.display
    dsimp only
    rw [fileName_push hp]
    change fromName cls root n = _
    rw [fromName_socket hr ht, push_plain hr hp]

/-- C54 (named sessions): for every session name that is a single path component, and not an address, the
client connects to the socket of that name below the root, and the daemon started for the session listens
there. -/
theorem C54_named {cls : Classes} (ok : cls.Ok) {root n : Str} (hr : RootOk root) (hn : PlainName n)
    (ht : ¬ TcpName cls n) :
    fromName cls root n = .ok (.socket (root ++ '/' :: n)) ∧
      daemonMode cls root (.socket (root ++ '/' :: n)) = .ok (.socket (root ++ '/' :: n)) := by
  have ht' : ¬ isTcp cls n = true := fun h => ht ((isTcp_iff ok).mp h)
  exact ⟨by rw [fromName_socket hr ht', push_plain hr hn], (C54_socket hr).mpr ⟨n, hn, ht', rfl⟩⟩

theorem octet_back : ∀ n < 256, octet (natStr n) = some n := by decide +kernel

theorem octet_le {s : Str} {n : Nat} (h : octet s = some n) :
    n < 256 ∧ (s.length = 1 → n < 10) := by
  unfold octet at h
  split at h
  · rename_i hc
    simp only [Bool.and_eq_true, decide_eq_true_eq, List.all_eq_true] at hc
    injection h with h
    subst h
    refine ⟨by omega, fun hl => ?_⟩
    obtain ⟨c, rfl⟩ := List.length_eq_one_iff.mp hl
    have := hc.1.1.1.2 c (by simp)
    simp [Char.isDigit, Nat.ofDigitChars] at this ⊢
    have h2 : c.toNat ≤ 57 := this.2
    omega
  · cases h

theorem portOf_le {s : Str} {n : Nat} (h : portOf s = some n) : n ≤ 65535 := by
  unfold portOf at h
  split at h
  · rename_i hc
    simp only [Bool.and_eq_true, decide_eq_true_eq, List.all_eq_true] at hc
    injection h with h
    subst h
    exact hc.2
  · cases h

theorem portOf_back {n : Nat} (h : n ≤ 65535) : portOf (natStr n) = some n := by
  unfold portOf
  rw [JsonText.nat_back, if_pos]
  simp only [Bool.and_eq_true, decide_eq_true_eq, List.all_eq_true]
  exact ⟨⟨decimal_ne n, fun c hc => decimal_digit hc⟩, h⟩

theorem natStr_free {n : Nat} {c : Char} (h : c.isDigit = false) : c ∉ natStr n := fun hc => by
  have := decimal_digit hc; rw [h] at this; cases this

/-- An address in range. -/
def Addr.Valid (a : Addr) : Prop := a.a < 256 ∧ a.b < 256 ∧ a.c < 256 ∧ a.d < 256 ∧ a.port ≤ 65535

theorem parseAddr_inv {s : Str} {a : Addr} (h : parseAddr s = some a) : Addr.Valid a ∧
    ∃ w x y z p, s = w ++ '.' :: x ++ '.' :: y ++ '.' :: z ++ ':' :: p ∧ (x.length = 1 → a.b < 10) ∧
      ('.' ∉ w ∧ '.' ∉ x ∧ '.' ∉ y ∧ '.' ∉ z) ∧
      ':' ∉ w ++ '.' :: x ++ '.' :: y ++ '.' :: z := by
  unfold parseAddr at h
  split at h
  · rename_i hd p hp
    split at h
    · rename_i w x y z hw
      obtain ⟨rfl, f1, f2⟩ := pieces_pair.mp hp
      obtain ⟨rfl, g1, g2, g3, g4⟩ := pieces_four.mp hw
      simp only [Option.bind_eq_bind, Option.bind_eq_some_iff] at h
      obtain ⟨a1, h1, a2, h2, a3, h3, a4, h4, a5, h5, h⟩ := h
      injection h with h
      subst h
      refine ⟨⟨(octet_le h1).1, (octet_le h2).1, (octet_le h3).1, (octet_le h4).1, portOf_le h5⟩,
        w, x, y, z, p, by simp, (octet_le h2).2, ⟨g1, g2, g3, g4⟩, by simpa using f1⟩
    · cases h
  · cases h

theorem parseAddr_display {a : Addr} (h : Addr.Valid a) : parseAddr a.display = some a := by
  have hdot : ('.' : Char).isDigit = false := by decide
  have hcol : (':' : Char).isDigit = false := by decide
  have h1 : pieces ':' a.display = [natStr a.a ++ '.' :: (natStr a.b ++ '.' :: (natStr a.c ++ '.' :: natStr a.d)),
      natStr a.port] := by
    rw [pieces_pair]
    refine ⟨by simp [Addr.display], ?_, natStr_free hcol⟩
    simp [natStr_free hcol]
  have h2 := pieces_four (sep := '.') (a := natStr a.a) (b := natStr a.b) (c := natStr a.c) (d := natStr a.d)
    |>.mpr ⟨rfl, natStr_free hdot, natStr_free hdot, natStr_free hdot, natStr_free hdot⟩
  unfold parseAddr
  rw [h1]
  dsimp only
  rw [h2]
  dsimp only
  rw [octet_back _ h.1, octet_back _ h.2.1, octet_back _ h.2.2.1, octet_back _ h.2.2.2.1, portOf_back h.2.2.2.2]
  rfl

theorem digit_char {c : Char} (h : c.isDigit = true) : ∃ d < 10, c = Nat.digitChar d := by
  simp only [Char.isDigit, Bool.and_eq_true, decide_eq_true_eq] at h
  have h1 : 48 ≤ c.toNat := h.1
  have h2 : c.toNat ≤ 57 := h.2
  have key : ∀ n < 58, 48 ≤ n → Char.ofNat n = Nat.digitChar (n - 48) := by decide
  refine ⟨c.toNat - 48, by omega, ?_⟩
  rw [← key c.toNat (by omega) h1, Char.ofNat_toNat]

/-- A number of an address is read from its decimal writing only. -/
theorem octet_iff {s : Str} {n : Nat} : octet s = some n ↔ n < 256 ∧ s = natStr n := by
  constructor
  · intro h
    refine ⟨(octet_le h).1, ?_⟩
    unfold octet at h
    split at h
    · rename_i hc
      simp only [Bool.and_eq_true, decide_eq_true_eq, List.all_eq_true] at hc
      injection h with h
      subst h
      have k1 : ∀ a < 10, [Nat.digitChar a] = natStr (Nat.ofDigitChars 10 [Nat.digitChar a] 0) := by decide +kernel
      have k2 : ∀ a < 10, ∀ b < 10, some (Nat.digitChar a) ≠ some '0' →
          [Nat.digitChar a, Nat.digitChar b] = natStr (Nat.ofDigitChars 10 [Nat.digitChar a, Nat.digitChar b] 0) := by
        decide +kernel
      have k3 : ∀ a < 10, ∀ b < 10, ∀ c < 10, some (Nat.digitChar a) ≠ some '0' →
          [Nat.digitChar a, Nat.digitChar b, Nat.digitChar c] =
            natStr (Nat.ofDigitChars 10 [Nat.digitChar a, Nat.digitChar b, Nat.digitChar c] 0) := by
        decide +kernel
      obtain ⟨⟨⟨⟨h1, h2⟩, h3⟩, h4⟩, -⟩ := hc
      match s, h1, h2, h3, h4 with
      | [x], _, h2, _, _ =>
        obtain ⟨a, ha, rfl⟩ := digit_char (h2 x (by simp))
        exact k1 a ha
      | [x, y], _, h2, _, h4 =>
        obtain ⟨a, ha, rfl⟩ := digit_char (h2 x (by simp))
        obtain ⟨b, hb, rfl⟩ := digit_char (h2 y (by simp))
        exact k2 a ha b hb (by simpa using h4)
      | [x, y, z], _, h2, _, h4 =>
        obtain ⟨a, ha, rfl⟩ := digit_char (h2 x (by simp))
        obtain ⟨b, hb, rfl⟩ := digit_char (h2 y (by simp))
        obtain ⟨c, hc, rfl⟩ := digit_char (h2 z (by simp))
        exact k3 a ha b hb c hc (by simpa using h4)
    · cases h
  · rintro ⟨h, rfl⟩; exact octet_back n h

/-- A port is a number up to 65535 in decimal digits, leading zeros allowed. -/
def PortText (p : Str) (n : Nat) : Prop :=
  p ≠ [] ∧ (∀ c ∈ p, c.isDigit = true) ∧ Nat.ofDigitChars 10 p 0 = n ∧ n ≤ 65535

theorem portOf_iff {p : Str} {n : Nat} : portOf p = some n ↔ PortText p n := by
  unfold portOf PortText
  constructor
  · intro h
    split at h
    · rename_i hc
      simp only [Bool.and_eq_true, decide_eq_true_eq, List.all_eq_true] at hc
      injection h with h
      subst h
      exact ⟨hc.1.1, hc.1.2, rfl, hc.2⟩
    · cases h
  · rintro ⟨h1, h2, rfl, h3⟩
    rw [if_pos]
    simp only [Bool.and_eq_true, decide_eq_true_eq, List.all_eq_true]
    exact ⟨⟨h1, h2⟩, h3⟩

theorem parseAddr_text {s : Str} {a : Addr} : parseAddr s = some a ↔ Addr.Valid a ∧ ∃ p, PortText p a.port ∧
    s = natStr a.a ++ '.' :: natStr a.b ++ '.' :: natStr a.c ++ '.' :: natStr a.d ++ ':' :: p := by
  have hdot : ('.' : Char).isDigit = false := by decide
  have hcol : (':' : Char).isDigit = false := by decide
  constructor
  · intro h
    refine ⟨(parseAddr_inv h).1, ?_⟩
    unfold parseAddr at h
    split at h
    · rename_i hd p hp
      split at h
      · rename_i w x y z hw
        obtain ⟨rfl, f1, f2⟩ := pieces_pair.mp hp
        obtain ⟨rfl, g1, g2, g3, g4⟩ := pieces_four.mp hw
        simp only [Option.bind_eq_bind, Option.bind_eq_some_iff] at h
        obtain ⟨a1, h1, a2, h2, a3, h3, a4, h4, a5, h5, h⟩ := h
        injection h with h
        subst h
        refine ⟨p, portOf_iff.mp h5, ?_⟩
        rw [(octet_iff.mp h1).2, (octet_iff.mp h2).2, (octet_iff.mp h3).2, (octet_iff.mp h4).2]
        simp
      · cases h
    · cases h
  · rintro ⟨hv, p, hp, rfl⟩
    have h1 : pieces ':' (natStr a.a ++ '.' :: natStr a.b ++ '.' :: natStr a.c ++ '.' :: natStr a.d ++ ':' :: p) =
        [natStr a.a ++ '.' :: (natStr a.b ++ '.' :: (natStr a.c ++ '.' :: natStr a.d)), p] := by
      rw [pieces_pair]
      refine ⟨by simp, by simp [natStr_free hcol], not_mem_of hcol hp.2.1⟩
    have h2 := pieces_four (sep := '.') (a := natStr a.a) (b := natStr a.b) (c := natStr a.c) (d := natStr a.d)
      |>.mpr ⟨rfl, natStr_free hdot, natStr_free hdot, natStr_free hdot, natStr_free hdot⟩
    unfold parseAddr
    rw [h1]
    dsimp only
    rw [h2]
    dsimp only
    rw [octet_back _ hv.1, octet_back _ hv.2.1, octet_back _ hv.2.2.1, octet_back _ hv.2.2.2.1, portOf_iff.mpr hp]
    rfl

/-- A name that is read as an address: `@`, then the four numbers in plain decimal with a single digit for the second, or
nothing for this machine, then `:` and the port. -/
def AddressName (name : Str) (a : Addr) : Prop :=
  Addr.Valid a ∧ ∃ p, PortText p a.port ∧
    (a.b < 10 ∧ name = '@' :: natStr a.a ++ '.' :: natStr a.b ++ '.' :: natStr a.c ++ '.' :: natStr a.d ++ ':' :: p ∨
      (a.a, a.b, a.c, a.d) = (127, 0, 0, 1) ∧ name = '@' :: ':' :: p)

theorem small_length : ∀ n < 10, (natStr n).length = 1 := by decide

/-- An address whose second number is a single digit prints as a name that is recognised. -/
theorem captures_display {cls : Classes} (ok : cls.Ok) {a : Addr} (hb : a.b < 10) :
    ∃ h, captures cls ('@' :: a.display) = some (some h, natStr a.port) ∧
      h ++ ':' :: natStr a.port = a.display := by
  obtain ⟨x, hx⟩ := List.length_eq_one_iff.mp (small_length _ hb)
  refine ⟨natStr a.a ++ '.' :: [x] ++ '.' :: natStr a.c ++ '.' :: natStr a.d, ?_, by simp [Addr.display, hx]⟩
  rw [captures_some ok]
  refine ⟨natStr a.a ++ '.' :: [x] ++ '.' :: natStr a.c ++ '.' :: natStr a.d, by simp [Addr.display, hx],
    by rw [if_neg (by simp)], decimal_ne _, fun c hc => (ok.ascii c (decimal_digit hc)).2, .inr (.inr ?_)⟩
  rw [dotted_iff ok]
  refine ⟨_, _, _, _, rfl, decimal_ne _, decimal_ne _, decimal_ne _, fun c hc => ?_⟩
  have hxd : x.isDigit = true := decimal_digit (a := a.b) (by
    have : x ∈ natStr a.b := by rw [hx]; simp
    exact this)
  simp only [List.cons_append, List.append_assoc, List.mem_append, List.mem_cons] at hc
  rcases hc with hc | rfl | hc | hc
  · exact (ok.ascii c (decimal_digit hc)).2
  · exact (ok.ascii _ hxd).2
  · exact (ok.ascii c (decimal_digit hc)).2
  · exact (ok.ascii c (decimal_digit hc)).2

theorem tcp_key {cls : Classes} (ok : cls.Ok) {root name : Str} {a : Addr} (hr : RootOk root)
    (h : fromName cls root name = .ok (.tcp a)) : Addr.Valid a ∧ a.b < 10 := by
  by_cases ht : isTcp cls name = true
  · rw [fromName_tcp ht] at h
    unfold parse at h
    split at h
    · rename_i address port hc
      cases hp : parseAddr (address.getD str!"127.0.0.1" ++ ':' :: port) with
      | none => rw [hp] at h; cases h
      | some x =>
        rw [hp] at h
        injection h with h
        injection h with h
        subst h
        obtain ⟨hv, w, y, z, u, p, hs, hl, hdots, hcol⟩ := parseAddr_inv hp
        refine ⟨hv, hl ?_⟩
        obtain ⟨ad, -, hg, -, hport, hads⟩ := (captures_some ok).mp hc
        dsimp only at hg hport hads
        have hpc : ':' ∉ port := not_mem_of ok.colon.2 hport
        have hadc : ':' ∉ address.getD str!"127.0.0.1" := by
          rw [hg]
          split
          · decide
          · dsimp only [Option.getD]
            rcases hads with h | h | h
            · rw [h]; simp
            · exact not_mem_of ok.colon.1 h
            · exact dotted_colon ok h
        have e1 : pieces ':' (address.getD str!"127.0.0.1" ++ ':' :: port) =
          [address.getD str!"127.0.0.1", port] := pieces_pair.mpr ⟨rfl, hadc, hpc⟩
        have e2 : address.getD str!"127.0.0.1" = w ++ '.' :: y ++ '.' :: z ++ '.' :: u := by
          rw [hs, pieces_cons hcol] at e1
          injection e1 with e1 _
          exact e1.symm
        have e3 : pieces '.' (address.getD str!"127.0.0.1") = [w, y, z, u] := by
          rw [pieces_four]
          exact ⟨by rw [e2]; simp, hdots⟩
        rw [hg] at e3
        split at e3
        · have : pieces '.' (Option.getD none str!"127.0.0.1") = [str!"127", str!"0", str!"0", str!"1"] := by
            decide
          rw [this] at e3
          injection e3 with _ e3
          injection e3 with e3 _
          rw [← e3]; rfl
        · rename_i hne
          dsimp only [Option.getD] at e3
          rcases hads with h | h | h
          · exact absurd h hne
          · rw [pieces_none (not_mem_of ok.dot.1 h)] at e3
            injection e3 with _ e3; cases e3
          · unfold dotted at h
            rw [e3] at h
            simp only [Bool.and_eq_true, decide_eq_true_eq] at h
            exact h.2
    · cases h
  · rw [fromName_socket hr ht] at h
    injection h with h; cases h

/-- C54 (addresses): if the client connects to an address, the daemon started for the session listens on
that address. -/
theorem C54_tcp {cls : Classes} (ok : cls.Ok) {root name : Str} {a : Addr} (hr : RootOk root)
    (h : fromName cls root name = .ok (.tcp a)) : daemonMode cls root (.tcp a) = .ok (.tcp a) := by
  have key := tcp_key ok hr h
  obtain ⟨hd, hc, hs⟩ := captures_display ok (a := a) key.2
  change fromName cls root ('@' :: a.display) = _
  rw [fromName_tcp (by rw [isTcp, hc]; rfl)]
  unfold parse
  rw [hc]
  dsimp only [Option.getD]
  rw [hs, parseAddr_display key.1]
  rfl

/-- C54 (written addresses): an address in range whose second number is a single digit is read as itself,
and a port alone is a port of this machine. -/
theorem C54_written {cls : Classes} (ok : cls.Ok) (root : Str) {a : Addr} (h : Addr.Valid a) :
    (a.b < 10 → fromName cls root ('@' :: a.display) = .ok (.tcp a)) ∧
      fromName cls root ('@' :: ':' :: natStr a.port) = .ok (.tcp ⟨127, 0, 0, 1, a.port⟩) := by
  constructor
  · intro hb
    obtain ⟨hd, hc, hs⟩ := captures_display ok (a := a) hb
    rw [fromName_tcp (by rw [isTcp, hc]; rfl)]
    unfold parse
    rw [hc]
    dsimp only [Option.getD]
    rw [hs, parseAddr_display h]
    rfl
  · have hc : captures cls ('@' :: ':' :: natStr a.port) = some (none, natStr a.port) :=
      (captures_some ok).mpr ⟨[], rfl, rfl, decimal_ne _, fun c hc => (ok.ascii c (decimal_digit hc)).2, .inl rfl⟩
    rw [fromName_tcp (by rw [isTcp, hc]; rfl)]
    unfold parse
    rw [hc]
    dsimp only [Option.getD]
    have : str!"127.0.0.1" ++ ':' :: natStr a.port = Addr.display ⟨127, 0, 0, 1, a.port⟩ := by
      have e : ∀ p : Str, str!"127.0.0.1" ++ ':' :: p = natStr 127 ++ '.' :: natStr 0 ++ '.' :: natStr 0 ++
          '.' :: natStr 1 ++ ':' :: p := fun p => rfl
      exact e _
    have hv : Addr.Valid ⟨127, 0, 0, 1, a.port⟩ :=
      ⟨(by decide : 127 < 256), (by decide : 0 < 256), (by decide : 0 < 256), (by decide : 1 < 256), h.2.2.2.2⟩
    rw [this, parseAddr_display hv]
    rfl

/-- C54: whatever the name — if a session has a mode, the daemon started for it gets that same mode, for
addresses always, for sockets exactly when the name is a single path component below the root. -/
theorem C54 {cls : Classes} (ok : cls.Ok) {root name : Str} {m : Mode} (hr : RootOk root)
    (h : fromName cls root name = .ok m) :
    daemonMode cls root m = .ok m ↔ match m with
      | .tcp _ => True
      | .socket path => ∃ n, PlainName n ∧ ¬ TcpName cls n ∧ path = root ++ '/' :: n := by
  cases m with
  | tcp a => exact ⟨fun _ => trivial, fun _ => C54_tcp ok hr h⟩
  | socket path =>
    rw [C54_socket hr]
    simp only [isTcp_iff ok]

/-! ### Concrete names -/

/-- The classes on ASCII. -/
def asciiClasses : Classes where
  word c := c.isAlphanum || c = '_'
  digit c := c.isDigit

theorem asciiClasses_ok : asciiClasses.Ok where
  ascii c h := by simp [asciiClasses, h, Char.isAlphanum]
  dot := by decide
  colon := by decide

def tmpRoot : Str := str!"/tmp/ced-me"

theorem tmpRoot_ok : RootOk tmpRoot := ⟨by decide, by decide⟩

/-- C54 is not vacuous: a name, and addresses with and without a host. -/
example : fromName asciiClasses tmpRoot str!"work" = .ok (.socket str!"/tmp/ced-me/work") ∧
    fromName asciiClasses tmpRoot str!"@:8888" = .ok (.tcp ⟨127, 0, 0, 1, 8888⟩) ∧
    fromName asciiClasses tmpRoot str!"@10.0.12.7:0080" = .ok (.tcp ⟨10, 0, 12, 7, 80⟩) := by decide +kernel

example : PlainName str!"work" ∧ isTcp asciiClasses str!"work" = false := by
  unfold PlainName; decide

/-- C54, refuted without its conditions (1): an address whose second number has two digits is not recognised
as an address: the session is a local socket with that name. -/
theorem C54_address_is_a_file : fromName asciiClasses tmpRoot str!"@192.168.1.1:80" =
    .ok (.socket str!"/tmp/ced-me/@192.168.1.1:80") := by decide +kernel

/-- C54, refuted (2): a host name, a number that is no port and a number out of range crash. -/
theorem C54_bad_address_crashes :
    fromName asciiClasses tmpRoot str!"@localhost:80" = .error .unwrap ∧
    fromName asciiClasses tmpRoot str!"@:65536" = .error .unwrap ∧
    fromName asciiClasses tmpRoot str!"@256.0.0.1:80" = .error .unwrap := by decide +kernel

theorem local_text (p : Str) : str!"127.0.0.1" ++ ':' :: p =
    natStr 127 ++ '.' :: natStr 0 ++ '.' :: natStr 0 ++ '.' :: natStr 1 ++ ':' :: p := rfl

/-- C54 (what is an address): a client connects to an address exactly if the name is that address, written plainly. -/
theorem C54_address {cls : Classes} (ok : cls.Ok) {root name : Str} {a : Addr} (hr : RootOk root) :
    fromName cls root name = .ok (.tcp a) ↔ AddressName name a := by
  have hcol : (':' : Char).isDigit = false := by decide
  have ptcp : ∀ {p n}, PortText p n → ∀ c ∈ p, cls.digit c = true := fun hp c hc => (ok.ascii c (hp.2.1 c hc)).2
  constructor
  · intro h
    by_cases ht : isTcp cls name = true
    · have hb : a.b < 10 := (tcp_key ok hr h).2
      rw [fromName_tcp ht] at h
      unfold parse at h
      split at h
      · rename_i address port hc
        cases hp : parseAddr (address.getD str!"127.0.0.1" ++ ':' :: port) with
        | none => rw [hp] at h; cases h
        | some x =>
          rw [hp] at h
          injection h with h
          injection h with h
          subst h
          obtain ⟨hv, p, hpt, hs⟩ := parseAddr_text.mp hp
          obtain ⟨ad, hname, hg, -, hport, hads⟩ := (captures_some ok).mp hc
          dsimp only at hg hport hads hname
          have hpc : ':' ∉ port := not_mem_of ok.colon.2 hport
          have hadc : ':' ∉ address.getD str!"127.0.0.1" := by
            rw [hg]
            split
            · decide
            · dsimp only [Option.getD]
              rcases hads with h | h | h
              · rw [h]; simp
              · exact not_mem_of ok.colon.1 h
              · exact dotted_colon ok h
          have e1 : pieces ':' (address.getD str!"127.0.0.1" ++ ':' :: port) =
            [address.getD str!"127.0.0.1", port] := pieces_pair.mpr ⟨rfl, hadc, hpc⟩
          have e2 : pieces ':' (address.getD str!"127.0.0.1" ++ ':' :: port) =
              [natStr x.a ++ '.' :: natStr x.b ++ '.' :: natStr x.c ++ '.' :: natStr x.d, p] := by
            rw [hs]
            exact pieces_pair.mpr ⟨rfl, by simp [natStr_free hcol], not_mem_of hcol hpt.2.1⟩
          rw [e1] at e2
          injection e2 with e2 e3
          injection e3 with e3 _
          subst e3
          refine ⟨hv, port, hpt, ?_⟩
          rw [hg] at e2
          split at e2
          · rename_i hn
            right
            subst hn
            have hl : parseAddr (str!"127.0.0.1" ++ ':' :: port) = some ⟨127, 0, 0, 1, x.port⟩ :=
              parseAddr_text.mpr ⟨⟨(by decide : 127 < 256), (by decide : 0 < 256), (by decide : 0 < 256),
                (by decide : 1 < 256), hv.2.2.2.2⟩, port, hpt, local_text port⟩
            rw [hg] at hp
            have e : parseAddr (str!"127.0.0.1" ++ ':' :: port) = some x := hp
            rw [hl] at e
            injection e with e
            rw [← e]
            exact ⟨rfl, hname⟩
          · left
            dsimp only [Option.getD] at e2
            refine ⟨hb, ?_⟩
            rw [hname, e2]
            simp
      · cases h
    · rw [fromName_socket hr ht] at h
      injection h with h; cases h
  · rintro ⟨hv, p, hp, ⟨hb, rfl⟩ | ⟨he, rfl⟩⟩
    · obtain ⟨x, hx⟩ := List.length_eq_one_iff.mp (small_length _ hb)
      have hc : captures cls ('@' :: natStr a.a ++ '.' :: natStr a.b ++ '.' :: natStr a.c ++ '.' :: natStr a.d ++ ':' :: p) =
          some (some (natStr a.a ++ '.' :: natStr a.b ++ '.' :: natStr a.c ++ '.' :: natStr a.d), p) := by
        rw [captures_some ok]
        refine ⟨natStr a.a ++ '.' :: natStr a.b ++ '.' :: natStr a.c ++ '.' :: natStr a.d, by simp,
          by rw [if_neg (by simp)], hp.1, ptcp hp, .inr (.inr ?_)⟩
        rw [dotted_iff ok]
        refine ⟨natStr a.a, x, natStr a.c, natStr a.d, by rw [hx], decimal_ne _, decimal_ne _, decimal_ne _, fun c hc => ?_⟩
        have hxd : x.isDigit = true := decimal_digit (a := a.b) (by
          have : x ∈ natStr a.b := by rw [hx]; simp
          exact this)
        simp only [List.cons_append, List.append_assoc, List.mem_append, List.mem_cons] at hc
        rcases hc with hc | rfl | hc | hc
        · exact (ok.ascii c (decimal_digit hc)).2
        · exact (ok.ascii _ hxd).2
        · exact (ok.ascii c (decimal_digit hc)).2
        · exact (ok.ascii c (decimal_digit hc)).2
      rw [fromName_tcp (by rw [isTcp, hc]; rfl)]
      unfold parse
      rw [hc]
      dsimp only [Option.getD]
      rw [parseAddr_text.mpr ⟨hv, p, hp, rfl⟩]
      rfl
    · have hc : captures cls ('@' :: ':' :: p) = some (none, p) :=
        (captures_some ok).mpr ⟨[], rfl, rfl, hp.1, ptcp hp, .inl rfl⟩
      rw [fromName_tcp (by rw [isTcp, hc]; rfl)]
      unfold parse
      rw [hc]
      dsimp only [Option.getD]
      have : str!"127.0.0.1" ++ ':' :: p = natStr a.a ++ '.' :: natStr a.b ++ '.' :: natStr a.c ++ '.' :: natStr a.d ++ ':' :: p := by
        injection he with e1 he
        injection he with e2 he
        injection he with e3 e4
        rw [e1, e2, e3, e4]; rfl
      rw [this, parseAddr_text.mpr ⟨hv, p, hp, rfl⟩]
      rfl

/-- C54 (crashes): a name crashes exactly if it is taken for an address but is not one. -/
theorem C54_crashes {cls : Classes} (ok : cls.Ok) {root name : Str} (hr : RootOk root) :
    (∃ e, fromName cls root name = .error e) ↔ TcpName cls name ∧ ∀ a, ¬ AddressName name a := by
  constructor
  · rintro ⟨e, he⟩
    refine ⟨?_, fun a ha => ?_⟩
    · by_cases ht : isTcp cls name = true
      · exact (isTcp_iff ok).mp ht
      · rw [fromName_socket hr ht] at he; cases he
    · rw [(C54_address ok hr).mpr ha] at he; cases he
  · rintro ⟨ht, hn⟩
    have ht := (isTcp_iff ok).mpr ht
    rw [fromName_tcp ht]
    unfold parse
    split
    · rename_i address port hc
      cases hp : parseAddr (address.getD str!"127.0.0.1" ++ ':' :: port) with
      | none => exact ⟨_, rfl⟩
      | some x =>
        exfalso
        refine hn x ((C54_address ok hr).mp ?_)
        rw [fromName_tcp ht]
        unfold parse
        rw [hc]
        dsimp only
        rw [hp]; rfl
    · rename_i hc
      unfold isTcp at ht
      rw [hc] at ht; cases ht

/-- Both are met: leading zeros are no address, but may stand before a port. -/
example : fromName asciiClasses tmpRoot str!"@127.0.0.01:80" = .error .unwrap ∧
    fromName asciiClasses tmpRoot str!"@127.0.0.1:0080" = .ok (.tcp ⟨127, 0, 0, 1, 80⟩) := by decide +kernel

/-- The modes of the client and of its daemon. -/
def bothModes (cls : Classes) (root name : Str) : R (Mode × R Mode) := do
  let m ← fromName cls root name
  return (m, daemonMode cls root m)

/-- C54, refuted (3): with a name that has a slash the daemon listens elsewhere: on another path, or on a
port of the network. -/
theorem C54_slash :
    bothModes asciiClasses tmpRoot str!"a/b" =
      .ok (.socket str!"/tmp/ced-me/a/b", .ok (.socket str!"/tmp/ced-me/b")) ∧
    bothModes asciiClasses tmpRoot str!"x/@:80" =
      .ok (.socket str!"/tmp/ced-me/x/@:80", .ok (.tcp ⟨127, 0, 0, 1, 80⟩)) := by decide +kernel

/-- C54, refuted (4): with the empty name the daemon listens below the root, under the name of the root;
with `..` starting it crashes. -/
theorem C54_dots :
    bothModes asciiClasses tmpRoot [] =
      .ok (.socket str!"/tmp/ced-me/", .ok (.socket str!"/tmp/ced-me/ced-me")) ∧
    bothModes asciiClasses tmpRoot str!".." =
      .ok (.socket str!"/tmp/ced-me/..", .error .unwrap) := by decide +kernel

end Ced.Props
