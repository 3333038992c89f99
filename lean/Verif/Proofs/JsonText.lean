import Verif.Spec.JsonText
import Verif.Proofs.View

/-! # The parser reads what the writer wrote -/

namespace Ced.JsonText

theorem hexValue_digit : ∀ n < 16, hexValue (Json.hexDigit n) = some n := by decide

theorem hex_back : ∀ n < 32, Char.ofNat (16 * (n / 16) + n % 16) = Char.ofNat n := by decide

theorem strBody_plain {c : Char} {r : Str} (h1 : c ≠ '"') (h2 : c ≠ '\\') (h3 : ¬ c.toNat < 32) :
    strBody (c :: r) = (strBody r).map fun x => (c :: x.1, x.2) := by
  have : strBody (c :: r) = if c.toNat < 32 then none else do
      let (s, r) ← strBody r
      return (c :: s, r) := by
    rw [strBody.eq_5]
    · exact fun h => h1 h
    · intro _ _ _ h _ ; exact h2 h
    · intro _ _ h _ ; exact h2 h
  rw [this, if_neg h3]
  cases strBody r <;> rfl

theorem strBody_write (s rest : Str) : strBody (s.flatMap Json.escapeChar ++ '"' :: rest) = some (s, rest) := by
  induction s with
  | nil => rfl
  | cons c s ih =>
    rw [List.flatMap_cons, List.append_assoc]
    have hc : ∀ n, c.toNat = n → c = Char.ofNat n := by
      rintro n rfl; exact (Char.ofNat_toNat c).symm
    generalize s.flatMap Json.escapeChar ++ '"' :: rest = t at ih
    unfold Json.escapeChar
    split
    · rename_i h; subst h; simp [strBody, ih]
    split
    · rename_i h; subst h; simp [strBody, ih]
    split
    · rename_i h; have := hc _ h; subst this; simp [strBody, ih]
    split
    · rename_i h; have := hc _ h; subst this; simp [strBody, ih]
    split
    · rename_i h; have := hc _ h; subst this; simp [strBody, ih]
    split
    · rename_i h; have := hc _ h; subst this; simp [strBody, ih]
    split
    · rename_i h; have := hc _ h; subst this; simp [strBody, ih]
    split
    · rename_i h
      simp only [List.cons_append, List.nil_append, strBody]
      rw [hexValue_digit _ (by omega), hexValue_digit _ (by omega), ih]
      simp only [Option.bind_eq_bind, Option.bind_some, pure]
      rw [hex_back _ h, Char.ofNat_toNat]
    · rename_i h1 h2 _ _ _ _ _ h3
      rw [List.cons_append, List.nil_append, strBody_plain h1 h2 h3, ih]
      rfl

/-- What can follow a number. -/
def Stop (rest : Str) : Prop := ∀ c, rest.head? = some c → c.isDigit = false ∧ c ≠ 'e'

theorem digits_append {d rest : Str} (hd : ∀ c ∈ d, c.isDigit = true)
    (hr : ∀ c, rest.head? = some c → c.isDigit = false) : digits (d ++ rest) = (d, rest) := by
  induction d with
  | nil =>
    cases rest with
    | nil => rfl
    | cons c r => simp [digits, hr c rfl]
  | cons c d ih =>
    simp [digits, hd c List.mem_cons_self, ih fun x hx => hd x (List.mem_cons_of_mem _ hx)]

theorem digits_nat {n : Nat} {rest : Str} (hr : ∀ c, rest.head? = some c → c.isDigit = false) :
    digits (natStr n ++ rest) = (natStr n, rest) := digits_append (fun _ h => decimal_digit h) hr

theorem nat_back (n : Nat) : Nat.ofDigitChars 10 (natStr n) 0 = n := Nat.ofDigitChars_ten_toDigits

theorem natStr_head (n : Nat) : ∃ c r, natStr n = c :: r ∧ c.isDigit = true := by
  obtain ⟨c, r, h⟩ := List.exists_cons_of_ne_nil (decimal_ne n)
  exact ⟨c, r, h, decimal_digit (a := n) (by rw [h]; exact List.mem_cons_self)⟩

theorem int_write {n : Int} {rest : Str} (hr : ∀ c, rest.head? = some c → c.isDigit = false) :
    int (Json.writeInt n ++ rest) = some (n, rest) := by
  cases n with
  | ofNat n =>
    have h := digits_nat (n := n) hr
    obtain ⟨c, r, he, hc⟩ := natStr_head n
    have hne : natStr n ≠ [] := by rw [he]; simp
    have hneg : ∀ r', natStr n ++ rest ≠ '-' :: r' := by
      intro r' h'
      rw [he, List.cons_append] at h'
      have := (List.cons.inj h').1
      subst this; revert hc; decide
    show int (natStr n ++ rest) = _
    have : int (natStr n ++ rest) =
        (let (d, r) := digits (natStr n ++ rest)
         if d = [] then none else some ((Nat.ofDigitChars 10 d 0 : Int), r)) := by
      rw [int.eq_2]
      exact hneg
    rw [this, h]
    simp only [hne, if_false, nat_back]
    rfl
  | negSucc n =>
    have h := digits_nat (n := n + 1) hr
    obtain ⟨c, r, he, hc⟩ := natStr_head (n + 1)
    have hne : natStr (n + 1) ≠ [] := by rw [he]; simp
    show int ('-' :: (natStr (n + 1) ++ rest)) = _
    rw [int.eq_1, h]
    simp only [hne, if_false, nat_back]
    rfl

theorem number_num {n : Int} {rest : Str} (hr : Stop rest) : number (Json.writeInt n ++ rest) = some (.num n, rest) := by
  unfold number
  rw [int_write fun c hc => (hr c hc).1]
  cases rest with
  | nil => rfl
  | cons c r =>
    have := (hr c rfl).2
    simp only [Option.bind_eq_bind, Option.bind_some]
    split
    · rename_i h; exact absurd (List.cons.inj h).1 this
    · rfl

theorem number_frac {m e : Int} {rest : Str} (hr : Stop rest) :
    number (Json.writeInt m ++ ['e'] ++ Json.writeInt e ++ rest) = some (.frac m e, rest) := by
  unfold number
  rw [List.append_assoc, List.append_assoc, int_write (by simp)]
  simp only [Option.bind_eq_bind, Option.bind_some, List.cons_append, List.nil_append]
  rw [int_write fun c hc => (hr c hc).1]
  rfl

/-- a number starts with a digit or a minus sign -/
theorem writeInt_head (n : Int) : ∃ c r, Json.writeInt n = c :: r ∧ (c.isDigit = true ∨ c = '-') := by
  cases n with
  | ofNat n => obtain ⟨c, r, h, hc⟩ := natStr_head n; exact ⟨c, r, h, .inl hc⟩
  | negSucc n => exact ⟨_, _, rfl, .inr rfl⟩

theorem value_number {f : Nat} {c : Char} {r : Str} (hc : c.isDigit = true ∨ c = '-') :
    value (f + 1) (c :: r) = number (c :: r) := by
  have hn : c ≠ 'n' ∧ c ≠ 't' ∧ c ≠ 'f' ∧ c ≠ '"' ∧ c ≠ '[' ∧ c ≠ '{' := by
    refine ⟨?_, ?_, ?_, ?_, ?_, ?_⟩ <;> (rintro rfl; revert hc; decide)
  obtain ⟨h1, h2, h3, h4, h5, h6⟩ := hn
  rw [value]
  all_goals intro _ h; first | exact h1 (List.cons.inj h).1 | exact h2 (List.cons.inj h).1 | exact h3 (List.cons.inj h).1 | exact h4 (List.cons.inj h).1 | exact h5 (List.cons.inj h).1 | exact h6 (List.cons.inj h).1

theorem writeList_head {a : Json} {l : List Json} : ∃ r, Json.writeList (a :: l) = a.write ++ r := by
  cases l with
  | nil => exact ⟨[], by simp [Json.writeList]⟩
  | cons b l => exact ⟨_, by rw [Json.writeList, List.append_assoc]; simp⟩

theorem write_head (a : Json) : ∃ c r, a.write = c :: r ∧ c ≠ ']' := by
  cases a with
  | bool b => cases b <;> exact ⟨_, _, rfl, by decide⟩
  | num n =>
    obtain ⟨c, r, h, hc⟩ := writeInt_head n
    refine ⟨c, r, by rw [Json.write, h], ?_⟩
    rintro rfl; revert hc; decide
  | frac n e =>
    obtain ⟨c, r, h, hc⟩ := writeInt_head n
    refine ⟨c, r ++ ['e'] ++ Json.writeInt e, by rw [Json.write, h]; simp, ?_⟩
    rintro rfl; revert hc; decide
  | null => exact ⟨_, _, by rw [Json.write], by decide⟩
  | str s => exact ⟨'"', s.flatMap Json.escapeChar ++ ['"'], by rw [Json.write]; rfl, by decide⟩
  | arr l => exact ⟨'[', Json.writeList l ++ [']'], by rw [Json.write]; rfl, by decide⟩
  | obj l => exact ⟨'{', Json.writeObj l ++ ['}'], by rw [Json.write]; rfl, by decide⟩

theorem writeObj_head {k : Str} {a : Json} {l : List (Str × Json)} : ∃ r, Json.writeObj ((k, a) :: l) =
    '"' :: (k.flatMap Json.escapeChar ++ '"' :: ':' :: (a.write ++ r)) ∧
    r = (if l = [] then [] else ',' :: Json.writeObj l) := by
  cases l with
  | nil => exact ⟨[], by simp [Json.writeObj, Json.writeStr]⟩
  | cons b l =>
    refine ⟨',' :: Json.writeObj (b :: l), ?_, by simp⟩
    rw [Json.writeObj]
    · simp [Json.writeStr]
    · simp

theorem stop_of {c : Char} {r : Str} (h : c = ',' ∨ c = ']' ∨ c = '}') : Stop (c :: r) := by
  intro d hd
  simp only [List.head?_cons, Option.some.injEq] at hd
  subst hd
  rcases h with h | h | h <;> subst h <;> decide

mutual
theorem value_write : ∀ (j : Json) (f : Nat) (rest : Str), j.write.length ≤ f → Stop rest →
    value f (j.write ++ rest) = some (j, rest)
  | .null, f + 1, rest, _, _ => by simp [Json.write, value]
  | .bool true, f + 1, rest, _, _ => by simp [Json.write, value]
  | .bool false, f + 1, rest, _, _ => by simp [Json.write, value]
  | .num n, f + 1, rest, _, hr => by
    obtain ⟨c, r, h, hc⟩ := writeInt_head n
    rw [Json.write, h, List.cons_append, value_number hc, ← List.cons_append, ← h]
    exact number_num hr
  | .frac m e, f + 1, rest, _, hr => by
    obtain ⟨c, r, h, hc⟩ := writeInt_head m
    rw [Json.write, h, List.cons_append, List.cons_append, List.cons_append, value_number hc, ← List.cons_append,
      ← List.cons_append, ← List.cons_append, ← h]
    exact number_frac hr
  | .str s, f + 1, rest, _, _ => by
    rw [Json.write, Json.writeStr, List.append_assoc, List.append_assoc]
    show value (f + 1) ('"' :: (s.flatMap Json.escapeChar ++ '"' :: rest)) = _
    rw [value, strBody_write]
    rfl
  | .arr [], f + 1, rest, _, _ => by simp [Json.write, Json.writeList, value]
  | .arr (a :: l), f + 1, rest, hf, hr => by
    obtain ⟨x, hx⟩ := writeList_head (a := a) (l := l)
    obtain ⟨c, r, hc, hne⟩ := write_head a
    have he := elements_write a l f rest (by rw [Json.write] at hf; simp at hf; omega)
    rw [Json.write, List.append_assoc, List.append_assoc]
    show value (f + 1) ('[' :: (Json.writeList (a :: l) ++ ']' :: rest)) = _
    have : ∃ y, Json.writeList (a :: l) ++ ']' :: rest = c :: y := ⟨_, by rw [hx, hc]; rfl⟩
    obtain ⟨y, hy⟩ := this
    rw [hy] at he ⊢
    rw [value]
    · rw [he]; rfl
    · intro r' h'
      exact hne (List.cons.inj h').1
  | .obj [], f + 1, rest, _, _ => by simp [Json.write, Json.writeObj, value]
  | .obj ((k, a) :: l), f + 1, rest, hf, hr => by
    have he := members_write k a l f rest (by rw [Json.write] at hf; simp at hf; omega)
    obtain ⟨x, hx, _⟩ := writeObj_head (k := k) (a := a) (l := l)
    rw [Json.write, List.append_assoc, List.append_assoc]
    show value (f + 1) ('{' :: (Json.writeObj ((k, a) :: l) ++ '}' :: rest)) = _
    rw [hx, List.cons_append] at he ⊢
    rw [value]
    · rw [he]; rfl
    · intro r' h'
      exact absurd (List.cons.inj h').1 (by decide)
  | j, 0, _, hf, _ => by
    obtain ⟨c, r, h, _⟩ := write_head j
    rw [h] at hf; simp at hf
theorem elements_write : ∀ (a : Json) (l : List Json) (f : Nat) (rest : Str),
    (Json.writeList (a :: l)).length + 1 ≤ f →
    elements f (Json.writeList (a :: l) ++ ']' :: rest) = some (a :: l, rest)
  | _, _, 0, _, hf => by omega
  | a, [], f + 1, rest, hf => by
    rw [Json.writeList] at hf ⊢
    rw [elements, value_write a f _ (by omega) (stop_of (.inr (.inl rfl)))]
    rfl
  | a, b :: l, f + 1, rest, hf => by
    have hl : (Json.writeList (a :: b :: l)).length = a.write.length + 1 + (Json.writeList (b :: l)).length := by
      rw [Json.writeList]
      · simp; omega
      · simp
    rw [hl] at hf
    have : Json.writeList (a :: b :: l) ++ ']' :: rest = a.write ++ ',' :: (Json.writeList (b :: l) ++ ']' :: rest) := by
      rw [Json.writeList]
      · simp
      · simp
    rw [this, elements, value_write a f _ (by omega) (stop_of (.inl rfl))]
    simp only
    rw [elements_write b l f rest (by omega)]
    rfl
theorem members_write : ∀ (k : Str) (a : Json) (l : List (Str × Json)) (f : Nat) (rest : Str),
    (Json.writeObj ((k, a) :: l)).length + 1 ≤ f →
    members f (Json.writeObj ((k, a) :: l) ++ '}' :: rest) = some ((k, a) :: l, rest)
  | _, _, _, 0, _, hf => by omega
  | k, a, [], f + 1, rest, hf => by
    obtain ⟨x, hx, hx'⟩ := writeObj_head (k := k) (a := a) (l := [])
    simp only [if_true] at hx'
    subst hx'
    rw [hx] at hf ⊢
    have hlen : a.write.length ≤ f := by simp at hf; omega
    simp only [List.cons_append, List.append_assoc, List.append_nil]
    rw [members, strBody_write]
    simp only
    rw [value_write a f _ hlen (stop_of (.inr (.inr rfl)))]
    rfl
  | k, a, (k', b) :: l, f + 1, rest, hf => by
    obtain ⟨x, hx, hx'⟩ := writeObj_head (k := k) (a := a) (l := (k', b) :: l)
    simp only [reduceCtorEq, if_false] at hx'
    subst hx'
    rw [hx] at hf ⊢
    simp only [List.length_cons, List.length_append] at hf
    simp only [List.cons_append, List.append_assoc]
    rw [members, strBody_write]
    simp only
    rw [value_write a f _ (by omega) (stop_of (.inl rfl))]
    simp only
    rw [members_write k' b l f rest (by omega)]
    rfl
end

theorem parse_write (j : Json) : parse j.write = some j := by
  unfold parse
  have := value_write j (j.write.length + 1) [] (by omega) (by intro c h; simp at h)
  rw [List.append_nil] at this
  rw [this]

/-- The parser meets the contract. -/
theorem parse_readsBack : ReadsBack parse :=
  ⟨fun j _ => parse_write j, fun l j h => by rw [parse_write] at h; cases h; exact ⟨l, rfl, rfl⟩⟩

open Classical in
/-- A parser with the limits of `serde_json`: it refuses what is nested too deep, too large numbers and fractions. -/
noncomputable def limited (s : Str) : Option Json := (parse s).filter fun j => decide (Message j)

/-- The contract is met by a parser that refuses everything it does not speak of. -/
theorem limited_readsBack : ReadsBack limited := by
  constructor
  · intro j h
    simp [limited, parse_write, h]
  · intro l j h
    simp only [limited, parse_write] at h
    obtain ⟨h, _⟩ := Option.filter_eq_some_iff.1 h
    cases h
    exact ⟨l, rfl, rfl⟩

theorem Plain.mono {a b : Nat} {j : Json} (h : Plain a j) (hab : a ≤ b) : Plain b j := by
  induction h generalizing b with
  | null => exact .null
  | bool x => exact .bool x
  | str x => exact .str x
  | num lo hi => exact .num lo hi
  | arr _ ih =>
    obtain ⟨b, rfl⟩ : ∃ c, b = c + 1 := ⟨b - 1, by omega⟩
    exact .arr fun j hj => ih j hj (by omega)
  | obj hs _ ih =>
    obtain ⟨b, rfl⟩ : ∃ c, b = c + 1 := ⟨b - 1, by omega⟩
    exact .obj hs fun j hj => ih j hj (by omega)

theorem put_last {k : Str} {v : Json} {acc : List (Str × Json)} (h : ∀ x ∈ acc, x.1 < k) : put k v acc = acc ++ [(k, v)] := by
  induction acc with
  | nil => rfl
  | cons x acc ih =>
    obtain ⟨k', v'⟩ := x
    have hx : k' < k := h _ List.mem_cons_self
    rw [put, if_neg (by rintro rfl; exact List.lt_irrefl _ hx), if_neg (fun h' => List.lt_asymm hx h'),
      ih fun y hy => h y (List.mem_cons_of_mem _ hy)]
    rfl

theorem heldObj_sorted {l acc : List (Str × Json)} (hl : ∀ x ∈ l, held x.2 = x.2)
    (hs : ((acc ++ l).map Prod.fst).Pairwise (· < ·)) : heldObj acc l = acc ++ l := by
  induction l generalizing acc with
  | nil => rw [heldObj, List.append_nil]
  | cons x l ih =>
    obtain ⟨k, v⟩ := x
    have hv : held v = v := hl _ List.mem_cons_self
    rw [heldObj, hv, put_last]
    · rw [ih (fun y hy => hl y (List.mem_cons_of_mem _ hy)) (by simpa using hs)]
      simp
    · intro y hy
      rw [List.map_append, List.pairwise_append] at hs
      exact hs.2.2 _ (List.mem_map_of_mem hy) _ (by simp)

theorem heldList_eq {l : List Json} (h : ∀ j ∈ l, held j = j) : heldList l = l := by
  induction l with
  | nil => rfl
  | cons j l ih =>
    rw [heldList, h _ List.mem_cons_self, ih fun x hx => h x (List.mem_cons_of_mem _ hx)]

/-- plain values are held as they are written -/
theorem Plain.held {d : Nat} {j : Json} (h : Plain d j) : held j = j := by
  induction h with
  | arr _ ih => rw [JsonText.held, heldList_eq ih]
  | obj hs _ ih => rw [JsonText.held, heldObj_sorted ih (by simpa using hs)]; rfl
  | _ => rfl

/-- The contract is met by a parser that holds values as `serde_json` does. -/
theorem parseMessage_readsBack : ReadsBack parseMessage := by
  constructor
  · intro j h
    unfold parseMessage
    rw [parse_write, Option.map_some]
    cases j with
    | obj l =>
      obtain ⟨_, h⟩ := h
      show some (Json.obj _) = _
      congr 2
      conv => rhs; rw [← List.map_id l]
      refine List.map_congr_left fun x hx => ?_
      obtain ⟨k, v⟩ := x
      rcases h _ hx with h | ⟨h, _⟩
      · have : JsonText.held v = v := h.held
        simp [this]
      · simp only at h
        simp [h]
    | _ => cases h
  · intro l j h
    unfold parseMessage at h
    rw [parse_write, Option.map_some] at h
    cases h
    exact ⟨_, rfl, by rw [List.map_map]; rfl⟩

/-- of members of the same name, the last counts; at the top, all are there -/
example : parseMessage str!"{\"b\":{\"y\":1,\"x\":2,\"y\":3},\"a\":0,\"a\":0}" =
    some (.obj [(str!"b", .obj [(str!"x", .num 2), (str!"y", .num 3)]), (str!"a", .num 0), (str!"a", .num 0)]) := by
  decide +kernel

/-- values nested too deep, too large numbers and fractions are not among those read back -/
example : ¬ Plain 126 (.num (2 ^ 64)) ∧ ¬ Plain 126 (.frac 1 1) ∧ ¬ Plain 1 (.arr [.arr []]) ∧
    ¬ Plain 126 (.obj [(str!"b", .null), (str!"a", .null)]) := by
  refine ⟨?_, ?_, ?_, ?_⟩ <;> intro h
  · cases h with | num _ hi => omega
  · cases h
  · cases h with | arr h => have := h _ List.mem_cons_self; cases this
  · cases h with | obj hs _ => revert hs; decide

end Ced.JsonText
