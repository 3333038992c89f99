import Verif.Proofs.F32
import Verif.Proofs.White
import Verif.Proofs.PlainRegex
import Verif.Props.Server

/-! # Properties of the menus: C44-C46 -/

namespace Ced.Props
open Ced Ced.Spec

/-! ## C45 -/

/-- C45: when the groups of a match are in order and disjoint, the fragments of a label spell the label, each character
being emphasised iff it is in a group, and the emphasised fragments are the groups, in order. -/
theorem C45_tokens {text : Str} {locs : Locations} (h : InOrderFrom text.length 0 locs.tail) :
    ∃ ts, Menu.tokenize text locs = .ok ts ∧ spelled ts = emphasised text locs.tail ∧
      ts.flatMap (·.text) = text ∧
      (ts.filter (·.isMatch)).map (·.text) = locs.tail.filterMap fun g => g.map fun ab => (text.take ab.2).drop ab.1 := by
  obtain ⟨ts, h1, h2, h3⟩ := Menu.tokenize_ok h
  refine ⟨ts, h1, h2, ?_, h3⟩
  have h4 := congrArg (List.map Prod.fst) h2
  have e1 : (spelled ts).map Prod.fst = ts.flatMap (·.text) := by
    unfold spelled
    rw [List.map_flatMap]
    congr 1
    funext t
    rw [List.map_map]
    exact List.map_id _
  have e2 : (emphasised text locs.tail).map Prod.fst = text := by
    unfold emphasised
    apply List.ext_getElem
    · simp
    · intro i h1 h2; simp
  rw [e1, e2] at h4
  exact h4

/-- C45: groups that are not in order, or not disjoint (as with nested groups), crash the editor. -/
theorem C45_nested_crashes : Menu.tokenize str!"abc" [some (0, 2), some (0, 2), some (1, 2)] = .error .index := by decide

example : InOrderFrom 5 0 [some (0, 1), none, some (3, 5)] := by simp [InOrderFrom]
example : Menu.tokenize str!"hello" [some (0, 5), some (0, 1), none, some (3, 5)] =
    .ok [⟨[], false⟩, ⟨str!"h", true⟩, ⟨str!"el", false⟩, ⟨str!"lo", true⟩] := by decide

/-! ## C44 -/

/-- What is sent of an entry: its key, its description, and its label with the groups of the match emphasised. -/
def Sent (re : Regex) (e : MenuEntry) (p : MenuParamsEntry) : Prop :=
  p.value = e.key ∧ p.description = e.description ∧ ∃ locs ts, re e.label = some locs ∧
    Menu.tokenize e.label locs = .ok ts ∧ p.text = ts.map fun t => (t.text, if t.isMatch then .match_ else .default)

theorem candidates {field : MenuEntry → Str} {re : Regex} {items : List MenuEntry} {cs : List (Menu.Candidate MenuEntry)}
    (h : items.mapM (Menu.Candidate.new field re) = .ok cs) :
    cs.map (·.object) = items ∧ ∀ c ∈ cs, (re (field c.object) = none ∧ c.span = none) ∨
      ∃ locs n, re (field c.object) = some locs ∧ c.locations = locs ∧ c.span = some n ∧
        Menu.scoreSpan (field c.object) locs = .ok n := by
  induction items generalizing cs with
  | nil => cases h; exact ⟨rfl, by simp⟩
  | cons x items ih =>
    rw [List.mapM_cons] at h
    obtain ⟨c, hc, h⟩ := bind_inv h
    obtain ⟨cs', hcs, h⟩ := bind_inv h
    cases h
    obtain ⟨i1, i2⟩ := ih hcs
    unfold Menu.Candidate.new at hc
    cases hr : re (field x) with
    | none =>
      rw [hr] at hc
      cases hc
      refine ⟨by simp [i1], ?_⟩
      intro c hm
      rcases List.mem_cons.1 hm with rfl | hm
      · exact .inl ⟨hr, rfl⟩
      · exact i2 c hm
    | some locs =>
      rw [hr] at hc
      obtain ⟨n, hn, hc⟩ := bind_inv hc
      cases hc
      refine ⟨by simp [i1], ?_⟩
      intro c hm
      rcases List.mem_cons.1 hm with rfl | hm
      · exact .inr ⟨locs, n, hr, rfl, rfl, hn⟩
      · exact i2 c hm

theorem score_length {re : Regex} {label : Str} {locs : Locations} {n : Nat} (hr : re label = some locs)
    (h : Menu.scoreSpan label locs = .ok n) : MatchLength re label n := by
  unfold Menu.scoreSpan at h
  obtain ⟨⟨a, a'⟩, h1, h⟩ := bind_inv h
  obtain ⟨⟨b', b⟩, h2, h⟩ := bind_inv h
  cases h
  have h1 := unwrap_inv h1
  have h2 := unwrap_inv h2
  cases locs with
  | nil => cases h1
  | cons x xs =>
    refine ⟨x :: xs, a, a', b, b', hr, by rw [List.headD_cons] at h1; rw [h1]; rfl, ?_, rfl⟩
    rw [List.getLastD_eq_getLast?] at h2
    rw [List.getLast?_eq_some_getLast (List.cons_ne_nil _ _)] at h2 ⊢
    rw [Option.getD_some] at h2
    rw [h2]

theorem forall2_of_mapM {α β : Type} {f : α → R β} {l : List α} {l' : List β} (h : l.mapM f = .ok l') :
    List.Forall₂ (fun a b => f a = .ok b) l l' := by
  induction l generalizing l' with
  | nil => cases h; exact .nil
  | cons a l ih =>
    rw [List.mapM_cons] at h
    obtain ⟨b, hb, h⟩ := bind_inv h
    obtain ⟨bs, hbs, h⟩ := bind_inv h
    cases h
    exact .cons hb (ih hbs)

theorem forall2_map_left {α β γ : Type} {P : β → γ → Prop} {f : α → β} {l : List α} {l' : List γ}
    (h : List.Forall₂ (fun a c => P (f a) c) l l') : List.Forall₂ P (l.map f) l' := by
  induction h with
  | nil => exact .nil
  | cons h _ ih => exact .cons h ih

/-- C44: a menu that is searched shows exactly the matching entries, each once, shorter matches first, then by label. -/
theorem C44_listed {compile : Compile} {m : MenuState} {search : Str} {re : Regex} {note : Note}
    (hp : m.isPrompt = false) (hc : compile (Menu.pattern search) = some re)
    (h : m.toNotificationParams compile search = .ok note) :
    ∃ sorted shown, note = .menu m.command m.title search shown ∧
      sorted.Perm (m.entries.filter fun e => (re e.label).isSome) ∧ sorted.Pairwise (ShownBefore re) ∧
      List.Forall₂ (Sent re) sorted shown := by
  unfold MenuState.toNotificationParams at h
  rw [hp] at h
  simp only [Bool.false_eq_true, if_false] at h
  obtain ⟨cs, h2, h⟩ := bind_inv h
  obtain ⟨shown, h1, h⟩ := bind_inv h
  cases h
  unfold Menu.filter at h2
  rw [hc] at h2
  obtain ⟨re', hre, h2⟩ := bind_inv h2
  cases hre
  obtain ⟨cs0, h3, h2⟩ := bind_inv h2
  cases h2
  obtain ⟨c1, c2⟩ := candidates h3
  have hperm := Menu.sort_perm (field := MenuEntry.label) cs0
  have hmem : ∀ c ∈ Menu.sort MenuEntry.label cs0, c ∈ cs0 := fun c hc => hperm.mem_iff.1 hc
  have hspan : ∀ c ∈ cs0, c.span.isSome = (re c.object.label).isSome := by
    intro c hc
    rcases c2 c hc with ⟨a, b⟩ | ⟨l, n, a, _, b, _⟩
    · rw [a, b]; rfl
    · rw [a, b]; rfl
  refine ⟨((Menu.sort MenuEntry.label cs0).filter fun c => c.span.isSome).map (·.object), shown, rfl, ?_, ?_, ?_⟩
  · have p1 := (hperm.filter fun c => c.span.isSome).map (·.object)
    refine p1.trans ?_
    have e : (cs0.filter fun c => c.span.isSome).map (·.object) = m.entries.filter fun e => (re e.label).isSome := by
      rw [← c1]
      rw [List.filter_map]
      congr 1
      exact List.filter_congr fun c hc => hspan c hc
    rw [e]
  · rw [List.pairwise_map]
    have hs := (Menu.sort_sorted (field := MenuEntry.label) cs0).filter fun c => c.span.isSome
    refine List.Pairwise.imp_of_mem ?_ hs
    intro a b ha hb hab
    obtain ⟨ha1, ha2⟩ := List.mem_filter.1 ha
    obtain ⟨hb1, hb2⟩ := List.mem_filter.1 hb
    rcases c2 a (hmem a ha1) with ⟨_, e⟩ | ⟨la, n, ra, _, sa, oa⟩
    · rw [e] at ha2; cases ha2
    rcases c2 b (hmem b hb1) with ⟨_, e⟩ | ⟨lb, k, rb, _, sb, ob⟩
    · rw [e] at hb2; cases hb2
    refine ⟨n, k, score_length ra oa, score_length rb ob, fun hn hk => ?_⟩
    unfold Menu.before at hab
    rw [sa, sb] at hab
    rcases Nat.lt_trichotomy n k with hnk | hnk | hnk
    · exact .inl hnk
    · subst hnk
      rw [if_pos rfl] at hab
      exact .inr ⟨rfl, by simpa using hab⟩
    · have := F32.score_lt hnk hn
      rw [if_neg (by intro e; have e : Menu.score n = Menu.score k := by simpa using e
                     unfold Menu.score at e; omega)] at hab
      have hab : Menu.score k < Menu.score n := by simpa [Menu.scoreGreater] using hab
      unfold Menu.score at hab
      omega
  · apply forall2_map_left
    refine PlainRegex.forall2_mono ?_ (P := fun c p => MenuState.toEntry c = .ok p ∧
      c ∈ (Menu.sort MenuEntry.label cs0).filter fun c => c.span.isSome) ?_
    · have : ∀ {l : List (Menu.Candidate MenuEntry)} {l' : List MenuParamsEntry} {q : Menu.Candidate MenuEntry → Prop},
          List.Forall₂ (fun c p => MenuState.toEntry c = .ok p) l l' → (∀ c ∈ l, q c) →
          List.Forall₂ (fun c p => MenuState.toEntry c = .ok p ∧ q c) l l' := by
        intro l l' q h
        induction h with
        | nil => intro _; exact .nil
        | cons h _ ih =>
          intro hq
          exact .cons ⟨h, hq _ (List.mem_cons_self ..)⟩ (ih fun c hc => hq c (List.mem_cons_of_mem _ hc))
      exact this (forall2_of_mapM h1) fun c hc => hc
    · rintro c p _ ⟨hcp, hcm⟩
      obtain ⟨hc1, hc2⟩ := List.mem_filter.1 hcm
      rcases c2 c (hmem c hc1) with ⟨_, e⟩ | ⟨l, n, r, el, s, o⟩
      · rw [e] at hc2; cases hc2
      unfold MenuState.toEntry at hcp
      obtain ⟨ts, hts, hcp⟩ := bind_inv hcp
      cases hcp
      exact ⟨rfl, rfl, l, ts, r, by rw [← el]; exact hts, rfl⟩

/-- an engine that finds every text, as a whole -/
def everything : Compile := fun _ => some fun s => some [some (0, s.length)]

theorem whole_length {label : Str} {re : Regex} (h : everything [] = some re) :
    MatchLength re label (Str.encode label).length := by
  cases h
  refine ⟨_, 0, label.length, label.length, 0, rfl, rfl, rfl, ?_⟩
  simp

theorem cand_whole (e : MenuEntry) : Menu.Candidate.new MenuEntry.label (fun s => some [some (0, s.length)]) e =
      .ok ⟨e, some (Str.encode e.label).length, [some (0, e.label.length)]⟩ := by
  show Except.ok _ = _
  unfold Menu.byteSpan
  simp

theorem tok_whole (e : MenuEntry) (n : Option Nat) (he : e.label ≠ []) : MenuState.toEntry ⟨e, n, [some (0, e.label.length)]⟩ =
      .ok ⟨e.key, [(e.label, .default)], e.description⟩ := by
    have hl : 0 < e.label.length := List.length_pos_iff.2 he
    unfold MenuState.toEntry Menu.tokenize
    simp only [List.tail_cons, Menu.tokensFrom, Menu.slice, sliceR]
    simp [hl, bind, Except.bind, pure, Except.pure, MenuState.fragments]

theorem not_before {x y : MenuEntry} {n k : Nat} (hs : Menu.score n = Menu.score k) (hlt : strLt y.label x.label = true)
    (l1 l2 : Locations) : Menu.before MenuEntry.label ⟨x, some n, l1⟩ ⟨y, some k, l2⟩ = false := by
    unfold Menu.before
    dsimp only
    rw [if_pos (by rw [Option.map_some, Option.map_some, hs]), hlt]
    rfl

theorem long_swapped {x y : MenuEntry} {n k : Nat} (hx : (Str.encode x.label).length = n) (hy : (Str.encode y.label).length = k)
    (hs : Menu.score n = Menu.score k) (hlt : strLt y.label x.label = true) (hnx : x.label ≠ []) (hny : y.label ≠ []) {m : MenuState}
    (hp : m.isPrompt = false) (hm : m.entries = [x, y]) :
    m.toNotificationParams everything [] = .ok (.menu m.command m.title []
      [⟨y.key, [(y.label, .default)], y.description⟩, ⟨x.key, [(x.label, .default)], x.description⟩]) := by
  have hf : Menu.filter MenuEntry.label everything [] [x, y] = .ok
      [⟨y, some k, [some (0, y.label.length)]⟩, ⟨x, some n, [some (0, x.label.length)]⟩] := by
    have hmm : [x, y].mapM (Menu.Candidate.new MenuEntry.label (fun s => some [some (0, s.length)])) = .ok
        [⟨x, some n, [some (0, x.label.length)]⟩, ⟨y, some k, [some (0, y.label.length)]⟩] := by
      rw [List.mapM_cons, List.mapM_cons, List.mapM_nil, cand_whole, cand_whole, hx, hy]
      rfl
    have hsort : Menu.sort MenuEntry.label [⟨x, some n, [some (0, x.label.length)]⟩, ⟨y, some k, [some (0, y.label.length)]⟩] =
        [⟨y, some k, [some (0, y.label.length)]⟩, ⟨x, some n, [some (0, x.label.length)]⟩] := by
      rw [Menu.sort, Menu.sort, Menu.sort, Menu.insert, Menu.insert, not_before hs hlt, if_neg (by simp), Menu.insert]
    have : Menu.filter MenuEntry.label everything [] [x, y] =
        ([x, y].mapM (Menu.Candidate.new MenuEntry.label (fun s => some [some (0, s.length)])) >>= fun cs =>
          pure (Menu.sort MenuEntry.label cs)) := rfl
    rw [this, hmm]
    show Except.ok _ = _
    rw [hsort]
  unfold MenuState.toNotificationParams
  rw [hp, hm, hf]
  have ht : (([⟨y, some k, [some (0, y.label.length)]⟩, ⟨x, some n, [some (0, x.label.length)]⟩] : List (Menu.Candidate MenuEntry)).filter
      fun c : Menu.Candidate MenuEntry => c.span.isSome).mapM MenuState.toEntry = .ok
      [⟨y.key, [(y.label, .default)], y.description⟩, ⟨x.key, [(x.label, .default)], x.description⟩] := by
    rw [List.filter_cons_of_pos (by rfl), List.filter_cons_of_pos (by rfl), List.filter_nil, List.mapM_cons, List.mapM_cons,
      List.mapM_nil, tok_whole x _ hnx, tok_whole y _ hny]
    rfl
  show (do let entries ← (([⟨y, some k, [some (0, y.label.length)]⟩, ⟨x, some n, [some (0, x.label.length)]⟩] : List (Menu.Candidate MenuEntry)).filter
      fun c : Menu.Candidate MenuEntry => c.span.isSome).mapM MenuState.toEntry
           pure (Note.menu m.command m.title [] entries)) = _
  rw [ht]
  rfl

theorem encode_replicate {c : Char} (h : (String.utf8EncodeChar c).length = 1) (n : Nat) :
    (Str.encode (List.replicate n c)).length = n := by
  induction n with
  | zero => rfl
  | succ n ih =>
    rw [List.replicate_succ]
    show ((String.utf8EncodeChar c) ++ Str.encode (List.replicate n c)).length = _
    rw [List.length_append, ih, h]
    omega

theorem same_score : Menu.score (2 ^ 24 - 1) = Menu.score (2 ^ 24) := by decide +kernel

/-- C44: of two matches of sixteen million bytes the longer one can be shown first. -/
theorem C44_long_refuted : ∃ (compile : Compile) (re : Regex) (m : MenuState) (x y : MenuEntry) (a b : MenuParamsEntry) (n k : Nat),
    compile (Menu.pattern []) = some re ∧ m.entries = [x, y] ∧ MatchLength re x.label n ∧ MatchLength re y.label k ∧ n < k ∧
    m.toNotificationParams compile [] = .ok (.menu m.command m.title [] [a, b]) ∧ a.value = y.key ∧ b.value = x.key ∧
    x.key ≠ y.key := by
  have main : ∀ j : Nat, j + 1 = 2 ^ 24 - 1 → ∀ x y : MenuEntry, x = ⟨['x'], 'b' :: List.replicate j 'b', none, .edit⟩ →
      y = ⟨['y'], 'a' :: List.replicate (j + 1) 'a', none, .edit⟩ → ∃ (m : MenuState) (a b : MenuParamsEntry),
      m.entries = [x, y] ∧ (Str.encode x.label).length < (Str.encode y.label).length ∧
      m.toNotificationParams everything [] = .ok (.menu m.command m.title [] [a, b]) ∧ a.value = y.key ∧ b.value = x.key ∧
      x.key ≠ y.key := by
    rintro j hj x y rfl rfl
    have hx : (Str.encode ('b' :: List.replicate j 'b')).length = 2 ^ 24 - 1 := by
      rw [← List.replicate_succ, encode_replicate (by decide)]; exact hj
    have hy : (Str.encode ('a' :: List.replicate (j + 1) 'a')).length = 2 ^ 24 := by
      rw [← List.replicate_succ, encode_replicate (by decide)]; omega
    have h := long_swapped (x := ⟨['x'], 'b' :: List.replicate j 'b', none, .edit⟩)
      (y := ⟨['y'], 'a' :: List.replicate (j + 1) 'a', none, .edit⟩) hx hy same_score rfl (List.cons_ne_nil _ _) (List.cons_ne_nil _ _)
      (m := ⟨[], [], .provider .files, [_, _]⟩) rfl rfl
    refine ⟨_, _, _, ?_, ?_, h, rfl, rfl, fun e => by simp at e⟩
    · rfl
    · show (Str.encode ('b' :: List.replicate j 'b')).length < (Str.encode ('a' :: List.replicate (j + 1) 'a')).length
      rw [hx, hy]; omega
  obtain ⟨j, hj⟩ : ∃ j, j + 1 = 2 ^ 24 - 1 := ⟨2 ^ 24 - 2, by omega⟩
  obtain ⟨m, a, b, h1, h2, h3, h4, h5, h6⟩ := main j hj _ _ rfl rfl
  exact ⟨everything, _, m, _, _, a, b, _, _, rfl, h1, whole_length rfl, whole_length rfl, h2, h3, h4, h5, h6⟩

/-- C44: a prompt shows its message, whatever is typed. -/
theorem C44_prompt {compile : Compile} {m : MenuState} {search : Str} (hp : m.isPrompt = true) :
    m.toNotificationParams compile search = .ok (.menu m.command m.title search
      (m.entries.map fun e => { value := e.key, text := [(e.label, .prompt)], description := e.description })) := by
  unfold MenuState.toNotificationParams
  rw [hp]
  rfl

/-- C44: a search that is no valid regular expression crashes the editor. -/
theorem C44_invalid_crashes {compile : Compile} {m : MenuState} {search : Str} (hp : m.isPrompt = false)
    (hc : compile (Menu.pattern search) = none) : m.toNotificationParams compile search = .error .unwrap := by
  unfold MenuState.toNotificationParams Menu.filter
  rw [hp, hc]
  rfl

/-! ## C46 -/

/-- The text consists of these words, separated (and maybe surrounded) by white space. -/
inductive WordsOf : Str → List Str → Prop
  | done {b : Str} (hb : ∀ c ∈ b, white c = true) : WordsOf b []
  | word {b w rest : Str} {ws : List Str} (hb : ∀ c ∈ b, white c = true) (hw : w ≠ [])
      (hn : ∀ c ∈ w, white c = false) (hr : ∀ c, rest.head? = some c → white c = true)
      (h : WordsOf rest ws) : WordsOf (b ++ w ++ rest) (w :: ws)

theorem split_blank {b : Str} (hb : ∀ c ∈ b, white c = true) (s : Str) :
    Menu.splitWords (b ++ s) [] = Menu.splitWords s [] := by
  induction b with
  | nil => rfl
  | cons c b ih =>
    rw [List.cons_append, Menu.splitWords, if_pos (by rw [white_eq]; exact hb c (List.mem_cons_self ..)), if_pos rfl]
    exact ih fun d hd => hb d (List.mem_cons_of_mem _ hd)

theorem split_word {w : Str} (hn : ∀ c ∈ w, white c = false) (s acc : Str) :
    Menu.splitWords (w ++ s) acc = Menu.splitWords s (acc ++ w) := by
  induction w generalizing acc with
  | nil => simp
  | cons c w ih =>
    rw [List.cons_append, Menu.splitWords, if_neg (by rw [white_eq, hn c (List.mem_cons_self ..)]; simp)]
    rw [ih fun d hd => hn d (List.mem_cons_of_mem _ hd)]
    simp

theorem split_words {s : Str} {ws : List Str} (h : WordsOf s ws) : Menu.splitWords s [] = ws := by
  induction h with
  | done hb =>
    rename_i b
    have := split_blank hb []
    rw [List.append_nil] at this
    rw [this]; rfl
  | @word b w rest ws hb hw hn hr h ih =>
    rw [List.append_assoc, split_blank hb, split_word hn, List.nil_append]
    cases rest with
    | nil =>
      have : ws = [] := by rw [← ih]; rfl
      subst this
      rw [Menu.splitWords, if_neg hw]
    | cons c rest =>
      have hc := (white_eq c).trans (hr c rfl)
      rw [Menu.splitWords, if_pos hc, if_neg hw]
      rw [Menu.splitWords, if_pos hc, if_pos rfl] at ih
      rw [ih]

theorem join_eq (sep : Str) (l : List Str) : Menu.join sep l = sep.intercalate l := by
  induction l with
  | nil => rfl
  | cons a l ih =>
    cases l with
    | nil => simp [Menu.join, List.intercalate]
    | cons b l =>
      rw [Menu.join, ih]
      · simp [List.intercalate, List.intersperse]
      · intro h; cases h

/-- The regular expression engine does what is expected of it for plain words: `(?i)(w1).*(w2)...` is valid, and it
finds what `PlainRegex` finds. -/
def PlainEngine (same : Char → Char → Bool) (compile : Compile) : Prop :=
  ∀ ws, PlainWords ws →
    compile (str!"(?i)" ++ str!".*".intercalate (ws.map fun w => ['('] ++ w ++ [')'])) = some (PlainRegex.regex same ws)

open Classical in
/-- C46: a search made of plain words (a thousand letters at most) never fails; it shows exactly the entries in which the words occur in order,
without overlap, ignoring case (with no newline between them), and emphasises one occurrence of each word. -/
theorem C46_search {same : Char → Char → Bool} {compile : Compile} (he : PlainEngine same compile) {search : Str}
    {ws : List Str} (hs : WordsOf search ws) (hw : PlainWords ws) {m : MenuState} (hp : m.isPrompt = false) :
    ∃ sorted shown, m.toNotificationParams compile search = .ok (.menu m.command m.title search shown) ∧
      sorted.Perm (m.entries.filter fun e => decide (WordsInOrder same ws e.label)) ∧
      sorted.Pairwise (ShownBefore (PlainRegex.regex same ws)) ∧
      List.Forall₂ (fun e p => p.value = e.key ∧ p.description = e.description ∧ p.text.flatMap Prod.fst = e.label ∧
        List.Forall₂ (SameBut same) ws ((p.text.filter fun f => f.2 = .match_).map Prod.fst)) sorted shown := by
  have hc : compile (Menu.pattern search) = some (PlainRegex.regex same ws) := by
    unfold Menu.pattern
    rw [split_words hs, join_eq]
    exact he ws hw
  have hiff : ∀ l : Str, (PlainRegex.regex same ws l).isSome = decide (WordsInOrder same ws l) := by
    intro l
    rw [Bool.eq_iff_iff, decide_eq_true_eq]
    exact PlainRegex.search_isSome
  have hok : ∃ note, m.toNotificationParams compile search = .ok note := by
    unfold MenuState.toNotificationParams Menu.filter
    rw [hp, hc]
    simp only [Bool.false_eq_true, if_false]
    have hcs : ∀ l : List MenuEntry, ∃ cs, l.mapM (Menu.Candidate.new MenuEntry.label (PlainRegex.regex same ws)) = .ok cs := by
      intro l
      induction l with
      | nil => exact ⟨[], rfl⟩
      | cons x l ih =>
        obtain ⟨cs, hcs⟩ := ih
        have hx : ∃ c, Menu.Candidate.new MenuEntry.label (PlainRegex.regex same ws) x = .ok c := by
          unfold Menu.Candidate.new
          cases hr : PlainRegex.regex same ws x.label with
          | none => exact ⟨_, rfl⟩
          | some locs =>
            obtain ⟨⟨a, b, n, _, hn⟩, _⟩ := PlainRegex.regex_found hr
            dsimp only
            rw [hn]; exact ⟨_, rfl⟩
        obtain ⟨c, hc⟩ := hx
        refine ⟨c :: cs, ?_⟩
        rw [List.mapM_cons, hc, hcs]; rfl
    obtain ⟨cs, hcs⟩ := hcs m.entries
    have hts : ∀ l : List (Menu.Candidate MenuEntry), (∀ c ∈ l, c ∈ cs) →
        ∃ ps, (l.filter fun c => c.span.isSome).mapM MenuState.toEntry = .ok ps := by
      intro l
      induction l with
      | nil => exact fun _ => ⟨[], rfl⟩
      | cons c l ih =>
        intro hl
        obtain ⟨ps, hps⟩ := ih fun d hd => hl d (List.mem_cons_of_mem _ hd)
        by_cases hsp : c.span.isSome = true
        · rw [List.filter_cons_of_pos (p := fun c : Menu.Candidate MenuEntry => c.span.isSome) hsp, List.mapM_cons]
          rcases (candidates hcs).2 c (hl c (List.mem_cons_self ..)) with ⟨_, e⟩ | ⟨locs, n, hr, el, _, _⟩
          · rw [e] at hsp; cases hsp
          · obtain ⟨ts, hts, _⟩ := C45_tokens (PlainRegex.regex_found hr).2.1
            refine ⟨⟨c.object.key, MenuState.fragments ts, c.object.description⟩ :: ps, ?_⟩
            have hc' : MenuState.toEntry c = .ok ⟨c.object.key, MenuState.fragments ts, c.object.description⟩ := by
              unfold MenuState.toEntry
              rw [el, hts]; rfl
            rw [hc', hps]; rfl
        · rw [List.filter_cons_of_neg (p := fun c : Menu.Candidate MenuEntry => c.span.isSome) hsp]; exact ⟨ps, hps⟩
    obtain ⟨ps, hps⟩ := hts (Menu.sort MenuEntry.label cs) fun c hc => (Menu.sort_perm cs).mem_iff.1 hc
    refine ⟨.menu m.command m.title search ps, ?_⟩
    show (do
      let cs ← (do let cs ← m.entries.mapM (Menu.Candidate.new MenuEntry.label (PlainRegex.regex same ws)); pure (Menu.sort MenuEntry.label cs))
      let entries ← (cs.filter fun c => c.span.isSome).mapM MenuState.toEntry
      pure (Note.menu m.command m.title search entries) : R Note) = _
    rw [hcs]
    show (do let e ← (List.filter _ (Menu.sort MenuEntry.label cs)).mapM MenuState.toEntry; pure _) = _
    rw [hps]
    rfl
  obtain ⟨note, hok⟩ := hok
  obtain ⟨sorted, shown, rfl, h1, h2, h3⟩ := C44_listed hp hc hok
  refine ⟨sorted, shown, hok, ?_, h2, PlainRegex.forall2_mono h3 fun e p _ hs => ?_⟩
  · simpa only [hiff] using h1
  · obtain ⟨a, b, locs, ts, hr, ht, hpt⟩ := hs
    obtain ⟨_, f1, f2, f3⟩ := PlainRegex.regex_found hr
    obtain ⟨ts', t1, _, t3, t4⟩ := C45_tokens f1
    rw [ht] at t1
    cases t1
    refine ⟨a, b, ?_, ?_⟩
    · rw [hpt, List.flatMap_map]; exact t3
    · have hm : (p.text.filter fun f => f.2 = .match_).map Prod.fst = (ts.filter (·.isMatch)).map (·.text) := by
        rw [hpt, List.filter_map, List.map_map]
        have : ((fun f : Str × Face => decide (f.2 = .match_)) ∘ fun t : Menu.Token =>
            (t.text, if t.isMatch then Face.match_ else Face.default)) = fun t => t.isMatch := by
          funext t; cases hb : t.isMatch <;> simp [hb]
        rw [this]; rfl
      rw [hm, t4]
      have hall : ∀ g ∈ locs.tail, g.isSome = true := fun g hg => f2 g (List.mem_of_mem_tail hg)
      clear t4 f1 f2 hm ht hr
      generalize locs.tail = gs at f3 hall
      clear hc hiff hs hw h1 h2 h3
      induction f3 with
      | nil => exact .nil
      | @cons w g ws' gs hw' _ ih =>
        obtain ⟨ab, rfl⟩ := Option.isSome_iff_exists.1 (hall g (List.mem_cons_self ..))
        rw [List.filterMap_cons]
        exact .cons (hw' ab rfl) (ih fun x hx => hall x (List.mem_cons_of_mem _ hx))

/-! ### Examples -/

/-- letters are compared ignoring case -/
def sameA (a b : Char) : Bool := a.toLower == b.toLower

/-- the words of a pattern of plain words -/
def unjoin : Str → Str → List Str
  | [], _ => []
  | c :: s, acc =>
    if c = ')' then acc :: unjoin s [] else if c ∈ str!"(.*" then unjoin s acc else unjoin s (acc ++ [c])

/-- an engine for plain words: it takes the pattern apart -/
def plainCompile : Compile := fun p => some (PlainRegex.regex sameA (unjoin (p.drop 4) []))

theorem unjoin_plain {w : Str} (h : ∀ c ∈ w, c ≠ ')' ∧ c ∉ str!"(.*") (s acc : Str) :
    unjoin (w ++ s) acc = unjoin s (acc ++ w) := by
  induction w generalizing acc with
  | nil => simp
  | cons c w ih =>
    obtain ⟨h1, h2⟩ := h c (List.mem_cons_self ..)
    rw [List.cons_append, unjoin, if_neg h1, if_neg h2, ih fun d hd => h d (List.mem_cons_of_mem _ hd)]
    simp

theorem plainCompile_engine : PlainEngine sameA plainCompile := by
  intro ws hw
  unfold plainCompile
  congr 2
  rw [← join_eq]
  show unjoin (Menu.join str!".*" (ws.map fun w => ['('] ++ w ++ [')'])) [] = ws
  have one : ∀ w s, PlainWord w → unjoin (['('] ++ w ++ [')'] ++ s) [] = w :: unjoin s [] := by
    intro w s hp
    have hc : ∀ c ∈ w, c ≠ ')' ∧ c ∉ str!"(.*" := by
      intro c hc
      have := (hp.2 c hc).2
      simp only [List.mem_cons, List.not_mem_nil, or_false, not_or] at this ⊢
      exact ⟨this.2.2.2.2.2.2.1, this.2.2.2.2.2.1, this.2.1, this.2.2.2.1⟩
    rw [List.append_assoc, List.append_assoc, List.singleton_append, unjoin, if_neg (by decide), if_pos (by decide),
      unjoin_plain hc, List.nil_append, List.singleton_append, unjoin, if_pos rfl]
  have gen : ∀ ws : List Str, (∀ w ∈ ws, PlainWord w) →
      unjoin (Menu.join str!".*" (ws.map fun w => ['('] ++ w ++ [')'])) [] = ws := by
    intro ws
    induction ws with
    | nil => intro _; rfl
    | cons w ws ih =>
      intro hw
      have hw' := ih fun x hx => hw x (List.mem_cons_of_mem _ hx)
      cases ws with
      | nil =>
        have := one w [] (hw w (List.mem_cons_self ..))
        rw [List.append_nil] at this
        simpa [Menu.join, unjoin] using this
      | cons w' ws =>
        rw [List.map_cons, List.map_cons, Menu.join, List.append_assoc]
        · rw [one w _ (hw w (List.mem_cons_self ..))]
          rw [List.map_cons] at hw'
          show w :: unjoin ('.' :: '*' :: _) [] = _
          rw [unjoin, if_neg (by decide), if_pos (by decide), unjoin, if_neg (by decide), if_pos (by decide)]
          exact congrArg (w :: ·) hw'
        · intro h; cases h
  exact gen ws hw.1

example : WordsOf str!"  open FILE " [str!"open", str!"FILE"] := by
  refine .word (b := str!"  ") (w := str!"open") (rest := str!" FILE ") (by decide) (by decide) (by decide) (by decide) ?_
  refine .word (b := str!" ") (w := str!"FILE") (rest := str!" ") (by decide) (by decide) (by decide) (by decide) ?_
  exact .done (by decide)

example : PlainWords [str!"open", str!"FILE"] := by unfold PlainWords PlainWord; decide
example : WordsInOrder sameA [str!"op", str!"fi"] str!"an Open file" :=
  ⟨str!"an ", str!"Open file", rfl, str!"Op", str!"en file", rfl, by simp [SameBut, sameA], .inr
    ⟨str!"en ", str!"file", rfl, by decide, str!"fi", str!"le", rfl, by simp [SameBut, sameA], .inl rfl⟩⟩
example : PlainRegex.regex sameA [str!"op", str!"fi"] str!"an Open file" =
    some [some (3, 10), some (3, 5), some (8, 10)] := by decide
example : PlainRegex.regex sameA [str!"fi", str!"op"] str!"an Open file" = none := by decide
example : (MenuState.toNotificationParams (fun _ => some (PlainRegex.regex sameA [str!"view"]))
    ((MenuState.new [] str!"command" .commands).populate ⟨[], [], [], []⟩) str!"view").map
      (fun n => match n with | .menu _ _ _ l => l.map (·.value) | _ => []) =
    .ok [str!"view_add", str!"view_select", str!"view_delete", str!"view_remove"] := by decide

end Ced.Props
