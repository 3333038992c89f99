import Verif.Spec.FfiGen
import Batteries.Data.List.Basic

/-! # C82: the generated C interface -/

namespace Ced.Props
open Spec FfiGen

variable {upper : Char → Bool} {cfg : Config}

/-! ### The functions -/

theorem itemsOf_bare (s : Str) : ItemsOf s (bareType s) := by
  have cut : ∀ {suf : Str}, suf.isSuffixOf s = true → s = s.take (s.length - suf.length) ++ suf := by
    intro suf h
    obtain ⟨t, rfl⟩ := List.isSuffixOf_iff_suffix.1 h
    simp
  unfold ItemsOf bareType endsWith
  split
  · rename_i h; exact cut h
  · split
    · rename_i h; exact cut h
    · rfl

theorem itemsOf_unique {s a b : Str} (ha : ItemsOf s a) (hb : ItemsOf s b) : a = b := by
  unfold ItemsOf at ha hb
  split at ha
  · rename_i h; rw [if_pos h] at hb; exact List.append_cancel_right (ha.symm.trans hb)
  · rename_i h
    rw [if_neg h] at hb
    split at ha
    · rename_i h; rw [if_pos h] at hb; exact List.append_cancel_right (ha.symm.trans hb)
    · rename_i h; rw [if_neg h] at hb; exact ha.symm.trans hb

theorem bare_iterator (b : Str) : bareType (b ++ str!"Iterator") = b := by
  unfold bareType endsWith
  have h1 : (str!"Item").isSuffixOf (b ++ str!"Iterator") = false := by
    rw [Bool.eq_false_iff]
    intro h
    obtain ⟨t, ht⟩ := List.isSuffixOf_iff_suffix.1 h
    have := congrArg List.reverse ht
    simp at this
  have h2 : (str!"Iterator").isSuffixOf (b ++ str!"Iterator") = true := List.isSuffixOf_iff_suffix.2 ⟨b, rfl⟩
  rw [h1, h2]
  simp

/-- the name of a function of a type -/
def fnName (upper : Char → Bool) (cfg : Config) (base suffix : Str) : Str := prefixed cfg (toSnakeCase upper base ++ suffix)

/-- the functions of a structure -/
def structDecls (upper : Char → Bool) (cfg : Config) (st : Struct) : List Decl :=
  .destroy (fnName upper cfg st.symbol (str!"_destroy")) st.symbol ::
    if st.iterator then
      [.destroy (fnName upper cfg (bareType st.symbol ++ str!"Iterator") (str!"_destroy")) (bareType st.symbol ++ str!"Iterator"),
       .nextItem (fnName upper cfg (bareType st.symbol) (str!"_next_item")) (bareType st.symbol ++ str!"Iterator") st.symbol]
    else []

/-- the imports of a structure -/
def structUses (st : Struct) : List Str :=
  useOf st :: if st.iterator then [useOf st, str!"use std::ptr;", useOf st.iteratorStruct] else []

theorem register_eq (b : Builder) (st : Struct) :
    b.register upper cfg st = ⟨b.uses ++ structUses st, b.decls ++ structDecls upper cfg st⟩ := by
  obtain ⟨u, d⟩ := b
  obtain ⟨s, m, it⟩ := st
  cases it
  · simp [Builder.register, structDecls, structUses, Builder.registerFnDestroy, Builder.registerUse, Builder.registerDecl, fnName]
  · simp [Builder.register, structDecls, structUses, Builder.registerFnDestroy, Builder.registerUse, Builder.registerDecl, fnName,
      Builder.registerFnsIterator, Builder.registerFnNextItem, Struct.iteratorStruct, bare_iterator]

theorem registers_eq : ∀ (sts : List Struct) (b : Builder), sts.foldl (Builder.register upper cfg) b =
    ⟨b.uses ++ sts.flatMap structUses, b.decls ++ sts.flatMap (structDecls upper cfg)⟩
  | [], b => by simp
  | st :: sts, b => by
    rw [List.foldl_cons, register_eq, registers_eq sts]
    simp

theorem generate_decls : (generate upper cfg).decls = cfg.structures.flatMap (structDecls upper cfg) := by
  unfold generate
  rw [registers_eq]
  rfl

/-- C82: the interface has, structure by structure, a function that frees a value of the type and, if the structure has an
iterator, a function that frees the iterator and one that gives its next item, of the type of the structure. -/
theorem C82_functions {base : Struct → Str} (hb : ∀ st, ItemsOf st.symbol (base st)) :
    (generate upper cfg).decls.map Decl.does = cfg.structures.flatMap fun st =>
      .free st.symbol :: if st.iterator then
        [.free (base st ++ str!"Iterator"), .next (base st ++ str!"Iterator") st.symbol] else [] := by
  rw [generate_decls, List.map_flatMap]
  congr 1
  funext st
  rw [itemsOf_unique (hb st) (itemsOf_bare st.symbol)]
  unfold structDecls
  cases st.iterator <;> rfl

theorem prefixed_ok (name : Str) : WithPrefix cfg.pre name (prefixed cfg name) := by
  unfold WithPrefix prefixed
  by_cases h : cfg.pre.isPrefixOf name = true
  · exact .inl ⟨List.isPrefixOf_iff_prefix.1 h, by rw [if_pos h]⟩
  · exact .inr ⟨fun hp => h (List.isPrefixOf_iff_prefix.2 hp), by rw [if_neg h]⟩

/-! ### The names -/

theorem ascii_forall {P : Char → Prop} (h : ∀ n : Fin 128, P (Char.ofNat n)) {c : Char} (hc : c.toNat < 128) : P c := by
  have := h ⟨c.toNat, hc⟩
  rwa [show Char.ofNat (⟨c.toNat, hc⟩ : Fin 128).val = c from Char.ofNat_toNat c] at this

theorem alphanum_ascii {c : Char} (h : c.isAlphanum = true) : c.toNat < 128 := by
  have hv : c.toNat = c.val.toNat := rfl
  simp only [Char.isAlphanum, Char.isAlpha, Char.isUpper, Char.isLower, Char.isDigit, Bool.or_eq_true, Bool.and_eq_true,
    decide_eq_true_eq, ge_iff_le, UInt32.le_iff_toNat_le] at h
  have e2 : ('z'.val).toNat = 122 := rfl
  have e4 : ('9'.val).toNat = 57 := rfl
  have e6 : ('Z'.val).toNat = 90 := rfl
  omega

theorem lower_kept {c : Char} (h : c.isAlphanum = true) (hn : c.isUpper = false) : c.toLower = c ∧ c ≠ '_' := by
  have : ∀ c : Char, c.toNat < 128 → c.isAlphanum = true → c.isUpper = false → c.toLower = c ∧ c ≠ '_' :=
    fun c hc => ascii_forall (P := fun c => c.isAlphanum = true → c.isUpper = false → c.toLower = c ∧ c ≠ '_') (by decide) hc
  exact this c (alphanum_ascii h) h hn

theorem upper_facts {c : Char} (h : c.isUpper = true) : c.isAlphanum = true ∧ c.toLower ≠ '_' ∧ Char.ofNat (c.toLower.toNat - 32) = c := by
  have ha : c.isAlphanum = true := by simp [Char.isAlphanum, Char.isAlpha, h]
  refine ⟨ha, ?_⟩
  exact ascii_forall (P := fun c => c.isUpper = true → c.toLower ≠ '_' ∧ Char.ofNat (c.toLower.toNat - 32) = c) (by decide)
    (alphanum_ascii ha) h

theorem word_char {c : Char} (h : c.isLower = true ∨ c.isDigit = true) : c.isAlphanum = true ∧ c.isUpper = false := by
  have ha : c.isAlphanum = true := by
    rcases h with h | h <;> simp [Char.isAlphanum, Char.isAlpha, h]
  exact ⟨ha, ascii_forall (P := fun c => (c.isLower = true ∨ c.isDigit = true) → c.isUpper = false) (by decide) (alphanum_ascii ha) h⟩

/-- what a character that is not the first one becomes -/
def snakeChar (upper : Char → Bool) (d : Char) : Str := if upper d then ['_', d.toLower] else [d.toLower]

theorem snakeChar_upper (hu : AsciiUpper upper) {c : Char} (h : c.isUpper = true) : snakeChar upper c = ['_', c.toLower] := by
  unfold snakeChar
  rw [hu c (alphanum_ascii (upper_facts h).1), h]
  rfl

theorem snakeChar_other (hu : AsciiUpper upper) {c : Char} (ha : c.isAlphanum = true) (h : c.isUpper = false) :
    snakeChar upper c = [c] := by
  unfold snakeChar
  rw [hu c (alphanum_ascii ha), h, (lower_kept ha h).1]
  rfl

theorem snake_cons (c : Char) (r : Str) : toSnakeCase upper (c :: r) = c.toLower :: r.flatMap (snakeChar upper) := rfl

theorem snake_append (hu : AsciiUpper upper) {q a : Str} (hq : q ≠ []) {c : Char} {r : Str} (ha : a = c :: r) (hc : c.isUpper = true) :
    toSnakeCase upper (q ++ a) = toSnakeCase upper q ++ '_' :: toSnakeCase upper a := by
  subst ha
  cases q with
  | nil => exact absurd rfl hq
  | cons x q =>
    rw [List.cons_append, snake_cons, snake_cons, snake_cons, List.flatMap_append, List.flatMap_cons, snakeChar_upper hu hc]
    rfl

theorem snake_word (hu : AsciiUpper upper) {w : Str} (h : CapitalWord w) : toSnakeCase upper w = w.map Char.toLower := by
  obtain ⟨c, r, rfl, hc, hr⟩ := h
  have e : ∀ r : Str, (∀ d ∈ r, d.isLower = true ∨ d.isDigit = true) → r.flatMap (snakeChar upper) = r.map Char.toLower := by
    intro r hr
    induction r with
    | nil => rfl
    | cons d r ih =>
      obtain ⟨h1, h2⟩ := word_char (hr d (by simp))
      rw [List.flatMap_cons, snakeChar_other hu h1 h2, List.map_cons, (lower_kept h1 h2).1, ih (fun x hx => hr x (by simp [hx]))]
      rfl
  rw [snake_cons, e r hr]
  rfl

/-- the words of a name -/
theorem snake_words (hu : AsciiUpper upper) : ∀ {ws : List Str}, (∀ w ∈ ws, CapitalWord w) →
    toSnakeCase upper ws.flatten = underscored ws
  | [], _ => rfl
  | [w], h => by
    have := snake_word hu (h w (by simp))
    simp only [List.flatten_cons, List.flatten_nil, List.append_nil]
    rw [this]
    simp [underscored, List.intercalate]
  | w :: v :: ws, h => by
    have ih := snake_words hu (ws := v :: ws) (fun x hx => h x (by simp [List.mem_cons.1 hx]))
    have i1 := snake_word hu (h w (by simp))
    obtain ⟨c, r, rfl, hc, _⟩ := h v (by simp)
    obtain ⟨c', r', rfl, _, _⟩ := h w (by simp)
    rw [List.flatten_cons, snake_append hu (by simp) (c := c) (r := r ++ ws.flatten) (by simp) hc, ih]
    rw [i1]
    simp [underscored, List.intercalate]

/-- C82: every function begins with the prefix; a function that frees a type whose name is made of some words has these words
in its name, in lower case and with underscores; so does the one that gives the next item. -/
theorem C82_names (hu : AsciiUpper upper) {d : Decl} (hd : d ∈ (generate upper cfg).decls) : cfg.pre <+: d.name ∧
    (∀ name ws, (∀ w ∈ ws, CapitalWord w) → d = .destroy name ws.flatten →
      WithPrefix cfg.pre (underscored ws ++ str!"_destroy") name) ∧
    (∀ name ws item, (∀ w ∈ ws, CapitalWord w) → d = .nextItem name (ws.flatten ++ str!"Iterator") item →
      WithPrefix cfg.pre (underscored ws ++ str!"_next_item") name) := by
  rw [generate_decls, List.mem_flatMap] at hd
  obtain ⟨st, _, hd⟩ := hd
  have hp : ∀ base suffix, cfg.pre <+: fnName upper cfg base suffix := by
    intro base suffix
    rcases prefixed_ok (cfg := cfg) (toSnakeCase upper base ++ suffix) with ⟨h, e⟩ | ⟨_, e⟩
    · unfold fnName; rw [e]; exact h
    · unfold fnName; rw [e]; exact List.prefix_append ..
  have hn : ∀ {base suffix ws}, (∀ w ∈ ws, CapitalWord w) → base = ws.flatten →
      WithPrefix cfg.pre (underscored ws ++ suffix) (fnName upper cfg base suffix) := by
    intro base suffix ws hw hb
    subst hb
    rw [← snake_words hu hw]
    exact prefixed_ok _
  have cases3 : d = .destroy (fnName upper cfg st.symbol (str!"_destroy")) st.symbol ∨
      d = .destroy (fnName upper cfg (bareType st.symbol ++ str!"Iterator") (str!"_destroy")) (bareType st.symbol ++ str!"Iterator") ∨
      d = .nextItem (fnName upper cfg (bareType st.symbol) (str!"_next_item")) (bareType st.symbol ++ str!"Iterator") st.symbol := by
    unfold structDecls at hd
    split at hd
    · simpa using hd
    · exact .inl (by simpa using hd)
  rcases cases3 with rfl | rfl | rfl
  · refine ⟨hp _ _, ?_, ?_⟩
    · intro name ws hw he
      injection he with h1 h2
      rw [← h1]
      exact hn hw h2
    · intro _ _ _ _ he; cases he
  · refine ⟨hp _ _, ?_, ?_⟩
    · intro name ws hw he
      injection he with h1 h2
      rw [← h1]
      exact hn hw h2
    · intro _ _ _ _ he; cases he
  · refine ⟨hp _ _, ?_, ?_⟩
    · intro _ _ _ he; cases he
    · intro name ws item hw he
      injection he with h1 h2 h3
      rw [← h1]
      exact hn hw (List.append_cancel_right h2)

/-! ### No two functions of the same name -/

/-- characters that are not the first ones are recovered -/
theorem snakeChars_inj (hu : AsciiUpper upper) : ∀ {r s : Str}, (∀ c ∈ r, c.isAlphanum = true) → (∀ c ∈ s, c.isAlphanum = true) →
    r.flatMap (snakeChar upper) = s.flatMap (snakeChar upper) → r = s
  | [], [], _, _, _ => rfl
  | [], d :: s, _, _, h => by
    simp only [List.flatMap_nil, List.flatMap_cons, snakeChar] at h
    split at h <;> cases h
  | c :: r, [], _, _, h => by
    simp only [List.flatMap_nil, List.flatMap_cons, snakeChar] at h
    split at h <;> cases h
  | c :: r, d :: s, hr, hs, h => by
    have hc := hr c (by simp)
    have hd := hs d (by simp)
    have ih := snakeChars_inj hu (r := r) (s := s) (fun x hx => hr x (by simp [hx])) (fun x hx => hs x (by simp [hx]))
    rw [List.flatMap_cons, List.flatMap_cons] at h
    cases uc : c.isUpper <;> cases ud : d.isUpper
    · rw [snakeChar_other hu hc uc, snakeChar_other hu hd ud] at h
      injection h with h1 h2
      rw [h1, ih h2]
    · rw [snakeChar_other hu hc uc, snakeChar_upper hu ud] at h
      injection h with h1 _
      exact absurd h1 (lower_kept hc uc).2
    · rw [snakeChar_other hu hd ud, snakeChar_upper hu uc] at h
      injection h with h1 _
      exact absurd h1.symm (lower_kept hd ud).2
    · rw [snakeChar_upper hu uc, snakeChar_upper hu ud] at h
      injection h with _ h2
      injection h2 with h2 h3
      rw [ih h3, ← (upper_facts uc).2.2, h2, (upper_facts ud).2.2]

theorem snake_inj (hu : AsciiUpper upper) {a b : Str} (ha : Pascal a) (hb : Pascal b)
    (h : toSnakeCase upper a = toSnakeCase upper b) : a = b := by
  cases a with
  | nil => cases b with
    | nil => rfl
    | cons => cases h
  | cons c r => cases b with
    | nil => cases h
    | cons d s =>
      rw [snake_cons, snake_cons] at h
      injection h with h1 h2
      have e := snakeChars_inj hu (fun x hx => ha.1 x (by simp [hx])) (fun x hx => hb.1 x (by simp [hx])) h2
      rw [e, ← (upper_facts (ha.2 c r rfl)).2.2, h1, (upper_facts (hb.2 d s rfl)).2.2]

/-- a name in snake case does not end with an underscore -/
theorem snake_last (hu : AsciiUpper upper) {a x : Str} (ha : Pascal a) (h : toSnakeCase upper a = x ++ ['_']) : False := by
  have key : ∀ (r : Str), (∀ c ∈ r, c.isAlphanum = true) → ∀ c : Char, c.toLower ≠ '_' → ∀ x, c.toLower :: r.flatMap (snakeChar upper) = x ++ ['_'] → False := by
    intro r
    induction r with
    | nil =>
      intro _ c hc x h
      cases x with
      | nil => injection h with h1 _; exact hc h1
      | cons y x => simp at h
    | cons d r ih =>
      intro hr c hc x h
      have hd := hr d (by simp)
      have hl : d.toLower ≠ '_' := by
        cases ud : d.isUpper
        · rw [(lower_kept hd ud).1]; exact (lower_kept hd ud).2
        · exact (upper_facts ud).2.1
      rw [List.flatMap_cons] at h
      cases ud : d.isUpper
      · rw [snakeChar_other hu hd ud] at h
        cases x with
        | nil => simp at h
        | cons y x =>
          injection h with _ h
          refine ih (fun z hz => hr z (by simp [hz])) d hl x ?_
          rw [(lower_kept hd ud).1]
          exact h
      · rw [snakeChar_upper hu ud] at h
        cases x with
        | nil => simp at h
        | cons y x =>
          injection h with _ h
          cases x with
          | nil => simp at h
          | cons y x =>
            injection h with _ h
            exact ih (fun z hz => hr z (by simp [hz])) d hl x h
  cases a with
  | nil => cases x <;> cases h
  | cons c r => exact key r (fun z hz => ha.1 z (by simp [hz])) c (upper_facts (ha.2 c r rfl)).2.1 x h

/-- The prefixes considered: none, or a name of words followed by an underscore. -/
def PrefixName (upper : Char → Bool) (pre q : Str) : Prop := (pre = [] ∧ q = []) ∨ (q ≠ [] ∧ Pascal q ∧ pre = toSnakeCase upper q ++ ['_'])

theorem name_inj (hu : AsciiUpper upper) {q : Str} (hq : PrefixName upper cfg.pre q) {a b suffix : Str} (ha : Pascal a) (hb : Pascal b)
    (h : fnName upper cfg a suffix = fnName upper cfg b suffix) : a = b ∨ a = q ++ b ∨ b = q ++ a := by
  have half : ∀ {a b : Str}, Pascal a → Pascal b → toSnakeCase upper a ++ suffix = cfg.pre ++ (toSnakeCase upper b ++ suffix) → a = q ++ b := by
    intro a b ha hb h
    rw [← List.append_assoc] at h
    have h := List.append_cancel_right h
    rcases hq with ⟨e, rfl⟩ | ⟨q0, qp, e⟩
    · rw [e] at h; exact snake_inj hu ha hb h
    · rw [e] at h
      cases b with
      | nil =>
        exact (snake_last hu ha (x := toSnakeCase upper q) (by rw [h]; simp [toSnakeCase])).elim
      | cons c r =>
        have hc := hb.2 c r rfl
        refine snake_inj hu ha ⟨?_, ?_⟩ ?_
        · intro x hx
          rcases List.mem_append.1 hx with hx | hx
          · exact qp.1 x hx
          · exact hb.1 x hx
        · intro x r' hx
          cases q with
          | nil => exact absurd rfl q0
          | cons y q => injection hx with h1 _; exact h1 ▸ qp.2 y q rfl
        · rw [h, snake_append hu q0 rfl hc]
          simp
  unfold fnName at h
  rcases prefixed_ok (cfg := cfg) (toSnakeCase upper a ++ suffix) with ⟨_, ea⟩ | ⟨_, ea⟩ <;>
    rcases prefixed_ok (cfg := cfg) (toSnakeCase upper b ++ suffix) with ⟨_, eb⟩ | ⟨_, eb⟩ <;> rw [ea, eb] at h
  · exact .inl (snake_inj hu ha hb (List.append_cancel_right h))
  · exact .inr (.inl (half ha hb h))
  · exact .inr (.inr (half hb ha h.symm))
  · exact .inl (snake_inj hu ha hb (List.append_cancel_right (List.append_cancel_left h)))

theorem pascal_words {ws : List Str} (h : ∀ w ∈ ws, CapitalWord w) : Pascal ws.flatten := by
  refine ⟨fun c hc => ?_, fun c r e => ?_⟩
  · obtain ⟨w, hw, hc⟩ := List.mem_flatten.1 hc
    obtain ⟨x, r, rfl, hx, hr⟩ := h w hw
    rcases List.mem_cons.1 hc with rfl | hc
    · exact (upper_facts hx).1
    · exact (word_char (hr c hc)).1
  · cases ws with
    | nil => cases e
    | cons w ws =>
      obtain ⟨x, r, rfl, hx, hr⟩ := h w (by simp)
      rw [List.flatten_cons, List.cons_append] at e
      injection e with e1 _
      exact e1 ▸ hx

theorem pascal_items {s b : Str} (hs : Pascal s) (h : ItemsOf s b) : Pascal b := by
  have pre : b <+: s := by
    unfold ItemsOf at h
    split at h
    · rw [h]; exact List.prefix_append ..
    · split at h
      · rw [h]; exact List.prefix_append ..
      · rw [h]; exact List.prefix_refl _
  obtain ⟨t, rfl⟩ := pre
  refine ⟨fun c hc => hs.1 c (by simp [hc]), ?_⟩
  rintro c r rfl
  exact hs.2 c (r ++ t) (by simp)

theorem pascal_iterator {b : Str} (h : Pascal b) : Pascal (b ++ str!"Iterator") := by
  refine ⟨fun c hc => ?_, fun c r e => ?_⟩
  · rcases List.mem_append.1 hc with hc | hc
    · exact h.1 c hc
    · exact (by decide : ∀ c ∈ str!"Iterator", c.isAlphanum = true) c hc
  · cases b with
    | nil => injection e with e1 _; subst e1; decide
    | cons x b => injection e with e1 _; exact e1 ▸ h.2 x b rfl

def freed : Decl → Option Str
  | .destroy _ t => some t
  | .nextItem _ _ _ => none

def iterated : Decl → Option Str
  | .destroy _ _ => none
  | .nextItem _ it _ => some it

theorem freed_decls (sts : List Struct) : (sts.flatMap (structDecls upper cfg)).filterMap freed =
    sts.flatMap fun st => st.symbol :: if st.iterator then [bareType st.symbol ++ str!"Iterator"] else [] := by
  induction sts with
  | nil => rfl
  | cons st sts ih =>
    rw [List.flatMap_cons, List.filterMap_append, ih, List.flatMap_cons]
    congr 1
    unfold structDecls
    cases st.iterator <;> rfl

theorem iterated_decls (sts : List Struct) : ((sts.flatMap (structDecls upper cfg)).filterMap iterated).Sublist
    (sts.flatMap fun st => st.symbol :: if st.iterator then [bareType st.symbol ++ str!"Iterator"] else []) := by
  induction sts with
  | nil => exact .slnil
  | cons st sts ih =>
    rw [List.flatMap_cons, List.filterMap_append, List.flatMap_cons]
    refine List.Sublist.append ?_ ih
    unfold structDecls
    cases st.iterator
    · exact List.nil_sublist _
    · exact .cons _ (.cons_cons _ .slnil)

/-- What a declaration of the interface looks like. -/
theorem decl_cases {d : Decl} (hd : d ∈ (generate upper cfg).decls) :
    (∃ t, IsType cfg t ∧ d = .destroy (fnName upper cfg t (str!"_destroy")) t) ∨
    (∃ b item, IsType cfg (b ++ str!"Iterator") ∧ ItemsOf item b ∧ (∃ st ∈ cfg.structures, st.symbol = item) ∧
      d = .nextItem (fnName upper cfg b (str!"_next_item")) (b ++ str!"Iterator") item) := by
  rw [generate_decls, List.mem_flatMap] at hd
  obtain ⟨st, hst, hd⟩ := hd
  unfold structDecls at hd
  split at hd
  · rename_i hi
    have ty : IsType cfg (bareType st.symbol ++ str!"Iterator") := ⟨st, hst, .inr ⟨hi, _, itemsOf_bare _, rfl⟩⟩
    simp only [List.mem_cons, List.not_mem_nil, or_false] at hd
    rcases hd with rfl | rfl | rfl
    · exact .inl ⟨_, ⟨st, hst, .inl rfl⟩, rfl⟩
    · exact .inl ⟨_, ty, rfl⟩
    · exact .inr ⟨_, _, ty, itemsOf_bare _, ⟨st, hst, rfl⟩, rfl⟩
  · simp only [List.mem_cons, List.not_mem_nil, or_false] at hd
    subst hd
    exact .inl ⟨_, ⟨st, hst, .inl rfl⟩, rfl⟩

/-- C82: if the types of the interface are in Pascal case, no two of them have the same name, and none is called like another
one with the words of the prefix before it, then no two functions of the interface have the same name. -/
theorem C82_distinct (hu : AsciiUpper upper) {qs : List Str} (hq : ∀ w ∈ qs, CapitalWord w)
    (hpre : cfg.pre = if qs = [] then [] else underscored qs ++ ['_'])
    (hs : ∀ st ∈ cfg.structures, Pascal st.symbol) {base : Struct → Str} (hb : ∀ st, ItemsOf st.symbol (base st))
    (hd : (cfg.structures.flatMap fun st => st.symbol :: if st.iterator then [base st ++ str!"Iterator"] else []).Nodup)
    (hc : qs ≠ [] → ∀ a b, IsType cfg a → IsType cfg b → a ≠ qs.flatten ++ b) :
    ((generate upper cfg).decls.map Decl.name).Nodup := by
  have eb : base = fun st => bareType st.symbol := funext fun st => itemsOf_unique (hb st) (itemsOf_bare _)
  subst eb
  have pn : PrefixName upper cfg.pre qs.flatten := by
    cases qs with
    | nil => exact .inl ⟨hpre, rfl⟩
    | cons w qs =>
      obtain ⟨x, r, rfl, _, _⟩ := hq w (by simp)
      exact .inr ⟨by simp, pascal_words hq, by rw [hpre, if_neg (by simp), snake_words hu hq]⟩
  have pt : ∀ {t}, IsType cfg t → Pascal t := by
    rintro t ⟨st, hst, rfl | ⟨_, b, hb, rfl⟩⟩
    · exact hs st hst
    · exact pascal_iterator (pascal_items (hs st hst) hb)
  have apart : ∀ {a b : Str}, IsType cfg a → IsType cfg b → a ≠ b → a ≠ qs.flatten ++ b := by
    intro a b ha hb hn
    by_cases h0 : qs = []
    · subst h0; exact hn
    · exact hc h0 a b ha hb
  have p1 : (generate upper cfg).decls.Pairwise fun d d' => ∀ t, freed d = some t → ∀ t', freed d' = some t' → t ≠ t' := by
    rw [← List.pairwise_filterMap, generate_decls, freed_decls]
    exact hd
  have p2 : (generate upper cfg).decls.Pairwise fun d d' => ∀ t, iterated d = some t → ∀ t', iterated d' = some t' → t ≠ t' := by
    rw [← List.pairwise_filterMap, generate_decls]
    exact List.Pairwise.sublist (iterated_decls _) hd
  have ends : ∀ a b : Str, fnName upper cfg a (str!"_destroy") ≠ fnName upper cfg b (str!"_next_item") := by
    intro a b h
    have tail : ∀ (a suffix : Str), ∃ x, fnName upper cfg a suffix = x ++ suffix := by
      intro a suffix
      unfold fnName
      rcases prefixed_ok (cfg := cfg) (toSnakeCase upper a ++ suffix) with ⟨_, e⟩ | ⟨_, e⟩
      · exact ⟨_, e⟩
      · exact ⟨_, by rw [e, ← List.append_assoc]⟩
    obtain ⟨x, hx⟩ := tail a (str!"_destroy")
    obtain ⟨y, hy⟩ := tail b (str!"_next_item")
    rw [hx, hy] at h
    have := congrArg List.reverse h
    simp at this
  unfold List.Nodup
  rw [List.pairwise_map]
  refine (p1.and p2).imp_of_mem ?_
  intro d d' hd hd' hp hn
  rcases decl_cases hd with ⟨t, ht, rfl⟩ | ⟨b, i, ht, hbi, ⟨st, hst, e⟩, rfl⟩ <;>
    rcases decl_cases hd' with ⟨t', ht', rfl⟩ | ⟨b', i', ht', hbi', ⟨st', hst', e'⟩, rfl⟩
  · have ne : t ≠ t' := hp.1 t rfl t' rfl
    rcases name_inj hu pn (pt ht) (pt ht') hn with h | h | h
    · exact ne h
    · exact apart ht ht' ne h
    · exact apart ht' ht (Ne.symm ne) h
  · exact ends _ _ hn
  · exact ends _ _ hn.symm
  · have ne : b ++ str!"Iterator" ≠ b' ++ str!"Iterator" := hp.2 _ rfl _ rfl
    have pb : Pascal b := pascal_items (e ▸ hs st hst) hbi
    have pb' : Pascal b' := pascal_items (e' ▸ hs st' hst') hbi'
    rcases name_inj hu pn pb pb' hn with h | h | h
    · exact ne (by rw [h])
    · exact apart ht ht' ne (by rw [h, List.append_assoc])
    · exact apart ht' ht (Ne.symm ne) (by rw [h, List.append_assoc])

/-- C82 fails without the last condition: a type and the same type with the words of the prefix before it are freed by functions
of the same name. -/
theorem C82_prefix_refuted (hu : AsciiUpper upper) {qs ws : List Str} (hq : ∀ w ∈ qs, CapitalWord w) (h0 : qs ≠ [])
    (hw : ∀ w ∈ ws, CapitalWord w) (h1 : ws ≠ []) (hpre : cfg.pre = underscored qs ++ ['_'])
    (hn : ¬ cfg.pre <+: underscored ws ++ str!"_destroy") {a b : Struct} (ha : a ∈ cfg.structures) (hb : b ∈ cfg.structures)
    (ea : a.symbol = ws.flatten) (eb : b.symbol = qs.flatten ++ ws.flatten) :
    ∃ name, .destroy name a.symbol ∈ (generate upper cfg).decls ∧ .destroy name b.symbol ∈ (generate upper cfg).decls := by
  have mem : ∀ {st : Struct}, st ∈ cfg.structures →
      Decl.destroy (fnName upper cfg st.symbol (str!"_destroy")) st.symbol ∈ (generate upper cfg).decls := by
    intro st hst
    rw [generate_decls, List.mem_flatMap]
    exact ⟨st, hst, by unfold structDecls; simp⟩
  refine ⟨_, mem ha, ?_⟩
  have e : fnName upper cfg a.symbol (str!"_destroy") = fnName upper cfg b.symbol (str!"_destroy") := by
    unfold fnName
    have hqw : qs.flatten ≠ [] := by
      cases qs with
      | nil => exact absurd rfl h0
      | cons w qs => obtain ⟨x, r, rfl, _⟩ := hq w (by simp); simp
    have sb : toSnakeCase upper b.symbol = cfg.pre ++ underscored ws := by
      cases ws with
      | nil => exact absurd rfl h1
      | cons w ws =>
        obtain ⟨x, r, rfl, hx, _⟩ := hw w (by simp)
        rw [eb, snake_append hu hqw (c := x) (r := r ++ ws.flatten) (by simp) hx, snake_words hu hq, snake_words hu hw, hpre]
        simp
    rw [ea, snake_words hu hw, sb]
    rcases prefixed_ok (cfg := cfg) (underscored ws ++ str!"_destroy") with ⟨hp, _⟩ | ⟨_, e1⟩
    · exact absurd hp hn
    · rw [e1]
      rcases prefixed_ok (cfg := cfg) (cfg.pre ++ underscored ws ++ str!"_destroy") with ⟨_, e2⟩ | ⟨hp, _⟩
      · rw [e2, List.append_assoc]
      · exact absurd (by rw [List.append_assoc]; exact List.prefix_append ..) hp
  rw [e]
  exact mem hb

/-! ### The imports -/

theorem leStr_refl : ∀ a : Str, leStr a a = true
  | [] => rfl
  | a :: r => by rw [leStr, if_pos rfl]; exact leStr_refl r

theorem leStr_total : ∀ a b : Str, (leStr a b || leStr b a) = true
  | [], _ => by simp [leStr]
  | _ :: _, [] => by simp [leStr]
  | a :: r, b :: s => by
    have ih := leStr_total r s
    rw [leStr, leStr]
    by_cases h : a = b
    · subst h; simpa using ih
    · rw [if_neg h, if_neg (Ne.symm h)]
      have : a.toNat ≠ b.toNat := fun e => h (by rw [← Char.ofNat_toNat a, e, Char.ofNat_toNat])
      simp only [Bool.or_eq_true, decide_eq_true_eq]
      omega

theorem leStr_antisymm : ∀ {a b : Str}, leStr a b = true → leStr b a = true → a = b
  | [], [], _, _ => rfl
  | [], _ :: _, _, h => by simp [leStr] at h
  | _ :: _, [], h, _ => by simp [leStr] at h
  | a :: r, b :: s, h1, h2 => by
    rw [leStr] at h1 h2
    by_cases h : a = b
    · subst h
      rw [if_pos rfl] at h1 h2
      rw [leStr_antisymm h1 h2]
    · rw [if_neg h] at h1
      rw [if_neg (Ne.symm h)] at h2
      simp only [decide_eq_true_eq] at h1 h2
      omega

theorem leStr_trans : ∀ (a b c : Str), leStr a b = true → leStr b c = true → leStr a c = true
  | [], _, _, _, _ => by simp [leStr]
  | _ :: _, [], _, h, _ => by simp [leStr] at h
  | _ :: _, _ :: _, [], _, h => by simp [leStr] at h
  | a :: r, b :: s, c :: t, h1, h2 => by
    rw [leStr] at h1 h2 ⊢
    by_cases h : a = b
    · subst h
      rw [if_pos rfl] at h1
      by_cases h' : a = c
      · subst h'
        rw [if_pos rfl] at h2 ⊢
        exact leStr_trans r s t h1 h2
      · rw [if_neg h'] at h2 ⊢
        exact h2
    · rw [if_neg h] at h1
      simp only [decide_eq_true_eq] at h1
      by_cases h' : b = c
      · subst h'
        rw [if_neg h]
        simpa using h1
      · rw [if_neg h'] at h2
        simp only [decide_eq_true_eq] at h2
        have : a ≠ c := by rintro rfl; omega
        rw [if_neg this]
        simp only [decide_eq_true_eq]
        omega

theorem dedup_mem (x : Str) : ∀ l : List Str, x ∈ dedup l ↔ x ∈ l
  | [] => Iff.rfl
  | [_] => Iff.rfl
  | y :: z :: r => by
    have ih := dedup_mem x (z :: r)
    rw [dedup]
    split
    · rename_i h; subst h; rw [ih]; simp
    · rw [List.mem_cons, ih, List.mem_cons (a := x) (b := y)]

theorem dedup_sorted : ∀ {l : List Str}, l.Pairwise (fun a b => leStr a b = true) →
    (dedup l).Pairwise fun a b => leStr a b = true ∧ a ≠ b
  | [], _ => .nil
  | [_], _ => by simp [dedup]
  | y :: z :: r, h => by
    rw [List.pairwise_cons] at h
    have ih := dedup_sorted h.2
    rw [dedup]
    split
    · exact ih
    · rename_i hn
      refine List.pairwise_cons.2 ⟨fun x hx => ?_, ih⟩
      have hx := (dedup_mem x _).1 hx
      refine ⟨h.1 x hx, ?_⟩
      rintro rfl
      rcases List.mem_cons.1 hx with e | hx
      · exact hn e
      · exact hn (leStr_antisymm (h.1 z (by simp)) ((List.pairwise_cons.1 h.2).1 _ hx))

/-- the order of the model is the lexicographic order of the characters -/
theorem lt_of_leStr : ∀ {a b : Str}, leStr a b = true → a ≠ b → a < b
  | [], [], _, h => absurd rfl h
  | [], _ :: _, _, _ => List.nil_lt_cons _ _
  | _ :: _, [], h, _ => by cases h
  | x :: a, y :: b, h, hn => by
    unfold leStr at h
    rw [List.cons_lt_cons_iff]
    split at h
    · rename_i e
      subst e
      exact .inr ⟨rfl, lt_of_leStr h fun e => hn (by rw [e])⟩
    · refine .inl ?_
      have h : x.toNat < y.toNat := by simpa using h
      exact h

/-- C82: the imports are in order, each of them once; they are those of the types of the interface, each from the module of its
structure, and that of `std::ptr` if there is an iterator. -/
theorem C82_imports {base : Struct → Str} (hb : ∀ st, ItemsOf st.symbol (base st)) :
    ((generate upper cfg).uses.Pairwise fun a b => a < b) ∧
    ∀ u, u ∈ (generate upper cfg).uses ↔ ∃ st ∈ cfg.structures,
      u = str!"use " ++ st.module ++ str!"::" ++ st.symbol ++ str!";" ∨
      st.iterator = true ∧ (u = str!"use " ++ st.module ++ str!"::" ++ (base st ++ str!"Iterator") ++ str!";" ∨ u = str!"use std::ptr;") := by
  have e : (generate upper cfg).uses = dedup ((cfg.structures.flatMap structUses).mergeSort leStr) := by
    unfold generate
    rw [registers_eq]
    rfl
  rw [e]
  refine ⟨(dedup_sorted (List.pairwise_mergeSort leStr_trans leStr_total _)).imp fun h => lt_of_leStr h.1 h.2, fun u => ?_⟩
  rw [dedup_mem, List.mem_mergeSort, List.mem_flatMap]
  have hs : ∀ st, u ∈ structUses st ↔ u = str!"use " ++ st.module ++ str!"::" ++ st.symbol ++ str!";" ∨
      st.iterator = true ∧ (u = str!"use " ++ st.module ++ str!"::" ++ (base st ++ str!"Iterator") ++ str!";" ∨ u = str!"use std::ptr;") := by
    intro st
    rw [itemsOf_unique (hb st) (itemsOf_bare _)]
    unfold structUses
    have i : useOf st.iteratorStruct = str!"use " ++ st.module ++ str!"::" ++ (bareType st.symbol ++ str!"Iterator") ++ str!";" := rfl
    have j : useOf st = str!"use " ++ st.module ++ str!"::" ++ st.symbol ++ str!";" := rfl
    rw [← i, ← j]
    cases st.iterator
    · simp
    · simp only [if_true, List.mem_cons, List.not_mem_nil, or_false, true_and]
      constructor
      · rintro (h | h | h | h) <;> simp [h]
      · rintro (h | h | h) <;> simp [h]
  constructor
  · rintro ⟨st, h1, h2⟩; exact ⟨st, h1, (hs st).1 h2⟩
  · rintro ⟨st, h1, h2⟩; exact ⟨st, h1, (hs st).2 h2⟩

/-! ### The text of the file -/

/-- two given characters do not follow each other in a text -/
def Clear (x y : Char) : Str → Prop
  | [] => True
  | [_] => True
  | c :: d :: r => ¬ (c = x ∧ d = y) ∧ Clear x y (d :: r)

instance (x y : Char) : ∀ s, Decidable (Clear x y s)
  | [] => isTrue trivial
  | [_] => isTrue trivial
  | c :: d :: r => by
    have := instDecidableClear x y (d :: r)
    unfold Clear
    infer_instance

theorem clear_tail {x y c : Char} {r : Str} (h : Clear x y (c :: r)) : Clear x y r := by
  cases r with
  | nil => trivial
  | cons d r => exact h.2

theorem clear_append {x y : Char} : ∀ {a b : Str}, Clear x y a → Clear x y b →
    (a.getLast? ≠ some x ∨ b.head? ≠ some y) → Clear x y (a ++ b)
  | [], b, _, hb, _ => hb
  | [c], b, _, hb, h => by
    cases b with
    | nil => trivial
    | cons d b =>
      refine ⟨?_, hb⟩
      rintro ⟨rfl, rfl⟩
      simp at h
  | c :: d :: r, b, ha, hb, h => by
    refine ⟨ha.1, ?_⟩
    have := clear_append (a := d :: r) ha.2 hb (by simpa using h)
    exact this

theorem clear_of_ne {x y : Char} : ∀ {a : Str}, (∀ c ∈ a, c ≠ y) → Clear x y a
  | [], _ => trivial
  | [_], _ => trivial
  | c :: d :: r, h => ⟨fun e => h d (by simp) e.2, clear_of_ne fun e he => h e (by simp [List.mem_cons.1 he])⟩

theorem clear_of_ne' {x y : Char} : ∀ {a : Str}, (∀ c ∈ a, c ≠ x) → Clear x y a
  | [], _ => trivial
  | [_], _ => trivial
  | c :: d :: r, h => ⟨fun e => h c (by simp) e.1, clear_of_ne' fun e he => h e (by simp [List.mem_cons.1 he])⟩

theorem replace_clear {x y : Char} {p to : Str} : ∀ {a : Str}, Clear x y a → replaceFrom (x :: y :: p) to 0 a = a
  | [], _ => rfl
  | [c], _ => by simp [replaceFrom]
  | c :: d :: r, h => by
    have ih := replace_clear (p := p) (to := to) (a := d :: r) h.2
    rw [replaceFrom, ih, if_neg]
    intro e
    simp only [List.isPrefixOf, Bool.and_eq_true, beq_iff_eq] at e
    exact h.1 ⟨e.1.symm, e.2.1.symm⟩

theorem replace_skip {pat to : Str} : ∀ (q b : Str), replaceFrom pat to q.length (q ++ b) = replaceFrom pat to 0 b
  | [], b => rfl
  | _ :: q, b => replace_skip q b

/-- a placeholder that is in a text once is replaced -/
theorem replace_once {x y : Char} (hxy : y ≠ x) {p to b : Str} (hb : Clear x y b) : ∀ {a : Str}, Clear x y a →
    replace (a ++ (x :: y :: p) ++ b) (x :: y :: p) to = a ++ to ++ b := by
  unfold replace
  intro a
  induction a with
  | nil =>
    intro _
    rw [List.nil_append, List.nil_append, List.cons_append, replaceFrom, if_pos]
    · have := replace_skip (pat := x :: y :: p) (to := to) (y :: p) b
      simp only [List.length_cons, Nat.add_sub_cancel] at this ⊢
      rw [this, replace_clear hb]
    · rw [List.isPrefixOf_iff_prefix, ← List.cons_append]
      exact List.prefix_append ..
  | cons c r ih =>
    intro ha
    have ih := ih (clear_tail ha)
    rw [List.cons_append, List.cons_append, replaceFrom, if_neg, ih]
    · rfl
    · intro e
      cases r with
      | nil =>
        simp only [List.nil_append, List.cons_append, List.isPrefixOf, Bool.and_eq_true, beq_iff_eq] at e
        exact hxy e.2.1
      | cons d r =>
        simp only [List.cons_append, List.isPrefixOf, Bool.and_eq_true, beq_iff_eq] at e
        exact ha.1 ⟨e.1.symm, e.2.1.symm⟩

private def partHead : Str := str!"#[no_mangle] pub unsafe extern \"C\" fn "
private def partTakes : Str := str!"(p: *mut "
private def partFrees : Str := str!") { if !p.is_null() { drop(Box::from_raw(p)) } }"
private def partGives : Str := str!") -> *mut "
private def partNext : Str := str!" { let iterator = &mut *p; match iterator.next() { Some(item) => Box::into_raw(Box::new(item)), None => ptr::null_mut(), } }"

private theorem destroyTemplate_parts : destroyTemplate = partHead ++ str!"_FUNCTION_" ++ (partTakes ++ str!"_SYM_" ++ partFrees) := by
  decide +kernel

private theorem nextItemTemplate_parts : nextItemTemplate =
    partHead ++ str!"_FUNCTION_" ++ (partTakes ++ str!"_SYM_" ++ (partGives ++ str!"_ITEM_" ++ partNext)) := by
  decide +kernel

private theorem head_takes {y : Char} (hy : y.isUpper = true) {name : Str} (hn : ∀ c ∈ name, c.isUpper = false) :
    Clear '_' y (partHead ++ name ++ partTakes) := by
  have up : ∀ c ∈ name, c ≠ y := by
    rintro c hc rfl
    rw [hn c hc] at hy
    cases hy
  have lit : ∀ y : Char, y.isUpper = true → Clear '_' y partHead ∧ Clear '_' y partTakes := by
    intro y hy
    exact ascii_forall (P := fun y => y.isUpper = true → Clear '_' y partHead ∧ Clear '_' y partTakes) (by decide +kernel)
      (alphanum_ascii (upper_facts hy).1) hy
  have hp : (some '(' : Option Char) ≠ some y := by rintro ⟨⟩; exact absurd hy (by decide)
  exact clear_append (clear_append (lit y hy).1 (clear_of_ne up) (.inl (by decide +kernel))) (lit y hy).2 (.inr hp)

/-- a name with no upper case letters, and an iterator type without underscores, are in their places -/
theorem text_declared {d : Decl} (hn : ∀ c ∈ d.name, c.isUpper = false)
    (hi : ∀ name it item, d = .nextItem name it item → '_' ∉ it) : d.text = declared d := by
  cases d with
  | destroy name type =>
    have e1 := replace_once (x := '_') (y := 'F') (by decide) (p := str!"UNCTION_") (to := name)
      (a := partHead) (b := partTakes ++ str!"_SYM_" ++ partFrees) (by decide +kernel) (by decide +kernel)
    have e2 := replace_once (x := '_') (y := 'S') (by decide) (p := str!"YM_") (to := type)
      (a := partHead ++ name ++ partTakes) (b := partFrees) (by decide +kernel) (head_takes rfl hn)
    have f1 : replace destroyTemplate (str!"_FUNCTION_") name = _ := destroyTemplate_parts ▸ e1
    have a2 : ∀ u v w x y : Str, u ++ v ++ (w ++ x ++ y) = u ++ v ++ w ++ x ++ y := by simp
    have f2 := a2 partHead name partTakes (str!"_SYM_") partFrees
    show replace (replace destroyTemplate (str!"_FUNCTION_") name) (str!"_SYM_") type ++ ['\n'] = _
    rw [f1, f2]
    refine Eq.trans (congrArg (fun t => t ++ ['\n']) e2) ?_
    unfold declared
    simp only [List.append_assoc]
    rfl
  | nextItem name it item =>
    have hi := hi name it item rfl
    have e1 := replace_once (x := '_') (y := 'F') (by decide) (p := str!"UNCTION_") (to := name)
      (a := partHead) (b := partTakes ++ str!"_SYM_" ++ (partGives ++ str!"_ITEM_" ++ partNext)) (by decide +kernel) (by decide +kernel)
    have e2 := replace_once (x := '_') (y := 'S') (by decide) (p := str!"YM_") (to := it)
      (a := partHead ++ name ++ partTakes) (b := partGives ++ str!"_ITEM_" ++ partNext) (by decide +kernel) (head_takes rfl hn)
    have e3 := replace_once (x := '_') (y := 'I') (by decide) (p := str!"TEM_") (to := item)
      (a := partHead ++ name ++ partTakes ++ it ++ partGives) (b := partNext) (by decide +kernel)
      (clear_append (clear_append (head_takes rfl hn) (clear_of_ne' fun c hc e => hi (e ▸ hc))
        (.inl (by rw [List.getLast?_append]; simp [partTakes]))) (by decide +kernel) (.inr (by decide +kernel)))
    have f1 : replace nextItemTemplate (str!"_FUNCTION_") name = _ := nextItemTemplate_parts ▸ e1
    have a2 : ∀ u v w x y : Str, u ++ v ++ (w ++ x ++ y) = u ++ v ++ w ++ x ++ y := by simp
    have a3 : ∀ z u v w x y : Str, z ++ u ++ v ++ w ++ (x ++ y) = z ++ u ++ v ++ w ++ x ++ y := by simp
    have f2 := a2 partHead name partTakes (str!"_SYM_") (partGives ++ str!"_ITEM_" ++ partNext)
    have f3 : partHead ++ name ++ partTakes ++ it ++ (partGives ++ str!"_ITEM_" ++ partNext) =
      partHead ++ name ++ partTakes ++ it ++ partGives ++ str!"_ITEM_" ++ partNext := by simp only [List.append_assoc]
    show replace (replace (replace nextItemTemplate (str!"_FUNCTION_") name) (str!"_SYM_") it) (str!"_ITEM_") item ++ ['\n'] = _
    rw [f1, f2]
    refine Eq.trans (congrArg (fun t => replace t (str!"_ITEM_") item ++ ['\n']) (Eq.trans e2 f3)) ?_
    refine Eq.trans (congrArg (fun t => t ++ ['\n']) e3) ?_
    simp only [List.append_assoc]
    unfold declared
    simp only [List.append_assoc]
    rfl

theorem toLower_lower (c : Char) : c.toLower.isUpper = false := by
  by_cases h : c.toNat < 128
  · exact ascii_forall (P := fun c => c.toLower.isUpper = false) (by decide) h
  · have hu : ∀ c : Char, c.isUpper = true → c.toNat < 128 := fun c hc => alphanum_ascii (upper_facts hc).1
    by_cases hc : c.isUpper = true
    · exact absurd (hu c hc) h
    · have e : c.toLower = c := by
        unfold Char.toLower
        rw [dif_neg]
        intro hh
        exact hc (by simpa [Char.isUpper] using hh)
      rw [e]; simpa using hc

theorem snake_lower (s : Str) : ∀ c ∈ toSnakeCase upper s, c.isUpper = false := by
  cases s with
  | nil => intro c hc; cases hc
  | cons a r =>
    intro c hc
    rw [snake_cons] at hc
    rcases List.mem_cons.1 hc with rfl | hc
    · exact toLower_lower a
    · obtain ⟨d, _, hc⟩ := List.mem_flatMap.1 hc
      unfold snakeChar at hc
      split at hc
      · rcases List.mem_cons.1 hc with rfl | hc
        · rfl
        · rw [List.mem_singleton.1 hc]; exact toLower_lower d
      · rw [List.mem_singleton.1 hc]; exact toLower_lower d

theorem fnName_lower (hp : ∀ c ∈ cfg.pre, c.isUpper = false) (base : Str) {suffix : Str} (hs : ∀ c ∈ suffix, c.isUpper = false) :
    ∀ c ∈ fnName upper cfg base suffix, c.isUpper = false := by
  intro c hc
  have key : ∀ c ∈ toSnakeCase upper base ++ suffix, c.isUpper = false := by
    intro c hc
    rcases List.mem_append.1 hc with hc | hc
    · exact snake_lower _ c hc
    · exact hs c hc
  unfold fnName prefixed at hc
  split at hc
  · exact key c hc
  · rcases List.mem_append.1 hc with hc | hc
    · exact hp c hc
    · exact key c hc

/-- C82: if the prefix has no upper case letters and the names of the types no underscores, the file begins with the configured
header; then come, each after an empty line, the imports and the functions, one after the other with an empty line between two
of them; and each function is written with its name, what it takes and what it gives in their places. -/
theorem C82_source (hp : ∀ c ∈ cfg.pre, c.isUpper = false) (hs : ∀ st ∈ cfg.structures, '_' ∉ st.symbol) :
    source cfg (generate upper cfg) = cfg.header ++ str!"\n\n" ++ ['\n'].intercalate (generate upper cfg).uses ++ str!"\n\n" ++
      ['\n'].intercalate ((generate upper cfg).decls.map declared) := by
  have e : (generate upper cfg).decls.map Decl.text = (generate upper cfg).decls.map declared := by
    refine List.map_congr_left fun d hd => ?_
    rw [generate_decls, List.mem_flatMap] at hd
    obtain ⟨st, hst, hd⟩ := hd
    have hit : '_' ∉ bareType st.symbol ++ str!"Iterator" := by
      intro h
      rcases List.mem_append.1 h with h | h
      · refine hs st hst ?_
        have := itemsOf_bare st.symbol
        unfold ItemsOf at this
        split at this
        · rw [this]; simp [h]
        · split at this
          · rw [this]; simp [h]
          · rw [this]; exact h
      · exact absurd h (by decide)
    unfold structDecls at hd
    have l1 : ∀ base, ∀ c ∈ fnName upper cfg base (str!"_destroy"), c.isUpper = false := fun base => fnName_lower hp base (by decide)
    have l2 : ∀ base, ∀ c ∈ fnName upper cfg base (str!"_next_item"), c.isUpper = false := fun base => fnName_lower hp base (by decide)
    rcases List.mem_cons.1 hd with rfl | hd
    · exact text_declared (l1 _) (fun _ _ _ h => by cases h)
    · split at hd
      · rcases List.mem_cons.1 hd with rfl | hd
        · exact text_declared (l1 _) (fun _ _ _ h => by cases h)
        · rw [List.mem_singleton.1 hd]
          refine text_declared (l2 _) ?_
          rintro _ _ _ h
          cases h
          exact hit
      · cases hd
  unfold source lines
  rw [e]
  simp [List.intercalate, List.intersperse]

/-- C82 fails for a type with a placeholder in its name: the function that gives the next item takes another type. -/
theorem C82_placeholder_refuted : ∃ d ∈ (generate Char.isUpper ⟨[], [], [⟨str!"A_ITEM_", defaultModule, true⟩]⟩).decls,
    d.does = .next (str!"A_ITEM_Iterator") (str!"A_ITEM_") ∧ d.text ≠ declared d ∧
    d.text = declared (.nextItem d.name (str!"AA_ITEM_Iterator") (str!"A_ITEM_")) := by
  refine ⟨.nextItem (str!"a__i_t_e_m__next_item") (str!"A_ITEM_Iterator") (str!"A_ITEM_"), ?_, rfl, ?_, ?_⟩
  · rw [generate_decls]; decide +kernel
  · decide +kernel
  · decide +kernel

/-! ### The interface of ced -/

theorem asciiUpper_isUpper : AsciiUpper Char.isUpper := fun _ _ => rfl

/-- C82: the functions that are generated for ced. -/
theorem C82_ced {upper : Char → Bool} (hu : AsciiUpper upper) : (generate upper ced).decls = [
    .destroy (str!"ced_connection_destroy") (str!"CedConnection"),
    .destroy (str!"ced_event_destroy") (str!"CedEvent"),
    .destroy (str!"ced_text_item_destroy") (str!"CedTextItem"),
    .destroy (str!"ced_text_iterator_destroy") (str!"CedTextIterator"),
    .nextItem (str!"ced_text_next_item") (str!"CedTextIterator") (str!"CedTextItem"),
    .destroy (str!"ced_version_destroy") (str!"CedVersion"),
    .destroy (str!"ced_status_item_destroy") (str!"StatusItem"),
    .destroy (str!"ced_status_iterator_destroy") (str!"StatusIterator"),
    .nextItem (str!"ced_status_next_item") (str!"StatusIterator") (str!"StatusItem"),
    .destroy (str!"ced_view_item_destroy") (str!"ViewItem"),
    .destroy (str!"ced_view_iterator_destroy") (str!"ViewIterator"),
    .nextItem (str!"ced_view_next_item") (str!"ViewIterator") (str!"ViewItem"),
    .destroy (str!"ced_view_lens_destroy") (str!"ViewLens"),
    .destroy (str!"ced_view_lens_iterator_destroy") (str!"ViewLensIterator"),
    .nextItem (str!"ced_view_lens_next_item") (str!"ViewLensIterator") (str!"ViewLens")] := by
  have same : ∀ s : Str, (∀ c ∈ s, c.toNat < 128) → toSnakeCase upper s = toSnakeCase Char.isUpper s := by
    intro s hs
    cases s with
    | nil => rfl
    | cons c r =>
      rw [snake_cons, snake_cons]
      congr 1
      have : ∀ r : Str, (∀ c ∈ r, c.toNat < 128) → r.flatMap (snakeChar upper) = r.flatMap (snakeChar Char.isUpper) := by
        intro r hr
        induction r with
        | nil => rfl
        | cons d r ih =>
          rw [List.flatMap_cons, List.flatMap_cons, ih fun x hx => hr x (by simp [hx])]
          congr 1
          unfold snakeChar
          rw [hu d (hr d (by simp))]
      exact this r fun x hx => hs x (by simp [hx])
  have e : (generate upper ced).decls = (generate Char.isUpper ced).decls := by
    rw [generate_decls, generate_decls]
    show (ced.structures).flatMap _ = (ced.structures).flatMap _
    have : ∀ st ∈ ced.structures, structDecls upper ced st = structDecls Char.isUpper ced st := by
      intro st hst
      have h1 : ∀ st ∈ ced.structures, (∀ c ∈ st.symbol, c.toNat < 128) ∧ (∀ c ∈ bareType st.symbol ++ str!"Iterator", c.toNat < 128) ∧
          ∀ c ∈ bareType st.symbol, c.toNat < 128 := by decide
      obtain ⟨h1, h2, h3⟩ := h1 st hst
      unfold structDecls fnName
      rw [same _ h1, same _ h2, same _ h3]
    rw [List.flatMap_def, List.flatMap_def, List.map_congr_left this]
  rw [e, generate_decls]
  decide

theorem strict_ext {l m : List Str} (hl : l.Pairwise (fun a b => a < b))
    (hm : m.Pairwise (fun a b => a < b)) (h : ∀ x, x ∈ l ↔ x ∈ m) : l = m := by
  have asym : ∀ {a b : Str}, a < b → ¬ b < a := fun h1 h2 => List.lt_irrefl _ (List.lt_trans h1 h2)
  induction l generalizing m with
  | nil =>
    cases m with
    | nil => rfl
    | cons b m => exact absurd ((h b).2 (List.mem_cons_self ..)) (by simp)
  | cons a l ih =>
    cases m with
    | nil => exact absurd ((h a).1 (List.mem_cons_self ..)) (by simp)
    | cons b m =>
      have hl' := List.pairwise_cons.1 hl
      have hm' := List.pairwise_cons.1 hm
      have e : a = b := by
        rcases List.mem_cons.1 ((h a).1 (List.mem_cons_self ..)) with e | ha
        · exact e
        · rcases List.mem_cons.1 ((h b).2 (List.mem_cons_self ..)) with e | hb
          · exact e.symm
          · exact absurd (hm'.1 a ha) (asym (hl'.1 b hb))
      subst e
      congr 1
      refine ih hl'.2 hm'.2 fun x => ?_
      constructor
      · intro hx
        rcases List.mem_cons.1 ((h x).1 (List.mem_cons_of_mem _ hx)) with e | h'
        · exact absurd (hl'.1 x hx) (by rw [e]; exact List.lt_irrefl _)
        · exact h'
      · intro hx
        rcases List.mem_cons.1 ((h x).2 (List.mem_cons_of_mem _ hx)) with e | h'
        · exact absurd (hm'.1 x hx) (by rw [e]; exact List.lt_irrefl _)
        · exact h'

/-- C82: the imports that are generated for ced. -/
theorem C82_ced_imports : (generate upper ced).uses = [
    str!"use crate::CedVersion;",
    str!"use crate::connection::CedConnection;",
    str!"use crate::event::CedEvent;",
    str!"use crate::event::StatusItem;",
    str!"use crate::event::StatusIterator;",
    str!"use crate::event::ViewItem;",
    str!"use crate::event::ViewIterator;",
    str!"use crate::event::ViewLens;",
    str!"use crate::event::ViewLensIterator;",
    str!"use crate::text::CedTextItem;",
    str!"use crate::text::CedTextIterator;",
    str!"use std::ptr;"] := by
  obtain ⟨hp, hm⟩ := C82_imports (upper := upper) (cfg := ced) (fun st => itemsOf_bare st.symbol)
  refine strict_ext hp (by decide) fun u => ?_
  rw [hm u]
  have e : (∃ st ∈ ced.structures, u = str!"use " ++ st.module ++ str!"::" ++ st.symbol ++ str!";" ∨
      st.iterator = true ∧ (u = str!"use " ++ st.module ++ str!"::" ++ (bareType st.symbol ++ str!"Iterator") ++ str!";" ∨
        u = str!"use std::ptr;")) ↔
      u ∈ ced.structures.flatMap fun st => (str!"use " ++ st.module ++ str!"::" ++ st.symbol ++ str!";") ::
        if st.iterator then [str!"use " ++ st.module ++ str!"::" ++ (bareType st.symbol ++ str!"Iterator") ++ str!";",
          str!"use std::ptr;"] else [] := by
    rw [List.mem_flatMap]
    refine exists_congr fun st => and_congr Iff.rfl ?_
    cases st.iterator <;> simp
  rw [e]
  have l : (ced.structures.flatMap fun st => (str!"use " ++ st.module ++ str!"::" ++ st.symbol ++ str!";") ::
        if st.iterator then [str!"use " ++ st.module ++ str!"::" ++ (bareType st.symbol ++ str!"Iterator") ++ str!";",
          str!"use std::ptr;"] else []) = [
    str!"use crate::connection::CedConnection;", str!"use crate::event::CedEvent;", str!"use crate::text::CedTextItem;",
    str!"use crate::text::CedTextIterator;", str!"use std::ptr;", str!"use crate::CedVersion;",
    str!"use crate::event::StatusItem;", str!"use crate::event::StatusIterator;", str!"use std::ptr;",
    str!"use crate::event::ViewItem;", str!"use crate::event::ViewIterator;", str!"use std::ptr;",
    str!"use crate::event::ViewLens;", str!"use crate::event::ViewLensIterator;", str!"use std::ptr;"] := by decide
  rw [l]
  simp only [List.mem_cons, List.not_mem_nil, or_false]
  grind

/-- C82: of the iterators that an event hands out, those of texts, of status lines, of views and of lenses can be read by a C
program, and freed. -/
theorem C82_read {upper : Char → Bool} (hu : AsciiUpper upper) {it item : Str} (h : (it, item) ∈ handedOut)
    (hm : it ≠ str!"MenuIterator") (hl : it ≠ str!"ViewLensLineIterator") :
    (∃ name, .nextItem name it item ∈ (generate upper ced).decls) ∧ ∃ name, .destroy name it ∈ (generate upper ced).decls := by
  rw [C82_ced hu]
  simp only [handedOut, List.mem_cons, List.not_mem_nil, or_false, Prod.mk.injEq] at h
  rcases h with h | h | h | h | h | h <;> obtain ⟨rfl, rfl⟩ := h
  · exact ⟨⟨str!"ced_text_next_item", by decide⟩, str!"ced_text_iterator_destroy", by decide⟩
  · exact absurd rfl hm
  · exact ⟨⟨str!"ced_status_next_item", by decide⟩, str!"ced_status_iterator_destroy", by decide⟩
  · exact ⟨⟨str!"ced_view_next_item", by decide⟩, str!"ced_view_iterator_destroy", by decide⟩
  · exact ⟨⟨str!"ced_view_lens_next_item", by decide⟩, str!"ced_view_lens_iterator_destroy", by decide⟩
  · exact absurd rfl hl

/-- C82 fails for the other two: the entries of a menu and the lines of a lens are handed out as iterators that no function of the
interface takes. -/
theorem C82_unread_refuted {upper : Char → Bool} (hu : AsciiUpper upper) {it : Str}
    (h : it = str!"MenuIterator" ∨ it = str!"ViewLensLineIterator") :
    (∃ item, (it, item) ∈ handedOut) ∧ ∀ d ∈ (generate upper ced).decls, d.does ≠ .free it ∧ ∀ item, d.does ≠ .next it item := by
  refine ⟨?_, ?_⟩
  · rcases h with rfl | rfl
    · exact ⟨str!"MenuItem", by decide⟩
    · exact ⟨str!"CedTextIterator", by decide⟩
  · rw [C82_ced hu]
    intro d hd
    simp only [List.mem_cons, List.not_mem_nil, or_false] at hd
    rcases h with rfl | rfl <;>
      rcases hd with rfl | rfl | rfl | rfl | rfl | rfl | rfl | rfl | rfl | rfl | rfl | rfl | rfl | rfl | rfl <;>
      exact ⟨by simp [Decl.does], fun _ => by simp [Decl.does]⟩

/-- The configuration of ced meets the conditions of `C82_distinct`. -/
example : ((generate Char.isUpper ced).decls.map Decl.name).Nodup := by
  refine C82_distinct asciiUpper_isUpper (qs := [str!"Ced"]) ?_ (by decide) ?_ (fun st => itemsOf_bare st.symbol) (by decide) ?_
  · intro w hw
    simp only [List.mem_cons, List.not_mem_nil, or_false] at hw
    subst hw
    exact ⟨'C', str!"ed", rfl, by decide, by decide⟩
  · intro st hst
    have : ∀ st ∈ ced.structures, (∀ c ∈ st.symbol, c.isAlphanum = true) ∧ ∀ c ∈ st.symbol.head?, c.isUpper = true := by decide
    exact ⟨(this st hst).1, fun c r e => (this st hst).2 c (by rw [e]; rfl)⟩
  · intro _ a b ha hb
    have all : ∀ t, IsType ced t → t ∈ ced.structures.flatMap fun st =>
        st.symbol :: if st.iterator then [bareType st.symbol ++ str!"Iterator"] else [] := by
      rintro t ⟨st, hst, h⟩
      refine List.mem_flatMap.2 ⟨st, hst, ?_⟩
      rcases h with rfl | ⟨hi, base, hb, rfl⟩
      · simp
      · rw [hi, itemsOf_unique hb (itemsOf_bare _)]; simp
    have : ∀ a ∈ (ced.structures.flatMap fun st => st.symbol :: if st.iterator then [bareType st.symbol ++ str!"Iterator"] else []),
        ∀ b ∈ (ced.structures.flatMap fun st => st.symbol :: if st.iterator then [bareType st.symbol ++ str!"Iterator"] else []),
        a ≠ [str!"Ced"].flatten ++ b := by decide
    exact this a (all a ha) b (all b hb)

/-- With a prefix `ced_`, the types `View` and `CedView` are freed by functions of the same name. -/
example : (generate Char.isUpper { ced with structures := [⟨str!"View", str!"crate", false⟩, ⟨str!"CedView", str!"crate", false⟩] }).decls.map
    Decl.name = [str!"ced_view_destroy", str!"ced_view_destroy"] := by decide

/-- `bareType` gives the items of each structure. -/
example : ItemsOf (str!"CedTextItem") (str!"CedText") ∧ ItemsOf (str!"ViewLens") (str!"ViewLens") :=
  ⟨itemsOf_bare (str!"CedTextItem"), itemsOf_bare (str!"ViewLens")⟩

/-- The configuration of ced meets the conditions of `C82_source`. -/
example (upper : Char → Bool) : source ced (generate upper ced) = ced.header ++ str!"\n\n" ++
    ['\n'].intercalate (generate upper ced).uses ++ str!"\n\n" ++ ['\n'].intercalate ((generate upper ced).decls.map declared) :=
  C82_source (by decide) (by decide)

end Ced.Props
