import Verif.Props.Exec
import Verif.Proofs.LuaBody
import Verif.Props.SessionName
import Verif.Spec.LuaEnv

/-!
# C78: the scripts know the session
-/

namespace Ced.Props

open Spec LuaLex

theorem unquoted_plain {s : Str} (h : UnquotedName s) : ∀ c ∈ s, PlainChar c := by
  rintro c hc
  exact ⟨fun e => h.1 (e ▸ hc), fun e => h.2.1 (e ▸ hc), fun e => h.2.2.1 (e ▸ hc), fun e => h.2.2.2 (e ▸ hc)⟩

theorem encode_inj {a b : Str} (h : Str.encode a = Str.encode b) : a = b := by
  have e : ∀ s : Str, (Str.encode s).toByteArray = s.utf8Encode := fun s => rfl
  have h1 : a.utf8Encode = b.utf8Encode := by rw [← e, ← e, h]
  have := congrArg ByteArray.utf8Decode? h1
  rw [List.utf8Decode?_utf8Encode, List.utf8Decode?_utf8Encode] at this
  simpa using this

theorem luaText_encode (s : Str) : luaText (Str.encode s) = some s := by
  unfold luaText
  rw [show (Str.encode s).toByteArray = s.utf8Encode from rfl, List.utf8Decode?_utf8Encode]
  simp

theorem luaText_inv {v : Bytes} {s : Str} (h : luaText v = some s) : v = Str.encode s := by
  unfold luaText at h
  cases hd : v.toByteArray.utf8Decode? with
  | none => rw [hd] at h; cases h
  | some a =>
    rw [hd] at h
    cases h
    have h1 := ByteArray.utf8Encode_get_utf8Decode? (b := v.toByteArray) (h := by rw [hd]; rfl)
    simp only [hd, Option.get_some] at h1
    have h2 : (Str.encode a.toList).toByteArray = v.toByteArray := h1
    have h3 := congrArg (fun b : ByteArray => b.data.toList) h2
    simpa using h3.symm

/-- after the name the literal ends where it should or not at all -/
theorem read_end (st : LuaLex) (t : Str) :
    read st ('"' :: ',' :: '\n' :: t) = none ∨ ∃ v, read st ('"' :: ',' :: '\n' :: t) = some (v, ',' :: '\n' :: t) := by
  cases st with
  | text => exact .inr ⟨_, rfl⟩
  | escape => exact .inl rfl
  | hex f => cases f <;> exact .inl rfl
  | dec v n =>
    by_cases hv : v ≤ 255
    · refine .inr ⟨[UInt8.ofNat v], ?_⟩
      unfold LuaLex.read
      rw [show step (.dec v n) '"' = _ from rfl]
      unfold step
      dsimp only
      have : (if n < 2 then decValue '"' else none) = none := by split <;> rfl
      rw [this]
      dsimp only
      rw [if_pos hv]
      rfl
    · refine .inl ?_
      unfold LuaLex.read
      rw [show step (.dec v n) '"' = _ from rfl]
      unfold step
      dsimp only
      have : (if n < 2 then decValue '"' else none) = none := by split <;> rfl
      rw [this]
      dsimp only
      rw [if_neg hv]
  | skip => exact .inr ⟨_, rfl⟩
  | brace => exact .inl rfl
  | uniStart => exact .inl rfl
  | uni v => exact .inl rfl
  | eol e => exact .inr ⟨_, rfl⟩

theorem step_no_close {st : LuaLex} {c : Char} (hc : c ≠ '"') (out : Bytes) : step st c ≠ .close out := by
  have ht : ∀ b out, (textStep c).after b ≠ .close out := by
    intro b out
    unfold textStep
    rw [if_neg hc]
    split
    · intro h; cases h
    · split <;> intro h <;> cases h
  have ht' : ∀ out, textStep c ≠ .close out := by
    intro out
    have := ht [] out
    rwa [after_nil] at this
  cases st with
  | text => exact ht' out
  | escape =>
    unfold step escapeStep
    dsimp only
    repeat' split
    all_goals exact fun h => (by cases h)
  | hex f =>
    cases f <;> unfold step <;> dsimp only <;> split <;> exact fun h => (by cases h)
  | dec v n =>
    unfold step
    dsimp only
    split
    · exact fun h => (by cases h)
    · split
      · exact ht _ _
      · exact fun h => (by cases h)
  | skip =>
    unfold step
    dsimp only
    split
    · exact fun h => (by cases h)
    · exact ht' _
  | brace => unfold step; dsimp only; split <;> exact fun h => (by cases h)
  | uniStart => unfold step; dsimp only; split <;> exact fun h => (by cases h)
  | uni v => unfold step; dsimp only; repeat' split
             all_goals exact fun h => (by cases h)
  | eol e =>
    unfold step
    dsimp only
    split
    · exact fun h => (by cases h)
    · exact ht' _

/-- the literal ends in the name, after the name, or not at all -/
theorem read_split (s t : Str) : ∀ st : LuaLex,
    read st (s ++ '"' :: ',' :: '\n' :: t) = none ∨
    (∃ v, read st (s ++ '"' :: ',' :: '\n' :: t) = some (v, ',' :: '\n' :: t)) ∨
    ∃ v s2, '"' ∈ s ∧ read st (s ++ '"' :: ',' :: '\n' :: t) = some (v, s2 ++ '"' :: ',' :: '\n' :: t) := by
  induction s with
  | nil => exact fun st => (read_end st t).imp id .inl
  | cons c s ih =>
    intro st
    show read st (c :: (s ++ '"' :: ',' :: '\n' :: t)) = none ∨ (∃ v, read st (c :: (s ++ '"' :: ',' :: '\n' :: t)) = _) ∨
      ∃ v s2, _ ∧ read st (c :: (s ++ '"' :: ',' :: '\n' :: t)) = _
    rw [LuaLex.read]
    cases hs : step st c with
    | fail => exact .inl rfl
    | close out =>
      refine .inr (.inr ⟨out, s, ?_, rfl⟩)
      by_cases hc : c = '"'
      · exact hc ▸ List.mem_cons_self
      · exact absurd hs (step_no_close hc out)
    | go st' out =>
      dsimp only
      rcases ih st' with h1 | ⟨v, h1⟩ | ⟨v, s2, hm, h1⟩
      · rw [h1]; exact .inl rfl
      · rw [h1]; exact .inr (.inl ⟨_, rfl⟩)
      · rw [h1]; exact .inr (.inr ⟨_, s2, List.mem_cons_of_mem _ hm, rfl⟩)

theorem expect_inv {tok t t' : Str} (h : luaExpect tok t = some t') :
    ∃ ws, (∀ c ∈ ws, isSpace c = true) ∧ t = ws ++ tok ++ t' := by
  unfold luaExpect at h
  dsimp only at h
  split at h
  · rename_i he
    cases h
    refine ⟨t.takeWhile isSpace, fun c hc => List.all_eq_true.1 List.all_takeWhile c hc, ?_⟩
    have h1 := (List.takeWhile_append_dropWhile (p := isSpace) (l := t)).symm
    have h2 := (List.take_append_drop tok.length (t.dropWhile isSpace)).symm
    rw [he] at h2
    rw [List.append_assoc, ← h2]
    exact h1
  · cases h

theorem space_quote {ws : Str} (h : ∀ c ∈ ws, isSpace c = true) : '"' ∉ ws := fun hm => by
  have := h _ hm
  exact absurd this (by decide)

/-- the tokens up to a quote hold no other -/
theorem expects_quote {t t' : Str} (h : luaExpects [str!",", str!"client", str!"=", ['"']] t = some t') :
    ∃ p, '"' ∉ p ∧ t = p ++ '"' :: t' := by
  simp only [luaExpects, Option.bind_eq_some_iff] at h
  obtain ⟨t1, h1, t2, h2, t3, h3, t4, h4, h5⟩ := h
  cases h5
  obtain ⟨w1, hw1, rfl⟩ := expect_inv h1
  obtain ⟨w2, hw2, rfl⟩ := expect_inv h2
  obtain ⟨w3, hw3, rfl⟩ := expect_inv h3
  obtain ⟨w4, hw4, rfl⟩ := expect_inv h4
  refine ⟨w1 ++ str!"," ++ w2 ++ str!"client" ++ w3 ++ str!"=" ++ w4, ?_, by simp⟩
  have q1 := space_quote hw1
  have q2 := space_quote hw2
  have q3 := space_quote hw3
  have q4 := space_quote hw4
  simp only [List.mem_append, not_or]
  exact ⟨⟨⟨⟨⟨⟨q1, by decide⟩, q2⟩, by decide⟩, q3⟩, by decide⟩, q4⟩

/-- what follows the second literal holds no quote -/
theorem expects_end {t t' : Str} (h : luaExpects [str!",", str!"}"] t = some t') (hs : t'.all isSpace = true) : '"' ∉ t ∧
    ∃ w t2, (∀ c ∈ w, isSpace c = true) ∧ t = ',' :: w ++ '}' :: t2 ∨ t.head? ≠ some ',' := by
  simp only [luaExpects, Option.bind_eq_some_iff] at h
  obtain ⟨t1, h1, t2, h2, h5⟩ := h
  cases h5
  obtain ⟨w1, hw1, rfl⟩ := expect_inv h1
  obtain ⟨w2, hw2, rfl⟩ := expect_inv h2
  have q1 := space_quote hw1
  have q2 := space_quote hw2
  have q3 := space_quote (List.all_eq_true.1 hs)
  constructor
  · simp only [List.mem_append, not_or]
    exact ⟨⟨q1, by decide⟩, ⟨q2, by decide⟩, q3⟩
  · cases w1 with
    | nil => exact ⟨w2, t', .inl ⟨hw2, by simp⟩⟩
    | cons c w1 =>
      refine ⟨[], [], .inr ?_⟩
      intro hc
      have hc : c = ',' := by simpa using hc
      have := hw1 c List.mem_cons_self
      rw [hc] at this
      exact absurd this (by decide)

/-- two ways to cut a text at a quote -/
theorem cut_quote {p t s2 x : Str} (hp : '"' ∉ p) (h : p ++ '"' :: t = s2 ++ '"' :: x) :
    (∃ s3, s2 = p ++ '"' :: s3 ∧ t = s3 ++ '"' :: x) ∨ (s2 = p ∧ t = x) := by
  induction p generalizing s2 with
  | nil =>
    cases s2 with
    | nil => exact .inr ⟨rfl, by simpa using h⟩
    | cons c s2 =>
      simp only [List.nil_append, List.cons_append, List.cons.injEq] at h
      obtain ⟨rfl, h⟩ := h
      exact .inl ⟨s2, rfl, h⟩
  | cons c p ih =>
    have hc : c ≠ '"' := fun e => hp (e ▸ List.mem_cons_self)
    cases s2 with
    | nil =>
      simp only [List.nil_append, List.cons_append, List.cons.injEq] at h
      exact absurd h.1 hc
    | cons d s2 =>
      simp only [List.cons_append, List.cons.injEq] at h
      obtain ⟨rfl, h⟩ := h
      rcases ih (fun hm => hp (List.mem_cons_of_mem _ hm)) h with ⟨s3, rfl, e⟩ | ⟨rfl, e⟩
      · exact .inl ⟨s3, rfl, e⟩
      · exact .inr ⟨rfl, e⟩

theorem natStr_plain (n : Nat) : ∀ c ∈ natStr n, PlainChar c := by
  have h : ∀ d : Char, d.isDigit = false → d ∉ natStr n := fun d => natStr_free
  intro c hc
  exact ⟨fun e => h _ (by decide) (e ▸ hc), fun e => h _ (by decide) (e ▸ hc), fun e => h _ (by decide) (e ▸ hc),
    fun e => h _ (by decide) (e ▸ hc)⟩

/-- the chunk from its second part on -/
def envRest (client : Nat) : Str := envMiddle ++ natStr client ++ '"' :: envTail

theorem envRest_eq (client : Nat) : ∃ t, envRest client = ',' :: '\n' :: t := ⟨_, rfl⟩

theorem expects_rest (client : Nat) :
    luaExpects [str!",", str!"client", str!"=", ['"']] (envRest client) = some (natStr client ++ '"' :: envTail) := by
  unfold envRest envMiddle
  rw [List.append_assoc]
  rfl

/-- how the chunk is read -/
theorem result_eq (session : Str) (client : Nat) : envResult session client =
    match LuaLex.read .text (session ++ '"' :: envRest client) with
    | none => .bad
    | some (v, t) =>
      match luaExpects [str!",", str!"client", str!"=", ['"']] t with
      | none => .other
      | some t =>
        match LuaLex.read .text t with
        | none => .bad
        | some (c, t) =>
          match luaExpects [str!",", str!"}"] t with
          | none => .other
          | some t => if t.all LuaLex.isSpace then .value v c else .other := by
  unfold envResult readEnv
  have : luaExpects [str!"env", str!"=", str!"{", str!"session", str!"=", ['"']] (envChunk session client) =
      some (session ++ '"' :: envRest client) := by
    have e : envChunk session client = envHead ++ (session ++ '"' :: envRest client) := by
      simp [envChunk, envRest, List.append_assoc]
    rw [e]
    generalize session ++ '"' :: envRest client = z
    rfl
  rw [this]
  rfl

theorem result_good {session : Str} {client : Nat} {v : Bytes}
    (h : LuaLex.read .text (session ++ '"' :: envRest client) = some (v, envRest client)) :
    envResult session client = .value v (Str.encode (natStr client)) := by
  rw [result_eq, h]
  dsimp only
  rw [expects_rest]
  dsimp only
  rw [read_plain (natStr_plain client)]
  rfl

/-- C78: the chunk sets `env.session` and `env.client` exactly when the name of the session, put between double quotes, is
a literal of Lua; then they are the value of that literal and the number of the client. -/
theorem C78_reader (session : Str) (client : Nat) (v c : Bytes) :
    envResult session client = .value v c ↔ LuaBody session v ∧ c = Str.encode (natStr client) := by
  constructor
  · intro h
    obtain ⟨t, ht⟩ := envRest_eq client
    rcases read_split session t .text with h1 | ⟨v1, h1⟩ | ⟨v1, s2, _, h1⟩
    · rw [result_eq, ht, h1] at h; cases h
    · rw [← ht] at h1
      have hg := result_good h1
      rw [h] at hg
      cases hg
      obtain ⟨body, e, hb⟩ := (read_iff _ _ _).1 h1
      rw [List.append_cancel_right e]
      exact ⟨hb, rfl⟩
    · exfalso
      rw [result_eq, ht, h1] at h
      dsimp only at h
      split at h
      · cases h
      · rename_i t1 h2
        obtain ⟨p, hp, e⟩ := expects_quote h2
        split at h
        · cases h
        · rename_i c' t2 h3
          split at h
          · cases h
          · rename_i t3 h4
            split at h
            · rename_i hs
              obtain ⟨hq, w, t4, he⟩ := expects_end h4 hs
              rcases cut_quote hp e.symm with ⟨s3, _, e2⟩ | ⟨_, e2⟩
              · rw [e2] at h3
                rcases read_split s3 t .text with h5 | ⟨v5, h5⟩ | ⟨v5, s4, _, h5⟩ <;> rw [h5] at h3
                · cases h3
                · cases h3
                  rw [← ht] at hq
                  refine hq ?_
                  simp [envRest]
                · cases h3
                  exact hq (by simp)
              · rw [e2] at h3
                cases h3
            · cases h
  · rintro ⟨h, rfl⟩
    exact result_good (read_body h _)

/-- C78: the global `env.session` of the scripts is the name of the session, and `env.client` the number of the client,
exactly when that name has no double quote, no backslash and no end of line. -/
theorem C78_value (session : Str) (client : Nat) :
    envResult session client = .value (Str.encode session) (Str.encode (natStr client)) ↔ UnquotedName session := by
  rw [C78_reader]
  constructor
  · rintro ⟨h, -⟩
    have hr := read_body h []
    rcases read_bound hr with h1 | ⟨_, p, h1, h2, h3⟩
    · rw [encode_append, encode_cons '"', List.length_append, List.length_append] at h1
      have : (Str.encode ['"']).length = 1 := rfl
      simp only [owed] at h1
      omega
    · have hp := encode_inj h3
      subst hp
      refine ⟨fun hc => (h2 _ hc).1 rfl, fun hc => (h2 _ hc).2.1 rfl, fun hc => (h2 _ hc).2.2.1 rfl,
        fun hc => (h2 _ hc).2.2.2 rfl⟩
  · intro h
    obtain ⟨body, e, hb⟩ := (read_iff _ _ _).1 (read_plain (unquoted_plain h) [])
    rw [← List.append_cancel_right e] at hb
    exact ⟨hb, rfl⟩

/-- C78: for a name without a double quote, the scripts cannot be run at all exactly when the name, between double quotes,
is no literal of Lua; else they know a session, the right one exactly when the name has no backslash and no end of line
either. -/
theorem C78_quoteless {session : Str} (h : '"' ∉ session) (client : Nat) :
    (envResult session client = .bad ∧ ∀ v, ¬ LuaBody session v) ∨
    ∃ v, envResult session client = .value v (Str.encode (natStr client)) ∧ LuaBody session v ∧
      (v = Str.encode session ↔ UnquotedName session) := by
  obtain ⟨t, ht⟩ := envRest_eq client
  rcases read_split session t .text with h1 | ⟨v, h1⟩ | ⟨_, _, hm, _⟩
  · left
    rw [← ht] at h1
    refine ⟨by rw [result_eq, h1], fun v hv => ?_⟩
    rw [read_body hv] at h1
    cases h1
  · right
    rw [← ht] at h1
    have := result_good h1
    refine ⟨v, this, ((C78_reader _ _ _ _).1 this).1, ?_⟩
    rw [← C78_value session client, this]
    simp
  · exact absurd hm h

/-- C78: a name with an end of line, before which there is no quote and no backslash, makes every script fail. -/
theorem C78_lines {a b : Str} (ha : UnquotedName a) {c : Char} (hc : c = '\n' ∨ c = '\r') (client : Nat) :
    envResult (a ++ c :: b) client = .bad := by
  rw [result_eq, show (a ++ c :: b) ++ '"' :: envRest client = a ++ c :: (b ++ '"' :: envRest client) by simp,
    read_line (unquoted_plain ha) hc]

attribute [local irreducible] envResult

variable {eng : LuaEngine} {env : EditorEnv LuaState} {e e' : Editor LuaState}

theorem withEnv_plain {x : Foreign} {session : Str} (h : UnquotedName session) {client : Nat} {script : Script LuaState}
    {l : LuaState} (hl : l.session = session) (w : World) :
    Scripts.withEnv x session client script l w = script l w := by
  unfold Scripts.withEnv
  rw [(C78_value session client).2 h]
  dsimp only
  rw [luaText_encode]
  dsimp only
  rw [if_pos rfl, ← hl]

theorem named_exec {x : Foreign} {session : Str} (h : UnquotedName session) (hl : e.lua.session = session) {source : Str}
    {client : Nat} {script : Script LuaState} :
    e.execLua (namedEnv x eng session env) source client (Scripts.withEnv x session client script) =
      e.execLua env source client script := by
  unfold Editor.execLua
  rw [withEnv_plain h hl]
  rfl

theorem named_keys (std : Standard eng env) {x : Foreign} {session : Str} (h : UnquotedName session) {client : Nat}
    (ks : List KeyEvent) (hl : GoodHandlers session e.lua) :
    e.commandKeys (namedEnv x eng session env) client ks = e.commandKeys env client ks := by
  induction ks generalizing e with
  | nil => rfl
  | cons k ks ih =>
    rw [Editor.commandKeys, Editor.commandKeys]
    have h1 : e.execLua (namedEnv x eng session env) str!"keys" client ((namedEnv x eng session env).lua.key client k) =
        e.execLua env str!"keys" client (env.lua.key client k) := by
      rw [std.lua]
      exact named_exec h hl.1
    rw [h1]
    cases h2 : e.execLua env str!"keys" client (env.lua.key client k) with
    | error p => rfl
    | ok r =>
      obtain ⟨e1, err⟩ := r
      cases err with
      | some m => rfl
      | none =>
        have hg : GoodHandlers session e1.lua := by
          unfold Editor.execLua at h2
          obtain ⟨⟨l, w, o⟩, h3, h2⟩ := bind_inv h2
          rw [std.lua] at h3
          have := (good_key hl h3).1
          dsimp only at h2
          cases o with
          | none => cases h2; exact this
          | some m =>
            obtain ⟨w1, _, h2⟩ := bind_inv h2
            obtain ⟨w2, _, h2⟩ := bind_inv h2
            cases h2
        exact ih hg

theorem withParams_congr {α : Type} {env env' : EditorEnv LuaState} {r : Request} {dec : Json → Option α}
    {f g : Editor LuaState → α → R (Editor LuaState × Editor.Answer)} (hp : env.paramsError = env'.paramsError)
    (h : ∀ p, f e p = g e p) : e.withParams env r dec f = e.withParams env' r dec g := by
  unfold Editor.withParams
  rw [hp]
  split
  · exact h _
  · rfl
  · rfl

theorem named_select (std : Standard eng env) {x : Foreign} {session : Str} (h : UnquotedName session) {client : Nat}
    (p : Str × Str) (hl : e.lua.session = session) :
    e.commandMenuSelect (namedEnv x eng session env) client p = e.commandMenuSelect env client p := by
  unfold Editor.commandMenuSelect
  split
  · rfl
  · split
    · rfl
    · rename_i entry _
      cases entry.action <;> try rfl
      unfold Editor.runAction
      dsimp only
      unfold Editor.commandExec
      have : e.execLua (namedEnv x eng session env) str!"exec" client ((namedEnv x eng session env).lua.exec client p.2) =
        e.execLua env str!"exec" client (env.lua.exec client p.2) := by
        rw [std.lua]
        exact named_exec h hl
      rw [this]

theorem named_dispatch (std : Standard eng env) {x : Foreign} {session : Str} (h : UnquotedName session) {client : Nat}
    (r : Request) (hl : GoodHandlers session e.lua) :
    e.dispatch (namedEnv x eng session env) client r = e.dispatch env client r := by
  unfold Editor.dispatch
  refine ite_congr rfl (fun _ => congrArg some (withParams_congr rfl fun _ => rfl)) fun _ => ?_
  refine ite_congr rfl (fun _ => rfl) fun _ => ?_
  refine ite_congr rfl (fun _ => congrArg some (withParams_congr rfl fun _ => rfl)) fun _ => ?_
  refine ite_congr rfl (fun _ => rfl) fun _ => ?_
  refine ite_congr rfl (fun _ => congrArg some (withParams_congr rfl fun _ => rfl)) fun _ => ?_
  refine ite_congr rfl (fun _ => congrArg some (withParams_congr rfl fun _ => rfl)) fun _ => ?_
  refine ite_congr rfl (fun _ => congrArg some (withParams_congr rfl fun _ => rfl)) fun _ => ?_
  refine ite_congr rfl (fun _ => congrArg some (withParams_congr rfl fun p => named_select std h p hl.1)) fun _ => ?_
  refine ite_congr rfl (fun _ => congrArg some (withParams_congr rfl fun ks => named_keys std h ks hl)) fun _ => ?_
  refine ite_congr rfl (fun _ => congrArg some (withParams_congr rfl fun p => ?_)) fun _ => rfl
  unfold Editor.commandExec
  have : e.execLua (namedEnv x eng session env) str!"exec" client ((namedEnv x eng session env).lua.exec client p) =
    e.execLua env str!"exec" client (env.lua.exec client p) := by
    rw [std.lua]
    exact named_exec h hl.1
  rw [this]

/-- C78: in a session whose name has none of these characters, each step of ced is what it is when the scripts are simply
told the name; all that is proved of the sessions of ced holds of it. -/
theorem C78_session (r : CedRun e) (std : Standard eng env) (h : UnquotedName e.session) (x : Foreign) :
    (∀ id, e.addClient (namedEnv x eng e.session env) id = e.addClient env id) ∧
    (∀ id, e.removeClient (namedEnv x eng e.session env) id = e.removeClient env id) ∧
    ∀ client line, e.handle (namedEnv x eng e.session env) client line = e.handle env client line := by
  have hl := (ced_handlers r).good
  refine ⟨fun id => ?_, fun id => ?_, fun client line => ?_⟩
  · unfold Editor.addClient
    show (e.core.addClient env.core id e.session >>= _) = _
    cases hw : e.core.addClient env.core id e.session with
    | error p => rfl
    | ok w =>
      simp only [except_bind_ok]
      have : ({ e with core := w } : Editor LuaState).execLua (namedEnv x eng e.session env) str!"add_client" id
            ((namedEnv x eng e.session env).lua.addClient id) =
          ({ e with core := w } : Editor LuaState).execLua env str!"add_client" id (env.lua.addClient id) := by
        rw [std.lua]
        exact named_exec (e := { e with core := w }) h hl.1
      rw [this]
  · unfold Editor.removeClient
    show (e.core.removeClient env.core id >>= _) = _
    cases hw : e.core.removeClient env.core id with
    | error p => rfl
    | ok w =>
      simp only [except_bind_ok]
      have : ({ e with core := w } : Editor LuaState).execLua (namedEnv x eng e.session env) str!"remove_client" id
            ((namedEnv x eng e.session env).lua.removeClient id) =
          ({ e with core := w } : Editor LuaState).execLua env str!"remove_client" id (env.lua.removeClient id) := by
        rw [std.lua]
        exact named_exec (e := { e with core := w }) h hl.1
      rw [this]
  · unfold Editor.handle
    show (match Editor.readLine env line with | none => _ | some r => _) = _
    cases Editor.readLine env line with
    | none => rfl
    | some q =>
      dsimp only
      rw [named_dispatch std h q hl]
      rfl

theorem exec_bad {x : Foreign} {session : Str} {client : Nat} (hb : envResult session client = .bad) {source : Str}
    {script : Script LuaState} {o : Option Str}
    (h : e.execLua (namedEnv x eng session env) source client (Scripts.withEnv x session client script) = .ok (e', o)) :
    o = some x.syntaxError ∧ e'.lua = e.lua ∧
      e'.core.out.getLast? = some ⟨some [client], .echo (normalizeErrorMessage (str!"exec: " ++ x.syntaxError)) .error⟩ := by
  unfold Editor.execLua at h
  have : Scripts.withEnv x session client script e.lua e.core = .ok (e.lua, e.core, some x.syntaxError) := by
    unfold Scripts.withEnv
    rw [hb]
  rw [this] at h
  simp only [except_bind_ok] at h
  obtain ⟨w1, _, h⟩ := bind_inv h
  obtain ⟨w2, h2, h⟩ := bind_inv h
  cases h
  refine ⟨rfl, rfl, ?_⟩
  unfold World.error at h2
  obtain ⟨w3, _, h2⟩ := bind_inv h2
  cases h2
  show (w3.out ++ [_]).getLast? = _
  rw [List.getLast?_append]
  rfl

/-- C78: in a session whose name makes the scripts fail, a client that joins gets an error instead of its status line and
no key handler; no key does anything: the first one is answered with an error; and every `exec` request is answered with an
error. -/
theorem C78_broken {x : Foreign} {c : Nat} (hb : envResult e.session c = .bad) :
    (∀ e', e.addClient (namedEnv x eng e.session env) c = .ok e' → e'.lua = e.lua ∧ e'.core.out.getLast? =
      some ⟨some [c], .echo (normalizeErrorMessage (str!"exec: " ++ x.syntaxError)) .error⟩) ∧
    (∀ k ks e' a, Does (namedEnv x eng e.session env) e c (.keys (k :: ks)) = .ok (e', a) →
      e'.lua = e.lua ∧ a = some (-32603, x.syntaxError)) ∧
    ∀ source e' a, Does (namedEnv x eng e.session env) e c (.exec source) = .ok (e', a) →
      e'.lua = e.lua ∧ a = some (1, x.syntaxError) := by
  refine ⟨fun e' h => ?_, fun k ks e' a h => ?_, fun source e' a h => ?_⟩
  · obtain ⟨w, h1, e1, o, h2, rfl⟩ := add_inv h
    have := exec_bad (e := { e with core := w }) hb h2
    exact this.2
  · unfold Does at h
    obtain ⟨⟨e1, an⟩, h1, h2⟩ := map_inv h
    cases h2
    rw [Editor.commandKeys] at h1
    obtain ⟨⟨e2, o⟩, h3, h1⟩ := bind_inv h1
    obtain ⟨rfl, h4, _⟩ := exec_bad hb h3
    dsimp only at h1
    obtain ⟨w, _, h1⟩ := bind_inv h1
    cases h1
    exact ⟨h4, rfl⟩
  · unfold Does at h
    obtain ⟨⟨e1, o⟩, h1, h2⟩ := map_inv h
    cases h2
    obtain ⟨rfl, h4, _⟩ := exec_bad hb h1
    exact ⟨h4, rfl⟩

/-! ### Concrete names -/

/-- C78_value, C78_quoteless and C78_lines apply: a name that is kept, names that are read as others, and names that are
no Lua. -/
example : envResult str!"héllo 'x'" 1 = .value (Str.encode str!"héllo 'x'") (Str.encode str!"1") ∧
    envResult str!"a\\tb" 1 = .value (Str.encode str!"a\tb") (Str.encode str!"1") ∧ envResult str!"\\x41\\u{1F37A}" 1 = .value (Str.encode str!"A🍺") (Str.encode str!"1") ∧
    envResult str!"a\\z b\\65c" 1 = .value (Str.encode str!"abAc") (Str.encode str!"1") ∧ envResult str!"a\\qb" 1 = .bad ∧
    envResult str!"a\\" 1 = .bad ∧ envResult str!"a\nb" 1 = .bad ∧ envResult str!"a\\\nb" 1 = .value (Str.encode str!"a\nb") (Str.encode str!"1") ∧
    envResult str!"a\"b" 1 = .other ∧ envResult str!"\\300" 1 = .bad ∧ envResult str!"\\u{110000}" 1 = .bad := by
  decide +kernel

/-- the statuses and messages sent to client 1 when it joins a session and presses a key there -/
def joinNamed (session : Str) : Option (List Note) :=
  let env := namedEnv ⟨str!"unfinished string", fun _ s => s⟩ engA session cedEnv
  (do
    let e ← Editor.new env ⟨session, []⟩ (Scripts.prelude engA) session [] [] []
    let e ← e.addClient env 1
    let (e, _) ← e.commandKeys env 1 [press 'i']
    return (e.core.out.filter fun (b : Broadcast) => b.only = some [1] && (match b.note with | .view _ => false | .info .. => false | _ => true)).map fun (b : Broadcast) => b.note : R (List Note)).toOption

/-- C78_session and C78_broken apply. -/
example : (joinNamed str!"it's") =
      some [.status [(100, str!"[1@it's]")], .status [(80, str!"i"), (90, str!"I"), (100, str!"[1@it's]")]] ∧
    (joinNamed str!"a\nb") =
      some [.echo str!"exec: unfinished string" .error, .echo str!"exec: unfinished string" .error,
        .echo str!"key handler: unfinished string" .error] ∧
    (joinNamed str!"a\\tb") =
      some [.status [(100, str!"[1@a\tb]")], .status [(80, str!"i"), (90, str!"I"), (100, str!"[1@a\tb]")]] := by
  decide +kernel

end Ced.Props
