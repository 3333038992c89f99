import Verif.Model.Requests

/-!
# Properties of the wire: C38, C39, C48

`X.encode` is what is written, `X.decode` what is read, both as JSON values (see DESIGN.md for the contract of serde).
-/

namespace Ced.Props

/-! ## C38 -/

/-- An identifier that can be built: the number is an `i32`. -/
def GoodId : RpcId → Prop
  | .number n => -2147483648 ≤ n ∧ n ≤ 2147483647
  | _ => True

theorem id_roundtrip {i : RpcId} (h : GoodId i) : RpcId.decode i.encode = some i := by
  cases i with
  | number n => simp only [GoodId] at h; simp [RpcId.encode, RpcId.decode, Json.isI32, h]
  | string s => rfl
  | null => rfl

theorem params_same {α : Type} (dec : Json → Option α) (r : Request) :
    Params.get dec { r with params := Json.asValue r.params } = Params.get dec r := by
  obtain ⟨a, b, c, p⟩ := r
  cases p with
  | none => rfl
  | some v => cases v <;> rfl

theorem request_decode {r : Request} (h : GoodId r.id) :
    Request.decode r.encode = some { r with params := Json.asValue r.params } := by
  obtain ⟨v, i, m, p⟩ := r
  have := id_roundtrip h
  cases p <;>
    simp [Request.decode, Request.encode, optMember, Json.fields, Json.field, Json.lookupAll, Json.asStr, this]
  all_goals rfl

/-- C38, requests: what is read from the wire is a request with the same identifier and method, and asking it for its
parameters, of whatever type, gives the same answer as asking the request that was sent. -/
theorem C38_request {r : Request} (h : GoodId r.id) :
    ∃ r', Request.decode r.encode = some r' ∧ r'.jsonrpc = r.jsonrpc ∧ r'.id = r.id ∧ r'.method = r.method ∧
      (∀ (α : Type) (dec : Json → Option α), Params.get dec r' = Params.get dec r) ∧
      (r.params ≠ some .null → r' = r) := by
  refine ⟨_, request_decode h, rfl, rfl, rfl, fun α dec => params_same dec r, fun hn => ?_⟩
  obtain ⟨v, i, m, p⟩ := r
  cases p with
  | none => rfl
  | some j => cases j <;> first | rfl | exact absurd rfl hn

example : Request.decode
    (Request.new (.number 7) str!"edit" (some (.obj [(str!"name", .str str!"a"), (str!"scratch", .bool true)]))).encode =
    some (Request.new (.number 7) str!"edit"
      (some (.obj [(str!"name", .str str!"a"), (str!"scratch", .bool true)]))) := by decide

/-- C38, notifications. -/
theorem C38_notification (n : Notification) :
    ∃ n', Notification.decode n.encode = some n' ∧ n'.jsonrpc = n.jsonrpc ∧ n'.method = n.method ∧
      n'.params = (if n.params = some .null then none else n.params) := by
  obtain ⟨v, m, p⟩ := n
  cases p with
  | none =>
    exact ⟨⟨v, m, none⟩, by
      simp [Notification.decode, Notification.encode, optMember, Json.fields, Json.field, Json.lookupAll, Json.asStr,
        Json.asValue], rfl, rfl, rfl⟩
  | some j =>
    refine ⟨⟨v, m, Json.asValue (some j)⟩, by
      simp [Notification.decode, Notification.encode, optMember, Json.fields, Json.field, Json.lookupAll, Json.asStr],
      rfl, rfl, ?_⟩
    cases j <;> simp [Json.asValue]

example : Notification.decode (Notification.new str!"hint" (some (.arr [.str str!"x"]))).encode =
    some (Notification.new str!"hint" (some (.arr [.str str!"x"]))) := by decide

/-- An error that can be built: the code is an `i32`. -/
def GoodError (e : RpcError) : Prop := -2147483648 ≤ e.code ∧ e.code ≤ 2147483647

theorem error_decode {e : RpcError} (h : GoodError e) :
    RpcError.decode e.encode = some { e with data := Json.asValue e.data } := by
  obtain ⟨c, m, d⟩ := e
  simp only [GoodError] at h
  cases d <;>
    simp [RpcError.decode, RpcError.encode, Json.fields, Json.field, Json.lookupAll, Json.asStr, Json.asI32, Json.isI32, h,
      Json.asValue]

/-- C38, error responses: the reader sees the error that was sent (data `null` being no data). -/
theorem C38_error {id : RpcId} {e : RpcError} (hi : GoodId id) (he : GoodError e) :
    ∃ r, Response.decode (Response.new id (.error e)).encode = some r ∧ r.id = id ∧
      r.getResult = .ok (.error { e with data := if e.data = some .null then none else e.data }) := by
  have h1 := id_roundtrip hi
  have h2 := error_decode he
  refine ⟨⟨V2, id, none, some { e with data := Json.asValue e.data }⟩, ?_, rfl, ?_⟩
  · have : Response.asError (some e.encode) = some (some { e with data := Json.asValue e.data }) := by
      show (RpcError.decode e.encode).map some = _
      rw [h2]; rfl
    simp [Response.decode, Response.encode, Response.new, optMember, Json.fields, Json.field, Json.lookupAll, Json.asStr,
      h1, this, Json.asValue]
  · obtain ⟨c, m, d⟩ := e
    cases d with
    | none => rfl
    | some j => cases j <;> simp [Response.getResult, Json.asValue, unwrapR] <;> rfl

example : ((Response.decode (Response.invalidRequest .null str!"{").encode).map Response.getResult) =
    some (.ok (.error (.invalidRequest str!"{"))) := by decide

/-- C38, successful responses: the result is read as it was sent, unless it is `null`. -/
theorem C38_result {id : RpcId} (hi : GoodId id) {v : Json} (hv : v ≠ .null) :
    ∃ r, Response.decode (Response.new id (.ok v)).encode = some r ∧ r.id = id ∧ r.getResult = .ok (.ok v) := by
  have h1 := id_roundtrip hi
  refine ⟨⟨V2, id, some v, none⟩, ?_, rfl, rfl⟩
  have : Json.asValue (some v) = some v := by cases v <;> first | rfl | exact absurd rfl hv
  simp [Response.decode, Response.encode, Response.new, optMember, Json.fields, Json.field, Json.lookupAll, Json.asStr, h1,
    this, Response.asError]

/-- C38 is false for a result `null`, which is what the server answers to every request that succeeds: the response is
read as having neither result nor error, and asking for its result panics. -/
theorem C38_unit_result_refuted {id : RpcId} (hi : GoodId id) :
    ∃ r, Response.decode (Response.new id (.ok .null)).encode = some r ∧ r.id = id ∧ r.getResult = .error .unwrap := by
  have h1 := id_roundtrip hi
  refine ⟨⟨V2, id, none, none⟩, ?_, rfl, rfl⟩
  simp [Response.decode, Response.encode, Response.new, optMember, Json.fields, Json.field, Json.lookupAll, Json.asStr, h1,
    Json.asValue, Response.asError]

example : GoodId (.number 1) := by simp [GoodId]

/-- The server reads the parameters that the client put in a call. -/
def ReadBack : Call → Request → Prop
  | .quit, _ => True
  | .viewDelete, _ => True
  | .edit n s, r => Params.get Params.edit r = .ok (some (n, s))
  | .view v, r => Params.get Params.string r = .ok (some v)
  | .viewAdd b, r => Params.get Params.string r = .ok (some b)
  | .viewRemove b, r => Params.get Params.string r = .ok (some b)
  | .menu c s, r => Params.get Params.menu r = .ok (some (c, s))
  | .menuSelect c s, r => Params.get Params.menuSelect r = .ok (some (c, s))
  | .keys ks, r => Params.get Params.keys r = .ok (some ks)
  | .exec s, r => Params.get Params.string r = .ok (some s)

theorem key_roundtrip (k : Key) : KeyEvent.decodeKey (KeyEvent.encodeKey k) = some k := by
  cases k <;> first | rfl | decide

theorem keyEvent_roundtrip (e : KeyEvent) : KeyEvent.decode e.encode = some e := by
  obtain ⟨c, a, s, k⟩ := e
  have := key_roundtrip k
  simp [KeyEvent.decode, KeyEvent.encode, Json.fields, Json.field, Json.lookupAll, Json.asBool, this]

theorem keys_roundtrip (ks : List KeyEvent) : (ks.map KeyEvent.encode).mapM KeyEvent.decode = some ks := by
  induction ks with
  | nil => rfl
  | cons k ks ih => simp [keyEvent_roundtrip, ih]

theorem readBack_request (id : RpcId) (c : Call) : ReadBack c (c.request id) := by
  cases c with
  | keys ks =>
    simp only [ReadBack, Call.request, Request.new, Call.params, Params.get, Params.keys, keys_roundtrip]
  | _ => simp [ReadBack, Call.request, Request.new, Call.params, Params.get, Params.edit, Params.menu,
    Params.menuSelect, Params.string, Params.two, Json.fields, Json.field, Json.lookupAll, Json.asStr, Json.asBool]

/-- C38, calls: for every call of the protocol the server reads the method and the parameters the client gave. -/
theorem C38_call {id : RpcId} (hi : GoodId id) (c : Call) :
    ∃ r, Request.decode (c.request id).encode = some r ∧ r.id = id ∧ r.method = c.method ∧ ReadBack c r := by
  refine ⟨_, request_decode (r := c.request id) hi, rfl, rfl, ?_⟩
  have := readBack_request id c
  cases c <;> first | trivial | (simp only [ReadBack] at this ⊢; rw [← this]; exact params_same _ _)

example : (Request.decode (Call.request (.number 3) (.keys [⟨false, false, true, .char 'g'⟩, ⟨false, false, false, .escape⟩])).encode).map
    (Params.get Params.keys) = some (.ok (some [⟨false, false, true, .char 'g'⟩, ⟨false, false, false, .escape⟩])) := by
  decide

/-! ## C39 -/

/-- What is read of a notification: the same, parameters `null` being no parameters. -/
def SameNotification (n n' : Notification) : Prop :=
  n'.jsonrpc = n.jsonrpc ∧ n'.method = n.method ∧ n'.params = (if n.params = some .null then none else n.params)

/-- What is read of a response: the same, `null` being no result, and no data of an error. -/
def SameResponse (r r' : Response) : Prop :=
  r'.jsonrpc = r.jsonrpc ∧ r'.id = r.id ∧ r'.result = (if r.result = some .null then none else r.result) ∧
    r'.error = r.error.map fun e => { e with data := if e.data = some .null then none else e.data }

theorem asValue_eq (v : Option Json) : Json.asValue v = if v = some .null then none else v := by
  cases v with
  | none => rfl
  | some j => cases j <;> simp [Json.asValue]

theorem response_same {id : RpcId} {res : Except RpcError Json} (hi : GoodId id) (he : ∀ e, res = .error e → GoodError e) :
    ∃ r, Response.decode (Response.new id res).encode = some r ∧ SameResponse (Response.new id res) r := by
  have h1 := id_roundtrip hi
  cases res with
  | error e =>
    have h2 := error_decode (he e rfl)
    refine ⟨⟨V2, id, none, some { e with data := Json.asValue e.data }⟩, ?_, rfl, rfl, rfl, by simp [Response.new, asValue_eq]⟩
    have : Response.asError (some e.encode) = some (some { e with data := Json.asValue e.data }) := by
      show (RpcError.decode e.encode).map some = _
      rw [h2]; rfl
    simp [Response.decode, Response.encode, Response.new, optMember, Json.fields, Json.field, Json.lookupAll, Json.asStr,
      h1, this, Json.asValue]
  | ok v =>
    refine ⟨⟨V2, id, Json.asValue (some v), none⟩, ?_, rfl, rfl, asValue_eq _, rfl⟩
    simp [Response.decode, Response.encode, Response.new, optMember, Json.fields, Json.field, Json.lookupAll, Json.asStr, h1,
      Response.asError]

/-- C39: an encoded notification is read as a notification, the one that was sent; an encoded response as a response, the
one that was sent. -/
theorem C39_events :
    (∀ n : Notification, ∃ n', ClientEvent.decode (ClientEvent.notification n).encode = some (.notification n') ∧
      SameNotification n n') ∧
    (∀ (id : RpcId) (res : Except RpcError Json), GoodId id → (∀ e, res = .error e → GoodError e) →
      ∃ r, ClientEvent.decode (ClientEvent.response (Response.new id res)).encode = some (.response r) ∧
        SameResponse (Response.new id res) r) := by
  constructor
  · intro n
    obtain ⟨n', h, hv, hm, hp⟩ := C38_notification n
    exact ⟨n', by simp [ClientEvent.decode, ClientEvent.encode, h], hv, hm, hp⟩
  · intro id res hi he
    have hn : Notification.decode (Response.new id res).encode = none := by
      cases res <;> simp [Notification.decode, Response.encode, Response.new, optMember, Json.fields, Json.field,
        Json.lookupAll, Json.asStr]
    obtain ⟨r, h, hs⟩ := response_same hi he
    exact ⟨r, by simp [ClientEvent.decode, ClientEvent.encode, hn, h], hs⟩

example : ClientEvent.decode (ClientEvent.response (Response.methodNotFound (.string str!"a") str!"x")).encode =
    some (.response (Response.methodNotFound (.string str!"a") str!"x")) := by decide

/-! ## C48 -/

/-- The keys whose name can be read back: escape and the characters that are not upper-case ASCII letters. -/
def Named : Key → Prop
  | .char c => ¬(65 ≤ c.toNat ∧ c.toNat ≤ 90)
  | .escape => True
  | _ => False

/-- C48: a key event made of such a key and any modifiers is read back from its name. -/
theorem C48_roundtrip {e : KeyEvent} (h : Named e.key) : KeyEvent.ofStr e.display = .ok e := by
  obtain ⟨c, a, s, k⟩ := e
  cases k with
  | char x =>
    have : asciiLower x = x := by unfold asciiLower; exact if_neg h
    cases c <;> cases a <;> cases s <;>
      simp [KeyEvent.display, Key.display, this, KeyEvent.ofStr, KeyEvent.strip, Key.parse, unwrapR, List.isPrefixOf] <;> rfl
  | escape => cases c <;> cases a <;> cases s <;> decide
  | _ => exact absurd h (by simp [Named])

example : KeyEvent.ofStr str!"c-s-é" = .ok ⟨true, false, true, .char 'é'⟩ := by decide

/-- C48, characters typed: an upper-case letter is the shifted lower-case one, so its name can be read back. -/
theorem C48_typed (c : Char) : KeyEvent.ofStr (KeyEvent.ofChar c).display = .ok (KeyEvent.ofChar c) := by
  apply C48_roundtrip
  show ¬(65 ≤ (asciiLower c).toNat ∧ (asciiLower c).toNat ≤ 90)
  unfold asciiLower
  split
  · rename_i h
    have : (Char.ofNat (c.toNat + 32)).toNat = c.toNat + 32 := by
      have key : ∀ n < 91, 65 ≤ n → (Char.ofNat (n + 32)).toNat = n + 32 := by decide
      exact key _ (by omega) h.1
    omega
  · assumption

/-- C48, characters typed: the name of the key of an upper-case letter is `s-` and the lower-case letter; that of any other
character is the character; so different characters are different keys. -/
theorem C48_shift (c : Char) :
    (∀ n < 26, c.toNat = 65 + n → ∃ l : Char, l.toNat = 97 + n ∧ (KeyEvent.ofChar c).display = ['s', '-', l]) ∧
    (¬('A' ≤ c ∧ c ≤ 'Z') → (KeyEvent.ofChar c).display = [c]) := by
  constructor
  · intro n hn hc
    have hu : 65 ≤ c.toNat ∧ c.toNat ≤ 90 := by omega
    have key : ∀ n < 91, 65 ≤ n → (Char.ofNat (n + 32)).toNat = n + 32 := by decide
    have hl : (Char.ofNat (c.toNat + 32)).toNat = c.toNat + 32 := key _ (by omega) hu.1
    refine ⟨Char.ofNat (c.toNat + 32), by omega, ?_⟩
    have h2 : asciiLower (Char.ofNat (c.toNat + 32)) = Char.ofNat (c.toNat + 32) := by
      unfold asciiLower
      rw [hl]
      exact if_neg (by omega)
    have h1 : asciiLower c = Char.ofNat (c.toNat + 32) := if_pos hu
    have h3 : isAsciiUpper c = true := decide_eq_true hu
    simp [KeyEvent.display, KeyEvent.ofChar, Key.display, h1, h2, h3]
  · intro h
    have hu : ¬(65 ≤ c.toNat ∧ c.toNat ≤ 90) := fun hh => h
      ⟨by rw [Char.le_def, UInt32.le_iff_toNat_le]; exact hh.1, by rw [Char.le_def, UInt32.le_iff_toNat_le]; exact hh.2⟩
    have h1 : asciiLower c = c := if_neg hu
    have h3 : isAsciiUpper c = false := decide_eq_false hu
    simp [KeyEvent.display, KeyEvent.ofChar, Key.display, h1, h3]

example : (KeyEvent.ofChar 'X').display = str!"s-x" ∧ (KeyEvent.ofChar 'é').display = str!"é" := by decide

/-- The names of the keys that are not characters. -/
def keyNames : List (Key × Str) :=
  [(.backspace, str!"bkspc"), (.enter, str!"ret"), (.escape, str!"esc"), (.up, str!"up"), (.down, str!"down"),
   (.left, str!"left"), (.right, str!"right")]

/-- C48, keys pressed alone: the name of a key that is no character is the name of the key, and a character that is not an
upper-case letter is its own name; the names of one character and `esc` stand for the key pressed alone. -/
theorem C48_alone :
    (∀ k name, (k, name) ∈ keyNames → (KeyEvent.ofKey k).display = name) ∧
    (∀ c : Char, ¬('A' ≤ c ∧ c ≤ 'Z') → (KeyEvent.ofKey (.char c)).display = [c]) ∧
    (∀ c : Char, KeyEvent.ofStr [c] = .ok (KeyEvent.ofKey (.char c))) ∧
    KeyEvent.ofStr str!"esc" = .ok (KeyEvent.ofKey .escape) := by
  refine ⟨?_, fun c h => ?_, fun c => ?_, by decide⟩
  · intro k name h
    simp only [keyNames, List.mem_cons, List.not_mem_nil, or_false, Prod.mk.injEq] at h
    rcases h with ⟨rfl, rfl⟩ | ⟨rfl, rfl⟩ | ⟨rfl, rfl⟩ | ⟨rfl, rfl⟩ | ⟨rfl, rfl⟩ | ⟨rfl, rfl⟩ | ⟨rfl, rfl⟩ <;> rfl
  · have hu : ¬(65 ≤ c.toNat ∧ c.toNat ≤ 90) := fun hh => h
      ⟨by rw [Char.le_def, UInt32.le_iff_toNat_le]; exact hh.1, by rw [Char.le_def, UInt32.le_iff_toNat_le]; exact hh.2⟩
    have h1 : asciiLower c = c := if_neg hu
    simp [KeyEvent.display, KeyEvent.ofKey, Key.display, h1]
  · simp [KeyEvent.ofStr, KeyEvent.strip, Key.parse, unwrapR, List.isPrefixOf]
    rfl

/-- The text is the name of a key event: the prefixes of its modifiers, in the order control, alt, shift, and a single character
or `esc`. -/
def NameOf (s : Str) (e : KeyEvent) : Prop :=
  ∃ k, s = (if e.ctrl then str!"c-" else []) ++ (if e.alt then str!"a-" else []) ++ (if e.shift then str!"s-" else []) ++ k ∧
    ((∃ c, k = [c] ∧ e.key = .char c) ∨ (k = str!"esc" ∧ e.key = .escape))

theorem strip_cases (p : Str) (hp : p.length = 2) (s : Str) :
    (∃ t, s = p ++ t ∧ KeyEvent.strip p s = (true, t)) ∨ (¬ p <+: s ∧ KeyEvent.strip p s = (false, s)) := by
  unfold KeyEvent.strip
  by_cases h : p.isPrefixOf s = true
  · left
    obtain ⟨t, rfl⟩ := List.isPrefixOf_iff_prefix.1 h
    refine ⟨t, rfl, ?_⟩
    rw [if_pos h, ← hp, List.drop_left]
  · right
    exact ⟨fun e => h (List.isPrefixOf_iff_prefix.2 e), if_neg h⟩

/-- C48, reading a name: a text is read as a key event exactly if it is a name of it, and reading any other text crashes. -/
theorem C48_names (s : Str) :
    (∀ e, KeyEvent.ofStr s = .ok e ↔ NameOf s e) ∧
    ((¬ ∃ e, NameOf s e) → KeyEvent.ofStr s = .error .unwrap) := by
  have key : (∃ e, KeyEvent.ofStr s = .ok e ∧ NameOf s e) ∨ KeyEvent.ofStr s = .error .unwrap := by
    have fin : ∀ (c a sh : Bool) (t : Str), s = (if c then str!"c-" else []) ++ (if a then str!"a-" else []) ++
        (if sh then str!"s-" else []) ++ t → KeyEvent.ofStr s = (do
          let k ← unwrapR (Key.parse t)
          return { ctrl := c, alt := a, shift := sh, key := k }) →
        (∃ e, KeyEvent.ofStr s = .ok e ∧ NameOf s e) ∨ KeyEvent.ofStr s = .error .unwrap := by
      intro c a sh t hs he
      rw [he]
      by_cases h1 : ∃ x, t = [x]
      · obtain ⟨x, rfl⟩ := h1
        exact .inl ⟨_, rfl, [x], hs, .inl ⟨x, rfl, rfl⟩⟩
      · have hp : Key.parse t = if t = str!"esc" then some .escape else none := by
          unfold Key.parse
          split
          · exact absurd ⟨_, rfl⟩ h1
          · rfl
        rw [hp]
        by_cases h2 : t = str!"esc"
        · rw [if_pos h2]
          exact .inl ⟨_, rfl, t, hs, .inr ⟨h2, rfl⟩⟩
        · rw [if_neg h2]
          exact .inr rfl
    rcases strip_cases ['c', '-'] rfl s with ⟨t, ht, h1⟩ | ⟨_, h1⟩
    · rcases strip_cases ['a', '-'] rfl t with ⟨u, hu, h2⟩ | ⟨_, h2⟩
      · rcases strip_cases ['s', '-'] rfl u with ⟨v, hv, h3⟩ | ⟨_, h3⟩
        · exact fin true true true v (by rw [ht, hu, hv]; rfl) (by unfold KeyEvent.ofStr; simp only [h1, h2, h3])
        · exact fin true true false u (by rw [ht, hu]; rfl) (by unfold KeyEvent.ofStr; simp only [h1, h2, h3])
      · rcases strip_cases ['s', '-'] rfl t with ⟨v, hv, h3⟩ | ⟨_, h3⟩
        · exact fin true false true v (by rw [ht, hv]; rfl) (by unfold KeyEvent.ofStr; simp only [h1, h2, h3])
        · exact fin true false false t (by rw [ht]; rfl) (by unfold KeyEvent.ofStr; simp only [h1, h2, h3])
    · rcases strip_cases ['a', '-'] rfl s with ⟨u, hu, h2⟩ | ⟨_, h2⟩
      · rcases strip_cases ['s', '-'] rfl u with ⟨v, hv, h3⟩ | ⟨_, h3⟩
        · exact fin false true true v (by rw [hu, hv]; rfl) (by unfold KeyEvent.ofStr; simp only [h1, h2, h3])
        · exact fin false true false u (by rw [hu]; rfl) (by unfold KeyEvent.ofStr; simp only [h1, h2, h3])
      · rcases strip_cases ['s', '-'] rfl s with ⟨v, hv, h3⟩ | ⟨_, h3⟩
        · exact fin false false true v (by rw [hv]; rfl) (by unfold KeyEvent.ofStr; simp only [h1, h2, h3])
        · exact fin false false false s rfl (by unfold KeyEvent.ofStr; simp only [h1, h2, h3])
  have back : ∀ e, NameOf s e → KeyEvent.ofStr s = .ok e := by
    rintro ⟨c, a, sh, k⟩ ⟨n, rfl, h⟩
    rcases h with ⟨x, rfl, h⟩ | ⟨rfl, h⟩
    · dsimp only at h
      subst h
      cases c <;> cases a <;> cases sh <;>
        simp [KeyEvent.ofStr, KeyEvent.strip, Key.parse, unwrapR, List.isPrefixOf] <;> rfl
    · dsimp only at h
      subst h
      cases c <;> cases a <;> cases sh <;> decide
  refine ⟨fun e => ⟨fun h => ?_, back e⟩, fun hn => ?_⟩
  · rcases key with ⟨e', h', hn⟩ | h'
    · rw [h] at h'; cases h'; exact hn
    · rw [h] at h'; cases h'
  · rcases key with ⟨e', _, hn'⟩ | h'
    · exact absurd ⟨e', hn'⟩ hn
    · exact h'

example : NameOf str!"c-s-esc" ⟨true, false, true, .escape⟩ := ⟨str!"esc", rfl, .inr ⟨rfl, rfl⟩⟩
example : KeyEvent.ofStr str!"s-c-x" = .error .unwrap := by decide

/-- C48 fails for the other keys, whatever the modifiers: the names of the return key, of the backspace and of the arrows
are no key names, and the name of an upper-case letter is that of the lower-case one. -/
theorem C48_others_refuted (c a s : Bool) :
    (∀ k ∈ [Key.backspace, .enter, .up, .down, .left, .right], KeyEvent.ofStr (KeyEvent.display ⟨c, a, s, k⟩) = .error .unwrap) ∧
    (∀ x : Char, 'A' ≤ x → x ≤ 'Z' → ∃ y : Char, y.toNat = x.toNat + 32 ∧
      KeyEvent.ofStr (KeyEvent.display ⟨c, a, s, .char x⟩) = .ok ⟨c, a, s, .char y⟩) := by
  constructor
  · intro k hk
    simp only [List.mem_cons, List.not_mem_nil, or_false] at hk
    rcases hk with rfl | rfl | rfl | rfl | rfl | rfl <;> cases c <;> cases a <;> cases s <;> decide
  · intro x h1 h2
    have h1 : 65 ≤ x.toNat := h1
    have h2 : x.toNat ≤ 90 := h2
    have key : ∀ n < 91, 65 ≤ n → (Char.ofNat (n + 32)).toNat = n + 32 := by decide
    have hl : (Char.ofNat (x.toNat + 32)).toNat = x.toNat + 32 := key _ (by omega) h1
    refine ⟨_, hl, ?_⟩
    have e : asciiLower x = Char.ofNat (x.toNat + 32) := if_pos ⟨h1, h2⟩
    have e2 : asciiLower (Char.ofNat (x.toNat + 32)) = Char.ofNat (x.toNat + 32) := by
      unfold asciiLower; rw [hl]; exact if_neg (by omega)
    have := C48_roundtrip (e := ⟨c, a, s, .char (Char.ofNat (x.toNat + 32))⟩) (by
      show ¬(65 ≤ (Char.ofNat (x.toNat + 32)).toNat ∧ (Char.ofNat (x.toNat + 32)).toNat ≤ 90)
      omega)
    have e3 : KeyEvent.display ⟨c, a, s, .char x⟩ = KeyEvent.display ⟨c, a, s, .char (Char.ofNat (x.toNat + 32))⟩ := by
      simp [KeyEvent.display, Key.display, e, e2]
    rw [e3]
    exact this

example : KeyEvent.ofStr str!"c-ret" = .error .unwrap ∧ KeyEvent.ofStr (KeyEvent.display ⟨true, false, false, .char 'A'⟩) =
    .ok ⟨true, false, false, .char 'a'⟩ ∧ KeyEvent.ofStr str!"x" = .ok (KeyEvent.ofKey (.char 'x')) := by decide

end Ced.Props
