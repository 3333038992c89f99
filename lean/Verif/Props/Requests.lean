import Verif.Model.Server
import Verif.Proofs.Messages
import Verif.Proofs.Reading
import Verif.Props.Rpc
import Verif.Props.Core
import Mathlib.Logic.Basic

/-! # Properties of the requests: C37 -/

namespace Ced.Props
open Ced Ced.Spec

variable {L : Type}

/-! ## C37 -/

/-- A response holds a result or an error, not both. -/
def OneOutcome (r : Response) : Prop := r.result.isSome ≠ r.error.isSome

theorem respond_one (id : RpcId) (a : Editor.Answer) : OneOutcome (Editor.respond id a) := by
  cases a <;> simp [OneOutcome, Editor.respond, Response.new]

theorem respond_id (id : RpcId) (a : Editor.Answer) : (Editor.respond id a).id = id := by cases a <;> rfl

/-- C37: every line that is treated has one response, with the identifier of the request (`null` when the line is no
request), and it holds either a result or an error. -/
theorem C37_response {env : EditorEnv L} {e e' : Editor L} {client : Nat} {line : Str} {r : Response}
    (h : e.handle env client line = .ok (e', r)) :
    r.id = (match (env.parse line).bind Request.decode with | some q => q.id | none => .null) ∧ OneOutcome r ∧
      r.jsonrpc = str!"2.0" := by
  unfold Editor.handle Editor.readLine at h
  split at h
  · rename_i hr
    obtain ⟨w, _, h⟩ := bind_inv h
    cases h
    rw [hr]
    exact ⟨rfl, by simp [OneOutcome, Response.invalidRequest, Response.new], rfl⟩
  · rename_i q hr
    rw [hr]
    dsimp only at h ⊢
    split at h
    · obtain ⟨⟨e1, a⟩, _, h⟩ := bind_inv h
      cases h
      exact ⟨respond_id _ _, respond_one _ _, by cases a <;> rfl⟩
    · obtain ⟨w, _, h⟩ := bind_inv h
      cases h
      exact ⟨rfl, by simp [OneOutcome, Response.methodNotFound, Response.new], rfl⟩

/-- an answer that is one of the errors of the protocol, with a text as its data -/
def GoodAnswer (a : Editor.Answer) : Prop :=
  ∀ err, a = some err → (err.code, err.message) ∈ errorTexts ∧ ∃ s, err.data = some (.str s)

theorem good_none : GoodAnswer none := fun _ h => nomatch h
theorem good_params (s : Str) : GoodAnswer (some (.invalidParams s)) := by
  intro err h; cases h; exact ⟨by simp [errorTexts, RpcError.invalidParams, RpcError.invalidRequest, RpcError.internalError], _, rfl⟩
theorem good_request (s : Str) : GoodAnswer (some (.invalidRequest s)) := by
  intro err h; cases h; exact ⟨by simp [errorTexts, RpcError.invalidParams, RpcError.invalidRequest, RpcError.internalError], _, rfl⟩
theorem good_internal (s : Str) : GoodAnswer (some (.internalError s)) := by
  intro err h; cases h; exact ⟨by simp [errorTexts, RpcError.invalidParams, RpcError.invalidRequest, RpcError.internalError], _, rfl⟩
theorem good_core (o : Option CoreError) : GoodAnswer (Editor.ofCoreError o) := by
  cases o with
  | none => exact good_none
  | some x => exact good_request _

theorem good_exec {env : EditorEnv L} {e e' : Editor L} {client : Nat} {s : Str} {a : Editor.Answer}
    (h : e.commandExec env client s = .ok (e', a)) : GoodAnswer a := by
  unfold Editor.commandExec at h
  obtain ⟨⟨e1, err⟩, _, h⟩ := bind_inv h
  cases h
  cases err with
  | none => exact good_none
  | some m => intro err h; cases h; exact ⟨by simp [errorTexts, RpcError.invalidParams, RpcError.invalidRequest, RpcError.internalError], _, rfl⟩

theorem good_action {env : EditorEnv L} {e e' : Editor L} {client : Nat} {key : Str} {act : MenuAction} {a : Editor.Answer}
    (h : e.runAction env client key act = .ok (e', a)) : GoodAnswer a := by
  cases act <;> simp only [Editor.runAction] at h
  · unfold Editor.submenuAction at h
    obtain ⟨m, _, h⟩ := bind_inv h
    obtain ⟨m, _, h⟩ := bind_inv h
    cases h; exact good_none
  · obtain ⟨m, _, h⟩ := bind_inv h; cases h; exact good_none
  · obtain ⟨m, _, h⟩ := bind_inv h; cases h; exact good_none
  · obtain ⟨m, _, h⟩ := bind_inv h; cases h; exact good_none
  · obtain ⟨m, _, h⟩ := bind_inv h; cases h; exact good_none
  · obtain ⟨m, _, h⟩ := bind_inv h; cases h; exact good_core _
  · obtain ⟨m, _, h⟩ := bind_inv h; cases h; exact good_core _
  · obtain ⟨m, _, h⟩ := bind_inv h; cases h; exact good_core _
  · exact good_exec h

theorem good_keys {env : EditorEnv L} {e e' : Editor L} {client : Nat} {ks : List KeyEvent} {a : Editor.Answer}
    (h : e.commandKeys env client ks = .ok (e', a)) : GoodAnswer a := by
  induction ks generalizing e with
  | nil => cases h; exact good_none
  | cons k ks ih =>
    rw [Editor.commandKeys] at h
    obtain ⟨⟨e1, err⟩, _, h⟩ := bind_inv h
    cases err with
    | none => exact ih h
    | some m =>
      obtain ⟨w, _, h⟩ := bind_inv h
      cases h
      exact good_internal m

theorem good_with {α : Type} {env : EditorEnv L} {e e' : Editor L} {q : Request} {dec : Json → Option α}
    {call : Editor L → α → R (Editor L × Editor.Answer)} {a : Editor.Answer}
    (hc : ∀ p, call e p = .ok (e', a) → GoodAnswer a) (h : e.withParams env q dec call = .ok (e', a)) : GoodAnswer a := by
  unfold Editor.withParams at h
  split at h
  · exact hc _ h
  · cases h; exact good_request _
  · cases h; exact good_params _

theorem good_dispatch {env : EditorEnv L} {e e' : Editor L} {client : Nat} {q : Request}
    {run : R (Editor L × Editor.Answer)} {a : Editor.Answer} (h : e.dispatch env client q = some run)
    (hr : run = .ok (e', a)) : GoodAnswer a := by
  subst hr
  unfold Editor.dispatch at h
  by_cases hm : q.method = str!"edit"
  · rw [if_pos hm] at h
    injection h with h
    refine good_with (fun p hp => ?_) h
    obtain ⟨w, _, hp⟩ := bind_inv hp
    cases hp
    exact good_none
  rw [if_neg hm] at h
  clear hm
  by_cases hm : q.method = str!"quit"
  · rw [if_pos hm] at h
    injection h with h
    obtain ⟨w, _, h⟩ := bind_inv h
    cases h
    exact good_none
  rw [if_neg hm] at h
  clear hm
  by_cases hm : q.method = str!"view"
  · rw [if_pos hm] at h
    injection h with h
    refine good_with (fun p hp => ?_) h
    obtain ⟨w, _, hp⟩ := bind_inv hp
    cases hp
    exact good_core _
  rw [if_neg hm] at h
  clear hm
  by_cases hm : q.method = str!"view-delete"
  · rw [if_pos hm] at h
    injection h with h
    obtain ⟨w, _, h⟩ := bind_inv h
    cases h
    exact good_none
  rw [if_neg hm] at h
  clear hm
  by_cases hm : q.method = str!"view-add"
  · rw [if_pos hm] at h
    injection h with h
    refine good_with (fun p hp => ?_) h
    obtain ⟨w, _, hp⟩ := bind_inv hp
    cases hp
    exact good_core _
  rw [if_neg hm] at h
  clear hm
  by_cases hm : q.method = str!"view-remove"
  · rw [if_pos hm] at h
    injection h with h
    refine good_with (fun p hp => ?_) h
    obtain ⟨w, _, hp⟩ := bind_inv hp
    cases hp
    exact good_core _
  rw [if_neg hm] at h
  clear hm
  by_cases hm : q.method = str!"menu"
  · rw [if_pos hm] at h
    injection h with h
    refine good_with (fun p hp => ?_) h
    unfold Editor.commandMenu at hp
    split at hp
    · cases hp; exact good_params _
    · obtain ⟨w, _, hp⟩ := bind_inv hp; cases hp; exact good_none
  rw [if_neg hm] at h
  clear hm
  by_cases hm : q.method = str!"menu-select"
  · rw [if_pos hm] at h
    injection h with h
    refine good_with (fun p hp => ?_) h
    unfold Editor.commandMenuSelect at hp
    split at hp
    · cases hp; exact good_params _
    · split at hp
      · cases hp; exact good_params _
      · exact good_action hp
  rw [if_neg hm] at h
  clear hm
  by_cases hm : q.method = str!"keys"
  · rw [if_pos hm] at h
    injection h with h
    refine good_with (fun p hp => ?_) h
    exact good_keys hp
  rw [if_neg hm] at h
  clear hm
  by_cases hm : q.method = str!"exec"
  · rw [if_pos hm] at h
    injection h with h
    refine good_with (fun p hp => ?_) h
    exact good_exec hp
  rw [if_neg hm] at h
  clear hm
  cases h

/-- C37: an error in a response is one of those of the protocol: its code and message are those of JSON-RPC, or those of
a script that failed; its data is a text. -/
theorem C37_errors {env : EditorEnv L} {e e' : Editor L} {client : Nat} {line : Str} {r : Response}
    (h : e.handle env client line = .ok (e', r)) :
    ∀ err, r.error = some err → (err.code, err.message) ∈ errorTexts ∧ ∃ s, err.data = some (.str s) := by
  unfold Editor.handle at h
  split at h
  · obtain ⟨w, _, h⟩ := bind_inv h
    cases h
    exact good_request line
  · rename_i q hr
    dsimp only at h
    split at h
    · rename_i run hd
      obtain ⟨⟨e1, a⟩, h1, h⟩ := bind_inv h
      cases h
      have := good_dispatch hd h1
      intro err he
      cases a with
      | none => cases he
      | some y => exact this err (by cases he; rfl)
    · obtain ⟨w, _, h⟩ := bind_inv h
      cases h
      intro err he
      cases he
      exact ⟨by show (_, _) ∈ errorTexts; simp [RpcError.methodNotFound, errorTexts], _, rfl⟩

/-- The request changes nothing but the log of errors, and the client is told. -/
def OnlyTold (env : EditorEnv L) (e e' : Editor L) (client : Nat) : Prop :=
  e'.menus = e.menus ∧ e'.stopped = e.stopped ∧ e'.session = e.session ∧
    ∃ text, e.core.error env.core (some client) str!"protocol" text = .ok e'.core

/-- C37: a line that is no request is refused with code −32600 and identifier `null`. -/
theorem C37_unreadable {env : EditorEnv L} {e e' : Editor L} {client : Nat} {line : Str} {r : Response}
    (h : e.handle env client line = .ok (e', r)) (hl : (env.parse line).bind Request.decode = none) :
    r.id = .null ∧ r.error = some ⟨-32600, str!"The JSON sent is not a valid Request object.", some (.str line)⟩ ∧
      OnlyTold env e e' client := by
  unfold Editor.handle Editor.readLine at h
  rw [hl] at h
  obtain ⟨w, hw, h⟩ := bind_inv h
  cases h
  exact ⟨rfl, rfl, rfl, rfl, rfl, _, hw⟩

theorem dispatch_unknown {env : EditorEnv L} {e : Editor L} {client : Nat} {q : Request} (hm : q.method ∉ methods) :
    e.dispatch env client q = none := by
  simp only [methods, List.mem_cons, List.not_mem_nil, or_false, not_or] at hm
  obtain ⟨h1, h2, h3, h4, h5, h6, h7, h8, h9, h10⟩ := hm
  unfold Editor.dispatch
  rw [if_neg h1, if_neg h2, if_neg h3, if_neg h4, if_neg h5, if_neg h6, if_neg h7, if_neg h8, if_neg h9, if_neg h10]

/-- C37: a request for a method that does not exist is refused with code −32601. -/
theorem C37_unknown {env : EditorEnv L} {e e' : Editor L} {client : Nat} {line : Str} {r : Response} {q : Request}
    (h : e.handle env client line = .ok (e', r)) (hl : (env.parse line).bind Request.decode = some q)
    (hm : q.method ∉ methods) :
    r.id = q.id ∧ r.error = some ⟨-32601, str!"The method does not exist / is not available.", some (.str q.method)⟩ ∧
      OnlyTold env e e' client := by
  unfold Editor.handle Editor.readLine at h
  rw [hl] at h
  dsimp only at h
  rw [dispatch_unknown hm] at h
  obtain ⟨w, hw, h⟩ := bind_inv h
  cases h
  exact ⟨rfl, rfl, rfl, rfl, rfl, _, hw⟩

/-- How the parameters of a method are read. -/
theorem dispatch_params (env : EditorEnv L) (e : Editor L) (client : Nat) {q : Request} (hm : q.method ∈ methods)
    (hb : q.method ∉ bareMethods) :
    ∃ (α : Type) (dec : Json → Option α) (call : Editor L → α → R (Editor L × Editor.Answer)),
      e.dispatch env client q = some (e.withParams env q dec call) ∧ ∀ j, dec j = none ↔ ¬ WellTyped q.method j := by
  have str : ∀ j, Params.string j = none ↔ ¬ IsStr j := by intro j; cases j <;> simp [Params.string, IsStr]
  have fld : ∀ (l : List (Str × Json)) (k : Str), Json.lookupAll k l = (l.filter fun m => m.1 = k).map Prod.snd := by
    intro l k
    induction l with
    | nil => rfl
    | cons x l ih =>
      obtain ⟨a, b⟩ := x
      by_cases hk : a = k <;> simp [Json.lookupAll, hk, ih]
  have one : ∀ (l : List (Str × Json)) (k : Str) (v : Json),
      Json.lookupAll k l = [v] ↔ (l.filter fun m => m.1 = k) = [(k, v)] := by
    intro l k v
    rw [fld]
    constructor
    · intro h
      obtain ⟨⟨a, b⟩, h1, h2⟩ := List.map_eq_singleton_iff.1 h
      have : (a, b) ∈ l.filter fun m => m.1 = k := by rw [h1]; exact List.mem_singleton.2 rfl
      have : a = k := by simpa using (List.mem_filter.1 this).2
      subst this; simp only at h2; subst h2; exact h1
    · intro h; rw [h]; rfl
  have field : ∀ (l : List (Str × Json)) (k : Str) (o : Option Json), Json.field l k = some o → ∀ v, o = some v →
      (l.filter fun m => m.1 = k) = [(k, v)] := by
    intro l k o h v hv
    subst hv
    unfold Json.field at h
    split at h <;> simp_all
  have field' : ∀ (l : List (Str × Json)) (k : Str) (v : Json), (l.filter fun m => m.1 = k) = [(k, v)] →
      Json.field l k = some (some v) := by
    intro l k v h
    unfold Json.field
    rw [(one l k v).2 h]
  have two : ∀ {α β : Type} (a b : Str) (p : Option Json → Option α) (q : Option Json → Option β) (P Q : Json → Prop),
      (∀ o, (p o).isSome = true ↔ ∃ v, o = some v ∧ P v) → (∀ o, (q o).isSome = true ↔ ∃ v, o = some v ∧ Q v) →
      ∀ j, (do let (x, y) ← Params.two a b j; let x ← p x; let y ← q y; return (x, y) : Option (α × β)) = none ↔
        ¬ HasFields [(a, P), (b, Q)] j := by
    intro α β a b p q P Q hp hq j
    rw [← not_iff_not, not_not, ← ne_eq, Option.ne_none_iff_isSome]
    have key : (do let (x, y) ← Params.two a b j; let x ← p x; let y ← q y; return (x, y) : Option (α × β)).isSome = true ↔
        ∃ x y, Params.two a b j = some (x, y) ∧ (p x).isSome = true ∧ (q y).isSome = true := by
      cases ht : Params.two a b j with
      | none => simp
      | some xy =>
        obtain ⟨x, y⟩ := xy
        have : (∃ x' y', some (x, y) = some (x', y') ∧ (p x').isSome = true ∧ (q y').isSome = true) ↔
            (p x).isSome = true ∧ (q y).isSome = true :=
          ⟨fun ⟨x', y', h, h1, h2⟩ => by cases h; exact ⟨h1, h2⟩, fun ⟨h1, h2⟩ => ⟨x, y, rfl, h1, h2⟩⟩
        rw [this]
        simp only [Option.bind_eq_bind, Option.bind_some]
        cases p x <;> cases q y <;> simp [pure]
    rw [key]
    cases j with
    | obj l =>
      constructor
      · rintro ⟨x, y, h, hx, hy⟩
        obtain ⟨v, rfl, hv⟩ := (hp _).1 hx
        obtain ⟨u, rfl, hu⟩ := (hq _).1 hy
        unfold Params.two Json.fields at h
        simp only [List.mapM_cons, List.mapM_nil] at h
        cases ha : Json.field l a with
        | none => simp [ha] at h
        | some oa =>
          cases hb : Json.field l b with
          | none => simp [ha, hb] at h
          | some ob =>
            simp [ha, hb] at h
            obtain ⟨rfl, rfl⟩ := h
            intro f hf
            simp only [List.mem_cons, List.not_mem_nil, or_false] at hf
            rcases hf with rfl | rfl
            · exact ⟨v, field _ _ _ ha _ rfl, hv⟩
            · exact ⟨u, field _ _ _ hb _ rfl, hu⟩
      · intro h
        obtain ⟨v, h1, hv⟩ := h (a, P) (by simp)
        obtain ⟨u, h2, hu⟩ := h (b, Q) (by simp)
        refine ⟨some v, some u, ?_, (hp _).2 ⟨v, rfl, hv⟩, (hq _).2 ⟨u, rfl, hu⟩⟩
        simp [Params.two, Json.fields, field' _ _ _ h1, field' _ _ _ h2]
    | arr l =>
      constructor
      · rintro ⟨x, y, h, hx, hy⟩
        obtain ⟨v, rfl, hv⟩ := (hp _).1 hx
        obtain ⟨u, rfl, hu⟩ := (hq _).1 hy
        match l, h with
        | [m, n], h =>
          simp [Params.two, Json.fields] at h
          obtain ⟨rfl, rfl⟩ := h
          exact ⟨rfl, by simp [hv, hu]⟩
      · rintro ⟨h1, h2⟩
        match l, h1, h2 with
        | [m, n], _, h2 =>
          refine ⟨some m, some n, by simp [Params.two, Json.fields], (hp _).2 ⟨m, rfl, ?_⟩, (hq _).2 ⟨n, rfl, ?_⟩⟩
          · exact h2 ((a, P), m) (by simp)
          · exact h2 ((b, Q), n) (by simp)
    | _ => simp [Params.two, Json.fields, HasFields]
  have isS : ∀ o, (Json.asStr o).isSome = true ↔ ∃ v, o = some v ∧ IsStr v := by
    intro o
    cases o with
    | none => simp [Json.asStr]
    | some v => cases v <;> simp [Json.asStr, IsStr]
  have isB : ∀ o, (Json.asBool o).isSome = true ↔ ∃ v, o = some v ∧ IsBool v := by
    intro o
    cases o with
    | none => simp [Json.asBool]
    | some v => cases v <;> simp [Json.asBool, IsBool]
  have ks : ∀ l : List Json, (l.mapM KeyEvent.decode).isSome = true ↔ ∀ k ∈ l, (KeyEvent.decode k).isSome = true := by
    intro l
    induction l with
    | nil => simp
    | cons a l ih =>
      cases ha : KeyEvent.decode a with
      | none => simp [ha]
      | some x => cases hl : l.mapM KeyEvent.decode <;> simp [ha, hl] at ih ⊢ <;> exact ih
  obtain ⟨v, i, m, p⟩ := q
  dsimp only at hm hb
  simp only [bareMethods, List.mem_cons, List.not_mem_nil, or_false, not_or] at hb
  simp only [methods, List.mem_cons, List.not_mem_nil, or_false] at hm
  rcases hm with rfl | rfl | rfl | rfl | rfl | rfl | rfl | rfl | rfl | rfl
  · refine ⟨_, _, _, rfl, fun j => ?_⟩
    refine (two str!"name" str!"scratch" Json.asStr Json.asBool _ _ isS isB j).trans (not_congr ?_)
    simp [WellTyped]
  · exact absurd rfl hb.1
  · refine ⟨_, _, _, rfl, fun j => ?_⟩
    refine (str j).trans (not_congr ?_)
    simp [WellTyped]
  · exact absurd rfl hb.2
  · refine ⟨_, _, _, rfl, fun j => ?_⟩
    refine (str j).trans (not_congr ?_)
    simp [WellTyped]
  · refine ⟨_, _, _, rfl, fun j => ?_⟩
    refine (str j).trans (not_congr ?_)
    simp [WellTyped]
  · refine ⟨_, _, _, rfl, fun j => ?_⟩
    refine (two str!"command" str!"search" Json.asStr Json.asStr _ _ isS isS j).trans (not_congr ?_)
    simp [WellTyped]
  · refine ⟨_, _, _, rfl, fun j => ?_⟩
    refine (two str!"command" str!"choice" Json.asStr Json.asStr _ _ isS isS j).trans (not_congr ?_)
    simp [WellTyped]
  · refine ⟨_, _, _, rfl, fun j => ?_⟩
    have h1 : Params.keys j = none ↔ ¬ ∃ l, j = .arr l ∧ ∀ k ∈ l, (KeyEvent.decode k).isSome = true := by
      rw [← not_iff_not, not_not, ← ne_eq, Option.ne_none_iff_isSome]
      cases j <;> simp [Params.keys]
      exact ks _
    refine h1.trans (not_congr ?_)
    simp only [Option.isSome_iff_exists, keyEventOf_iff]
    simp [WellTyped]
  · refine ⟨_, _, _, rfl, fun j => ?_⟩
    refine (str j).trans (not_congr ?_)
    simp [WellTyped]

/-- C37: a request without its parameters is refused with code −32600 and changes nothing. -/
theorem C37_missing {env : EditorEnv L} {e : Editor L} {client : Nat} {line : Str} {q : Request}
    (hl : (env.parse line).bind Request.decode = some q) (hm : q.method ∈ methods) (hb : q.method ∉ bareMethods)
    (hp : q.params = none ∨ q.params = some .null) :
    ∃ r, e.handle env client line = .ok (e, r) ∧ r.id = q.id ∧ (r.error.map RpcError.code) = some (-32600) := by
  obtain ⟨α, dec, call, hd, _⟩ := dispatch_params env e client hm hb
  unfold Editor.handle Editor.readLine
  rw [hl]
  dsimp only
  rw [hd]
  have : Params.get dec q = .ok none := by unfold Params.get; rcases hp with h | h <;> rw [h]
  unfold Editor.withParams
  rw [this]
  exact ⟨_, rfl, rfl, rfl⟩

/-- C37: a request whose parameters have the wrong type is refused with code −32602 and changes nothing. -/
theorem C37_ill_typed {env : EditorEnv L} {e : Editor L} {client : Nat} {line : Str} {q : Request} {j : Json}
    (hl : (env.parse line).bind Request.decode = some q) (hm : q.method ∈ methods) (hb : q.method ∉ bareMethods)
    (hp : q.params = some j) (hn : j ≠ .null) (ht : ¬ WellTyped q.method j) :
    ∃ r, e.handle env client line = .ok (e, r) ∧ r.id = q.id ∧ (r.error.map RpcError.code) = some (-32602) := by
  obtain ⟨α, dec, call, hd, ht'⟩ := dispatch_params env e client hm hb
  unfold Editor.handle Editor.readLine
  rw [hl]
  dsimp only
  rw [hd]
  have : Params.get dec q = .error () := by
    unfold Params.get
    rw [hp]
    cases j with
    | null => exact absurd rfl hn
    | _ => simp only [(ht' _).2 ht]
  unfold Editor.withParams
  rw [this]
  exact ⟨_, rfl, rfl, rfl⟩

/-- What a call does: the new state and, for an error, its code and data. -/
def Does (env : EditorEnv L) (e : Editor L) (client : Nat) : Call → R (Editor L × Option (Int × Str))
  | .edit name scratch => (e.core.edit env.core client name scratch).map fun w => ({ e with core := w }, none)
  | .quit => (e.core.removeClient env.core client).map fun w =>
      ({ e with core := w, stopped := if client ∈ e.stopped then e.stopped else e.stopped ++ [client] }, none)
  | .view id => (e.core.view env.core client id).map fun x =>
      ({ e with core := x.1 }, x.2.map fun err => (-32600, err.display))
  | .viewDelete => (e.core.deleteCurrentView env.core client).map fun w => ({ e with core := w }, none)
  | .viewAdd b => (e.core.addToCurrentView env.core client b).map fun x =>
      ({ e with core := x.1 }, x.2.map fun err => (-32600, err.display))
  | .viewRemove b => (e.core.removeFromCurrentView env.core client b).map fun x =>
      ({ e with core := x.1 }, x.2.map fun err => (-32600, err.display))
  | .exec source => (e.execLua env str!"exec" client (env.lua.exec client source)).map fun x =>
      (x.1, x.2.map fun m => (1, m))
  | .menu command search => (e.commandMenu env client (command, search)).map fun x =>
      (x.1, x.2.map fun err => (err.code, match err.data with | some (.str s) => s | _ => []))
  | .menuSelect command choice => (e.commandMenuSelect env client (command, choice)).map fun x =>
      (x.1, x.2.map fun err => (err.code, match err.data with | some (.str s) => s | _ => []))
  | .keys ks => (e.commandKeys env client ks).map fun x =>
      (x.1, x.2.map fun err => (err.code, match err.data with | some (.str s) => s | _ => []))

/-- the answer of a command as a code and data -/
def outcome (a : Editor.Answer) : Option (Int × Str) :=
  a.map fun err => (err.code, match err.data with | some (.str s) => s | _ => [])

/-- The errors of the commands carry a text. -/
def TextError (a : Editor.Answer) : Prop := ∀ err, a = some err → ∃ s, err.data = some (.str s)

theorem text_core (o : Option CoreError) : TextError (Editor.ofCoreError o) := by
  intro err h
  cases o with
  | none => cases h
  | some x => simp only [Editor.ofCoreError, Option.some.injEq] at h; subst h; exact ⟨_, rfl⟩

theorem text_none : TextError none := by intro err h; cases h

theorem text_run {env : EditorEnv L} {e e' : Editor L} {client : Nat} {key : Str} {act : MenuAction} {a : Editor.Answer}
    (h : e.runAction env client key act = .ok (e', a)) : TextError a := by
  cases act <;> simp only [Editor.runAction] at h
  · unfold Editor.submenuAction at h
    obtain ⟨m, _, h⟩ := bind_inv h
    obtain ⟨m, _, h⟩ := bind_inv h
    cases h; exact text_none
  · obtain ⟨m, _, h⟩ := bind_inv h; cases h; exact text_none
  · obtain ⟨m, _, h⟩ := bind_inv h; cases h; exact text_none
  · obtain ⟨m, _, h⟩ := bind_inv h; cases h; exact text_none
  · obtain ⟨m, _, h⟩ := bind_inv h; cases h; exact text_none
  · obtain ⟨m, _, h⟩ := bind_inv h; cases h; exact text_core _
  · obtain ⟨m, _, h⟩ := bind_inv h; cases h; exact text_core _
  · obtain ⟨m, _, h⟩ := bind_inv h; cases h; exact text_core _
  · obtain ⟨⟨e1, err⟩, _, h⟩ := bind_inv h
    cases h
    cases err with
    | none => exact text_none
    | some m => intro x hx; simp only [Option.map_some, Option.some.injEq] at hx; subst hx; exact ⟨_, rfl⟩

theorem text_menu {env : EditorEnv L} {e e' : Editor L} {client : Nat} {p : Str × Str} {a : Editor.Answer}
    (h : e.commandMenu env client p = .ok (e', a)) : TextError a := by
  unfold Editor.commandMenu at h
  split at h
  · cases h; intro x hx; cases hx; exact ⟨_, rfl⟩
  · obtain ⟨m, _, h⟩ := bind_inv h; cases h; exact text_none

theorem text_select {env : EditorEnv L} {e e' : Editor L} {client : Nat} {p : Str × Str} {a : Editor.Answer}
    (h : e.commandMenuSelect env client p = .ok (e', a)) : TextError a := by
  unfold Editor.commandMenuSelect at h
  split at h
  · cases h; intro x hx; cases hx; exact ⟨_, rfl⟩
  · split at h
    · cases h; intro x hx; cases hx; exact ⟨_, rfl⟩
    · exact text_run h

theorem text_keys {env : EditorEnv L} {client : Nat} {ks : List KeyEvent} {e e' : Editor L} {a : Editor.Answer}
    (h : e.commandKeys env client ks = .ok (e', a)) : TextError a := by
  induction ks generalizing e with
  | nil => cases h; exact text_none
  | cons k ks ih =>
    rw [Editor.commandKeys] at h
    obtain ⟨⟨e1, err⟩, _, h⟩ := bind_inv h
    cases err with
    | none => exact ih h
    | some m =>
      obtain ⟨w, _, h⟩ := bind_inv h
      cases h; intro x hx; cases hx; exact ⟨_, rfl⟩

/-- a command as the specification sees it -/
theorem does_eq (env : EditorEnv L) (e : Editor L) (client : Nat) (id : RpcId) (c : Call) {q : Request}
    (hq : q.method = c.method) (hr : ReadBack c q) :
    ∃ run, e.dispatch env client q = some run ∧ Does env e client c = run.map (fun x => (x.1, outcome x.2)) ∧
      ∀ e' a, run = .ok (e', a) → TextError a := by
  obtain ⟨v, i, m, p⟩ := q
  dsimp only at hq
  subst hq
  have emap : ∀ {α β γ : Type} (x : R α) (f : α → β) (g : β → γ),
      (x >>= fun a => pure (f a) : R β).map g = x.map fun a => g (f a) := by
    intro α β γ x f g; cases x <;> rfl
  cases c with
  | edit n s =>
    refine ⟨_, rfl, ?_, ?_⟩
    · simp only [Editor.withParams, ReadBack] at hr ⊢; rw [hr]
      simp only [Does, Editor.commandEdit]
      generalize World.edit _ _ _ _ _ = x
      cases x <;> rfl
    · intro e' a h
      simp only [Editor.withParams, ReadBack] at hr h
      rw [hr] at h
      obtain ⟨m, _, h⟩ := bind_inv h; cases h; exact text_none
  | quit =>
    refine ⟨_, rfl, ?_, ?_⟩
    · simp only [Does, Editor.commandQuit]
      generalize World.removeClient _ _ _ = x
      cases x <;> rfl
    · intro e' a h
      obtain ⟨m, _, h⟩ := bind_inv h; cases h; exact text_none
  | view id =>
    refine ⟨_, rfl, ?_, ?_⟩
    · simp only [Editor.withParams, ReadBack] at hr ⊢; rw [hr]
      refine Eq.trans ?_ (emap _ _ _).symm
      simp only [Does]
      congr 1; funext x; obtain ⟨x1, x2⟩ := x; cases x2 <;> rfl
    · intro e' a h
      simp only [Editor.withParams, ReadBack] at hr h
      rw [hr] at h
      obtain ⟨m, _, h⟩ := bind_inv h; cases h; exact text_core _
  | viewDelete =>
    refine ⟨_, rfl, ?_, ?_⟩
    · simp only [Does, Editor.commandViewDelete]
      generalize World.deleteCurrentView _ _ _ = x
      cases x <;> rfl
    · intro e' a h
      obtain ⟨m, _, h⟩ := bind_inv h; cases h; exact text_none
  | viewAdd id =>
    refine ⟨_, rfl, ?_, ?_⟩
    · simp only [Editor.withParams, ReadBack] at hr ⊢; rw [hr]
      refine Eq.trans ?_ (emap _ _ _).symm
      simp only [Does]
      congr 1; funext x; obtain ⟨x1, x2⟩ := x; cases x2 <;> rfl
    · intro e' a h
      simp only [Editor.withParams, ReadBack] at hr h
      rw [hr] at h
      obtain ⟨m, _, h⟩ := bind_inv h; cases h; exact text_core _
  | viewRemove id =>
    refine ⟨_, rfl, ?_, ?_⟩
    · simp only [Editor.withParams, ReadBack] at hr ⊢; rw [hr]
      refine Eq.trans ?_ (emap _ _ _).symm
      simp only [Does]
      congr 1; funext x; obtain ⟨x1, x2⟩ := x; cases x2 <;> rfl
    · intro e' a h
      simp only [Editor.withParams, ReadBack] at hr h
      rw [hr] at h
      obtain ⟨m, _, h⟩ := bind_inv h; cases h; exact text_core _
  | menu x y =>
    refine ⟨_, rfl, ?_, ?_⟩
    · simp only [Editor.withParams, ReadBack] at hr ⊢; rw [hr]; rfl
    · intro e' a h
      simp only [Editor.withParams, ReadBack] at hr h
      rw [hr] at h
      exact text_menu h
  | menuSelect x y =>
    refine ⟨_, rfl, ?_, ?_⟩
    · simp only [Editor.withParams, ReadBack] at hr ⊢; rw [hr]; rfl
    · intro e' a h
      simp only [Editor.withParams, ReadBack] at hr h
      rw [hr] at h
      exact text_select h
  | keys ks =>
    refine ⟨_, rfl, ?_, ?_⟩
    · simp only [Editor.withParams, ReadBack] at hr ⊢; rw [hr]; rfl
    · intro e' a h
      simp only [Editor.withParams, ReadBack] at hr h
      rw [hr] at h
      exact text_keys h
  | exec s =>
    refine ⟨_, rfl, ?_, ?_⟩
    · simp only [Editor.withParams, ReadBack] at hr ⊢; rw [hr]
      refine Eq.trans ?_ (emap _ _ _).symm
      simp only [Does]
      congr 1; funext x; obtain ⟨x1, x2⟩ := x; cases x2 <;> rfl
    · intro e' a h
      simp only [Editor.withParams, ReadBack] at hr h
      rw [hr] at h
      obtain ⟨⟨e1, err⟩, _, h⟩ := bind_inv h
      cases h
      cases err with
      | none => exact text_none
      | some m => intro x hx; simp only [Option.map_some, Option.some.injEq] at hx; subst hx; exact ⟨_, rfl⟩

/-- a request that asks for a call is read as this call -/
theorem asks_readBack {q : Request} {c : Call} (h : AsksFor q c) : ReadBack c q := by
  obtain ⟨hm, h⟩ := h
  have hb : ∀ m, m = q.method → m ∉ bareMethods → ∃ j, q.params = some j ∧ ParamsOf j c := by
    rintro m rfl hn
    exact h.resolve_left hn
  cases c with
  | quit => trivial
  | viewDelete => trivial
  | edit n s => exact (get_iff _ _ _ rfl).2 ((hb _ hm.symm (by simp [Call.method, bareMethods])).imp fun j h => ⟨h.1, (edit_iff ..).2 h.2⟩)
  | view v => exact (get_iff _ _ _ rfl).2 ((hb _ hm.symm (by simp [Call.method, bareMethods])).imp fun j h => ⟨h.1, (string_iff ..).2 h.2⟩)
  | viewAdd v => exact (get_iff _ _ _ rfl).2 ((hb _ hm.symm (by simp [Call.method, bareMethods])).imp fun j h => ⟨h.1, (string_iff ..).2 h.2⟩)
  | viewRemove v => exact (get_iff _ _ _ rfl).2 ((hb _ hm.symm (by simp [Call.method, bareMethods])).imp fun j h => ⟨h.1, (string_iff ..).2 h.2⟩)
  | menu a b => exact (get_iff _ _ _ rfl).2 ((hb _ hm.symm (by simp [Call.method, bareMethods])).imp fun j h => ⟨h.1, (menu_iff ..).2 h.2⟩)
  | menuSelect a b => exact (get_iff _ _ _ rfl).2 ((hb _ hm.symm (by simp [Call.method, bareMethods])).imp fun j h => ⟨h.1, (menuSelect_iff ..).2 h.2⟩)
  | keys ks => exact (get_iff _ _ _ rfl).2 ((hb _ hm.symm (by simp [Call.method, bareMethods])).imp fun j h => ⟨h.1, (keys_iff ..).2 h.2⟩)
  | exec v => exact (get_iff _ _ _ rfl).2 ((hb _ hm.symm (by simp [Call.method, bareMethods])).imp fun j h => ⟨h.1, (string_iff ..).2 h.2⟩)

/-- C37: whatever a client writes that is a request asking for a call - in any order of the members, with other members,
or as arrays - is performed once, as `Does` says, and answered with its identifier: with the result `null`, or with the
code and the data of the error.  If what it does panics, so does the server. -/
theorem C37_asks {env : EditorEnv L} {e : Editor L} {client : Nat} {line : Str} {j : Json} {q : Request} {c : Call}
    (hl : env.parse line = some j) (hq : RequestOf j q) (hc : AsksFor q c) :
    match Does env e client c with
    | .error p => e.handle env client line = .error p
    | .ok (e', out) => ∃ r, e.handle env client line = .ok (e', r) ∧ r.id = q.id ∧
        r.result = (if out = none then some .null else none) ∧
        (r.error.map fun x => (x.code, x.data)) = out.map fun x => (x.1, some (.str x.2)) := by
  obtain ⟨run, hd, hdo, ht⟩ := does_eq env e client q.id c hc.1 (asks_readBack hc)
  rw [hdo]
  unfold Editor.handle Editor.readLine
  rw [hl, Option.bind_some, (requestOf_iff j q).2 hq]
  dsimp only
  rw [hd]
  cases run with
  | error p => rfl
  | ok x =>
    obtain ⟨e', a⟩ := x
    refine ⟨_, rfl, respond_id _ _, ?_, ?_⟩
    · cases a <;> rfl
    · cases a with
      | none => rfl
      | some err =>
        obtain ⟨t, ht⟩ := ht e' (some err) rfl err rfl
        simp [Editor.respond, Response.new, outcome, ht]

/-- C38: what a client writes for a call is a request, with its identifier, asking for this call. -/
theorem C38_asks {id : RpcId} (hi : GoodId id) (c : Call) :
    ∃ q, RequestOf (c.request id).encode q ∧ q.id = id ∧ AsksFor q c := by
  obtain ⟨q, hd, hid, hm, hr⟩ := C38_call hi c
  refine ⟨q, (requestOf_iff _ q).1 hd, hid, hm, ?_⟩
  rw [hm]
  cases c with
  | quit => left; simp [Call.method, bareMethods]
  | viewDelete => left; simp [Call.method, bareMethods]
  | edit n s => right; obtain ⟨j, h1, h2⟩ := (get_iff _ _ _ rfl).1 hr; exact ⟨j, h1, (edit_iff ..).1 h2⟩
  | view v => right; obtain ⟨j, h1, h2⟩ := (get_iff _ _ _ rfl).1 hr; exact ⟨j, h1, (string_iff ..).1 h2⟩
  | viewAdd v => right; obtain ⟨j, h1, h2⟩ := (get_iff _ _ _ rfl).1 hr; exact ⟨j, h1, (string_iff ..).1 h2⟩
  | viewRemove v => right; obtain ⟨j, h1, h2⟩ := (get_iff _ _ _ rfl).1 hr; exact ⟨j, h1, (string_iff ..).1 h2⟩
  | menu a b => right; obtain ⟨j, h1, h2⟩ := (get_iff _ _ _ rfl).1 hr; exact ⟨j, h1, (menu_iff ..).1 h2⟩
  | menuSelect a b => right; obtain ⟨j, h1, h2⟩ := (get_iff _ _ _ rfl).1 hr; exact ⟨j, h1, (menuSelect_iff ..).1 h2⟩
  | keys ks => right; obtain ⟨j, h1, h2⟩ := (get_iff _ _ _ rfl).1 hr; exact ⟨j, h1, (keys_iff ..).1 h2⟩
  | exec v => right; obtain ⟨j, h1, h2⟩ := (get_iff _ _ _ rfl).1 hr; exact ⟨j, h1, (string_iff ..).1 h2⟩

example : ∃ q, RequestOf (Call.request (.number 3) (.keys [⟨false, true, false, .char 'g'⟩, ⟨true, false, true, .enter⟩])).encode q ∧
    q.id = .number 3 ∧ AsksFor q (.keys [⟨false, true, false, .char 'g'⟩, ⟨true, false, true, .enter⟩]) :=
  C38_asks (by simp [GoodId]) _

/-- C38: so what a client writes for a call is performed by the server, once, as `Does` says, and answered with its identifier. -/
theorem C38_served {env : EditorEnv L} (hp : JsonText.ReadsBack env.parse) {e : Editor L} {client : Nat} {id : RpcId}
    (hi : GoodId id) (c : Call) :
    match Does env e client c with
    | .error p => e.handle env client (c.request id).encode.write = .error p
    | .ok (e', out) => ∃ r, e.handle env client (c.request id).encode.write = .ok (e', r) ∧ r.id = id ∧
        r.result = (if out = none then some .null else none) ∧
        (r.error.map fun x => (x.code, x.data)) = out.map fun x => (x.1, some (.str x.2)) := by
  obtain ⟨q, hq, rfl, ha⟩ := C38_asks hi c
  exact C37_asks (hp.back _ (JsonText.message_call hi c)) hq ha

/-- C37: a request of a method that needs parameters asks for a call exactly when its parameters have the right type. -/
theorem C37_typed {q : Request} {j : Json} (hm : q.method ∈ methods) (hb : q.method ∉ bareMethods) (hp : q.params = some j) :
    (∃ c, AsksFor q c) ↔ WellTyped q.method j := by
  have hj : ∀ c, AsksFor q c ↔ (q.method = c.method ∧ ParamsOf j c) := by
    intro c
    unfold AsksFor
    constructor
    · rintro ⟨h1, h2 | ⟨j', h2, h3⟩⟩
      · exact absurd h2 hb
      · rw [hp] at h2; cases h2; exact ⟨h1, h3⟩
    · rintro ⟨h1, h2⟩; exact ⟨h1, .inr ⟨j, hp, h2⟩⟩
  simp only [hj]
  have two : ∀ (a b : Str) (P Q : Json → Prop), HasFields [(a, P), (b, Q)] j ↔
      ∃ x y, P x ∧ Q y ∧ Fields [a, b] [some x, some y] j := by
    intro a b P Q
    cases j with
    | obj l =>
      simp only [HasFields, Fields, List.mem_cons, List.not_mem_nil, or_false, forall_eq_or_imp, forall_eq]
      constructor
      · rintro ⟨⟨x, hx, px⟩, ⟨y, hy, py⟩⟩; exact ⟨x, y, px, py, .cons hx (.cons hy .nil)⟩
      · rintro ⟨x, y, px, py, h⟩
        cases h with | cons h1 h2 => cases h2 with | cons h2 _ => exact ⟨⟨x, h1, px⟩, ⟨y, h2, py⟩⟩
    | arr l =>
      simp only [HasFields, Fields]
      match l with
      | [x, y] =>
        simp
      | [] => simp
      | [_] => simp
      | _ :: _ :: _ :: _ => simp
    | _ => simp [HasFields, Fields]
  have fk : ∀ l : List Json, (∀ k ∈ l, ∃ e, KeyEventOf k e) ↔ ∃ ks, List.Forall₂ KeyEventOf l ks := by
    intro l
    induction l with
    | nil => simp; exact ⟨[], .nil⟩
    | cons a l ih =>
      simp only [List.mem_cons, forall_eq_or_imp, ih]
      constructor
      · rintro ⟨⟨e, h⟩, ks, hk⟩; exact ⟨e :: ks, .cons h hk⟩
      · rintro ⟨ks, h⟩; cases h with | cons h1 h2 => exact ⟨⟨_, h1⟩, _, h2⟩
  obtain ⟨v, i, m, p⟩ := q
  dsimp only at hm hb ⊢
  simp only [bareMethods, List.mem_cons, List.not_mem_nil, or_false, not_or] at hb
  simp only [methods, List.mem_cons, List.not_mem_nil, or_false] at hm
  rcases hm with rfl | rfl | rfl | rfl | rfl | rfl | rfl | rfl | rfl | rfl
  · simp only [WellTyped, two]
    constructor
    · rintro ⟨c, h1, h2⟩
      cases c <;> simp [Call.method] at h1
      simp; exact ⟨_, ⟨_, rfl⟩, _, ⟨_, rfl⟩, h2⟩
    · simp
      rintro x ⟨n, rfl⟩ y ⟨s, rfl⟩ h
      exact ⟨.edit n s, rfl, h⟩
  · exact absurd rfl hb.1
  · constructor
    · rintro ⟨c, h1, h2⟩
      cases c <;> simp [Call.method] at h1
      simp [WellTyped]; exact ⟨_, h2⟩
    · simp [WellTyped]
      rintro ⟨n, rfl⟩
      exact ⟨.view n, rfl, rfl⟩
  · exact absurd rfl hb.2
  · constructor
    · rintro ⟨c, h1, h2⟩
      cases c <;> simp [Call.method] at h1
      simp [WellTyped]; exact ⟨_, h2⟩
    · simp [WellTyped]
      rintro ⟨n, rfl⟩
      exact ⟨.viewAdd n, rfl, rfl⟩
  · constructor
    · rintro ⟨c, h1, h2⟩
      cases c <;> simp [Call.method] at h1
      simp [WellTyped]; exact ⟨_, h2⟩
    · simp [WellTyped]
      rintro ⟨n, rfl⟩
      exact ⟨.viewRemove n, rfl, rfl⟩
  · simp only [WellTyped, two]
    constructor
    · rintro ⟨c, h1, h2⟩
      cases c <;> simp [Call.method] at h1
      simp; exact ⟨_, ⟨_, rfl⟩, _, ⟨_, rfl⟩, h2⟩
    · simp
      rintro x ⟨n, rfl⟩ y ⟨s, rfl⟩ h
      exact ⟨.menu n s, rfl, h⟩
  · simp only [WellTyped, two]
    constructor
    · rintro ⟨c, h1, h2⟩
      cases c <;> simp [Call.method] at h1
      simp; exact ⟨_, ⟨_, rfl⟩, _, ⟨_, rfl⟩, h2⟩
    · simp
      rintro x ⟨n, rfl⟩ y ⟨s, rfl⟩ h
      exact ⟨.menuSelect n s, rfl, h⟩
  · simp only [WellTyped, fk]
    constructor
    · rintro ⟨c, h1, h2⟩
      cases c <;> simp [Call.method] at h1
      obtain ⟨l, h2, h3⟩ := h2
      simp; exact ⟨l, h2, _, h3⟩
    · simp
      rintro l rfl ks h
      exact ⟨.keys ks, rfl, l, rfl, h⟩
  · constructor
    · rintro ⟨c, h1, h2⟩
      cases c <;> simp [Call.method] at h1
      simp [WellTyped]; exact ⟨_, h2⟩
    · simp [WellTyped]
      rintro ⟨n, rfl⟩
      exact ⟨.exec n, rfl, rfl⟩

/-- a request written as an array, with a key as an object and members in another order -/
example : RequestOf
    (.arr [.str str!"2.0", .num 7, .str str!"keys",
      .arr [.obj [(str!"key", .obj [(str!"Escape", .null)]), (str!"alt", .bool false), (str!"more", .num 1),
        (str!"ctrl", .bool true), (str!"shift", .bool false)]]])
    ⟨str!"2.0", .number 7, str!"keys", some (.arr [.obj [(str!"key", .obj [(str!"Escape", .null)]), (str!"alt", .bool false),
      (str!"more", .num 1), (str!"ctrl", .bool true), (str!"shift", .bool false)]])⟩ ∧
    KeyEventOf (.obj [(str!"key", .obj [(str!"Escape", .null)]), (str!"alt", .bool false), (str!"more", .num 1),
      (str!"ctrl", .bool true), (str!"shift", .bool false)]) ⟨true, false, false, .escape⟩ := by
  rw [← requestOf_iff, ← keyEventOf_iff]
  decide

/-- C37: a line is a request exactly when it is the JSON text of one. -/
theorem C37_line (env : EditorEnv L) (line : Str) (q : Request) :
    (env.parse line).bind Request.decode = some q ↔ ∃ j, env.parse line = some j ∧ RequestOf j q := by
  rw [Option.bind_eq_some_iff]
  simp only [requestOf_iff]

/-- with a reader like `serde_json`, of two parameters of the same name the last counts, but a request with two methods is none -/
example : (JsonText.parseMessage str!"{\"jsonrpc\":\"2.0\",\"id\":1,\"method\":\"edit\",\"params\":{\"scratch\":true,\"name\":\"a\",\"name\":\"b\"}}").bind
      Request.decode = some ((Call.edit str!"b" true).request (.number 1)) ∧
    (JsonText.parseMessage str!"{\"jsonrpc\":\"2.0\",\"id\":1,\"method\":\"quit\",\"method\":\"quit\"}").bind Request.decode =
      none := by
  decide +kernel

/-- C37: a call of the protocol is performed once, as `Does` says, and answered with its identifier: with the result
`null`, or with the code and the data of the error.  If what it does panics, so does the server. -/
theorem C37_call {env : EditorEnv L} (hp : JsonText.ReadsBack env.parse) {e : Editor L} {client : Nat} {id : RpcId}
    (hi : GoodId id) (c : Call) :
    match Does env e client c with
    | .error p => e.handle env client (c.request id).encode.write = .error p
    | .ok (e', out) => ∃ r, e.handle env client (c.request id).encode.write = .ok (e', r) ∧ r.id = id ∧
        r.result = (if out = none then some .null else none) ∧
        (r.error.map fun x => (x.code, x.data)) = out.map fun x => (x.1, some (.str x.2)) := by
  obtain ⟨q, hq, hid, hm, hr⟩ := C38_call hi c
  obtain ⟨run, hd, hdo, ht⟩ := does_eq env e client id c hm hr
  rw [hdo]
  unfold Editor.handle Editor.readLine
  rw [hp.back _ (JsonText.message_call hi c), Option.bind_some, hq]
  dsimp only
  rw [hd]
  cases run with
  | error p => rfl
  | ok x =>
    obtain ⟨e', a⟩ := x
    refine ⟨Editor.respond q.id a, rfl, by rw [respond_id, hid], ?_, ?_⟩
    · cases a <;> rfl
    · cases a with
      | none => rfl
      | some err =>
        obtain ⟨s, hs⟩ := ht _ _ rfl err rfl
        simp [outcome, hs, Editor.respond, Response.new]

/-- Pressing these keys one after the other runs their handlers without an error. -/
inductive KeysPressed (env : EditorEnv L) (client : Nat) : List KeyEvent → Editor L → Editor L → Prop
  | none (e : Editor L) : KeysPressed env client [] e e
  | key {k : KeyEvent} {ks : List KeyEvent} {e e1 e' : Editor L}
      (h : e.execLua env str!"keys" client (env.lua.key client k) = .ok (e1, .none))
      (hs : KeysPressed env client ks e1 e') : KeysPressed env client (k :: ks) e e'

/-- C37: a keys request runs the handlers of the keys in order, until one fails; then the answer is −32603 with the
message of the handler, and the remaining keys are dropped. -/
theorem C37_keys {env : EditorEnv L} {client : Nat} {ks : List KeyEvent} {e e' : Editor L} {out : Option (Int × Str)}
    (h : Does env e client (.keys ks) = .ok (e', out)) :
    (out = none ∧ KeysPressed env client ks e e') ∨
    ∃ before k after e1 e2 m w, ks = before ++ k :: after ∧ KeysPressed env client before e e1 ∧
      e1.execLua env str!"keys" client (env.lua.key client k) = .ok (e2, some m) ∧
      e2.core.error env.core (some client) str!"key handler" m = .ok w ∧ e' = { e2 with core := w } ∧
      out = some (-32603, m) := by
  have key : ∀ ks (e : Editor L) a, e.commandKeys env client ks = .ok (e', a) →
      (a = none ∧ KeysPressed env client ks e e') ∨
      ∃ before k after e1 e2 m w, ks = before ++ k :: after ∧ KeysPressed env client before e e1 ∧
        e1.execLua env str!"keys" client (env.lua.key client k) = .ok (e2, some m) ∧
        e2.core.error env.core (some client) str!"key handler" m = .ok w ∧ e' = { e2 with core := w } ∧
        a = some (.internalError m) := by
    intro ks
    induction ks with
    | nil => intro e a h; cases h; exact .inl ⟨rfl, .none _⟩
    | cons k ks ih =>
      intro e a h
      rw [Editor.commandKeys] at h
      obtain ⟨⟨e1, err⟩, h1, h⟩ := bind_inv h
      cases err with
      | none =>
        rcases ih e1 a h with ⟨h2, h3⟩ | ⟨b, k', af, x1, x2, m, w, h2, h3, h4, h5, h6, h7⟩
        · exact .inl ⟨h2, .key h1 h3⟩
        · exact .inr ⟨k :: b, k', af, x1, x2, m, w, by rw [h2]; rfl, .key h1 h3, h4, h5, h6, h7⟩
      | some m =>
        obtain ⟨w, hw, h⟩ := bind_inv h
        cases h
        exact .inr ⟨[], k, ks, e, e1, m, w, rfl, .none _, h1, hw, rfl, rfl⟩
  simp only [Does] at h
  cases hc : e.commandKeys env client ks with
  | error p => rw [hc] at h; cases h
  | ok x =>
    obtain ⟨e1, a⟩ := x
    rw [hc] at h
    simp only [Except.map, Except.ok.injEq, Prod.mk.injEq] at h
    obtain ⟨rfl, h⟩ := h
    rcases key ks e a hc with ⟨rfl, h3⟩ | ⟨b, k', af, x1, x2, m, w, h2, h3, h4, h5, h6, rfl⟩
    · exact .inl ⟨h.symm, h3⟩
    · exact .inr ⟨b, k', af, x1, x2, m, w, h2, h3, h4, h5, h6, h.symm⟩

/-! ### A concrete server, for the examples -/

/-- scripts: keys do nothing except `e`, whose handler fails; `exec` prints its source -/
def luaA : Lua Unit where
  addClient := fun _ l w => .ok (l, w, none)
  removeClient := fun _ l w => .ok (l, w, none)
  key := fun _ k l w => .ok (l, w, if k.key = .char 'e' then some str!"oops!" else none)
  exec := fun c s l w => (w.message envA (some c) s).map fun w => (l, w, none)

def editorEnvA : EditorEnv Unit where
  core := envA
  lua := luaA
  compile := fun _ => none
  files := fun _ => []
  parse := JsonText.parse
  lineError := fun _ => str!"no"
  paramsError := fun _ => str!"no"

/-- An editor with one client. -/
def editorA : Editor Unit :=
  match Editor.new editorEnvA () (fun l w => .ok (l, w, none)) str!"s" [] [] [] with
  | .ok e => (match e.addClient editorEnvA 1 with | .ok e => e | .error _ => e)
  | .error _ => { session := [], menus := [], stopped := [], core := World.new [], lua := () }

/-- The response to a line. -/
def answer (line : Str) : Option Response := (editorA.handle editorEnvA 1 line).toOption.map Prod.snd

example : answer str!"{" = some (Response.invalidRequest .null str!"{") := by decide +kernel
example : answer str!"{\"jsonrpc\":\"2.0\",\"id\":3,\"method\":\"jump\"}" =
    some (Response.methodNotFound (.number 3) str!"jump") := by decide +kernel
example : (answer str!"{\"jsonrpc\":\"2.0\",\"id\":3,\"method\":\"edit\"}").map (fun r => (r.id, r.error.map RpcError.code)) =
    some (.number 3, some (-32600)) := by decide +kernel
example : (answer str!"{\"jsonrpc\":\"2.0\",\"id\":3,\"method\":\"edit\",\"params\":[true,\"f\"]}").map
    (fun r => (r.id, r.error.map RpcError.code)) = some (.number 3, some (-32602)) := by decide +kernel
example : (answer (Call.request (.number 4) (.edit str!"f" false)).encode.write).map (fun r => (r.id, r.result)) =
    some (.number 4, some .null) := by decide +kernel
example : (answer (Call.request (.number 5) (.view str!"zz")).encode.write).map (fun r => (r.id, r.error.map RpcError.code)) =
    some (.number 5, some (-32600)) := by decide +kernel
example : (answer (Call.request (.number 6) (.keys [⟨false, false, false, .char 'a'⟩, ⟨false, false, false, .char 'e'⟩])).encode.write).map
    (fun r => (r.id, r.error)) = some (.number 6, some (.internalError str!"oops!")) := by decide +kernel
example : JsonText.ReadsBack editorEnvA.parse := JsonText.parse_readsBack

end Ced.Props
