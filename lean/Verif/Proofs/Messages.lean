import Verif.Proofs.JsonText
import Verif.Spec.Connection
import Verif.Props.Rpc

/-! # The messages of ced are read as they are written -/

namespace Ced.JsonText
open Spec Props
variable {T : Type} {o : Ornament T}

theorem plain_id {d : Nat} {id : RpcId} (h : GoodId id) : Plain d id.encode := by
  cases id with
  | number n => exact .num (by have := h.1; omega) (by have := h.2; omega)
  | string s => exact .str s
  | null => exact .null

theorem message_request {q : Request} (hi : GoodId q.id) (hp : ∀ p, q.params = some p → Plain 126 p) : Message q.encode := by
  unfold Request.encode
  cases hq : q.params with
  | none =>
    simp only [optMember, List.append_nil]
    refine ⟨by simp only [List.map]; decide, fun x hx => .inl ?_⟩
    simp only [List.mem_cons, List.not_mem_nil, or_false] at hx
    rcases hx with rfl | rfl | rfl
    · exact .str _
    · exact plain_id hi
    · exact .str _
  | some p =>
    simp only [optMember, List.cons_append, List.nil_append]
    refine ⟨by simp only [List.map]; decide, fun x hx => .inl ?_⟩
    simp only [List.mem_cons, List.not_mem_nil, or_false] at hx
    rcases hx with rfl | rfl | rfl | rfl
    · exact .str _
    · exact plain_id hi
    · exact .str _
    · exact hp p hq

theorem plain_key {d : Nat} (k : KeyEvent) : Plain (d + 2) k.encode := by
  refine .obj (by simp only [List.map]; decide) fun x hx => ?_
  simp only [List.mem_cons, List.not_mem_nil, or_false] at hx
  rcases hx with rfl | rfl | rfl | rfl
  · exact .bool _
  · exact .bool _
  · show Plain _ (KeyEvent.encodeKey k.key)
    cases k.key
    · refine .obj (by simp only [List.map]; decide) fun x hx => ?_
      simp only [List.mem_cons, List.not_mem_nil, or_false] at hx
      rw [hx]; exact .str _
    all_goals exact .str _
  · exact .bool _

theorem plain_two {d : Nat} {a b : Str} {x y : Json} (h : a < b) (hx : Plain d x) (hy : Plain d y) :
    Plain (d + 1) (.obj [(a, x), (b, y)]) := by
  refine .obj (by simpa using h) fun z hz => ?_
  simp only [List.mem_cons, List.not_mem_nil, or_false] at hz
  rcases hz with rfl | rfl
  · exact hx
  · exact hy

theorem plain_call (c : Call) : Plain 126 c.params := by
  cases c with
  | quit => exact .null
  | viewDelete => exact .null
  | edit n s => exact plain_two (by decide) (.str _) (.bool _)
  | view v => exact .str _
  | viewAdd b => exact .str _
  | viewRemove b => exact .str _
  | menu c s => exact plain_two (by decide) (.str _) (.str _)
  | menuSelect c s => exact plain_two (by decide) (.str _) (.str _)
  | keys ks =>
    refine .arr fun j hj => ?_
    obtain ⟨k, _, rfl⟩ := List.mem_map.1 hj
    exact plain_key k
  | exec s => exact .str _

/-- the requests of ced's clients -/
theorem message_call {id : RpcId} (hi : GoodId id) (c : Call) : Message (c.request id).encode :=
  message_request hi fun p hp => by cases hp; exact plain_call c

theorem message_notification {n : Notification} (hp : ∀ p, n.params = some p → Plain 126 p) : Message n.encode := by
  unfold Notification.encode
  cases hq : n.params with
  | none =>
    simp only [optMember, List.append_nil]
    refine ⟨by simp only [List.map]; decide, fun x hx => .inl ?_⟩
    simp only [List.mem_cons, List.not_mem_nil, or_false] at hx
    rcases hx with rfl | rfl
    · exact .str _
    · exact .str _
  | some p =>
    simp only [optMember, List.cons_append, List.nil_append]
    refine ⟨by simp only [List.map]; decide, fun x hx => .inl ?_⟩
    simp only [List.mem_cons, List.not_mem_nil, or_false] at hx
    rcases hx with rfl | rfl | rfl
    · exact .str _
    · exact .str _
    · exact hp p hq

theorem plain_lens (ho : OrnamentOk o) {l : ViewParamsLens} (h : l.firstLineNum < 2 ^ 64) : Plain 110 (Note.encodeLens o l) := by
  refine plain_two (by decide) (.num (by omega) (by omega)) (.arr fun j hj => ?_)
  obtain ⟨x, _, rfl⟩ := List.mem_map.1 hj
  exact (ho.plain _).mono (by omega)

theorem plain_item (ho : OrnamentOk o) {i : ViewParamsItem}
    (h : i.start < 2 ^ 64 ∧ i.stop < 2 ^ 64 ∧ ∀ l ∈ i.lenses, l.firstLineNum < 2 ^ 64) : Plain 120 (Note.encodeItem o i) := by
  refine .obj (by simp only [List.map]; decide) fun x hx => ?_
  simp only [List.mem_cons, List.not_mem_nil, or_false] at hx
  rcases hx with rfl | rfl | rfl | rfl
  · exact .str _
  · exact .num (by omega) (by omega)
  · refine .arr fun j hj => ?_
    obtain ⟨l, hl, rfl⟩ := List.mem_map.1 hj
    exact (plain_lens ho (h.2.2 l hl)).mono (by omega)
  · exact .num (by omega) (by omega)

theorem plain_entry (ho : OrnamentOk o) (e : MenuParamsEntry) : Plain 120 (Note.encodeEntry o e) := by
  refine .obj (by simp only [List.map]; decide) fun x hx => ?_
  simp only [List.mem_cons, List.not_mem_nil, or_false] at hx
  rcases hx with rfl | rfl | rfl
  · show Plain _ (Note.encodeOption e.description)
    cases e.description
    · exact .null
    · exact .str _
  · exact (ho.plain _).mono (by omega)
  · exact .str _

theorem plain_note (ho : OrnamentOk o) {n : Note} (hf : Fits n) : Plain 126 (n.params o) := by
  cases n with
  | echo t f => exact (ho.plain _).mono (by omega)
  | hint ls =>
    refine .obj (by simp only [List.map]; decide) fun x hx => ?_
    simp only [List.mem_cons, List.not_mem_nil, or_false] at hx
    rw [hx]
    refine .arr fun j hj => ?_
    obtain ⟨l, _, rfl⟩ := List.mem_map.1 hj
    exact (ho.plain _).mono (by omega)
  | info c s d =>
    refine .obj (by simp only [List.map]; decide) fun x hx => ?_
    simp only [List.mem_cons, List.not_mem_nil, or_false] at hx
    rcases hx with rfl | rfl | rfl <;> exact .str _
  | menu c t s es =>
    refine .obj (by simp only [List.map]; decide) fun x hx => ?_
    simp only [List.mem_cons, List.not_mem_nil, or_false] at hx
    rcases hx with rfl | rfl | rfl | rfl
    · exact .str _
    · refine .arr fun j hj => ?_
      obtain ⟨e, _, rfl⟩ := List.mem_map.1 hj
      exact (plain_entry ho e).mono (by omega)
    · exact .str _
    · exact .str _
  | status items =>
    refine .arr fun j hj => ?_
    obtain ⟨i, hi, rfl⟩ := List.mem_map.1 hj
    have := hf i hi
    exact plain_two (by decide) (.num (by omega) (by omega)) ((ho.plain _).mono (by omega))
  | view items =>
    refine .arr fun j hj => ?_
    obtain ⟨i, hi, rfl⟩ := List.mem_map.1 hj
    exact (plain_item ho (hf i hi)).mono (by omega)

/-- the notifications of the server -/
theorem message_note (ho : OrnamentOk o) {n : Note} (hf : Fits n) : Message ((Wire.note n).encode o) :=
  message_notification fun p hp => by cases hp; exact plain_note ho hf

theorem plain_code {d : Nat} {e : RpcError} (h : GoodError e) : Plain d (.num e.code) := by
  have h1 := h.1; have h2 := h.2; exact .num (by omega) (by omega)

/-- responses of ced, and others of this kind -/
theorem message_response {r : Response} (hi : GoodId r.id) (hr : ∀ v, r.result = some v → Plain 126 v)
    (he : ∀ e, r.error = some e → GoodError e ∧ ∀ d, e.data = some d → Plain 125 d) : Message r.encode := by
  have key : ∀ e, r.error = some e → ∃ m, e.encode = .obj m ∧ (m.map Prod.fst).Nodup ∧ ∀ y ∈ m, Plain 125 y.2 := by
    intro e h
    obtain ⟨h1, h2⟩ := he e h
    refine ⟨_, rfl, by simp only [List.map]; decide, fun y hy => ?_⟩
    simp only [List.mem_cons, List.not_mem_nil, or_false] at hy
    rcases hy with rfl | rfl | rfl
    · exact plain_code h1
    · exact .str _
    · cases hd : e.data with
      | none => exact .null
      | some d => exact h2 d hd
  obtain ⟨v, i, res, err⟩ := r
  unfold Response.encode
  cases res <;> cases err
  all_goals
    simp only [optMember, Option.map_none, Option.map_some, List.cons_append, List.nil_append, List.append_nil]
    refine ⟨by simp only [List.map]; decide, fun x hx => ?_⟩
    simp only [List.mem_cons, List.not_mem_nil, or_false] at hx
  · rcases hx with rfl | rfl
    · exact .inl (.str _)
    · exact .inl (plain_id hi)
  · rcases hx with rfl | rfl | rfl
    · exact .inl (.str _)
    · exact .inl (plain_id hi)
    · exact .inr ⟨rfl, key _ rfl⟩
  · rcases hx with rfl | rfl | rfl
    · exact .inl (.str _)
    · exact .inl (plain_id hi)
    · exact .inl (hr _ rfl)
  · rcases hx with rfl | rfl | rfl | rfl
    · exact .inl (.str _)
    · exact .inl (plain_id hi)
    · exact .inl (hr _ rfl)
    · exact .inr ⟨rfl, key _ rfl⟩

end Ced.JsonText
