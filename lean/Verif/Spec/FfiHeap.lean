import Verif.Model.FfiHeap

/-! # What a C program knows of its pointers (C90) -/

namespace Ced.Spec
open Ffi

variable {T : Type}

/-- A call that was made, and what the program got from it: the pointer that was returned and those in the fields of the
structure it points to, each with what is there at that moment. -/
structure Entry (T : Type) where
  call : HeapCall T
  got : List (Addr × Obj T)

/-- What a program gets from a call that returned this pointer. -/
def gets (h : Heap T) : Option Addr → List (Addr × Obj T)
  | none => []
  | some p => (p :: ((h.get p).map Obj.fields).getD []).filterMap fun q => (h.get q).map fun o => (q, o)

/-- The history of a program: its calls, each of which returned, from the beginning. -/
inductive History (frags : T → List Fragment) : List (Entry T) → Heap T → Prop
  | start : History frags [] []
  | call {tr : List (Entry T)} {h h' : Heap T} {c : HeapCall T} {r : Option Addr} :
      History frags tr h → h.step frags c = .ok (h', r) → History frags (tr ++ [⟨c, gets h' r⟩]) h'

/-- The program got this pointer, to this object. -/
def Got (tr : List (Entry T)) (p : Addr) (o : Obj T) : Prop := ∃ e ∈ tr, (p, o) ∈ e.got

/-- The program passed this pointer to a function that frees it. -/
def Freed (tr : List (Entry T)) (p : Addr) : Prop := ∃ e ∈ tr, ∃ f, e.call = .destroy f (some p)

/-- The program got this pointer, to this object, and did not free it. -/
def Holds (tr : List (Entry T)) (p : Addr) (o : Obj T) : Prop := Got tr p o ∧ ¬ Freed tr p

/-- How many times the program asked for the next item of this iterator. -/
def asked (tr : List (Entry T)) (p : Addr) : Nat :=
  (tr.filter fun e => match e.call with | .nextItem _ (some q) => decide (q = p) | _ => false).length

/-- An object after its next item was asked for `k` times: nothing changes but the position of an iterator, which stops at
the end. -/
def afterAsking (k : Nat) : Obj T → Obj T
  | .textIterator it => .textIterator ⟨it.items, min k it.items.length⟩
  | .menuIterator it => .menuIterator ⟨it.items, min k it.items.length⟩
  | .statusIterator it => .statusIterator ⟨it.items, min k it.items.length⟩
  | .viewIterator it => .viewIterator ⟨it.items, min k it.items.length⟩
  | .lensIterator it => .lensIterator ⟨it.items, min k it.items.length⟩
  | .lineIterator it => .lineIterator ⟨it.items, min k it.items.length⟩
  | o => o

/-- The rules for a call: a pointer passed to a function is one that the program holds, of the type of the parameter; only
null may be freed instead. -/
def Allowed (tr : List (Entry T)) : HeapCall T → Prop
  | .version _ _ _ _ => True
  | .connect _ => True
  | .nextEvent p _ => ∃ q o, p = some q ∧ Holds tr q o ∧ o.ty = .connection
  | .nextItem f p => ∃ q o, p = some q ∧ Holds tr q o ∧ o.ty = f.ty
  | .destroy f p => ∀ q, p = some q → ∃ o, Holds tr q o ∧ o.ty = f.ty

/-- The types that no function of the library frees. -/
def Lasting (t : Ty) : Prop := t = .string ∨ t = .menuIterator ∨ t = .lineIterator

/-- An iterator at its beginning. -/
def iter {α : Type} (l : List α) : Iter α := ⟨l, 0⟩

/-- What a program gets for an event. -/
def EventGot (frags : T → List Fragment) (ev : ConnectionEvent T) (got : List (Addr × Obj T)) : Prop :=
  match ev with
  | .echo t => ∃ p a, got = [(p, .event (.echo a)), (a, .textIterator (iter (frags t)))]
  | .info c s => ∃ p a b, got = [(p, .event (.info a b)), (a, .string c), (b, .string s)]
  | .menu m => ∃ p a b c d, got = [(p, .event (.menu a b c d (m.selected % 2 ^ 32))), (a, .string m.command),
      (b, .string m.title), (c, .string m.search), (d, .menuIterator (iter m.entries))]
  | .status l => ∃ p a, got = [(p, .event (.status a)), (a, .statusIterator (iter l))]
  | .view l => ∃ p a, got = [(p, .event (.view a)), (a, .viewIterator (iter l))]
  | _ => False

/-- What a program gets for a fragment of a text. -/
def FragmentGot (x : Fragment) (got : List (Addr × Obj T)) : Prop :=
  ∃ p a b, got = [(p, .textItem a b), (a, .string x.1), (b, .string x.2)]

/-- What a program gets for an item of a status (for an index of 32 bits). -/
def StatusGot (frags : T → List Fragment) (x : Int × T) (got : List (Addr × Obj T)) : Prop :=
  ∃ p a i, got = [(p, .statusItem i a), (a, .textIterator (iter (frags x.2)))] ∧
    (-2 ^ 31 ≤ x.1 → x.1 < 2 ^ 31 → i = x.1)

/-- What a program gets for a buffer of a view. -/
def ItemGot (x : RemoteItem T) (got : List (Addr × Obj T)) : Prop :=
  ∃ p a b, got = [(p, .viewItem a (x.start % 2 ^ 32) (x.stop % 2 ^ 32) b), (a, .string x.buffer),
    (b, .lensIterator (iter x.lenses))]

/-- What a program gets for a lens. -/
def LensGot (x : RemoteLens T) (got : List (Addr × Obj T)) : Prop :=
  ∃ p a, got = [(p, .lens a (x.firstLineNum % 2 ^ 32)), (a, .lineIterator (iter x.lines))]

/-- The answer of an iterator over `l` that is asked for the `k`-th time (from 0): null when there are no more items, else
the item. -/
def Answers {α : Type} (l : List α) (k : Nat) (item : α → List (Addr × Obj T) → Prop) (r : Option Addr)
    (got : List (Addr × Obj T)) : Prop :=
  match l[k]? with
  | none => r = none ∧ got = []
  | some x => r ≠ none ∧ item x got

/-- No zero byte. -/
def NoZero (s : Str) : Prop := Char.ofNat 0 ∉ s

end Ced.Spec
