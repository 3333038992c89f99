import Verif.Model.Connection

/-!
# Model of the C library (`remote-ffi`)

The heap is left out: a pointer returned to C is the value it points to, and a null pointer is `none`.  What a C
program can observe of an event is what it reads through the iterators (`drain`).  The last error is kept per thread
(`threadCalls`).
-/

namespace Ced.Ffi

/-- remote-ffi/src/lib.rs:29-33 `struct IndexedIterator`. -/
structure Iter (α : Type) where
  items : List α
  nextIdx : Nat
deriving DecidableEq

namespace Iter
variable {α β : Type}

/-- lib.rs:35-43 `From<&Vec<T>>`. -/
def ofList (l : List α) : Iter α := { items := l, nextIdx := 0 }

/-- lib.rs:45-53 `next`, remote-ffi-gen/src/lib.rs:127-139 `…_next_item`: the next item, converted, or null. -/
def next (conv : α → R β) (it : Iter α) : R (Option β × Iter α) :=
  match it.items[it.nextIdx]? with
  | none => .ok (none, it)
  | some a => do
    let b ← conv a
    return (some b, { it with nextIdx := it.nextIdx + 1 })

/-- The results of some calls of `next`, one after the other. -/
def calls (conv : α → R β) (it : Iter α) : Nat → R (List (Option β))
  | 0 => .ok []
  | n + 1 => do
    let (b, it) ← it.next conv
    let bs ← it.calls conv n
    return b :: bs

/-- `while ((item = next(it)) != NULL)`, with a bound on the number of calls. -/
def drain (conv : α → R β) (it : Iter α) : Nat → R (List β)
  | 0 => .ok []
  | n + 1 => do
    match ← it.next conv with
    | (none, _) => return []
    | (some b, it) => do
      let bs ← it.drain conv n
      return b :: bs
end Iter

/-- lib.rs:21-27 `cstring!`: a string with a zero byte in it panics. -/
def cstring (s : Str) : R Str := if Char.ofNat 0 ∈ s then .error .unwrap else .ok s

/-- `as u32` of a `usize`. -/
def asU32 (n : Nat) : Nat := n % 4294967296

/-- `as i32` of a wider integer. -/
def asI32 (n : Int) : Int := (n + 2147483648) % 4294967296 - 2147483648

/-- A fragment of a text: the text, and the face's name. -/
abbrev Fragment := Str × Str

/-- text.rs:12-19 `CedTextItem` -/
def textItem (f : Fragment) : R Fragment := do
  let t ← cstring f.1
  let g ← cstring f.2
  return (t, g)

/-- event.rs:66-71 `struct MenuItem` -/
structure MenuItem where
  value : Str
  text : Iter Fragment
  description : Option Str

/-- event.rs:89-93 `struct StatusItem` -/
structure StatusItem where
  index : Int
  text : Iter Fragment

/-- event.rs:128-133 `struct ViewLens` -/
structure ViewLens (T : Type) where
  lines : Iter T
  firstLineNum : Nat

/-- event.rs:106-113 `struct ViewItem` -/
structure ViewItem (T : Type) where
  buffer : Str
  start : Nat
  stop : Nat
  lenses : Iter (RemoteLens T)

/-- event.rs:12-35 `enum CedEvent` -/
inductive Event (T : Type) where
  | echo (message : Iter Fragment)
  | info (client session : Str)
  | menu (command title search : Str) (items : Iter (RemoteEntry T)) (selected : Nat)
  | status (items : Iter (Int × T))
  | view (items : Iter (RemoteItem T))

section
variable {T : Type} (frags : T → List Fragment)

/-- event.rs:73-84 `From<MenuParamsEntry>` -/
def menuItem (e : RemoteEntry T) : R MenuItem := do
  let v ← cstring e.value
  match e.description with
  | none => return ⟨v, .ofList (frags e.text), none⟩
  | some d => do
    let d ← cstring d
    return ⟨v, .ofList (frags e.text), some d⟩

/-- event.rs:95-102 `From<StatusParamsItem>` -/
def statusItem (i : Int × T) : R StatusItem := return ⟨asI32 i.1, .ofList (frags i.2)⟩

/-- event.rs:135-142 `From<ViewParamsLens>` -/
def viewLens (l : RemoteLens T) : R (ViewLens T) := return ⟨.ofList l.lines, asU32 l.firstLineNum⟩

/-- event.rs:115-124 `From<ViewParamsItem>` -/
def viewItem (i : RemoteItem T) : R (ViewItem T) := do
  let b ← cstring i.buffer
  return ⟨b, asU32 i.start, asU32 i.stop, .ofList i.lenses⟩

/-- event.rs:37-64 `From<ConnectionEvent>`; three kinds of events are `todo!()`. -/
def Event.ofConnection : ConnectionEvent T → R (Event T)
  | .echo t => return .echo (.ofList (frags t))
  | .hint _ => .error .explicit
  | .info c s => do
    let c ← cstring c
    let s ← cstring s
    return .info c s
  | .menu m => do
    let c ← cstring m.command
    let t ← cstring m.title
    let s ← cstring m.search
    return .menu c t s (.ofList m.entries) (asU32 m.selected)
  | .status l => return .status (.ofList l)
  | .view l => return .view (.ofList l)
  | .connErr => .error .explicit
  | .noop => .error .explicit
end

/-! ### Errors -/

/-- What a C program can do with errors.  A buffer is null or the memory behind the pointer. -/
inductive ErrorCall where
  /-- a function of the library fails (connection.rs:25-28) -/
  | fail (message : Bytes)
  /-- `ced_last_error_length()` -/
  | length
  /-- `ced_last_error_message(buffer, length)` -/
  | message (buffer : Option Bytes) (length : Int)

/-- What it gets: the returned number, and the memory behind the pointer afterwards. -/
structure ErrorResult where
  value : Int
  memory : Option Bytes
deriving DecidableEq, Repr

/-- `as usize` of an `i32`. -/
def asUsize (n : Int) : Nat := (n % 18446744073709551616).toNat

/-- One call with a pending error (lib.rs:73-120).  Writing behind the end of the memory is a panic of the model
(undefined behaviour of the program). -/
def errorCall (pending : Option Bytes) : ErrorCall → R (Option Bytes × ErrorResult)
  | .fail m => return (some m, ⟨0, none⟩)
  | .length =>
    match pending with
    | some m => return (pending, ⟨asI32 m.length, none⟩)
    | none => return (pending, ⟨-1, none⟩)
  | .message none _ => return (pending, ⟨-1, none⟩)
  | .message (some memory) length =>
    match pending with
    | none => return (none, ⟨0, some memory⟩)
    | some m =>
      if m.length ≥ asUsize length then return (none, ⟨-2, some memory⟩)
      else if m.length + 1 ≤ memory.length then
        return (none, ⟨asI32 m.length, some (m ++ 0 :: memory.drop (m.length + 1))⟩)
      else .error .index

/-- Calls, one after the other: the pending error afterwards, and the results. -/
def errorCalls (pending : Option Bytes) : List ErrorCall → R (Option Bytes × List ErrorResult)
  | [] => .ok (pending, [])
  | c :: cs => do
    let (pending, r) ← errorCall pending c
    let (pending, rs) ← errorCalls pending cs
    return (pending, r :: rs)

/-- lib.rs:73-75 `thread_local! LAST_ERROR`: the calls of several threads, one after the other in the order in which they happen;
each thread has its own pending error.  The results are those of all the calls, each with its thread. -/
def threadCalls (pending : Nat → Option Bytes) : List (Nat × ErrorCall) → R ((Nat → Option Bytes) × List (Nat × ErrorResult))
  | [] => .ok (pending, [])
  | (t, c) :: cs => do
    let (p, r) ← errorCall (pending t) c
    let (pending, rs) ← threadCalls (fun u => if u = t then p else pending u) cs
    return (pending, (t, r) :: rs)

end Ced.Ffi
