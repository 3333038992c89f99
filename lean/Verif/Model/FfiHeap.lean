import Verif.Model.Ffi

/-!
# Model of the memory of the C library (`remote-ffi`)

What the functions of the library allocate and free.  A block of the heap is an object with the pointers in its fields; a
C string is a block.  Addresses are not used again: a program that makes no error here makes none with an allocator that
uses them again.  Errors of the program: a pointer to freed memory, or to an object of another type (`Fault.memory`).
Reading through a null pointer is the same error; freeing it does nothing.  Threads and the channel of a connection are
left out: the event that arrives is given with the call.
-/

namespace Ced.Ffi

/-- A pointer that is not null. -/
abbrev Addr := Nat

/-- event.rs:12-35 `enum CedEvent`, with its pointers. -/
inductive EventObj where
  | echo (message : Addr)
  | info (client session : Addr)
  | menu (command title search items : Addr) (selected : Nat)
  | status (items : Addr)
  | view (items : Addr)
deriving DecidableEq

/-- The types of the blocks. -/
inductive Ty where
  | string | version | connection | event | textIterator | textItem | menuIterator | statusIterator | statusItem
  | viewIterator | viewItem | lensIterator | lens | lineIterator
deriving DecidableEq

/-- A block: lib.rs:29-33, 55-61; connection.rs:12-14; text.rs:7-10; event.rs:12-35, 66-71, 89-93, 106-113, 128-133.  The
items of a menu are never made: no function of the interface does it (C82). -/
inductive Obj (T : Type) where
  | string (s : Str)
  | version (major minor patch pre : Addr)
  | connection
  | event (e : EventObj)
  | textIterator (it : Iter Fragment)
  | textItem (text face : Addr)
  | menuIterator (it : Iter (RemoteEntry T))
  | statusIterator (it : Iter (Int × T))
  | statusItem (index : Int) (text : Addr)
  | viewIterator (it : Iter (RemoteItem T))
  | viewItem (buffer : Addr) (start stop : Nat) (lenses : Addr)
  | lensIterator (it : Iter (RemoteLens T))
  | lens (lines : Addr) (firstLineNum : Nat)
  | lineIterator (it : Iter T)

namespace Obj
variable {T : Type}

/-- The type of a block. -/
def ty : Obj T → Ty
  | string _ => .string
  | version _ _ _ _ => .version
  | connection => .connection
  | event _ => .event
  | textIterator _ => .textIterator
  | textItem _ _ => .textItem
  | menuIterator _ => .menuIterator
  | statusIterator _ => .statusIterator
  | statusItem _ _ => .statusItem
  | viewIterator _ => .viewIterator
  | viewItem _ _ _ _ => .viewItem
  | lensIterator _ => .lensIterator
  | lens _ _ => .lens
  | lineIterator _ => .lineIterator

/-- The pointers in the fields of a block that a C program can see (an iterator is opaque). -/
def fields : Obj T → List Addr
  | version a b c d => [a, b, c, d]
  | event (.echo a) => [a]
  | event (.info a b) => [a, b]
  | event (.menu a b c d _) => [a, b, c, d]
  | event (.status a) => [a]
  | event (.view a) => [a]
  | textItem a b => [a, b]
  | statusItem _ a => [a]
  | viewItem a _ _ b => [a, b]
  | lens a _ => [a]
  | _ => []

end Obj

/-- The heap: what is at each address; nothing where the block was freed. -/
abbrev Heap (T : Type) := List (Option (Obj T))

/-- What goes wrong: the program uses a pointer that it should not; or the library panics. -/
inductive Fault where
  | memory
  | panic (p : Panic)
deriving DecidableEq

/-- The functions generated for `ffigen.toml` that free memory: remote-ffi-gen/src/lib.rs:100-121. -/
inductive Destroyer where
  | connection | event | textItem | textIterator | version | statusItem | statusIterator | viewItem | viewIterator
  | lens | lensIterator
deriving DecidableEq

/-- The type that such a function takes. -/
def Destroyer.ty : Destroyer → Ty
  | .connection => .connection
  | .event => .event
  | .textItem => .textItem
  | .textIterator => .textIterator
  | .version => .version
  | .statusItem => .statusItem
  | .statusIterator => .statusIterator
  | .viewItem => .viewItem
  | .viewIterator => .viewIterator
  | .lens => .lens
  | .lensIterator => .lensIterator

/-- The functions generated for `ffigen.toml` that give the next item: remote-ffi-gen/src/lib.rs:123-145. -/
inductive Nexter where
  | text | status | view | lens
deriving DecidableEq

/-- The type of iterators that such a function takes. -/
def Nexter.ty : Nexter → Ty
  | .text => .textIterator
  | .status => .statusIterator
  | .view => .viewIterator
  | .lens => .lensIterator

/-- A call of the library. -/
inductive HeapCall (T : Type) where
  /-- `ced_version()`: lib.rs:63-71; the four parts are those of the package -/
  | version (major minor patch pre : Str)
  /-- `ced_connection_create(..)`: connection.rs:16-44, whether it succeeds -/
  | connect (succeeds : Bool)
  /-- `ced_connection_next_event(p)`: connection.rs:46-70, the event that arrives in time, if any -/
  | nextEvent (p : Option Addr) (ev : Option (ConnectionEvent T))
  /-- `…_next_item(p)` -/
  | nextItem (f : Nexter) (p : Option Addr)
  /-- `…_destroy(p)` -/
  | destroy (f : Destroyer) (p : Option Addr)

namespace Heap
variable {T : Type}

/-- What is at an address. -/
def get (h : Heap T) (p : Addr) : Option (Obj T) := h[p]?.join

/-- lib.rs:14-19 `raw!`: a new block. -/
def alloc (h : Heap T) (o : Obj T) : Heap T × Addr := (h ++ [some o], h.length)

/-- lib.rs:21-27 `cstring!`. -/
def string (h : Heap T) (s : Str) : Except Fault (Heap T × Addr) :=
  if Char.ofNat 0 ∈ s then .error (.panic .unwrap) else .ok (h.alloc (.string s))

/-- event.rs:37-64 `From<ConnectionEvent>` and the block of the event (connection.rs:65). -/
def event (frags : T → List Fragment) (h : Heap T) : ConnectionEvent T → Except Fault (Heap T × Addr)
  | .echo t =>
    let (h, q) := h.alloc (.textIterator (.ofList (frags t)))
    .ok (h.alloc (.event (.echo q)))
  | .info c s => do
    let (h, a) ← h.string c
    let (h, b) ← h.string s
    return h.alloc (.event (.info a b))
  | .menu m => do
    let (h, a) ← h.string m.command
    let (h, b) ← h.string m.title
    let (h, c) ← h.string m.search
    let (h, d) := h.alloc (.menuIterator (.ofList m.entries))
    return h.alloc (.event (.menu a b c d (asU32 m.selected)))
  | .status l =>
    let (h, q) := h.alloc (.statusIterator (.ofList l))
    .ok (h.alloc (.event (.status q)))
  | .view l =>
    let (h, q) := h.alloc (.viewIterator (.ofList l))
    .ok (h.alloc (.event (.view q)))
  | .hint _ => .error (.panic .explicit)
  | .connErr => .error (.panic .explicit)
  | .noop => .error (.panic .explicit)

/-- text.rs:12-19 -/
def textItem (h : Heap T) (f : Fragment) : Except Fault (Heap T × Addr) := do
  let (h, a) ← h.string f.1
  let (h, b) ← h.string f.2
  return h.alloc (.textItem a b)

/-- event.rs:95-102 -/
def statusItem (frags : T → List Fragment) (h : Heap T) (i : Int × T) : Except Fault (Heap T × Addr) :=
  let (h, a) := h.alloc (.textIterator (.ofList (frags i.2)))
  .ok (h.alloc (.statusItem (asI32 i.1) a))

/-- event.rs:115-124 -/
def viewItem (h : Heap T) (i : RemoteItem T) : Except Fault (Heap T × Addr) := do
  let (h, a) ← h.string i.buffer
  let (h, b) := h.alloc (.lensIterator (.ofList i.lenses))
  return h.alloc (.viewItem a (asU32 i.start) (asU32 i.stop) b)

/-- event.rs:135-142 -/
def lensItem (h : Heap T) (l : RemoteLens T) : Except Fault (Heap T × Addr) :=
  let (h, a) := h.alloc (.lineIterator (.ofList l.lines))
  .ok (h.alloc (.lens a (asU32 l.firstLineNum)))

/-- lib.rs:45-53 `next` and remote-ffi-gen/src/lib.rs:127-139, on the iterator that is at `p`: it is advanced, then its item
is made. -/
def advance {α : Type} (make : Heap T → α → Except Fault (Heap T × Addr)) (h : Heap T) (p : Addr) (wrap : Iter α → Obj T)
    (it : Iter α) : Except Fault (Heap T × Option Addr) :=
  match it.items[it.nextIdx]? with
  | none => .ok (h, none)
  | some x => do
    let (h, q) ← make (h.set p (some (wrap { it with nextIdx := it.nextIdx + 1 }))) x
    return (h, some q)

/-- A call: the heap after it and the pointer it returns (null for functions that return nothing). -/
def step (frags : T → List Fragment) (h : Heap T) : HeapCall T → Except Fault (Heap T × Option Addr)
  | .version a b c d => do
    let (h, a) ← h.string a
    let (h, b) ← h.string b
    let (h, c) ← h.string c
    let (h, d) ← h.string d
    let (h, q) := h.alloc (.version a b c d)
    return (h, some q)
  | .connect false => .ok (h, none)
  | .connect true =>
    let (h, q) := h.alloc .connection
    .ok (h, some q)
  | .nextEvent none _ => .error .memory
  | .nextEvent (some p) ev =>
    match h.get p with
    | some .connection =>
      match ev with
      | none => .ok (h, none)
      | some ev => do
        let (h, q) ← h.event frags ev
        return (h, some q)
    | _ => .error .memory
  | .nextItem _ none => .error .memory
  | .nextItem f (some p) =>
    match f, h.get p with
    | .text, some (.textIterator it) => h.advance textItem p .textIterator it
    | .status, some (.statusIterator it) => h.advance (statusItem frags) p .statusIterator it
    | .view, some (.viewIterator it) => h.advance viewItem p .viewIterator it
    | .lens, some (.lensIterator it) => h.advance lensItem p .lensIterator it
    | _, _ => .error .memory
  | .destroy _ none => .ok (h, none)
  | .destroy f (some p) =>
    match h.get p with
    | some o => if o.ty = f.ty then .ok (h.set p none, none) else .error .memory
    | none => .error .memory

end Heap
end Ced.Ffi
