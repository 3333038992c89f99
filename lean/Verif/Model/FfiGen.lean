import Verif.Model.Str

/-!
# The generator of the C interface (remote-ffi-gen/src/lib.rs)

It reads a list of structures from `ffigen.toml` and writes Rust declarations of C functions.  A declaration is its name and
the types in its signature; `Decl.text` is its text, made from the templates of lib.rs:111-118 and 131-140 by substitution.
Reading the file, TOML and the formatting of the result by `cargo fmt` are not modelled.
-/

namespace Ced.FfiGen

/-- remote-ffi-gen/src/lib.rs:8-17 `to_snake_case`; `upper` is `char::is_uppercase`, a Unicode class.  (`Char.toLower` is
`to_ascii_lowercase`.) -/
def toSnakeCase (upper : Char → Bool) : Str → Str
  | [] => []
  | c :: r => c.toLower :: r.flatMap fun d => if upper d then ['_', d.toLower] else [d.toLower]

/-- remote-ffi-gen/src/lib.rs:27-40 `struct Struct` (with `Functions`). -/
structure Struct where
  symbol : Str
  module : Str
  iterator : Bool
deriving DecidableEq, Repr

/-- remote-ffi-gen/src/lib.rs:23-25 `default_module` -/
def defaultModule : Str := str!"crate"

/-- `str::ends_with` -/
def endsWith (s suffix : Str) : Bool := suffix.isSuffixOf s

/-- remote-ffi-gen/src/lib.rs:43-51 `bare_type` -/
def bareType (symbol : Str) : Str :=
  if endsWith symbol (str!"Item") then symbol.take (symbol.length - 4)
  else if endsWith symbol (str!"Iterator") then symbol.take (symbol.length - 8)
  else symbol

/-- remote-ffi-gen/src/lib.rs:53-59 `iterator_struct` -/
def Struct.iteratorStruct (st : Struct) : Struct := ⟨bareType st.symbol ++ str!"Iterator", st.module, false⟩

/-- remote-ffi-gen/src/lib.rs:62-69 `struct Config` -/
structure Config where
  header : Str
  pre : Str
  structures : List Struct

/-- A generated function: `destroy` frees a value of its type; `nextItem` takes an iterator and gives its next item. -/
inductive Decl where
  /-- lib.rs:111-118 `pub unsafe extern "C" fn name(p: *mut type)` -/
  | destroy (name type : Str)
  /-- lib.rs:131-140 `pub unsafe extern "C" fn name(p: *mut iterator) -> *mut item` -/
  | nextItem (name iterator item : Str)
deriving DecidableEq, Repr

def Decl.name : Decl → Str
  | destroy name _ => name
  | nextItem name _ _ => name

/-- remote-ffi-gen/src/lib.rs:71-76 `struct SourceBuilder` -/
structure Builder where
  uses : List Str
  decls : List Decl

variable (upper : Char → Bool) (cfg : Config)

/-- remote-ffi-gen/src/lib.rs:94-97 `register_use` -/
def useOf (st : Struct) : Str := str!"use " ++ st.module ++ str!"::" ++ st.symbol ++ str!";"

/-- remote-ffi-gen/src/lib.rs:94-97 `register_use` -/
def Builder.registerUse (b : Builder) (st : Struct) : Builder := { b with uses := b.uses ++ [useOf st] }

/-- remote-ffi-gen/src/lib.rs:99-101 `register_decl` -/
def Builder.registerDecl (b : Builder) (d : Decl) : Builder := { b with decls := b.decls ++ [d] }

/-- remote-ffi-gen/src/lib.rs:107-109, 127-129: the prefix is put before a name that does not begin with it. -/
def prefixed (name : Str) : Str := if cfg.pre.isPrefixOf name then name else cfg.pre ++ name

/-- remote-ffi-gen/src/lib.rs:103-123 `register_fn_destroy` -/
def Builder.registerFnDestroy (b : Builder) (st : Struct) : Builder :=
  (b.registerUse st).registerDecl (.destroy (prefixed cfg (toSnakeCase upper st.symbol ++ str!"_destroy")) st.symbol)

/-- remote-ffi-gen/src/lib.rs:125-146 `register_fn_next_item` -/
def Builder.registerFnNextItem (b : Builder) (st item : Struct) : Builder :=
  b.registerDecl (.nextItem (prefixed cfg (toSnakeCase upper (bareType st.symbol) ++ str!"_next_item")) st.symbol item.symbol)

/-- remote-ffi-gen/src/lib.rs:148-155 `register_fns_iterator` -/
def Builder.registerFnsIterator (b : Builder) (st : Struct) : Builder :=
  let b := b.registerUse st
  let b := { b with uses := b.uses ++ [str!"use std::ptr;"] }
  let it := st.iteratorStruct
  (b.registerFnDestroy upper cfg it).registerFnNextItem upper cfg it st

/-- remote-ffi-gen/src/lib.rs:160-163: the body of the loop of `generate`. -/
def Builder.register (b : Builder) (st : Struct) : Builder :=
  let b := b.registerFnDestroy upper cfg st
  if st.iterator then b.registerFnsIterator upper cfg st else b

/-- The order of `String`s: that of their bytes in UTF-8, which is that of the code points. -/
def leStr : Str → Str → Bool
  | [], _ => true
  | _ :: _, [] => false
  | a :: r, b :: s => if a = b then leStr r s else decide (a.toNat < b.toNat)

/-- `Vec::dedup`: of equal neighbours, the first one is kept. -/
def dedup : List Str → List Str
  | [] => []
  | [x] => [x]
  | x :: y :: r => if x = y then dedup (y :: r) else x :: dedup (y :: r)

/-- remote-ffi-gen/src/lib.rs:157-168 `generate` (`sort` is stable; equal strings cannot be told apart). -/
def generate : Builder :=
  let b := cfg.structures.foldl (Builder.register upper cfg) ⟨[], []⟩
  { b with uses := dedup (b.uses.mergeSort leStr) }

/-- `join("\n")` -/
def lines (xs : List Str) : Str := List.intercalate ['\n'] xs

/-- `str::replace`: the occurrences of `pat` (not empty) are looked for from left to right and do not overlap; `skip` is what is
left of the occurrence that was found. -/
def replaceFrom (pat to : Str) : Nat → Str → Str
  | _, [] => []
  | skip + 1, _ :: r => replaceFrom pat to skip r
  | 0, c :: r => if pat.isPrefixOf (c :: r) then to ++ replaceFrom pat to (pat.length - 1) r else c :: replaceFrom pat to 0 r

/-- `str::replace` -/
def replace (text pat to : Str) : Str := replaceFrom pat to 0 text

/-- remote-ffi-gen/src/lib.rs:112-118.  `stringify!` gives the tokens with some white space in between; here there is one space
where the source has white space. -/
def destroyTemplate : Str :=
  str!"#[no_mangle] pub unsafe extern \"C\" fn _FUNCTION_(p: *mut _SYM_) { if !p.is_null() { drop(Box::from_raw(p)) } }"

/-- remote-ffi-gen/src/lib.rs:131-140, as above. -/
def nextItemTemplate : Str :=
  str!"#[no_mangle] pub unsafe extern \"C\" fn _FUNCTION_(p: *mut _SYM_) -> *mut _ITEM_ { let iterator = &mut *p; match iterator.next() { Some(item) => Box::into_raw(Box::new(item)), None => ptr::null_mut(), } }"

/-- remote-ffi-gen/src/lib.rs:110-122, 130-145: the text that is given to `register_decl`. -/
def Decl.text : Decl → Str
  | destroy name type => replace (replace destroyTemplate (str!"_FUNCTION_") name) (str!"_SYM_") type ++ ['\n']
  | nextItem name iterator item =>
    replace (replace (replace nextItemTemplate (str!"_FUNCTION_") name) (str!"_SYM_") iterator) (str!"_ITEM_") item ++ ['\n']

/-- remote-ffi-gen/src/lib.rs:169-178 `source` -/
def source (b : Builder) : Str :=
  lines [cfg.header, [], lines b.uses, [], lines (b.decls.map Decl.text)]

/-- remote-ffi/ffigen.toml: the configuration of ced (the header is lib.rs:19-21 `default_header`). -/
def ced : Config where
  header := str!"// This file is automatically generated when building."
  pre := str!"ced_"
  structures := [
    ⟨str!"CedConnection", str!"crate::connection", false⟩,
    ⟨str!"CedEvent", str!"crate::event", false⟩,
    ⟨str!"CedTextItem", str!"crate::text", true⟩,
    ⟨str!"CedVersion", defaultModule, false⟩,
    ⟨str!"StatusItem", str!"crate::event", true⟩,
    ⟨str!"ViewItem", str!"crate::event", true⟩,
    ⟨str!"ViewLens", str!"crate::event", true⟩]

/-- remote-ffi/src/event.rs:14-35, 66-71, 89-93, 106-113, 128-132: the iterators that an event contains, directly or in the
items of other iterators, with the type of their items (event.rs:87, 104, 126, 144, 146; text.rs:21). -/
def handedOut : List (Str × Str) := [
  (str!"CedTextIterator", str!"CedTextItem"),
  (str!"MenuIterator", str!"MenuItem"),
  (str!"StatusIterator", str!"StatusItem"),
  (str!"ViewIterator", str!"ViewItem"),
  (str!"ViewLensIterator", str!"ViewLens"),
  (str!"ViewLensLineIterator", str!"CedTextIterator")]

end Ced.FfiGen
