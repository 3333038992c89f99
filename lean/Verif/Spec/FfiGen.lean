import Verif.Model.FfiGen

/-! # The names of the generated C functions (C82) -/

namespace Ced.Spec
open FfiGen

/-- `char::is_uppercase` on ASCII -/
def AsciiUpper (upper : Char → Bool) : Prop := ∀ c : Char, c.toNat < 128 → upper c = c.isUpper

/-- A type name in Pascal case: ASCII letters and digits, the first one (if any) an upper case letter. -/
def Pascal (s : Str) : Prop := (∀ c ∈ s, c.isAlphanum = true) ∧ ∀ c r, s = c :: r → c.isUpper = true

/-- A word of such a name: an upper case letter, then lower case letters and digits. -/
def CapitalWord (w : Str) : Prop := ∃ c r, w = c :: r ∧ c.isUpper = true ∧ ∀ d ∈ r, d.isLower = true ∨ d.isDigit = true

/-- The words of a name, in lower case, with underscores in between. -/
def underscored (ws : List Str) : Str := List.intercalate ['_'] (ws.map fun w => w.map Char.toLower)

/-- What the items of an iterator are called: the name without its ending `Item`, or `Iterator`. -/
def ItemsOf (symbol base : Str) : Prop :=
  if (str!"Item").isSuffixOf symbol then symbol = base ++ str!"Item"
  else if (str!"Iterator").isSuffixOf symbol then symbol = base ++ str!"Iterator"
  else symbol = base

/-- What a C program can do with the interface: free a value of a type, get the next item of an iterator. -/
inductive CFunction where
  | free (type : Str)
  | next (iterator item : Str)
deriving DecidableEq, Repr

/-- What a declaration is for. -/
def _root_.Ced.FfiGen.Decl.does : Decl → CFunction
  | .destroy _ type => .free type
  | .nextItem _ it item => .next it item

/-- A name with the prefix: the prefix is not repeated. -/
def WithPrefix (pre base name : Str) : Prop := (pre <+: base ∧ name = base) ∨ (¬ pre <+: base ∧ name = pre ++ base)

/-- The types of the interface: those of the configuration, and an iterator type for each structure with an iterator. -/
def IsType (cfg : Config) (t : Str) : Prop :=
  ∃ st ∈ cfg.structures, t = st.symbol ∨ st.iterator = true ∧ ∃ base, ItemsOf st.symbol base ∧ t = base ++ str!"Iterator"

/-- What the file says of a function: its name, what it takes and what it gives are in their places. -/
def declared : Decl → Str
  | .destroy name type =>
    str!"#[no_mangle] pub unsafe extern \"C\" fn " ++ name ++ str!"(p: *mut " ++ type ++
      str!") { if !p.is_null() { drop(Box::from_raw(p)) } }\n"
  | .nextItem name iterator item =>
    str!"#[no_mangle] pub unsafe extern \"C\" fn " ++ name ++ str!"(p: *mut " ++ iterator ++ str!") -> *mut " ++ item ++
      str!" { let iterator = &mut *p; match iterator.next() { Some(item) => Box::into_raw(Box::new(item)), None => ptr::null_mut(), } }\n"

end Ced.Spec
