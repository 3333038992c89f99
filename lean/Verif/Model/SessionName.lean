import Verif.Model.Str

/-!
# Session names (remote/src/session.rs, remote/src/lib.rs)

Where a client connects and where the daemon it starts listens.  Paths are Unix paths, as lists of
characters; the regular expression's classes `\w` and `\d` (which are Unicode classes in the `regex`
crate) are a parameter.
-/

namespace Ced

/-- The Unicode classes `\w` and `\d` of the `regex` crate (session.rs:10-13). -/
structure Classes where
  word : Char → Bool
  digit : Char → Bool

/-- What is used of the classes: ASCII digits are digits and word characters, `.` and `:` are neither. -/
structure Classes.Ok (cls : Classes) : Prop where
  ascii : ∀ c : Char, c.isDigit = true → cls.word c = true ∧ cls.digit c = true
  dot : cls.word '.' = false ∧ cls.digit '.' = false
  colon : cls.word ':' = false ∧ cls.digit ':' = false

/-- The pieces of a string between the occurrences of a separator (`str::split`). -/
def pieces (sep : Char) : Str → List Str
  | [] => [[]]
  | c :: r => if c = sep then [] :: pieces sep r else
    match pieces sep r with
    | [] => [[c]]
    | p :: ps => (c :: p) :: ps

namespace SessionName

/-- An IPv4 socket address (`std::net::SocketAddrV4`). -/
structure Addr where
  a : Nat
  b : Nat
  c : Nat
  d : Nat
  port : Nat
deriving DecidableEq, Repr

/-- session.rs:20-24 `enum ConnectionMode` -/
inductive Mode where
  | socket (path : Str)
  | tcp (addr : Addr)
deriving DecidableEq, Repr

/-- `\d+\.\d\.\d+\.\d+` (session.rs:12): one single digit between the first two dots. -/
def dotted (cls : Classes) (s : Str) : Bool :=
  match pieces '.' s with
  | [w, x, y, z] => [w, x, y, z].all (fun p => p ≠ [] && p.all cls.digit) && x.length = 1
  | _ => false

/-- session.rs:10-13 `RE_ADDR.captures`: the groups `address` and `port`.  The regular expression is
deterministic up to its two alternatives, since neither group matches a colon. -/
def captures (cls : Classes) (s : Str) : Option (Option Str × Str) :=
  match s with
  | '@' :: r =>
    match pieces ':' r with
    | [a, p] =>
      if (p ≠ [] && p.all cls.digit) && (a = [] || a.all cls.word || dotted cls a) then
        some (if a = [] then none else some a, p)
      else none
    | _ => none
  | _ => none

/-- session.rs:27-29 `ConnectionMode::is_tcp` -/
def isTcp (cls : Classes) (s : Str) : Bool := (captures cls s).isSome

/-- One number of an address, as `std::net`'s parser reads it: ASCII digits, at most three, no leading
zero, at most 255. -/
def octet (s : Str) : Option Nat :=
  if s ≠ [] && s.all Char.isDigit && s.length ≤ 3 && (s.length = 1 || s.head? ≠ some '0') &&
      Nat.ofDigitChars 10 s 0 ≤ 255 then
    some (Nat.ofDigitChars 10 s 0)
  else none

/-- The port, as `std::net`'s parser reads it: ASCII digits, any number of leading zeros, at most 65535. -/
def portOf (s : Str) : Option Nat :=
  if s ≠ [] && s.all Char.isDigit && Nat.ofDigitChars 10 s 0 ≤ 65535 then
    some (Nat.ofDigitChars 10 s 0)
  else none

/-- `str::parse::<SocketAddr>` (session.rs:51-53) on strings without brackets, which cannot be IPv6
addresses. -/
def parseAddr (s : Str) : Option Addr :=
  match pieces ':' s with
  | [h, p] =>
    match pieces '.' h with
    | [a, b, c, d] => do
      let a ← octet a
      let b ← octet b
      let c ← octet c
      let d ← octet d
      let p ← portOf p
      return ⟨a, b, c, d, p⟩
    | _ => none
  | _ => none

/-- session.rs:42-59 `ConnectionMode::from_str`; a bad address is an `expect` panic. -/
def parse (cls : Classes) (s : Str) : R Mode :=
  match captures cls s with
  | some (address, port) => do
    let a ← unwrapR (parseAddr (address.getD str!"127.0.0.1" ++ ':' :: port))
    return .tcp a
  | none => return .socket s

/-- `PathBuf::push` (Unix): an absolute path replaces the path. -/
def push (root name : Str) : Str :=
  match name with
  | '/' :: _ => name
  | _ => if root.getLast? = some '/' then root ++ name else root ++ '/' :: name

/-- session.rs:74-85 `Session::from_name`, with the root of session.rs:68-72 `build_root` as a parameter
(`$TMPDIR/ced-$USER`). -/
def fromName (cls : Classes) (root name : Str) : R Mode :=
  parse cls (if isTcp cls name then name else push root name)

/-- `Path::file_name` (Unix): the last component, unless it is `..`. -/
def fileName (path : Str) : Option Str :=
  match ((pieces '/' path).filter fun p => p ≠ [] && p ≠ ['.']).getLast? with
  | some p => if p = ['.', '.'] then none else some p
  | none => none

/-- An address as `std::net` prints it. -/
def Addr.display (a : Addr) : Str :=
  natStr a.a ++ '.' :: natStr a.b ++ '.' :: natStr a.c ++ '.' :: natStr a.d ++ ':' :: natStr a.port

/-- session.rs:32-40 `Display for ConnectionMode` -/
def Mode.display : Mode → R Str
  | .socket path => unwrapR (fileName path)
  | .tcp a => return '@' :: a.display

/-- lib.rs:44-61 `start_daemon` and ced.rs:84-103: the daemon is given the printed mode as its session
name, and listens on the mode it makes of it. -/
def daemonMode (cls : Classes) (root : Str) (m : Mode) : R Mode := do
  fromName cls root (← m.display)

end SessionName
end Ced
