import Verif.Model.SessionName

/-!
# Short names of buffers (core/src/editor/buffer.rs:12-57, 119-122)

A path is taken apart into its components, the innermost first (Unix paths).
-/

namespace Ced

/-- An absolute path, its components with the last one first. -/
structure FilePath where
  rev : List Str
deriving DecidableEq, Repr

namespace FilePath

/-- The path of a source (components as given by `Path::components`). -/
def ofPath (p : Path) : FilePath := ⟨p.reverse⟩

/-- `Path::parent` -/
def parent (p : FilePath) : Option FilePath :=
  match p.rev with
  | [] => none
  | _ :: r => some ⟨r⟩

/-- `Path::file_name` -/
def fileName (p : FilePath) : Option Str :=
  match p.rev with
  | [] => none
  | c :: _ => if c = ['.', '.'] then none else some c

end FilePath

namespace ShortName

/-- buffer.rs:12-36 `find_uniq_name`, by recursion on the components of the path; `parent().unwrap()` and
`file_name().unwrap()` panic on the root and on `..`. -/
def findUniqName : (rev : List Str) → (acc : Str) → (pathSet : List FilePath) → R Str
  | [], _, _ => .error .unwrap
  | tail :: head, acc, pathSet =>
    if tail = ['.', '.'] then .error .unwrap else
      let found := pathSet.countP fun x => x.fileName = some tail
      let newAcc := if acc = [] then tail else tail ++ '/' :: acc
      if found > 1 then findUniqName head newAcc (pathSet.filterMap FilePath.parent)
      else .ok newAcc

/-- buffer.rs:46-53 the paths of the files among the sources -/
def pathSet (sources : List BufferSource) : List FilePath :=
  sources.filterMap fun s => match s with
    | .scratch _ => none
    | .file p => some (FilePath.ofPath p)

/-- buffer.rs:44-57 `find_shortest_name` of a source -/
def findShortestName (sources : List BufferSource) : BufferSource → R Str
  | .scratch name => .ok name
  | .file p => findUniqName (FilePath.ofPath p).rev [] (pathSet sources)

/-- buffer.rs:119-122 `shortest_name` -/
def shortestName (source : BufferSource) (sources : List BufferSource) : R Str := do
  let s ← unwrapR (sources.find? (· = source))
  findShortestName sources s

end ShortName
end Ced
