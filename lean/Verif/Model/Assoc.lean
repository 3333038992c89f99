import Verif.Basic

/-!
# Maps

`HashMap` as an association list with unique keys (convention of DESIGN.md: iteration follows the order of the list,
theorems quantify over the list, hence over the order).
-/

namespace Ced

/-- A finite map. -/
abbrev Assoc (K V : Type) := List (K × V)

namespace Assoc
variable {K V : Type} [DecidableEq K]

/-- `HashMap::get`. -/
def get (m : Assoc K V) (k : K) : Option V :=
  match m with
  | [] => none
  | (k', v) :: m => if k' = k then some v else get m k

/-- `HashMap::contains_key`. -/
def has (m : Assoc K V) (k : K) : Bool := (get m k).isSome

/-- `map[k]`: panics when there is no such key. -/
def at! (m : Assoc K V) (k : K) : R V :=
  match get m k with
  | some v => .ok v
  | none => .error .index

/-- `HashMap::insert`. -/
def set (m : Assoc K V) (k : K) (v : V) : Assoc K V :=
  match m with
  | [] => [(k, v)]
  | (k', v') :: m => if k' = k then (k, v) :: m else (k', v') :: set m k v

/-- `HashMap::remove`. -/
def del (m : Assoc K V) (k : K) : Assoc K V :=
  match m with
  | [] => []
  | (k', v) :: m => if k' = k then del m k else (k', v) :: del m k

/-- `map.entry(k).or_insert_with(|| v)`. -/
def orInsert (m : Assoc K V) (k : K) (v : V) : Assoc K V := if has m k then m else set m k v

/-- `HashMap::keys`. -/
def keys (m : Assoc K V) : List K := m.map Prod.fst

/-- `HashMap::iter_mut`/`values_mut`: change every value. -/
def mapVals {W : Type} (m : Assoc K V) (f : K → V → W) : Assoc K W := m.map fun kv => (kv.1, f kv.1 kv.2)

end Assoc
end Ced
