import Verif.Meta.Types
/-
Finding recursive types: uniffi_bindgen/src/pipeline/general/infer_recursive_enums.rs, also used by
uniffi_bindgen/src/interface/mod.rs:1228-1262.

Sets are lists. The order in which a `HashMap` or `HashSet` is iterated is not defined: here it is the
order of the lists, and the theorems hold for any.
-/
namespace Verif.Gen
open Verif.Meta

/-- `deps`: each type name with the names it contains. -/
abbrev DepGraph := List (String × List String)

/-- `deps.get(name)`. -/
def depsGet : DepGraph → String → Option (List String)
  | [], _ => none
  | (k, ds) :: rest, n => if k = n then some ds else depsGet rest n

/-- `stack.iter().position(|s| s == name)`. -/
def position (n : String) : List String → Option Nat
  | [] => none
  | s :: ss => if s = n then some 0 else (position n ss).map (· + 1)

/-- `visited` and `recursive`. -/
structure DfsSt where
  visited : List String
  recursive : List String
  deriving DecidableEq, Repr

/-- `dfs`: infer_recursive_enums.rs:87-117. `none`: the fuel, the depth of recursion, is exhausted. -/
def dfs (g : DepGraph) : Nat → String → List String → DfsSt → Option DfsSt
  | 0, _, _, _ => none
  | fuel + 1, n, stack, st =>
    if n ∈ st.visited then some st
    else
      match position n stack with
      | some pos => some { st with recursive := st.recursive ++ stack.drop pos }
      | none =>
        ((depsGet g n).getD []).foldlM (fun st d => dfs g fuel d (stack ++ [n]) st) st |>.map
          fun st => { st with visited := st.visited ++ [n] }

/-- The loop of `find_recursive_enum_names`: infer_recursive_enums.rs:74-85. -/
def findLoop (g : DepGraph) (fuel : Nat) : List String → DfsSt → Option DfsSt
  | [], st => some st
  | k :: ks, st => (dfs g fuel k [] st).bind (findLoop g fuel ks)

/-- `find_recursive_enum_names`. The fuel is shown to be enough. -/
def findRecursive (g : DepGraph) : Option (List String) :=
  (findLoop g (g.length + 2) (g.map Prod.fst) { visited := [], recursive := [] }).map (·.recursive)

/-- `type_names_in_type`: infer_recursive_enums.rs:124-141. -/
def typeNamesIn : MTy → List String
  | .enum _ n | .record _ n => [n]
  | .box t | .optional t | .sequence t | .set t => typeNamesIn t
  | .map k v => typeNamesIn k ++ typeNamesIn v
  | _ => []

/-- `type_dep_graph`: infer_recursive_enums.rs:27-50. A definition is its name and the types of its
fields, of all variants for an enum. -/
def typeDepGraph (defs : List (String × List MTy)) : DepGraph :=
  defs.map fun d => (d.1, d.2.flatMap typeNamesIn)

/-- `infer_recursive_types`: infer_recursive_enums.rs:16-20: which definitions are marked. -/
def inferRecursive (defs : List (String × List MTy)) : Option (List (String × Bool)) :=
  (findRecursive (typeDepGraph defs)).map fun r => defs.map fun d => (d.1, decide (d.1 ∈ r))

end Verif.Gen
