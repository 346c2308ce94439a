/-
The dependency sort of the generators: uniffi_bindgen/src/pipeline/general/sort.rs.
The kind of item is a parameter: `name` is `item_name`, `deps` is `dependency_names`.
-/
namespace Verif.Gen

/-- `IndexMap::insert`: a new key goes to the end, for an existing one the value is replaced. -/
def indexInsert {α : Type} (name : α → String) (x : α) : List α → List α
  | [] => [x]
  | y :: ys => if name y = name x then x :: ys else y :: indexInsert name x ys

/-- `DependencySorter::new`: sort.rs:39-49: the items are collected into an `IndexMap` by name. -/
def collectItems {α : Type} (name : α → String) (items : List α) : List α :=
  items.foldl (fun m x => indexInsert name x m) []

/-- `DependencySorter`: sort.rs:32-36. -/
structure SortSt (α : Type) where
  unsorted : List α
  sorted : List α

/-- `IndexMap::shift_remove`: the item and the remaining ones in the same order. -/
def shiftRemove {α : Type} (name : α → String) (n : String) : List α → Option (α × List α)
  | [] => none
  | x :: xs =>
    if name x = n then some (x, xs) else (shiftRemove name n xs).map fun p => (p.1, x :: p.2)

/-- `recurse`: sort.rs:58-70. `none` means that the fuel, the depth of recursion, is exhausted. -/
def sortRecurse {α : Type} (name : α → String) (deps : α → List String) :
    Nat → String → SortSt α → Option (SortSt α)
  | 0, _, _ => none
  | fuel + 1, n, st =>
    match shiftRemove name n st.unsorted with
    | none => some st
    | some (x, rest) =>
      ((deps x).foldlM (fun st d => sortRecurse name deps fuel d st) { st with unsorted := rest }).map
        fun st => { st with sorted := st.sorted ++ [x] }

/-- The loop of `sort`: sort.rs:51-56. -/
def sortLoop {α : Type} (name : α → String) (deps : α → List String) (depth : Nat) :
    Nat → SortSt α → Option (List α)
  | 0, _ => none
  | fuel + 1, st =>
    match st.unsorted with
    | [] => some st.sorted
    | x :: _ => (sortRecurse name deps depth (name x) st).bind (sortLoop name deps depth fuel)

/-- `DependencySorter::new(items, logic).sort()`. The fuel is shown to be enough. -/
def dependencySort {α : Type} (name : α → String) (deps : α → List String) (items : List α) :
    Option (List α) :=
  let m := collectItems name items
  sortLoop name deps (m.length + 1) (m.length + 1) { unsorted := m, sorted := [] }

end Verif.Gen
