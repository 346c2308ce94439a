import Verif.Meta.Types
/- Recursive types. -/
namespace Verif.Gen
open Verif.Meta

/-- The definition `a` has a field in which the record or enum `b` is stored: directly, or in an
option, list, set, map or box. -/
inductive Stores (b : String) : MTy → Prop
  | record (m : String) : Stores b (.record m b)
  | enum (m : String) : Stores b (.enum m b)
  | optional {t : MTy} : Stores b t → Stores b (.optional t)
  | sequence {t : MTy} : Stores b t → Stores b (.sequence t)
  | set {t : MTy} : Stores b t → Stores b (.set t)
  | box {t : MTy} : Stores b t → Stores b (.box t)
  | key {k v : MTy} : Stores b k → Stores b (.map k v)
  | value {k v : MTy} : Stores b v → Stores b (.map k v)

/-- `a` stores `b` in one of its fields. -/
def Edge (defs : List (String × List MTy)) (a b : String) : Prop :=
  ∃ fields, (a, fields) ∈ defs ∧ ∃ t ∈ fields, Stores b t

/-- There is a way of one or more edges. -/
inductive Way (edge : String → String → Prop) : String → String → Prop
  | one {a b : String} : edge a b → Way edge a b
  | more {a b c : String} : edge a b → Way edge b c → Way edge a c

/-- A chain of edges through the given names. -/
def Chain (edge : String → String → Prop) : List String → Prop
  | [] => True
  | [_] => True
  | a :: b :: rest => edge a b ∧ Chain edge (b :: rest)

/-- The names form a cycle: each stores the next and the last one stores the first. -/
def Cycle (edge : String → String → Prop) (l : List String) : Prop :=
  ∃ first rest, l = first :: rest ∧ Chain edge (l ++ [first])

end Verif.Gen
