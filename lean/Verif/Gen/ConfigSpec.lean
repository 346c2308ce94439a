import Verif.Gen.Config
/-
What configuration means: a value for each path of keys.
-/
namespace Verif.Gen.Config

/-- What is at a path of keys. -/
def Table.at : Table → List String → Option Value
  | t, [] => some (.table t)
  | t, k :: ks =>
    match t.get k with
    | some (.table t') => t'.at ks
    | some (.leaf kd v) => if ks = [] then some (.leaf kd v) else none
    | none => none

/-- The setting at a path: a value that is not a table. -/
def Table.setting (t : Table) (p : List String) : Option (Kind × String) :=
  match t.at p with
  | some (.leaf k v) => some (k, v)
  | _ => none

/-- The type of what is at a path; `none` inside is a table. -/
def Table.type (t : Table) (p : List String) : Option (Option Kind) :=
  match t.at p with
  | some (.leaf k _) => some (some k)
  | some (.table _) => some none
  | none => none

def Table.keys : Table → List String
  | .nil => []
  | .cons k _ r => k :: r.keys

mutual
  /-- No key is there twice. -/
  def Value.Proper : Value → Prop
    | .leaf _ _ => True
    | .table t => t.Proper
  def Table.Proper : Table → Prop
    | .nil => True
    | .cons k v r => k ∉ r.keys ∧ v.Proper ∧ r.Proper
end

/-- Somewhere the two have values of different types. -/
def Conflict (a b : Table) : Prop := ∃ p x y, a.type p = some x ∧ b.type p = some y ∧ x ≠ y

end Verif.Gen.Config
