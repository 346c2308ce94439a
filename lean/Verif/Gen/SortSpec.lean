/- When one item needs another. -/
namespace Verif.Gen

/-- `Needs name deps items x y`: among the items, `x` depends on `y`, directly or through others. -/
inductive Needs {α : Type} (name : α → String) (deps : α → List String) (items : List α) :
    α → α → Prop
  | direct {x y : α} : y ∈ items → name y ∈ deps x → Needs name deps items x y
  | through {x y z : α} : y ∈ items → name y ∈ deps x → Needs name deps items y z →
      Needs name deps items x z

end Verif.Gen
