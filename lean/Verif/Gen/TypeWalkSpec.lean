import Verif.Meta.Types
/- Which types occur in a type. -/
namespace Verif.Gen
open Verif.Meta

/-- The types a type is directly made of. -/
def parts : MTy → List MTy
  | .optional t | .sequence t | .set t | .box t | .custom _ _ t => [t]
  | .map k v => [k, v]
  | _ => []

/-- `Inside u t`: the type `u` is `t` or occurs somewhere in it. -/
inductive Inside (u : MTy) : MTy → Prop
  | refl : Inside u u
  | part {s t : MTy} : s ∈ parts t → Inside u s → Inside u t

/-- No `Box` occurs in the type. -/
def boxFree : MTy → Bool
  | .box _ => false
  | .optional t | .sequence t | .set t | .custom _ _ t => boxFree t
  | .map k v => boxFree k && boxFree v
  | _ => true

/-- The names of user-defined types in a type, from left to right. -/
def namesIn : MTy → List String
  | .object _ n _ | .record _ n | .enum _ n | .callbackInterface _ n => [n]
  | .custom _ n t => n :: namesIn t
  | .optional t | .sequence t | .set t | .box t => namesIn t
  | .map k v => namesIn k ++ namesIn v
  | _ => []

/-- A type with all names blanked: everything but the names. -/
def blank : MTy → MTy
  | .object m _ i => .object m "" i
  | .record m _ => .record m ""
  | .enum m _ => .enum m ""
  | .callbackInterface m _ => .callbackInterface m ""
  | .custom m _ t => .custom m "" (blank t)
  | .optional t => .optional (blank t)
  | .sequence t => .sequence (blank t)
  | .set t => .set (blank t)
  | .box t => .box (blank t)
  | .map k v => .map (blank k) (blank v)
  | t => t

/-- The module paths of the user-defined types in a type, from left to right. -/
def pathsIn : MTy → List String
  | .object m _ _ | .record m _ | .enum m _ | .callbackInterface m _ => [m]
  | .custom m _ t => m :: pathsIn t
  | .optional t | .sequence t | .set t | .box t => pathsIn t
  | .map k v => pathsIn k ++ pathsIn v
  | _ => []

/-- A type without its module paths and without `Box`, which foreign languages do not have. -/
def pathless : MTy → MTy
  | .object _ n i => .object "" n i
  | .record _ n => .record "" n
  | .enum _ n => .enum "" n
  | .callbackInterface _ n => .callbackInterface "" n
  | .custom _ n t => .custom "" n (pathless t)
  | .optional t => .optional (pathless t)
  | .sequence t => .sequence (pathless t)
  | .set t => .set (pathless t)
  | .box t => pathless t
  | .map k v => .map (pathless k) (pathless v)
  | t => t

/-- The module path where a user-defined type is declared. -/
def declaredIn : MTy → Option String
  | .object m _ _ | .record m _ | .enum m _ | .callbackInterface m _ | .custom m _ _ => some m
  | _ => none

/-- `Reaches fields u t`: `u` occurs in `t`, or in a field of a user-defined type that is reached
from `t`. `fields` gives the types of the fields of the user-defined types. -/
inductive Reaches (fields : MTy → Option (List MTy)) (t : MTy) : MTy → Prop
  | inside {u : MTy} : Inside u t → Reaches fields t u
  | field {u v f : MTy} {fs : List MTy} :
      Reaches fields t v → fields v = some fs → f ∈ fs → Inside u f → Reaches fields t u

end Verif.Gen
