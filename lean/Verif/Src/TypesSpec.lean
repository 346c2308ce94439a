import Verif.Src.Types
/-
What a type in a signature stands for, without caches and without an order of search.
-/
namespace Verif.Src
open Verif.Meta

/-- The item at `q` can be imported by other crates from the public module `modulePath`, and the bindings
call it `name`: as its attributes say, or else as it is declared. -/
def PublicName (ir : Ir) (q : RPath) (modulePath name : String) : Prop :=
  ∃ target ident m imp, q.getLast? = some target ∧ target.ident = some ident ∧ Public ir m ∧ m.head? = q.head? ∧
    modulePath = pathString m ∧ Exports ir target.addr m imp ∧ name = target.nameFromAttrs.getD ident.show

/-- Types without parameters. -/
def Builtin.plain : Builtin → Option STy
  | .unitType => some .unit | .boolean => some .boolean | .string => some .string | .str => some .str
  | .uint8 => some .uint8 | .int8 => some .int8 | .uint16 => some .uint16 | .int16 => some .int16
  | .uint32 => some .uint32 | .int32 => some .int32 | .uint64 => some .uint64 | .int64 => some .int64
  | .float32 => some .float32 | .float64 => some .float64
  | .systemTime => some .systemTime | .duration => some .duration
  | .unexpectedUniFFICallbackError => some .unexpectedCallbackError
  | _ => none

/-- Types with one parameter. -/
def Builtin.one : Builtin → Option (STy → STy)
  | .option => some .option | .vec => some .vec | .arc => some .arc | .box => some .box | .hashSet => some .hashSet
  | _ => none

/-- Types with two parameters. -/
def Builtin.two : Builtin → Option (STy → STy → STy)
  | .hashMap => some .hashMap | .result => some .result
  | _ => none

/-- The type is not one of the type parameters in scope. -/
def NotParam (env : Env) (path : Path) (args : List Ty) : Prop :=
  ∀ x t, (x, t) ∈ env → ¬ (path = ⟨false, [x]⟩ ∧ args = [])

mutual
/-- `Means ir env p ty t`: the type `ty`, written in the module at `p`, where the type parameters `env` are in
scope, stands for `t`. -/
inductive Means (ir : Ir) : Env → RPath → Ty → STy → Prop
  | param {env p x t} : env.lookup x = some t → Means ir env p (.path ⟨false, [x]⟩ []) t
  | self {env p} : Means ir env p (.path ⟨false, [⟨false, "Self"⟩]⟩ []) .selfTy
  | unit {env p} : Means ir env p .unit .unit
  | reference {env p mutable ty t} : Means ir env p ty t → Means ir env p (.reference mutable ty) (.ref mutable t)
  | slice {env p ty t} : Means ir env p ty t → Means ir env p (.slice ty) (.slice t)
  | record {env p path q id ident vis attr remote m n} : NotParam env path [] → Denotes ir p path .type q →
      q.getLast? = some (.decl id .record ident vis attr remote) → PublicName ir q m n →
      Means ir env p (.path path []) (.record m n)
  | enum {env p path q id ident vis attr remote m n} : NotParam env path [] → Denotes ir p path .type q →
      q.getLast? = some (.decl id .enum ident vis attr remote) → PublicName ir q m n →
      Means ir env p (.path path []) (.enum m n)
  | object {env p path q id ident vis attr remote m n} : NotParam env path [] → Denotes ir p path .type q →
      q.getLast? = some (.decl id .object ident vis attr remote) → PublicName ir q m n →
      Means ir env p (.path path []) (.object m n)
  /-- The crate that contains the trait decides where the bindings look for it. -/
  | trait {env p path q exportTy id ident vis attr remote m} : Denotes ir p path .type q →
      q.getLast? = some (.decl id (.trait exportTy) ident vis attr remote) → Canon ir m → m.head? = q.head? →
      Means ir env p (.dyn [path]) (.trait (pathString m) (attr.getD ident.name) exportTy)
  | udlTrait {env p path q id m n kind} : Denotes ir p path .type q →
      q.getLast? = some (.udl id (.object m n (.trait kind))) →
      Means ir env p (.dyn [path]) (.trait m n (.traitInterface kind))
  | udlCallback {env p path q id m n} : Denotes ir p path .type q →
      q.getLast? = some (.udl id (.callbackInterface m n)) →
      Means ir env p (.dyn [path]) (.trait m n .callbackInterface)
  | udl {env p path args q id t} : NotParam env path args → Denotes ir p path .type q →
      q.getLast? = some (.udl id t) → Means ir env p (.path path args) (.udl t)
  | plain {env p path b t} : NotParam env path [] → Denotes ir p path .type [.builtin b] → b.plain = some t →
      Means ir env p (.path path []) t
  | one {env p path b f arg t} : NotParam env path [arg] → Denotes ir p path .type [.builtin b] → b.one = some f →
      Means ir env p arg t → Means ir env p (.path path [arg]) (f t)
  | two {env p path b f arg1 arg2 t1 t2} : NotParam env path [arg1, arg2] → Denotes ir p path .type [.builtin b] →
      b.two = some f → Means ir env p arg1 t1 → Means ir env p arg2 t2 →
      Means ir env p (.path path [arg1, arg2]) (f t1 t2)
  /-- The type of an alias, with the arguments for its parameters. -/
  | alias {env p path args q id ps target ident vis attr remote env' t} : NotParam env path args →
      Denotes ir p path .type (q ++ [.decl id (.alias ps target) ident vis attr remote]) →
      MeansArgs ir env p q [] ps args env' → Means ir env' q target t → Means ir env p (.path path args) t
  /-- A custom type, which is made from another type in the module that defines it. -/
  | custom {env p path args q id builtin ident vis attr remote t} : NotParam env path args →
      Denotes ir p path .type (q ++ [.decl id (.custom builtin) ident vis attr remote]) →
      Means ir [] q builtin t → Means ir env p (.path path args) (.custom (pathString q) ident.name t)

/-- The parameters of an alias: an argument is written where the alias is used, a default is written in the
module of the alias `q` and may use the parameters before it. -/
inductive MeansArgs (ir : Ir) : Env → RPath → RPath → Env → List (Ident × Option Ty) → List Ty → Env → Prop
  | nil {env p q acc} : MeansArgs ir env p q acc [] [] acc
  | arg {env p q acc x d ps arg args t e} : Means ir env p arg t → MeansArgs ir env p q (acc ++ [(x, t)]) ps args e →
      MeansArgs ir env p q acc ((x, d) :: ps) (arg :: args) e
  | default {env p q acc x d ps t e} : Means ir acc q d t → MeansArgs ir env p q (acc ++ [(x, t)]) ps [] e →
      MeansArgs ir env p q acc ((x, some d) :: ps) [] e
end

/-- The types that have to be looked at to find out what a type means: `Occurs ir p ty p' ty'` if the type
`ty` at `p` contains `ty'`, or an alias or custom type in it leads to `ty'` in the module at `p'`. -/
inductive Occurs (ir : Ir) : RPath → Ty → RPath → Ty → Prop
  | here {p ty} : Occurs ir p ty p ty
  | reference {p mutable ty p' ty'} : Occurs ir p ty p' ty' → Occurs ir p (.reference mutable ty) p' ty'
  | slice {p ty p' ty'} : Occurs ir p ty p' ty' → Occurs ir p (.slice ty) p' ty'
  | arg {p path args arg p' ty'} : arg ∈ args → Occurs ir p arg p' ty' → Occurs ir p (.path path args) p' ty'
  | alias {p path args q id ps target ident vis attr remote p' ty'} :
      Denotes ir p path .type (q ++ [.decl id (.alias ps target) ident vis attr remote]) →
      Occurs ir q target p' ty' → Occurs ir p (.path path args) p' ty'
  | default {p path args q id ps target ident vis attr remote x d p' ty'} :
      Denotes ir p path .type (q ++ [.decl id (.alias ps target) ident vis attr remote]) →
      (x, some d) ∈ ps → Occurs ir q d p' ty' → Occurs ir p (.path path args) p' ty'
  | custom {p path args q id builtin ident vis attr remote p' ty'} :
      Denotes ir p path .type (q ++ [.decl id (.custom builtin) ident vis attr remote]) →
      Occurs ir q builtin p' ty' → Occurs ir p (.path path args) p' ty'

/-- Every trait behind a `dyn` belongs to the crate in which the `dyn` is written, and is not renamed. -/
def TraitsLocal (ir : Ir) (p : RPath) (ty : Ty) : Prop :=
  ∀ p' path q id exportTy ident vis attr remote, Occurs ir p ty p' (.dyn [path]) → Denotes ir p' path .type q →
    q.getLast? = some (.decl id (.trait exportTy) ident vis attr remote) → q.head? = p'.head? ∧ attr = none

/-- No type parameter of an alias has the name of an item in the module of the alias. -/
def ParamsFresh (ir : Ir) (p : RPath) (ty : Ty) : Prop :=
  ∀ p' path args q id ps target ident vis attr remote, Occurs ir p ty p' (.path path args) →
    Denotes ir p' path .type (q ++ [.decl id (.alias ps target) ident vis attr remote]) →
    ∀ x d, (x, d) ∈ ps → ∀ r, ¬ Denotes ir q ⟨false, [x]⟩ .type r

/-- The root of every crate is a module. -/
def Ir.RootsModules (ir : Ir) : Prop :=
  ∀ crate m, ir.root crate = some m → ∃ id ident vis items, m = .module id ident vis items

/-- Every item has a path of its own. -/
def Ir.OnlyPaths (ir : Ir) : Prop := ∀ p, Canon ir p → RPath.isDecl p = true → OnlyPath ir p

/-- The path at the head of a type, behind references and slices. -/
inductive Head (path : Path) : Ty → Prop
  | path {args} : Head path (.path path args)
  | reference {mutable ty} : Head path ty → Head path (.reference mutable ty)
  | slice {ty} : Head path ty → Head path (.slice ty)

/-- A path anywhere in a type. -/
inductive Within (path : Path) : Ty → Prop
  | here {args} : Within path (.path path args)
  | arg {path' args arg} : arg ∈ args → Within path arg → Within path (.path path' args)
  | reference {mutable ty} : Within path ty → Within path (.reference mutable ty)
  | slice {ty} : Within path ty → Within path (.slice ty)

/-- A path in a generic argument of a type. -/
inductive InArg (path : Path) : Ty → Prop
  | arg {path' args arg} : arg ∈ args → Within path arg → InArg path (.path path' args)
  | reference {mutable ty} : InArg path ty → InArg path (.reference mutable ty)
  | slice {ty} : InArg path ty → InArg path (.slice ty)

/-- The aliases and custom types can be ordered: what an alias or custom type has in its definition comes
before it. Only the head of an alias may go round in a circle: `type A = B; type B = A;`. -/
structure Ranked (ir : Ir) (rank : RPath → Nat) (bound : Nat) : Prop where
  bound {r} : rank r < bound
  head {q id ps target ident vis attr remote path r} :
    Canon ir (q ++ [.decl id (.alias ps target) ident vis attr remote]) → Head path target →
    Denotes ir q path .type r → rank r ≤ rank (q ++ [.decl id (.alias ps target) ident vis attr remote])
  arg {q id ps target ident vis attr remote path r} :
    Canon ir (q ++ [.decl id (.alias ps target) ident vis attr remote]) → InArg path target →
    Denotes ir q path .type r → rank r < rank (q ++ [.decl id (.alias ps target) ident vis attr remote])
  default {q id ps target ident vis attr remote x d path r} :
    Canon ir (q ++ [.decl id (.alias ps target) ident vis attr remote]) → (x, some d) ∈ ps → Within path d →
    Denotes ir q path .type r → rank r < rank (q ++ [.decl id (.alias ps target) ident vis attr remote])
  custom {q id builtin ident vis attr remote path r} :
    Canon ir (q ++ [.decl id (.custom builtin) ident vis attr remote]) → Within path builtin →
    Denotes ir q path .type r → rank r < rank (q ++ [.decl id (.custom builtin) ident vis attr remote])

end Verif.Src
