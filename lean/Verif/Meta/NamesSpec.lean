import Verif.Meta.Names
/- Words for the claims about symbol names. -/
namespace Verif.Meta

/-- A function the library exports for an item: what it is for and the names it is made from. -/
inductive Sym where
  | func (name : String)
  | constructor (object name : String)
  | method (object name : String)
  | clone (object : String)
  | free (object : String)
  | initVtable (trait : String)
  | funcChecksum (name : String)
  | constructorChecksum (object name : String)
  | methodChecksum (object name : String)
  deriving DecidableEq, Repr

/-- The name of the symbol, for an item of `crate`. -/
def Sym.name (crate : String) : Sym → String
  | .func n => fnSymbol crate n
  | .constructor o n => constructorSymbol crate o n
  | .method o n => methodSymbol crate o n
  | .clone o => cloneSymbol crate o
  | .free o => freeSymbol crate o
  | .initVtable n => initVtableSymbol crate n
  | .funcChecksum n => fnChecksumSymbol crate n
  | .constructorChecksum o n => constructorChecksumSymbol crate o n
  | .methodChecksum o n => methodChecksumSymbol crate o n

/-- What the symbol is for. -/
def Sym.kind : Sym → Nat
  | .func _ => 0 | .constructor .. => 1 | .method .. => 2 | .clone _ => 3 | .free _ => 4
  | .initVtable _ => 5 | .funcChecksum _ => 6 | .constructorChecksum .. => 7 | .methodChecksum .. => 8

/-- The same symbol for items whose names are in lower case. -/
def Sym.lower : Sym → Sym
  | .func n => .func (asciiLower n)
  | .constructor o n => .constructor (asciiLower o) (asciiLower n)
  | .method o n => .method (asciiLower o) (asciiLower n)
  | .clone o => .clone (asciiLower o)
  | .free o => .free (asciiLower o)
  | .initVtable n => .initVtable (asciiLower n)
  | .funcChecksum n => .funcChecksum (asciiLower n)
  | .constructorChecksum o n => .constructorChecksum (asciiLower o) (asciiLower n)
  | .methodChecksum o n => .methodChecksum (asciiLower o) (asciiLower n)

/-- No underscore in the name of the object, so the underscore after it can be recognised. -/
def Sym.plain : Sym → Prop
  | .constructor o _ | .method o _ | .constructorChecksum o _ | .methodChecksum o _ =>
    '_' ∉ o.toList
  | _ => True

/-- The modules an item mentions as its own. -/
def Item.modulePaths : Item → List String
  | .namespace_ c _ => [c]
  | .udlFile m _ _ => [m]
  | .fn f => [f.modulePath]
  | .record m .. | .enum m .. | .error m .. | .object m .. | .callbackInterface m .. | .custom m ..
  | .objectTraitImpl m .. => [m]
  | .uniffiTrait (.debug f) | .uniffiTrait (.display f) | .uniffiTrait (.hash f)
  | .uniffiTrait (.ord f) => [f.modulePath]
  | .uniffiTrait (.eq e n) => [e.modulePath, n.modulePath]

end Verif.Meta
