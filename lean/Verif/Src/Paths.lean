import Verif.Src.Syntax
/-
Looking up the item that a path denotes: uniffi_parse_rs/src/paths.rs.

`child` and the functions below it call each other, and `child` keeps a cache. The functions below
`child` are written as programs that may ask for a child (`Prog.ask`) and go on with the answer; `child`
itself, at the end, runs such a program and answers from the cache or by calling itself. `child` has
fuel, since the code recurses without an argument that gets smaller; Verif.Props.Paths shows how much is
enough.
-/
namespace Verif.Src

/-- The kinds of errors: errors.rs:37-104. `panic` is the panic of `file_id`, paths.rs:106-108. `fuel`
does not occur in the code. -/
inductive Err where
  | notFound | cycleDetected | superInvalid | crateInvalid | nameConflict | noPubPath | internal
  | invalidType | invalidGenericArg | tooManyGenericArgs | missingGenericArg | invalidGenericArgLength
  | traitWithoutDyn | invalidDynTrait | expectedTrait | invalidReturnType | invalidSelfType
  | invalidDefault | syn
  | panic | fuel
  deriving DecidableEq, Repr

abbrev Res (α : Type) := Except Err α

/-- `RPath`: paths.rs:30-33. The items from the root module of the crate to the item. -/
abbrev RPath := List Item

/-- A program that may call `RPath::child` any number of times. -/
inductive Prog (α : Type) where
  | ret (a : α)
  | ask (p : RPath) (ident : Ident) (ns : Ns) (k : Res RPath → Prog α)

def Prog.bind {α β : Type} : Prog α → (α → Prog β) → Prog β
  | .ret a, f => f a
  | .ask p ident ns k, f => .ask p ident ns fun r => (k r).bind f

/-- A call of `RPath::child`. -/
def lookup (p : RPath) (ident : Ident) (ns : Ns) : Prog (Res RPath) := .ask p ident ns .ret

/-- Runs a program, calling `child` with a state. -/
def Prog.run {σ α : Type} (child : RPath → Ident → Ns → σ → Res RPath × σ) : Prog α → σ → α × σ
  | .ret a, s => (a, s)
  | .ask p ident ns k, s => (k (child p ident ns s).1).run child (child p ident ns s).2

/-- Runs a program with a `child` that has no state. -/
def Prog.eval {α : Type} (child : RPath → Ident → Ns → Res RPath) : Prog α → α
  | .ret a => a
  | .ask p ident ns k => (k (child p ident ns)).eval child

namespace RPath

/-- `RPath::module`: paths.rs:95-104. -/
def module (p : RPath) : Option (Nat × List Item) :=
  p.reverse.findSome? fun i => match i with
    | .module id _ _ items => some (id, items)
    | _ => none

/-- `Error::new(self.file_id(), ..)`: paths.rs:106-108. -/
def err (p : RPath) (e : Err) : Err := if (RPath.module p).isSome then e else .panic

/-- `RPath::parent`: paths.rs:66-76. -/
def parent (p : RPath) : Res RPath :=
  match p with
  | [] => .error .internal
  | [_] => .error .internal
  | p => .ok p.dropLast

/-- `RPath::crate_root`: paths.rs:78-83. -/
def crateRoot (p : RPath) : Res RPath :=
  match p with
  | [] => .error .internal
  | first :: _ => .ok [first]

/-- `PartialEq for RPath`: paths.rs:635-645. -/
def same (p q : RPath) : Bool := p.getLast?.map Item.addr == q.getLast?.map Item.addr

end RPath

/-- `Module::lookup_udl_item`: modules.rs:200-209. -/
def lookupUdl (items : List Item) (ident : Ident) : Option Item :=
  items.find? fun i => match i with
    | .udl _ ty => match udlName ty with
      | some n => ident.name == n
      | none => false
    | _ => false

/-- `get_builtin_item`: paths.rs:668-743. -/
def builtins : List (List String × Builtin) :=
  let prim (n : String) (b : Builtin) := [([n], b), (["std", "primitive", n], b), (["core", "primitive", n], b)]
  [(["std", "primitive", "unit"], .unitType), (["core", "primitive", "unit"], .unitType)]
  ++ prim "bool" .boolean ++ prim "u8" .uint8 ++ prim "i8" .int8 ++ prim "u16" .uint16 ++ prim "i16" .int16
  ++ prim "u32" .uint32 ++ prim "i32" .int32 ++ prim "u64" .uint64 ++ prim "i64" .int64
  ++ prim "f32" .float32 ++ prim "f64" .float64
  ++ [(["Option"], .option), (["std", "option", "Option"], .option),
      (["Box"], .box), (["std", "boxed", "Box"], .box),
      (["Vec"], .vec), (["std", "vec", "Vec"], .vec),
      (["Result"], .result), (["std", "result", "Result"], .result),
      (["String"], .string), (["std", "string", "String"], .string),
      (["str"], .str), (["std", "primitive", "str"], .str),
      (["From"], .from_), (["std", "convert", "From"], .from_),
      (["std", "collections", "HashMap"], .hashMap), (["std", "collections", "HashSet"], .hashSet),
      (["std", "sync", "Arc"], .arc), (["std", "time", "SystemTime"], .systemTime),
      (["std", "time", "Duration"], .duration),
      (["uniffi", "custom_type"], .uniffiMacro "custom_type"),
      (["uniffi", "custom_newtype"], .uniffiMacro "custom_newtype"),
      (["uniffi", "export"], .uniffiMacro "export"),
      (["uniffi", "remote"], .uniffiMacro "remote"),
      (["uniffi", "use_remote_type"], .uniffiMacro "use_remote_type"),
      (["uniffi", "Record"], .uniffiDerive "Record"), (["uniffi", "Enum"], .uniffiDerive "Enum"),
      (["uniffi", "Error"], .uniffiDerive "Error"), (["uniffi", "Object"], .uniffiDerive "Object"),
      (["uniffi", "UnexpectedUniFFICallbackError"], .unexpectedUniFFICallbackError)]

/-- `get_builtin_item`: paths.rs:668-743. -/
def getBuiltin (segs : List Ident) : Option Builtin :=
  (builtins.find? fun b => b.1 == segs.map (·.name)).map (·.2)

/-- The namespace for a segment, given the segments after it: paths.rs:181-187, 241-247. -/
def segNs (rest : List Ident) (ns : Ns) : Ns := if rest.isEmpty then ns else .type

/-- The loop over the segments of a path after the first one: paths.rs:180-202, 235-249. -/
def walk (ns : Ns) : RPath → List Ident → Prog (Res RPath)
  | p, [] => .ret (.ok p)
  | p, seg :: rest => (lookup p seg (segNs rest ns)).bind fun
    | .ok q => walk ns q rest
    | .error e => .ret (.error e)

/-- `resolve_global_path` after the items from UDL: paths.rs:231-263. -/
def resolveCrate (ir : Ir) (p : RPath) (path : Path) (ns : Ns) : Prog (Res RPath) :=
  match path.segs with
  | [] => .ret (.error (RPath.err p .notFound))
  | first :: rest =>
    match ir.root first with
    | some root => walk ns [root] rest
    | none =>
      match getBuiltin path.segs with
      | some b => .ret (.ok [.builtin b])
      | none => .ret (.error (RPath.err p .notFound))

/-- `resolve_global_path`: paths.rs:207-264. -/
def resolveGlobal (ir : Ir) (p : RPath) (path : Path) (ns : Ns) : Prog (Res RPath) :=
  match path.segs with
  | [first] =>
    match p with
    | .module id ident vis items :: _ =>
      match lookupUdl items first with
      | some item => .ret (.ok [.module id ident vis items, item])
      | none => resolveCrate ir p path ns
    | _ => .ret (.error .internal)
  | _ => resolveCrate ir p path ns

/-- `RPath::resolve`: paths.rs:159-205. -/
def resolve (ir : Ir) (p : RPath) (path : Path) (ns : Ns) : Prog (Res RPath) :=
  if path.leading || p.isEmpty then resolveGlobal ir p path ns
  else
    match path.segs with
    | [] => .ret (.error (RPath.err p .notFound))
    | seg :: rest => (lookup p seg (segNs rest ns)).bind fun
      | .ok q => walk ns q rest
      | .error .notFound => resolveGlobal ir p path ns
      | .error e => .ret (.error e)

/-- The loop of `child_special_item`: paths.rs:377-395. -/
def findSpecial (p : RPath) (ident : Ident) (ns : Ns) : Option Item → List Item → Res (Option Item)
  | found, [] => .ok found
  | found, i :: is =>
    if i.isSpecial && ns.matches i && i.ident == some ident then
      match found with
      | none => findSpecial p ident ns (some i) is
      | some _ => .error (RPath.err p .nameConflict)
    else findSpecial p ident ns found is

/-- `child_special_item`: paths.rs:369-407. -/
def childSpecial (ir : Ir) (p : RPath) (items : List Item) (ident : Ident) (ns : Ns) :
    Prog (Res (Option RPath)) :=
  match findSpecial p ident ns none items with
  | .error e => .ret (.error e)
  | .ok none => .ret (.ok none)
  | .ok (some (.useRemote _ path)) => (resolve ir p path ns).bind fun
    | .ok q => .ret (.ok (some q))
    | .error e => .ret (.error e)
  | .ok (some item) => .ret (.ok (some (p ++ [item])))

/-- `FoundItem`: paths.rs:421-424. -/
inductive Found where
  | use (path : RPath)
  | item (i : Item)

/-- `FoundItem::matches_use`: paths.rs:432-437. -/
def Found.matchesUse (f : Found) (path : RPath) : Bool :=
  match f with
  | .use q => RPath.same q path
  | .item _ => false

/-- What to do with a resolved import: paths.rs:467-486. `none` is an item of another namespace. -/
def addUse (p : RPath) (ns : Ns) (found : Option Found) (q : RPath) : Res (Option Found) :=
  match q.getLast? with
  | none => .error .internal
  | some last =>
    if ns.matches last then
      match found with
      | some f => if f.matchesUse q then .ok found else .error (RPath.err p .nameConflict)
      | none => .ok (some (.use q))
    else .ok found

/-- The loop of `child_item_or_non_glob_use`: paths.rs:439-495. The glob imports it collects are
those of the module, see `globs`. -/
def scanItems (ir : Ir) (p : RPath) (ident : Ident) (ns : Ns) :
    Option Found → List Item → Prog (Res (Option Found))
  | found, [] => .ret (.ok found)
  | found, i :: is =>
    match i.ident with
    | some itemIdent =>
      if itemIdent == ident && ns.matches i then
        match found with
        | some _ => .ret (.error (RPath.err p .nameConflict))
        | none => scanItems ir p ident ns (some (.item i)) is
      else scanItems ir p ident ns found is
    | none =>
      match i with
      | .useItem _ _ path useIdent =>
        if useIdent == ident then
          (resolve ir p path ns).bind fun
            | .ok q =>
              match addUse p ns found q with
              | .ok found => scanItems ir p ident ns found is
              | .error e => .ret (.error e)
            | .error .notFound => scanItems ir p ident ns found is
            | .error .cycleDetected => scanItems ir p ident ns found is
            | .error e => .ret (.error e)
        else scanItems ir p ident ns found is
      | _ => scanItems ir p ident ns found is

/-- The glob imports of a module in order: paths.rs:488-491. -/
def globs (items : List Item) : List Path :=
  items.filterMap fun i => match i with
    | .useGlob _ _ path => some path
    | _ => none

/-- What to do with an item found by a glob import: paths.rs:535-551. -/
def addGlob (p : RPath) (found : Option RPath) (q : RPath) : Res (Option RPath) :=
  match found with
  | none => .ok (some q)
  | some prev => if RPath.same prev q then .ok found else .error (RPath.err p .nameConflict)

/-- The loop of `child_glob_use`: paths.rs:518-552. -/
def scanGlobs (ir : Ir) (p : RPath) (ident : Ident) (ns : Ns) :
    Option RPath → List Path → Prog (Res (Option RPath))
  | found, [] => .ret (.ok found)
  | found, g :: gs =>
    (resolve ir p ⟨g.leading, g.segs ++ [ident]⟩ ns).bind fun
      | .ok q =>
        match addGlob p found q with
        | .ok found => scanGlobs ir p ident ns found gs
        | .error e => .ret (.error e)
      | .error .notFound => scanGlobs ir p ident ns found gs
      | .error .cycleDetected => scanGlobs ir p ident ns found gs
      | .error e => .ret (.error e)

/-- `_child` after the names from UDL and the special items: paths.rs:340-350. -/
def childPlain (ir : Ir) (p : RPath) (items : List Item) (ident : Ident) (ns : Ns) : Prog (Res RPath) :=
  (scanItems ir p ident ns none items).bind fun
    | .error e => .ret (.error e)
    | .ok (some (.item i)) => .ret (.ok (p ++ [i]))
    | .ok (some (.use q)) => .ret (.ok q)
    | .ok none => (scanGlobs ir p ident ns none (globs items)).bind fun
      | .error e => .ret (.error e)
      | .ok (some q) => .ret (.ok q)
      | .ok none => .ret (.error (RPath.err p .notFound))

/-- `child_udl_item`: paths.rs:354-364. -/
def childUdl (items : List Item) (ident : Ident) (ns : Ns) : Option Item :=
  match lookupUdl items ident with
  | some item => if ns.matches item then some item else none
  | none => none

/-- `_child`: paths.rs:322-351. The visibility that it returns is not used anywhere and is left out. -/
def childBody (ir : Ir) (p : RPath) (items : List Item) (rawIdent : Ident) (ns : Ns) : Prog (Res RPath) :=
  match childUdl items rawIdent.unraw ns with
  | some item => .ret (.ok (p ++ [item]))
  | none => (childSpecial ir p items rawIdent.unraw ns).bind fun
    | .error e => .ret (.error e)
    | .ok (some q) => .ret (.ok q)
    | .ok none => childPlain ir p items rawIdent.unraw ns

/-- The key of the cache: paths.rs:301, 660. -/
abbrev Key := Nat × Ident × Ns

/-- `LookupCache`: paths.rs:656-666, as far as `child` uses it. -/
structure Cache where
  children : List (Key × Res RPath) := []
  resolving : List Key := []

/-- `children.get(..)`. -/
def Cache.get (c : Cache) (k : Key) : Option (Res RPath) := (c.children.find? fun e => e.1 == k).map (·.2)

/-- The part of `child` before the cache: paths.rs:278-300. `inl` is the result, `inr` the module. -/
def childStart (p : RPath) (ident : Ident) : Res RPath ⊕ (Nat × List Item) :=
  if ident = ⟨false, "super"⟩ then
    .inl (match RPath.parent p with
      | .ok q => .ok q
      | .error _ => .error (RPath.err p .superInvalid))
  else if ident = ⟨false, "crate"⟩ then
    .inl (match RPath.crateRoot p with
      | .ok q => .ok q
      | .error _ => .error (RPath.err p .crateInvalid))
  else
    match p.getLast? with
    | none => .inl (.error .internal)
    | some (.module id _ _ items) => .inr (id, items)
    | some _ => .inl (.error (RPath.err p .notFound))

/-- `RPath::child`: paths.rs:271-315. -/
def child (ir : Ir) : Nat → RPath → Ident → Ns → Cache → Res RPath × Cache
  | 0, _, _, _, c => (.error .fuel, c)
  | n + 1, p, ident, ns, c =>
    match childStart p ident with
    | .inl r => (r, c)
    | .inr (id, items) =>
      if (id, ident, ns) ∈ c.resolving then (.error (RPath.err p .cycleDetected), c)
      else
        match c.get (id, ident, ns) with
        | some r => (r, c)
        | none =>
          let (r, c) := (childBody ir p items ident ns).run (child ir n)
            { c with resolving := (id, ident, ns) :: c.resolving }
          (r, { children := ((id, ident, ns), r) :: c.children, resolving := c.resolving.erase (id, ident, ns) })

/-- `child` without a cache and without the check for cycles. This is not in the code; it says what
`child` should find. -/
def childRef (ir : Ir) : Nat → RPath → Ident → Ns → Res RPath
  | 0, _, _, _ => .error .fuel
  | n + 1, p, ident, ns =>
    match childStart p ident with
    | .inl r => r
    | .inr (_, items) => (childBody ir p items ident ns).eval (childRef ir n)

end Verif.Src
