/-!
The tree of nodes that every generator works on (`uniffi_pipeline`): the description of an interface
is a value built from leaves, boxes, options, lists, sets, maps and the structs and enums that derive
`Node`.

* `uniffi_pipeline/src/node.rs`: walking the tree and the check that a type occurs in another;
* `uniffi_internal_macros/src/node.rs`: the same for derived structs and enums;
* `uniffi_pipeline/src/map_node.rs` and the `uniffi_auto_map_node` part of
  `uniffi_internal_macros/src/map_node.rs`: rebuilding a tree;
* `uniffi_pipeline/src/pipeline.rs:196-287`: what the `pipeline` command prints.
-/
namespace Verif.Pipe

/-- The types with `impl_leaf_nodes!`: uniffi_pipeline/src/node.rs:122-144. -/
inductive Leaf
  | u8 | i8 | u16 | i16 | u32 | i32 | u64 | i64 | usize | isize | f32 | f64 | string | bool
deriving DecidableEq, Repr

/-- The types that implement `Node`: leaves, the containers of node.rs:146-300, and structs and enums
with `#[derive(Node)]`, by name.  Stands for `std::any::TypeId`: equal exactly for equal types. -/
inductive Ty
  | leaf (k : Leaf)
  | box (t : Ty)
  | option (t : Ty)
  | vec (t : Ty)
  | btreeSet (t : Ty)
  | indexSet (t : Ty)
  | indexMap (k v : Ty)
  | named (n : String)
deriving DecidableEq, Repr

/-- A struct or an enum with `#[derive(Node)]`: fields and their types
(uniffi_internal_macros/src/node.rs:11-17). -/
inductive Def
  | struct (fields : List (String × Ty))
  | enum (variants : List (String × List (String × Ty)))
deriving DecidableEq, Repr

/-- The structs and enums of a program. -/
abbrev Env := List (String × Def)

/-- The definition with a name: the first one, as in a program names are distinct. -/
def lookup : Env → String → Option Def
  | [], _ => none
  | (m, d) :: rest, n => if m = n then some d else lookup rest n

/-- Values.  Sets and maps are the lists of what their iterators give, in that order. -/
inductive Val
  | leaf (k : Leaf) (text : String)
  | box (t : Ty) (v : Val)
  | none (t : Ty)
  | some (t : Ty) (v : Val)
  | vec (t : Ty) (vs : List Val)
  | btreeSet (t : Ty) (vs : List Val)
  | indexSet (t : Ty) (vs : List Val)
  | indexMap (k v : Ty) (es : List (Val × Val))
  | struct (n : String) (fields : List (String × Val))
  | enum (n : String) (variant : String) (fields : List (String × Val))

/-- The type of a value (`Any::type_id`). -/
def typeOf : Val → Ty
  | .leaf k _ => .leaf k
  | .box t _ => .box t
  | .none t => .option t
  | .some t _ => .option t
  | .vec t _ => .vec t
  | .btreeSet t _ => .btreeSet t
  | .indexSet t _ => .indexSet t
  | .indexMap k v _ => .indexMap k v
  | .struct n _ => .named n
  | .enum n _ _ => .named n

/-- `Node::visit_children`: what the visitor is called with, in order.  node.rs:134 (leaves), 155
(Box), 179 (Option), 205 (Vec), 231 (BTreeSet), 257 (IndexSet), 283 (IndexMap: key, then value);
derived: uniffi_internal_macros/src/node.rs:44-48 (struct) and 72-85, 109-115 (enum: the fields of the
variant at hand). -/
def children : Val → List Val
  | .leaf _ _ => []
  | .box _ v => [v]
  | .none _ => []
  | .some _ v => [v]
  | .vec _ vs => vs
  | .btreeSet _ vs => vs
  | .indexSet _ vs => vs
  | .indexMap _ _ es => es.flatMap fun e => [e.1, e.2]
  | .struct _ fs => fs.map (·.2)
  | .enum _ _ fs => fs.map (·.2)

theorem pair_size {e : Val × Val} {es : List (Val × Val)} (h : e ∈ es) :
    sizeOf e.1 < sizeOf es ∧ sizeOf e.2 < sizeOf es := by
  have := List.sizeOf_lt_of_mem h
  obtain ⟨k, v⟩ := e
  simp at this
  simp only
  omega

theorem field_size {f : String × Val} {fs : List (String × Val)} (h : f ∈ fs) :
    sizeOf f.2 < sizeOf fs := by
  have := List.sizeOf_lt_of_mem h
  obtain ⟨n, v⟩ := f
  simp at this
  simp only
  omega

theorem child_size {v c : Val} (h : c ∈ children v) : sizeOf c < sizeOf v := by
  cases v <;> simp only [children, List.not_mem_nil, List.mem_singleton, List.mem_map,
    List.mem_flatMap, Prod.exists, List.mem_cons, or_false] at h
  case box => subst h; simp; omega
  case some => subst h; simp; omega
  case vec => have := List.sizeOf_lt_of_mem h; simp; omega
  case btreeSet => have := List.sizeOf_lt_of_mem h; simp; omega
  case indexSet => have := List.sizeOf_lt_of_mem h; simp; omega
  case indexMap =>
    obtain ⟨a, b, hm, he⟩ := h
    have := pair_size hm
    simp only at this
    rcases he with he | he <;> subst he <;> simp <;> omega
  case struct =>
    obtain ⟨a, b, hm, he⟩ := h
    have := field_size hm
    simp only at this
    subst he; simp; omega
  case enum =>
    obtain ⟨a, b, hm, he⟩ := h
    have := field_size hm
    simp only at this
    subst he; simp; omega

/-- A visitor: a closure with state `σ` that can fail. -/
abbrev Visitor (σ ε : Type) := σ → Val → σ × Except ε Unit

/-- `Node::try_visit_descendants`: uniffi_pipeline/src/node.rs:29-47.  The pair is the state of the
visitor and the local `result`. -/
def tryVisitDescendants {σ ε : Type} (f : Visitor σ ε) (v : Val) (s : σ) : σ × Except ε Unit :=
  (children v).attach.foldl
    (fun acc c =>
      match acc with
      | (s, .error e) => (s, .error e)
      | (s, .ok ()) =>
        match f s c.1 with
        | (s, .error e) => (s, .error e)
        | (s, .ok ()) => tryVisitDescendants f c.1 s)
    (s, .ok ())
termination_by sizeOf v
decreasing_by exact child_size c.2

/-- The types that `has_descendant_type` goes on with: the inner types of containers (node.rs:159-167
and so on; IndexMap: key, then value), and the set of types of the fields (`unique_field_types`,
uniffi_internal_macros/src/node.rs:22-27, 87-92).  `order` is the order in which a `HashSet` happens to
give its elements. -/
def childTypes (env : Env) (order : List Ty → List Ty) : Ty → List Ty
  | .leaf _ => []
  | .box t => [t]
  | .option t => [t]
  | .vec t => [t]
  | .btreeSet t => [t]
  | .indexSet t => [t]
  | .indexMap k v => [k, v]
  | .named n =>
    match lookup env n with
    | some (.struct fs) => order (fs.map (·.2)).eraseDups
    | some (.enum vs) => order (vs.flatMap fun v => v.2.map (·.2)).eraseDups
    | none => []

/-- The chain of `if … { return true }` over the types to go on with
(uniffi_internal_macros/src/node.rs:58-62; `||` for IndexMap): stops at the first `true`; the set of
visited types is shared.  `none`: out of fuel. -/
def anyOf (g : List Ty → Ty → Option (Bool × List Ty)) : List Ty → List Ty → Option (Bool × List Ty)
  | visited, [] => some (false, visited)
  | visited, t :: ts =>
    match g visited t with
    | none => none
    | some (true, visited) => some (true, visited)
    | some (false, visited) => anyOf g visited ts

def isLeaf : Ty → Bool
  | .leaf _ => true
  | _ => false

/-- `Node::has_descendant_type::<target>` of type `t`: node.rs:136-138 (leaves: `false`), 159-167 and
so on, uniffi_internal_macros/src/node.rs:50-64.  The recursion of the code is bounded by the number of
types; here by fuel, of which `typecheckVisit` gives enough. -/
def hasDescendantType (env : Env) (order : List Ty → List Ty) (target : Ty) :
    Nat → List Ty → Ty → Option (Bool × List Ty)
  | 0, _, _ => none
  | fuel + 1, visited, t =>
    if isLeaf t then some (false, visited)
    else if t = target then some (true, visited)
    else if t ∈ visited then some (false, visited)
    else anyOf (hasDescendantType env order target fuel) (t :: visited) (childTypes env order t)

/-- The types written in a type. -/
def subTypes : Ty → List Ty
  | .leaf k => [.leaf k]
  | .box t => .box t :: subTypes t
  | .option t => .option t :: subTypes t
  | .vec t => .vec t :: subTypes t
  | .btreeSet t => .btreeSet t :: subTypes t
  | .indexSet t => .indexSet t :: subTypes t
  | .indexMap k v => .indexMap k v :: (subTypes k ++ subTypes v)
  | .named n => [.named n]

/-- The types of the fields of a definition. -/
def fieldTypes : Def → List Ty
  | .struct fs => fs.map (·.2)
  | .enum vs => vs.flatMap fun v => v.2.map (·.2)

/-- All types that a program with these definitions mentions, starting from `t`. -/
def allTypes (env : Env) (t : Ty) : List Ty :=
  subTypes t ++ env.flatMap fun d => (fieldTypes d.2).flatMap subTypes

/-- `typecheck_visit::<t, target>`: node.rs:112-120.  `false`: panic. -/
def typecheckVisit (env : Env) (order : List Ty → List Ty) (t target : Ty) : Bool :=
  match hasDescendantType env order target ((allTypes env t).length + 1) [] t with
  | some (b, _) => b
  | none => false

/-- What `visit` and `try_visit` can do besides returning: panic (node.rs:113-119). -/
inductive Panic
  | notADescendant
deriving DecidableEq, Repr

/-- The closure that `visit`, `try_visit` and `has_descendant` hand over: `downcast_ref::<T>` and, for
values of that type, the visitor (node.rs:62-67, 77-82, 93-102). -/
def onType {σ ε : Type} (target : Ty) (f : Visitor σ ε) : Visitor σ ε :=
  fun s v => if typeOf v = target then f s v else (s, .ok ())

/-- `Node::visit`: node.rs:54-69. -/
def visit {σ : Type} (env : Env) (order : List Ty → List Ty) (target : Ty) (f : σ → Val → σ)
    (v : Val) (s : σ) : Except Panic σ :=
  if typecheckVisit env order (typeOf v) target then
    .ok (tryVisitDescendants (ε := Empty) (onType target fun s v => (f s v, .ok ())) v s).1
  else .error .notADescendant

/-- `Node::try_visit`: node.rs:71-83. -/
def tryVisit {σ ε : Type} (env : Env) (order : List Ty → List Ty) (target : Ty) (f : Visitor σ ε)
    (v : Val) (s : σ) : Except Panic (σ × Except ε Unit) :=
  if typecheckVisit env order (typeOf v) target then
    .ok (tryVisitDescendants (onType target f) v s)
  else .error .notADescendant

/-- `Node::has_descendant`: node.rs:85-104.  The predicate has no state here; `Err` is how the code
stops at a match. -/
def hasDescendant (env : Env) (order : List Ty → List Ty) (target : Ty) (p : Val → Bool) (v : Val) :
    Except Panic Bool :=
  if typecheckVisit env order (typeOf v) target then
    .ok (match (tryVisitDescendants (onType target fun (s : Unit) v =>
        if p v then (s, Except.error ()) else (s, .ok ())) v ()).2 with
      | .error _ => true
      | .ok _ => false)
  else .error .notADescendant

/-! ### What the `pipeline` command prints -/

/-- `PrintOptions`: uniffi_pipeline/src/pipeline.rs:196-203; only the filters. -/
structure PrintOptions where
  filterType : Option String
  filterName : Option String

/-- `Node::type_name`: node.rs:16-19; uniffi_internal_macros/src/node.rs:32-34: only derived nodes have
one. -/
def typeName : Val → Option String
  | .struct n _ => some n
  | .enum n _ _ => some n
  | _ => none

/-- `PrintOptions::matches_node`: pipeline.rs:218-239.  `lower` is `str::to_lowercase`; `contains a b`
is `a.contains(b)`; `spellings` are the string and its four conversions by `heck`. -/
def matchesNode (lower : String → String) (contains : String → String → Bool)
    (spellings : String → List String) (o : PrintOptions) (node child : Val) : Bool :=
  (match o.filterType with
    | none => true
    | some t =>
      match typeName node with
      | some n => lower n == lower t
      | none => false) &&
  (match o.filterName with
    | none => true
    | some n =>
      match child with
      | .leaf .string s => (spellings s).any fun x => contains x n
      | _ => false)

/-- `NodeFilterSearch::search`: pipeline.rs:272-286: the nodes that are printed, in order. -/
def search (m : Val → Val → Bool) (node : Val) : List Val :=
  if (children node).any fun c => m node c then [node]
  else (children node).attach.flatMap fun c => search m c.1
termination_by sizeOf node
decreasing_by exact child_size c.2

/-! ### Rebuilding a tree -/

/-- What `collect()` makes of a list of new elements or entries: a `BTreeSet`, an `IndexSet`, an
`IndexMap`, as the lists their iterators give (uniffi_pipeline/src/map_node.rs:73-78, 86-90, 99-109).
The theorems say what they need about it. -/
structure Collect where
  btreeSet : List Val → List Val
  indexSet : List Val → List Val
  indexMap : List (Val × Val) → List (Val × Val)

/-- `Iterator::collect::<Result<Vec<_>>>` after `map`, and the `?` after each field: the first error,
or all results in order. -/
def mapAll {α β ε : Type} (f : α → Except ε β) : List α → Except ε (List β)
  | [] => .ok []
  | a :: as =>
    match f a with
    | .error e => .error e
    | .ok b =>
      match mapAll f as with
      | .error e => .error e
      | .ok bs => .ok (b :: bs)

/-- `field: value?` in a struct expression (uniffi_internal_macros/src/map_node.rs:136, 250). -/
def inField {ε : Type} (n : String) : Except ε Val → Except ε (String × Val)
  | .error e => .error e
  | .ok v => .ok (n, v)

/-- `Ok((key?, value?))`: uniffi_pipeline/src/map_node.rs:102-107. -/
def inEntry {ε : Type} : Except ε Val → Except ε Val → Except ε (Val × Val)
  | .error e, _ => .error e
  | .ok _, .error e => .error e
  | .ok k, .ok v => .ok (k, v)

/-- `MapNode::map_node` for a tree where the struct or enum `n` is mapped by `custom n`, if that is a
function, and otherwise by `uniffi_auto_map_node`.
uniffi_pipeline/src/map_node.rs:25-110 (leaves, containers: in the order of the iterator);
uniffi_internal_macros/src/map_node.rs:120-142 (struct), 232-272 (enum): each field in turn;
`use_prev_node!`, 583-605.  The context is part of `custom`: only such functions look at it.  The types
that containers carry are not renamed here.  Not modelled: the `from`, `added` and expression attributes
of `#[derive(MapNode)]`, which give one struct the fields of another. -/
def mapNode {ε : Type} (c : Collect) (custom : String → Option (Val → Except ε Val)) (v : Val) :
    Except ε Val :=
  match v with
  | .leaf k s => .ok (.leaf k s)
  | .box t v =>
    match mapNode c custom v with
    | .error e => .error e
    | .ok v => .ok (.box t v)
  | .none t => .ok (.none t)
  | .some t v =>
    match mapNode c custom v with
    | .error e => .error e
    | .ok v => .ok (.some t v)
  | .vec t vs =>
    match mapAll (fun v => mapNode c custom v.1) vs.attach with
    | .error e => .error e
    | .ok vs => .ok (.vec t vs)
  | .btreeSet t vs =>
    match mapAll (fun v => mapNode c custom v.1) vs.attach with
    | .error e => .error e
    | .ok vs => .ok (.btreeSet t (c.btreeSet vs))
  | .indexSet t vs =>
    match mapAll (fun v => mapNode c custom v.1) vs.attach with
    | .error e => .error e
    | .ok vs => .ok (.indexSet t (c.indexSet vs))
  | .indexMap k v es =>
    match mapAll (fun e => inEntry (mapNode c custom e.1.1) (mapNode c custom e.1.2)) es.attach with
    | .error e => .error e
    | .ok es => .ok (.indexMap k v (c.indexMap es))
  | .struct n fs =>
    match custom n with
    | some f => f (.struct n fs)
    | none =>
      match mapAll (fun f => inField f.1.1 (mapNode c custom f.1.2)) fs.attach with
      | .error e => .error e
      | .ok fs => .ok (.struct n fs)
  | .enum n variant fs =>
    match custom n with
    | some f => f (.enum n variant fs)
    | none =>
      match mapAll (fun f => inField f.1.1 (mapNode c custom f.1.2)) fs.attach with
      | .error e => .error e
      | .ok fs => .ok (.enum n variant fs)
termination_by sizeOf v
decreasing_by
  all_goals simp_wf
  · omega
  · omega
  · have := List.sizeOf_lt_of_mem v.2; omega
  · have := List.sizeOf_lt_of_mem v.2; omega
  · have := List.sizeOf_lt_of_mem v.2; omega
  · have := pair_size e.2; omega
  · have := pair_size e.2; omega
  · have := field_size f.2; omega
  · have := field_size f.2; omega

/-! ### A pipeline of passes -/

/-- `Pipeline::execute_all_passes`: uniffi_pipeline/src/pipeline.rs:142-160, without the recorder.
Values know their types, so that the casts between passes (67-71, 154-158), which cannot fail, are left
out. -/
def execute {ε : Type} : List (Val → Except ε Val) → Val → Except ε Val
  | [], v => .ok v
  | p :: ps, v =>
    match p v with
    | .error e => .error e
    | .ok v => execute ps v

end Verif.Pipe
