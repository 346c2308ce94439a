import Verif.Pipe.Model

/-!
What a user of the tree expects, without reference to how it is walked: the parts of a value are the
values at its paths.
-/
namespace Verif.Pipe

/-- What is directly inside a value, at a position: the content of a box or an option, the elements of a
list or set, key and value of each entry of a map in turn, the fields of a struct or variant.  Said without
the model's `children`. -/
inductive Inside : Val → Nat → Val → Prop
  | box : Inside (.box t v) 0 v
  | some : Inside (.some t v) 0 v
  | vec : vs[i]? = Option.some v → Inside (.vec t vs) i v
  | btreeSet : vs[i]? = Option.some v → Inside (.btreeSet t vs) i v
  | indexSet : vs[i]? = Option.some v → Inside (.indexSet t vs) i v
  | key : es[i]? = Option.some e → Inside (.indexMap k u es) (2 * i) e.1
  | value : es[i]? = Option.some e → Inside (.indexMap k u es) (2 * i + 1) e.2
  | field : fs[i]? = Option.some f → Inside (.struct n fs) i f.2
  | variantField : fs[i]? = Option.some f → Inside (.enum n x fs) i f.2

/-- The part of a value at a path: `[]` is the value, `i :: p` is the part at `p` of child `i`. -/
def at? : Val → List Nat → Option Val
  | v, [] => some v
  | v, i :: p =>
    match (children v)[i]? with
    | some c => at? c p
    | none => none

/-- Reading order: a value before its parts, children from first to last. -/
def Before : List Nat → List Nat → Prop
  | [], _ :: _ => True
  | _, [] => False
  | a :: p, b :: q => a < b ∨ (a = b ∧ Before p q)

/-- `l` lists exactly the proper parts of `v` of type `t`, with their paths, in reading order. -/
structure ListsParts (v : Val) (t : Ty) (l : List (List Nat × Val)) : Prop where
  ordered : l.Pairwise fun a b => Before a.1 b.1
  complete : ∀ p w, (p, w) ∈ l ↔ p ≠ [] ∧ at? v p = some w ∧ typeOf w = t

/-- Feeding values to a closure one after the other until it fails. -/
def feed {σ ε : Type} (f : σ → Val → σ × Except ε Unit) : List Val → σ → σ × Except ε Unit
  | [], s => (s, .ok ())
  | v :: vs, s =>
    match f s v with
    | (s, .error e) => (s, .error e)
    | (s, .ok ()) => feed f vs s

/-- `b` is written in the definition of `a`. -/
inductive Mentions (env : Env) : Ty → Ty → Prop
  | box : Mentions env (.box t) t
  | option : Mentions env (.option t) t
  | vec : Mentions env (.vec t) t
  | btreeSet : Mentions env (.btreeSet t) t
  | indexSet : Mentions env (.indexSet t) t
  | mapKey : Mentions env (.indexMap k v) k
  | mapValue : Mentions env (.indexMap k v) v
  | field : lookup env n = some (.struct fs) → (f, t) ∈ fs → Mentions env (.named n) t
  | variant : lookup env n = some (.enum vs) → (x, fs) ∈ vs → (f, t) ∈ fs →
      Mentions env (.named n) t

/-- `b` is `a`, or can be reached from `a` through definitions. -/
inductive Reaches (env : Env) : Ty → Ty → Prop
  | refl : Reaches env a a
  | step : Mentions env a b → Reaches env b c → Reaches env a c

/-- A value has the shape that its type says. -/
inductive WellTyped (env : Env) : Val → Prop
  | leaf : WellTyped env (.leaf k s)
  | box : typeOf v = t → WellTyped env v → WellTyped env (.box t v)
  | none : WellTyped env (.none t)
  | some : typeOf v = t → WellTyped env v → WellTyped env (.some t v)
  | vec : (∀ v ∈ vs, typeOf v = t) → (∀ v ∈ vs, WellTyped env v) → WellTyped env (.vec t vs)
  | btreeSet : (∀ v ∈ vs, typeOf v = t) → (∀ v ∈ vs, WellTyped env v) →
      WellTyped env (.btreeSet t vs)
  | indexSet : (∀ v ∈ vs, typeOf v = t) → (∀ v ∈ vs, WellTyped env v) →
      WellTyped env (.indexSet t vs)
  | indexMap : (∀ e ∈ es, typeOf e.1 = k ∧ typeOf e.2 = v) → (∀ e ∈ es, WellTyped env e.1) →
      (∀ e ∈ es, WellTyped env e.2) → WellTyped env (.indexMap k v es)
  | struct : lookup env n = Option.some (.struct ds) →
      fs.map (fun f => (f.1, typeOf f.2)) = ds →
      (∀ f ∈ fs, WellTyped env f.2) → WellTyped env (.struct n fs)
  | enum : lookup env n = Option.some (.enum vs) → (x, ds) ∈ vs →
      fs.map (fun f => (f.1, typeOf f.2)) = ds →
      (∀ f ∈ fs, WellTyped env f.2) → WellTyped env (.enum n x fs)

/-- A `HashSet` gives each of its elements, in some order. -/
def AnyOrder (order : List Ty → List Ty) : Prop := ∀ l t, t ∈ order l ↔ t ∈ l

/-- A node that a filter singles out: some child satisfies it. -/
def Hit (m : Val → Val → Bool) (v : Val) : Prop := ∃ c ∈ children v, m v c = true

/-- No part on the way from `v` to the part at `p`, that part excluded, is singled out. -/
def FirstHit (m : Val → Val → Bool) (v : Val) (p : List Nat) : Prop :=
  ∀ q, (∃ i r, p = q ++ i :: r) → ∀ w, at? v q = some w → ¬ Hit m w

/-- The name of the struct or enum that a value is. -/
def nodeName : Val → Option String
  | .struct n _ => some n
  | .enum n _ _ => some n
  | _ => none

/-- A value is of a struct or enum that has a function of its own. -/
def Custom {ε : Type} (custom : String → Option (Val → Except ε Val)) (v : Val) : Prop :=
  ∃ n, nodeName v = some n ∧ (custom n).isSome = true

/-- All sets and maps within are what collecting their elements gives. -/
def Settled (c : Collect) (v : Val) : Prop :=
  ∀ p w, at? v p = some w →
    (∀ t vs, w = .btreeSet t vs → c.btreeSet vs = vs) ∧
    (∀ t vs, w = .indexSet t vs → c.indexSet vs = vs) ∧
    (∀ k u es, w = .indexMap k u es → c.indexMap es = es)

/-- No set and no map within: these can merge elements that become equal. -/
def NoSets (v : Val) : Prop :=
  ∀ p w, at? v p = some w →
    (∀ t vs, w ≠ .btreeSet t vs) ∧ (∀ t vs, w ≠ .indexSet t vs) ∧ (∀ k u es, w ≠ .indexMap k u es)

/-- No part above the one at `p` has a function of its own. -/
def Exposed {ε : Type} (custom : String → Option (Val → Except ε Val)) (v : Val) (p : List Nat) :
    Prop :=
  ∀ q, (∃ i r, p = q ++ i :: r) → ∀ w, at? v q = some w → ¬ Custom custom w

/-- The functions of their own succeed on all exposed parts before `p`, and fail with `e` on the one at
`p`. -/
def FirstFailure {ε : Type} (custom : String → Option (Val → Except ε Val)) (v : Val) (p : List Nat)
    (e : ε) : Prop :=
  (∃ w n f, at? v p = some w ∧ Exposed custom v p ∧ nodeName w = some n ∧ custom n = some f ∧
    f w = .error e) ∧
  ∀ q, Before q p → Exposed custom v q → ∀ w n f, at? v q = some w → nodeName w = some n →
    custom n = some f → ∃ w', f w = .ok w'

end Verif.Pipe
