import Verif.Bytes
/-
The handle maps of the generated code, used by many threads.

python/templates/HandleMap.py, kotlin/templates/HandleMap.kt, swift/templates/HandleMap.swift,
ruby/templates/HandleMap.rb, all in uniffi_bindgen/src/bindings. The map of
uniffi-bindgen-kotlin-jni/src/bindings/templates/shared/CallbackInterfaces.kt:1-40 is the Kotlin one
word for word.

One step is one access to the shared state: taking the lock, reading or writing the counter, one
operation of the underlying dictionary. Python, Swift and Ruby hold a lock during each operation;
Kotlin uses an atomic counter and a concurrent dictionary, and holds no lock.
-/
namespace Verif.HandleMap
open Verif

variable {α : Type}

/-- How the languages differ. -/
structure Lang where
  /-- Operations hold a lock, and the counter is an ordinary variable; otherwise there is no lock and
  the counter is read and advanced in one atomic step. -/
  lock : Bool
  /-- The handle when the counter would be `c` if it never overflowed. `none`: the program traps. -/
  handle : Nat → Option Nat

/-- python/templates/HandleMap.py:1-51. Integers do not overflow. -/
def python : Lang := ⟨true, some⟩

/-- kotlin/templates/HandleMap.kt:1-39. `AtomicLong.getAndAdd` wraps around; the handle is given here
as the unsigned reading of the `Long`, which is how Rust reads it. -/
def kotlin : Lang := ⟨false, fun c => some (c % 2 ^ 64)⟩

/-- swift/templates/HandleMap.swift:1-70. Adding to a `UInt64` traps on overflow, and the addition
comes before the insertion (doInsert 18-24). -/
def swift : Lang := ⟨true, fun c => if c + 2 < 2 ^ 64 then some c else none⟩

/-- ruby/templates/HandleMap.rb:12-59. Integers do not overflow. The map takes a stored `nil` for a
missing entry (30, 38, 49): `α` is the type of the other objects. -/
def ruby : Lang := ⟨true, some⟩

def languages : List Lang := [python, kotlin, swift, ruby]

inductive Op (α : Type) where
  | insert (x : α)
  | clone (h : Nat)
  | get (h : Nat)
  | remove (h : Nat)
  deriving DecidableEq, Repr

/-- What callers see, in the order it takes effect. -/
inductive Ev (α : Type) where
  /-- `insert x` returns `h`. -/
  | inserted (h : Nat) (x : α)
  /-- `clone src` returns `h`. -/
  | cloned (src h : Nat) (x : α)
  /-- `get h` returns `x`. -/
  | got (h : Nat) (x : α)
  /-- `remove h` returns `x`. -/
  | removed (h : Nat) (x : α)
  /-- `clone h`, `get h` or `remove h` raises the "invalid handle" error. -/
  | invalid (h : Nat)
  deriving DecidableEq, Repr

/-- Where a running operation is. -/
inductive Pc (α : Type) where
  /-- At its first line, without the lock. -/
  | begin (op : Op α)
  /-- HandleMap.py:35 / HandleMap.kt:26 / HandleMap.swift `clone` / HandleMap.rb:38: look up the
  object to clone. -/
  | cloneLookup (h : Nat)
  /-- HandleMap.py:23 / HandleMap.kt:19 / HandleMap.swift:19 / HandleMap.rb:21,40: read the counter.
  `src`: the handle cloned, if any. -/
  | readCounter (src : Option Nat) (x : α)
  /-- HandleMap.py:24 / HandleMap.swift:20 / HandleMap.rb:22,41: advance the counter. -/
  | addCounter (src : Option Nat) (x : α) (h : Nat)
  /-- HandleMap.py:25 / HandleMap.kt:20 / HandleMap.swift:21 / HandleMap.rb:23,42: store. -/
  | put (src : Option Nat) (x : α) (h : Nat)
  /-- HandleMap.py:31 / HandleMap.kt:32 / HandleMap.swift `get` / HandleMap.rb:30. -/
  | lookup (h : Nat)
  /-- HandleMap.py:47 / HandleMap.kt:37 / HandleMap.swift `remove` / HandleMap.rb:49. -/
  | delete (h : Nat)
  deriving DecidableEq, Repr

structure St (α : Type) where
  /-- The dictionary. -/
  map : List (Nat × α) := []
  /-- The counter, not wrapped around. -/
  counter : Nat := 1
  locked : Bool := false
  /-- Running operations. -/
  acts : List (Pc α) := []
  log : List (Ev α) := []
  deriving DecidableEq, Repr

/-- Dictionary lookup. -/
def find (m : List (Nat × α)) (h : Nat) : Option α := (m.find? fun p => p.1 == h).map (·.2)

/-- Dictionary deletion. -/
def del (m : List (Nat × α)) (h : Nat) : List (Nat × α) := m.filter fun p => p.1 != h

/-- Dictionary store: replaces an entry with the same key. -/
def store (m : List (Nat × α)) (h : Nat) (x : α) : List (Nat × α) := (h, x) :: del m h

/-- The event of a finished insertion. -/
def issueEv (src : Option Nat) (h : Nat) (x : α) : Ev α :=
  match src with
  | none => .inserted h x
  | some s => .cloned s h x

/-- The first line of an operation. -/
def Op.first : Op α → Pc α
  | .insert x => .readCounter none x
  | .clone h => .cloneLookup h
  | .get h => .lookup h
  | .remove h => .delete h

/-- An operation ends: the lock, if there is one, is given back, and the caller gets the answer. -/
def St.finish (s : St α) (e : Ev α) : Option (Pc α) × St α :=
  (none, { s with locked := false, log := s.log ++ [e] })

/-- One step of a running operation. -/
def step (L : Lang) (s : St α) : Pc α → Option (Option (Pc α) × St α)
  | .begin op =>
    if L.lock then
      if s.locked then none else some (some op.first, { s with locked := true })
    else some (some op.first, s)
  | .cloneLookup h => match find s.map h with
    | some x => some (some (.readCounter (some h) x), s)
    | none => some (s.finish (.invalid h))
  | .readCounter src x => match L.handle s.counter with
    | none => none
    | some h =>
      if L.lock then some (some (.addCounter src x h), s)
      else some (some (.put src x h), { s with counter := s.counter + 2 })
  | .addCounter src x h => some (some (.put src x h), { s with counter := s.counter + 2 })
  | .put src x h => some ({ s with map := store s.map h x }.finish (issueEv src h x))
  | .lookup h => match find s.map h with
    | some x => some (s.finish (.got h x))
    | none => some (s.finish (.invalid h))
  | .delete h => match find s.map h with
    | some x => some ({ s with map := del s.map h }.finish (.removed h x))
    | none => some (s.finish (.invalid h))

/-- Threads start operations and run them, in any order. -/
inductive Step (L : Lang) : St α → St α → Prop
  | start (s : St α) (op : Op α) : Step L s { s with acts := s.acts ++ [.begin op] }
  | run (s : St α) (l₁ l₂ : List (Pc α)) (pc : Pc α) (pc' : Option (Pc α)) (s' : St α) :
      s.acts = l₁ ++ pc :: l₂ → step L s pc = some (pc', s') →
      Step L s { s' with acts := l₁ ++ pc'.toList ++ l₂ }

/-- All states of all executions. -/
inductive Reach (L : Lang) : St α → Prop
  | init : Reach L {}
  | step (s s' : St α) : Reach L s → Step L s s' → Reach L s'

end Verif.HandleMap
