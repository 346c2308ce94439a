import Verif.Bytes
/-
Objects passed through JNI: Rust objects behind handles, Kotlin objects that hold such handles, Kotlin
implementations of traits and callback interfaces.

uniffi-bindgen-kotlin-jni/src: `scaffolding/templates/class.rs`, `callback_interface.rs`,
`bindings/templates/Class.kt`, `shared/ClassFfi.kt`, `shared/CallbackInterfaces.kt`,
`shared/CallbackInterfaceFfi.kt`, `shared/BuiltinCleaner.kt`.

The system is about one interface. A step is one lower, lift, clone, free, drop, method call, or one
atomic operation of `destroy` and of the cleaner; any number of threads make steps in any order. `own` and
the field `who` are for the record: the code never looks at them. Handles of Kotlin do not wrap around
(that would take 2^62 of them).
-/
namespace Verif.JniObjects

/-- The kinds of interfaces: `class.rs:7-122`, `callback_interface.rs:206-224`. -/
inductive Kind where
  | struct
  /-- a trait that only Rust implements -/
  | rustOnly
  /-- a trait that Kotlin can implement (`has_foreign`) -/
  | foreign
  /-- `Box<dyn Trait>` -/
  | callback
  deriving DecidableEq, Repr

/-- An object, by the side that implements it. -/
inductive Who where
  | rust (n : Nat)
  | kotlin (n : Nat)
  deriving DecidableEq, Repr

/-- What an allocation behind an `Arc` or `Box` contains. -/
inductive Body where
  /-- a value of a Rust type of the user -/
  | obj (n : Nat)
  /-- the struct that stands for a Kotlin object: `callback_interface.rs:4-6` -/
  | wrapper (fh : Nat)
  /-- an `Arc<dyn Trait>` inside a second `Arc`: `class.rs:42-46` -/
  | double (b : Nat)
  deriving DecidableEq, Repr

/-- Where a counted reference is held. -/
inductive Place where
  /-- Rust code -/
  | rust
  /-- lowered by Rust, not lifted yet -/
  | toKotlin
  /-- lowered by Kotlin, not lifted yet -/
  | toRust
  /-- the Kotlin object with this number, until its cleaner has run -/
  | kotlin (j : Nat)
  /-- the allocation at this address -/
  | inner (a : Nat)
  deriving DecidableEq, Repr

/-- A counted reference: an address (even) or a handle of Kotlin (odd), and what its holder was given. -/
structure Ref where
  place : Place
  x : Nat
  who : Who
  deriving DecidableEq, Repr

inductive Ev where
  | made (who : Who)
  /-- the Rust value is destroyed -/
  | dropped (n : Nat)
  /-- a method of what the caller takes for `t` runs on `target` -/
  | call (t target : Who)
  /-- Kotlin is given its own object back -/
  | back (t target : Who)
  /-- Kotlin is given an object with a handle, for `t` -/
  | proxy (t : Who)
  /-- the handle of Kotlin object `j` is given to the free function -/
  | freed (j : Nat)
  deriving DecidableEq, Repr

/-- A Kotlin object that holds a handle: `Class.kt:128-140`. (`callCounter` is 1 until the one call of
`destroy` that sets the flag: nothing else changes it.) -/
structure Kt where
  handle : Nat
  who : Who
  /-- `wasDestroyed` -/
  flag : Bool := false
  /-- `destroy` has set the flag, `clean()` is next: 145-148 -/
  cleaning : Bool := false
  /-- the action of the cleaner was run: `BuiltinCleaner.kt:22` runs it once -/
  cleaned : Bool := false
  /-- not reachable any more -/
  gone : Bool := false
  deriving DecidableEq, Repr

/-- A handle that was read from Kotlin object `j` for a call. -/
structure Borrow where
  j : Nat
  h : Nat
  who : Who
  deriving DecidableEq, Repr

structure W where
  /-- content and strong count -/
  heap : Nat → Option (Body × Nat) := fun _ => none
  /-- the `HandleMap` of the interface: `CallbackInterfaces.kt:12-41` -/
  map : Nat → Option Nat := fun _ => none
  /-- its counter -/
  next : Nat := 1
  own : List Ref := []
  kts : List Kt := []
  borrows : List Borrow := []
  nextRust : Nat := 0
  nextKotlin : Nat := 0
  log : List Ev := []
  /-- memory that is not allocated was accessed, or memory of another shape, or the map was asked for a
  handle it does not have -/
  bad : Bool := false

def W.add (w : W) (e : Ev) : W := { w with log := w.log ++ [e] }

def W.setHeap (w : W) (a : Nat) (b : Option (Body × Nat)) : W :=
  { w with heap := fun x => if x = a then b else w.heap x }

def W.setMap (w : W) (h : Nat) (f : Option Nat) : W :=
  { w with map := fun x => if x = h then f else w.map x }

/-- `Arc::increment_strong_count`, `Arc::clone`: `class.rs:184-203`. -/
def W.incr (w : W) (a : Nat) : W :=
  match w.heap a with
  | none => { w with bad := true }
  | some (b, c) => w.setHeap a (some (b, c + 1))

/-- `free` of the Kotlin side, called when a wrapper is dropped: `callback_interface.rs:178-203`,
`CallbackInterfaceFfi.kt:142-144`. -/
def W.freeKotlin (w : W) (fh : Nat) : W :=
  match w.map fh with
  | none => { w with bad := true }
  | some _ => w.setMap fh none

/-- What an allocation held is not held any more. -/
def W.forget (w : W) (a : Nat) : W := { w with own := w.own.filter fun r => r.place ≠ .inner a }

/-- Dropping an `Arc` or `Box`: the last one frees the allocation and drops its content. `inner` drops the
`Arc` inside a double one. -/
def W.decrWith (inner : W → Nat → W) (w : W) (a : Nat) : W :=
  match w.heap a with
  | none => { w with bad := true }
  | some (b, c) =>
    if c = 1 then
      let w := (w.setHeap a none).forget a
      match b with
      | .obj n => w.add (.dropped n)
      | .wrapper fh => w.freeKotlin fh
      | .double b => inner w b
    else w.setHeap a (some (b, c - 1))

/-- The `Arc` inside a double one. -/
def W.decrInner : W → Nat → W := W.decrWith fun w _ => { w with bad := true }

/-- Dropping an `Arc` or `Box`: `class.rs:165-182` for a handle. -/
def W.decr : W → Nat → W := W.decrWith W.decrInner

/-- A method call on an `Arc` or `Box`: user code, or `callback_interface.rs:56-135`, which has Kotlin look
up the handle (`CallbackInterfaceFfi.kt:21`, `CallbackInterfaces.kt:33-35`). -/
def W.call (w : W) (a : Nat) (t : Who) : W :=
  match w.heap a with
  | some (.obj n, _) => w.add (.call t (.rust n))
  | some (.wrapper fh, _) =>
    match w.map fh with
    | some f => w.add (.call t (.kotlin f))
    | none => { w with bad := true }
  | _ => { w with bad := true }

/-- A method called through a reference made from a handle that is not consumed: `class.rs:25-34, 61-71,
111-119` and `jni_method.rs:35-40`. -/
def W.callRef (k : Kind) (w : W) (h : Nat) (t : Who) : W :=
  match k with
  | .struct => w.call h t
  | _ =>
    match w.heap h with
    | some (.double b, _) => w.call b t
    | _ => { w with bad := true }

/-- `arc_into_handle` for an `Arc` Rust code gives away; `d` is the address to use for a second one.
`class.rs:9-15, 39-49, 75-92`. The method `uniffi_foreign_handle` (78) always gives `None`: the default of
the trait (uniffi_macros/src/export/trait_interface.rs:299-305) is not overridden by the generated struct
(`callback_interface.rs:9-49`). There is no such function for callback interfaces. -/
def W.lower (k : Kind) (w : W) (a d : Nat) (t : Who) : Option W :=
  match k with
  | .struct => some { w with own := w.own ++ [⟨.toKotlin, a, t⟩] }
  | .callback => none
  | _ => some
      { w.setHeap d (some (.double a, 1)) with own := w.own ++ [⟨.inner d, a, t⟩, ⟨.toKotlin, d, t⟩] }

/-- `class.rs:54-58, 103-107`. -/
def W.liftDouble (w : W) (h : Nat) (t : Who) : W :=
  match w.heap h with
  | some (.double b, _) =>
    let w := w.incr b
    ({ w with own := w.own ++ [⟨.rust, b, t⟩] } : W).decr h
  | _ => { w with bad := true }

/-- `class.rs:98-101`, `callback_interface.rs:206-224`. -/
def W.liftWrapper (w : W) (h a : Nat) (t : Who) : W :=
  { w.setHeap a (some (.wrapper h, 1)) with own := w.own ++ [⟨.inner a, h, t⟩, ⟨.rust, a, t⟩] }

/-- `handle_into_arc`: `class.rs:17-23, 51-59, 94-109`, `callback_interface.rs:206-224`. -/
def W.lift (k : Kind) (w : W) (h a : Nat) (t : Who) : W :=
  match k with
  | .struct => { w with own := w.own ++ [⟨.rust, h, t⟩] }
  | .rustOnly => w.liftDouble h t
  | .foreign => if h % 2 = 1 then w.liftWrapper h a t else w.liftDouble h t
  | .callback => w.liftWrapper h a t

/-- `handleToObject`: `ClassFfi.kt:13-15, 33-41`. A new Kotlin object: `Class.kt:101-104, 119-125`. -/
def W.kotlinLift (k : Kind) (w : W) (h : Nat) (t : Who) : W :=
  if k = .foreign ∧ h % 2 = 1 then
    match w.map h with
    | none => { w with bad := true }
    | some f => (w.setMap h none).add (.back t (.kotlin f))
  else
    { w.add (.proxy t) with
      kts := w.kts ++ [{ handle := h, who := t }]
      own := w.own ++ [⟨.kotlin w.kts.length, h, t⟩] }

/-- The action of the cleaner, if it was not run yet: `Class.kt:160-168`, `BuiltinCleaner.kt:18-25`. -/
def W.clean (w : W) (j : Nat) (o : Kt) : W :=
  if o.cleaned then { w with kts := w.kts.set j { o with cleaning := false } } else
  let w := { w with
    kts := w.kts.set j { o with cleaning := false, cleaned := true }
    own := w.own.erase ⟨.kotlin j, o.handle, o.who⟩ }
  if o.handle = 0 then w else (w.add (.freed j)).decr o.handle

/-- What can happen. -/
inductive Cmd where
  | rustNew (a : Nat)
  | rustClone (a : Nat) (t : Who)
  | rustDrop (a : Nat) (t : Who)
  | rustCall (a : Nat) (t : Who)
  | rustLower (a d : Nat) (t : Who)
  | rustLift (h a : Nat) (t : Who)
  | kotlinNew
  | insert (f : Nat)
  | kotlinLift (h : Nat) (t : Who)
  | fake
  | begin (j : Nat)
  | use (b : Borrow)
  | clone (b : Borrow)
  | done (b : Borrow)
  | destroy (j : Nat)
  | clean (j : Nat)
  | lose (j : Nat)
  | collect (j : Nat)
  deriving DecidableEq, Repr

/-- Addresses are even, not null, and new ones are free. -/
def W.FreeAddr (w : W) (a : Nat) : Prop := a % 2 = 0 ∧ a ≠ 0 ∧ w.heap a = none

instance (w : W) (a : Nat) : Decidable (w.FreeAddr a) := by unfold W.FreeAddr; infer_instance

/-- No call is using Kotlin object `j`. -/
def W.Quiet (w : W) (j : Nat) : Prop := ∀ b ∈ w.borrows, b.j ≠ j

instance (w : W) (j : Nat) : Decidable (w.Quiet j) := by unfold W.Quiet; infer_instance

/-- One step; `none` if it cannot happen now. With `careful`, Kotlin code destroys an object only when no
call is using it, does not use it afterwards, does not use fake objects, and the virtual machine does not
collect an object while a call is using its handle. -/
def step (k : Kind) (careful : Bool) (w : W) : Cmd → Option W
  -- `Arc::new` in user code
  | .rustNew a =>
    if k ≠ .callback ∧ w.FreeAddr a then
      some { (w.setHeap a (some (.obj w.nextRust, 1))).add (.made (.rust w.nextRust)) with
        own := w.own ++ [⟨.rust, a, .rust w.nextRust⟩], nextRust := w.nextRust + 1 }
    else none
  | .rustClone a t =>
    if k ≠ .callback ∧ ⟨.rust, a, t⟩ ∈ w.own then
      some { w.incr a with own := w.own ++ [⟨.rust, a, t⟩] }
    else none
  | .rustDrop a t =>
    if ⟨.rust, a, t⟩ ∈ w.own then some (({ w with own := w.own.erase ⟨.rust, a, t⟩ } : W).decr a) else none
  | .rustCall a t => if ⟨.rust, a, t⟩ ∈ w.own then some (w.call a t) else none
  | .rustLower a d t =>
    if ⟨.rust, a, t⟩ ∈ w.own ∧ w.FreeAddr d then
      W.lower k { w with own := w.own.erase ⟨.rust, a, t⟩ } a d t
    else none
  | .rustLift h a t =>
    if ⟨.toRust, h, t⟩ ∈ w.own ∧ w.FreeAddr a then
      some (W.lift k { w with own := w.own.erase ⟨.toRust, h, t⟩ } h a t)
    else none
  -- Kotlin code makes an object that implements the trait
  | .kotlinNew =>
    if k = .foreign ∨ k = .callback then
      some { w.add (.made (.kotlin w.nextKotlin)) with nextKotlin := w.nextKotlin + 1 }
    else none
  -- and passes it: `ClassFfi.kt:28-30`, `CallbackInterfaceFfi.kt:147-153`, `CallbackInterfaces.kt:20-24`
  | .insert f =>
    if (k = .foreign ∨ k = .callback) ∧ f < w.nextKotlin then
      some { w.setMap w.next (some f) with
        next := w.next + 2, own := w.own ++ [⟨.toRust, w.next, .kotlin f⟩] }
    else none
  | .kotlinLift h t =>
    if ⟨.toKotlin, h, t⟩ ∈ w.own then
      some (W.kotlinLift k { w with own := w.own.erase ⟨.toKotlin, h, t⟩ } h t)
    else none
  -- `Class.kt:113-117`
  | .fake => some { w with kts := w.kts ++ [{ handle := 0, who := .kotlin 0, cleaned := true }] }
  -- a call reads the handle: `ClassFfi.kt:18-20, 44-46`, `Class.kt:173-177`
  | .begin j =>
    match w.kts[j]? with
    | some o =>
      if o.gone = false ∧ (careful = true → o.flag = false ∧ o.handle ≠ 0) then
        some { w with borrows := ⟨j, o.handle, o.who⟩ :: w.borrows }
      else none
    | none => none
  -- and Rust code uses it, also later if the function is async (`jni_method.rs:137-152`)
  | .use b => if b ∈ w.borrows then some (w.callRef k b.h b.who) else none
  -- or it is cloned to be passed: `Class.kt:173-178`
  | .clone b =>
    if b ∈ w.borrows then
      if b.h = 0 then some w
      else some { w.incr b.h with own := w.own ++ [⟨.toRust, b.h, b.who⟩] }
    else none
  | .done b => if b ∈ w.borrows then some { w with borrows := w.borrows.erase b } else none
  -- `Class.kt:142-147`
  | .destroy j =>
    match w.kts[j]? with
    | some o =>
      if o.gone = false ∧ (careful = true → w.Quiet j) then
        some (if o.flag then w else
          { w with kts := w.kts.set j { o with flag := true, cleaning := true } })
      else none
    | none => none
  -- `Class.kt:148`
  | .clean j =>
    match w.kts[j]? with
    | some o => if o.cleaning then some (w.clean j o) else none
    | none => none
  -- no reference is left that will be used: the handle may have been read before
  | .lose j =>
    match w.kts[j]? with
    | some o =>
      if careful = true → w.Quiet j then some { w with kts := w.kts.set j { o with gone := true } }
      else none
    | none => none
  -- the thread of the cleaner: `BuiltinCleaner.kt:49-61`
  | .collect j =>
    match w.kts[j]? with
    | some o => if o.gone then some (w.clean j o) else none
    | none => none

/-- All states of all histories. -/
inductive Reach (k : Kind) (careful : Bool) : W → Prop
  | init : Reach k careful {}
  | step (w w' : W) (c : Cmd) : Reach k careful w → step k careful w c = some w' → Reach k careful w'

end Verif.JniObjects
