import Verif.Handles.HandleMap
/-
Objects passed between Rust and foreign code: reference counted Rust objects, trait objects
implemented on either side, callback interfaces.

uniffi_core/src/ffi/handle.rs, uniffi_macros/src/object.rs,
uniffi_macros/src/export/{trait_interface.rs, callback_interface.rs}, and the object converters of
python/templates/InterfaceTemplate.py, kotlin/templates/ObjectTemplate.kt,
swift/templates/ObjectTemplate.swift (uniffi_bindgen/src/bindings).

The system is about one interface, of any kind; objects of other interfaces live at other addresses
and in other maps. A step is one lower, lift, clone, free, drop or method call; any number of threads
make steps in any order. A reference or handle carries, as a ghost, which object its holder thinks it
is: the code never looks at it.
-/
namespace Verif.Objects
open Verif
open Verif.HandleMap (find del)

/-- The kinds of interfaces. -/
inductive Kind where
  /-- `#[derive(uniffi::Object)]`: uniffi_macros/src/object.rs. -/
  | struct
  /-- `TraitKind`: uniffi_meta/src/types.rs:33-40. -/
  | rustOnly
  | both
  | foreignOnly
  /-- `Box<dyn Trait>`: callback_interface.rs:150-200. -/
  | callback
  deriving DecidableEq, Repr

/-- Whether the foreign side can implement it (`has_foreign`, uniffi_meta/src/types.rs:69-72, and
callback interfaces): there is a table of foreign methods and a handle map. -/
def Kind.hasForeign : Kind → Bool
  | .struct => false
  | .rustOnly => false
  | _ => true

/-- An object, by the side that implements it. -/
inductive Who where
  | rust (n : Nat)
  | foreign (n : Nat)
  deriving DecidableEq, Repr

/-- What an allocation behind an `Arc` (or `Box`) contains. -/
inductive Body where
  /-- A value of a Rust type of the user. -/
  | obj (n : Nat)
  /-- `UniFFICallbackHandler…`: callback_interface.rs:111-120. -/
  | wrapper (fh : Nat)
  /-- An `Arc<dyn Trait>` inside a second `Arc`: trait_interface.rs:190-196. -/
  | double (b : Nat)
  deriving DecidableEq, Repr

inductive Ev where
  | made (who : Who)
  /-- The Rust value is destroyed. -/
  | dropped (n : Nat)
  /-- Rust calls a method of what it takes for `t`; it runs on `target`. -/
  | call (t target : Who)
  /-- Foreign code is given its own object back for what it takes for `t`. -/
  | back (t target : Who)
  deriving DecidableEq, Repr

structure W where
  /-- Allocations: address and content. -/
  bodies : List (Nat × Body) := []
  /-- Strong counts. -/
  cnt : Nat → Nat := fun _ => 0
  /-- The foreign handle map (C34). -/
  map : List (Nat × Nat) := []
  /-- `Arc`s and `Box`es held by Rust code. -/
  rust : List (Nat × Who) := []
  /-- Lowered by Rust, not lifted yet. -/
  toForeign : List (Nat × Who) := []
  /-- Lowered by foreign code, not lifted yet. -/
  toRust : List (Nat × Who) := []
  /-- Foreign objects that hold a Rust handle. -/
  proxies : List (Nat × Who) := []
  nextRust : Nat := 0
  nextForeign : Nat := 0
  log : List Ev := []
  /-- Memory that is not allocated was accessed, or memory of another shape, or a handle map was asked
  for a handle it does not have. -/
  bad : Bool := false

def W.add (w : W) (e : Ev) : W := { w with log := w.log ++ [e] }

/-- `Arc::new`, `Box::new` at address `a`. -/
def W.alloc (w : W) (a : Nat) (b : Body) : W :=
  { w with
    bodies := w.bodies ++ [(a, b)]
    cnt := fun x => if x = a then 1 else w.cnt x }

/-- `Arc::increment_strong_count`, `Arc::clone`: handle.rs:96-100. -/
def W.incr (w : W) (a : Nat) : W :=
  match find w.bodies a with
  | none => { w with bad := true }
  | some _ => { w with cnt := fun x => if x = a then w.cnt a + 1 else w.cnt x }

/-- The table entry `uniffi_free`, called when a wrapper is dropped: callback_interface.rs:133-138 and
`free` of the CallbackInterfaceImpl templates. -/
def W.freeForeign (w : W) (fh : Nat) : W :=
  match find w.map fh with
  | none => { w with bad := true }
  | some _ => { w with map := del w.map fh }

/-- Dropping an `Arc`: the last one frees the allocation and drops its content. `inner` drops the
`Arc` inside a double one. -/
def W.decrWith (inner : W → Nat → W) (w : W) (a : Nat) : W :=
  match find w.bodies a with
  | none => { w with bad := true }
  | some b =>
    if w.cnt a = 1 then
      let w := { w with bodies := del w.bodies a, cnt := fun x => if x = a then 0 else w.cnt x }
      match b with
      | .obj n => w.add (.dropped n)
      | .wrapper fh => w.freeForeign fh
      | .double b => inner w b
    else { w with cnt := fun x => if x = a then w.cnt a - 1 else w.cnt x }

/-- The `Arc` inside a double one. -/
def W.decrInner : W → Nat → W := W.decrWith fun w _ => { w with bad := true }

/-- Dropping an `Arc` or `Box`. -/
def W.decr : W → Nat → W := W.decrWith W.decrInner

/-- Addresses are not zero and even: handle.rs:14-18. -/
def W.FreeAddr (w : W) (a : Nat) : Prop := a % 2 = 0 ∧ a ≠ 0 ∧ find w.bodies a = none

/-- Foreign handles are odd and new: C34. -/
def W.FreeHandle (w : W) (h : Nat) : Prop := h % 2 = 1 ∧ find w.map h = none

/-- `lower_rust_obj`: trait_interface.rs:190-196. The `Arc` is moved into a second one at `d`. -/
def W.lowerDouble (w : W) (a d : Nat) (t : Who) : W :=
  { w.alloc d (.double a) with toForeign := w.toForeign ++ [(d, t)] }

/-- `lower` of an `Arc` Rust code gives away, already taken from `rust`. `d`, `h`: the address and the
foreign handle to use if new ones are needed. `none`: there is no such conversion.
object.rs:193-197, trait_interface.rs:197-217. -/
def W.lower (k : Kind) (w : W) (a d h : Nat) (t : Who) : Option W :=
  match k with
  | .struct => some { w with toForeign := w.toForeign ++ [(a, t)] }
  | .rustOnly => some (w.lowerDouble a d t)
  | .callback => none
  | _ => match find w.bodies a with
    | some (.obj _) => some (w.lowerDouble a d t)
    | some (.wrapper fh) =>
      -- `uniffi_foreign_handle`, callback_interface.rs:50-57, clones; then `obj` is dropped
      match find w.map fh with
      | none => some { w with bad := true }
      | some f => some
          ({ w with map := (h, f) :: w.map, toForeign := w.toForeign ++ [(h, t)] }.decr a)
    | _ => some { w with bad := true }

/-- The handle is a double `Arc`: trait_interface.rs:138-147, 160-172. -/
def W.liftDouble (w : W) (h : Nat) (t : Who) : W :=
  match find w.bodies h with
  | some (.double b) =>
    let w := (w.incr b).decr h
    { w with rust := w.rust ++ [(b, t)] }
  | _ => { w with bad := true }

/-- The handle is foreign: trait_interface.rs:155-159, 176-184, callback_interface.rs:173-175. -/
def W.liftWrapper (w : W) (h a : Nat) (t : Who) : W :=
  { w.alloc a (.wrapper h) with rust := w.rust ++ [(a, t)] }

/-- `try_lift` of a handle that came from foreign code, already taken from `toRust`. `a`: the address
to use if a new one is needed. object.rs:199-203, trait_interface.rs:134-187,
callback_interface.rs:170-182. -/
def W.lift (k : Kind) (w : W) (h a : Nat) (t : Who) : W :=
  match k with
  | .struct => { w with rust := w.rust ++ [(h, t)] }
  | .rustOnly => w.liftDouble h t
  | .both => if h % 2 = 1 then w.liftWrapper h a t else w.liftDouble h t
  | _ => w.liftWrapper h a t

/-- A method call on a reference held by Rust: user code, or callback_interface.rs:244-253 and the
method functions of the CallbackInterfaceImpl templates, which start with `handle_map.get`. -/
def W.call (w : W) (a : Nat) (t : Who) : W :=
  match find w.bodies a with
  | some (.obj n) => w.add (.call t (.rust n))
  | some (.wrapper fh) => match find w.map fh with
    | some f => w.add (.call t (.foreign f))
    | none => { w with bad := true }
  | _ => { w with bad := true }

/-- Foreign `lift` of a handle that came from Rust, already taken from `toForeign`:
InterfaceTemplate.py:102-104, 131-139 and the same in Kotlin and Swift. -/
def W.foreignLift (k : Kind) (w : W) (h : Nat) (t : Who) : W :=
  if k.hasForeign && h % 2 == 1 then
    match find w.map h with
    | none => { w with bad := true }
    | some f => { w with map := del w.map h }.add (.back t (.foreign f))
  else { w with proxies := w.proxies ++ [(h, t)] }

/-- One step. `rustImpl`: Rust code has implementations of the trait. -/
inductive Step (k : Kind) (rustImpl : Bool) : W → W → Prop
  /-- Rust makes an object: `Arc::new`. -/
  | rustNew (w : W) (a : Nat) : rustImpl = true → w.FreeAddr a →
      Step k rustImpl w
        { (w.alloc a (.obj w.nextRust)).add (.made (.rust w.nextRust)) with
          rust := w.rust ++ [(a, .rust w.nextRust)], nextRust := w.nextRust + 1 }
  /-- Rust clones an `Arc`. -/
  | rustClone (w : W) (a : Nat) (t : Who) : k ≠ .callback → (a, t) ∈ w.rust →
      Step k rustImpl w { w.incr a with rust := w.rust ++ [(a, t)] }
  /-- Rust drops an `Arc` or `Box`. -/
  | rustDrop (w : W) (a : Nat) (t : Who) : (a, t) ∈ w.rust →
      Step k rustImpl w ({ w with rust := w.rust.erase (a, t) }.decr a)
  | rustCall (w : W) (a : Nat) (t : Who) : (a, t) ∈ w.rust → Step k rustImpl w (w.call a t)
  /-- Rust gives an `Arc` to foreign code. -/
  | rustLower (w w' : W) (a d h : Nat) (t : Who) : (a, t) ∈ w.rust → w.FreeAddr d → w.FreeHandle h →
      W.lower k { w with rust := w.rust.erase (a, t) } a d h t = some w' → Step k rustImpl w w'
  /-- Rust receives a handle. -/
  | rustLift (w : W) (h a : Nat) (t : Who) : (h, t) ∈ w.toRust → w.FreeAddr a →
      Step k rustImpl w (W.lift k { w with toRust := w.toRust.erase (h, t) } h a t)
  /-- Foreign code makes an object that implements the trait. -/
  | foreignNew (w : W) : k.hasForeign = true →
      Step k rustImpl w
        { w.add (.made (.foreign w.nextForeign)) with nextForeign := w.nextForeign + 1 }
  /-- Foreign code passes a Rust object: the handle is cloned. InterfaceTemplate.py:111-113, 147-150. -/
  | lowerProxy (w : W) (h : Nat) (t : Who) : (h, t) ∈ w.proxies →
      Step k rustImpl w { w.incr h with toRust := w.toRust ++ [(h, t)] }
  /-- Foreign code passes an object of its own: a new handle. InterfaceTemplate.py:151-153. -/
  | lowerImpl (w : W) (h f : Nat) : k.hasForeign = true → f < w.nextForeign → w.FreeHandle h →
      Step k rustImpl w { w with map := (h, f) :: w.map, toRust := w.toRust ++ [(h, .foreign f)] }
  /-- Foreign code receives a handle. -/
  | foreignLift (w : W) (h : Nat) (t : Who) : (h, t) ∈ w.toForeign →
      Step k rustImpl w (W.foreignLift k { w with toForeign := w.toForeign.erase (h, t) } h t)
  /-- A foreign object that holds a Rust handle ends: the free function. object.rs:123-136,
  trait_interface.rs:67-88, InterfaceTemplate.py:37-41. -/
  | foreignFree (w : W) (h : Nat) (t : Who) : (h, t) ∈ w.proxies →
      Step k rustImpl w ({ w with proxies := w.proxies.erase (h, t) }.decr h)

/-- All states of all histories. -/
inductive Reach (k : Kind) (rustImpl : Bool) : W → Prop
  | init : Reach k rustImpl {}
  | step (w w' : W) : Reach k rustImpl w → Step k rustImpl w w' → Reach k rustImpl w'

end Verif.Objects
