import Verif.Abi.Vtable
import Verif.Meta.Encode
import Verif.Meta.Reader
import Verif.Meta.GroupSpec
/-
What the theorems about C signatures say about a source function, in terms of the source alone.
-/
namespace Verif.Abi
open Verif.Meta

/-- The type is not a byte slice, also not behind a `Box` or a custom type. -/
def NoSlice : RTy → Prop
  | .byteSlice => False
  | .box t => NoSlice t
  | .custom _ _ t => NoSlice t
  | _ => True

/-- Arguments that exist in Rust: a slice of bytes is always behind a reference. -/
def ArgOk (a : ArgSrc) : Prop :=
  NoSlice a.ty ∨ (a.ty = .byteSlice ∧ a.passBy ≠ .value)

/-- An argument that is a reference to a vector of bytes, `&Vec<u8>`. -/
def RefToVec (a : ArgSrc) : Prop := a.ty = .vec .u8 ∧ a.passBy ≠ .value

/-- An argument that is a reference to bytes, `&Vec<u8>`, `&[u8]` or `&mut [u8]`. -/
def RefToBytes (a : ArgSrc) : Prop := RefToVec a ∨ a.ty = .byteSlice

/-- The returned types do not borrow bytes. -/
def RetOk : RetSrc → Prop
  | .plain t => ∀ x, t = some x → NoSlice x
  | .result t _ => ∀ x, t = some x → NoSlice x

/-- Types with methods. -/
def IsReceiver : RTy → Prop
  | .object _ _ | .traitObject _ _ _ | .callbackInterface _ _ | .record _ _ | .enum _ _ => True
  | _ => False

/-- A function the macros accept, belonging to the type `recv` if it is not a plain function;
constructors belong to objects. -/
structure Exported (recv : RTy) (f : FnSrc) : Prop where
  args : ∀ a ∈ f.args, ArgOk a
  ret : RetOk f.ret
  receiver : IsReceiver recv
  object : ∀ s, f.kind = .constructor s → ∃ m, recv = .object m s

/-- A method of a callback interface or of a trait with foreign implementations: arguments are
passed by value. -/
structure Callable (f : FnSrc) : Prop where
  args : ∀ a ∈ f.args, NoSlice a.ty ∧ a.passBy = .value
  ret : RetOk f.ret

/-- `items` is what a library contains, in any order and possibly with repetitions, where crate
`crate` exports a trait `tr` with the methods `ms`, in source order. -/
structure Library (crate tr : String) (ms : List FnSrc) (items : List Metadata) : Prop where
  /-- Positions are 32 bit numbers. -/
  short : ms.length ≤ 2 ^ 32
  /-- The macro numbers the methods. -/
  kind : ∀ (i : Nat) (f : FnSrc), ms[i]? = some f → f.kind = .traitMethod tr (UInt32.ofNat i)
  /-- The methods are in the crate. -/
  inCrate : ∀ f ∈ ms, crateName f.modulePath = crate
  /-- The metadata of the methods is emitted and accepted. -/
  compiled : ∀ f ∈ ms, ∃ bs x, (Item.fn f).emit = some bs ∧ readMetadata bs = .ok x
  /-- The methods of the trait found in the library are these. -/
  found : ∀ x, (x ∈ items ∧ crateOf x = some crate ∧ ∃ i g, x = .traitMethod tr i g) ↔
    ∃ f ∈ ms, ∃ bs, (Item.fn f).emit = some bs ∧ readMetadata bs = .ok x

/-- Slot `i + 2` of a table calls method `i`; the first two free and clone. -/
def table (n : Nat) : List Slot := .free :: .clone :: (List.range n).map .method

/-- JNA reads unsigned bytes and shorts returned by a function as a 32 bit integer. -/
def widened : CTy → CTy
  | .int 8 false | .int 16 false => .int 32 true
  | t => t.noSign

end Verif.Abi
