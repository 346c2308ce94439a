import Verif.Jni.Types
/-
How the Kotlin JNI generator takes values apart into the arguments of native functions.
-/
namespace Verif.Jni

/-- `uniffi-bindgen-kotlin-jni/src/pipeline/nodes.rs` (`FfiType`): the types a native function can
take. -/
inductive Ffi where
  | int8 | int16 | int32 | int64 | float32 | float64 | boolean | string
  | byteArray | shortArray | intArray | longArray | floatArray | doubleArray | byteBuffer
  deriving DecidableEq, Repr

/-- The array for a list of primitives, `ffi_types.rs:28-36`. -/
def seqFfi : Ty → Ffi
  | .int .i8 | .int .u8 => .byteArray
  | .int .i16 | .int .u16 => .shortArray
  | .int .i32 | .int .u32 => .intArray
  | .int .i64 | .int .u64 => .longArray
  | .f32 => .floatArray
  | .f64 => .doubleArray
  | _ => .byteBuffer

/-- The options that are passed as one value, `ffi_types.rs:42-64`. -/
def optionFfi : Ty → Option (List Ffi)
  | .int .u8 | .int .i8 | .int .u16 | .int .i16 | .int .u32 | .int .i32 => some [.int64]
  | .bool => some [.int64]
  | .f32 => some [.int32]
  | .f64 => some [.int64]
  | .string => some [.string]
  | .seq .bytes => some [.byteArray]
  | .iface _ | .callback _ => some [.int64]
  | _ => none

/-- `ffi_types.rs:11-67` (`standard_ffi_type_mapping`). -/
def standard : Ty → Option (List Ffi)
  | .int .i8 | .int .u8 => some [.int8]
  | .int .i16 | .int .u16 => some [.int16]
  | .int .i32 | .int .u32 => some [.int32]
  | .int .i64 | .int .u64 => some [.int64]
  | .f32 => some [.float32]
  | .f64 => some [.float64]
  | .bool => some [.boolean]
  | .string => some [.string]
  | .duration | .timestamp => some [.int64, .int32]
  | .bytes => some [.byteArray]
  | .seq t => some [seqFfi t]
  | .map _ _ | .set _ => some [.byteBuffer]
  | .iface _ | .callback _ => some [.int64]
  | .box _ => some [.int64]
  | .option t => optionFfi t
  | .record _ | .enum _ | .custom _ _ => none

/-- `ffi_types.rs:71-74` (`FfiTypeOracle`). -/
abbrev FfiMap := Ty → Option (List Ffi)

/-- `ffi_types.rs:77-85` (`get_ffi_types`). -/
def FfiMap.get (m : FfiMap) (t : Ty) : Option (List Ffi) :=
  match standard t with
  | some ffi => some ffi
  | none => m t

/-- `HashMap::insert`. -/
def FfiMap.insert (m : FfiMap) (t : Ty) (l : List Ffi) : FfiMap :=
  fun t' => if t' = t then some l else m t'

/-- The FFI types of several types one after another, `ffi_types.rs:94-97` and `114-117`. -/
def FfiMap.concat (m : FfiMap) : List Ty → Option (List Ffi)
  | [] => some []
  | t :: ts => do
    let a ← m.get t
    let b ← m.concat ts
    some (a ++ b)

/-- The inner loop of `ffi_types.rs:120-126`: types still in the set are taken from it, others are
added at the end. -/
def mergeTypes : (existing all new : List Ffi) → List Ffi
  | _, all, [] => all
  | ex, all, t :: ts =>
    if t ∈ ex then mergeTypes (ex.erase t) all ts else mergeTypes ex (all ++ [t]) ts

/-- `ffi_types.rs:113-127`: the loop over variants. The set of existing types holds each type once. -/
def FfiMap.mergeVariants (m : FfiMap) : List Ffi → List (List Ty) → Option (List Ffi)
  | all, [] => some all
  | all, v :: vs => do
    let new ← m.concat v
    m.mergeVariants (mergeTypes all.tail.eraseDups all new) vs

/-- `ffi_types.rs:91-146`: one round of `add_type_definitions`. -/
def FfiMap.addDef (m : FfiMap) : TypeDef → Option FfiMap
  | .record n fields => do
    let l ← m.concat fields
    some (m.insert (.record n) l)
  | .enum n true _ => some (m.insert (.enum n) [.int32, .string])
  | .enum n false variants => do
    let l ← m.mergeVariants [.int32] variants
    some (m.insert (.enum n) l)
  | .optional t =>
    match standard (.option t) with
    | some _ => some m
    | none => do
      let l ← m.get t
      some (m.insert (.option t) (.boolean :: l))
  | .custom n b => do
    let l ← m.get b
    some (m.insert (.custom n b) l)
  | .other _ _ => some m

/-- `ffi_types.rs:87-148` (`add_type_definitions`). -/
def FfiMap.addDefs (m : FfiMap) : List TypeDef → Option FfiMap
  | [] => some m
  | d :: ds => do
    let m' ← m.addDef d
    m'.addDefs ds

/-- `context.rs:85-101`: the FFI types of all types of the given namespaces. -/
def ffiTypes (namespaces : List (List TypeDef)) : Option FfiMap := do
  let sorted ← sortDefs namespaces
  FfiMap.addDefs (fun _ => none) sorted

/-- `nodes.rs` (`FfiField`): one of the values an enum is taken apart into. -/
structure FfiField where
  index : Nat
  ty : Ffi
  deriving DecidableEq, Repr

/-- `enums.rs:31-37`: the fields with their numbers. -/
def ffiFields (l : List Ffi) : List FfiField := (l.zipIdx).map fun p => ⟨p.2, p.1⟩

/-- `Vec::swap_remove`: the last item takes the place of the one removed. -/
def swapRemove {α : Type} (l : List α) (i : Nat) : List α :=
  match l.getLast? with
  | none => l
  | some x => (l.set i x).dropLast

/-- `enums.rs:138-154` (`VariantFieldAllocator::alloc`): the field and the ones still available. -/
def allocField (available : List FfiField) (t : Ffi) : Option (FfiField × List FfiField) :=
  match available.findIdx? (fun f => f.ty == t) with
  | none => none
  | some i => do
    let f ← available[i]?
    some (f, swapRemove available i)

/-- The fields for the FFI types of one value, `enums.rs:98-102`. -/
def allocFields : List FfiField → List Ffi → Option (List FfiField × List FfiField)
  | av, [] => some ([], av)
  | av, t :: ts => do
    let (f, av) ← allocField av t
    let (fs, av) ← allocFields av ts
    some (f :: fs, av)

/-- The fields for each value of a variant, given the FFI types of each: `enums.rs:93-102`. -/
def allocAll : List FfiField → List (List Ffi) → Option (List (List FfiField))
  | _, [] => some []
  | av, ts :: rest => do
    let (fs, av) ← allocFields av ts
    let more ← allocAll av rest
    some (fs :: more)

/-- `enums.rs:64-84` (`map_variant`): the fields of the enum (but for the discriminant, field 0) that each
field of the variant uses. -/
def allocVariant (enumFfi : List Ffi) (fields : List (List Ffi)) : Option (List (List FfiField)) :=
  allocAll ((ffiFields enumFfi).drop 1) fields

/-- The values of the variables `uniffi_ffi_field_<index>`, in the order in which they are bound: a later
binding hides an earlier one. -/
def lastBound {α : Type} (bs : List (Nat × α)) (i : Nat) : Option α :=
  (bs.reverse.find? fun b => b.1 == i).map Prod.snd

/-- Taking a variant apart: `scaffolding/templates/enum.rs:27-54` and
`bindings/templates/shared/EnumFfi.kt:42-68`. `pieces` are the values each field is taken apart
into, `dflt` the default value of an FFI type. `none` means that a variable is not bound, which the
compiler reports. -/
def packVariant {α : Type} (dflt : Ffi → α) (enumFfi : List Ffi) (alloc : List (List FfiField))
    (disc : α) (pieces : List (List α)) : Option (List α) :=
  let used : List FfiField := (ffiFields enumFfi).take 1 ++ alloc.flatten
  let bound := (0, disc) :: ((alloc.zip pieces).flatMap fun p => (p.1.map FfiField.index).zip p.2)
  (ffiFields enumFfi).mapM fun f =>
    if f ∈ used then lastBound bound f.index else some (dflt f.ty)

/-- Putting it together again: `enum.rs:68-79`, `EnumFfi.kt:80-94`. The values for each field. -/
def unpackVariant {α : Type} (alloc : List (List FfiField)) (values : List α) : Option (List (List α)) :=
  alloc.mapM fun fs => fs.mapM fun f => values[f.index]?

/-- Taking a record apart: `scaffolding/templates/record.rs:8-22` and `RecordFfi.kt:15-29`. A record
that is passed as one value is passed as the value of its first field. -/
def packRecord {α : Type} (pieces : List (List α)) : List α :=
  if pieces.flatten.length = 1 then
    match pieces with
    | p :: _ => p
    | [] => []
  else pieces.flatten

/-- `records.rs:22-36`: the numbers of the values of each field, counting through. -/
def recordIndices : Nat → List (List Ffi) → List (List Nat)
  | _, [] => []
  | k, ts :: rest => (List.range' k ts.length) :: recordIndices (k + ts.length) rest

/-- `record.rs:33-42`, `RecordFfi.kt:38-46`: the values for each field. -/
def unpackRecord {α : Type} (indices : List (List Nat)) (values : List α) : Option (List (List α)) :=
  indices.mapM fun is => is.mapM fun i => values[i]?

end Verif.Jni
