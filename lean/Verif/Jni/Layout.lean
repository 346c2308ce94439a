import Verif.Jni.Types
/-
Where the Kotlin JNI generator places values in the buffers both languages share.
-/
namespace Verif.Jni

/-- `std::alloc::Layout`: a size and an alignment. -/
structure Layout where
  size : Nat
  align : Nat
  deriving DecidableEq, Repr

/-- The next multiple of `align` (std's `Layout::padding_needed_for`, which works on powers of two). -/
def roundUp (size align : Nat) : Nat := (size + align - 1) / align * align

/-- `Layout::from_size_align`: refuses sizes that pass `isize::MAX` when padded. -/
def Layout.make (size align : Nat) : Option Layout :=
  if size ≤ 2 ^ 63 - align then some ⟨size, align⟩ else none

/-- `Layout::extend`: the layout with the next one placed after it, and the offset of that one. -/
def Layout.extend (l next : Layout) : Option (Layout × Nat) :=
  let offset := roundUp l.size next.align
  (Layout.make (offset + next.size) (max l.align next.align)).map fun r => (r, offset)

/-- `Layout::pad_to_align`. -/
def Layout.padToAlign (l : Layout) : Layout := ⟨roundUp l.size l.align, l.align⟩

/-- `uniffi-bindgen-kotlin-jni/src/pipeline/ffi_buffer.rs:19-23` (`FfiBufferLayoutBuilder::new`). -/
def Layout.empty : Layout := ⟨0, 1⟩

/-- `ffi_buffer.rs:50-54` (`FfiBufferLayoutOracle`): the layouts of the types defined so far. -/
abbrev LayoutMap := Ty → Option Layout

/-- `ffi_buffer.rs:58-81` (`FfiBufferLayoutOracle::get`). -/
def LayoutMap.get (m : LayoutMap) : Ty → Option Layout
  | .bool => some ⟨1, 1⟩
  | .int t => some ⟨t.width, t.width⟩
  | .f32 => some ⟨4, 4⟩
  | .f64 => some ⟨8, 8⟩
  | .iface _ => some ⟨8, 8⟩
  | .string => some ⟨24, 8⟩
  | .seq _ | .map _ _ | .set _ => some ⟨16, 8⟩
  | .box _ => some ⟨8, 8⟩
  | .custom _ builtin => m.get builtin
  | t => m t

/-- `HashMap::insert`. -/
def LayoutMap.insert (m : LayoutMap) (t : Ty) (l : Layout) : LayoutMap :=
  fun t' => if t' = t then some l else m t'

/-- `ffi_buffer.rs:102-108` (`layout_for_types`), with the offsets that `map_fields`
(`records.rs:21-51`, `enums.rs:86-117`) gets from the same calls. -/
def LayoutMap.place (m : LayoutMap) : Layout → List Ty → Option (Layout × List Nat)
  | l, [] => some (l, [])
  | l, t :: ts => do
    let next ← m.get t
    let (l', off) ← l.extend next
    let (l'', offs) ← m.place l' ts
    some (l'', off :: offs)

/-- `ffi_buffer.rs:102-108` (`layout_for_types`). -/
def LayoutMap.forTypes (m : LayoutMap) (ts : List Ty) : Option Layout :=
  (m.place .empty ts).map Prod.fst

/-- The loop of `add_enum` (`ffi_buffer.rs:120-126`): the largest size and alignment. -/
def LayoutMap.variants (m : LayoutMap) : Layout → List (List Ty) → Option Layout
  | l, [] => some l
  | l, fs :: vs => do
    let v ← m.forTypes (.int .i32 :: fs)
    m.variants ⟨max l.size v.size, max l.align v.align⟩ vs

/-- `ffi_buffer.rs:87-98`: one round of `add_type_definitions`, with `add_record` (110-114),
`add_enum` (116-133) and `add_optional` (135-139). -/
def LayoutMap.addDef (m : LayoutMap) (d : TypeDef) : Option LayoutMap :=
  if (m d.self).isSome then some m else
  match d with
  | .record n fields => do
    let l ← m.forTypes fields
    some (m.insert (.record n) l)
  | .enum n _ variants => do
    let l ← m.variants .empty variants
    let l ← Layout.make l.size l.align
    some (m.insert (.enum n) l)
  | .optional inner => do
    let l ← m.forTypes [.bool, inner]
    some (m.insert (.option inner) l)
  | _ => some m

/-- `ffi_buffer.rs:83-100` (`add_type_definitions`). -/
def LayoutMap.addDefs (m : LayoutMap) : List TypeDef → Option LayoutMap
  | [] => some m
  | d :: ds => do
    let m' ← m.addDef d
    m'.addDefs ds

/-- The layouts from sorted type definitions. -/
def layoutsOf (defs : List TypeDef) : Option LayoutMap := LayoutMap.addDefs (fun _ => none) defs

/-- `context.rs:85-106` (`populate_fields_from_type_definitions`): the layouts of all types of the
given namespaces. -/
def layouts (namespaces : List (List TypeDef)) : Option LayoutMap := do
  let sorted ← sortDefs namespaces
  layoutsOf sorted

/-- `records.rs:21-51` (`map_fields`): the offset of each field of a record. -/
def LayoutMap.recordOffsets (m : LayoutMap) (fields : List Ty) : Option (List Nat) :=
  (m.place .empty fields).map Prod.snd

/-- `enums.rs:86-117` (`map_fields`): the offset of each field of a variant, after the
discriminant. -/
def LayoutMap.variantOffsets (m : LayoutMap) (fields : List Ty) : Option (List Nat) := do
  let disc ← m.get (.int .i32)
  let (l, _) ← Layout.empty.extend disc
  let (_, offs) ← m.place l fields
  some offs

/-- `compounds.rs:7-17` (`map_optional`): where the value of an option lies. -/
def LayoutMap.someOffset (m : LayoutMap) (inner : Ty) : Option Nat := do
  let b ← m.get .bool
  let (l, _) ← Layout.empty.extend b
  let i ← m.get inner
  let (_, off) ← l.extend i
  some off

/-- `compounds.rs:19-44` and `61-71` (`map_sequence`, `map_set`): the distance between items. -/
def LayoutMap.itemSize (m : LayoutMap) (inner : Ty) : Option Nat := do
  let i ← m.get inner
  let (l, _) ← Layout.empty.extend i
  some l.padToAlign.size

/-- `compounds.rs:46-59` (`map_map`): where the value of an entry lies, and the distance between
entries. -/
def LayoutMap.entry (m : LayoutMap) (key value : Ty) : Option (Nat × Nat) := do
  let k ← m.get key
  let (l, _) ← Layout.empty.extend k
  let v ← m.get value
  let (l, off) ← l.extend v
  some (off, l.padToAlign.size)

end Verif.Jni
