import Verif.Meta.Types
import Verif.Meta.Group
/-
Walking over types: uniffi_meta/src/types.rs and uniffi_bindgen/src/interface/universe.rs.
Iterators are lists in the order of iteration.
-/
namespace Verif.Gen
open Verif Verif.Meta

/-- `Type::iter_nested_types`: uniffi_meta/src/types.rs:156-170, with the calls of `iter_types` written
out. -/
def iterNested : MTy → List MTy
  | .optional t | .sequence t | .set t => t :: iterNested t
  | .map k v => (k :: iterNested k) ++ (v :: iterNested v)
  | .custom _ _ b => b :: iterNested b
  | _ => []

/-- `Type::iter_types`: uniffi_meta/src/types.rs:151-153. -/
def iterTypes (t : MTy) : List MTy := t :: iterNested t

/-- `Type::name`: uniffi_meta/src/types.rs:172-181. -/
def tyName : MTy → Option String
  | .object _ n _ | .record _ n | .enum _ n | .custom _ n _ | .callbackInterface _ n => some n
  | _ => none

/-- `Type::rename`: uniffi_meta/src/types.rs:199-208. -/
def rename (t : MTy) (new : String) : MTy :=
  match t with
  | .object m _ i => .object m new i
  | .record m _ => .record m new
  | .enum m _ => .enum m new
  | .custom m _ b => .custom m new b
  | .callbackInterface m _ => .callbackInterface m new
  | t => t

/-- The first step of `rename_recursive`. -/
def renameSelf (f : String → String) (t : MTy) : MTy :=
  match tyName t with
  | some n => rename t (f n)
  | none => t

/-- `Type::rename_recursive`: uniffi_meta/src/types.rs:210-236. The type is renamed in place, then
the types below it. The renaming in place does not change the types below, so the recursion is
written on the original type. -/
def renameRecursive (f : String → String) : MTy → MTy
  | .optional t => .optional (renameRecursive f t)
  | .sequence t => .sequence (renameRecursive f t)
  | .set t => .set (renameRecursive f t)
  | .map k v => .map (renameRecursive f k) (renameRecursive f v)
  | .custom m n b => .custom m (f n) (renameRecursive f b)
  | t => renameSelf f t

/-- `normalize_type_module_path`: interface/universe.rs:129-194. -/
def normalize : MTy → MTy
  | .object m n i => .object (crateName m) n i
  | .record m n => .record (crateName m) n
  | .enum m n => .enum (crateName m) n
  | .callbackInterface m n => .callbackInterface (crateName m) n
  | .optional t => .optional (normalize t)
  | .sequence t => .sequence (normalize t)
  | .map k v => .map (normalize k) (normalize v)
  | .set t => .set (normalize t)
  | .custom m n b => .custom (crateName m) n (normalize b)
  | .box t => normalize t
  | t => t

/-- `TypeUniverse`: interface/universe.rs:25-34. `known` is `all_known_types`, a set; `defs` is
`type_definitions`. -/
structure Universe where
  known : List MTy
  defs : List (String × MTy)
  deriving DecidableEq, Repr

/-- The lookup of `HashMap`. -/
def lookupDef (defs : List (String × MTy)) (n : String) : Option MTy :=
  match defs with
  | [] => none
  | (k, t) :: ds => if k = n then some t else lookupDef ds n

/-- `add_type_definition`: interface/universe.rs:45-62. `none` is the error "conflicting types". -/
def addTypeDefinition (u : Universe) (n : String) (t : MTy) : Option Universe :=
  match lookupDef u.defs n with
  | some cur => if normalize t = normalize cur then some u else none
  | none => some { u with defs := u.defs ++ [(n, t)] }

/-- `all_known_types.contains` and `insert`: interface/universe.rs:72-75. -/
def insertKnown (u : Universe) (t : MTy) : Universe :=
  if t ∈ u.known then u
  else if normalize t ∈ u.known then u else { u with known := u.known ++ [normalize t] }

theorem sizeOf_mem_iterNested (t : MTy) : ∀ s ∈ iterNested t, sizeOf s < sizeOf t := by
  induction t with
  | optional t ih | sequence t ih | set t ih =>
    intro s hs
    unfold iterNested at hs
    rcases List.mem_cons.1 hs with rfl | hs
    · simp
    · have := ih s hs; simp; omega
  | map k v ihk ihv =>
    intro s hs
    unfold iterNested at hs
    simp only [List.cons_append, List.mem_cons, List.mem_append] at hs
    rcases hs with rfl | hs | rfl | hs
    · simp; omega
    · have := ihk s hs; simp; omega
    · simp; omega
    · have := ihv s hs; simp; omega
  | custom m n b ih =>
    intro s hs
    unfold iterNested at hs
    rcases List.mem_cons.1 hs with rfl | hs
    · simp; omega
    · have := ih s hs; simp; omega
  | _ => intro s hs; simp [iterNested] at hs

mutual
/-- `add_known_type`: interface/universe.rs:70-85. -/
def addKnownType (u : Universe) (t : MTy) : Option Universe :=
  match addNested (insertKnown u t) t (iterNested t) (sizeOf_mem_iterNested t) with
  | none => none
  | some u =>
    match tyName t with
    | some n => addTypeDefinition u n t
    | none => some u
termination_by (sizeOf t, 1, 0)

/-- The loop over the nested types. -/
def addNested (u : Universe) (t : MTy) (ts : List MTy) (h : ∀ s ∈ ts, sizeOf s < sizeOf t) :
    Option Universe :=
  match ts with
  | [] => some u
  | s :: ss =>
    match addKnownType u s with
    | none => none
    | some u => addNested u t ss (fun x hx => h x (List.mem_cons_of_mem _ hx))
termination_by (sizeOf t, 0, ts.length)
decreasing_by
  · have := h s (List.mem_cons_self ..)
    exact Prod.Lex.left _ _ this
  · apply Prod.Lex.right; apply Prod.Lex.right; simp
end

/-- `add_known_types`: interface/universe.rs:88-94. -/
def addKnownTypes (u : Universe) : List MTy → Option Universe
  | [] => some u
  | t :: ts => (addKnownType u t).bind fun u => addKnownTypes u ts

/-- `is_external`: interface/universe.rs:96-100. -/
def isExternal (crate : String) (t : MTy) : Bool :=
  match t.crateName with
  | some c => c != crate
  | none => false

/-- `filter_local_types`: interface/universe.rs:116-121. -/
def filterLocalTypes (crate : String) (ts : List MTy) : List MTy :=
  ts.filter fun t => !isExternal crate t

/-- `iter_local_types`: interface/universe.rs:108-110. -/
def iterLocalTypes (crate : String) (u : Universe) : List MTy := filterLocalTypes crate u.known

/-- `iter_external_types`: interface/universe.rs:112-114. -/
def iterExternalTypes (crate : String) (u : Universe) : List MTy :=
  u.known.filter fun t => isExternal crate t

/-! `RecursiveTypeIterator`: uniffi_bindgen/src/interface/mod.rs:1295-1408 -/

/-- The user-defined types which the iterator looks into, by kind. The enumeration of the types in
their definitions (`Record::iter_types` etc., which flatten `iter_types` of the fields, arguments,
return and error types) is the parameter `defs`. `none` means that there is no definition. -/
abbrev Defs := MTy → Option (List MTy)

/-- `add_pending_type`: interface/mod.rs:1318-1338: the key of a type that is looked into. -/
def pendingKey : MTy → Option (String × String)
  | .record m n | .enum m n | .object m n _ | .callbackInterface m n => some (m, n)
  | _ => none

/-- The iterator: interface/mod.rs:1295-1304. -/
structure WalkSt where
  current : List MTy
  seen : List (String × String)
  pending : List MTy

/-- `add_pending_type`. -/
def addPending (st : WalkSt) (t : MTy) : WalkSt :=
  match pendingKey t with
  | none => st
  | some k => if k ∈ st.seen then st else { st with pending := t :: st.pending, seen := k :: st.seen }

/-- One step of `next`: interface/mod.rs:1398-1408 and `advance_to_next_type`, 1352-1394: either an
item of the current iterator is returned, or a pending type is popped. `none`: the iteration is
over. -/
def walkStep (defs : Defs) (st : WalkSt) : Option (List MTy × WalkSt) :=
  match st.current with
  | t :: rest => some ([t], addPending { st with current := rest } t)
  | [] =>
    match st.pending with
    | [] => none
    | t :: pending => some ([], { st with current := (defs t).getD [], pending := pending })

/-- Running the iterator for `fuel` steps. `none`: not finished yet. -/
def walk (defs : Defs) : Nat → WalkSt → Option (List MTy)
  | 0, _ => none
  | fuel + 1, st =>
    match walkStep defs st with
    | none => some []
    | some (ts, st) => (walk defs fuel st).map (ts ++ ·)

/-- `iter_types_in_item`: interface/mod.rs:409-411. -/
def iterTypesInItem (defs : Defs) (fuel : Nat) (t : MTy) : Option (List MTy) :=
  walk defs fuel { current := iterTypes t, seen := [], pending := [] }

/-- `item_contains_object_references`: interface/mod.rs:417-420. -/
def containsObjectReferences (defs : Defs) (fuel : Nat) (t : MTy) : Option Bool :=
  (iterTypesInItem defs fuel t).map fun ts => ts.any fun
    | .object .. => true
    | _ => false

/-- `item_contains_unsigned_types`: interface/mod.rs:423-426. -/
def containsUnsignedTypes (defs : Defs) (fuel : Nat) (t : MTy) : Option Bool :=
  (iterTypesInItem defs fuel t).map fun ts => ts.any fun
    | .uint8 | .uint16 | .uint32 | .uint64 => true
    | _ => false

end Verif.Gen
