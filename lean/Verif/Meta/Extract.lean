import Verif.Meta.Reader
/-
Finding metadata in libraries: uniffi_bindgen/src/macro_metadata/extract.rs.
`goblin` parses the file: what it gives is the input here.
-/
namespace Verif.Meta.Extract
open Verif Verif.Meta

/-- `is_metadata_symbol`: extract.rs:279-283. -/
def isMetadataSymbol (name : String) : Bool :=
  let n := match name.toList with
    | '_' :: r => r
    | r => r
  "UNIFFI_META".toList.isPrefixOf n

/-- The symbol of an item: uniffi_macros/src/util.rs:107-113. Names are ASCII. -/
def metaSymbol (crateName kind name : String) : String :=
  "UNIFFI_META_" ++ (crateName.map Char.toUpper ++ "_" ++ kind.map Char.toUpper ++ "_" ++ name.map Char.toUpper)

/-- `ExtractedItems`: extract.rs:242-247. -/
structure Items where
  items : List Metadata := []
  names : List String := []

/-- `extract_item`: extract.rs:254-272. Slicing behind the end panics. -/
def Items.extract (e : Items) (name : String) (file : Bytes) (offset : Nat) : Res Items :=
  if name ∈ e.names then .ok e
  else if file.length < offset then .panic
  else match readMetadata (file.drop offset) with
    | .ok m => .ok { items := e.items ++ [m], names := e.names ++ [name] }
    | .err => .err
    | .panic => .panic

/-- A loop with `?`. -/
def foldRes {α σ : Type} (f : σ → α → Res σ) : σ → List α → Res σ
  | e, [] => .ok e
  | e, x :: xs =>
    match f e x with
    | .ok e' => foldRes f e' xs
    | .err => .err
    | .panic => .panic

/-- `into_metadata`: extract.rs:274-276. -/
def Res.items : Res Items → Res (List Metadata)
  | .ok e => .ok e.items
  | .err => .err
  | .panic => .panic

/-! ### ELF -/

structure ElfSection where
  addr : Nat
  offset : Nat
  /-- the type is `SHT_SYMTAB_SHNDX` -/
  shndxTable : Bool := false

structure ElfSym where
  /-- `none` if the string table has no such name -/
  name : Option String
  /-- `st_shndx`, 16 bits -/
  shndx : Nat
  value : Nat

structure Elf where
  sections : List ElfSection
  syms : List ElfSym
  littleEndian : Bool := true

/-- `SHN_XINDEX`. -/
def xindex : Nat := 0xffff

/-- The number of the section of symbol `i`: extract.rs:41-47, 58-81. -/
def elfIndex (elf : Elf) (file : Bytes) (i : Nat) (sym : ElfSym) : Res Nat :=
  if sym.shndx = xindex then
    match elf.sections.find? (·.shndxTable) with
    | none => .err
    | some t =>
      let slice := (file.drop (t.offset + i * 4)).take 4
      if slice.length = 4 then .ok (if elf.littleEndian then leNat slice else leNat slice.reverse)
      else .err
  else .ok sym.shndx

/-- The body of the loop: extract.rs:49-91. A difference below 0 panics (as in a debug build). The sums
are below 2^64 for files that exist. -/
def elfStep (elf : Elf) (file : Bytes) (e : Items) (x : ElfSym × Nat) : Res Items :=
  match x.1.name with
  | none => .err
  | some name =>
    if !isMetadataSymbol name then .ok e
    else match elfIndex elf file x.2 x.1 with
      | .ok k =>
        match elf.sections[k]? with
        | none => .err
        | some sh => if x.1.value < sh.addr then .panic else e.extract name file (sh.offset + (x.1.value - sh.addr))
      | .err => .err
      | .panic => .panic

/-- `extract_from_elf`: extract.rs:38-93. -/
def extractElf (elf : Elf) (file : Bytes) : Res (List Metadata) :=
  Res.items (foldRes (elfStep elf file) {} elf.syms.zipIdx)

/-! ### PE -/

structure PeExport where
  name : Option String
  offset : Option Nat

def peStep (file : Bytes) (e : Items) (x : PeExport) : Res Items :=
  match x.name with
  | none => .ok e
  | some name =>
    if isMetadataSymbol name then
      match x.offset with
      | none => .err
      | some off => e.extract name file off
    else .ok e

/-- `extract_from_pe`: extract.rs:95-109. -/
def extractPe (exports : List PeExport) (file : Bytes) : Res (List Metadata) :=
  Res.items (foldRes (peStep file) {} exports)

/-! ### Mach-O -/

structure MachSection where
  addr : Nat
  offset : Nat

structure MachSym where
  name : String
  isGlobal : Bool
  /-- the type is `N_SECT` -/
  inSection : Bool
  /-- `n_sect`: sections are counted from 1, 0 is `NO_SECT` -/
  sect : Nat
  value : Nat

structure MachO where
  /-- of all segments, in the order of the load commands -/
  sections : List MachSection
  syms : List MachSym
  /-- name and offset -/
  exports : List (String × Nat)

/-- Insertion into a sorted list, before greater keys. -/
def insertByAddr (s : MachSection) : List MachSection → List MachSection
  | [] => [s]
  | t :: ts => if t.addr ≤ s.addr then t :: insertByAddr s ts else s :: t :: ts

/-- `sort_by_key(|s| s.addr)`, which is stable: extract.rs:133. -/
def sortByAddr (l : List MachSection) : List MachSection := l.foldl (fun acc s => insertByAddr s acc) []

/-- extract.rs:137-155. A bad index and a difference below 0 panic. -/
def machSymStep (sections : List MachSection) (file : Bytes) (e : Items) (x : MachSym) : Res Items :=
  if x.isGlobal && x.inSection && isMetadataSymbol x.name && x.sect != 0 then
    match sections[x.sect - 1]? with
    | none => .panic
    | some s => if s.offset + x.value < s.addr then .panic else e.extract x.name file (s.offset + x.value - s.addr)
  else .ok e

/-- extract.rs:158-163. -/
def machExportStep (file : Bytes) (e : Items) (x : String × Nat) : Res Items :=
  if isMetadataSymbol x.1 then e.extract x.1 file x.2 else .ok e

/-- `extract_from_macho`: extract.rs:127-165. -/
def extractMachO (m : MachO) (file : Bytes) : Res (List Metadata) :=
  match foldRes (machSymStep (sortByAddr m.sections) file) {} m.syms with
  | .ok e => Res.items (foldRes (machExportStep file) e m.exports)
  | .err => .err
  | .panic => .panic

/-! ### COFF -/

structure CoffSym where
  /-- `none` if it cannot be read -/
  name : Option String
  section_ : Int
  value : Nat

structure Coff where
  /-- `pointer_to_raw_data` -/
  sections : List Nat
  syms : List CoffSym

/-- extract.rs:208-235. -/
def coffStep (c : Coff) (file : Bytes) (e : Items) (x : CoffSym) : Res Items :=
  if x.section_ ≤ 0 then .ok e
  else match x.name with
    | none => .ok e
    | some name =>
      match c.sections[(x.section_ - 1).toNat]? with
      | none => .err
      | some ptr => if !isMetadataSymbol name then .ok e else e.extract name file (ptr + x.value)

/-- `extract_from_coff`: extract.rs:197-238. A file without string table or symbols has `syms = []`. -/
def extractCoff (c : Coff) (file : Bytes) : Res (List Metadata) :=
  Res.items (foldRes (coffStep c file) {} c.syms)

/-! ### Archives and fat files -/

/-- Files other than archives. -/
inductive Obj where
  | elf (e : Elf)
  | pe (exports : List PeExport)
  | macho (m : MachO)
  | coff (c : Coff)
  | unknown

/-- `extract_from_bytes` for those: extract.rs:27-36. -/
def extractObj (o : Obj) (file : Bytes) : Res (List Metadata) :=
  match o with
  | .elf e => extractElf e file
  | .pe x => extractPe x file
  | .macho m => extractMachO m file
  | .coff c => extractCoff c file
  | .unknown => .err

/-- A member of an archive, with its symbols in the index of the archive. Archives inside archives are
left out. -/
structure Member where
  name : String
  symbols : List String
  obj : Obj
  data : Bytes

/-- `members_to_check`: extract.rs:172-179. A set of names. -/
def membersToCheck (ms : List Member) : List String :=
  ((ms.filter fun m => m.symbols.any isMetadataSymbol).map (·.name)).eraseDups

/-- `archive.extract`: `goblin` keeps a map from names to members, the last one with a name stays. -/
def memberNamed (ms : List Member) (n : String) : Option Member := ms.reverse.find? (·.name = n)

def archiveStep (ms : List Member) (acc : List Metadata) (n : String) : Res (List Metadata) :=
  match memberNamed ms n with
  | none => .err
  | some m =>
    match extractObj m.obj m.data with
    | .ok l => .ok (acc ++ l)
    | .err => .err
    | .panic => .panic

/-- `extract_from_archive`: extract.rs:167-195. `order` is the set in the order a `HashSet` gives. -/
def extractArchive (ms : List Member) (order : List String) : Res (List Metadata) :=
  foldRes (archiveStep ms) [] order

/-- `extract_from_mach` for fat files: extract.rs:111-125: the first one only, in the part of the file
that starts at its offset. -/
def extractFat (arches : List (Nat × MachO)) (file : Bytes) : Res (List Metadata) :=
  match arches with
  | [] => .panic
  | (off, m) :: _ => if file.length < off then .panic else extractMachO m (file.drop off)

end Verif.Meta.Extract
