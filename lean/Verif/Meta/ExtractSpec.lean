import Verif.Meta.Extract
/-
What libraries contain: the meaning of sections and symbols, by the formats.
-/
namespace Verif.Meta.Extract
open Verif Verif.Meta

/-- `part` lies at `offset` in `file`. -/
def LiesAt (part file : Bytes) (offset : Nat) : Prop := ∃ pre post, file = pre ++ part ++ post ∧ pre.length = offset

/-- At address `addr`, `content` (which is loaded at `base`) holds an exported item that means `m`. -/
def Holds (content : Bytes) (base addr : Nat) (m : Metadata) : Prop :=
  ∃ bs k, addr = base + k ∧ LiesAt bs content k ∧ readMetadata bs = .ok m

/-- `ms` are the items of the symbols `syms`, one for each name, in some order. -/
def AllOnce (syms : List String) (item : String → Metadata) (ms : List Metadata) : Prop :=
  ∃ names : List String, names.Nodup ∧ (∀ n, n ∈ names ↔ n ∈ syms ∧ isMetadataSymbol n = true) ∧ ms = names.map item

/-- The index of the section of a symbol: ELF keeps numbers that do not fit in 16 bits in a table, in the byte
order of the file. -/
def ElfSym.InSection (elf : Elf) (file : Bytes) (i : Nat) (sym : ElfSym) (k : Nat) : Prop :=
  (sym.shndx ≠ 0xffff ∧ sym.shndx = k) ∨
  (sym.shndx = 0xffff ∧ ∃ (t : ElfSection) (ks : List Nat), elf.sections.find? (·.shndxTable) = some t ∧ ks[i]? = some k ∧
    (∀ x ∈ ks, x < 2 ^ 32) ∧
    LiesAt (ks.flatMap fun x => if elf.littleEndian then leBytes 4 x else (leBytes 4 x).reverse) file t.offset)

/-- An ELF file whose metadata symbols are defined and hold items. -/
def Elf.Sound (elf : Elf) (file : Bytes) (item : String → Metadata) : Prop :=
  ∀ (i : Nat) (sym : ElfSym), elf.syms[i]? = some sym → ∃ n, sym.name = some n ∧ (isMetadataSymbol n = true →
    ∃ (k : Nat) (s : ElfSection) (content : Bytes), sym.InSection elf file i k ∧ elf.sections[k]? = some s ∧
      LiesAt content file s.offset ∧ Holds content s.addr sym.value (item n))

/-- A COFF file; addresses are relative to the section. -/
def Coff.Sound (c : Coff) (file : Bytes) (item : String → Metadata) : Prop :=
  ∀ sym ∈ c.syms, 0 < sym.section_ → ∃ (k ptr : Nat), sym.section_ = k + 1 ∧ c.sections[k]? = some ptr ∧
    ∀ n, sym.name = some n → isMetadataSymbol n = true →
      ∃ content, LiesAt content file ptr ∧ Holds content 0 sym.value (item n)

/-- The names of the symbols a COFF file defines. -/
def Coff.defined (c : Coff) : List String := (c.syms.filter fun s => 0 < s.section_).filterMap (·.name)

/-- The symbols a Mach-O file defines for others. -/
def MachO.defined (m : MachO) : List MachSym := m.syms.filter fun s => s.isGlobal && s.inSection && s.sect != 0

/-- A Mach-O file: symbols give the number of their section in the order of the load commands, exports an
offset. -/
def MachO.Sound (m : MachO) (file : Bytes) (item : String → Metadata) : Prop :=
  (∀ sym ∈ m.defined, isMetadataSymbol sym.name = true →
    ∃ (s : MachSection) (content : Bytes), m.sections[sym.sect - 1]? = some s ∧ LiesAt content file s.offset ∧
      Holds content s.addr sym.value (item sym.name)) ∧
  (∀ n off, (n, off) ∈ m.exports → isMetadataSymbol n = true →
    ∃ bs, LiesAt bs file off ∧ readMetadata bs = .ok (item n))

/-- A PE file. -/
def PeSound (exports : List PeExport) (file : Bytes) (item : String → Metadata) : Prop :=
  ∀ x ∈ exports, ∀ n, x.name = some n → isMetadataSymbol n = true →
    ∃ bs off, x.offset = some off ∧ LiesAt bs file off ∧ readMetadata bs = .ok (item n)

end Verif.Meta.Extract
