import Verif.Meta.Buffer
/- What a chain of `concat…` calls should produce. -/
namespace Verif.Meta
open Verif
open Verif.Wire (utf8)

mutual
  /-- The documented encoding of a call: a byte as it is, an integer in little-endian order, a flag
  as 0 or 1, a short string after its length in one byte, a long string after its length in two
  little-endian bytes, another buffer as its content. -/
  def Op.bytes : Op → Bytes
    | .value v => [v]
    | .u32 v => leBytes 4 v.toNat
    | .bool v => [if v then 1 else 0]
    | .str s => UInt8.ofNat (utf8 s).length :: utf8 s
    | .longStr s => leBytes 2 (utf8 s).length ++ utf8 s
    | .buf ops => bytesAll ops
  /-- The bytes a chain of calls adds: those of the calls, one after the other. -/
  def bytesAll : List Op → Bytes
    | [] => []
    | op :: ops => op.bytes ++ bytesAll ops
end

mutual
  /-- Every short string is at most 255 bytes long. -/
  def Op.Short : Op → Prop
    | .str s => (utf8 s).length ≤ 255
    | .buf ops => ShortAll ops
    | _ => True
  /-- So it is for every call of a chain. -/
  def ShortAll : List Op → Prop
    | [] => True
    | op :: ops => op.Short ∧ ShortAll ops
end

mutual
  instance Op.decShort : (op : Op) → Decidable op.Short
    | .str s => inferInstanceAs (Decidable ((utf8 s).length ≤ 255))
    | .buf ops => decShortAll ops
    | .value _ => isTrue trivial
    | .u32 _ => isTrue trivial
    | .bool _ => isTrue trivial
    | .longStr _ => isTrue trivial
  instance decShortAll : (ops : List Op) → Decidable (ShortAll ops)
    | [] => isTrue trivial
    | op :: ops =>
      match op.decShort, decShortAll ops with
      | isTrue h1, isTrue h2 => isTrue ⟨h1, h2⟩
      | isFalse h, _ => isFalse fun x => h x.1
      | _, isFalse h => isFalse fun x => h x.2
end

/-- The 64-bit FNV-1a hash. -/
def fnv1a (bs : Bytes) : Nat :=
  bs.foldl (fun h b => (h ^^^ b.toNat) * 1099511628211 % 2 ^ 64) 14695981039346656037

/-- The documented checksum: the four 16-bit quarters of the FNV-1a hash combined by exclusive or. -/
def fnv16 (bs : Bytes) : UInt16 :=
  let h := fnv1a bs
  UInt16.ofNat (h % 2 ^ 16 ^^^ h / 2 ^ 16 % 2 ^ 16 ^^^ h / 2 ^ 32 % 2 ^ 16 ^^^ h / 2 ^ 48)

end Verif.Meta
