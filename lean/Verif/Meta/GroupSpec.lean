import Verif.Meta.Group
/- What grouping by crate means. -/
namespace Verif.Meta

/-- Everything but namespace items is put into a group. -/
def grouped : Metadata → Bool
  | .namespace_ .. => false
  | _ => true

/-- The crate an item belongs to. -/
def crateOf (i : Metadata) : Option String := i.modulePath.map crateName

/-- The items of crate `c`, in the order given. -/
def itemsOf (c : String) (items : List Metadata) : List Metadata :=
  items.filter fun i => grouped i && crateOf i == some c

/-- The namespaces declared for crate `c`, by a namespace item or a UDL file, in the order given. -/
def namespacesOf (c : String) : List Metadata → List String
  | [] => []
  | .namespace_ k n :: is => if k = c then n :: namespacesOf c is else namespacesOf c is
  | .udlFile k n _ :: is => if k = c then n :: namespacesOf c is else namespacesOf c is
  | _ :: is => namespacesOf c is

end Verif.Meta
