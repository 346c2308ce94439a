import Verif.Src.PathsMain
/-
A list of all places of a program, to check that addresses are unique. Used for examples.
-/
namespace Verif.Src

mutual
def Item.places (pre : RPath) : Item → List RPath
  | .module id ident vis items =>
    (pre ++ [.module id ident vis items]) :: itemsPlaces (pre ++ [.module id ident vis items]) items
  | .decl a b c d e f => [pre ++ [.decl a b c d e f]]
  | .useItem a b c d => [pre ++ [.useItem a b c d]]
  | .useGlob a b c => [pre ++ [.useGlob a b c]]
  | .useRemote a b => [pre ++ [.useRemote a b]]
  | .udl a b => [pre ++ [.udl a b]]
  | .builtin a => [pre ++ [.builtin a]]
  | .other a => [pre ++ [.other a]]
def itemsPlaces (pre : RPath) : List Item → List RPath
  | [] => []
  | i :: is => i.places pre ++ itemsPlaces pre is
end

theorem places_self {pre : RPath} {i : Item} : pre ++ [i] ∈ i.places pre := by
  cases i <;> rw [Item.places] <;> exact .head _

theorem itemsPlaces_mem {pre : RPath} {i : Item} : ∀ {is : List Item}, i ∈ is → pre ++ [i] ∈ itemsPlaces pre is
  | _ :: _, .head _ => by rw [itemsPlaces]; exact List.mem_append_left _ places_self
  | _ :: _, .tail _ h => by rw [itemsPlaces]; exact List.mem_append_right _ (itemsPlaces_mem h)

mutual
theorem places_child {p : RPath} {id ident vis items i} (hl : p.getLast? = some (.module id ident vis items))
    (hi : i ∈ items) : ∀ {j : Item} {pre}, p ∈ j.places pre → p ++ [i] ∈ j.places pre
  | .module a b c js, pre, h => by
    rw [Item.places] at h ⊢
    cases h with
    | head =>
      rw [List.getLast?_concat] at hl
      cases hl
      exact .tail _ (itemsPlaces_mem hi)
    | tail _ h => exact .tail _ (itemsPlaces_child hl hi h)
  | .decl _ _ _ _ _ _, pre, h => by rw [Item.places, List.mem_singleton] at h; subst h; simp at hl
  | .useItem _ _ _ _, pre, h => by rw [Item.places, List.mem_singleton] at h; subst h; simp at hl
  | .useGlob _ _ _, pre, h => by rw [Item.places, List.mem_singleton] at h; subst h; simp at hl
  | .useRemote _ _, pre, h => by rw [Item.places, List.mem_singleton] at h; subst h; simp at hl
  | .udl _ _, pre, h => by rw [Item.places, List.mem_singleton] at h; subst h; simp at hl
  | .builtin _, pre, h => by rw [Item.places, List.mem_singleton] at h; subst h; simp at hl
  | .other _, pre, h => by rw [Item.places, List.mem_singleton] at h; subst h; simp at hl
theorem itemsPlaces_child {p : RPath} {id ident vis items i} (hl : p.getLast? = some (.module id ident vis items))
    (hi : i ∈ items) : ∀ {js : List Item} {pre}, p ∈ itemsPlaces pre js → p ++ [i] ∈ itemsPlaces pre js
  | [], pre, h => by rw [itemsPlaces] at h; cases h
  | j :: js, pre, h => by
    rw [itemsPlaces] at h ⊢
    rcases List.mem_append.1 h with h | h
    · exact List.mem_append_left _ (places_child hl hi h)
    · exact List.mem_append_right _ (itemsPlaces_child hl hi h)
end

def Ir.places (ir : Ir) : List RPath := itemsPlaces [] (ir.roots.map (·.2))

theorem canon_places {ir : Ir} {p : RPath} (h : Canon ir p) : p ∈ ir.places ∨ ∃ b, p = [.builtin b] := by
  induction h with
  | root h => exact .inl (itemsPlaces_mem (pre := []) (root_mem h))
  | builtin b => exact .inr ⟨b, rfl⟩
  | item _ hl hi ih =>
    rcases ih with ih | ⟨b, rfl⟩
    · exact .inl (itemsPlaces_child hl hi ih)
    · cases hl

/-- The addresses of all places. -/
def Ir.addrs (ir : Ir) : List (Option Addr) := ir.places.map fun p => p.getLast?.map Item.addr

def Addr.isBuiltin : Option Addr → Bool
  | some (.builtin _) => true
  | _ => false

/-- No address occurs twice, and no builtin item stands in a module. -/
def Ir.uniqueCheck (ir : Ir) : Bool := ir.addrs.all (fun a => !Addr.isBuiltin a) && decide ir.addrs.Nodup

theorem map_nodup_inj {α β : Type} {f : α → β} : ∀ {l : List α}, (l.map f).Nodup → ∀ {a b}, a ∈ l → b ∈ l →
    f a = f b → a = b
  | x :: xs, h, a, b, ha, hb, hab => by
    rw [List.map_cons, List.nodup_cons] at h
    cases ha with
    | head =>
      cases hb with
      | head => rfl
      | tail _ hb => exact absurd (List.mem_map.2 ⟨b, hb, hab.symm⟩) h.1
    | tail _ ha =>
      cases hb with
      | head => exact absurd (List.mem_map.2 ⟨a, ha, hab⟩) h.1
      | tail _ hb => exact map_nodup_inj h.2 ha hb hab

theorem unique_of_check {ir : Ir} (h : ir.uniqueCheck = true) : ir.Unique := by
  rw [Ir.uniqueCheck, Bool.and_eq_true, decide_eq_true_eq, List.all_eq_true] at h
  have hb : ∀ p ∈ ir.places, ∀ b, p.getLast?.map Item.addr ≠ some (.builtin b) := by
    intro p hp b hc
    have := h.1 _ (List.mem_map.2 ⟨p, hp, rfl⟩)
    rw [hc] at this
    exact nomatch this
  intro p q hp hq he
  rcases canon_places hp with hp | ⟨b, rfl⟩ <;> rcases canon_places hq with hq | ⟨b', rfl⟩
  · exact map_nodup_inj (f := fun p : RPath => p.getLast?.map Item.addr) h.2 hp hq he
  · exact absurd he (hb p hp b')
  · exact absurd he.symm (hb q hq b)
  · simpa [Item.addr] using he

end Verif.Src
