import Verif.Src.EmitLemmas
import Verif.Src.EmitAttrs
namespace Verif.Src
open Verif.Meta

variable {ir : Ir}

/-! ### The caches stay valid -/

theorem keeps_ofRes {α : Type} {r : Res α} : Keeps ir (M.ofRes r) := gives_ofRes fun _ _ => trivial

theorem keeps_all {α β : Type} {f : α → M β} (h : ∀ a, Keeps ir (f a)) (as : List α) : Keeps ir (M.all f as) :=
  (gives_all (R := fun _ _ => True) fun a _ => h a).keeps

theorem ofRes_bind {α β : Type} {a : α} {f : α → M β} : (M.ofRes (.ok a)).bind f = f a := rfl

section
variable (hu : ir.Unique) (hr : ir.RootsModules) {n : Nat} {p : RPath} (hp : Canon ir p)
include hu hr hp

theorem resolveMeta_keeps {ty self} : Keeps ir (resolveMeta ir n p ty self) :=
  keeps_bind (resolveTy_keeps hu hr n p ty [] [] hp) fun _ => keeps_ofRes

theorem argMetadata_keeps {ds self a} : Keeps ir (argMetadata ir n p ds self a) :=
  keeps_bind (keeps_bind (resolveTy_keeps hu hr n p a.2 [] [] hp) fun _ => keeps_ofRes) fun _ =>
    keeps_bind keeps_ofRes fun _ => keeps_pure

theorem returnMetadata_keeps {output self} : Keeps ir (returnMetadata ir n p output self) := by
  cases output with
  | none => exact keeps_pure
  | some ty => exact keeps_bind (resolveTy_keeps hu hr n p ty [] [] hp) fun _ => keeps_ofRes

theorem fieldMetadata_keeps {f} : Keeps ir (fieldMetadata ir n p f) :=
  keeps_bind (resolveMeta_keeps hu hr hp) fun _ => keeps_bind keeps_ofRes fun _ => keeps_pure

theorem variantMetadata_keeps {flat v} : Keeps ir (variantMetadata ir n p flat v) := by
  refine keeps_bind ?_ fun _ => keeps_pure
  split
  · exact keeps_pure
  · exact keeps_all (fun _ => fieldMetadata_keeps hu hr hp) _

theorem consMetadata_keeps {s t f} : Keeps ir (consMetadata ir n p s t f) := by
  refine keeps_bind (returnMetadata_keeps hu hr hp) fun _ => ?_
  split
  · exact keeps_bind (keeps_all (fun _ => argMetadata_keeps hu hr hp) _) fun _ => keeps_pure
  · exact keeps_fail

theorem methodParts_keeps {t m} : Keeps ir (methodParts ir n p t m) :=
  keeps_bind (returnMetadata_keeps hu hr hp) fun _ =>
    keeps_bind (keeps_bind (resolveTy_keeps hu hr n p _ [] [] hp) fun _ => keeps_ofRes) fun _ =>
    keeps_bind (keeps_all (fun _ => argMetadata_keeps hu hr hp) _) fun _ => keeps_pure

theorem traitMethods_keeps {name t} : ∀ (ms : List PMethod) (i : Nat), Keeps ir (traitMethods ir n p name t i ms)
  | [], _ => keeps_pure
  | _ :: ms, i => keeps_bind (methodParts_keeps hu hr hp) fun _ =>
      keeps_bind (traitMethods_keeps ms (i + 1)) fun _ => keeps_pure

theorem unresolvedMetadata_keeps {trait self} : Keeps ir (unresolvedMetadata ir n p trait self) := by
  have h : Keeps ir (traitImpl ir n p trait self) := by
    unfold traitImpl
    split
    · exact keeps_pure
    · rename_i path args
      intro c hc
      have hres := resolve_sat hu path hp (E := fun _ => True) (fun _ _ => trivial) c hc
      dsimp only
      split
      · rename_i q c' hq
        rw [hq] at hres
        split
        · have : Keeps ir (fromImpl ir n p args self) := by
            refine keeps_bind (keeps_1 fun t => resolveTy_keeps hu hr n p t [] [] hp) fun t => ?_
            split
            · exact keeps_bind (resolveMeta_keeps hu hr hp) fun _ => keeps_pure
            · exact keeps_pure
          exact this c' hres.1
        · exact ⟨hres.1, fun _ _ => trivial, fun _ _ => trivial⟩
        · exact ⟨hres.1, fun _ _ => trivial, fun _ _ => trivial⟩
      · rename_i e c' hq
        rw [hq] at hres
        exact ⟨hres.1, fun _ _ => trivial, fun _ _ => trivial⟩
  intro c hc
  unfold unresolvedMetadata
  have := h c hc
  split
  · rename_i hq; rw [hq] at this; exact ⟨this.1, fun _ _ => trivial, fun _ _ => trivial⟩
  · rename_i hq; rw [hq] at this; exact ⟨this.1, fun _ _ => trivial, fun _ _ => trivial⟩

theorem publicPath_keeps {id k ident vis attr remote} (hq : Canon ir (p ++ [.decl id k ident vis attr remote]))
    (hk : k.exportable = true) :
    Keeps ir (M.publicPath ir (p ++ [.decl id k ident vis attr remote])) := fun _ hc =>
  ⟨.publicPath hc hq (canon_isDecl hr hq List.getLast?_concat hk), fun _ _ => trivial, fun _ _ => trivial⟩

theorem implMetadata_keeps {name self cs ms} : Keeps ir (implMetadata ir n p name self cs ms) :=
  keeps_bind (resolveMeta_keeps hu hr hp) fun _ => keeps_bind keeps_ofRes fun _ =>
    keeps_bind (keeps_all (fun _ => consMetadata_keeps hu hr hp) _) fun _ =>
    keeps_bind (keeps_all (fun _ => keeps_bind (methodParts_keeps hu hr hp) fun _ => keeps_pure) _) fun _ => keeps_pure

end

mutual
theorem emitItem_keeps (hu : ir.Unique) (hr : ir.RootsModules) {n : Nat} {p : RPath} (hp : Canon ir p) {mid mi mvis items}
    (hl : p.getLast? = some (.module mid mi mvis items)) :
    ∀ (i : PItem), i.erase ∈ items → Keeps ir (emitItem ir n p i)
  | .module id ident vis is, hi => by
    rw [emitItem]
    rw [PItem.erase] at hi
    exact emitItems_keeps hu hr (.item hp hl hi) List.getLast?_concat is fun _ h => h
  | .fn id vis f, hi => by
    have hq := Canon.item hp hl hi
    rw [PItem.erase] at hq
    rw [emitItem, PItem.erase]
    refine keeps_bind ?_ fun _ => keeps_pure
    unfold fnMetadata
    simp only [parent_concat (canon_ne hp), ofRes_bind]
    exact keeps_bind (publicPath_keeps hu hr hp hq rfl) fun _ => keeps_bind (returnMetadata_keeps hu hr hp) fun _ =>
      keeps_bind (keeps_all (fun _ => argMetadata_keeps hu hr hp) _) fun _ => keeps_pure
  | .record id a vis ident fields, hi => by
    have hq := Canon.item hp hl hi
    rw [PItem.erase] at hq
    rw [emitItem, PItem.erase]
    unfold recordMetadata
    simp only [parent_concat (canon_ne hp), ofRes_bind]
    exact keeps_bind (publicPath_keeps hu hr hp hq rfl) fun _ =>
      keeps_bind (keeps_all (fun _ => fieldMetadata_keeps hu hr hp) _) fun _ => keeps_pure
  | .enum id a vis ident variants, hi => by
    have hq := Canon.item hp hl hi
    rw [PItem.erase] at hq
    rw [emitItem, PItem.erase]
    unfold enumMetadata
    simp only [parent_concat (canon_ne hp), ofRes_bind]
    exact keeps_bind (publicPath_keeps hu hr hp hq rfl) fun _ =>
      keeps_bind (keeps_all (fun _ => variantMetadata_keeps hu hr hp) _) fun _ => keeps_pure
  | .object id a vis ident, hi => by
    have hq := Canon.item hp hl hi
    rw [PItem.erase] at hq
    rw [emitItem, PItem.erase]
    exact keeps_bind (publicPath_keeps hu hr hp hq rfl) fun _ => keeps_pure
  | .trait id t a vis ident methods, hi => by
    have hq := Canon.item hp hl hi
    rw [PItem.erase] at hq
    rw [emitItem, PItem.erase]
    unfold traitMetadata
    simp only [parent_concat (canon_ne hp), ofRes_bind]
    exact keeps_bind (publicPath_keeps hu hr hp hq rfl) fun _ => keeps_bind (traitMethods_keeps hu hr hp _ _) fun _ => keeps_pure
  | .impl id name self cs ms, hi => by
    rw [emitItem]; exact implMetadata_keeps hu hr hp
  | .unresolvedImpl id trait self, hi => by
    rw [emitItem]; exact unresolvedMetadata_keeps hu hr hp
  | .custom id doc ident builtin, hi => by
    have hq := Canon.item hp hl hi
    rw [PItem.erase] at hq
    rw [emitItem, PItem.erase]
    refine keeps_bind ?_ fun _ => keeps_pure
    unfold customMetadata
    simp only [parent_concat (canon_ne hp), ofRes_bind]
    exact keeps_bind (resolveMeta_keeps hu hr hp) fun _ => keeps_bind (publicPath_keeps hu hr hp hq rfl) fun _ => keeps_pure
  | .plain i, hi => by rw [emitItem]; exact keeps_pure
theorem emitItems_keeps (hu : ir.Unique) (hr : ir.RootsModules) {n : Nat} {p : RPath} (hp : Canon ir p) {mid mi mvis items}
    (hl : p.getLast? = some (.module mid mi mvis items)) :
    ∀ (is : List PItem), (∀ i ∈ eraseAll is, i ∈ items) → Keeps ir (emitItems ir n p is)
  | [], _ => by rw [emitItems]; exact keeps_pure
  | i :: is, h => by
    rw [emitItems]
    rw [eraseAll] at h
    exact keeps_bind (emitItem_keeps hu hr hp hl i (h _ (.head _))) fun _ =>
      keeps_bind (emitItems_keeps hu hr hp hl is fun i hi => h i (.tail _ hi)) fun _ => keeps_pure
end

/-! ### What is read for one item -/

/-- The metadata of `i` is `os`, if it is read with some valid caches. -/
def Got (ir : Ir) (n : Nat) (p : RPath) (i : PItem) (os : List Out) : Prop :=
  ∃ c, FullReach ir c ∧ (emitItem ir n p i c).1 = .ok os

theorem got_of {n : Nat} {p : RPath} {i : PItem} {os : List Out} {Q : List Out → Prop} (h : Got ir n p i os)
    (hg : Gives ir (emitItem ir n p i) Q) : Q os := by
  obtain ⟨c, hc, h⟩ := h
  exact (hg c hc).2.1 os h

theorem emitItems_got (hu : ir.Unique) (hr : ir.RootsModules) {n : Nat} {p : RPath} (hp : Canon ir p) {mid mi mvis items}
    (hl : p.getLast? = some (.module mid mi mvis items)) :
    ∀ (is : List PItem), (∀ i ∈ eraseAll is, i ∈ items) →
      Gives ir (emitItems ir n p is) (fun os => ∃ oss, Each (Got ir n p) is oss ∧ os = oss.flatten)
  | [], _ => by rw [emitItems]; exact sat_pure ⟨[], .nil, rfl⟩
  | i :: is, h => by
    rw [emitItems]
    rw [eraseAll] at h
    have hk := emitItem_keeps hu hr (n := n) hp hl i (h _ (.head _))
    have hg : Gives ir (emitItem ir n p i) (Got ir n p i) := fun c hc =>
      ⟨(hk c hc).1, fun os hos => ⟨c, hc, hos⟩, fun _ _ => trivial⟩
    refine sat_bind hg fun a ha => sat_bind (emitItems_got hu hr hp hl is fun i hi => h i (.tail _ hi)) fun b hb => sat_pure ?_
    obtain ⟨oss, hb, rfl⟩ := hb
    exact ⟨a :: oss, .cons ha hb, rfl⟩

end Verif.Src
