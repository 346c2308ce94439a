import Verif.Gen.Rename
import Verif.Gen.RenameSpec
import Verif.Gen.TypeWalkLemmas
namespace Verif.Gen.Api
open Verif Verif.Meta Verif.Gen

theorem renamedTy_unnamed (R : Renames) (t : MTy) : namesIn t = [] → renamedTy R t = t := by
  induction t with
  | optional t ih | sequence t ih | set t ih | box t ih =>
    intro h; simp only [renamedTy]; rw [ih h]
  | map k v ihk ihv =>
    intro h; simp only [namesIn, List.append_eq_nil_iff] at h
    simp only [renamedTy]; rw [ihk h.1, ihv h.2]
  | object | record | enum | callbackInterface | custom => intro h; simp [namesIn] at h
  | _ => intro _; rfl

theorem mapType_simple (R : Renames) (t : MTy) : simple t → Pipeline.mapType R t = renamedTy R t := by
  induction t with
  | optional t ih | sequence t ih | set t ih =>
    intro h; simp only [Pipeline.mapType, renamedTy]; rw [ih h]
  | map k v ihk ihv =>
    intro h; simp only [simple, Bool.and_eq_true] at h
    simp only [Pipeline.mapType, renamedTy]; rw [ihk h.1, ihv h.2]
  | box t ih => intro h; simp [simple] at h
  | custom m n b ih =>
    intro h; simp only [simple, Bool.and_eq_true, List.isEmpty_iff] at h
    simp only [Pipeline.mapType, renamedTy]; rw [renamedTy_unnamed R b h.2]; rfl
  | _ => intro _; rfl

theorem renameRecursive_within (R : Renames) (c : String) (t : MTy) : within c t →
    renameRecursive (fun n => match R c n with | some new => new | none => n) t = renamedTy R t := by
  induction t with
  | optional t ih | sequence t ih | set t ih =>
    intro h; simp only [renameRecursive, renamedTy]; rw [ih h]
  | map k v ihk ihv =>
    intro ⟨hb, h⟩
    simp only [boxFree, Bool.and_eq_true] at hb
    simp only [pathsIn, List.mem_append] at h
    simp only [renameRecursive, renamedTy]
    rw [ihk ⟨hb.1, fun p hp => h p (.inl hp)⟩, ihv ⟨hb.2, fun p hp => h p (.inr hp)⟩]
  | box t ih => intro ⟨hb, _⟩; simp [boxFree] at hb
  | custom m n b ih =>
    intro ⟨hb, h⟩
    simp only [pathsIn, List.mem_cons] at h
    simp only [renameRecursive, renamedTy]
    rw [ih ⟨hb, fun p hp => h p (.inr hp)⟩, ← h m (.inl rfl)]; rfl
  | object m n i | record m n | enum m n | callbackInterface m n =>
    intro ⟨_, h⟩
    rw [← h m (by simp [pathsIn])]; rfl
  | _ => intro _; rfl

theorem visitType_uniform (R : Renames) (this : String) (hthis : crateName this = this) (t : MTy)
    (h : uniform this t) : Legacy.visitType R this t = renamedTy R t := by
  revert h
  cases t <;> intro h <;> first
    | exact renameRecursive_within R _ _ h
    | exact (congrArg (fun c => renameRecursive
        (fun n => match R c n with | some new => new | none => n) _) hthis).trans
        (renameRecursive_within R _ _ h)

theorem hasCallback_iff (i : Impl) :
    (Legacy.hasCallbackInterface i = true) ↔ (i = .trait .both ∨ i = .trait .foreignOnly) := by
  cases i with
  | struct => simp [Legacy.hasCallbackInterface]
  | trait k => cases k <;> simp [Legacy.hasCallbackInterface]

theorem filterMap_out {α β : Type} (out : List String) (key : α → String) (f g : α → β) (l : List α)
    (h : ∀ x ∈ l, f x = g x) :
    l.filterMap (fun x => if out.contains (key x) then none else some (f x)) =
      (l.filter fun x => key x ∉ out).map g := by
  induction l with
  | nil => rfl
  | cons x l ih =>
    have ih := ih fun y hy => h y (List.mem_cons_of_mem _ hy)
    by_cases hx : key x ∈ out
    · simp [hx] at ih ⊢; exact ih
    · simp [hx, h x (by simp)] at ih ⊢; exact ih

end Verif.Gen.Api
