import Verif.Meta.RoundTrip
/- What the reader returns depends only on the bytes it consumes. -/
namespace Verif.Meta
open Verif

/-- If `p` succeeds, it has consumed a prefix, and `q` returns the same with more data behind. -/
def Ext2 {α : Type} (p q : Rd α) : Prop :=
  ∀ init buf a r, p init buf = .ok (a, r) →
    (∃ used, buf = used ++ r) ∧ ∀ x, q (init ++ x) (buf ++ x) = .ok (a, r ++ x)

abbrev Ext {α : Type} (p : Rd α) : Prop := Ext2 p p

namespace Ext2
variable {α β : Type}

theorem pure (a : α) : Ext (Pure.pure a : Rd α) := by
  intro init buf b r h; cases h; exact ⟨⟨[], rfl⟩, fun x => rfl⟩

theorem fail {q : Rd α} : Ext2 (Rd.fail : Rd α) q := by intro init buf b r h; cases h

theorem bind {p q : Rd α} {f g : α → Rd β} (h1 : Ext2 p q) (h2 : ∀ a, Ext2 (f a) (g a)) :
    Ext2 (p >>= f) (q >>= g) := by
  intro init buf b r h
  change Rd.bind p f init buf = _ at h
  unfold Rd.bind at h
  split at h
  · rename_i a buf' e
    obtain ⟨⟨u1, rfl⟩, e1⟩ := h1 init buf a buf' e
    obtain ⟨⟨u2, rfl⟩, e2⟩ := h2 a init buf' b r h
    refine ⟨⟨u1 ++ u2, by simp⟩, fun x => ?_⟩
    show Rd.bind q g _ _ = _
    simp only [Rd.bind, e1 x, e2 x]
  · cases h
  · cases h

theorem ite {c : Prop} [Decidable c] {p q p' q' : Rd α} (h1 : Ext2 p p') (h2 : Ext2 q q') :
    Ext2 (if c then p else q) (if c then p' else q') := by
  split
  · exact h1
  · exact h2

theorem u8 : Ext Rd.u8 := by
  intro init buf a r h
  match buf, h with
  | b :: buf, h =>
    simp only [Rd.u8, Res.ok.injEq, Prod.mk.injEq] at h
    obtain ⟨rfl, rfl⟩ := h
    exact ⟨⟨[_], rfl⟩, fun x => rfl⟩

theorem peek : Ext Rd.peek := by
  intro init buf a r h
  match buf, h with
  | b :: buf, h =>
    simp only [Rd.peek, Res.ok.injEq, Prod.mk.injEq] at h
    obtain ⟨rfl, rfl⟩ := h
    exact ⟨⟨[], rfl⟩, fun x => rfl⟩

theorem u16 : Ext Rd.u16 := by
  intro init buf a r h
  match buf, h with
  | b :: c :: buf, h =>
    simp only [Rd.u16, Res.ok.injEq, Prod.mk.injEq] at h
    obtain ⟨rfl, rfl⟩ := h
    exact ⟨⟨[b, c], rfl⟩, fun x => rfl⟩

theorem u32 : Ext Rd.u32 := by
  intro init buf a r h
  match buf, h with
  | b :: c :: d :: e :: buf, h =>
    simp only [Rd.u32, Res.ok.injEq, Prod.mk.injEq] at h
    obtain ⟨rfl, rfl⟩ := h
    refine ⟨⟨[b, c, d, e], rfl⟩, fun x => ?_⟩
    simp only [List.cons_append, Rd.u32]

theorem take (n : Nat) : Ext (Rd.take n) := by
  intro init buf a r h
  unfold Rd.take at h
  split at h
  · rename_i hn
    split at h
    · rename_i s hs
      cases h
      refine ⟨⟨buf.take n, by simp⟩, fun x => ?_⟩
      unfold Rd.take
      rw [if_pos (by simp; omega), List.take_append_of_le_length hn, hs,
        List.drop_append_of_le_length hn]
    · cases h
  · cases h

theorem checksum : Ext Rd.checksum := by
  intro init buf a r h
  cases h
  refine ⟨⟨[], rfl⟩, fun x => ?_⟩
  have e : (init ++ x).length - (buf ++ x).length = init.length - buf.length := by simp; omega
  simp only [Rd.checksum, e]
  rw [List.take_append_of_le_length (by omega)]

/-- Follows the structure of a reader. -/
macro "ext_step" : tactic => `(tactic| first
  | exact pure _ | exact fail | exact u8 | exact peek | exact u16 | exact u32
  | exact take _ | exact checksum | assumption
  | refine bind ?_ fun _ => ?_ | refine ite ?_ ?_ | split)

theorem bool : Ext Rd.bool := by unfold Rd.bool; repeat ext_step
theorem string : Ext Rd.string := by unfold Rd.string; repeat ext_step
theorem optString : Ext Rd.optString := by
  unfold Rd.optString; repeat first | exact bool | exact string | ext_step
theorem longString : Ext Rd.longString := by unfold Rd.longString; repeat ext_step
theorem optLongString : Ext Rd.optLongString := by
  unfold Rd.optLongString; repeat first | exact longString | ext_step
theorem traitKind : Ext Rd.traitKind := by unfold Rd.traitKind; repeat ext_step

theorem typeBody {p q : Rd MTy} (h : Ext2 p q) : Ext2 (Rd.typeBody p) (Rd.typeBody q) := by
  unfold Rd.typeBody
  repeat first | exact h | exact string | exact traitKind | ext_step

theorem typeN : ∀ {n m : Nat}, n ≤ m → Ext2 (Rd.typeN n) (Rd.typeN m)
  | 0, _, _ => fail
  | n + 1, m + 1, h => typeBody (typeN (Nat.le_of_succ_le_succ h))

theorem type : Ext Rd.type := by
  intro init buf a r h
  obtain ⟨hu, h1⟩ := typeN (Nat.le_refl (buf.length + 1)) init buf a r h
  refine ⟨hu, fun x => ?_⟩
  exact (typeN (n := buf.length + 1) (m := (buf ++ x).length + 1) (by simp) init buf a r h).2 x

theorem optType : Ext Rd.optType := by unfold Rd.optType; repeat first | exact type | ext_step
theorem returnType : Ext Rd.returnType := by
  unfold Rd.returnType; repeat first | exact type | exact optType | ext_step

theorem uintLit (n : Nat) (ty : MTy) (s : String) : Ext (Rd.uintLit n ty s) := by
  unfold Rd.uintLit; split
  · exact pure _
  · exact fail

theorem intLit (n : Nat) (ty : MTy) (s : String) : Ext (Rd.intLit n ty s) := by
  unfold Rd.intLit; split
  · exact pure _
  · exact fail

theorem literalBody (ty : MTy) {p : Rd MDef} (h : Ext p) : Ext (Rd.literalBody ty p) := by
  unfold Rd.literalBody
  repeat first | exact h | exact string | exact bool | exact uintLit _ _ _ | exact intLit _ _ _ | ext_step

theorem defaultBody {p : Rd MLit} (h : Ext p) : Ext (Rd.defaultBody p) := by
  unfold Rd.defaultBody
  repeat first | exact h | ext_step

theorem default (ty : MTy) : Ext (Rd.default ty) := by
  fun_induction Rd.default ty with
  | case1 t ih => exact defaultBody (literalBody _ ih)
  | case2 m n t ih => exact defaultBody (literalBody _ ih)
  | case3 ty _ _ => exact defaultBody (literalBody _ fail)

theorem literal (ty : MTy) : Ext (Rd.literal ty) := by
  unfold Rd.literal
  split
  · exact literalBody _ (default _)
  · exact literalBody _ (default _)
  · exact literalBody _ fail

theorem optDefault (ty : MTy) : Ext (Rd.optDefault ty) := by
  unfold Rd.optDefault; repeat first | exact default _ | exact bool | ext_step
theorem optLiteral (ty : MTy) : Ext (Rd.optLiteral ty) := by
  unfold Rd.optLiteral; repeat first | exact literal _ | exact bool | ext_step

theorem times {p : Rd α} (h : Ext p) : ∀ n, Ext (Rd.times p n)
  | 0 => pure _
  | n + 1 => by
    have := times h n
    unfold Rd.times
    repeat ext_step

theorem passBy : Ext Rd.passBy := by
  unfold Rd.passBy; repeat first | exact bool | ext_step
theorem input : Ext Rd.input := by
  unfold Rd.input
  repeat first | exact string | exact type | exact passBy | exact optDefault _ | ext_step
theorem inputs : Ext Rd.inputs := by
  unfold Rd.inputs; repeat first | exact times input _ | ext_step
theorem field : Ext Rd.field := by
  unfold Rd.field
  repeat first
    | exact string | exact optString | exact type | exact optDefault _
    | exact optLongString | ext_step
theorem fields : Ext Rd.fields := by
  unfold Rd.fields; repeat first | exact times field _ | ext_step
theorem variant : Ext Rd.variant := by
  unfold Rd.variant
  repeat first
    | exact string | exact optString | exact optLiteral _ | exact fields
    | exact optLongString | ext_step
theorem flatVariant : Ext Rd.flatVariant := by
  unfold Rd.flatVariant
  repeat first | exact string | exact optString | exact optLongString | ext_step
theorem variants : Ext Rd.variants := by
  unfold Rd.variants; repeat first | exact times variant _ | ext_step
theorem flatVariants : Ext Rd.flatVariants := by
  unfold Rd.flatVariants; repeat first | exact times flatVariant _ | ext_step

/-- The readers that whole items are made of. -/
macro "ext_item" : tactic => `(tactic| repeat first
  | exact string | exact optString | exact bool | exact inputs | exact returnType
  | exact optLongString | exact fields | exact type | exact traitKind | ext_step)

theorem func : Ext Rd.func := by unfold Rd.func; ext_item
theorem constructor : Ext Rd.constructor := by unfold Rd.constructor; ext_item
theorem method : Ext Rd.method := by unfold Rd.method; ext_item
theorem traitMethod : Ext Rd.traitMethod := by unfold Rd.traitMethod; ext_item
theorem record : Ext Rd.record := by unfold Rd.record; ext_item
theorem shape : Ext Rd.shape := by unfold Rd.shape; ext_item
theorem discrType : Ext Rd.discrType := by unfold Rd.discrType; ext_item
theorem variantsFor (s : Shape) : Ext (Rd.variantsFor s) := by
  unfold Rd.variantsFor; split
  · exact variants
  · exact variants
  · exact flatVariants
theorem enum : Ext Rd.enum := by
  unfold Rd.enum
  repeat first
    | exact shape | exact discrType | exact variantsFor _ | exact string
    | exact optString | exact bool | exact optLongString | ext_step
theorem object (t : Bool) : Ext (Rd.object t) := by unfold Rd.object; ext_item
theorem customType : Ext Rd.customType := by unfold Rd.customType; ext_item
theorem codedMethod : Ext Rd.codedMethod := by
  unfold Rd.codedMethod; repeat first | exact method | ext_step
theorem uniffiTrait : Ext Rd.uniffiTrait := by
  unfold Rd.uniffiTrait; repeat first | exact codedMethod | ext_step
theorem callbackInterface : Ext Rd.callbackInterface := by unfold Rd.callbackInterface; ext_item
theorem objectTraitImpl : Ext Rd.objectTraitImpl := by unfold Rd.objectTraitImpl; ext_item
theorem namespace_ : Ext Rd.namespace_ := by unfold Rd.namespace_; ext_item
theorem udlFile : Ext Rd.udlFile := by unfold Rd.udlFile; ext_item

theorem metadata : Ext Rd.metadata := by
  unfold Rd.metadata
  repeat first
    | exact namespace_ | exact udlFile | exact func | exact constructor | exact method
    | exact record | exact enum | exact object _ | exact callbackInterface | exact traitMethod
    | exact uniffiTrait | exact objectTraitImpl | exact customType | ext_step

end Ext2
end Verif.Meta
