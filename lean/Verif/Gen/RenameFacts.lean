import Verif.Gen.RenamePipeline
import Verif.Gen.RenameLegacy
namespace Verif.Gen.Api
open Verif Verif.Meta Verif.Gen

theorem namedIn_renamed (R : Renames) (t : MTy) : namedIn (renamedTy R t) =
    (namedIn t).map fun p => (p.1, R.new (crateName p.1) p.2 p.2) := by
  induction t with
  | optional t ih | sequence t ih | set t ih | box t ih => exact ih
  | map k v ihk ihv => simp only [renamedTy, namedIn, List.map_append, ihk, ihv]
  | custom m n b ih => simp only [renamedTy, namedIn, List.map_cons, ih]
  | _ => rfl

theorem types_renamedSig (R : Renames) (c p : String) (f : Sig) :
    (renamedSig R c p f).types = f.types.map (renamedTy R) := by
  cases f with
  | mk name args ret throws symbol =>
    cases ret <;> cases throws <;> simp [Sig.types, renamedSig, renamedSlot, Function.comp_def]

theorem types_renamedMember (R : Renames) (c p : String) (m : Member) :
    (renamedMember R c p m).types = m.types.map (renamedTy R) := by
  simp only [Member.types, List.map_cons]
  exact congrArg _ (types_renamedSig R c _ m.sig)

/-- The types of a list of members. -/
theorem flat_members (R : Renames) (c p : String) (ms : List Member) :
    (ms.map (renamedMember R c p)).flatMap Member.types = (ms.flatMap Member.types).map (renamedTy R) := by
  induction ms with
  | nil => rfl
  | cons m ms ih =>
    simp only [List.map_cons, List.flatMap_cons, List.map_append, ih, types_renamedMember]

theorem flat_congr {α : Type} (f : α → α) (g : α → List MTy) (h : MTy → MTy)
    (hh : ∀ a, g (f a) = (g a).map h) (l : List α) : (l.map f).flatMap g = (l.flatMap g).map h := by
  induction l with
  | nil => rfl
  | cons a l ih => simp only [List.map_cons, List.flatMap_cons, List.map_append, ih, hh]

theorem mentioned_renamed (R : Renames) (api : Api) :
    mentioned (renamed R api) = (mentioned api).map (renamedTy R) := by
  have e1 : (renamed R api).functions.flatMap Sig.types =
      (api.functions.flatMap Sig.types).map (renamedTy R) :=
    flat_congr _ _ _ (fun f => types_renamedSig R _ _ f) _
  have e2 : (members (renamed R api)).flatMap Member.types =
      ((members api).flatMap Member.types).map (renamedTy R) := by
    simp only [members, List.flatMap_append, List.map_append, List.flatMap_assoc]
    congr 1
    · congr 1
      · congr 1
        · exact flat_congr _ _ _ (fun r => by
            simp only [renamedRec, List.flatMap_append, List.map_append, flat_members]) _
        · exact flat_congr _ _ _ (fun r => by
            simp only [renamedEnum, List.flatMap_append, List.map_append, flat_members]) _
      · exact flat_congr _ _ _ (fun r => by
          simp only [renamedObj, List.flatMap_append, List.map_append, flat_members]) _
    · exact flat_congr _ _ _ (fun r => by simp only [renamedCb, flat_members]) _
  have e3 : (tables (renamed R api)).flatMap (fun t => t.slots.flatMap Member.types) =
      ((tables api).flatMap (fun t => t.slots.flatMap Member.types)).map (renamedTy R) := by
    simp only [tables, List.flatMap_append, List.map_append]
    congr 1
    · simp only [renamed]
      induction api.objects with
      | nil => rfl
      | cons o os ih =>
        cases ho : o.table with
        | none => simp only [List.map_cons, renamedObj, ho, Option.map_none, List.filterMap_cons]; exact ih
        | some t =>
          simp only [List.map_cons, renamedObj, ho, Option.map_some, List.filterMap_cons,
            List.flatMap_cons, List.map_append, renamedTable, flat_members]
          exact congrArg _ ih
    · simp only [renamed]
      rw [List.map_map, List.flatMap_map, List.flatMap_map, List.map_flatMap]
      congr 1
      funext c
      simp only [Function.comp, renamedCb, renamedTable, flat_members]
  have e4 : ((fields (renamed R api)).map (·.ty)) = ((fields api).map (·.ty)).map (renamedTy R) := by
    have hs : ∀ c p (ss : List Slot), (ss.map (renamedSlot R c p)).map (·.ty) =
        (ss.map (·.ty)).map (renamedTy R) := by
      intro c p ss; simp [renamedSlot, Function.comp_def]
    have h1 : ∀ l : List Rec, ((l.map (renamedRec R api.crate)).flatMap (·.fields)).map (·.ty) =
        ((l.flatMap (·.fields)).map (·.ty)).map (renamedTy R) := by
      intro l
      induction l with
      | nil => rfl
      | cons r l ih =>
        simp only [List.map_cons, List.flatMap_cons, List.map_append, ih]
        exact congrArg (· ++ _) (hs _ _ r.fields)
    have h2 : ∀ c p (l : List Variant), ((l.map (renamedVariant R c p)).flatMap (·.fields)).map (·.ty) =
        ((l.flatMap (·.fields)).map (·.ty)).map (renamedTy R) := by
      intro c p l
      induction l with
      | nil => rfl
      | cons r l ih =>
        simp only [List.map_cons, List.flatMap_cons, List.map_append, ih]
        exact congrArg (· ++ _) (hs _ _ r.fields)
    have h3 : ∀ l : List Enum,
        ((l.map (renamedEnum R api.crate)).flatMap (fun e => e.variants.flatMap (·.fields))).map (·.ty) =
        ((l.flatMap (fun e => e.variants.flatMap (·.fields))).map (·.ty)).map (renamedTy R) := by
      intro l
      induction l with
      | nil => rfl
      | cons r l ih =>
        simp only [List.map_cons, List.flatMap_cons, List.map_append, ih]
        exact congrArg (· ++ _) (h2 _ _ r.variants)
    unfold fields
    rw [List.map_append, List.map_append, List.map_append]
    exact congr (congrArg _ (h1 _)) (h3 _)
  simp only [mentioned, List.map_append]
  rw [e1, e2, e3, e4]; rfl

theorem defined_renamed (R : Renames) (api : Api) :
    defined (renamed R api) = (defined api).map fun n => R.new api.crate n n := by
  have e : (renamed R api).known.filterMap (fun
      | .custom m n _ => if crateName m = api.crate then some n else none
      | _ => none) = (api.known.filterMap (fun
      | .custom m n _ => if crateName m = api.crate then some n else none
      | _ => none)).map fun n => R.new api.crate n n := by
    simp only [renamed]
    induction api.known with
    | nil => rfl
    | cons t ts ih =>
      cases t <;> simp only [List.map_cons, renamedTy, List.filterMap_cons] <;> try exact ih
      rename_i m n b
      by_cases hm : crateName m = api.crate
      · simp only [hm, if_true, List.map_cons]; exact congrArg _ ih
      · simp only [hm, if_false]; exact ih
  simp only [defined, List.map_append]
  refine congr (congrArg _ ?_) e
  simp only [renamed, List.map_map]; rfl

theorem closed_renamed (R : Renames) (api : Api) (h : closed api) : closed (renamed R api) := by
  intro t ht p hp hc
  rw [mentioned_renamed] at ht
  obtain ⟨u, hu, rfl⟩ := List.mem_map.1 ht
  rw [namedIn_renamed] at hp
  obtain ⟨q, hq, rfl⟩ := List.mem_map.1 hp
  rw [defined_renamed]
  refine List.mem_map.2 ⟨q.2, h u hu q hq hc, ?_⟩
  have : crateName q.1 = api.crate := hc
  simp only [this]

theorem symbols_renamed (R : Renames) (api : Api) : symbols (renamed R api) = symbols api := by
  have hm : ∀ c p (ms : List Member), (ms.map (renamedMember R c p)).map (·.sig.symbol) =
      ms.map (·.sig.symbol) := by
    intro c p ms; simp [renamedMember, renamedSig, Function.comp_def]
  have e2 : (members (renamed R api)).map (·.sig.symbol) = (members api).map (·.sig.symbol) := by
    simp only [members, List.map_append, List.map_flatMap, renamed, List.flatMap_map, renamedRec,
      renamedEnum, renamedObj, renamedCb, hm]
  have e3 : (tables (renamed R api)).map (·.initSymbol) = (tables api).map (·.initSymbol) := by
    simp only [tables, List.map_append, renamed, List.map_map]
    congr 1
    induction api.objects with
    | nil => rfl
    | cons o os ih =>
      cases ho : o.table with
      | none => simp only [List.map_cons, renamedObj, ho, Option.map_none, List.filterMap_cons]; exact ih
      | some t =>
        simp only [List.map_cons, renamedObj, ho, Option.map_some, List.filterMap_cons, renamedTable]
        exact congrArg _ ih
  unfold symbols
  rw [e2, e3]
  simp only [renamed, List.map_map, List.flatMap_map]; rfl

/-- No renaming. -/
def noRenames : Renames := fun _ _ => none

theorem renamedTy_none (t : MTy) : renamedTy noRenames t = t := by
  induction t with
  | map k v ihk ihv => simp only [renamedTy, ihk, ihv]
  | optional t ih | sequence t ih | set t ih | box t ih => simp only [renamedTy, ih]
  | custom m n b ih => simp only [renamedTy, ih]; rfl
  | _ => rfl

theorem map_self {α : Type} {f : α → α} {l : List α} (h : ∀ a, f a = a) : l.map f = l := by
  rw [show f = id from funext h, List.map_id]

theorem omap_self {α : Type} {f : α → α} {l : Option α} (h : ∀ a, f a = a) : l.map f = l := by
  rw [show f = id from funext h, Option.map_id]; rfl

theorem renamedSlot_none (c p : String) (s : Slot) : renamedSlot noRenames c p s = s := by
  unfold renamedSlot; rw [renamedTy_none]; rfl

theorem renamedSig_none (c p : String) (f : Sig) : renamedSig noRenames c p f = f := by
  unfold renamedSig
  rw [map_self (renamedSlot_none c p), omap_self renamedTy_none, omap_self renamedTy_none]; rfl

theorem renamedMember_none (c p : String) (m : Member) : renamedMember noRenames c p m = m := by
  unfold renamedMember; rw [renamedTy_none, renamedSig_none]

theorem renamed_none (api : Api) : renamed noRenames api = api := by
  unfold renamed
  rw [map_self fun f => renamedSig_none _ _ f,
    map_self (f := renamedRec noRenames api.crate) fun r => by
      unfold renamedRec; simp only [map_self (renamedSlot_none _ _), map_self (renamedMember_none _ _)]; rfl,
    map_self (f := renamedEnum noRenames api.crate) fun r => by
      unfold renamedEnum
      simp only [map_self (f := renamedVariant noRenames api.crate r.name) fun v => by
        unfold renamedVariant; rw [map_self (renamedSlot_none _ _)]; rfl, map_self (renamedMember_none _ _)]
      rfl,
    map_self (f := renamedObj noRenames api.crate) fun r => by
      unfold renamedObj
      simp only [map_self (renamedMember_none _ _), omap_self (f := renamedTable noRenames api.crate r.name)
        fun t => by unfold renamedTable; rw [map_self (renamedMember_none _ _)]]
      rfl,
    map_self (f := renamedCb noRenames api.crate) fun r => by
      unfold renamedCb renamedTable
      simp only [map_self (renamedMember_none _ _)]
      rfl,
    map_self renamedTy_none]

theorem excluded_nil (api : Api) : excluded [] api = api := by
  have hk : ∀ p ms, kept [] p ms = ms := by intro p ms; simp [kept]
  have ho : ∀ t, isOneOf api.crate [] t = false := by intro t; cases t <;> simp [isOneOf]
  unfold excluded
  have hf : ∀ {α : Type} (l : List α), l.filter (fun _ => true) = l := by
    intro α l; exact List.filter_eq_self.2 fun _ _ => rfl
  simp only [hk, ho, List.not_mem_nil, not_false_eq_true, decide_true, Bool.not_false, hf]
  simp

end Verif.Gen.Api
