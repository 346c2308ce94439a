import Verif.Src.EmitSpec
import Verif.Src.TypesEnds
import Verif.Src.CrossLemmas
namespace Verif.Src
open Verif.Meta

variable {ir : Ir}

/-! ### Resolving a type keeps the caches valid -/

/-- The computation keeps the caches valid. -/
abbrev Keeps (ir : Ir) {α : Type} (m : M α) : Prop := Sat (FullReach ir) m (fun _ => True) (fun _ => True)

/-- The computation keeps the caches valid, and its result has `Q`. -/
abbrev Gives (ir : Ir) {α : Type} (m : M α) (Q : α → Prop) : Prop := Sat (FullReach ir) m Q (fun _ => True)

theorem keeps_pure {α : Type} {a : α} : Keeps ir (.pure a) := sat_pure trivial
theorem keeps_fail {α : Type} {e : Err} : Keeps ir (.fail e : M α) := sat_fail trivial
theorem keeps_bind {α β : Type} {m : M α} {f : α → M β} (hm : Keeps ir m) (hf : ∀ a, Keeps ir (f a)) : Keeps ir (m.bind f) :=
  sat_bind hm fun a _ => hf a
theorem Gives.keeps {α : Type} {m : M α} {Q : α → Prop} (h : Gives ir m Q) : Keeps ir m := sat_mono h fun _ _ => trivial

section
variable {rec : Rec}

theorem keeps_arg {p : RPath} {env : Env} {arg : Ty} (h : Keeps ir (rec p arg [] [])) : Keeps ir (resolveArg rec p env arg) := by
  unfold resolveArg
  split
  · split
    · exact keeps_pure
    · exact h
  · exact h

theorem keeps_params {q p : RPath} {env : Env} (h1 : ∀ t, Keeps ir (rec p t [] [])) (h2 : ∀ t, Keeps ir (rec q t [] [])) :
    ∀ (ps : List (Ident × Option Ty)) (args : List Ty), Keeps ir (resolveParams rec q p env ps args)
  | [], _ => by rw [resolveParams]; exact keeps_pure
  | (x, d) :: ps, arg :: args => by
    rw [resolveParams]
    exact keeps_bind (keeps_arg (h1 _)) fun t => keeps_bind (keeps_params h1 h2 ps args) fun _ => keeps_pure
  | (x, some d) :: ps, [] => by
    rw [resolveParams]
    exact keeps_bind (h2 _) fun t => keeps_bind (keeps_params h1 h2 ps []) fun _ => keeps_pure
  | (x, none) :: ps, [] => by rw [resolveParams]; exact keeps_fail

theorem keeps_1 {p : RPath} {env : Env} {f : STy → STy} {args : List Ty} (h : ∀ t, Keeps ir (rec p t [] [])) :
    Keeps ir (resolve1 rec p env f args) := by
  unfold resolve1; split
  · exact keeps_bind (keeps_arg (h _)) fun _ => keeps_pure
  · exact keeps_fail

theorem keeps_2 {p : RPath} {env : Env} {f : STy → STy → STy} {args : List Ty} (h : ∀ t, Keeps ir (rec p t [] [])) :
    Keeps ir (resolve2 rec p env f args) := by
  unfold resolve2; split
  · exact keeps_bind (keeps_arg (h _)) fun _ => keeps_bind (keeps_arg (h _)) fun _ => keeps_pure
  · exact keeps_fail

theorem keeps_builtin {p : RPath} {env : Env} {args : List Ty} {b : Builtin} (h : ∀ t, Keeps ir (rec p t [] [])) :
    Keeps ir (resolveBuiltin rec p env args b) := by
  cases b <;> first
    | exact keeps_1 h
    | exact keeps_2 h
    | exact sat_checkEmpty trivial fun _ => keeps_pure
    | exact sat_checkEmpty trivial fun _ => keeps_fail

theorem keeps_item (hu : ir.Unique) (hr : ir.RootsModules) (hrec : ∀ p t seen env, Canon ir p → Keeps ir (rec p t seen env))
    {p : RPath} {args : List Ty} {seen : List String} {env : Env} {q : RPath} (hp : Canon ir p) (hq : Canon ir q) :
    Keeps ir (resolveItem ir rec p args seen env q) := by
  have pub : ∀ {id k ident vis attr remote} {f : ItemNames → STy},
      q.getLast? = some (.decl id k ident vis attr remote) → k.exportable = true →
      Keeps ir (checkEmpty args ((M.publicPath ir q).bind fun n => .pure (f n))) := by
    intro id k ident vis attr remote f hl hk
    refine sat_checkEmpty trivial fun _ => keeps_bind ?_ fun _ => keeps_pure
    intro c hc
    exact ⟨.publicPath hc hq (canon_isDecl hr hq hl hk), fun _ _ => trivial, fun _ _ => trivial⟩
  unfold resolveItem
  split
  · exact keeps_fail
  · rename_i hl; exact pub hl rfl
  · rename_i hl; exact pub hl rfl
  · rename_i hl; exact pub hl rfl
  · rename_i ps target _ _ _ _ hl
    obtain ⟨q', _, _, _, _, rfl, hq', hm⟩ := canon_decl hr hq hl
    split
    · exact keeps_fail
    · rw [parent_concat (by rintro rfl; exact nomatch hm)]
      refine keeps_bind ?_ fun env => hrec _ _ _ _ hq'
      unfold resolveGenerics; split
      · exact keeps_fail
      · exact keeps_params (fun t => hrec _ _ _ _ hp) (fun t => hrec _ _ _ _ hq') _ _
  · exact keeps_builtin fun t => hrec _ _ _ _ hp
  · exact keeps_fail
  · rename_i hl
    obtain ⟨q', _, _, _, _, rfl, hq', hm⟩ := canon_decl hr hq hl
    rw [parent_concat (by rintro rfl; exact nomatch hm)]
    exact keeps_bind (hrec _ _ _ _ hq') fun _ => keeps_pure
  · exact keeps_pure
  · exact keeps_fail

end

theorem resolveTy_keeps (hu : ir.Unique) (hr : ir.RootsModules) : ∀ n p ty seen env, Canon ir p →
    Keeps ir (resolveTy ir n p ty seen env) := by
  intro n
  induction n with
  | zero => intros; exact keeps_fail
  | succ n ih =>
    intro p ty seen env hp
    cases ty with
    | reference mutable t => exact keeps_bind (ih p t seen env hp) fun _ => keeps_pure
    | slice t => exact keeps_bind (ih p t seen env hp) fun _ => keeps_pure
    | unit => exact keeps_pure
    | other => exact keeps_fail
    | dyn bounds =>
      match bounds with
      | [] => exact keeps_fail
      | _ :: _ :: _ => exact keeps_fail
      | [path] =>
        refine sat_bind (resolve_sat hu path hp fun _ _ => trivial) fun q hq => ?_
        unfold resolveDyn
        split
        · exact keeps_fail
        · exact keeps_pure
        · exact keeps_pure
        · exact keeps_pure
        · exact keeps_fail
    | path path args =>
      rw [resolveTy]
      split
      · exact keeps_pure
      · exact sat_bind (resolve_sat hu path hp fun _ _ => trivial) fun q hq => keeps_item hu hr ih hp hq.1

/-- Whatever a type is, if it fulfils the conditions then it is read as what it stands for. -/
theorem resolveType_gives (hu : ir.Unique) (hr : ir.RootsModules) (ho : ir.OnlyPaths) {n : Nat} {p : RPath} {ty : Ty}
    (hp : Canon ir p) :
    Gives ir (resolveType ir n p ty) (fun t => TraitsLocal ir p ty → ParamsFresh ir p ty → Means ir [] p ty t) := by
  intro c hc
  refine ⟨(resolveTy_keeps hu hr n p ty [] [] hp c hc).1, fun t h ht hf => ?_, fun _ _ => trivial⟩
  exact (resolveTy_sound hu hr ho n p ty [] [] ⟨hp, ht, hf⟩ nofun c hc).2.1 t h

/-! ### Parts of items -/

section
variable {α β : Type}

theorem gives_ofRes {r : Res α} {Q : α → Prop} (h : ∀ a, r = .ok a → Q a) : Gives ir (M.ofRes r) Q :=
  fun _ hc => ⟨hc, h, fun _ _ => trivial⟩

theorem gives_all {f : α → M β} {R : α → β → Prop} : ∀ {as : List α}, (∀ a ∈ as, Gives ir (f a) (R a)) →
    Gives ir (M.all f as) (Each R as)
  | [], _ => sat_pure .nil
  | a :: as, h =>
    sat_bind (h a (.head _)) fun _ hb =>
      sat_bind (gives_all fun a ha => h a (.tail _ ha)) fun _ hbs => sat_pure (.cons hb hbs)

theorem each_mono {R S : α → β → Prop} (h : ∀ a b, R a b → S a b) : ∀ {as bs}, Each R as bs → Each S as bs
  | _, _, .nil => .nil
  | _, _, .cons h1 h2 => .cons (h _ _ h1) (each_mono h h2)

theorem each_map {γ : Type} {R : γ → β → Prop} {f : α → γ} : ∀ {as bs}, Each (fun a b => R (f a) b) as bs → Each R (as.map f) bs
  | _, _, .nil => .nil
  | _, _, .cons h1 h2 => .cons h1 (each_map h2)

end

section
variable (hu : ir.Unique) (hr : ir.RootsModules) (ho : ir.OnlyPaths) {n : Nat} {p : RPath} (hp : Canon ir p)
include hu hr ho hp

theorem resolveMeta_gives {ty : Ty} : Gives ir (resolveMeta ir n p ty none) (TypeIs ir p ty) := by
  refine sat_bind (resolveType_gives hu hr ho hp) fun t ht => gives_ofRes fun m hm h1 h2 => ⟨t, ht h1 h2, fun hn => ?_⟩
  obtain ⟨r, hr⟩ := meta_crosses (self := none) t hn hm
  have h := crosses_meta (self := none) nofun hr
  refine ⟨r, hr, ?_⟩
  rw [show (none : Option MTy) = Option.map RTy.toMeta none from rfl, h] at hm
  cases hm; rfl

theorem resolveArgType_gives {ty : Ty} {self : Option MTy} : Gives ir (resolveArgType ir n p ty self) (fun m =>
    ∀ sr : Option RTy, self = sr.map RTy.toMeta → sr ≠ some .u8 →
      Shown ir p ty fun t => ∃ r, ArgCrosses sr t r m.2 ∧ m.1 = r.toMeta) := by
  refine sat_bind (resolveType_gives hu hr ho hp) fun t ht => gives_ofRes fun m hm sr hs hne h1 h2 => ⟨t, ht h1 h2, fun hn => ?_⟩
  obtain ⟨m, b⟩ := m
  subst hs
  obtain ⟨r, b', hr⟩ := meta_arg hn hm
  rw [arg_meta hne hr] at hm
  cases hm
  exact ⟨r, hr, rfl⟩

theorem returnMetadata_gives {output : Option Ty} {self : Option MTy} : Gives ir (returnMetadata ir n p output self) (fun m =>
    ∀ sr : Option RTy, self = sr.map RTy.toMeta → sr ≠ some .u8 → ReturnIs ir p sr output m.1 m.2) := by
  cases output with
  | none => exact sat_pure fun _ _ _ => ⟨rfl, rfl⟩
  | some ty =>
    refine sat_bind (resolveType_gives hu hr ho hp) fun t ht => gives_ofRes fun m hm sr hs hne h1 h2 => ⟨t, ht h1 h2, fun hn => ?_⟩
    subst hs
    obtain ⟨r, hr⟩ := meta_return hn hm
    rw [return_meta hne hr] at hm
    cases hm
    exact ⟨r, hr, rfl, rfl⟩

theorem resolveSelf_gives {ty : Ty} : Gives ir (resolveSelf ir n p ty) (fun b =>
    TraitsLocal ir p ty → ParamsFresh ir p ty → Means ir [] p ty (if b then .arc .selfTy else .ref false .selfTy)) := by
  refine sat_bind (resolveType_gives hu hr ho hp) fun t ht => gives_ofRes fun b hb h1 h2 => ?_
  have := ht h1 h2
  unfold selfByArc at hb
  split at hb
  · cases hb; exact this
  · cases hb; exact this
  · exact nomatch hb

end

/-! ### Defaults -/

theorem defaultIs_base {d : DefSrc} {v : MDef} : ∀ {t : MTy}, DefaultIs d (baseType t) v → DefaultIs d t v
  | .custom _ _ t, h => by rw [baseType] at h; exact .custom (defaultIs_base h)
  | .uint8, h | .int8, h | .uint16, h | .int16, h | .uint32, h | .int32, h | .uint64, h | .int64, h | .float32, h
  | .float64, h | .boolean, h | .string, h | .bytes, h | .timestamp, h | .duration, h | .object _ _ _, h | .record _ _, h
  | .enum _ _, h | .callbackInterface _ _, h | .optional _, h | .sequence _, h | .set _, h | .map _ _, h | .box _, h => by
    simpa [baseType] using h

theorem createDefault_is : ∀ {d : DefSrc} {t : MTy} {v : MDef}, createDefault d t = .ok v → DefaultIs d t v
  | .default, _, _, h => by cases h; exact .default
  | .emptySeq, _, _, h => by cases h; exact .emptySeq
  | .optNone, _, _, h => by cases h; exact .optNone
  | .optSome d, t, v, h => by
    rw [createDefault] at h
    split at h
    · rename_i t' ht
      obtain ⟨w, hw, h⟩ := bind_ok h
      cases h
      exact defaultIs_base (ht ▸ .optSome (createDefault_is hw))
    · exact nomatch h
  | .int z s, t, v, h => by
    rw [createDefault] at h
    obtain ⟨w, hw, h⟩ := bind_ok h
    cases h
    refine defaultIs_base ?_
    unfold intDefault at hw
    have hs : ∀ t' : MTy, (t' = .int8 ∨ t' = .int16 ∨ t' = .int32 ∨ t' = .int64) →
        ((if -2 ^ 63 ≤ z ∧ z < 2 ^ 63 then .ok (.int z .decimal t') else .error .syn : Res MLit) = .ok w) →
        DefaultIs (.int z s) t' (.literal w) := by
      intro t' ht h
      split at h
      · cases h; exact .int ht
      · exact nomatch h
    have hn : ∀ t' : MTy, (t' = .uint8 ∨ t' = .uint16 ∨ t' = .uint32 ∨ t' = .uint64) →
        ((if 0 ≤ z ∧ z < 2 ^ 64 then .ok (.uint z.toNat .decimal t') else .error .syn : Res MLit) = .ok w) →
        DefaultIs (.int z s) t' (.literal w) := by
      intro t' ht h
      split at h
      · rename_i hz
        cases h
        have := DefaultIs.uint (n := z.toNat) (s := s) ht
        rwa [Int.toNat_of_nonneg hz.1] at this
      · exact nomatch h
    split at hw
    · rename_i ht; rw [ht] at hw ⊢; exact hs _ (.inl rfl) hw
    · rename_i ht; rw [ht] at hw ⊢; exact hs _ (.inr (.inl rfl)) hw
    · rename_i ht; rw [ht] at hw ⊢; exact hs _ (.inr (.inr (.inl rfl))) hw
    · rename_i ht; rw [ht] at hw ⊢; exact hs _ (.inr (.inr (.inr rfl))) hw
    · rename_i ht; rw [ht] at hw ⊢; exact hn _ (.inl rfl) hw
    · rename_i ht; rw [ht] at hw ⊢; exact hn _ (.inr (.inl rfl)) hw
    · rename_i ht; rw [ht] at hw ⊢; exact hn _ (.inr (.inr (.inl rfl))) hw
    · rename_i ht; rw [ht] at hw ⊢; exact hn _ (.inr (.inr (.inr rfl))) hw
    · exact nomatch hw
  | .float d s, t, v, h => by
    rw [createDefault] at h
    split at h
    · rename_i ht; cases h; exact defaultIs_base (by rw [ht]; exact .float (.inl rfl))
    · rename_i ht; cases h; exact defaultIs_base (by rw [ht]; exact .float (.inr rfl))
    · exact nomatch h
  | .str s, t, v, h => by
    rw [createDefault] at h
    split at h
    · rename_i ht; cases h; exact defaultIs_base (ht ▸ .str)
    · exact nomatch h
  | .bool b, t, v, h => by
    rw [createDefault] at h
    split at h
    · rename_i ht; cases h; exact defaultIs_base (ht ▸ .bool)
    · exact nomatch h
  | .otherLiteral, _, _, h => nomatch h

theorem optDefault_is {d : Option DefSrc} {t : MTy} {v : Option MDef} (h : optDefault d t = .ok v) : OptDefaultIs d t v := by
  cases d with
  | none => cases h; rfl
  | some d =>
    obtain ⟨w, hw, h⟩ := bind_ok h
    cases h
    exact ⟨w, rfl, createDefault_is hw⟩

theorem namePair_is {attr : Option String} {ident : String} : NameIs attr ident (namePair attr ident).1 (namePair attr ident).2 := by
  cases attr <;> exact ⟨rfl, rfl⟩

end Verif.Src
