import Verif.Meta.NamesLemmas
import Verif.Meta.GroupSpec
import Verif.Props.Metadata
/-
C44: names of exported symbols.
-/
namespace Verif.Props.Names
open Verif Verif.Meta

private theorem sameCrate {m lib : String} (h : crateName m = lib) :
    symNamespace m = symNamespace lib := by
  rw [symNamespace_eq, symNamespace_eq, ← h, crateName_crateName]

private theorem methodMeaning_some {f : FnSrc} {c : UInt16} {m : MMethod}
    (h : f.methodMeaning c = some m) :
    f.kind = .method m.selfName ∧ m.fn.name = f.name ∧ m.fn.modulePath = f.modulePath := by
  unfold FnSrc.methodMeaning at h
  split at h
  · rename_i s hk
    unfold FnSrc.meaning at h
    cases hl : listMeaning ArgSrc.meaning f.args with
    | none => simp [hl] at h
    | some as =>
      simp only [hl, Option.map_some, Option.some.injEq] at h
      subst h
      exact ⟨hk, rfl, rfl⟩
  · cases h

private theorem meaning_some {f : FnSrc} {c : UInt16} {m : MFn} (h : f.meaning c = some m) :
    m.name = f.name ∧ m.modulePath = f.modulePath := by
  unfold FnSrc.meaning at h
  cases hl : listMeaning ArgSrc.meaning f.args with
  | none => simp [hl] at h
  | some as =>
    simp only [hl, Option.map_some, Option.some.injEq] at h
    subst h
    exact ⟨rfl, rfl⟩

private theorem methodSymbol_of {f : FnSrc} {c : UInt16} {m : MMethod} {lib : String}
    (h : f.methodMeaning c = some m) (hm : crateName f.modulePath = lib) :
    m.symbol = f.scaffoldingSymbol lib ∧
      methodSymbol lib m.selfName m.fn.name = f.scaffoldingSymbol lib ∧
      crateName m.fn.modulePath = lib := by
  obtain ⟨hk, hn, hp⟩ := methodMeaning_some h
  simp only [MMethod.symbol, FnSrc.scaffoldingSymbol, hk, hn, hp, methodSymbol, sameCrate hm, hm,
    and_self]

/-- C44: for an item compiled in crate `lib`, every function a generator looks up after reading the
exported metadata is the function the scaffolding exports: with names taken from the metadata and
with names put together by the pipeline for the crate the item is grouped in. -/
theorem C44_same_symbols (i : Item) (lib : String) (bs : Bytes) (m : Metadata)
    (h : i.emit = some bs) (hm : readMetadata bs = .ok m)
    (hlib : ∀ p ∈ i.modulePaths, crateName p = lib) :
    crateOf m = some lib ∧ m.symbols = i.scaffoldingSymbols lib ∧
      m.pipelineSymbols lib = i.scaffoldingSymbols lib := by
  obtain ⟨c1, c2, e⟩ := Metadata.C39_item_round_trip i bs h
  have e := e []
  rw [List.append_nil, hm] at e
  cases hx : i.meaning (fnv16 bs) c1 c2 with
  | none => simp [hx] at e
  | some x =>
    rw [hx] at e
    obtain rfl : m = x := Res.ok.inj e
    clear e hm h
    unfold crateOf
    cases i with
    | fn f =>
      have hl : crateName f.modulePath = lib := hlib _ (by simp [Item.modulePaths])
      simp only [Item.meaning] at hx
      split at hx <;> rename_i hk
      · cases hf : f.meaning (fnv16 bs) with
        | none => simp [hf] at hx
        | some g =>
          simp only [hf, Option.map_some, Option.some.injEq] at hx
          subst hx
          obtain ⟨hn, hp⟩ := meaning_some hf
          simp only [Metadata.symbols, Metadata.pipelineSymbols, Item.scaffoldingSymbols,
            FnSrc.scaffoldingSymbol, FnSrc.scaffoldingChecksumSymbol, hk, fnSymbol, fnChecksumSymbol,
            hn, hp, sameCrate hl, Metadata.modulePath, Option.map_some, hl, and_self]
      · cases hf : f.meaning (fnv16 bs) with
        | none => simp [hf] at hx
        | some g =>
          simp only [hf, Option.map_some, Option.some.injEq] at hx
          subst hx
          obtain ⟨hn, hp⟩ := meaning_some hf
          simp only [Metadata.symbols, Metadata.pipelineSymbols, Item.scaffoldingSymbols,
            FnSrc.scaffoldingSymbol, FnSrc.scaffoldingChecksumSymbol, hk, methodSymbol,
            methodChecksumSymbol, MMethod.symbol, hn, hp, sameCrate hl, Metadata.modulePath,
            Option.map_some, hl, and_self]
      · cases hf : f.meaning (fnv16 bs) with
        | none => simp [hf] at hx
        | some g =>
          simp only [hf, Option.map_some, Option.some.injEq] at hx
          subst hx
          obtain ⟨hn, hp⟩ := meaning_some hf
          simp only [Metadata.symbols, Metadata.pipelineSymbols, Item.scaffoldingSymbols,
            FnSrc.scaffoldingSymbol, FnSrc.scaffoldingChecksumSymbol, hk, methodSymbol,
            methodChecksumSymbol, hn, hp, sameCrate hl, Metadata.modulePath, Option.map_some, hl,
            and_self]
      · split at hx
        · cases hf : f.meaning (fnv16 bs) with
          | none => simp [hf] at hx
          | some g =>
            simp only [hf, Option.map_some, Option.some.injEq] at hx
            subst hx
            obtain ⟨hn, hp⟩ := meaning_some hf
            simp only [Metadata.symbols, Metadata.pipelineSymbols, Item.scaffoldingSymbols,
              FnSrc.scaffoldingSymbol, FnSrc.scaffoldingChecksumSymbol, hk, constructorSymbol,
              constructorChecksumSymbol, hn, hp, sameCrate hl, Metadata.modulePath,
              Option.map_some, hl, and_self]
        · cases hx
    | uniffiTrait t =>
      cases t with
      | eq a b =>
        simp only [Item.meaning] at hx
        cases ha : a.methodMeaning c1 with
        | none => simp [ha] at hx
        | some ma =>
          cases hb : b.methodMeaning c2 with
          | none => simp [ha, hb] at hx
          | some mb =>
            simp only [ha, hb, Option.bind_some, Option.map_some, Option.some.injEq] at hx
            subst hx
            obtain ⟨a1, a2, a3⟩ := methodSymbol_of ha (hlib _ (by simp [Item.modulePaths]))
            obtain ⟨b1, b2, b3⟩ := methodSymbol_of hb (hlib _ (by simp [Item.modulePaths]))
            simp only [Metadata.symbols, Metadata.pipelineSymbols, Item.scaffoldingSymbols,
              UTraitSrc.scaffoldingSymbols, UTraitSrc.methods, List.map_cons, List.map_nil, a1, a2,
              b1, b2, Metadata.modulePath, MUTrait.modulePath, Option.map_some, a3, and_self]
      | _ f =>
        simp only [Item.meaning] at hx
        cases hf : f.methodMeaning c1 with
        | none => simp [hf] at hx
        | some mf =>
          simp only [hf, Option.map_some, Option.some.injEq] at hx
          subst hx
          obtain ⟨a1, a2, a3⟩ := methodSymbol_of hf (hlib _ (by simp [Item.modulePaths]))
          simp only [Metadata.symbols, Metadata.pipelineSymbols, Item.scaffoldingSymbols,
            UTraitSrc.scaffoldingSymbols, UTraitSrc.methods, List.map_cons, List.map_nil, a1, a2,
            Metadata.modulePath, MUTrait.modulePath, Option.map_some, a3, and_self]
    | object m n o imp d =>
      have hl : crateName m = lib := hlib _ (by simp [Item.modulePaths])
      simp only [Item.meaning, Option.some.injEq] at hx
      subst hx
      rcases imp with _ | k
      · simp only [Metadata.symbols, Metadata.pipelineSymbols, Item.scaffoldingSymbols, cloneSymbol,
          freeSymbol, sameCrate hl, Metadata.modulePath, Option.map_some, hl, and_self]
      · cases k <;>
        simp only [Metadata.symbols, Metadata.pipelineSymbols, Item.scaffoldingSymbols, cloneSymbol,
          freeSymbol, initVtableSymbol, sameCrate hl, Metadata.modulePath, Option.map_some, hl,
          and_self]
    | callbackInterface m n d =>
      have hl : crateName m = lib := hlib _ (by simp [Item.modulePaths])
      simp only [Item.meaning, Option.some.injEq] at hx
      subst hx
      simp only [Metadata.symbols, Metadata.pipelineSymbols, Item.scaffoldingSymbols,
        initVtableSymbol, sameCrate hl, Metadata.modulePath, Option.map_some, hl, and_self]
    | error m n o flat vs ne d =>
      have hl : crateName m = lib := hlib _ (by simp [Item.modulePaths])
      cases flat <;> simp only [Item.meaning, Option.map_eq_some_iff] at hx <;>
        obtain ⟨_, _, rfl⟩ := hx <;>
        simp only [Metadata.symbols, Metadata.pipelineSymbols, Item.scaffoldingSymbols,
          Metadata.modulePath, Option.map_some, hl, and_self]
    | objectTraitImpl m n t =>
      have hl : crateName m = lib := hlib _ (by simp [Item.modulePaths])
      have hll : crateName lib = lib := by rw [← hl, crateName_crateName]
      simp only [Item.meaning, Option.some.injEq] at hx
      subst hx
      simp only [Metadata.symbols, Metadata.pipelineSymbols, Item.scaffoldingSymbols,
        Metadata.modulePath, MTy.crateName, MTy.modulePath, Option.map_some, hl, hll, and_self]
    | record m n o fs d | enum m n o dt vs ne d =>
      have hl : crateName m = lib := hlib _ (by simp [Item.modulePaths])
      simp only [Item.meaning, Option.map_eq_some_iff] at hx
      obtain ⟨_, _, rfl⟩ := hx
      simp only [Metadata.symbols, Metadata.pipelineSymbols, Item.scaffoldingSymbols,
        Metadata.modulePath, Option.map_some, hl, and_self]
    | namespace_ m n | udlFile m _ _ | custom m _ _ _ =>
      have hl : crateName m = lib := hlib _ (by simp [Item.modulePaths])
      simp only [Item.meaning, Option.some.injEq] at hx
      subst hx
      simp only [Metadata.symbols, Metadata.pipelineSymbols, Item.scaffoldingSymbols,
        Metadata.modulePath, Option.map_some, hl, and_self]

/-- The hypotheses hold for the exported function `greet` of crate `my`. -/
example : ∃ m, readMetadata Metadata.greetBytes = .ok m ∧
    m.symbols = ["uniffi_my_fn_func_greet", "uniffi_my_checksum_func_greet"] := by
  obtain ⟨c1, c2, e⟩ := Metadata.C39_item_round_trip (.fn Metadata.greet) _ Metadata.greet_emits
  have e := e []
  rw [List.append_nil] at e
  refine ⟨_, e, ?_⟩
  decide +kernel

/-- C44: the functions every library exports have the names the generators use. -/
theorem C44_builtin_symbols (lib : String) (h : crateName lib = lib) :
    builtinSymbols lib = builtinScaffoldingSymbols lib := by
  simp only [builtinSymbols, builtinScaffoldingSymbols, replaceColons_crate h]

example : crateName "my_crate" = "my_crate" := by decide +kernel

/-- C44: within a crate, symbols for different purposes have different names. -/
theorem C44_kinds_apart (crate : String) (s t : Sym) (h : s.kind ≠ t.kind) :
    s.name crate ≠ t.name crate := by
  intro e
  have e := congrArg String.toList e
  rw [Sym.name_toList, Sym.name_toList] at e
  have e := List.append_cancel_left (List.append_cancel_left e)
  exact h (Sym.tag_append (List.cons.inj e).2).1

example : (Sym.method "clone" "x").kind ≠ (Sym.clone "method_x").kind := by decide

/-- C44: within a crate, two symbols have different names unless they are for the same purpose and
for the same names up to the case of letters; the objects' names must not contain underscores. -/
theorem C44_distinct (crate : String) (s t : Sym) (hs : s.plain) (ht : t.plain)
    (h : s.name crate = t.name crate) : s.lower = t.lower := by
  have e := congrArg String.toList h
  rw [Sym.name_toList, Sym.name_toList] at e
  have e := List.append_cancel_left (List.append_cancel_left e)
  obtain ⟨k, b⟩ := Sym.tag_append (List.cons.inj e).2
  exact Sym.body_inj k hs ht b

/-- C44: with object names in any form, methods of one object are still kept apart. -/
theorem C44_distinct_same_object (crate object n n' : String)
    (h : methodSymbol crate object n = methodSymbol crate object n') :
    asciiLower n = asciiLower n' := by
  have h' : (Sym.method object n).name crate = (Sym.method object n').name crate := h
  have e := congrArg String.toList h'
  rw [Sym.name_toList, Sym.name_toList] at e
  have e := List.append_cancel_left (List.append_cancel_left e)
  have b := (Sym.tag_append (List.cons.inj e).2).2
  simp only [Sym.body] at b
  exact String.toList_injective (List.cons.inj (List.append_cancel_left b)).2

example : (Sym.method "TodoList" "add_item").plain ∧ (Sym.method "Todo" "list_add_item").plain := by
  constructor <;> (unfold Sym.plain; decide +kernel)

/-- C44: when the names of two crates contain no underscore, their symbols differ. -/
theorem C44_crates_apart (c d : String) (s t : Sym) (hc : '_' ∉ (crateName c).toList)
    (hd : '_' ∉ (crateName d).toList) (h : s.name c = t.name d) : crateName c = crateName d := by
  have e := congrArg String.toList h
  rw [Sym.name_toList, Sym.name_toList] at e
  exact String.toList_injective (split_at_sep hc hd (List.append_cancel_left e)).1

example : '_' ∉ (crateName "todolist::inner").toList ∧ crateName "todolist::inner" = "todolist" := by
  decide +kernel

/-- C44: the variant of a function that takes its arguments from a buffer has a name of its own. -/
theorem C44_ffi_buffer_distinct (c d : String) (s t : Sym)
    (h : ffiBufferSymbol (s.name c) = ffiBufferSymbol (t.name d)) : s.name c = t.name d := by
  have e : ∀ (c : String) (s : Sym), ∃ r, (s.name c).toList = "uniffi_".toList ++ r :=
    fun c s => ⟨_, Sym.name_toList c s⟩
  obtain ⟨r, hr⟩ := e c s
  obtain ⟨q, hq⟩ := e d t
  simp only [ffiBufferSymbol, hr, hq, stripPrefix_append] at h
  have h := congrArg String.toList h
  simp only [String.toList_append, String.toList_ofList] at h
  refine String.toList_injective ?_
  rw [hr, hq, List.append_cancel_left h]

/-- Without the condition on underscores names can collide: a method of object `Todo` and one of
object `Todo_list`. -/
theorem C44_underscore_collision :
    methodSymbol "my" "Todo" "list_add" = methodSymbol "my" "Todo_list" "add" := by
  decide +kernel

/-- Names that differ in the case of a letter collide. -/
theorem C44_case_collision : fnSymbol "my" "setURL" = fnSymbol "my" "setUrl" := by
  decide +kernel

/-- Crates with underscores in their names can collide. -/
theorem C44_crate_collision :
    fnSymbol "my" "b_fn_func_c" = fnSymbol "my_fn_func_b" "c" := by
  decide +kernel

end Verif.Props.Names
