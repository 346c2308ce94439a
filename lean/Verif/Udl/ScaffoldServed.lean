import Verif.Udl.ScaffoldItems
/-
What the bindings look up for an item is exported for it.
-/
namespace Verif.Udl.File
open Verif Verif.Meta Verif.Udl Verif.Abi

section
variable {G : Gen} {crate : String} {w wr : CTy → CTy} {Ok : UArg → Prop}

theorem look_func (hs : GenSound G crate w wr Ok) {f : UFn} (hf : f.modulePath = crate)
    (ho : ∀ a ∈ f.inputs, Ok a) {e : Entry}
    (he : e ∈ G.look (fnSymbol (G.lib f.modulePath) f.name) (.record "" "") (.func f.toM)) :
    Fits w wr e (exportFn crate (.record "" "") (functionRs f)) := by
  obtain ⟨ffi, rtype, status, d1, d2, d3, p1, p2, p3, t1, t2, h1, h2, b⟩ := hs.body
  simp only [Gen.look, d1, Option.toList_some, List.map_cons, List.map_nil,
    List.mem_singleton] at he
  subst he
  rw [hf, hs.lib]
  refine .call ?_
  exact like_core p1 p2 p3 t1 t2 h2 b none (by simp) f.inputs ho f.ret f.throws f.isAsync
    (functionRs f) (.record "" "") rfl (by simp) rfl rfl rfl

theorem look_method (hs : GenSound G crate w wr Ok) {n : String} {ty : MTy} (hty : ty ≠ .bytes)
    {f : UFn} (hf : f.modulePath = crate) (ho : ∀ a ∈ f.inputs, Ok a) {src : FnSrc}
    (k1 : src.kind = .method n) (k2 : src.name = f.name) (k3 : src.isAsync = f.isAsync)
    (k4 : src.args = f.inputs.map argRs) (k5 : src.ret = retRs f.ret f.throws) {e : Entry}
    (he : e ∈ G.look (methodSymbol (G.lib f.modulePath) n f.name) ty (.method ⟨n, f.toM⟩)) :
    Fits w wr e (exportFn crate (typeRs ty) src) := by
  obtain ⟨ffi, rtype, status, d1, d2, d3, p1, p2, p3, t1, t2, h1, h2, b⟩ := hs.body
  simp only [Gen.look, d2, Option.toList_some, List.map_cons, List.map_nil,
    List.mem_singleton] at he
  subst he
  rw [hf, hs.lib]
  have hsym : src.scaffoldingSymbol crate = methodSymbol crate n f.name := by
    simp [FnSrc.scaffoldingSymbol, k1, k2]
  simp only [exportFn, hsym]
  refine .call ?_
  exact like_core p1 p2 p3 t1 t2 h2 b (some ty) (by simpa using hty) f.inputs ho f.ret f.throws
    f.isAsync src (typeRs ty) (by simp [k1, hasReceiver]) (by simp) k4 k5 k3

theorem look_ctor (hs : GenSound G crate w wr Ok) {m n : String} {imp : Impl}
    {f : UFn} (hf : f.modulePath = crate) (ho : ∀ a ∈ f.inputs, Ok a) {e : Entry}
    (he : e ∈ G.look (constructorSymbol (G.lib f.modulePath) n f.name) (.object m n imp)
      (.constructor (f.toCons n))) :
    Fits w wr e (exportFn crate (typeRs (.object m n imp))
      (constructorRs n (.object m n imp) f)) := by
  obtain ⟨ffi, rtype, status, d1, d2, d3, p1, p2, p3, t1, t2, h1, h2, b⟩ := hs.body
  simp only [Gen.look, d3, Option.toList_some, List.map_cons, List.map_nil,
    List.mem_singleton] at he
  subst he
  rw [hf, hs.lib]
  refine .call ?_
  exact like_core p1 p2 p3 t1 t2 h2 b none (by simp) f.inputs ho (some (.object m n imp)) f.throws
    f.isAsync (constructorRs n (.object m n imp) f) _ rfl (by simp) rfl rfl rfl

theorem served_calls (hs : GenSound G crate w wr Ok) {errors : List String} {items : List UItem}
    (hc : ∀ i ∈ items, InCrate crate i)
    (hstruct : ∀ n f m r k d, .constructor n f ∈ items → .object m n r (.trait k) d ∉ items)
    (ho : ∀ i ∈ items, ∀ f, CallableOf i f → ∀ a ∈ f.inputs, Ok a)
    {i : UItem} (hi : i ∈ items) {e : Entry} (he : e ∈ G.calls items i) :
    ∃ x ∈ exportItem crate errors items i, Fits w wr e x := by
  cases i with
  | func f =>
    exact ⟨_, List.mem_singleton.2 rfl, look_func hs (hc _ hi) (ho _ hi f .func) he⟩
  | object m n r imp d =>
    have hm : m = crate := hc _ hi
    simp only [Gen.calls, List.mem_append, List.mem_flatMap, List.mem_cons, List.not_mem_nil,
      or_false] at he
    rcases he with (he | ⟨f, hf, he⟩) | ⟨f, hf, he⟩
    · obtain ⟨ffi, rtype, status, d1, d2, d3, p1, p2, p3, t1, t2, h1, h2, b⟩ := hs.body
      rw [hm, hs.lib, hs.handle] at he
      rcases he with rfl | rfl
      · refine ⟨_, List.mem_append.2 (.inl (List.mem_cons_self ..)), .call ⟨?_, ?_⟩⟩
        · rw [p1]; simp [h1, p3]
        · rw [p2]; simp [h2]
      · refine ⟨_, List.mem_append.2 (.inl (List.mem_cons_of_mem _ (List.mem_cons_self ..))),
          .call ⟨?_, ?_⟩⟩
        · rw [p1]; simp [h1, p3]
        · rw [p2]; simp
    · rw [mem_ctorsOf] at hf
      cases imp with
      | struct =>
        refine ⟨_, ?_, look_ctor hs (hc _ hf) (ho _ hf f .constructor) he⟩
        simp only [exportItem, exportObject, List.mem_append, List.mem_map]
        exact .inr (.inl (.inr ⟨f, mem_ctorsOf.2 hf, rfl⟩))
      | trait k => exact absurd hi (hstruct _ _ _ _ _ _ hf)
    · have hf' := mem_methodsOf.1 hf
      refine ⟨_, ?_, look_method (src := methodRs n f) hs (by simp) (hc _ hf') (ho _ hf' f .method)
        rfl rfl rfl rfl rfl he⟩
      cases imp with
      | struct =>
        simp only [exportItem, exportObject, List.mem_append, List.mem_map]
        exact .inr (.inr ⟨f, hf, rfl⟩)
      | trait k =>
        simp only [exportItem, exportObject, List.mem_append, List.mem_map]
        exact .inr (.inl ⟨f, hf, rfl⟩)
  | _ => simp [Gen.calls] at he

theorem compared_rs {ty : MTy} (h : ty ≠ .bytes) : [comparedWith ty].map argRs = otherRs (typeRs ty) := by
  have : argRs (comparedWith ty) =
      { name := "other", ty := typeRs ty, passBy := .ref, default := none } := by
    unfold argRs comparedWith
    split <;> simp_all
  simp [this, otherRs]

theorem helpers_like (hs : GenSound G crate w wr Ok) (hok : ∀ a, ¬BorrowedBytes a → Ok a)
    {n nm : String} {ty : MTy} (hty : ty ≠ .bytes) {t : UTrait}
    (ht : TraitIs crate n ty nm (.uniffiTrait n t)) {e : Entry} (he : e ∈ G.helpers n ty t) :
    ∃ x ∈ exportTrait crate n (typeRs ty) t.builtin, Fits w wr e x := by
  have hcmp : ∀ a ∈ [comparedWith ty], Ok a := by
    intro a ha
    simp only [List.mem_singleton] at ha
    subst ha
    exact hok _ (fun h => hty h.2)
  cases ht with
  | debug =>
    simp only [Gen.helpers, UTrait.methods, List.mem_flatMap, List.mem_singleton,
      exists_eq_left] at he
    exact ⟨_, List.mem_singleton.2 rfl, look_method hs hty rfl (by simp [builtinMethod]) rfl rfl rfl rfl rfl he⟩
  | display =>
    simp only [Gen.helpers, UTrait.methods, List.mem_flatMap, List.mem_singleton,
      exists_eq_left] at he
    exact ⟨_, List.mem_singleton.2 rfl, look_method hs hty rfl (by simp [builtinMethod]) rfl rfl rfl rfl rfl he⟩
  | eq =>
    simp only [Gen.helpers, UTrait.methods, List.mem_flatMap, List.mem_cons, List.not_mem_nil,
      or_false, exists_eq_or_imp, exists_eq_left] at he
    rcases he with he | he
    · exact ⟨_, List.mem_cons_self .., look_method hs hty rfl hcmp rfl rfl rfl
        (compared_rs hty).symm rfl he⟩
    · exact ⟨_, List.mem_cons_of_mem _ (List.mem_cons_self ..), look_method hs hty rfl hcmp rfl rfl
        rfl (compared_rs hty).symm rfl he⟩
  | hash =>
    simp only [Gen.helpers, UTrait.methods, List.mem_flatMap, List.mem_singleton,
      exists_eq_left] at he
    exact ⟨_, List.mem_singleton.2 rfl, look_method hs hty rfl (by simp [builtinMethod]) rfl rfl rfl rfl rfl he⟩
  | ord =>
    simp only [Gen.helpers, UTrait.methods, List.mem_flatMap, List.mem_singleton,
      exists_eq_left] at he
    exact ⟨_, List.mem_singleton.2 rfl, look_method hs hty rfl hcmp rfl rfl rfl
        (compared_rs hty).symm rfl he⟩

theorem mem_exportTraits {items : List UItem} {n : String} {ty : RTy} {t : UTrait}
    (h : .uniffiTrait n t ∈ items) {x : Entry} (hx : x ∈ exportTrait crate n ty t.builtin) :
    x ∈ exportTraits crate n ty items := by
  have : hasTrait items n t.builtin = true := hasTrait_iff.2 ⟨t, h, rfl⟩
  unfold exportTraits
  cases hb : t.builtin <;> rw [hb] at this hx <;> simp [this, hx]

theorem mem_exportEnumTraits {items : List UItem} {n : String} {ty : RTy} {t : UTrait}
    (h : .uniffiTrait n t ∈ items)
    (hd : ∀ f, t = .display f → ∃ g, .uniffiTrait n (.debug g) ∈ items)
    {x : Entry} (hx : x ∈ exportTrait crate n ty t.builtin) :
    x ∈ exportEnumTraits crate n ty items := by
  have : hasTrait items n t.builtin = true := hasTrait_iff.2 ⟨t, h, rfl⟩
  unfold exportEnumTraits
  cases hb : t.builtin with
  | display =>
    have : hasTrait items n .debug = true := by
      obtain ⟨f, rfl⟩ : ∃ f, t = .display f := by
        cases t <;> simp [UTrait.builtin] at hb
        exact ⟨_, rfl⟩
      obtain ⟨g, hg⟩ := hd f rfl
      exact hasTrait_iff.2 ⟨_, hg, rfl⟩
    rw [hb] at hx
    simp [this, hx]
  | _ => rw [hb] at this hx; simp [this, hx]

theorem served_helpers (hs : GenSound G crate w wr Ok) (hok : ∀ a, ¬BorrowedBytes a → Ok a)
    {errors : List String} {items : List UItem} (herr : errorNames items = some errors)
    {i : UItem} {n nm : String} {ty : MTy} (hty : ownerType i = some (n, ty)) {t : UTrait}
    (ht : TraitIs crate n ty nm (.uniffiTrait n t)) (hm : .uniffiTrait n t ∈ items)
    (hu : ¬Unserved items i t) {e : Entry} (he : e ∈ G.helpers n ty t) :
    ∃ x ∈ exportItem crate errors items i, Fits w wr e x := by
  cases i with
  | object m k r imp d =>
    simp only [ownerType, Option.some.injEq, Prod.mk.injEq] at hty
    obtain ⟨rfl, rfl⟩ := hty
    obtain ⟨x, hx, hf⟩ := helpers_like hs hok (by simp) ht he
    cases imp with
    | struct =>
      refine ⟨x, ?_, hf⟩
      simp only [exportItem, exportObject, List.mem_append]
      exact .inr (.inl (.inl (mem_exportTraits hm hx)))
    | trait k => exact absurd .traitInterface hu
  | record m k r fs d =>
    simp only [ownerType, Option.some.injEq, Prod.mk.injEq] at hty
    obtain ⟨rfl, rfl⟩ := hty
    obtain ⟨x, hx, hf⟩ := helpers_like hs hok (by simp) ht he
    exact ⟨x, mem_exportTraits hm hx, hf⟩
  | enum m k s r vs ne d =>
    simp only [ownerType, Option.some.injEq, Prod.mk.injEq] at hty
    obtain ⟨rfl, rfl⟩ := hty
    obtain ⟨x, hx, hf⟩ := helpers_like hs hok (by simp) ht he
    refine ⟨x, ?_, hf⟩
    simp only [exportItem]
    rw [if_neg (fun h => hu (.error ((errorNames_mem herr).1 h)))]
    refine mem_exportEnumTraits hm ?_ hx
    rintro f rfl
    refine Classical.byContradiction fun hn => hu (.display fun g hg => hn ⟨g, hg⟩)
  | _ => simp [ownerType] at hty

end

/-! ### Tables -/

/-- What is needed of the tables of a generator. -/
structure TableSound (G : Gen) (crate : String) (w : CTy → CTy) : Prop where
  lib : G.lib crate = crate
  table : ∀ (fs : List UFn) (srcs : List FnSrc),
    srcs.map (fun s => (s.isAsync, s.args.map (fun a => rustFfi a.ty), rustReturn s.ret)) =
      fs.map (fun f => (f.isAsync, f.inputs.map (fun a => rustFfi (typeRs a.ty)),
        f.ret.map (fun t => rustFfi (typeRs t)))) →
    (∀ f ∈ fs, ∀ a ∈ f.inputs, ¬BorrowedBytes a) →
    ((G.table (fs.map UFn.toM)).map (fun x => w (G.ctype x.2))) = (rustVtable srcs).map w

theorem table_of_fields {G : Gen} {w : CTy → CTy} (field : MFn → FTy)
    (pre : List (String × FTy))
    (hg : ∀ fs, G.table fs = pre ++ fs.map (fun f => (f.name, field f)))
    (hpre : pre.map (fun x => w (G.ctype x.2)) =
      [w (.fn [.int 64 false] none), w (.fn [.int 64 false] (some (.int 64 false)))])
    (hf : ∀ (f : UFn) (s : FnSrc), s.isAsync = f.isAsync →
      s.args.map (fun a => rustFfi a.ty) = f.inputs.map (fun a => rustFfi (typeRs a.ty)) →
      rustReturn s.ret = f.ret.map (fun t => rustFfi (typeRs t)) →
      (∀ a ∈ f.inputs, ¬BorrowedBytes a) → w (G.ctype (field f.toM)) = w (rustVtableField s))
    (fs : List UFn) (srcs : List FnSrc)
    (h : srcs.map (fun s => (s.isAsync, s.args.map (fun a => rustFfi a.ty), rustReturn s.ret)) =
      fs.map (fun f => (f.isAsync, f.inputs.map (fun a => rustFfi (typeRs a.ty)),
        f.ret.map (fun t => rustFfi (typeRs t)))))
    (hb : ∀ f ∈ fs, ∀ a ∈ f.inputs, ¬BorrowedBytes a) :
    ((G.table (fs.map UFn.toM)).map (fun x => w (G.ctype x.2))) = (rustVtable srcs).map w := by
  rw [hg, List.map_append, hpre]
  simp only [rustVtable, List.map_cons, List.cons_append, List.nil_append, List.cons.injEq, true_and,
    List.map_map]
  induction fs generalizing srcs with
  | nil => cases srcs <;> simp_all
  | cons f fs ih =>
    cases srcs with
    | nil => simp at h
    | cons s srcs =>
      simp only [List.map_cons, List.cons.injEq, Prod.mk.injEq] at h
      obtain ⟨⟨h1, h2, h3⟩, h⟩ := h
      simp only [List.map_cons, List.cons.injEq, Function.comp]
      exact ⟨hf f s h1 h2 h3 (hb f (List.mem_cons_self ..)),
        ih srcs h fun f hf => hb f (List.mem_cons_of_mem _ hf)⟩

theorem python_tables (ctx : Ctx) (crate : String) : TableSound (python ctx crate) crate id := by
  refine ⟨rfl, table_of_fields (fun f => (pipelineVtableField ctx f).field)
    [("uniffi_free", .callback [.handle] false none),
      ("uniffi_clone", .callback [.handle] false (some .handle))] (fun _ => rfl) rfl ?_⟩
  intro f s h1 h2 h3 hb
  have ht := python_ty ctx
  simp only [TyAgrees, id_eq] at ht
  simp only [id_eq, rustVtableField, h1, h2, h3, python]
  cases hx : f.isAsync with
  | true =>
    simp only [pipelineVtableField, UFn.toM, hx, if_true, Decl.field, Python.ctype,
      python_ctypes, List.map_cons, List.map_append, List.map_map, List.map_nil, futureComplete,
      droppedStruct, Rust.foreignFutureCallback, Rust.droppedCallbackStruct,
      Rust.foreignFutureResult, Python.optCtype, Function.comp_def, UArg.toM, ht]
    cases f.ret <;> simp [show Python.rustCallStatus = Rust.rustCallStatus from rfl, ht]
  | false =>
    simp only [pipelineVtableField, UFn.toM, hx, Decl.field, Python.ctype,
      python_ctypes, List.map_append, List.map_cons, List.map_map, List.map_nil,
      Python.optCtype, Bool.false_eq_true, if_false, if_true, Function.comp_def, UArg.toM, ht]
    cases f.ret <;> simp [Python.ctype, show Python.rustCallStatus = Rust.rustCallStatus from rfl, ht]

theorem legacy_inputs {f : UFn} {conv : FTy → CTy} {w : CTy → CTy}
    (ht : ∀ t, w (conv (legacyFfi t)) = w (rustFfi (typeRs t)))
    (hb : ∀ a ∈ f.inputs, ¬BorrowedBytes a) :
    f.inputs.map (fun a => w (conv (legacyArg a.toM))) =
      f.inputs.map (fun a => w (rustFfi (typeRs a.ty))) := by
  simp only [List.map_inj_left]
  intro a ha
  simp only [legacyArg]
  rw [if_neg (fun h => hb a ha ((borrowed_toM a).1 h))]
  exact ht _

theorem swift_tables (crate : String) : TableSound swift crate id := by
  refine ⟨rfl, table_of_fields (fun f => (legacyVtableField f).field)
    [("uniffi_free", .callback [.uint64] false none),
      ("uniffi_clone", .callback [.uint64] false (some .uint64))] (fun _ => rfl) rfl ?_⟩
  intro f s h1 h2 h3 hb
  have ht := swift_ty
  have hl := legacy_inputs ht hb
  simp only [TyAgrees, id_eq] at ht hl
  simp only [id_eq, rustVtableField, h1, h2, h3, swift]
  cases hx : f.isAsync with
  | true =>
    simp only [legacyVtableField, UFn.toM, hx, if_true, Decl.field, Swift.ctype,
      swift_ctypes, List.map_cons, List.map_append, List.map_map, List.map_nil, futureComplete,
      droppedStruct, Rust.foreignFutureCallback, Rust.droppedCallbackStruct,
      Rust.foreignFutureResult, Swift.optCtype, Function.comp_def, hl]
    cases f.ret <;> simp [show Swift.rustCallStatus = Rust.rustCallStatus from rfl, ht]
  | false =>
    simp only [legacyVtableField, UFn.toM, hx, Decl.field, Swift.ctype,
      swift_ctypes, List.map_append, List.map_cons, List.map_map, List.map_nil,
      Swift.optCtype, Bool.false_eq_true, if_false, if_true, Function.comp_def, hl]
    cases f.ret <;> simp [Swift.ctype, show Swift.rustCallStatus = Rust.rustCallStatus from rfl, ht]

theorem kotlin_tables (crate : String) : TableSound kotlin crate CTy.noSign := by
  refine ⟨rfl, table_of_fields (fun f => (legacyVtableField f).field)
    [("uniffi_free", .callback [.uint64] false none),
      ("uniffi_clone", .callback [.uint64] false (some .uint64))] (fun _ => rfl) rfl ?_⟩
  intro f s h1 h2 h3 hb
  have ht := kotlin_ty
  have hl := legacy_inputs ht hb
  simp only [TyAgrees] at ht
  simp only [rustVtableField, h1, h2, h3, kotlin]
  cases hx : f.isAsync with
  | true =>
    simp only [legacyVtableField, UFn.toM, hx, if_true, Decl.field, Kotlin.ctype,
      kotlin_ctypes, List.map_cons, List.map_append, List.map_map, List.map_nil, futureComplete,
      droppedStruct, Rust.foreignFutureCallback, Rust.droppedCallbackStruct,
      Rust.foreignFutureResult, Kotlin.optCtype, Function.comp_def, CTy.noSign, noSigns_map,
      noSignOpt_map, hl]
    cases f.ret <;> simp [show Kotlin.rustCallStatus.noSign = Rust.rustCallStatus.noSign from rfl, CTy.noSign, noSigns_map, noSignOpt_map, ht]
  | false =>
    simp only [legacyVtableField, UFn.toM, hx, Decl.field, Kotlin.ctype,
      kotlin_ctypes, List.map_append, List.map_cons, List.map_map, List.map_nil,
      Kotlin.optCtype, Bool.false_eq_true, if_false, if_true, Function.comp_def, CTy.noSign,
      noSigns_map, noSignOpt_map, hl]
    cases f.ret <;> simp [Kotlin.ctype, show Kotlin.rustCallStatus.noSign = Rust.rustCallStatus.noSign from rfl, CTy.noSign, noSignOpt_map, ht]

end Verif.Udl.File
