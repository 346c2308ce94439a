import Verif.Gen.RenameFacts
/-
C57: renaming items by configuration is consistent.
C60: leaving items out by configuration removes them and nothing else.
-/
namespace Verif.Props.Rename
open Verif Verif.Meta Verif.Gen Verif.Gen.Api

/-! Python -/

/-- Whatever is renamed and left out, the Python generator works on the interface with every remaining
item under its configured name, every type under its new name wherever it is mentioned, and the callback
tables and library symbols as they were. Types must not be behind `Box`, and custom types must be over
types without user-defined ones. -/
theorem C57_python_partial (R : Renames) (out : List String) (api : Api) (hl : Loaded api)
    (hs : ∀ t ∈ mentioned api, simple t) :
    Pipeline.mapNamespace R out api = renamed R (excluded out api) :=
  pipeline_eq hl fun t ht => mapType_simple R t (hs t ht)

/-- No reference to a type of the crate is left without a definition. -/
theorem C57_python_closed_partial (R : Renames) (api : Api) (hl : Loaded api)
    (hs : ∀ t ∈ mentioned api, simple t) (hc : closed api) : closed (Pipeline.mapNamespace R [] api) := by
  rw [C57_python_partial R [] api hl hs, excluded_nil]
  exact closed_renamed R api hc

/-- The functions of the library that are called do not depend on the renaming. -/
theorem C57_python_symbols_partial (R : Renames) (out : List String) (api : Api) (hl : Loaded api)
    (hs : ∀ t ∈ mentioned api, simple t) :
    symbols (Pipeline.mapNamespace R out api) = symbols (excluded out api) := by
  rw [C57_python_partial R out api hl hs, symbols_renamed]

theorem mapType_none (t : MTy) : Pipeline.mapType noRenames t = t := by
  induction t with
  | map k v ihk ihv => simp only [Pipeline.mapType, ihk, ihv]
  | optional t ih | sequence t ih | set t ih => simp only [Pipeline.mapType, ih]
  | _ => rfl

/-- Python: leaving items out removes exactly the listed items. The callback tables keep all slots. -/
theorem C60_python (out : List String) (api : Api) (hl : Loaded api) :
    Pipeline.mapNamespace noRenames out api = excluded out api := by
  rw [pipeline_eq hl fun t _ => (mapType_none t).trans (renamedTy_none t).symm, renamed_none]

/-! Kotlin, Swift, Ruby -/

/-- The same for the other three generators, within the limits of `Covered`, and apart from the types
that methods are called on and constructors build. -/
theorem C57_legacy_partial (R : Renames) (out : List String) (api : Api)
    (hc : crateName api.crate = api.crate) (hl : Loaded api) (h : Covered R out api) :
    anon (Legacy.configure R out api) = anon (renamed R (excluded out api)) :=
  legacy_eq hc hl h

theorem renameRecursive_self (t : MTy) : renameRecursive (fun n => n) t = t := by
  induction t with
  | map k v ihk ihv => simp only [renameRecursive, ihk, ihv]
  | optional t ih | sequence t ih | set t ih => simp only [renameRecursive, ih]
  | custom m n b ih => simp only [renameRecursive, ih]
  | _ => rfl

theorem visitType_none (this : String) (t : MTy) : Legacy.visitType noRenames this t = t :=
  renameRecursive_self t

theorem slotTypes_none (this : String) (ss : List Slot) : Legacy.visitSlotTypes noRenames this ss = ss :=
  map_self fun s => by rw [visitType_none]

theorem fieldNames_none (m p : String) (ss : List Slot) : Legacy.fieldNames noRenames m p ss = ss :=
  map_self fun _ => rfl

theorem visitMember_none (this o : String) (m : Member) : Legacy.visitMember noRenames this o m = m := by
  have h := fieldNames_none this (o ++ "." ++ m.sig.name) m.sig.args
  unfold Legacy.fieldNames at h
  unfold Legacy.visitMember; simp only; rw [h]; rfl

theorem visitFunction_none (this : String) (f : Sig) : Legacy.visitFunction noRenames this f = f := by
  have h := fieldNames_none this f.name f.args
  unfold Legacy.fieldNames at h
  unfold Legacy.visitFunction; rw [h]; rfl

theorem argTypes_none (this : String) (f : Sig) : Legacy.visitArgTypes noRenames this f = f := by
  unfold Legacy.visitArgTypes; rw [slotTypes_none]

theorem sigTypes_none (this : String) (f : Sig) : Legacy.visitSigTypes noRenames this f = f := by
  unfold Legacy.visitSigTypes
  rw [slotTypes_none, omap_self (visitType_none this), omap_self (visitType_none this)]

theorem visitMut_none (api : Api) : Legacy.visitMut noRenames api = api := by
  unfold Legacy.visitMut
  simp only
  rw [map_self fun f => by
      rw [sigTypes_none, visitFunction_none],
    map_self fun r => by
      unfold Legacy.visitRecord; simp only; rw [fieldNames_none, slotTypes_none]; rfl,
    map_self fun e => by
      unfold Legacy.visitEnum; simp only; rw [List.map_map, map_self fun v => by
        simp only [Function.comp]; rw [fieldNames_none, slotTypes_none]; rfl]; rfl,
    map_self (f := Legacy.walkObject noRenames api.crate) fun o => by
      unfold Legacy.walkObject Legacy.visitObject
      simp only
      rw [map_self fun m => by rw [visitMember_none, argTypes_none],
        map_self fun m => by rw [visitMember_none, sigTypes_none]]
      rfl,
    map_self (f := Legacy.walkCallback noRenames api.crate) fun o => by
      unfold Legacy.walkCallback Legacy.visitCallback
      simp only
      rw [map_self fun m => by rw [visitMember_none, argTypes_none]]
      rfl,
    map_self (visitType_none _)]

/-- What the other three generators can leave out: no method of a trait with a callback table, and among
the known types only definitions of the crate. -/
structure CanExclude (out : List String) (api : Api) : Prop where
  objects : ∀ o ∈ api.objects, o.table.isSome → ∀ m ∈ o.methods, dot o.name m.sig.name ∉ out
  callbacks : ∀ c ∈ api.callbacks, ∀ m ∈ c.methods, dot c.name m.sig.name ∉ out
  known : ∀ t ∈ api.known, ∀ p ∈ (namedIn t).head?, declaredIn t = some p.1 → p.2 ∈ out →
    crateName p.1 = api.crate ∧
    p.2 ∈ api.records.map (·.name) ++ api.enums.map (·.name) ++ api.objects.map (·.name) ++
      api.callbacks.map (·.name)

/-- Kotlin, Swift, Ruby: leaving items out removes exactly the listed items, if no method of a trait
with a callback table is left out. -/
theorem C60_legacy_partial (out : List String) (api : Api) (hc : crateName api.crate = api.crate)
    (hl : Loaded api) (h : CanExclude out api) :
    Legacy.configure noRenames out api = excluded out api := by
  have hk : (Legacy.applyExclusions out api).known = (excluded out api).known := known_eq h.known
  unfold Legacy.configure
  rw [visitMut_none]
  unfold Legacy.deriveFfi
  simp only [hk]
  unfold Legacy.applyExclusions excluded
  simp only [removeMembers_kept, List.map_map, filter_out out (fun f : Sig => f.name),
    filter_out out (fun r : Rec => r.name), filter_out out (fun e : Enum => e.name)]
  rw [filter_out out (fun o : Obj => o.name), filter_out out (fun c : Cb => c.name)]
  congr 1
  · apply List.map_congr_left
    intro o ho
    have ho := (List.mem_filter.1 ho).1
    obtain ⟨hcr, _, _, _, _, _, ht⟩ := hl.objects o ho
    have hx := h.objects o ho
    simp only [Function.comp]
    congr 1
    rw [ht] at hx ⊢
    by_cases hi : Legacy.hasCallbackInterface o.imp = true
    · have hp := (hasCallback_iff _).1 hi
      rw [if_pos hp] at hx ⊢
      rw [if_pos hi, kept_all (hx rfl), initVtable_crate hcr hc]
    · rw [if_neg hi, if_neg (fun h => hi ((hasCallback_iff _).2 h))]
  · apply List.map_congr_left
    intro c hcb
    have hcb := (List.mem_filter.1 hcb).1
    obtain ⟨hcr, _, ht⟩ := hl.callbacks c hcb
    simp only [Function.comp]
    rw [ht, kept_all (h.callbacks c hcb), initVtable_crate hcr hc]

/-- The functions of the library that stand for functions, methods, constructors, and cloning and freeing
of objects do not depend on the renaming, for any interface. (The functions that take callback tables do:
`C57_init_symbol_broken`.) -/
theorem C57_legacy_symbols_partial (R : Renames) (api : Api) :
    let after := Legacy.configure R [] api
    after.functions.map (·.symbol) = api.functions.map (·.symbol) ∧
    (members after).map (·.sig.symbol) = (members api).map (·.sig.symbol) ∧
    after.objects.map (fun o => (o.cloneSymbol, o.freeSymbol)) =
      api.objects.map (fun o => (o.cloneSymbol, o.freeSymbol)) := by
  have hf : ∀ {α : Type} (l : List α), l.filter (fun _ => true) = l := by
    intro α l; exact List.filter_eq_self.2 fun _ _ => rfl
  have hk : ∀ p ms, Legacy.removeMembers [] p ms = ms := by
    intro p ms; exact List.filter_eq_self.2 fun _ _ => by simp
  refine ⟨?_, ?_, ?_⟩
  · simp [Legacy.configure, Legacy.deriveFfi, Legacy.visitMut, Legacy.applyExclusions, hf,
      Legacy.visitSigTypes, Legacy.visitFunction, Function.comp_def]
  · simp only [Legacy.configure, Legacy.deriveFfi, Legacy.visitMut, Legacy.applyExclusions,
      List.contains_nil, Bool.not_false, hf, hk, members, List.map_append, List.map_flatMap,
      List.flatMap_map, Legacy.visitRecord, Legacy.visitEnum, Legacy.walkObject, Legacy.visitObject,
      Legacy.walkCallback, Legacy.visitCallback, List.map_map, Function.comp_def, Legacy.visitMember,
      Legacy.visitSigTypes, Legacy.visitArgTypes]
  · simp [Legacy.configure, Legacy.deriveFfi, Legacy.visitMut, Legacy.applyExclusions, hf,
      Legacy.walkObject, Legacy.visitObject, Function.comp_def]

theorem anon_sig {ms : List Member} {t : MTy} (h : t ∈ (ms.map Member.anon).flatMap Member.types) :
    t = .uint8 ∨ t ∈ ms.flatMap Member.types := by
  simp only [List.mem_flatMap, List.mem_map] at h
  obtain ⟨_, ⟨m, hm, rfl⟩, ht⟩ := h
  rcases List.mem_cons.1 ht with ht | ht
  · exact .inl ht
  · exact .inr (List.mem_flatMap.2 ⟨m, hm, List.mem_cons_of_mem _ ht⟩)

theorem members_anon (api : Api) : members (anon api) = (members api).map Member.anon := by
  simp only [members, anon, List.map_append, List.map_flatMap, List.flatMap_map]

theorem tables_anon (api : Api) : tables (anon api) = (tables api).map Table.anon := by
  simp only [tables, anon, List.map_append, List.map_map]
  congr 1
  induction api.objects with
  | nil => rfl
  | cons o os ih =>
    cases ho : o.table with
    | none => simp only [List.map_cons, List.filterMap_cons, ho, Option.map_none]; exact ih
    | some t =>
      simp only [List.map_cons, List.filterMap_cons, ho, Option.map_some]; exact congrArg _ ih

theorem mentioned_anon {api : Api} {t : MTy} (h : t ∈ mentioned (anon api)) :
    t = .uint8 ∨ t ∈ mentioned api := by
  simp only [mentioned, List.mem_append] at h ⊢
  rcases h with (((h | h) | h) | h) | h
  · exact .inr (.inl (.inl (.inl (.inl h))))
  · rw [members_anon] at h
    rcases anon_sig h with h | h
    · exact .inl h
    · exact .inr (.inl (.inl (.inl (.inr h))))
  · rw [tables_anon] at h
    obtain ⟨tb, htb, h⟩ := List.mem_flatMap.1 h
    obtain ⟨tc, htc, rfl⟩ := List.mem_map.1 htb
    rcases anon_sig h with h | h
    · exact .inl h
    · exact .inr (.inl (.inl (.inr (List.mem_flatMap.2 ⟨tc, htc, h⟩))))
  · refine .inr (.inl (.inr ?_))
    simp only [fields, anon, List.flatMap_map] at h ⊢; exact h
  · exact .inr (.inr h)

theorem closed_anon {api : Api} (h : closed api) : closed (anon api) := by
  intro t ht p hp hc
  have hd : defined (anon api) = defined api := by
    simp only [defined, anon, List.map_map]; rfl
  rw [hd]
  rcases mentioned_anon ht with rfl | ht
  · simp [namedIn] at hp
  · exact h t ht p hp hc

/-- Within the limits, no reference to a type of the crate is left without a definition. -/
theorem C57_legacy_closed_partial (R : Renames) (api : Api) (hc : crateName api.crate = api.crate)
    (hl : Loaded api) (h : Covered R [] api) (hcl : closed api) :
    closed (anon (Legacy.configure R [] api)) := by
  rw [C57_legacy_partial R [] api hc hl h, excluded_nil]
  exact closed_anon (closed_renamed R api hcl)

/-! A small interface: a record, an error, an object with two constructors, a callback interface. -/

instance (api : Api) : Decidable (closed api) := by unfold closed; infer_instance

def demo : Api where
  crate := "c"
  functions := [⟨"f", [⟨"x", .optional (.record "c::m" "Rec")⟩], some (.record "c::m" "Rec"),
    some (.enum "c" "Err"), "uniffi_c_fn_func_f"⟩]
  records := [⟨"c::m", "Rec", [⟨"item", .int32⟩], [], [], []⟩]
  enums := [⟨"c", "Err", [⟨"Bad", [⟨"why", .string⟩]⟩], [], [], []⟩]
  objects := [⟨"c", "Obj", .struct,
    [⟨.object "c" "Obj" .struct, ⟨"load", [⟨"r", .record "c::m" "Rec"⟩], none, none,
      "uniffi_c_fn_constructor_obj_load"⟩⟩],
    [⟨.object "c" "Obj" .struct, ⟨"get", [⟨"n", .sequence (.record "c::m" "Rec")⟩], some (.enum "c" "Err"),
      none, "uniffi_c_fn_method_obj_get"⟩⟩], [],
    "uniffi_c_fn_clone_obj", "uniffi_c_fn_free_obj", none⟩]
  callbacks := [⟨"c", "Cb",
    [⟨.callbackInterface "c" "Cb", ⟨"tell", [⟨"r", .record "c::m" "Rec"⟩], some .string, none,
        "uniffi_c_fn_method_cb_tell"⟩⟩,
      ⟨.callbackInterface "c" "Cb", ⟨"ask", [], some .int32, none, "uniffi_c_fn_method_cb_ask"⟩⟩],
    ⟨"uniffi_c_fn_init_callback_vtable_cb",
      [⟨.callbackInterface "c" "Cb", ⟨"tell", [⟨"r", .record "c::m" "Rec"⟩], some .string, none,
        "uniffi_c_fn_method_cb_tell"⟩⟩,
      ⟨.callbackInterface "c" "Cb", ⟨"ask", [], some .int32, none, "uniffi_c_fn_method_cb_ask"⟩⟩]⟩⟩]
  known := [.record "c::m" "Rec", .enum "c" "Err", .object "c" "Obj" .struct,
    .callbackInterface "c" "Cb", .optional (.record "c::m" "Rec"), .sequence (.record "c::m" "Rec")]

/-- A table for the crate `c`. -/
def table (l : List (String × String)) : Renames := fun crate key => if crate = "c" then l.lookup key else none

def demoRenames : Renames :=
  table [("f", "g"), ("f.x", "y"), ("Rec", "Box"), ("Rec.item", "entry"), ("Err", "Oops"),
    ("Err.Bad.why", "because"), ("Err.Bad", "Worse"), ("Obj", "Thing"), ("Obj.get", "fetch"),
    ("Obj.get.n", "count"), ("Obj.load", "open"), ("Cb.tell", "say")]

example : closed demo := by decide +kernel
example : ∀ t ∈ mentioned demo, simple t := by decide +kernel

theorem demo_loaded : Loaded demo where
  functions := by decide +kernel
  records := by simp only [membersOf]; decide +kernel
  enums := by simp only [membersOf]; decide +kernel
  objects := by simp only [membersOf]; decide +kernel
  callbacks := by simp only [membersOf]; decide +kernel

theorem demo_covered : Covered demoRenames ["Obj.load", "Obj"] demo where
  functions := by simp only [uniform, within]; decide +kernel
  fields := by simp only [uniform, within]; decide +kernel
  known := by simp only [uniform, within]; decide +kernel
  records := by simp only [untouched]; decide +kernel
  enums := by simp only [untouched]; decide +kernel
  objects := by simp only [untouched, uniform, within, fixed, tableKept]; decide +kernel
  callbacks := by simp only [uniform, within, fixed, tableKept]; decide +kernel
  out := by decide +kernel

/-- The demo is renamed throughout by the Kotlin, Swift and Ruby generators too. -/
example : (Legacy.configure demoRenames [] demo).functions =
    [⟨"g", [⟨"y", .optional (.record "c::m" "Box")⟩], some (.record "c::m" "Box"), some (.enum "c" "Oops"),
      "uniffi_c_fn_func_f"⟩] := by decide +kernel

theorem demo_can : CanExclude ["f", "Rec", "Obj.get"] demo where
  objects := by decide +kernel
  callbacks := by decide +kernel
  known := by decide +kernel

/-! Where the code falls short -/

/-- Kotlin, Swift, Ruby: a renamed callback interface hands its table to a function that the library
does not have. -/
theorem C57_init_symbol_broken :
    (Legacy.configure (table [("Cb", "Listener")]) [] demo).callbacks.map (·.table.initSymbol) =
      ["uniffi_c_fn_init_callback_vtable_listener"] ∧
    "uniffi_c_fn_init_callback_vtable_listener" ∉ symbols demo := by decide +kernel

/-- Kotlin, Swift, Ruby: the constructors of a renamed object are declared to return a type that is
not defined any more. -/
theorem C57_owner_broken :
    closed demo ∧ ¬ closed (Legacy.configure (table [("Obj", "Thing")]) [] demo) ∧
    (Legacy.configure (table [("Obj", "Thing")]) [] demo).objects.flatMap (·.ctors.map (·.owner)) =
      [.object "c" "Obj" .struct] := by decide +kernel

/-- An interface with one record `Rec` and one more item. -/
def withRec (m : Member) (where_ : Fin 4) : Api where
  crate := "c"
  functions := []
  records := [⟨"c", "Rec", [], [], if where_ = 3 then [m] else [], []⟩]
  enums := []
  objects := if where_ = 0 then
      [⟨"c", "Obj", .struct, [m], [], [], "uniffi_c_fn_clone_obj", "uniffi_c_fn_free_obj", none⟩]
    else if where_ = 1 then
      [⟨"c", "Obj", .struct, [], [m], [], "uniffi_c_fn_clone_obj", "uniffi_c_fn_free_obj", none⟩] else []
  callbacks := if where_ = 2 then
      [⟨"c", "Cb", [m], ⟨"uniffi_c_fn_init_callback_vtable_cb", [m]⟩⟩] else []
  known := [.record "c" "Rec"]

/-- Kotlin, Swift, Ruby: the error of a constructor, and the result of a callback method, keep the old
name of a renamed type; so do the types in methods of records. The result of an object's method is
renamed. -/
theorem C57_places_broken :
    let R := table [("Rec", "Item")]
    let m (owner : MTy) : Member := ⟨owner, ⟨"m", [], some (.record "c" "Rec"), none, "s"⟩⟩
    let e (owner : MTy) : Member := ⟨owner, ⟨"m", [], none, some (.record "c" "Rec"), "s"⟩⟩
    let broken (api : Api) := closed api ∧ ¬ closed (Legacy.configure R [] api)
    broken (withRec (e (.object "c" "Obj" .struct)) 0) ∧
    broken (withRec (m (.callbackInterface "c" "Cb")) 2) ∧
    broken (withRec (m (.record "c" "Rec")) 3) ∧
    closed (Legacy.configure R [] (withRec (m (.object "c" "Obj" .struct)) 1)) := by decide +kernel

/-- Kotlin, Swift, Ruby: the methods of a renamed callback interface are looked up under its new name,
not under its own, unlike those of an object. -/
theorem C57_callback_key_broken :
    let names (R : Renames) := (Legacy.configure R [] demo).callbacks.flatMap (·.methods.map (·.sig.name))
    names (table [("Cb", "Listener"), ("Cb.tell", "say")]) = ["tell", "ask"] ∧
    names (table [("Cb", "Listener"), ("Listener.tell", "say")]) = ["say", "ask"] := by decide +kernel

/-- Kotlin, Swift, Ruby: a type of another crate is renamed by the table of that crate, but inside an
optional it is renamed by the table of this crate. Python uses the table of the other crate for both. -/
theorem C57_external_broken :
    let R : Renames := fun crate key => if crate = "d" ∧ key = "Rec" then some "Item" else none
    Legacy.visitType R "c" (.record "d" "Rec") = .record "d" "Item" ∧
    Legacy.visitType R "c" (.optional (.record "d" "Rec")) = .optional (.record "d" "Rec") ∧
    Pipeline.mapType R (.optional (.record "d" "Rec")) = .optional (.record "d" "Item") := by decide +kernel

/-- All generators: a renamed type keeps its old name behind `Box`. -/
theorem C57_box_broken :
    let R := table [("Rec", "Item")]
    Legacy.visitType R "c" (.box (.record "c" "Rec")) = .box (.record "c" "Rec") ∧
    Pipeline.mapType R (.box (.record "c" "Rec")) = .box (.record "c" "Rec") := by decide +kernel

/-- Kotlin, Swift, Ruby: leaving out a method of a callback interface removes its slot from the
callback table, so that the library calls `ask` where `tell` was. Python keeps the slot. -/
theorem C60_table_broken :
    let slots (api : Api) := api.callbacks.flatMap (·.table.slots.map (·.sig.name))
    slots demo = ["tell", "ask"] ∧
    slots (Legacy.configure noRenames ["Cb.tell"] demo) = ["ask"] ∧
    slots (Pipeline.mapNamespace noRenames ["Cb.tell"] demo) = ["tell", "ask"] := by decide +kernel

/-- Kotlin, Swift, Ruby: leaving out a type also drops the type of the same name of another crate from
the known types. -/
theorem C60_external_broken :
    let api := { demo with known := [.record "d" "Rec"] }
    (excluded ["Rec"] api).known = [.record "d" "Rec"] ∧
    (Legacy.configure noRenames ["Rec"] api).known = [] := by decide +kernel

end Verif.Props.Rename
