import Verif.Udl.CollectPanic
/-
C67: an interface definition file means what is written.
-/
namespace Verif.Props.Udl
open Verif.Meta Verif.Udl Verif.Udl.File

/-- A file is accepted exactly when it is well formed: there is a namespace, types are introduced
once, custom types are made from types introduced before, and each definition is of one of the forms
that stand for items. -/
theorem C67_accepts (crate : String) (file : List Def) :
    (∃ g, fromDefinitions crate file = .ok g) ↔ ∃ ns, Accepted crate file ns := by
  simp only [fromDefinitions, bind_ok, ok_ok]
  constructor
  · rintro ⟨g, ns, hns, types, ht, items, hi, -⟩
    have H := findTypes_right ht
    refine ⟨ns, findNamespace_ok.1 hns, ?_, ?_⟩
    · have := (findTypes_exists (crate := crate) (pre := []) (types := []) (ds := file) rfl).1
        ⟨types, ht⟩
      intro before d after he
      simpa using this before d after he
    · intro d hd
      obtain ⟨is, h⟩ := (processAll_ok hi).1 d hd
      exact ⟨is, (processDef_ok H).1 h⟩
  · rintro ⟨ns, hns, ht, hi⟩
    obtain ⟨types, ht⟩ := (findTypes_exists (crate := crate) (pre := []) (types := [])
      (ds := file) rfl).2 fun before d after he => by simpa using ht before d after he
    have H := findTypes_right ht
    obtain ⟨items, hp⟩ := processAll_exists (crate := crate) (ns := ns) (types := types)
      (ds := file) (items := []) fun d hd => by
        obtain ⟨is, h⟩ := hi d hd
        exact ⟨is, (processDef_ok H).2 h⟩
    exact ⟨_, ns, findNamespace_ok.2 hns, types, ht, items, hp, rfl⟩

/-- The group made from an accepted file holds exactly the items its definitions stand for and its
custom types, each once. -/
theorem C67_says (crate : String) (file : List Def) (g : UGroup)
    (h : fromDefinitions crate file = .ok g) :
    Accepted crate file g.ns ∧ Says crate file g := by
  simp only [fromDefinitions, bind_ok, ok_ok] at h
  obtain ⟨ns, hns, types, ht, items, hi, rfl⟩ := h
  have H := findTypes_right ht
  have hd : Distinct types := findTypes_distinct (by intro n t h; simp at h) ht
  obtain ⟨h1, h2, h3⟩ := processAll_ok hi
  have hacc : Accepted crate file ns := by
    refine ⟨findNamespace_ok.1 hns, ?_, ?_⟩
    · have := (findTypes_exists (crate := crate) (pre := []) (types := []) (ds := file) rfl).1
        ⟨types, ht⟩
      intro before d after he
      simpa using this before d after he
    · intro d hd
      obtain ⟨is, h⟩ := h1 d hd
      exact ⟨is, (processDef_ok H).1 h⟩
  refine ⟨hacc, rfl, ?_, ?_, ?_⟩
  · obtain ⟨before, doc, as, ms, after, he, -⟩ := findNamespace_ok.1 hns
    obtain ⟨before', as', n, ms', after', he', hl⟩ :=
      namespaceDoc_last (file := file) (doc := none) ⟨doc, as, ns, ms, by simp [he]⟩
    obtain ⟨is, hg⟩ := hacc.items (.namespace_ (namespaceDoc none file) as' n ms') (by
      have : Def.namespace_ (namespaceDoc none file) as' n ms' ∈
          before' ++ .namespace_ (namespaceDoc none file) as' n ms' :: after' := by simp
      rwa [← he'] at this)
    cases hg
    exact ⟨before', _, ms', after', he', hl⟩
  · intro i
    show i ∈ (customItems types).foldl insertItem items ↔ _
    rw [insertAll_mem, h2, customItems_mem]
    constructor
    · rintro ((hn | ⟨d, hd, is, hp, hm⟩) | ⟨k, m, n, b, hm, rfl⟩)
      · simp at hn
      · exact .inl ⟨d, hd, is, (processDef_ok H).1 hp, hm⟩
      · have hk := (H k _).1 (hd k _ hm)
        have := known_custom hk
        subst this
        exact .inr ⟨m, k, b, rfl, hk⟩
    · rintro (⟨d, hd, is, hg, hm⟩ | ⟨m, n, b, rfl, hk⟩)
      · exact .inl (.inr ⟨d, hd, is, (processDef_ok H).2 hg, hm⟩)
      · exact .inr ⟨n, m, n, b, get_mem ((H n _).2 hk), rfl⟩
  · exact insertAll_nodup (h3 (by simp))

/-- In an accepted file every name and every type expression has at most one meaning, and every
definition stands for at most one list of items. -/
theorem C67_unambiguous (crate : String) (file : List Def) (ns : String)
    (h : Accepted crate file ns) :
    (∀ n t t', Known crate file n t → Known crate file n t' → t = t') ∧
    (∀ w t t', Means crate file w t → Means crate file w t' → t = t') ∧
    (∀ d is is', Gives crate ns file d is → Gives crate ns file d is' → is = is') := by
  obtain ⟨g, hg⟩ := (C67_accepts crate file).2 ⟨ns, h⟩
  simp only [fromDefinitions, bind_ok, ok_ok] at hg
  obtain ⟨ns', hns, types, ht, items, hi, rfl⟩ := hg
  have H := findTypes_right ht
  refine ⟨fun n t t' h1 h2 => ?_, fun w t t' h1 h2 => ?_, fun d is is' h1 h2 => ?_⟩
  · have := (H n t).2 h1
    rw [(H n t').2 h2] at this
    simpa using this.symm
  · have := (resolve_ok H).2 h1
    rw [(resolve_ok H).2 h2] at this
    simpa using this.symm
  · have := (processDef_ok (ns := ns) H).2 h1
    rw [(processDef_ok H).2 h2] at this
    simpa using this.symm

/-- The order of definitions does not matter: two accepted files with the same definitions give the
same namespace and the same items. -/
theorem C67_order (crate : String) (file file' : List Def) (hs : ∀ d, d ∈ file ↔ d ∈ file')
    (g g' : UGroup) (h : fromDefinitions crate file = .ok g)
    (h' : fromDefinitions crate file' = .ok g') :
    g.ns = g'.ns ∧ ∀ i, i ∈ g.items ↔ i ∈ g'.items := by
  have hk : ∀ n t, Known crate file n t ↔ Known crate file' n t := fun n t =>
    ⟨Known.mono fun d hd => (hs d).1 hd, Known.mono fun d hd => (hs d).2 hd⟩
  obtain ⟨ha, hsay⟩ := C67_says crate file g h
  obtain ⟨ha', hsay'⟩ := C67_says crate file' g' h'
  have hns : g.ns = g'.ns := by
    obtain ⟨before, doc, as, ms, after, he, -⟩ := ha.found
    obtain ⟨is, hg⟩ := ha'.items (.namespace_ doc as g.ns ms) ((hs _).1 (by simp [he]))
    generalize g.ns = a, g'.ns = b at hg
    cases hg
    rfl
  refine ⟨hns, fun i => ?_⟩
  simp only [fromDefinitions, bind_ok, ok_ok] at h
  obtain ⟨ns', hn, types, ht, items, hi, rfl⟩ := h
  have H := findTypes_right ht
  have H' : Right crate types file' := fun n t => (H n t).trans (hk n t)
  rw [hsay.items, hsay'.items, ← hns]
  constructor
  · rintro (⟨d, hd, is, hg, hm⟩ | ⟨m, n, b, rfl, h⟩)
    · exact .inl ⟨d, (hs d).1 hd, is, (processDef_ok H').1 ((processDef_ok H).2 hg), hm⟩
    · exact .inr ⟨m, n, b, rfl, (hk _ _).1 h⟩
  · rintro (⟨d, hd, is, hg, hm⟩ | ⟨m, n, b, rfl, h⟩)
    · exact .inl ⟨d, (hs d).2 hd, is, (processDef_ok H).1 ((processDef_ok H').2 hg), hm⟩
    · exact .inr ⟨m, n, b, rfl, (hk _ _).2 h⟩

/-- Reading a file panics only when a constructor names an error type the file does not define. -/
theorem C67_panic (crate : String) (file : List Def)
    (h : fromDefinitions crate file = .error .panic) :
    ∃ doc as n inh ms c e, .interface doc as n inh ms ∈ file ∧ ¬EnumLike as ∧ .ctor c ∈ ms ∧
      Allowed onConstructor c.attrs ∧ FirstIs c.attrs "Throws" e ∧ ∀ t, ¬Known crate file e t := by
  unfold fromDefinitions at h
  rcases panic_bind.1 h with h | ⟨ns, -, h⟩
  · exact absurd h findNamespace_calm
  · rcases panic_bind.1 h with h | ⟨types, ht, h⟩
    · exact absurd h findTypes_calm
    · have H := findTypes_right ht
      rcases panic_bind.1 h with h | ⟨_, -, h⟩
      · obtain ⟨d, hd, hp⟩ := processAll_panic h
        obtain ⟨doc, as, n, inh, ms, c, rfl, he, hc, hp⟩ := processDef_panic hp
        obtain ⟨e, ha, hf, hg⟩ := convertCtor_panic hp
        refine ⟨doc, as, n, inh, ms, c, e, hd, he, hc, ha, hf, fun t hk => ?_⟩
        have := (H e t).2 hk
        rw [hg] at this
        simp at this
      · simp at h

/-! ### Cases -/

deriving instance DecidableEq for UGroup
deriving instance DecidableEq for Except

namespace Case

def id (n : String) : WTy := .identifier n false
def fn (n : String) (attrs : Attrs) (args : List WArg) (ret : WRet) : WOp :=
  { doc := none, attrs := attrs, modifier := none, special := false, ret := ret, name := some n,
    args := args }
def variant (n : String) (args : List WArg) : WMember :=
  .op { doc := none, attrs := none, modifier := none, special := false, ret := .ty (id n),
        name := none, args := args }
def arg (n : String) (w : WTy) : WArg := .single none false false w n none
def ns (fs : List WOp) : Def := .namespace_ (some "doc") none "lib" (fs.map .op)

/-- ```
namespace lib { [Throws=Err] u64 total(sequence<Item> items, optional Level level = "low"); };
[Error] enum Err { "Bad" };
enum Level { "low", "high" };
[Custom] typedef string Url;
dictionary Item { Url? link = null; u32 n; };
[Traits=(Eq)] interface Shop { [Name=open] constructor([ByRef] Item i); [Async] string name(); };
callback interface Log { void write(string s); void flush(); };
``` -/
def file : List Def :=
  [ns [fn "total" (some [.ident "Throws" false "Err"])
      [arg "items" (.sequence (id "Item") false),
       .single none true false (id "Level") "level" (some (.string "low"))] (.ty (id "u64"))],
   .enum_ none (some [.noArgs "Error"]) "Err" [(none, "Bad")],
   .enum_ none none "Level" [(none, "low"), (none, "high")],
   .typedef (some [.noArgs "Custom"]) false (id "string") "Url",
   .dictionary none none "Item" false
     [{ doc := none, attrs := none, required := false, ty := .identifier "Url" true, name := "link",
        default := some .null },
      { doc := none, attrs := none, required := false, ty := id "u32", name := "n",
        default := none }],
   .interface none (some [.identList "Traits" ["Eq"]]) "Shop" false
     [.ctor { doc := none, attrs := some [.ident "Name" false "open"],
              args := [.single (some [.noArgs "ByRef"]) false false (id "Item") "i" none] },
      .op (fn "name" (some [.noArgs "Async"]) [] (.ty (id "string")))],
   .callback none none "Log" false
     [.op (fn "write" none [arg "s" (id "string")] (.ty (id "void"))),
      .op (fn "flush" none [] .undefined)]]

/-- A callable of the items below. -/
def ufn (n : String) (a : Bool) (ins : List UArg) (ret throws : Option MTy) : UFn :=
  { modulePath := "c", name := n, isAsync := a, inputs := ins, ret := ret, throws := throws,
    byArc := false, doc := none }

/-- The file above is accepted and gives what is written. -/
example : fromDefinitions "c" file = .ok
    { crate := "c", ns := "lib", doc := some "doc",
      items :=
        [.func (ufn "total" false
          [{ name := "items", ty := .sequence (.record "c" "Item"), passBy := .value,
             optional := false, default := none },
           { name := "level", ty := .enum "c" "Level", passBy := .value, optional := true,
             default := some (.variant "low" (.enum "c" "Level")) }]
          (some .uint64) (some (.enum "c" "Err"))),
         .enum "c" "Err" (.error true) false [{ name := "Bad", fields := [], doc := none }] false
           none,
         .enum "c" "Level" .enum false
           [{ name := "low", fields := [], doc := none }, { name := "high", fields := [], doc := none }]
           false none,
         .record "c" "Item" false
           [{ name := "link", ty := .optional (.custom "c" "Url" .string),
              default := some (.plain .optNone), doc := none },
            { name := "n", ty := .uint32, default := none, doc := none }] none,
         .constructor "Shop" (ufn "open" false
           [{ name := "i", ty := .record "c" "Item", passBy := .ref, optional := false,
              default := none }] none none),
         .method "Shop" (ufn "name" true [] (some .string) none),
         .uniffiTrait "Shop" (.eq
           (builtinMethod "c" "uniffi_trait_eq_eq" [comparedWith (.object "c" "Shop" .struct)]
             .boolean)
           (builtinMethod "c" "uniffi_trait_eq_ne" [comparedWith (.object "c" "Shop" .struct)]
             .boolean)),
         .object "c" "Shop" false .struct none,
         .traitMethod "Log" 0 (ufn "write" false
           [{ name := "s", ty := .string, passBy := .value, optional := false, default := none }]
           none none),
         .traitMethod "Log" 1 (ufn "flush" false [] none none),
         .callback "c" "Log" none,
         .custom "c" "Url" .string] } := by decide +kernel

/-- Hence the hypothesis of `C67_unambiguous` holds for it. -/
example : ∃ n, Accepted "c" file n := by
  refine (C67_accepts "c" file).1 ?_
  have : (fromDefinitions "c" file).isOk = true := by decide +kernel
  cases h : fromDefinitions "c" file with
  | ok g => exact ⟨g, rfl⟩
  | error e => simp [h, Except.isOk, Except.toBool] at this

/-- The reversed file is accepted too, as `C67_order` requires. -/
example : (fromDefinitions "c" file.reverse).isOk = true := by decide +kernel

end Case

open Case

/-- The order does matter for acceptance: a custom type must follow the types it is made from. -/
theorem C67_custom_order :
    (fromDefinitions "c" [ns [], .enum_ none none "E" [(none, "a")],
      .typedef (some [.noArgs "Custom"]) false (id "E") "T"]).isOk = true ∧
    fromDefinitions "c" [ns [], .typedef (some [.noArgs "Custom"]) false (id "E") "T",
      .enum_ none none "E" [(none, "a")]] = bail := by decide +kernel

/-- An unknown error type is an error for a method and a panic for a constructor. -/
theorem C67_panics :
    fromDefinitions "c" [ns [], .interface none none "A" false
      [.op (fn "f" (some [.ident "Throws" false "Err"]) [] .undefined)]] = .error .error ∧
    fromDefinitions "c" [ns [], .interface none none "A" false
      [.ctor { doc := none, attrs := some [.ident "Throws" false "Err"], args := [] }]] =
        .error .panic := by decide +kernel

/-- The traits of a plain enum are accepted, even traits that do not exist, and forgotten. -/
theorem C67_enum_traits_dropped :
    fromDefinitions "c"
      [ns [], .enum_ none (some [.identList "Traits" ["Display", "Nonsense"]]) "E" [(none, "a")]] =
    fromDefinitions "c" [ns [], .enum_ none none "E" [(none, "a")]] := by decide +kernel

/-- With two error types the second is ignored, even if it does not exist. -/
theorem C67_second_throws_ignored :
    fromDefinitions "c"
      [ns [fn "f" (some [.ident "Throws" false "E", .ident "Throws" false "Nonsense"]) [] .undefined],
        .enum_ none (some [.noArgs "Error"]) "E" [(none, "a")]] =
    fromDefinitions "c"
      [ns [fn "f" (some [.ident "Throws" false "E"]) [] .undefined],
        .enum_ none (some [.noArgs "Error"]) "E" [(none, "a")]] := by decide +kernel

/-- A function may throw a type that is not an error. -/
theorem C67_throws_any_type :
    (fromDefinitions "c"
      [ns [fn "f" (some [.ident "Throws" false "R"]) [] .undefined],
        .dictionary none none "R" false []]).isOk = true := by decide +kernel

/-- A second namespace block without documentation removes the documentation of the first. -/
theorem C67_doc_lost :
    (fromDefinitions "c" [ns [], .namespace_ none none "lib" []]) =
      .ok { crate := "c", ns := "lib", doc := none, items := [] } := by decide +kernel

/-- A type that has the name of a built-in type can be defined, but not used. -/
theorem C67_builtin_shadows :
    fromDefinitions "c" [ns [fn "f" none [] (.ty (id "duration"))],
      .dictionary none none "duration" false []] =
    .ok { crate := "c", ns := "lib", doc := some "doc",
          items := [.func (ufn "f" false [] (some .duration) none),
            .record "c" "duration" false [] none] } := by decide +kernel

/-- A function written twice is one function; two functions of one name are both kept. -/
theorem C67_same_name_functions :
    fromDefinitions "c" [ns [fn "f" none [] .undefined, fn "f" none [] .undefined,
      fn "f" none [arg "a" (id "u8")] .undefined]] =
    .ok { crate := "c", ns := "lib", doc := some "doc",
          items := [.func (ufn "f" false [] none none),
            .func (ufn "f" false
              [{ name := "a", ty := .uint8, passBy := .value, optional := false, default := none }]
              none none)] } := by decide +kernel

/-- Two methods of one name are refused in an interface, but not in a callback interface. -/
theorem C67_same_name_callbacks :
    (fromDefinitions "c" [ns [], .callback none none "A" false
      [.op (fn "f" none [] .undefined), .op (fn "f" none [] .undefined)]]).isOk = true ∧
    fromDefinitions "c" [ns [], .interface none none "A" false
      [.op (fn "f" none [] .undefined), .op (fn "f" none [] .undefined)]] = bail := by
  decide +kernel

/-- Attributes, `static` and the question mark of a variant are ignored. -/
theorem C67_variant_marks_ignored :
    fromDefinitions "c" [ns [], .interface none (some [.noArgs "Enum"]) "E" false
      [.op { doc := none, attrs := some [.noArgs "Nonsense"], modifier := some .static,
             special := false, ret := .ty (.identifier "V" true), name := none, args := [] }]] =
    fromDefinitions "c" [ns [], .interface none (some [.noArgs "Enum"]) "E" false
      [variant "V" []]] := by decide +kernel

/-- `[Enum, Error]` is refused, `[Enum, Error, Remote]` is accepted as an error. -/
theorem C67_enum_and_error :
    fromDefinitions "c" [ns [], .interface none (some [.noArgs "Enum", .noArgs "Error"]) "E" false
      [variant "V" []]] = bail ∧
    fromDefinitions "c" [ns [], .interface none
      (some [.noArgs "Enum", .noArgs "Error", .noArgs "Remote"]) "E" false [variant "V" []]] =
    .ok { crate := "c", ns := "lib", doc := some "doc",
          items := [.enum "c" "E" (.error false) true [{ name := "V", fields := [], doc := none }]
            false none] } := by decide +kernel

end Verif.Props.Udl
