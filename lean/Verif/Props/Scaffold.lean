import Verif.Udl.ScaffoldServed
import Verif.Udl.ScaffoldOrder
/-
C68: the Rust code generated from an interface definition file exports what the bindings look up.
-/
namespace Verif.Props.Scaffold
open Verif Verif.Meta Verif.Udl Verif.Udl.File Verif.Abi Verif.Props.Udl

/-! ### What is known of a file that was read -/

theorem fits_id {e x : Entry} (h : Fits id id e x) : e = x := by
  cases h with
  | call h =>
    obtain ⟨h1, h2⟩ := h
    rename_i s a b
    cases a; cases b
    simp_all
  | init h => simp_all
  | checksum => rfl

/-- Trait interfaces have no constructors. -/
theorem ctor_struct {crate : String} {file : List Def} {g : UGroup}
    (h : fromDefinitions crate file = .ok g) (n : String) (f : UFn) (m : String) (r : Bool)
    (k : TraitKind) (d : Option String) (hc : .constructor n f ∈ g.items) :
    .object m n r (.trait k) d ∉ g.items := by
  intro ho
  obtain ⟨hacc, hsays⟩ := C67_says crate file g h
  rcases (hsays.items _).1 ho with ⟨d1, hd1, is1, hg1, hi1⟩ | ⟨_, _, _, h, _⟩
  · have k1 := gives_owner hg1 hi1 rfl
    rcases (hsays.items _).1 hc with ⟨d2, hd2, is2, hg2, hi2⟩ | ⟨_, _, _, h, _⟩
    · have k2 : Introduces crate file d2 n (.object crate n .struct) := by
        cases hg2 with
        | namespace_ h => obtain ⟨f, hf, h⟩ := List.mem_map.1 hi2; cases h
        | enum_ => simp at hi2
        | dictionary _ _ _ h =>
          rcases List.mem_append.1 hi2 with hi | hi
          · obtain ⟨x, _, hx⟩ := each_right h _ hi; cases hx
          · simp at hi
        | enumInterface he _ _ _ _ _ h =>
          rcases List.mem_append.1 hi2 with hi | hi
          · obtain ⟨x, _, hx⟩ := each_right h _ hi; cases hx
          · simp at hi
        | object he _ hi' _ hm _ _ h =>
          rcases List.mem_append.1 hi2 with hi | hi
          · rcases List.mem_append.1 hi with hi | hi
            · obtain ⟨x, _, hx⟩ := each_right hm _ hi
              cases hx with | ctor _ hs => subst hs; exact .object he hi'
            · obtain ⟨x, _, hx⟩ := each_right h _ hi; cases hx
          · simp at hi
        | callback h =>
          rcases List.mem_append.1 hi2 with hi | hi
          · obtain ⟨x, _, hx⟩ := each_right h _ hi; cases hx
          · simp at hi
        | typedef => simp at hi2
      have := (C67_unambiguous crate file g.ns hacc).1 n _ _ (.mk hd1 k1) (.mk hd2 k2)
      simp at this
    · cases h
  · cases h

/-- A built-in trait is the one of the type with its name. -/
theorem trait_of {crate : String} {file : List Def} {g : UGroup}
    (h : fromDefinitions crate file = .ok g) {i : UItem} (hi : i ∈ g.items) {n : String} {ty : MTy}
    (ho : ownerType i = some (n, ty)) {t : UTrait} (ht : .uniffiTrait n t ∈ g.items) :
    ∃ nm, TraitIs crate n ty nm (.uniffiTrait n t) := by
  obtain ⟨hacc, hsays⟩ := C67_says crate file g h
  rcases (hsays.items _).1 ht with ⟨d1, hd1, is1, hg1, hi1⟩ | ⟨_, _, _, h, _⟩
  · obtain ⟨ty', nm, k1, hx⟩ := gives_trait hg1 hi1
    rcases (hsays.items _).1 hi with ⟨d2, hd2, is2, hg2, hi2⟩ | ⟨_, _, _, rfl, _⟩
    · have k2 := gives_owner hg2 hi2 ho
      have := (C67_unambiguous crate file g.ns hacc).1 n _ _ (.mk hd1 k1) (.mk hd2 k2)
      subst this
      exact ⟨nm, hx⟩
    · simp [ownerType] at ho
  · cases h

theorem scaffolding_some {hash : Hashed → UInt16} {g : UGroup} {es : List Entry}
    (h : scaffolding hash g = some es) :
    ∃ errors, errorNames g.items = some errors ∧
      es = g.items.flatMap (exportItem g.crate errors g.items) ++
        g.items.flatMap (exportChecksums g.crate hash g.items) := by
  simp only [scaffolding, Option.map_eq_some_iff] at h
  obtain ⟨errors, h1, h2⟩ := h
  exact ⟨errors, h1, h2.symm⟩

section
variable {G : Gen} {crate : String} {w wr : CTy → CTy} {Ok : UArg → Prop}
  {file : List Def} {g : UGroup} {hash : Hashed → UInt16} {es : List Entry}

theorem calls_of (hs : GenSound G crate w wr Ok)
    (h : fromDefinitions crate file = .ok g) (he : scaffolding hash g = some es)
    (ho : ∀ i ∈ g.items, ∀ f, CallableOf i f → ∀ a ∈ f.inputs, Ok a) :
    ∀ i ∈ g.items, ∀ e ∈ G.calls g.items i, ∃ x ∈ es, Fits w wr e x := by
  intro i hi e hc
  obtain ⟨errors, h1, rfl⟩ := scaffolding_some he
  have hsays := (C67_says crate file g h).2
  obtain ⟨x, hx, hf⟩ := served_calls (errors := errors) hs (says_inCrate hsays) (ctor_struct h) ho hi hc
  refine ⟨x, List.mem_append.2 (.inl (List.mem_flatMap.2 ⟨i, hi, ?_⟩)), hf⟩
  rw [hsays.inCrate]; exact hx

theorem helpers_of (hs : GenSound G crate w wr Ok) (hok : ∀ a, ¬BorrowedBytes a → Ok a)
    (h : fromDefinitions crate file = .ok g) (he : scaffolding hash g = some es) :
    ∀ i ∈ g.items, ∀ n ty, ownerType i = some (n, ty) → ∀ t, .uniffiTrait n t ∈ g.items →
      ¬Unserved g.items i t → ∀ e ∈ G.helpers n ty t, ∃ x ∈ es, Fits w wr e x := by
  intro i hi n ty hty t ht hu e hc
  obtain ⟨errors, h1, rfl⟩ := scaffolding_some he
  have hsays := (C67_says crate file g h).2
  obtain ⟨nm, hx⟩ := trait_of h hi hty ht
  obtain ⟨x, hx, hf⟩ := served_helpers hs hok h1 hty hx ht hu hc
  refine ⟨x, List.mem_append.2 (.inl (List.mem_flatMap.2 ⟨i, hi, ?_⟩)), hf⟩
  rw [hsays.inCrate]; exact hx

theorem tables_of (hs : TableSound G crate w) (h : fromDefinitions crate file = .ok g)
    (he : scaffolding hash g = some es)
    (ho : ∀ i ∈ g.items, ∀ f, CallableOf i f → ∀ a ∈ f.inputs, ¬BorrowedBytes a)
    (ha : ∀ n k f, .traitMethod n k f ∈ g.items → f.isAsync = false) :
    ∀ i ∈ g.items, ∀ e ∈ G.tables g.items i, ∃ x ∈ es, Fits w w e x := by
  intro i hi e hc
  obtain ⟨errors, h1, rfl⟩ := scaffolding_some he
  have hsays := (C67_says crate file g h).2
  have hin := says_inCrate hsays
  suffices hsuff : ∃ x ∈ exportItem crate errors g.items i, Fits w w e x by
    obtain ⟨x, hx, hf⟩ := hsuff
    refine ⟨x, List.mem_append.2 (.inl (List.mem_flatMap.2 ⟨i, hi, ?_⟩)), hf⟩
    rw [hsays.inCrate]; exact hx
  cases i with
  | object m n r imp d =>
    have hm : m = crate := hin _ hi
    cases imp with
    | struct => simp [Gen.tables] at hc
    | trait k =>
      simp only [Gen.tables] at hc
      split at hc
      · simp at hc
      · rename_i hk
        simp only [List.mem_singleton] at hc
        subst hc
        rw [hm, hs.lib]
        refine ⟨.init (initVtableSymbol crate n)
          (rustVtable ((objectMethods g.items n).map (methodRs n))), ?_, .init ?_⟩
        · simp [exportItem, exportObject, hk]
        · rw [List.map_map]
          refine hs.table _ _ ?_ ?_
          · simp only [List.map_map, List.map_inj_left, Function.comp]
            intro f hf
            have hf := mem_methodsOf.1 hf
            refine Prod.ext rfl (Prod.ext ?_ (retRs_ret _ _))
            simp only [methodRs, List.map_map, List.map_inj_left, Function.comp]
            intro a ha'
            rw [argRs_plain (ho _ hf f .method a ha')]
          · intro f hf
            exact ho _ (mem_methodsOf.1 hf) f .method
  | callback m n d =>
    have hm : m = crate := hin _ hi
    simp only [Gen.tables, List.mem_singleton] at hc
    subst hc
    rw [hm, hs.lib]
    refine ⟨_, List.mem_singleton.2 rfl, .init ?_⟩
    rw [List.map_map]
    refine hs.table _ _ ?_ ?_
    · simp only [List.map_map, List.map_inj_left, Function.comp]
      intro f hf
      obtain ⟨k, hf⟩ := mem_callbacks.1 hf
      refine Prod.ext (ha _ _ _ hf).symm (Prod.ext ?_ (retRs_ret _ _))
      simp only [callbackMethodRs, List.map_map, List.map_inj_left, Function.comp]
      intro a _
      rfl
    · intro f hf
      obtain ⟨k, hf⟩ := mem_callbacks.1 hf
      exact ho _ hf f .traitMethod
  | _ => simp [Gen.tables] at hc

theorem checksums_of (hl : G.lib crate = crate) (h : fromDefinitions crate file = .ok g)
    (he : scaffolding hash g = some es) :
    ∀ i ∈ g.items, ∀ e ∈ G.checksums hash g.items i, e ∈ es := by
  intro i hi e hc
  obtain ⟨errors, h1, rfl⟩ := scaffolding_some he
  have hsays := (C67_says crate file g h).2
  have hin := says_inCrate hsays
  refine List.mem_append.2 (.inr (List.mem_flatMap.2 ⟨i, hi, ?_⟩))
  rw [hsays.inCrate]
  cases i with
  | func f =>
    have hm : f.modulePath = crate := hin _ hi
    simpa [Gen.checksums, exportChecksums, hm, hl] using hc
  | object m n r imp d =>
    simp only [Gen.checksums, exportChecksums, List.mem_append, List.mem_map] at hc ⊢
    rcases hc with ⟨f, hf, rfl⟩ | ⟨f, hf, rfl⟩
    · have hm : f.modulePath = crate := hin _ (mem_methodsOf.1 hf)
      exact .inl ⟨f, hf, by rw [hm, hl]⟩
    · have hm : f.modulePath = crate := hin _ (mem_ctorsOf.1 hf)
      exact .inr ⟨f, hf, by rw [hm, hl]⟩
  | _ => simp [Gen.checksums] at hc

end

/-! ### C68 -/

/-- Python: every function, constructor and method, and the functions that clone and free handles,
are exported by the generated Rust code under the symbol and with the signature Python declares. -/
theorem C68_calls_python (ctx : Ctx) (hash : Hashed → UInt16) (crate : String) (file : List Def)
    (g : UGroup) (es : List Entry) (h : fromDefinitions crate file = .ok g)
    (he : scaffolding hash g = some es) :
    ∀ i ∈ g.items, ∀ e ∈ (python ctx crate).calls g.items i, e ∈ es := by
  intro i hi e hc
  obtain ⟨x, hx, hf⟩ := calls_of (python_sound ctx crate) h he (by simp) i hi e hc
  rw [fits_id hf]; exact hx

/-- Swift: the same. -/
theorem C68_calls_swift (hash : Hashed → UInt16) (crate : String) (file : List Def)
    (g : UGroup) (es : List Entry) (h : fromDefinitions crate file = .ok g)
    (he : scaffolding hash g = some es) :
    ∀ i ∈ g.items, ∀ e ∈ swift.calls g.items i, e ∈ es := by
  intro i hi e hc
  obtain ⟨x, hx, hf⟩ := calls_of (swift_sound crate) h he (by simp) i hi e hc
  rw [fits_id hf]; exact hx

/-- Kotlin: the same but for signs, and an unsigned byte or short returned is read as 32 bits. -/
theorem C68_calls_kotlin (hash : Hashed → UInt16) (crate : String) (file : List Def)
    (g : UGroup) (es : List Entry) (h : fromDefinitions crate file = .ok g)
    (he : scaffolding hash g = some es) :
    ∀ i ∈ g.items, ∀ e ∈ kotlin.calls g.items i, ∃ x ∈ es, Fits CTy.noSign widened e x :=
  calls_of (kotlin_sound crate) h he (by simp)

/-- Ruby: the same but for what pointers point to, in a file without references to bytes. -/
theorem C68_calls_ruby_partial (hash : Hashed → UInt16) (crate : String) (file : List Def)
    (g : UGroup) (es : List Entry) (h : fromDefinitions crate file = .ok g)
    (he : scaffolding hash g = some es)
    (hb : ∀ i ∈ g.items, ∀ f, CallableOf i f → ∀ a ∈ f.inputs, ¬BorrowedBytes a) :
    ∀ i ∈ g.items, ∀ e ∈ ruby.calls g.items i, ∃ x ∈ es, Fits CTy.noPointee CTy.noPointee e x :=
  calls_of (ruby_sound crate) h he hb

/-- The methods of built-in traits are exported as Python declares them, unless the trait is one of a
trait interface, of an enum used as an error, or is `Display` of an enum without `Debug`. -/
theorem C68_builtin_python_partial (ctx : Ctx) (hash : Hashed → UInt16) (crate : String)
    (file : List Def) (g : UGroup) (es : List Entry) (h : fromDefinitions crate file = .ok g)
    (he : scaffolding hash g = some es) :
    ∀ i ∈ g.items, ∀ n ty, ownerType i = some (n, ty) → ∀ t, .uniffiTrait n t ∈ g.items →
      ¬Unserved g.items i t → ∀ e ∈ (python ctx crate).helpers n ty t, e ∈ es := by
  intro i hi n ty hty t ht hu e hc
  obtain ⟨x, hx, hf⟩ := helpers_of (python_sound ctx crate) (by simp) h he i hi n ty hty t ht hu e hc
  rw [fits_id hf]; exact hx

/-- The same for Swift, for Kotlin and for Ruby. -/
theorem C68_builtin_others_partial (hash : Hashed → UInt16) (crate : String)
    (file : List Def) (g : UGroup) (es : List Entry) (h : fromDefinitions crate file = .ok g)
    (he : scaffolding hash g = some es) :
    ∀ i ∈ g.items, ∀ n ty, ownerType i = some (n, ty) → ∀ t, .uniffiTrait n t ∈ g.items →
      ¬Unserved g.items i t →
      (∀ e ∈ swift.helpers n ty t, e ∈ es) ∧
      (∀ e ∈ kotlin.helpers n ty t, ∃ x ∈ es, Fits CTy.noSign widened e x) ∧
      (∀ e ∈ ruby.helpers n ty t, ∃ x ∈ es, Fits CTy.noPointee CTy.noPointee e x) := by
  intro i hi n ty hty t ht hu
  refine ⟨fun e hc => ?_, helpers_of (kotlin_sound crate) (by simp) h he i hi n ty hty t ht hu,
    helpers_of (ruby_sound crate) (fun _ h => h) h he i hi n ty hty t ht hu⟩
  obtain ⟨x, hx, hf⟩ := helpers_of (swift_sound crate) (by simp) h he i hi n ty hty t ht hu e hc
  rw [fits_id hf]; exact hx

/-- The tables of callbacks Python fills in are the ones the exported functions take, in a file
without references to bytes and without async methods of callback interfaces. -/
theorem C68_tables_python_partial (ctx : Ctx) (hash : Hashed → UInt16) (crate : String)
    (file : List Def) (g : UGroup) (es : List Entry) (h : fromDefinitions crate file = .ok g)
    (he : scaffolding hash g = some es)
    (hb : ∀ i ∈ g.items, ∀ f, CallableOf i f → ∀ a ∈ f.inputs, ¬BorrowedBytes a)
    (ha : ∀ n k f, .traitMethod n k f ∈ g.items → f.isAsync = false) :
    ∀ i ∈ g.items, ∀ e ∈ (python ctx crate).tables g.items i, e ∈ es := by
  intro i hi e hc
  obtain ⟨x, hx, hf⟩ := tables_of (python_tables ctx crate) h he hb ha i hi e hc
  rw [fits_id hf]; exact hx

/-- The same for Swift, and but for signs for Kotlin. -/
theorem C68_tables_others_partial (hash : Hashed → UInt16) (crate : String)
    (file : List Def) (g : UGroup) (es : List Entry) (h : fromDefinitions crate file = .ok g)
    (he : scaffolding hash g = some es)
    (hb : ∀ i ∈ g.items, ∀ f, CallableOf i f → ∀ a ∈ f.inputs, ¬BorrowedBytes a)
    (ha : ∀ n k f, .traitMethod n k f ∈ g.items → f.isAsync = false) :
    (∀ i ∈ g.items, ∀ e ∈ swift.tables g.items i, e ∈ es) ∧
    (∀ i ∈ g.items, ∀ e ∈ kotlin.tables g.items i, ∃ x ∈ es, Fits CTy.noSign CTy.noSign e x) := by
  refine ⟨fun i hi e hc => ?_, tables_of (kotlin_tables crate) h he hb ha⟩
  obtain ⟨x, hx, hf⟩ := tables_of (swift_tables crate) h he hb ha i hi e hc
  rw [fits_id hf]; exact hx

/-- The checksums of functions, methods and constructors the bindings compare are the ones the
generated Rust code returns, whatever the function that computes them. -/
theorem C68_checksums (ctx : Ctx) (hash : Hashed → UInt16) (crate : String) (file : List Def)
    (g : UGroup) (es : List Entry) (h : fromDefinitions crate file = .ok g)
    (he : scaffolding hash g = some es) :
    ∀ i ∈ g.items, (∀ e ∈ (python ctx crate).checksums hash g.items i, e ∈ es) ∧
      (∀ e ∈ swift.checksums hash g.items i, e ∈ es) ∧
      (∀ e ∈ kotlin.checksums hash g.items i, e ∈ es) := by
  intro i hi
  exact ⟨checksums_of (G := python ctx crate) rfl h he i hi, checksums_of (G := swift) rfl h he i hi,
    checksums_of (G := kotlin) rfl h he i hi⟩

/-- The checksums of methods of callback interfaces that Swift and Kotlin compare are the ones
returned, if renaming does not change them. -/
theorem C68_callback_checksums_partial (hash : Hashed → UInt16) (rename : UFn → UFn)
    (crate : String) (file : List Def) (g : UGroup) (es : List Entry)
    (h : fromDefinitions crate file = .ok g) (he : scaffolding hash g = some es)
    (hr : ∀ n k f, .traitMethod n k f ∈ g.items →
      hash (.method n (rename f)) = hash (.method n f)) :
    ∀ i ∈ g.items, (∀ e ∈ swift.callbackChecksums hash rename g.items i, e ∈ es) ∧
      (∀ e ∈ kotlin.callbackChecksums hash rename g.items i, e ∈ es) := by
  have key : ∀ G : Gen, G.lib crate = crate → ∀ i ∈ g.items,
      ∀ e ∈ G.callbackChecksums hash rename g.items i, e ∈ es := by
    intro G hl i hi e hc
    obtain ⟨errors, h1, rfl⟩ := scaffolding_some he
    have hsays := (C67_says crate file g h).2
    have hin := says_inCrate hsays
    refine List.mem_append.2 (.inr (List.mem_flatMap.2 ⟨i, hi, ?_⟩))
    rw [hsays.inCrate]
    cases i with
    | callback m n d =>
      simp only [Gen.callbackChecksums, exportChecksums, List.mem_map] at hc ⊢
      obtain ⟨f, hf, rfl⟩ := hc
      obtain ⟨k, hk⟩ := mem_callbacks.1 hf
      have hm : f.modulePath = crate := hin _ hk
      exact ⟨f, hf, by rw [hm, hl, hr n k f hk]⟩
    | _ => simp [Gen.callbackChecksums] at hc
  exact fun i hi => ⟨key swift rfl i hi, key kotlin rfl i hi⟩

/-- A callback interface is defined once. -/
theorem callback_once {crate ns : String} {file : List Def} (hacc : Accepted crate file ns)
    {doc doc' : Option String} {as as' : Attrs} {n : String} {inh inh' : Bool}
    {ms ms' : List WMember} (h : Def.callback doc as n inh ms ∈ file)
    (h' : Def.callback doc' as' n inh' ms' ∈ file) :
    Def.callback doc as n inh ms = .callback doc' as' n inh' ms' := by
  have key : ∀ (before after : List Def) (doc doc' : Option String) (as as' : Attrs)
      (inh inh' : Bool) (ms ms' : List WMember), file = before ++ .callback doc as n inh ms :: after →
      Def.callback doc' as' n inh' ms' ∉ before := by
    intro before after doc doc' as as' inh inh' ms ms' e hm
    have := hacc.types _ _ _ e
    cases this with
    | type _ hi hk =>
      cases hi
      have := (hk _ (.mk hm .callback)).2
      simp at this
  refine Classical.byContradiction fun hne => ?_
  obtain ⟨a, b, e⟩ := List.append_of_mem h
  rw [e] at h'
  rcases List.mem_append.1 h' with h1 | h1
  · exact key _ _ _ _ _ _ _ _ _ _ e h1
  · rcases List.mem_cons.1 h1 with h1 | h1
    · exact hne h1.symm
    · obtain ⟨c, d, rfl⟩ := List.append_of_mem h1
      refine key (a ++ .callback doc as n inh ms :: c) d doc' doc as' as inh' inh ms' ms (by simp [e]) ?_
      exact List.mem_append.2 (.inr (List.mem_cons_self ..))

/-- The methods in the table of a callback interface are in the order in which they are written. -/
theorem C68_callback_order (crate : String) (file : List Def) (g : UGroup)
    (h : fromDefinitions crate file = .ok g) (doc : Option String) (as : Attrs) (n : String)
    (inh : Bool) (ms : List WMember) (hd : Def.callback doc as n inh ms ∈ file) :
    Each (fun m f => ∃ o, m = WMember.op o ∧ MethodIs crate file o f) ms
      (callbackMethods g.items n) := by
  obtain ⟨hacc, hsays⟩ := C67_says crate file g h
  obtain ⟨is, hg⟩ := hacc.items _ hd
  cases hg with
  | callback hm =>
    rename_i methods
    have hmem : ∀ i f, .traitMethod n i f ∈ g.items ↔ .traitMethod n i f ∈ methods := by
      intro i f
      rw [hsays.items]
      constructor
      · rintro (⟨d2, hd2, is2, hg2, hi⟩ | ⟨_, _, _, h, _⟩)
        · have hcb : ∃ doc' as' inh' ms', d2 = .callback doc' as' n inh' ms' := by
            cases hg2 with
            | namespace_ h => obtain ⟨f, hf, h⟩ := List.mem_map.1 hi; cases h
            | enum_ => simp at hi
            | dictionary _ _ _ h =>
              rcases List.mem_append.1 hi with hi | hi
              · obtain ⟨x, _, hx⟩ := each_right h _ hi; cases hx
              · simp at hi
            | enumInterface he _ _ _ _ _ h =>
              rcases List.mem_append.1 hi with hi | hi
              · obtain ⟨x, _, hx⟩ := each_right h _ hi; cases hx
              · simp at hi
            | object he _ hi' _ hm _ _ h =>
              rcases List.mem_append.1 hi with hi | hi
              · rcases List.mem_append.1 hi with hi | hi
                · obtain ⟨x, _, hx⟩ := each_right hm _ hi; cases hx
                · obtain ⟨x, _, hx⟩ := each_right h _ hi; cases hx
              · simp at hi
            | callback h =>
              rcases List.mem_append.1 hi with hi | hi
              · obtain ⟨x, _, hx⟩ := each_right h _ hi
                cases hx; exact ⟨_, _, _, _, rfl⟩
              · simp at hi
            | typedef => simp at hi
          obtain ⟨doc', as', inh', ms', rfl⟩ := hcb
          have e := callback_once hacc hd hd2
          rw [← e] at hg2
          have := (C67_unambiguous crate file g.ns hacc).2.2 _ _ _ hg2 (.callback hm)
          subst this
          rcases List.mem_append.1 hi with hi | hi
          · exact hi
          · simp at hi
        · cases h
      · intro hi
        exact .inl ⟨_, hd, _, .callback hm, List.mem_append.2 (.inl hi)⟩
    have hp := positions_pairwise hm
    have hl : sorted indexLe (callbacksOf g.items n) = positions methods := by
      refine strict_unique (sorted_pairwise _ (callbacksOf_pairwise n hsays.once ?_)) hp.1 ?_
      · intro i f f' h1 h2
        have k1 := (mem_positions hm).2 ((hmem i f).1 h1)
        have k2 := (mem_positions hm).2 ((hmem i f').1 h2)
        refine Classical.byContradiction fun hne => ?_
        have : ∀ (l : List (Nat × UFn)), l.Pairwise (·.1 < ·.1) → (i, f) ∈ l → (i, f') ∈ l → False := by
          intro l
          induction l with
          | nil => simp
          | cons x l ih =>
            intro hp h1 h2
            rw [List.pairwise_cons] at hp
            rcases List.mem_cons.1 h1 with rfl | h3 <;> rcases List.mem_cons.1 h2 with h4 | h4
            · simp only [Prod.mk.injEq, true_and] at h4; exact hne h4.symm
            · exact absurd (hp.1 _ h4) (by simp)
            · subst h4; exact absurd (hp.1 _ h3) (by simp)
            · exact ih hp.2 h3 h4
        exact this _ hp.1 k1 k2
      · rintro ⟨i, f⟩
        rw [mem_sorted, mem_positions hm, ← hmem]
        simp only [callbacksOf, List.mem_filterMap]
        constructor
        · rintro ⟨x, hx, h⟩
          split at h
          · split at h
            · rename_i hs
              subst hs
              simp only [Option.some.injEq, Prod.mk.injEq] at h
              obtain ⟨rfl, rfl⟩ := h
              exact hx
            · simp at h
          · simp at h
        · intro hx; exact ⟨_, hx, by simp⟩
    unfold callbackMethods
    rw [hl]
    exact positions_each hm

/-- Generating the Rust code panics exactly when the file has a callable that throws something other
than an enum, an object or a custom type made from one. -/
theorem C68_panics (hash : Hashed → UInt16) (g : UGroup) :
    scaffolding hash g = none ↔
      ∃ i ∈ g.items, ∃ f t, CallableOf i f ∧ f.throws = some t ∧ ¬Throwable t := by
  simp only [scaffolding, Option.map_eq_none_iff, errorNames_none, itemErrors_none]

/-! ### Cases -/

namespace Case
open Verif.Props.Udl.Case

/-- The symbol of an entry. -/
def symbol : Entry → String
  | .call s _ => s
  | .init s _ => s
  | .checksum s _ => s

/-- A function to compute checksums with, which looks at the name only. -/
def hash : Hashed → UInt16
  | .func f => f.name.length.toUInt16
  | .method _ f => f.name.length.toUInt16
  | .constructor _ f => f.name.length.toUInt16

/-- The context of the bindings. -/
def ctx : Ctx := ⟨"lib", fun m => m⟩

/-- What the Rust code generated from a file exports. -/
def exported (f : List Def) : Option (List Entry) :=
  (fromDefinitions "c" f).toOption.bind (scaffolding hash)

/-- The symbols Python looks up for built-in traits. -/
def traitSymbols (f : List Def) : Option (List String) :=
  (fromDefinitions "c" f).toOption.map fun g =>
    g.items.flatMap fun i =>
      match ownerType i with
      | some (n, ty) =>
        (builtinsOf g.items n).flatMap fun t => ((python ctx "c").helpers n ty t).map symbol
      | none => []

/-- How many parameters the functions in tables have. -/
def arities : List Entry → List (String × List Nat) := List.filterMap fun
  | .init s t => some (s, t.map fun c => match c with | .fn args _ => args.length | _ => 0)
  | _ => none

/-- The file of C67 is read and gives these exports, so the hypotheses of the theorems above hold for
it. -/
example : (exported file).map (·.map symbol) = some
    ["uniffi_c_fn_func_total",
     "uniffi_c_fn_clone_shop", "uniffi_c_fn_free_shop",
     "uniffi_c_fn_method_shop_uniffi_trait_eq_eq", "uniffi_c_fn_method_shop_uniffi_trait_eq_ne",
     "uniffi_c_fn_constructor_shop_open", "uniffi_c_fn_method_shop_name",
     "uniffi_c_fn_init_callback_vtable_log",
     "uniffi_c_checksum_func_total", "uniffi_c_checksum_method_shop_name",
     "uniffi_c_checksum_constructor_shop_open", "uniffi_c_checksum_method_log_write",
     "uniffi_c_checksum_method_log_flush"] := by decide +kernel

/-- Python looks up these for it. -/
example : traitSymbols file = some ["uniffi_c_fn_method_shop_uniffi_trait_eq_eq",
    "uniffi_c_fn_method_shop_uniffi_trait_eq_ne"] := by decide +kernel

/-- Its table of callbacks: free, clone, `write` and `flush`. -/
example : (exported file).map arities =
    some [("uniffi_c_fn_init_callback_vtable_log", [1, 1, 4, 3])] := by decide +kernel

/-- No argument in it is a reference to bytes and no method of a callback interface is async. -/
example : ((fromDefinitions "c" file).toOption.map fun g => g.items.all fun
    | .func f => f.inputs.all fun a => a.passBy = .value || a.ty ≠ .bytes
    | .method _ f => f.inputs.all fun a => a.passBy = .value || a.ty ≠ .bytes
    | .constructor _ f => f.inputs.all fun a => a.passBy = .value || a.ty ≠ .bytes
    | .traitMethod _ _ f =>
      (f.inputs.all fun a => a.passBy = .value || a.ty ≠ .bytes) && !f.isAsync
    | _ => true) = some true := by decide +kernel

/-- `[Trait, Traits=(Display)] interface T {};` -/
def traitFile : List Def :=
  [ns [], .interface none (some [.noArgs "Trait", .identList "Traits" ["Display"]]) "T" false []]

/-- `[Error, Traits=(Debug)] interface E { Bad(string why); };` -/
def errorFile : List Def :=
  [ns [], .interface none (some [.noArgs "Error", .identList "Traits" ["Debug"]]) "E" false
    [variant "Bad" [arg "why" (id "string")]]]

/-- `[Enum, Traits=(Display)] interface E { A(string why); };` -/
def displayFile : List Def :=
  [ns [], .interface none (some [.noArgs "Enum", .identList "Traits" ["Display"]]) "E" false
    [variant "A" [arg "why" (id "string")]]]

/-- `[Enum, Traits=(Debug)] interface E { A(string why); };` -/
def debugFile : List Def :=
  [ns [], .interface none (some [.noArgs "Enum", .identList "Traits" ["Debug"]]) "E" false
    [variant "A" [arg "why" (id "string")]]]

/-- `callback interface K { [Async] u32 get(); };` -/
def asyncFile : List Def :=
  [ns [], .callback none none "K" false
    [.op (fn "get" (some [.noArgs "Async"]) [] (.ty (id "u32")))]]

/-- `namespace lib { [Throws=R] void f(); }; dictionary R { u32 n; };` -/
def panicFile : List Def :=
  [ns [fn "f" (some [.ident "Throws" false "R"]) [] .undefined],
   .dictionary none none "R" false
    [{ doc := none, attrs := none, required := false, ty := id "u32", name := "n",
       default := none }]]

end Case

open Case

/-- The methods of built-in traits of a trait interface are looked up and not exported, so the
bindings cannot be loaded. -/
theorem C68_trait_interface_unserved :
    traitSymbols traitFile = some ["uniffi_c_fn_method_t_uniffi_trait_display"] ∧
    (exported traitFile).map (·.map symbol) =
      some ["uniffi_c_fn_clone_t", "uniffi_c_fn_free_t"] := by decide +kernel

/-- Nor are those of an enum used as an error. -/
theorem C68_error_unserved :
    traitSymbols errorFile = some ["uniffi_c_fn_method_e_uniffi_trait_debug"] ∧
    (exported errorFile).map (·.map symbol) = some [] := by decide +kernel

/-- Nor is `Display` of an enum; the template asks for `Debug` instead. -/
theorem C68_enum_display_unserved :
    traitSymbols displayFile = some ["uniffi_c_fn_method_e_uniffi_trait_display"] ∧
    (exported displayFile).map (·.map symbol) = some [] := by decide +kernel

/-- For the same reason an enum with `Debug` must also implement `Display`. -/
theorem C68_enum_debug_needs_display :
    traitSymbols debugFile = some ["uniffi_c_fn_method_e_uniffi_trait_debug"] ∧
    (exported debugFile).map (·.map symbol) =
      some ["uniffi_c_fn_method_e_uniffi_trait_debug",
        "uniffi_c_fn_method_e_uniffi_trait_display"] := by decide +kernel

/-- An async method of a callback interface has four parameters in the table Python fills in and
three in the table the generated Rust code calls. -/
theorem C68_async_callback_differs :
    (exported asyncFile).map arities =
      some [("uniffi_c_fn_init_callback_vtable_k", [1, 1, 3])] ∧
    ((fromDefinitions "c" asyncFile).toOption.map fun g =>
      arities (g.items.flatMap ((python ctx "c").tables g.items))) =
      some [("uniffi_c_fn_init_callback_vtable_k", [1, 1, 4])] := by decide +kernel

/-- A renamed method of a callback interface has another checksum than the one returned. -/
theorem C68_renamed_callback_checksum :
    ((exported asyncFile).map fun es => es.filterMap fun
      | .checksum s v => some (s, v)
      | _ => none) = some [("uniffi_c_checksum_method_k_get", 3)] ∧
    ((fromDefinitions "c" asyncFile).toOption.map fun g =>
      (g.items.flatMap (kotlin.callbackChecksums hash (fun f => { f with name := "fetch" }) g.items)).filterMap
        fun
        | .checksum s v => some (s, v)
        | _ => none) = some [("uniffi_c_checksum_method_k_get", 5)] := by decide +kernel

/-- A file that is accepted and makes the generation of Rust code panic. -/
theorem C68_throws_record_panics :
    (fromDefinitions "c" panicFile).isOk = true ∧ (exported panicFile).isNone = true := by
  decide +kernel

end Verif.Props.Scaffold
