import Verif.Export.SigLemmas
import Mathlib.Data.List.Sort

/-!
# C88: what is written in `#[uniffi::export]` is what is exported

Over any item and any arguments: which are refused, and what the others become.
-/

namespace Verif.Props.Export

open Verif.Export Verif.Export.Spec

/-! ### Functions -/

/-- Which arguments may be written on a function, in whatever order. -/
theorem C88_arguments (l : List Argument) : (∃ a, FnArgs.parse l = .ok a) ↔ FnArguments l :=
  FnArgs.parse_accepts

/-- A function is exported exactly when its arguments may be written, they fit its signature, and it has
no receiver. -/
theorem C88_function {l : List Argument} {sig : Sig} (hn : (argNames sig.inputs).Nodup) :
    (∃ c, exportFn l sig = .ok c) ↔ FnArguments l ∧ SignatureOk sig l ∧ ¬ HasReceiver sig := by
  unfold exportFn
  constructor
  · rintro ⟨c, h⟩
    obtain ⟨a, ha, h⟩ := bind_ok.1 h
    obtain ⟨s, hs, h⟩ := bind_ok.1 h
    have := SignatureSays.of_new (FnArgs.parse_rep ha) hn hs
    split at h
    · cases h
    · rename_i hr
      exact ⟨FnArgs.parse_accepts.1 ⟨a, ha⟩, this.1, fun e => hr (this.2.receiver.2 e)⟩
  · rintro ⟨h1, h2, h3⟩
    obtain ⟨a, ha⟩ := FnArgs.parse_accepts.2 h1
    have hr := FnArgs.parse_rep ha
    obtain ⟨s, hs⟩ := Verif.Export.SignatureOk.new .function hr hn h2
    have := (SignatureSays.of_new hr hn hs).2
    refine ⟨callable s a.asyncRuntime, bind_ok.2 ⟨a, ha, bind_ok.2 ⟨s, hs, ?_⟩⟩⟩
    rw [if_neg (fun e => h3 (this.receiver.1 e)), if_neg]
    rw [Bool.and_eq_true]
    rintro ⟨g1, g2⟩
    have := h2.runtime (hr.runtime_iff.1 g2)
    simp [‹SignatureSays _ _ _ _›.isAsync, this] at g1

/-- What an exported function becomes: its name is the one written, or else its own; each argument has
the default value written for it; the future is made for Tokio exactly when that is written. -/
theorem C88_function_says {l : List Argument} {sig : Sig} {c : Callable} (hn : (argNames sig.inputs).Nodup)
    (h : exportFn l sig = .ok c) :
    SignatureSays .function sig l c.sig ∧
      (Wrapped c ↔ .assign "async_runtime" "tokio" ∈ l) := by
  unfold exportFn at h
  obtain ⟨a, ha, h⟩ := bind_ok.1 h
  obtain ⟨s, hs, h⟩ := bind_ok.1 h
  have hr := FnArgs.parse_rep ha
  have := SignatureSays.of_new hr hn hs
  split at h
  · cases h
  split at h
  · cases h
  cases h
  refine ⟨this.2, ?_⟩
  rw [callable_wrapped, hr.runtime_iff, this.2.isAsync]
  exact ⟨fun h => h.2, fun h => ⟨this.1.runtime h, h⟩⟩

/-- No default value is lost when none is written twice. -/
theorem C88_defaults_partial {l : List Argument} {sig : Sig} {c : Callable} (hn : (argNames sig.inputs).Nodup)
    (h : exportFn l sig = .ok c) (hd : ((written l).map Prod.fst).Nodup) {n : String} {v : Value}
    (hw : (n, v) ∈ written l) : ∃ a ∈ c.sig.args, a.name = n ∧ a.default_ = some v := by
  have hok := ((C88_function hn).1 ⟨c, h⟩).2.1
  have hs := (C88_function_says hn h).1
  have hmem := hok.defaults _ hw
  have : ∃ ty, .named n ty ∈ afterReceiver sig.inputs := by
    rw [← argNames_after] at hmem
    have hin : ∀ is : List Input, n ∈ argNames is → ∃ ty, .named n ty ∈ is := by
      intro is
      induction is with
      | nil => intro h; cases h
      | cons i is ih =>
        intro h
        cases i with
        | named n' ty =>
          rcases List.mem_cons.1 h with rfl | h
          · exact ⟨ty, by simp⟩
          · obtain ⟨ty', h'⟩ := ih h
            exact ⟨ty', by simp [h']⟩
        | receiver ty => obtain ⟨ty', h'⟩ := ih h; exact ⟨ty', by simp [h']⟩
        | pattern ty => obtain ⟨ty', h'⟩ := ih h; exact ⟨ty', by simp [h']⟩
    exact hin _ hmem
  obtain ⟨ty, hi⟩ := this
  obtain ⟨a, ha, hsays⟩ := forall₂_left hs.args hi
  have he := hsays.input
  cases a
  simp only [Input.named.injEq] at he
  obtain ⟨rfl, rfl⟩ := he
  exact ⟨_, ha, rfl, by rw [hsays.default_]; exact lastFor_of_mem hd hw⟩

/-- An argument without a written default has none. -/
theorem C88_no_default {l : List Argument} {sig : Sig} {c : Callable} (hn : (argNames sig.inputs).Nodup)
    (h : exportFn l sig = .ok c) {a : NamedArg} (ha : a ∈ c.sig.args) {v : Value} (hv : a.default_ = some v) :
    (a.name, v) ∈ written l := by
  obtain ⟨i, _, hi⟩ := forall₂_right (C88_function_says hn h).1.args ha
  exact mem_of_lastFor (hi.default_ ▸ hv)

/-- A function with a name, default values and a runtime, and what it becomes. -/
def fetch : Sig :=
  { ident := "fetch", isAsync := true
    inputs := [.named "url" (.name ["String"]), .named "tries" (.name ["u32"]), .named "body" (.ref false (.slice (.name ["u8"])))]
    output := some (.app (.name ["Vec"]) (.name ["u8"])) }

def fetchArgs : List Argument :=
  [.defaults [⟨"tries", some "3"⟩, ⟨"body", none⟩] false, .assign "name" "get", .assign "async_runtime" "tokio"]

example : (argNames fetch.inputs).Nodup ∧ ((written fetchArgs).map Prod.fst).Nodup ∧
    exportFn fetchArgs fetch = .ok ⟨{
      kind := .function, ident := "fetch", name := "get", isAsync := true, asyncRuntime := some .tokio, receiver := none
      args := [⟨"url", .name ["String"], .value, none⟩, ⟨"tries", .name ["u32"], .value, some (.given "3")⟩,
        ⟨"body", .ref false (.slice (.name ["u8"])), .ref, some .implicit⟩]
      returnTy := .app (.name ["Vec"]) (.name ["u8"]) }, some .tokio⟩ := by decide +kernel

example : (Value.implicit) ∈ (written fetchArgs).map Prod.snd := by decide +kernel

/-- What is refused on a function. -/
example :
    exportFn [.assign "name" "a", .assign "name" "b"] fetch = .error .redundant ∧
    exportFn [.word "foreign"] fetch = .error .unknownArgument ∧
    exportFn [.assign "async_runtime" "smol"] fetch = .error .unknownRuntime ∧
    exportFn [.defaults [⟨"times", some "3"⟩] false] fetch = .error .unknownDefault ∧
    exportFn [.assign "async_runtime" "tokio"] { fetch with isAsync := false } = .error .notAsync ∧
    exportFn [] { ident := "f", isAsync := true, inputs := [.named "b" mutBytes] } = .error .mutBytesAsync ∧
    exportFn [] { ident := "f", inputs := [.receiver (.ref false (.name ["Self"]))] } = .error .selfParam := by
  decide +kernel

/-- A default value written twice for an argument is taken without an error: the first is lost. -/
theorem C88_default_twice_broken :
    ∃ c, exportFn [.defaults [⟨"tries", some "3"⟩, ⟨"tries", some "4"⟩] false] fetch = .ok c ∧
      ∀ a ∈ c.sig.args, a.default_ ≠ some (.given "3") := by
  exact ⟨_, rfl, by decide +kernel⟩

/-- `default(url, tries = 3)` is refused, `default(tries = 3, url)` is not; nor is a comma allowed after
a name alone. -/
theorem C88_default_bare_broken :
    exportFn [.defaults [⟨"url", none⟩, ⟨"tries", some "3"⟩] false] fetch = .error .badDefault ∧
    exportFn [.defaults [⟨"url", none⟩] true] fetch = .error .badDefault ∧
    ∃ c, exportFn [.defaults [⟨"tries", some "3"⟩, ⟨"url", none⟩] false] fetch = .ok c := by
  exact ⟨by decide +kernel, by decide +kernel, _, rfl⟩

/-! ### Methods and constructors -/

/-- Which attributes of a method are taken and what they say: it is a constructor when one of them says
so, and the arguments are those of the last. -/
theorem C88_attributes (l : List Attribute) (r : FnAttributes) :
    FnAttributes.parse l = .ok r ↔ AttributesOk l ∧ (r.constructor_ = true ↔ SaysConstructor l) ∧
      FnArgs.parse (lastArguments l) = .ok r.args :=
  FnAttributes.parse_ok

/-- A method with one attribute of UniFFI, written out: everything it says is taken, or it is refused. -/
theorem C88_attribute_partial {pre post : List Attribute} {kind : String} {args : List Argument}
    (hpre : uniffiOnes pre = []) (hpost : uniffiOnes post = []) :
    (∀ r, FnAttributes.parse (pre ++ .plain ⟨["uniffi", kind], .list args⟩ :: post) = .ok r ↔
      (kind = "constructor" ∧ r.constructor_ = true ∨ kind = "method" ∧ r.constructor_ = false) ∧
        FnArgs.parse args = .ok r.args) := by
  have happ : ∀ a b, lookedAt (a ++ b) = lookedAt a ++ lookedAt b := by
    intro a b
    induction a with
    | nil => rfl
    | cons x a ih =>
      rw [List.cons_append]
      cases x with
      | plain m => simp [lookedAt, ih]
      | cfgAttr n => cases n <;> simp [lookedAt, ih]
  have hu : uniffiOnes (pre ++ .plain ⟨["uniffi", kind], .list args⟩ :: post) = [⟨["uniffi", kind], .list args⟩] := by
    unfold uniffiOnes at *
    rw [happ, List.filter_append, hpre, lookedAt, List.filter_cons_of_pos (by simp), hpost]
    rfl
  intro r
  rw [FnAttributes.parse_eq, hu, foldlM_cons_ok]
  simp only [foldlM_nil_ok]
  constructor
  · rintro ⟨b, hb, rfl⟩
    rw [processPath_ok rfl] at hb
    obtain ⟨_, h2, h3⟩ := hb
    simp only [List.cons.injEq, true_and, and_true] at h2
    exact ⟨h2, h3⟩
  · rintro ⟨h2, h3⟩
    refine ⟨r, (processPath_ok rfl).2 ⟨rfl, ?_, h3⟩, rfl⟩
    simpa only [List.cons.injEq, true_and, and_true] using h2

/-- `C88_attribute_partial`: a constructor with documentation and another attribute around. -/
example : uniffiOnes [.plain ⟨["doc"], .nameValue⟩, .cfgAttr (some [⟨["unix"], .path⟩, ⟨["inline"], .path⟩])] = [] ∧
    FnAttributes.parse ([.plain ⟨["doc"], .nameValue⟩] ++
      .plain ⟨["uniffi", "constructor"], .list [.assign "name" "open"]⟩ :: [.plain ⟨["inline"], .path⟩]) =
      .ok ⟨true, { name := some "open" }⟩ := by decide +kernel

/-- With two attributes the arguments of the first are lost. -/
theorem C88_two_attributes_broken :
    FnAttributes.parse [.plain ⟨["uniffi", "method"], .list [.assign "name" "open"]⟩,
      .plain ⟨["uniffi", "method"], .list [.defaults [⟨"path", some "\"\""⟩] false]⟩] =
      .ok ⟨false, { defaults := [("path", .given "\"\"")] }⟩ := by decide +kernel

/-- A member that is said to be a method and a constructor is refused in one order only. -/
theorem C88_confused_broken :
    FnAttributes.parse [.plain ⟨["uniffi", "constructor"], .path⟩, .plain ⟨["uniffi", "method"], .path⟩] =
      .error .confused ∧
    FnAttributes.parse [.plain ⟨["uniffi", "method"], .path⟩, .plain ⟨["uniffi", "constructor"], .path⟩] =
      .ok ⟨true, {}⟩ := by decide +kernel

/-- Under `cfg_attr` an attribute with arguments is passed over, and one without is taken whatever the
condition is. -/
theorem C88_cfg_attr_broken :
    FnAttributes.parse [.cfgAttr (some [⟨["unix"], .path⟩, ⟨["uniffi", "constructor"], .list [.assign "name" "open"]⟩])] =
      .ok {} ∧
    FnAttributes.parse [.cfgAttr (some [⟨["not_set"], .path⟩, ⟨["uniffi", "constructor"], .path⟩])] =
      .ok ⟨true, {}⟩ := by decide +kernel

/-! ### `impl` blocks -/

/-- The members of a block with `Self` replaced by its type. -/
def membersOf (block : ImplBlock) : List Member := block.members.map (Member.rewriteSelf block.selfTy)

theorem exists_async {self fs : String} {ms : List Member} {sigs : List FnSignature}
    (hd : ∀ m ∈ ms, DistinctArgs m) (h : List.Forall₂ (fun m s => implItem self fs m = .ok s) ms sigs) :
    sigs.any (fun s => s.isAsync) = true ↔ ∃ m ∈ ms, AsyncMember m := by
  have hone : ∀ m s, DistinctArgs m → implItem self fs m = .ok s → (s.isAsync = true ↔ AsyncMember m) := by
    intro m s hm hs
    cases m with
    | other => cases hs
    | fn attrs sig b =>
      obtain ⟨_, _, h1, h2⟩ := implItem_ok hm hs
      by_cases hc : SaysConstructor attrs
      · rw [(h1 hc).isAsync]; rfl
      · rw [(h2 hc).isAsync]; rfl
  rw [List.any_eq_true]
  constructor
  · rintro ⟨s, hs, ha⟩
    obtain ⟨m, hm, hi⟩ := forall₂_right h hs
    exact ⟨m, hm, (hone m s (hd m hm) hi).1 ha⟩
  · rintro ⟨m, hm, ha⟩
    obtain ⟨s, hs, hi⟩ := forall₂_left h hm
    exact ⟨s, hs, (hone m s (hd m hm) hi).2 ha⟩

theorem member_scaffolding {self fs : String} {attrs : List Attribute} {sig : Sig} {b : Bool} {s : FnSignature}
    {br : Option Runtime} (hn : (argNames sig.inputs).Nodup) (hi : implItem self fs (.fn attrs sig b) = .ok s) :
    (∃ c, implScaffolding br s = .ok c) ↔ (SaysConstructor attrs ↔ ¬ HasReceiver sig) := by
  obtain ⟨_, _, h1, h2⟩ := implItem_ok hn hi
  simp only [implScaffolding_ok, exists_eq_left]
  by_cases hc : SaysConstructor attrs
  · have := h1 hc
    rw [this.receiver, this.kind]
    simp [hc]
  · have := h2 hc
    rw [this.receiver, this.kind]
    simp [hc]

/-- An `impl` block is exported exactly when what is written may be written: the arguments, a plain type
without generics, functions only, each with attributes and a signature that fit, constructors without a
receiver and methods with one, and a runtime only if something is async. -/
theorem C88_impl {args : List Argument} {block : ImplBlock} (hd : ∀ m ∈ membersOf block, DistinctArgs m) :
    (∃ e, exportImpl args block = .ok e) ↔ ImplOk args block (membersOf block) := by
  unfold exportImpl
  constructor
  · rintro ⟨e, h⟩
    obtain ⟨a, ha, h⟩ := bind_ok.1 h
    obtain ⟨f, hf, hnd, rfl⟩ := implArgs_ok.1 ha
    have hr := FnArgs.parse_rep hf
    split at h
    · cases h
    rename_i hg
    obtain ⟨self, hself, h⟩ := bind_ok.1 h
    obtain ⟨sigs, hsigs, h⟩ := bind_ok.1 h
    rw [mapM_ok] at hsigs
    split at h
    · cases h
    rename_i hasync
    obtain ⟨items, hitems, h⟩ := bind_ok.1 h
    rw [mapM_ok] at hitems
    refine ⟨hr.args, hnd, by simpa using hg, ?_, ?_, ?_⟩
    · unfold selfIdent at hself
      split at hself
      · rename_i s hs; exact ⟨s, hs⟩
      · cases hself
    · intro m hm
      obtain ⟨s, hs, hi⟩ := forall₂_left hsigs hm
      obtain ⟨c, _, hc⟩ := forall₂_left hitems hs
      cases m with
      | other => cases hi
      | fn attrs sig b =>
        obtain ⟨ho, hso, _⟩ := implItem_ok (hd _ hm) hi
        exact ⟨ho, hso, (member_scaffolding (hd _ hm) hi).1 ⟨c, hc⟩⟩
    · intro hrt
      apply (exists_async hd hsigs).1
      have : f.asyncRuntime.isSome = true := hr.runtime_iff.2 hrt
      cases hx : sigs.any (fun s => s.isAsync) with
      | true => rfl
      | false => simp [this, hx] at hasync
  · rintro ⟨h1, hnd, h3, ⟨self, h4⟩, h5, h6⟩
    obtain ⟨f, hf⟩ := FnArgs.parse_accepts.2 h1
    have hr := FnArgs.parse_rep hf
    obtain ⟨sigs, hsigs⟩ := forall₂_exists (l := membersOf block)
      (R := fun m s => implItem self (f.name.getD self) m = .ok s)
      (by
        intro m hm
        have := h5 m hm
        cases m with
        | other => exact absurd this (by simp [MemberOk])
        | fn attrs sig b => exact implItem_exists (hd _ hm) this.1 this.2.1)
    obtain ⟨items, hitems⟩ := forall₂_exists (l := sigs)
      (R := fun s c => implScaffolding f.asyncRuntime s = .ok c)
      (by
        intro s hs
        obtain ⟨m, hm, hi⟩ := forall₂_right hsigs hs
        have := h5 m hm
        cases m with
        | other => cases hi
        | fn attrs sig b => exact (member_scaffolding (hd _ hm) hi).2 this.2.2)
    refine ⟨⟨items, block.trait_.map (fun t => (self, t.2))⟩, bind_ok.2 ⟨_, implArgs_ok.2 ⟨f, hf, hnd, rfl⟩, ?_⟩⟩
    rw [if_neg (by simp [h3])]
    refine bind_ok.2 ⟨self, by simp [selfIdent, h4], bind_ok.2 ⟨sigs, mapM_ok.2 hsigs, ?_⟩⟩
    rw [if_neg]
    · exact bind_ok.2 ⟨items, mapM_ok.2 hitems, rfl⟩
    · rw [Bool.and_eq_true]
      rintro ⟨g1, g2⟩
      have := (exists_async hd hsigs).2 (h6 (hr.runtime_iff.1 g1))
      simp [this] at g2

theorem items_say {args : List Argument} {f : FnArgs} {self : String} (hr : FnRep args f) {ms : List Member}
    {sigs : List FnSignature} {items : List Callable} (hd : ∀ m ∈ ms, DistinctArgs m)
    (hsigs : List.Forall₂ (fun m s => implItem self (f.name.getD self) m = .ok s) ms sigs)
    (hitems : List.Forall₂ (fun s c => implScaffolding f.asyncRuntime s = .ok c) sigs items) :
    List.Forall₂ (MemberSays args self) ms items := by
  induction hsigs generalizing items with
  | nil => cases hitems; exact .nil
  | @cons m s ms ss hi _ ih =>
    cases hitems with
    | @cons _ c _ cs hc hrest =>
      refine .cons ?_ (ih (fun x hx => hd x (by simp [hx])) hrest)
      have hm := hd m (by simp)
      cases m with
      | other => cases hi
      | fn attrs sig b =>
        obtain ⟨ho, hso, h1, h2⟩ := implItem_ok hm hi
        obtain ⟨rfl, _⟩ := implScaffolding_ok.1 hc
        refine ⟨attrs, sig, b, rfl, ⟨f.name.getD self, hr.name_of self, h1, h2⟩, ?_⟩
        have key : ∀ kind, SignatureSays kind sig (lastArguments attrs) s →
            (Wrapped (callable s (s.asyncRuntime.or f.asyncRuntime)) ↔ sig.isAsync = true ∧
              (.assign "async_runtime" "tokio" ∈ lastArguments attrs ∨ .assign "async_runtime" "tokio" ∈ args)) := by
          intro kind hs
          rw [callable_wrapped, hs.isAsync, Option.isSome_or, Bool.or_eq_true, hs.runtime, hr.runtime_iff]
        by_cases hcs : SaysConstructor attrs
        · exact key _ (h1 hcs)
        · exact key _ (h2 hcs)

/-- What an exported `impl` block becomes: each member, in order, with what its attribute says, under the
name the block is given; its future is made for Tokio when the member or the block says so. -/
theorem C88_impl_says {args : List Argument} {block : ImplBlock} {e : ExportedImpl}
    (hd : ∀ m ∈ membersOf block, DistinctArgs m) (h : exportImpl args block = .ok e) :
    ∃ self, block.selfTy = .name [self] ∧
      List.Forall₂ (MemberSays args self) (membersOf block) e.items ∧
      e.traitImpl = block.trait_.map (fun t => (self, t.2)) := by
  unfold exportImpl at h
  obtain ⟨a, ha, h⟩ := bind_ok.1 h
  obtain ⟨f, hf, hnd, rfl⟩ := implArgs_ok.1 ha
  have hr := FnArgs.parse_rep hf
  split at h
  · cases h
  obtain ⟨self, hself, h⟩ := bind_ok.1 h
  obtain ⟨sigs, hsigs, h⟩ := bind_ok.1 h
  rw [mapM_ok] at hsigs
  split at h
  · cases h
  obtain ⟨items, hitems, h⟩ := bind_ok.1 h
  rw [mapM_ok] at hitems
  cases h
  refine ⟨self, ?_, ?_, rfl⟩
  · unfold selfIdent at hself
    split at hself
    · rename_i s hs; cases hself; exact hs
    · cases hself
  · exact items_say hr hd hsigs hitems

/-- Nothing exported for a block with another name than its type says that the type of that name
implements the trait: the methods go to one type and the record of the trait to the other. -/
theorem C88_trait_impl_broken :
    ∃ e, exportImpl [.assign "name" "Store"]
        { selfTy := .name ["StoreImpl"], trait_ := some ([], "Closeable")
          members := [.fn [] { ident := "close", inputs := [.receiver (.ref false (.name ["Self"]))] } true] } = .ok e ∧
      e.items.map (fun c => c.sig.kind) = [.method "StoreImpl" "Store"] ∧
      e.traitImpl = some ("StoreImpl", "Closeable") := by
  exact ⟨_, rfl, by decide +kernel, by decide +kernel⟩

/-- A block with a constructor and methods. -/
def store : ImplBlock :=
  { selfTy := .name ["Store"]
    members := [
      .fn [.plain ⟨["uniffi", "constructor"], .list [.assign "name" "open", .defaults [⟨"path", some "\"\""⟩] false]⟩]
        { ident := "open_at", inputs := [.named "path" (.name ["String"])], output := some (.app (.name ["Arc"]) (.name ["Self"])) } true,
      .fn [] { ident := "merge", isAsync := true, inputs := [
        .receiver (.app (.name ["Arc"]) (.name ["Self"])), .named "other" (.app (.name ["Arc"]) (.name ["Self"]))] } true] }

example : (∀ m ∈ membersOf store, DistinctArgs m) ∧
    exportImpl [.assign "async_runtime" "tokio"] store = .ok ⟨[
      ⟨{ kind := .constructor_ "Store" "Store", ident := "open_at", name := "open", isAsync := false
         asyncRuntime := none, receiver := none
         args := [⟨"path", .name ["String"], .value, some (.given "\"\"")⟩]
         returnTy := .app (.name ["Arc"]) (.name ["Store"]) }, none⟩,
      ⟨{ kind := .method "Store" "Store", ident := "merge", name := "merge", isAsync := true
         asyncRuntime := none, receiver := some .arc
         args := [⟨"other", .app (.name ["Arc"]) (.name ["Store"]), .value, none⟩], returnTy := .unit }, some .tokio⟩],
      none⟩ := by
  refine ⟨?_, by decide +kernel⟩
  intro m hm
  simp only [membersOf, store, List.map_cons, List.map_nil, List.mem_cons, List.not_mem_nil, or_false,
    Member.rewriteSelf] at hm
  rcases hm with rfl | rfl <;> simp [DistinctArgs, Sig.rewriteSelf, Input.rewriteSelf, argNames]

/-- What is refused on an `impl` block. -/
example :
    exportImpl [.word "foreign"] store = .error .unknownArgument ∧
    exportImpl [] { store with generic := true } = .error .generic ∧
    exportImpl [] { store with selfTy := .name ["a", "Store"] } = .error .selfType ∧
    exportImpl [] { store with members := [.other] } = .error .notFn ∧
    exportImpl [.assign "async_runtime" "tokio"] { store with members := [] } = .error .noAsync ∧
    exportImpl [] { store with members := [.fn [] { ident := "f" } true] } = .error .noSelf ∧
    exportImpl [] { store with members := [.fn [.plain ⟨["uniffi", "constructor"], .path⟩]
      { ident := "f", inputs := [.receiver (.name ["Self"])] } true] } = .error .constructorSelf := by decide +kernel

/-! ### `Self` -/

theorem rewriteAs_meaning {D : Type} (I : Interp D) (self : Ty) :
    ∀ (t : Ty) (head : Bool), SelfNotApplied t → (head = true → t ≠ .name ["Self"]) →
      meaning I (Ty.rewriteAs self head t) = meaning (withSelf I (meaning I self)) t := by
  intro t
  induction t with
  | name s =>
    intro head _ hh
    simp only [Ty.rewriteAs]
    by_cases hs : s = ["Self"]
    · subst hs
      cases head with
      | true => exact absurd rfl (hh rfl)
      | false => simp [meaning, withSelf]
    · simp [hs, meaning, withSelf]
  | app f a ihf iha =>
    intro head h _
    obtain ⟨h1, _, h3, h4⟩ := h
    simp only [Ty.rewriteAs, meaning]
    rw [ihf true h3 (fun _ => h1), iha false h4 (by simp)]
    rfl
  | ref m t ih => intro head h _; simp only [Ty.rewriteAs, meaning]; rw [ih false h (by simp)]; rfl
  | slice t ih => intro head h _; simp only [Ty.rewriteAs, meaning]; rw [ih false h (by simp)]; rfl
  | unit => intro head _ _; rfl
  | pair a b iha ihb =>
    intro head h _
    simp only [Ty.rewriteAs, meaning]
    rw [iha false h.1 (by simp), ihb false h.2 (by simp)]
    rfl

/-- The types of an exported block mean, outside of it, what they mean inside, where `Self` is the type
of the block. -/
theorem C88_self {D : Type} (I : Interp D) (self t : Ty) (h : SelfNotApplied t) :
    meaning I (t.rewriteSelf self) = meaning (withSelf I (meaning I self)) t :=
  rewriteAs_meaning I self t false h (by simp)

example : SelfNotApplied (.app (.app (.name ["Result"]) (.app (.name ["Arc"]) (.name ["Self"]))) (.name ["E"])) ∧
    Ty.rewriteSelf (.app (.app (.name ["Result"]) (.app (.name ["Arc"]) (.name ["Self"]))) (.name ["E"])) (.name ["Store"]) =
      .app (.app (.name ["Result"]) (.app (.name ["Arc"]) (.name ["Store"]))) (.name ["E"]) := by
  refine ⟨?_, by decide +kernel⟩
  simp [SelfNotApplied, SelfNotApplied.IsPath]

theorem typedArgs_after (l : List Input) : typedArgs (afterReceiver l) = typedArgs l := by
  cases l with
  | nil => rfl
  | cons i l => cases i <;> rfl

theorem typedArgs_rewrite (self : Ty) (l : List Input) :
    typedArgs (l.map (Input.rewriteSelf self)) = (typedArgs l).map (fun p => (p.1, p.2.rewriteSelf self)) := by
  induction l with
  | nil => rfl
  | cons i l ih => cases i <;> simp_all [typedArgs, Input.rewriteSelf]

theorem typedArgs_says {l : List Argument} {is : List Input} {as : List NamedArg}
    (h : List.Forall₂ (ArgSays l) is as) : as.map (fun a => (a.name, a.ty)) = typedArgs is := by
  induction h with
  | nil => rfl
  | @cons i a is as hi _ ih =>
    rw [List.map_cons, ih, hi.input]
    rfl

/-- The arguments and results of what an `impl` block exports are those written, where `Self` is the type
of the block. -/
theorem C88_impl_self {D : Type} (I : Interp D) {args : List Argument} {block : ImplBlock} {e : ExportedImpl}
    (hd : ∀ m ∈ membersOf block, DistinctArgs m) (hf : ∀ m ∈ block.members, SelfFine m)
    (h : exportImpl args block = .ok e) :
    List.Forall₂ (SameTypes I (meaning I block.selfTy)) block.members e.items := by
  obtain ⟨self, _, hs, _⟩ := C88_impl_says hd h
  unfold membersOf at hs
  rw [List.forall₂_map_left_iff] at hs
  revert hs hf
  generalize e.items = items
  generalize block.members = ms
  intro hf hs
  induction hs with
  | nil => exact .nil
  | @cons m c ms cs hm _ ih =>
    refine .cons ?_ (ih (fun x hx => hf x (by simp [hx])))
    obtain ⟨attrs, sig', b, he, ⟨foreign, _, h1, h2⟩, _⟩ := hm
    have hfine := hf m (by simp)
    cases m with
    | other => cases he
    | fn attrs0 sig b0 =>
      simp only [Member.rewriteSelf, Member.fn.injEq] at he
      obtain ⟨rfl, rfl, rfl⟩ := he
      have key : ∀ kind, SignatureSays kind (sig.rewriteSelf block.selfTy) (lastArguments attrs0) c.sig →
          SameTypes I (meaning I block.selfTy) (.fn attrs0 sig b0) c := by
        intro kind hss
        have hargs := typedArgs_says hss.args
        rw [typedArgs_after] at hargs
        simp only [Sig.rewriteSelf, typedArgs_rewrite] at hargs
        refine ⟨attrs0, sig, b0, rfl, hss.ident, ?_, ?_, ?_⟩
        · have : c.sig.args.map (fun a => (a.name, meaning I a.ty)) =
              (c.sig.args.map (fun a => (a.name, a.ty))).map (fun p => (p.1, meaning I p.2)) := by
            rw [List.map_map]; rfl
          rw [this, hargs, List.map_map]
          apply List.map_congr_left
          intro p hp
          simp only [Function.comp]
          rw [C88_self I _ _ (hfine.1 p hp)]
        · intro t ht
          rw [hss.returned (t.rewriteSelf block.selfTy) (by simp [Sig.rewriteSelf, ht])]
          exact C88_self I _ _ (hfine.2 t ht)
        · intro ht
          rw [hss.nothing (by simp [Sig.rewriteSelf, ht])]
          rfl
      by_cases hc : SaysConstructor attrs0
      · exact key _ (h1 hc)
      · exact key _ (h2 hc)

example : (∀ m ∈ store.members, SelfFine m) := by
  intro m hm
  simp only [store, List.mem_cons, List.not_mem_nil, or_false] at hm
  rcases hm with rfl | rfl <;> simp [SelfFine, typedArgs, SelfNotApplied, SelfNotApplied.IsPath]

/-! ### Traits -/

/-- Which arguments may be written on a trait. -/
theorem C88_trait_arguments (l : List Argument) : (∃ a, TraitArgs.parse l = .ok a) ↔ TraitArguments l := by
  constructor
  · rintro ⟨a, h⟩; exact (TraitArgs.parse_ok.1 h).args
  · intro h
    refine ⟨⟨if .assign "async_runtime" "tokio" ∈ l then some .tokio else none,
      if .word "callback_interface" ∈ l then some () else none,
      if .word "with_foreign" ∈ l then some () else none,
      if .word "rust" ∈ l then some () else none,
      if .word "foreign" ∈ l then some () else none,
      if .word "remote" ∈ l then some () else none⟩, TraitArgs.parse_ok.2 ⟨h, ?_, ?_, ?_, ?_, ?_, ?_⟩⟩ <;>
    · dsimp only; split <;> simp_all

theorem kind_says {l : List Argument} {a : TraitArgs} (h : TraitRep l a) :
    (a.kind.1.hasForeign = true ↔ ForeignMayImplement l) ∧
      (a.kind.2 = true ↔ .word "callback_interface" ∈ l) ∧
      (a.kind.1 = .foreignOnly ↔ .word "foreign" ∈ l ∧ .word "rust" ∉ l) := by
  obtain ⟨hargs, _, r2, r3, r4, r5, _⟩ := h
  have hs := hargs.styles
  unfold ForeignMayImplement
  rw [← r2, ← r3, ← r4, ← r5] at *
  unfold TraitArgs.kind
  cases h1 : a.rust.isSome <;> cases h2 : a.foreign.isSome <;> cases h3 : a.withForeign.isSome <;>
    cases h4 : a.callbackInterface.isSome <;> simp_all [TraitKind.hasForeign]

theorem traitItems_ok {self : String} {i : Nat} {ms : List Member} {ss : List FnSignature} :
    traitItems self i ms = .ok ss ↔
      List.Forall₂ (fun (mi : Member × Nat) s => traitItem self mi.2 mi.1 = .ok s) (ms.zipIdx i) ss := by
  induction ms generalizing i ss with
  | nil =>
    simp only [traitItems, List.zipIdx_nil, List.forall₂_nil_left_iff, Except.ok.injEq]
    exact eq_comm
  | cons m ms ih =>
    simp only [traitItems, List.zipIdx_cons, bind_ok]
    constructor
    · rintro ⟨s, hs, rest, hr, h⟩
      cases h
      exact .cons hs (ih.1 hr)
    · intro h
      cases h with
      | cons hs hr => exact ⟨_, hs, _, ih.2 hr, rfl⟩

theorem vtable_ok {ss vs : List FnSignature} :
    ss.mapM vtableMethod = .ok vs ↔ vs = ss ∧ ∀ s ∈ ss, s.receiver.isSome = true := by
  rw [mapM_ok]
  induction ss generalizing vs with
  | nil => simp
  | cons s ss ih =>
    constructor
    · intro h
      cases h with
      | cons h1 h2 =>
        obtain ⟨rfl, h3⟩ := ih.1 h2
        unfold vtableMethod at h1
        split at h1
        · cases h1
          refine ⟨rfl, ?_⟩
          intro x hx
          rcases List.mem_cons.1 hx with rfl | hx
          · assumption
          · exact h3 x hx
        · cases h1
    · rintro ⟨rfl, h⟩
      exact .cons (by unfold vtableMethod; rw [if_pos (h s (by simp))]) (ih.2 ⟨rfl, fun x hx => h x (by simp [hx])⟩)

theorem calls_ok {ar : Option Runtime} {ss : List FnSignature} {cs : List Callable} :
    ss.mapM (traitScaffolding ar) = .ok cs ↔
      cs = ss.map (fun s => callable s ar) ∧ ∀ s ∈ ss, s.receiver.isSome = true := by
  rw [mapM_ok]
  induction ss generalizing cs with
  | nil => simp
  | cons s ss ih =>
    constructor
    · intro h
      cases h with
      | cons h1 h2 =>
        obtain ⟨rfl, h3⟩ := ih.1 h2
        unfold traitScaffolding at h1
        split at h1
        · cases h1
          refine ⟨rfl, ?_⟩
          intro x hx
          rcases List.mem_cons.1 hx with rfl | hx
          · assumption
          · exact h3 x hx
        · cases h1
    · rintro ⟨rfl, h⟩
      exact .cons (by unfold traitScaffolding; rw [if_pos (h s (by simp))])
        (ih.2 ⟨rfl, fun x hx => h x (by simp [hx])⟩)

theorem mem_zipIdx_fst {ms : List Member} {i : Nat} {mi : Member × Nat} (h : mi ∈ ms.zipIdx i) : mi.1 ∈ ms :=
  List.fst_mem_of_mem_zipIdx h

theorem mem_zipIdx_of {ms : List Member} {i : Nat} {m : Member} (h : m ∈ ms) : ∃ k, (m, k) ∈ ms.zipIdx i := by
  obtain ⟨k, hk, rfl⟩ := List.mem_iff_getElem.1 h
  refine ⟨i + k, ?_⟩
  rw [List.mem_iff_getElem]
  exact ⟨k, by simpa using hk, by simp⟩

/-- A trait is exported exactly when what is written may be written: the arguments, no generics, only
methods with a receiver and without a body, and nothing foreign for a trait of another crate. -/
theorem C88_trait {args : List Argument} {t : TraitDef} (hd : ∀ m ∈ t.members, DistinctArgs m) :
    (∃ e, exportTrait args t = .ok e) ↔ TraitOk args t := by
  unfold exportTrait
  constructor
  · rintro ⟨e, h⟩
    obtain ⟨a, ha, h⟩ := bind_ok.1 h
    have hr := TraitArgs.parse_ok.1 ha
    obtain ⟨k1, k2, k3⟩ := kind_says hr
    split at h
    · cases h
    split at h
    · cases h
    rename_i hrem hg
    obtain ⟨sigs, hsigs, h⟩ := bind_ok.1 h
    obtain ⟨vt, hvt, h⟩ := bind_ok.1 h
    obtain ⟨cs, hcs, h⟩ := bind_ok.1 h
    rw [traitItems_ok] at hsigs
    have hrec : ∀ s ∈ sigs, s.receiver.isSome = true := by
      by_cases hcb : a.kind.2 = true
      · have hf : a.kind.1.hasForeign = true := k1.2 (.inr (.inr (k2.1 hcb)))
        rw [if_pos hf] at hvt
        exact (vtable_ok.1 hvt).2
      · rw [if_neg hcb] at hcs
        exact (calls_ok.1 hcs).2
    refine ⟨hr.args, ?_, by simpa using hg, ?_⟩
    · intro hm hf
      apply hrem
      rw [hr.remote.2 hm, k1.2 hf]
      rfl
    · intro m hm
      obtain ⟨k, hk⟩ := mem_zipIdx_of (i := 0) hm
      obtain ⟨s, hs, hi⟩ := forall₂_left hsigs hk
      cases m with
      | other => cases hi
      | fn attrs sig b =>
        obtain ⟨h1, h2, h3, h4, h5⟩ := traitItem_ok (hd _ hm) hi
        exact ⟨h1, h2, h3, h4, h5.receiver.1 (hrec s hs)⟩
  · rintro ⟨h1, h2, h3, h4⟩
    obtain ⟨a, ha⟩ := (C88_trait_arguments args).2 h1
    have hr := TraitArgs.parse_ok.1 ha
    obtain ⟨k1, k2, k3⟩ := kind_says hr
    obtain ⟨sigs, hsigs⟩ := forall₂_exists (l := t.members.zipIdx 0)
      (R := fun (mi : Member × Nat) s => traitItem t.ident mi.2 mi.1 = .ok s)
      (by
        rintro ⟨m, k⟩ hk
        have hm := mem_zipIdx_fst hk
        have := h4 m hm
        cases m with
        | other => exact absurd this (by simp [TraitMemberOk])
        | fn attrs sig b =>
          obtain ⟨rfl, g2, g3, g4, _⟩ := this
          exact traitItem_exists (hd _ hm) g2 g3 g4)
    have hrec : ∀ s ∈ sigs, s.receiver.isSome = true := by
      intro s hs
      obtain ⟨⟨m, k⟩, hk, hi⟩ := forall₂_right hsigs hs
      have hm := mem_zipIdx_fst hk
      have := h4 m hm
      cases m with
      | other => cases hi
      | fn attrs sig b => exact (traitItem_ok (hd _ hm) hi).2.2.2.2.receiver.2 this.2.2.2.2
    have hvt : ∃ vt, (if a.kind.1.hasForeign then sigs.mapM vtableMethod else .ok []) = Except.ok vt := by
      split
      · exact ⟨_, vtable_ok.2 ⟨rfl, hrec⟩⟩
      · exact ⟨_, rfl⟩
    have hcs : ∃ cs, (if a.kind.2 then .ok [] else sigs.mapM (traitScaffolding a.asyncRuntime)) = Except.ok cs := by
      split
      · exact ⟨_, rfl⟩
      · exact ⟨_, calls_ok.2 ⟨rfl, hrec⟩⟩
    obtain ⟨vt, hvt⟩ := hvt
    obtain ⟨cs, hcs⟩ := hcs
    refine ⟨⟨a.kind.1, a.kind.2, cs, vt⟩, bind_ok.2 ⟨a, ha, ?_⟩⟩
    rw [if_neg, if_neg (by simp [h3])]
    · exact bind_ok.2 ⟨sigs, traitItems_ok.2 hsigs, bind_ok.2 ⟨vt, hvt, bind_ok.2 ⟨cs, hcs, rfl⟩⟩⟩
    · rw [Bool.and_eq_true]
      rintro ⟨g1, g2⟩
      exact h2 (hr.remote.1 g1) (k1.1 g2)

theorem trait_items_say {self : String} {mis : List (Member × Nat)} {sigs : List FnSignature}
    (hd : ∀ mi ∈ mis, DistinctArgs mi.1)
    (h : List.Forall₂ (fun (mi : Member × Nat) s => traitItem self mi.2 mi.1 = .ok s) mis sigs) :
    List.Forall₂ (TraitMemberSays self) mis sigs := by
  induction h with
  | nil => exact .nil
  | @cons mi s ms ss hi _ ih =>
    refine .cons ?_ (ih (fun x hx => hd x (by simp [hx])))
    obtain ⟨m, k⟩ := mi
    have hm := hd (m, k) (by simp)
    cases m with
    | other => cases hi
    | fn attrs sig b => exact ⟨attrs, sig, b, rfl, (traitItem_ok hm hi).2.2.2.2⟩

/-- What an exported trait becomes: who may implement it is what is written, its methods keep their order
and positions, and futures are made for Tokio when the trait says so. -/
theorem C88_trait_says {args : List Argument} {t : TraitDef} {e : ExportedTrait}
    (hd : ∀ m ∈ t.members, DistinctArgs m) (h : exportTrait args t = .ok e) :
    (e.kind.hasForeign = true ↔ ForeignMayImplement args) ∧
    ((e.kind ≠ .foreignOnly ∧ e.callbackInterface = false) ↔ RustImplementationsCross args) ∧
    (e.callbackInterface = true ↔ .word "callback_interface" ∈ args) ∧
    (ForeignMayImplement args → List.Forall₂ (TraitMemberSays t.ident) t.members.zipIdx e.vtable) ∧
    (¬ ForeignMayImplement args → e.vtable = []) ∧
    (.word "callback_interface" ∉ args →
      List.Forall₂ (TraitMemberSays t.ident) t.members.zipIdx (e.calls.map (fun c => c.sig))) ∧
    (.word "callback_interface" ∈ args → e.calls = []) ∧
    (∀ c ∈ e.calls, Wrapped c ↔ c.sig.isAsync = true ∧ .assign "async_runtime" "tokio" ∈ args) := by
  unfold exportTrait at h
  obtain ⟨a, ha, h⟩ := bind_ok.1 h
  have hr := TraitArgs.parse_ok.1 ha
  obtain ⟨k1, k2, k3⟩ := kind_says hr
  split at h
  · cases h
  split at h
  · cases h
  obtain ⟨sigs, hsigs, h⟩ := bind_ok.1 h
  obtain ⟨vt, hvt, h⟩ := bind_ok.1 h
  obtain ⟨cs, hcs, h⟩ := bind_ok.1 h
  cases h
  rw [traitItems_ok] at hsigs
  have hall := trait_items_say (fun mi hmi => hd _ (mem_zipIdx_fst hmi)) hsigs
  refine ⟨k1, ?_, k2, ?_, ?_, ?_, ?_, ?_⟩
  · dsimp only
    unfold RustImplementationsCross
    rw [Ne, k3, ← Bool.not_eq_true, k2]
    constructor
    · rintro ⟨g1, g2⟩
      refine ⟨g2, fun g3 => ?_⟩
      by_cases hrust : Argument.word "rust" ∈ args
      · exact hrust
      · exact absurd ⟨g3, hrust⟩ g1
    · rintro ⟨g1, g2⟩
      exact ⟨fun g3 => g3.2 (g2 g3.1), g1⟩
  · intro hf
    rw [if_pos (k1.2 hf)] at hvt
    obtain ⟨rfl, _⟩ := vtable_ok.1 hvt
    exact hall
  · intro hf
    rw [if_neg (fun g => hf (k1.1 g))] at hvt
    cases hvt; rfl
  · intro hcb
    rw [if_neg (fun g => hcb (k2.1 g))] at hcs
    obtain ⟨rfl, _⟩ := calls_ok.1 hcs
    simpa [callable, Function.comp_def] using hall
  · intro hcb
    rw [if_pos (k2.2 hcb)] at hcs
    cases hcs; rfl
  · intro c hc
    by_cases hcb : a.kind.2 = true
    · rw [if_pos hcb] at hcs
      cases hcs; cases hc
    · rw [if_neg hcb] at hcs
      obtain ⟨rfl, _⟩ := calls_ok.1 hcs
      obtain ⟨s, _, rfl⟩ := List.mem_map.1 hc
      rw [callable_wrapped, hr.asyncRuntime]
      rfl

/-- The order in which arguments are written does not matter. -/
theorem C88_trait_order {args args' : List Argument} (h : args.Perm args') (t : TraitDef) {e : ExportedTrait}
    (he : exportTrait args t = .ok e) : exportTrait args' t = .ok e := by
  unfold exportTrait at he ⊢
  obtain ⟨a, ha, he⟩ := bind_ok.1 he
  refine bind_ok.2 ⟨a, ?_, he⟩
  rw [TraitArgs.parse_ok] at ha ⊢
  obtain ⟨⟨g1, g2, g3, g4⟩, r1, r2, r3, r4, r5, r6⟩ := ha
  simp only [h.mem_iff] at g3 g4 r1 r2 r3 r4 r5 r6
  exact ⟨⟨fun x hx => g1 x (h.mem_iff.2 hx), h.nodup_iff.1 g2, g3, g4⟩, r1, r2, r3, r4, r5, r6⟩

/-- A trait with an async method. -/
def loader : TraitDef :=
  { ident := "Loader"
    members := [.fn [] { ident := "name", inputs := [.receiver (.ref false (.name ["Self"]))], output := some (.name ["String"]) } false,
      .fn [.plain ⟨["uniffi", "method"], .list [.assign "name" "fetch"]⟩]
        { ident := "load", isAsync := true, inputs := [.receiver (.ref false (.name ["Self"])), .named "url" (.name ["String"])] } false] }

example : (∀ m ∈ loader.members, DistinctArgs m) ∧ (∃ e, exportTrait [.word "rust", .word "foreign", .assign "async_runtime" "tokio"] loader = .ok e ∧
      e.kind = .both ∧ e.vtable.map (fun s => (s.kind, s.name)) =
        [(.traitMethod "Loader" 0, "name"), (.traitMethod "Loader" 1, "fetch")] ∧
      e.calls.map (fun c => c.wrapped) = [none, some .tokio]) := by
  refine ⟨?_, _, rfl, by decide +kernel, by decide +kernel, by decide +kernel⟩
  intro m hm
  simp only [loader, List.mem_cons, List.not_mem_nil, or_false] at hm
  rcases hm with rfl | rfl <;> simp [DistinctArgs, argNames]

/-- What is refused on a trait. -/
example :
    exportTrait [.word "rust", .word "rust"] loader = .error .redundant ∧
    exportTrait [.word "rust", .word "with_foreign"] loader = .error .newWithLegacy ∧
    exportTrait [.word "callback_interface", .word "with_foreign"] loader = .error .exclusive ∧
    exportTrait [.word "foreign", .word "remote"] loader = .error .remoteForeign ∧
    exportTrait [.assign "name" "L"] loader = .error .unknownArgument ∧
    exportTrait [] { loader with members := [.fn [] { ident := "f" } false] } = .error .noSelf ∧
    exportTrait [] { loader with members := [.fn [] { ident := "f" } true] } = .error .defaultBody ∧
    exportTrait [] { loader with members := [.fn [.plain ⟨["uniffi", "constructor"], .path⟩] { ident := "f" } false] } =
      .error .constructorInTrait := by decide +kernel

/-- A runtime written on a method of a trait is taken and does nothing: the future is not made for it. On
a method of an `impl` block it is. -/
theorem C88_trait_runtime_broken :
    (∃ e, exportTrait [] { ident := "Loader", members := [.fn [.plain ⟨["uniffi", "method"], .list [.assign "async_runtime" "tokio"]⟩]
          { ident := "load", isAsync := true, inputs := [.receiver (.ref false (.name ["Self"]))] } false] } = .ok e ∧
      e.calls.map (fun c => (c.sig.asyncRuntime, c.wrapped)) = [(some .tokio, none)]) ∧
    (∃ e, exportImpl [] { selfTy := .name ["Loader"], members := [.fn [.plain ⟨["uniffi", "method"], .list [.assign "async_runtime" "tokio"]⟩]
          { ident := "load", isAsync := true, inputs := [.receiver (.ref false (.name ["Self"]))] } false] } = .ok e ∧
      e.items.map (fun c => (c.sig.asyncRuntime, c.wrapped)) = [(some .tokio, some .tokio)]) := by
  exact ⟨⟨_, rfl, by decide +kernel⟩, ⟨_, rfl, by decide +kernel⟩⟩

/-- A runtime on a trait without async methods is taken; on an `impl` block it is refused. -/
theorem C88_trait_no_async_broken :
    (∃ e, exportTrait [.assign "async_runtime" "tokio"] { ident := "Empty" } = .ok e) ∧
    exportImpl [.assign "async_runtime" "tokio"] { selfTy := .name ["Empty"] } = .error .noAsync := by
  exact ⟨⟨_, rfl⟩, by decide +kernel⟩

/-! ### Structs and enums -/

theorem parseBuiltin_ok {x : Argument} {b : Builtin} : parseBuiltin x = .ok b ↔ x = .word (builtinWord b) := by
  cases x with
  | assign k v => simp [parseBuiltin]
  | defaults es t => simp [parseBuiltin]
  | word w =>
    simp only [parseBuiltin, Argument.word.injEq]
    repeat' split
    all_goals cases b <;> simp_all [builtinWord]

theorem mem_addAll {bs acc : List Builtin} {b : Builtin} : b ∈ bs.foldl addBuiltin acc ↔ b ∈ acc ∨ b ∈ bs := by
  induction bs generalizing acc with
  | nil => simp
  | cons x bs ih =>
    rw [List.foldl_cons, ih]
    unfold addBuiltin
    split
    · rename_i h
      constructor
      · rintro (h' | h')
        · exact .inl h'
        · exact .inr (by simp [h'])
      · rintro (h' | h')
        · exact .inl h'
        · rcases List.mem_cons.1 h' with rfl | h'
          · exact .inl h
          · exact .inr h'
    · simp [or_assoc]

theorem nodup_addAll {bs acc : List Builtin} (h : acc.Nodup) : (bs.foldl addBuiltin acc).Nodup := by
  induction bs generalizing acc with
  | nil => exact h
  | cons x bs ih =>
    rw [List.foldl_cons]
    apply ih
    unfold addBuiltin
    split
    · exact h
    · exact nodup_snoc.2 ⟨h, by assumption⟩

theorem sorted_unique {l m : List Builtin} (hl : l.Pairwise (fun a b => a.discr < b.discr))
    (hm : m.Pairwise (fun a b => a.discr < b.discr)) (h : ∀ b, b ∈ l ↔ b ∈ m) : l = m := by
  have hnl : l.Nodup := hl.imp (fun hab e => by rw [e] at hab; exact Nat.lt_irrefl _ hab)
  have hnm : m.Nodup := hm.imp (fun hab e => by rw [e] at hab; exact Nat.lt_irrefl _ hab)
  have hp : l.Perm m := (List.perm_ext_iff_of_nodup hnl hnm).2 h
  exact hp.eq_of_pairwise (fun a b _ _ h1 h2 => absurd h1 (Nat.lt_asymm h2)) hl hm

theorem struct_ok (order : List Builtin → List Builtin) (ho : ∀ s, (order s).Perm s) (args : List Argument)
    (ts : List Builtin) :
    exportStruct order args = .ok ts ↔
      args ≠ [] ∧ (∀ x ∈ args, ∃ b, x = .word (builtinWord b)) ∧
      ts.Pairwise (fun a b => a.discr < b.discr) ∧ (∀ b, b ∈ ts ↔ .word (builtinWord b) ∈ args) := by
  have hinj : ∀ a b : Builtin, a.discr = b.discr → a = b := by
    intro a b; cases a <;> cases b <;> simp [Builtin.discr]
  have hsort : ∀ parts : List Builtin,
      (sortedTraits order (parts.foldl addBuiltin [])).Pairwise (fun a b => a.discr < b.discr) ∧
      ∀ b, b ∈ sortedTraits order (parts.foldl addBuiltin []) ↔ b ∈ parts := by
    intro parts
    have hperm : (sortedTraits order (parts.foldl addBuiltin [])).Perm (parts.foldl addBuiltin []) :=
      (List.mergeSort_perm _ _).trans (ho _)
    have hnd : (sortedTraits order (parts.foldl addBuiltin [])).Nodup :=
      hperm.nodup_iff.2 (nodup_addAll (by simp))
    refine ⟨?_, ?_⟩
    · have hs : (sortedTraits order (parts.foldl addBuiltin [])).Pairwise
          (fun a b => (decide (a.discr ≤ b.discr)) = true) := by
        apply List.pairwise_mergeSort
        · intro a b c; simp only [decide_eq_true_eq]; omega
        · intro a b; simp only [Bool.or_eq_true, decide_eq_true_eq]; omega
      have := hs.and hnd
      refine this.imp ?_
      rintro a b ⟨h1, h2⟩
      simp only [decide_eq_true_eq] at h1
      have : a.discr ≠ b.discr := fun e => h2 (hinj a b e)
      omega
    · intro b
      rw [hperm.mem_iff, mem_addAll]
      simp
  unfold exportStruct
  rw [bind_ok]
  constructor
  · rintro ⟨parts, hparts, h⟩
    rw [mapM_ok] at hparts
    dsimp only at h
    split at h
    · cases h
    rename_i hne
    cases h
    have hmem : ∀ b, b ∈ parts ↔ .word (builtinWord b) ∈ args := by
      intro b
      constructor
      · intro hb
        obtain ⟨x, hx, hp⟩ := forall₂_right hparts hb
        rw [parseBuiltin_ok] at hp
        exact hp ▸ hx
      · intro hb
        obtain ⟨y, hy, hp⟩ := forall₂_left hparts hb
        rw [parseBuiltin_ok] at hp
        have : b = y := by
          simp only [Argument.word.injEq] at hp
          revert hp
          cases b <;> cases y <;> simp [builtinWord]
        exact this ▸ hy
    refine ⟨?_, ?_, (hsort parts).1, fun b => ((hsort parts).2 b).trans (hmem b)⟩
    · rintro rfl
      cases hparts
      apply hne
      have : sortedTraits order ([].foldl addBuiltin []) = [] := by
        rw [List.eq_nil_iff_forall_not_mem]
        intro b hb
        have := ((hsort []).2 b).1 hb
        cases this
      rw [this]; rfl
    · intro x hx
      obtain ⟨b, _, hp⟩ := forall₂_left hparts hx
      exact ⟨b, parseBuiltin_ok.1 hp⟩
  · rintro ⟨h1, h2, h3, h4⟩
    obtain ⟨parts, hparts⟩ := forall₂_exists (l := args) (R := fun x b => parseBuiltin x = .ok b)
      (fun x hx => by obtain ⟨b, hb⟩ := h2 x hx; exact ⟨b, parseBuiltin_ok.2 hb⟩)
    have hmem : ∀ b, b ∈ parts ↔ .word (builtinWord b) ∈ args := by
      intro b
      constructor
      · intro hb
        obtain ⟨x, hx, hp⟩ := forall₂_right hparts hb
        rw [parseBuiltin_ok] at hp
        exact hp ▸ hx
      · intro hb
        obtain ⟨y, hy, hp⟩ := forall₂_left hparts hb
        rw [parseBuiltin_ok] at hp
        have : b = y := by
          simp only [Argument.word.injEq] at hp
          revert hp
          cases b <;> cases y <;> simp [builtinWord]
        exact this ▸ hy
    have heq : sortedTraits order (parts.foldl addBuiltin []) = ts :=
      sorted_unique (hsort parts).1 h3 (fun b => (((hsort parts).2 b).trans (hmem b)).trans (h4 b).symm)
    refine ⟨parts, mapM_ok.2 hparts, ?_⟩
    dsimp only
    rw [heq, if_neg]
    rw [List.isEmpty_iff]
    rintro rfl
    obtain ⟨x, hx⟩ := List.exists_mem_of_ne_nil args h1
    obtain ⟨b, rfl⟩ := h2 x hx
    have := (h4 b).2 hx
    cases this

/-- A struct or an enum is exported with exactly the built-in traits that are written, each once, always in
the same order, whatever the order in which they are written and in which a hash set gives them. It is
refused exactly when none is written or something else is. -/
theorem C88_struct (order : List Builtin → List Builtin) (ho : ∀ s, (order s).Perm s) (args : List Argument)
    (ts : List Builtin) :
    exportStruct order args = .ok ts ↔
      args ≠ [] ∧ (∀ x ∈ args, ∃ b, x = .word (builtinWord b)) ∧
      ts = [.debug, .display, .eq, .hash, .ord].filter (fun b => .word (builtinWord b) ∈ args) := by
  have hall : ∀ b : Builtin, b ∈ [Builtin.debug, .display, .eq, .hash, .ord] := by
    intro b; cases b <;> simp
  have hpw : [Builtin.debug, .display, .eq, .hash, .ord].Pairwise (fun a b => a.discr < b.discr) := by decide
  have hm : ∀ b, b ∈ [Builtin.debug, .display, .eq, .hash, .ord].filter (fun b => .word (builtinWord b) ∈ args) ↔
      .word (builtinWord b) ∈ args := by
    intro b
    rw [List.mem_filter]
    simp [hall b]
  rw [struct_ok order ho]
  constructor
  · rintro ⟨h1, h2, h3, h4⟩
    exact ⟨h1, h2, sorted_unique h3 (hpw.filter _) (fun b => (h4 b).trans (hm b).symm)⟩
  · rintro ⟨h1, h2, rfl⟩
    exact ⟨h1, h2, hpw.filter _, hm⟩

example : (∀ s : List Builtin, s.reverse.Perm s) ∧
    exportStruct List.reverse [.word "Ord", .word "Eq", .word "Debug", .word "Eq"] = .ok [.debug, .eq, .ord] := by
  refine ⟨fun s => List.reverse_perm s, (C88_struct _ (fun s => List.reverse_perm s) _ _).2 ⟨by simp, ?_, by decide +kernel⟩⟩
  intro x hx
  simp only [List.mem_cons, List.not_mem_nil, or_false] at hx
  rcases hx with rfl | rfl | rfl | rfl
  · exact ⟨.ord, rfl⟩
  · exact ⟨.eq, rfl⟩
  · exact ⟨.debug, rfl⟩
  · exact ⟨.eq, rfl⟩

end Verif.Props.Export
