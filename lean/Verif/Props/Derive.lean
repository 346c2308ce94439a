import Verif.Src.DeriveRead
import Verif.Props.Emit
/-
C89: what `#[derive(uniffi::Record)]`, `Object`, `Enum` and `Error` accept, what they record, and that the readers of
sources read the same.
-/
namespace Verif.Props.Derive
open Verif.Meta Verif.Src Verif.Derive
open Verif.Props.Emit (linux path derive doc attr)

def named (s : String) : Meta := .nameValue (path ["name"]) (.str s)
def word (s : String) : Meta := .path (path [s])
def repr (ws : List String) : Meta := .list (path ["repr"]) (some (ws.map word))

/-! ### What is accepted and what is recorded -/

/-- A struct becomes a record exactly if its attributes say at most a name, those of its fields at most a name and a
default that can be recorded, each once, all documentation is text, and there are at most 255 fields, all with names.
Then names, types, defaults and documentation are recorded as they are written, in the same order. -/
theorem C89_record {mp : String} {metas : List Meta} {ident : Ident} {fields : List DField} {i : Verif.Meta.Item} :
    expandRecord mp metas ident fields = .ok i ↔
    (NamesOnly metas ∧ DocsText metas ∧ fields.length ≤ 255 ∧ ∀ f ∈ fields, FieldOk f ∧ f.ident.isSome = true) ∧
    ∃ name orig fs, i = .record mp name orig fs ((docText metas).getD "") ∧
      NameIs (textArg "name" (uniffiArgs metas)) ident.name name orig ∧ Each FieldSays fields fs :=
  record_ok

/-- The same for objects. -/
theorem C89_object {mp : String} {metas : List Meta} {ident : Ident} {i : Verif.Meta.Item} :
    expandObject mp metas ident = .ok i ↔ (NamesOnly metas ∧ DocsText metas) ∧
    ∃ name orig, i = .object mp name orig .struct ((docText metas).getD "") ∧
      NameIs (textArg "name" (uniffiArgs metas)) ident.name name orig :=
  object_ok

/-- The same for enums. The type is the last word of `repr`, if that is an integer type; it may not be `usize` or
`isize`. Values are literals. -/
theorem C89_enum {mp : String} {metas : List Meta} {ident : Ident} {variants : List DVariant} {i : Verif.Meta.Item} :
    expandEnum mp metas ident variants = .ok i ↔
    (NamesOnly metas ∧ DocsText metas ∧ ReprOk metas ∧ (∀ w, ReprSays metas (some w) → w ≠ "usize" ∧ w ≠ "isize") ∧
      variants.length ≤ 255 ∧ ∀ v ∈ variants, VariantOk v) ∧
    ∃ name orig ty vs, i = .enum mp name orig ty vs (wordArg "non_exhaustive" metas) ((docText metas).getD "") ∧
      NameIs (textArg "name" (uniffiArgs metas)) ident.name name orig ∧
      (match ty with | none => ReprSays metas none | some t => ∃ w, (w, t) ∈ intTypes ∧ ReprSays metas (some w)) ∧
      Each VariantSays variants vs :=
  enum_ok

/-- The same for errors: `flat_error` and `with_try_read` are also accepted, and no arguments on fields. Of the variants
of a flat error only names and documentation are recorded. -/
theorem C89_error {mp : String} {metas : List Meta} {ident : Ident} {variants : List DVariant} {i : Verif.Meta.Item} :
    expandError mp metas ident variants = .ok i ↔
    (EnumArgsOk metas ∧ DocsText metas ∧ ReprOk metas ∧ variants.length ≤ 255 ∧
      (∀ v ∈ variants, if wordArg "flat_error" (uniffiArgs metas) = true then NamesOnly v.metas ∧ DocsText v.metas
        else VariantOk v) ∧
      ∀ v ∈ variants, ∀ f ∈ v.fields, Lists "uniffi" f.metas ∧ uniffiArgs f.metas = []) ∧
    ∃ name orig vs, i = .error mp name orig (wordArg "flat_error" (uniffiArgs metas)) vs (wordArg "non_exhaustive" metas)
        ((docText metas).getD "") ∧
      NameIs (textArg "name" (uniffiArgs metas)) ident.name name orig ∧
      (if wordArg "flat_error" (uniffiArgs metas) = true then Each FlatSays variants vs else Each VariantSays variants vs) :=
  error_ok

/-- `#[derive(uniffi::Record)] #[uniffi(name = "Pt")] struct Point { #[uniffi(default = 3, name = "a")] x: u8, y: u64 }` -/
def pointMetas : List Meta := [derive "Record", doc " A point.", attr [named "Pt"]]
def pointFields : List DField :=
  [⟨[attr [.nameValue (path ["default"]) (.int 3 false), named "a"]], some "x", .u8⟩, ⟨[doc " Up."], some "y", .u64⟩]
def point : Verif.Meta.Item :=
  .record "m" "Pt" (some "Point") [⟨"a", some "x", .u8, some (.int 3 false), ""⟩, ⟨"y", none, .u64, none, "Up."⟩] "A point."
theorem point_ok : expandRecord "m" pointMetas "Point" pointFields = .ok point := rfl

/-- `#[derive(uniffi::Enum)] #[repr(i8)] #[non_exhaustive] enum E { A = -1, #[uniffi(name = "C")] B(#[uniffi(default)] u8) }` -/
def enumMetas : List Meta := [derive "Enum", repr ["i8"], word "non_exhaustive"]
def enumVariants : List DVariant :=
  [⟨[], "A", some (.neg 1), []⟩, ⟨[attr [named "C"]], "B", none, [⟨[attr [word "default"]], none, .u8⟩]⟩]
def enumItem : Verif.Meta.Item :=
  .enum "m" "E" none (some .i8) [⟨"A", none, some (-1), [], ""⟩, ⟨"C", some "B", none, [⟨"", none, .u8, some .default, ""⟩], ""⟩]
    true ""
theorem enum_is : expandEnum "m" enumMetas "E" enumVariants = .ok enumItem := rfl

/-- `#[derive(uniffi::Error)] #[uniffi(flat_error)] enum E { #[uniffi(name = "Slow")] A(u8), B = 1 + 1 }` -/
def errorMetas : List Meta := [derive "Error", attr [word "flat_error"]]
def errorVariants : List DVariant := [⟨[attr [named "Slow"]], "A", none, [⟨[], none, .u8⟩]⟩, ⟨[], "B", some .other, []⟩]
def errorItem : Verif.Meta.Item := .error "m" "E" none true [⟨"Slow", some "A", none, [], ""⟩, ⟨"B", none, none, [], ""⟩] false ""
theorem error_is : expandError "m" errorMetas "E" errorVariants = .ok errorItem := rfl

example : NamesOnly pointMetas ∧ ∀ f ∈ pointFields, FieldOk f :=
  have h := (C89_record.1 point_ok).1
  ⟨h.1, fun f hf => (h.2.2.2 f hf).1⟩
example : expandObject "m" pointMetas "Point" = .ok (.object "m" "Pt" (some "Point") .struct "A point.") := rfl
example : ReprSays enumMetas (some "i8") ∧ ∀ v ∈ enumVariants, VariantOk v :=
  ⟨.inl ⟨"i8", by decide, by decide, rfl⟩, (C89_enum.1 enum_is).1.2.2.2.2.2⟩
example : EnumArgsOk errorMetas := (C89_error.1 error_is).1.1

/-- Nothing else is accepted: unknown words, a second name, a name that is not text, no parentheses. -/
example : ∀ ms ∈ [[attr [word "nme"]], [attr [named "A"], attr [named "B"]], [attr [.nameValue (path ["name"]) (.int 1 false)]],
    [word "uniffi"], [.nameValue (path ["doc"]) (.int 1 false)]], (expandRecord "m" ms "P" []).toOption.isNone = true := by
  decide +kernel

/-! ### The readers of sources read the same -/

theorem int_meta {t : RTy} (h : ∃ w, (w, t) ∈ intTypes) : mtyOf t = t.toMeta := by
  obtain ⟨w, h⟩ := h
  simp only [intTypes, List.mem_cons, Prod.mk.injEq, List.not_mem_nil, or_false] at h
  rcases h with ⟨_, rfl⟩ | ⟨_, rfl⟩ | ⟨_, rfl⟩ | ⟨_, rfl⟩ | ⟨_, rfl⟩ | ⟨_, rfl⟩ | ⟨_, rfl⟩ | ⟨_, rfl⟩ <;> rfl

/-- If the derive macro makes a record of a struct, the reader of sources accepts its attributes and those of its
fields, and reads the names, defaults and documentation that the macro recorded, in the same order.

The full property has no condition on the place of `default`: see `C89_default_first_broken`. Attributes of
`#[uniffi::export]` on the struct are those of another macro and are assumed to be readable. -/
theorem C89_read_record_partial {mp : String} {metas attrs : List Meta} {ident : Ident} {ds : List DField} {m name doc : String}
    {orig : Option String} {ss : List FieldSrc} {l : Look} {env : CompileEnv} {remote : Bool} {u : UTraits}
    {fs : List (SField Meta)} (h : expandRecord mp metas ident ds = .ok (.record m name orig ss doc))
    (ha : Active env attrs metas) (hd : metas.findSome? (findDerive l "Record") = some remote)
    (hu : parseUTraits l metas {} = .ok u) (hf : FieldsSame env fs ds) (hl : ∀ d ∈ ds, DefaultLast d.metas) :
    (∃ a, parseTypeAttrs l env "Record" attrs = .ok (some a) ∧ NameIs a.name ident.name name orig ∧
      a.docstring.getD "" = doc ∧ a.remote = remote) ∧
    ∃ ps, parseFields env fs = .ok ps ∧ Each FieldAgrees ps ss := by
  obtain ⟨⟨h1, _, _, h4⟩, n, o, fs', he, hn, hs⟩ := record_ok.1 h
  cases he
  obtain ⟨a, h5⟩ := typeAttrs_accepts (a := { remote := remote, utraits := u }) h1.1 h1.2.1
  obtain ⟨a1, a2, a3, _⟩ := typeAttrs_is h5
  refine ⟨⟨a, ?_, ?_, ?_, a3⟩, ?_⟩
  · unfold parseTypeAttrs
    refine bind_ok.2 ⟨some metas, ha, ?_⟩
    simp only [hd]
    exact bind_ok.2 ⟨u, hu, bind_ok.2 ⟨a, h5, rfl⟩⟩
  · rw [a2, or_none']; exact hn
  · rw [a1, docs_text]
  · exact fields_read hf.1 hf.2 (fun d hd => ⟨(h4 d hd).1.args, hl d hd⟩) hs

/-- The same for objects. -/
theorem C89_read_object {mp : String} {metas attrs : List Meta} {ident : Ident} {m name doc : String}
    {orig : Option String} {k : Impl} {l : Look} {env : CompileEnv} {remote : Bool} {u : UTraits}
    (h : expandObject mp metas ident = .ok (.object m name orig k doc))
    (ha : Active env attrs metas) (hd : metas.findSome? (findDerive l "Object") = some remote)
    (hu : parseUTraits l metas {} = .ok u) :
    ∃ a, parseTypeAttrs l env "Object" attrs = .ok (some a) ∧ NameIs a.name ident.name name orig ∧
      a.docstring.getD "" = doc ∧ a.remote = remote := by
  obtain ⟨⟨h1, _⟩, n, o, he, hn⟩ := object_ok.1 h
  cases he
  obtain ⟨a, h5⟩ := typeAttrs_accepts (a := { remote := remote, utraits := u }) h1.1 h1.2.1
  obtain ⟨a1, a2, a3, _⟩ := typeAttrs_is h5
  refine ⟨a, ?_, ?_, ?_, a3⟩
  · unfold parseTypeAttrs
    refine bind_ok.2 ⟨some metas, ha, ?_⟩
    simp only [hd]
    exact bind_ok.2 ⟨u, hu, bind_ok.2 ⟨a, h5, rfl⟩⟩
  · rw [a2, or_none']; exact hn
  · rw [a1, docs_text]

/-- The same for enums, with the type of `repr`. If there is one, the values of variants are read as they are recorded.

The full property has no conditions on `default`, on the words of `repr` and on values: see
`C89_default_first_broken`, `C89_repr_broken` and `C89_smallest_broken`. Without `repr`, values are not read
(`C65_discriminant_broken`). -/
theorem C89_read_enum_partial {mp : String} {metas attrs : List Meta} {ident : Ident} {ds : List DVariant} {m name doc : String}
    {orig : Option String} {ty : Option RTy} {ss : List VariantSrc} {open' : Bool} {l : Look} {env : CompileEnv} {remote : Bool}
    {u : UTraits} {vs : List (SVariant Meta)} (h : expandEnum mp metas ident ds = .ok (.enum m name orig ty ss open' doc))
    (ha : Active env attrs metas) (hd : metas.findSome? (findDerive l "Enum") = some remote)
    (he : metas.findSome? (findDerive l "Error") = none) (hu : parseUTraits l metas {} = .ok u) (hr : ReprCrosses metas)
    (hv : VariantsSame env vs ds) (hl : ∀ d ∈ ds, DiscrFits ty d.discr ∧ ∀ f ∈ d.fields, DefaultLast f.metas) :
    ∃ a, parseEnumAttrs l env attrs = .ok (some a) ∧ NameIs a.name ident.name name orig ∧ a.docstring.getD "" = doc ∧
      a.remote = remote ∧ a.shape = .enum ∧ a.nonExhaustive = open' ∧ a.discrType = ty.map RTy.toMeta ∧
      ∃ ps, parseVariants env a.discrType vs = .ok ps ∧ Each (VariantAgrees ty) ps ss := by
  obtain ⟨⟨h1, _, h3, _, _, h6⟩, n, o, t, vs', hi, hn, ht, hs⟩ := enum_ok.1 h
  cases hi
  obtain ⟨a, h5⟩ := enumAttrs_accepts (a := { shape := .enum, remote := remote, utraits := u }) h1.1
    (fun x hx => .inl (h1.2.1 x hx)) h3 hr
  obtain ⟨a1, a2, a3, _, a5, a6, a7⟩ := enumAttrs_is h5
  have hflat : wordArg "flat_error" (uniffiArgs metas) = false := (names_of_enum.2 h1).2.1
  have hint : ∀ t, ty = some t → ∃ w, (w, t) ∈ intTypes := by
    rintro t rfl
    obtain ⟨w, hw, _⟩ := ht
    exact ⟨w, hw⟩
  have hty : a.discrType = ty.map mtyOf := by
    rw [a7, or_none', repr_read hr ht]
  refine ⟨a, ?_, ?_, ?_, a3, ?_, ?_, ?_, ?_⟩
  · unfold parseEnumAttrs
    refine bind_ok.2 ⟨some metas, ha, ?_⟩
    simp only [hd, he]
    exact bind_ok.2 ⟨u, hu, bind_ok.2 ⟨a, h5, rfl⟩⟩
  · rw [a2, or_none']; exact hn
  · rw [a1, docs_text]
  · rw [a5, hflat]; rfl
  · rw [a6]; rfl
  · rw [hty]
    cases ty with
    | none => rfl
    | some t => rw [Option.map_some, Option.map_some, int_meta (hint t rfl)]
  · rw [hty]
    exact variants_read hint hv.1 hv.2 (fun d hd => ⟨(h6 d hd).args, (hl d hd).1, fun f hf =>
      ⟨((h6 d hd).fields f hf).args, (hl d hd).2 f hf⟩⟩) hs

/-- The same for errors.

The full property has no conditions: `with_try_read` is not read (`C89_with_try_read_broken`), and of a `repr` the
macro records nothing (`C89_error_repr_broken`). -/
theorem C89_read_error_partial {mp : String} {metas attrs : List Meta} {ident : Ident} {ds : List DVariant} {m name doc : String}
    {orig : Option String} {flat : Bool} {ss : List VariantSrc} {open' : Bool} {l : Look} {env : CompileEnv} {remote : Bool}
    {u : UTraits} {vs : List (SVariant Meta)} (h : expandError mp metas ident ds = .ok (.error m name orig flat ss open' doc))
    (ha : Active env attrs metas) (hd : metas.findSome? (findDerive l "Error") = some remote)
    (he : metas.findSome? (findDerive l "Enum") = none) (hu : parseUTraits l metas {} = .ok u)
    (hr : argsIn (fun m => m.pathOf.isIdent "repr") metas = []) (hw : wordArg "with_try_read" (uniffiArgs metas) = false)
    (hv : VariantsSame env vs ds) :
    ∃ a, parseEnumAttrs l env attrs = .ok (some a) ∧ NameIs a.name ident.name name orig ∧ a.docstring.getD "" = doc ∧
      a.remote = remote ∧ a.shape = .error flat ∧ a.nonExhaustive = open' ∧ a.discrType = none ∧
      ∃ ps, parseVariants env none vs = .ok ps ∧
        if flat = true then Each FlatAgrees ps ss else Each (VariantAgrees none) ps ss := by
  obtain ⟨⟨h1, _, h3, _, h6, h7⟩, n, o, vs', hi, hn, hs⟩ := error_ok.1 h
  cases hi
  have hc : ReprCrosses metas := by unfold ReprCrosses; rw [hr]; exact fun _ h => (nomatch h)
  obtain ⟨a, h5⟩ := enumAttrs_accepts (a := { shape := .error false, remote := remote, utraits := u }) h1.1
    (fun x hx => by
      rcases h1.2.1 x hx with h | h | h
      · exact .inl h
      · exact .inr ⟨h, fun h => (nomatch h)⟩
      · unfold wordArg at hw
        rw [List.any_eq_false] at hw
        exact absurd (word_path h) (hw x hx)) h3 hc
  obtain ⟨a1, a2, a3, _, a5, a6, a7⟩ := enumAttrs_is h5
  refine ⟨a, ?_, ?_, ?_, a3, ?_, ?_, ?_, ?_⟩
  · unfold parseEnumAttrs
    refine bind_ok.2 ⟨some metas, ha, ?_⟩
    simp only [hd, he]
    exact bind_ok.2 ⟨u, hu, bind_ok.2 ⟨a, h5, rfl⟩⟩
  · rw [a2, or_none']; exact hn
  · rw [a1, docs_text]
  · rw [a5]; simp [shapeWith]
  · rw [a6]; rfl
  · rw [a7, or_none']
    unfold reprOf
    rw [hr]; rfl
  · by_cases hf : wordArg "flat_error" (uniffiArgs metas) = true
    · simp only [hf, if_true] at hs h6 ⊢
      exact flats_read hv.1 hv.2 (fun d hd => ⟨(h6 d hd).1, h7 d hd⟩) hs
    · simp only [hf] at hs h6 ⊢
      exact variants_read (ty := none) (fun t h => (nomatch h)) hv.1 hv.2 (fun d hd => ⟨(h6 d hd).args, by
        unfold DiscrFits; split <;> trivial, fun f hf =>
          ⟨((h6 d hd).fields f hf).args, bare_last (h7 d hd f hf).2⟩⟩) hs

/-- Names for the macros and derives of UniFFI as in a crate without imports. -/
def look : Look := Verif.Props.Emit.demoLook

def pointSource : List (SField Meta) :=
  [⟨[attr [.nameValue (path ["default"]) (.int 3 false), named "a"]], some "x", .path (path ["u8"]) []⟩,
   ⟨[.list (path ["cfg"]) (some [.nameValue (path ["feature"]) (.str "slow")])], some "z", .path (path ["u8"]) []⟩,
   ⟨[doc " Up."], some "y", .path (path ["u64"]) []⟩]
theorem point_same : FieldsSame linux pointSource pointFields := by
  refine ⟨?_, ?_⟩
  · have : (pointSource.filter fun f => isActive linux f.attrs) =
        [⟨[attr [.nameValue (path ["default"]) (.int 3 false), named "a"]], some "x", .path (path ["u8"]) []⟩,
          ⟨[doc " Up."], some "y", .path (path ["u64"]) []⟩] := rfl
    rw [this]
    exact .cons ⟨rfl, rfl⟩ (.cons ⟨rfl, rfl⟩ .nil)
  · simp only [pointSource, List.forall_mem_cons]
    exact ⟨fun h => (nomatch h), fun _ => rfl, fun h => (nomatch h), fun _ h => (nomatch h)⟩

theorem last_of_check {metas : List Meta} (h : ∀ m ∈ metas, ∀ p as, m = .list p (some as) →
    ∀ x ∈ as.dropLast, ¬ x.pathOf.isIdent "default" = true ∨ ∃ q v, x = .nameValue q v) : DefaultLast metas := by
  intro m hm _ p pre x post he hx
  cases post with
  | nil => rfl
  | cons y ys =>
    have hmem : x ∈ (pre ++ x :: y :: ys).dropLast := by
      rw [List.dropLast_append_of_ne_nil (by simp)]; simp
    rcases h m hm p _ he x hmem with h | ⟨q, v, h⟩
    · exact absurd (word_path hx) h
    · obtain ⟨q', h', _⟩ := hx
      rw [h] at h'; exact nomatch h'

theorem point_last : ∀ d ∈ pointFields, DefaultLast d.metas := by
  simp only [pointFields, List.forall_mem_cons]
  refine ⟨last_of_check ?_, last_of_check ?_, fun _ h => (nomatch h)⟩
  · simp only [attr, List.forall_mem_cons]
    refine ⟨?_, fun _ h => (nomatch h)⟩
    intro p as h x hx
    cases h
    simp only [List.dropLast, List.mem_singleton] at hx
    exact .inr ⟨_, _, hx⟩
  · simp only [doc, List.forall_mem_cons]
    exact ⟨fun _ _ h => (nomatch h), fun _ h => (nomatch h)⟩

/-- The record above with a field that is left out. -/
example : ∃ ps, parseFields linux pointSource = .ok ps ∧ ps.length = 2 := by
  obtain ⟨_, ps, hp, he⟩ := C89_read_record_partial (l := look) (u := {}) (remote := false) point_ok
    (show Active linux pointMetas pointMetas from rfl) (by decide +kernel) (by rfl) point_same point_last
  exact ⟨ps, hp, each_len he⟩

def enumSource : List (SVariant Meta) :=
  [⟨[], "A", some (.neg 1), []⟩, ⟨[attr [named "C"]], "B", none, [⟨[attr [word "default"]], none, .path (path ["u8"]) []⟩]⟩]
theorem enum_same : VariantsSame linux enumSource enumVariants := by
  refine ⟨?_, ?_⟩
  · rw [show (enumSource.filter fun v => isActive linux v.attrs) = enumSource from rfl]
    refine .cons ⟨rfl, rfl, rfl, .nil, fun _ h => (nomatch h)⟩ (.cons ⟨rfl, rfl, rfl, ?_, ?_⟩ .nil)
    · exact .cons ⟨rfl, rfl⟩ .nil
    · simp only [List.forall_mem_cons]
      exact ⟨fun h => (nomatch h), fun _ h => (nomatch h)⟩
  · simp only [enumSource, List.forall_mem_cons]
    exact ⟨fun h => (nomatch h), fun h => (nomatch h), fun _ h => (nomatch h)⟩

example : ∃ a, parseEnumAttrs look linux enumMetas = .ok (some a) ∧ a.discrType = some .int8 := by
  obtain ⟨a, h, _, _, _, _, _, ht, _⟩ := C89_read_enum_partial (l := look) (u := {}) (remote := false) enum_is
    (show Active linux enumMetas enumMetas from rfl) (by decide +kernel) (by decide +kernel) (by rfl)
    (fun a ha => ⟨("i8", .i8), by decide, by
      have : argsIn (fun m => m.pathOf.isIdent "repr") enumMetas = [word "i8"] := rfl
      rw [this, List.mem_singleton] at ha; rw [ha]; decide⟩) enum_same (by
      simp only [enumVariants, List.forall_mem_cons]
      refine ⟨⟨⟨by decide, by decide⟩, fun _ h => (nomatch h)⟩, ⟨trivial, ?_, fun _ h => (nomatch h)⟩, fun _ h => (nomatch h)⟩
      refine last_of_check ?_
      simp only [attr, List.forall_mem_cons]
      refine ⟨?_, fun _ h => (nomatch h)⟩
      intro p as h x hx
      cases h
      exact nomatch hx)
  exact ⟨a, h, ht⟩

def errorSource : List (SVariant Meta) :=
  [⟨[attr [named "Slow"]], "A", none, [⟨[], none, .path (path ["u8"]) []⟩]⟩, ⟨[], "B", some .other, []⟩]
example : ∃ a, parseEnumAttrs look linux errorMetas = .ok (some a) ∧ a.shape = .error true := by
  obtain ⟨a, h, _, _, _, hs, _⟩ := C89_read_error_partial (l := look) (u := {}) (remote := false) (vs := errorSource) error_is
    (show Active linux errorMetas errorMetas from rfl) (by decide +kernel) (by decide +kernel) (by rfl) rfl (by decide) (by
      refine ⟨?_, ?_⟩
      · rw [show (errorSource.filter fun v => isActive linux v.attrs) = errorSource from rfl]
        refine .cons ⟨rfl, rfl, rfl, ?_, ?_⟩ (.cons ⟨rfl, rfl, rfl, .nil, fun _ h => (nomatch h)⟩ .nil)
        · exact .cons ⟨rfl, rfl⟩ .nil
        · simp only [List.forall_mem_cons]
          exact ⟨fun h => (nomatch h), fun _ h => (nomatch h)⟩
      · simp only [errorSource, List.forall_mem_cons]
        exact ⟨fun h => (nomatch h), fun h => (nomatch h), fun _ h => (nomatch h)⟩)
  exact ⟨a, h, hs⟩

/-! ### Where they differ -/

/-- `#[uniffi(default, name = "a")]` on a field compiles, and the reader of sources refuses it. -/
theorem C89_default_first_broken :
    let metas := [attr [word "default", named "a"]]
    expandField true ⟨metas, some "x", .u8⟩ = .ok ⟨"a", some "x", .u8, some .default, ""⟩ ∧
    parseFields linux [⟨metas, some "x", .path (path ["u8"]) []⟩] = .error .syn := ⟨rfl, rfl⟩

/-- `#[uniffi(flat_error, with_try_read)]` on an error compiles, and the reader of sources refuses it. -/
theorem C89_with_try_read_broken :
    let metas := [derive "Error", attr [word "flat_error", word "with_try_read"]]
    expandError "m" metas "E" [] = .ok (.error "m" "E" none true [] false "") ∧
    parseEnumAttrs look linux metas = .error .syn := ⟨rfl, by rfl⟩

/-- `handle_unknown_callback_error` is not accepted although the comment at enum_.rs:437-438 says that it is allowed. -/
theorem C89_unknown_callback_broken :
    expandError "m" [derive "Error", attr [word "handle_unknown_callback_error"]] "E" [] = .error .syn := rfl

/-- `#[repr(C)]` and `#[repr(u8, C)]` on an enum compile, with no type recorded; after `#[repr(C, u8)]` it is `u8`. The
reader of sources refuses all three. -/
theorem C89_repr_broken :
    (∀ ws ∈ [["C"], ["u8", "C"]], expandEnum "m" [derive "Enum", repr ws] "E" [] = .ok (.enum "m" "E" none none [] false "")) ∧
    expandEnum "m" [derive "Enum", repr ["C", "u8"]] "E" [] = .ok (.enum "m" "E" none (some .u8) [] false "") ∧
    ∀ ws ∈ [["C"], ["u8", "C"], ["C", "u8"]], parseEnumAttrs look linux [derive "Enum", repr ws] = .error .syn := by
  refine ⟨?_, rfl, ?_⟩
  · simp only [List.forall_mem_cons]
    exact ⟨rfl, rfl, fun _ h => (nomatch h)⟩
  · simp only [List.forall_mem_cons]
    exact ⟨by rfl, by rfl, by rfl, fun _ h => (nomatch h)⟩

/-- `A = -9223372036854775808` in an enum with `#[repr(i64)]` compiles, and the reader of sources refuses it. -/
theorem C89_smallest_broken :
    (expandVariant ⟨[], "A", some (.neg (2 ^ 63)), []⟩ = .ok ⟨"A", none, some (-(2 ^ 63)), [], ""⟩) ∧
    parseVariants linux (some .int64) [⟨[], "A", some (.neg (2 ^ 63)), []⟩] = .error .syn := ⟨rfl, rfl⟩

/-- Of an error with `#[repr(u8)]` the macro records no type, while the reader of sources keeps it. -/
theorem C89_error_repr_broken :
    let metas := [derive "Error", repr ["u8"]]
    expandError "m" metas "E" [] = .ok (.error "m" "E" none false [] false "") ∧
    ∃ a, parseEnumAttrs look linux metas = .ok (some a) ∧ a.discrType = some .uint8 := ⟨rfl, _, by rfl, rfl⟩

/-- What the reader of sources accepts need not compile: an argument on a field of an error, a name twice. -/
theorem C89_reader_lenient_broken :
    (∃ ps, parseVariants linux none [⟨[], "A", none, [⟨[attr [named "a"]], some "x", .path (path ["u8"]) []⟩]⟩] = .ok ps) ∧
    expandError "m" [derive "Error"] "E" [⟨[], "A", none, [⟨[attr [named "a"]], some "x", .u8⟩]⟩] = .error .syn ∧
    (∃ a, typeAttrs [attr [named "A"], attr [named "B"]] {} = .ok a ∧ a.name = some "B") ∧
    expandObject "m" [attr [named "A"], attr [named "B"]] "T" = .error .syn :=
  ⟨⟨_, rfl⟩, rfl, ⟨_, rfl, rfl⟩, rfl⟩

end Verif.Props.Derive
