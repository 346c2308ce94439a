import Verif.Udl.TextTok
/-
Running the grammar of Parse.lean on text is like running it on the tokens of that text.
-/
namespace Verif.Udl.TextComm
open Verif.Udl Verif.Udl.File Verif.Udl.Parse Verif.Udl.TextSpec Verif.Udl.TextTok

/-- Text that is still to be read and its tokens. -/
def Rel (ts : List Tok) (s : Text) : Prop :=
  ∃ gap core, s = gap ++ core ∧ Trivia gap ∧ Spells ts core ∧ (ts = [] → gap = []) ∧
    (startsWithDoc ts → ∀ c ∈ gap, space c)

/-- A parser on text does what a parser on tokens does. -/
def Comm {α : Type} (p : Parser Text α) (q : Parser (List Tok) α) : Prop :=
  ∀ ts s, Rel ts s →
    match q ts with
    | .unknown => True
    | .fail => p s = .fail
    | .ok a ts' => ∃ s', p s = .ok a s' ∧ Rel ts' s'

variable {α β : Type}

theorem comm_pure (a : α) : Comm (pure a) (pure a) := fun ts s h => ⟨s, rfl, h⟩

theorem comm_bind {p : Parser Text α} {q : Parser (List Tok) α} {f : α → Parser Text β}
    {g : α → Parser (List Tok) β} (h : Comm p q) (h' : ∀ a, Comm (f a) (g a)) : Comm (p >>= f) (q >>= g) := by
  intro ts s hr
  have := h ts s hr
  rw [bind_eq]
  revert this
  cases hq : q ts with
  | ok a ts' =>
    rintro ⟨s', e, hr'⟩
    have := h' a ts' s' hr'
    rw [bind_ok e]
    exact this
  | fail => intro e; exact bind_fail e
  | unknown => intro _; trivial

theorem comm_fail : Comm (fun _ => .fail) (fun _ => .fail : Parser (List Tok) α) := fun _ _ _ => rfl

/-- The same for lists of alternatives. -/
def CommAll : List (Parser Text α) → List (Parser (List Tok) α) → Prop
  | [], [] => True
  | p :: ps, q :: qs => Comm p q ∧ CommAll ps qs
  | _, _ => False

theorem comm_alt {ps : List (Parser Text α)} {qs : List (Parser (List Tok) α)} (h : CommAll ps qs) :
    Comm (alt ps) (alt qs) := by
  induction ps generalizing qs with
  | nil =>
    match qs, h with
    | [], _ => exact fun _ _ _ => rfl
  | cons p ps ih =>
    match qs, h with
    | q :: qs, h =>
      intro ts s hr
      have h1 := h.1 ts s hr
      have h2 := ih h.2 ts s hr
      simp only [alt]
      revert h1
      cases hq : q ts with
      | ok a ts' => rintro ⟨s', e, hr'⟩; exact ⟨s', by rw [e], hr'⟩
      | fail =>
        intro e
        revert h2
        dsimp only
        rw [e]
        exact fun h => h
      | unknown => intro _; trivial

theorem commAll_append {ps ps' : List (Parser Text α)} {qs qs' : List (Parser (List Tok) α)} (h : CommAll ps qs)
    (h' : CommAll ps' qs') : CommAll (ps ++ ps') (qs ++ qs') := by
  induction ps generalizing qs with
  | nil =>
    match qs, h with
    | [], _ => exact h'
  | cons p ps ih =>
    match qs, h with
    | q :: qs, h => exact ⟨h.1, ih h.2⟩

theorem commAll_map {γ : Type} {f : γ → Parser Text α} {g : γ → Parser (List Tok) α} {l : List γ}
    (h : ∀ x ∈ l, Comm (f x) (g x)) : CommAll (l.map f) (l.map g) := by
  induction l with
  | nil => trivial
  | cons x l ih => exact ⟨h x (List.mem_cons_self ..), ih fun y hy => h y (List.mem_cons_of_mem _ hy)⟩

theorem comm_opt {p : Parser Text α} {q : Parser (List Tok) α} (h : Comm p q) : Comm (opt p) (opt q) := by
  intro ts s hr
  have := h ts s hr
  unfold opt
  revert this
  cases hq : q ts with
  | ok a ts' => rintro ⟨s', e, hr'⟩; exact ⟨s', by rw [e], hr'⟩
  | fail => intro e; exact ⟨s, by rw [e], hr⟩
  | unknown => intro _; trivial

theorem comm_flag {p : Parser Text α} {q : Parser (List Tok) α} (h : Comm p q) : Comm (flag p) (flag q) :=
  comm_bind (comm_opt h) fun _ => comm_pure _

theorem comm_many {p : Parser Text α} {q : Parser (List Tok) α} (h : Comm p q) :
    ∀ n, Comm (many p n) (many q n) := by
  intro n
  induction n with
  | zero => exact fun _ _ _ => rfl
  | succ n ih =>
    intro ts s hr
    have := h ts s hr
    unfold many
    revert this
    cases hq : q ts with
    | ok a ts' =>
      rintro ⟨s', e, hr'⟩
      have := ih ts' s' hr'
      rw [e]
      dsimp only
      revert this
      cases many q n ts' with
      | ok as ts'' => rintro ⟨s'', e, hr''⟩; exact ⟨s'', by rw [e], hr''⟩
      | fail => intro e; dsimp only at e ⊢; rw [e]
      | unknown => intro _; trivial
    | fail => intro e; exact ⟨s, by rw [e], hr⟩
    | unknown => intro _; trivial

theorem comm_more {sep : Parser Text Unit} {sep' : Parser (List Tok) Unit} {p : Parser Text α}
    {q : Parser (List Tok) α} (hs : Comm sep sep') (h : Comm p q) : ∀ n, Comm (more sep p n) (more sep' q n) := by
  intro n
  induction n with
  | zero => exact fun _ _ _ => rfl
  | succ n ih =>
    intro ts s hr
    have := hs ts s hr
    unfold more
    revert this
    cases hq : sep' ts with
    | ok a ts1 =>
      rintro ⟨s1, e, hr1⟩
      have := h ts1 s1 hr1
      rw [e]
      dsimp only
      revert this
      cases q ts1 with
      | ok a ts2 =>
        rintro ⟨s2, e, hr2⟩
        have := ih ts2 s2 hr2
        rw [e]
        dsimp only
        revert this
        cases more sep' q n ts2 with
        | ok as ts3 => rintro ⟨s3, e, hr3⟩; exact ⟨s3, by rw [e], hr3⟩
        | fail => intro e; dsimp only at e ⊢; rw [e]
        | unknown => intro _; trivial
      | fail => intro e; dsimp only at e ⊢; exact ⟨s, by rw [e], hr⟩
      | unknown => intro _; trivial
    | fail => intro e; exact ⟨s, by rw [e], hr⟩
    | unknown => intro _; trivial

theorem comm_sepBy1 {sep : Parser Text Unit} {sep' : Parser (List Tok) Unit} {p : Parser Text α}
    {q : Parser (List Tok) α} (hs : Comm sep sep') (h : Comm p q) (n : Nat) : Comm (sepBy1 n sep p) (sepBy1 n sep' q) :=
  comm_bind h fun _ => comm_bind (comm_more hs h n) fun _ => comm_pure _

theorem comm_sepBy {sep : Parser Text Unit} {sep' : Parser (List Tok) Unit} {p : Parser Text α}
    {q : Parser (List Tok) α} (hs : Comm sep sep') (h : Comm p q) (n : Nat) :
    Comm (sepBy n sep p) (sepBy n sep' q) := by
  intro ts s hr
  have := h ts s hr
  unfold sepBy
  revert this
  cases hq : q ts with
  | ok a ts' =>
    rintro ⟨s', e, hr'⟩
    have := comm_more hs h n ts' s' hr'
    rw [e]
    dsimp only
    revert this
    cases more sep' q n ts' with
    | ok as ts'' => rintro ⟨s'', e, hr''⟩; exact ⟨s'', by rw [e], hr''⟩
    | fail => intro e; dsimp only at e ⊢; rw [e]
    | unknown => intro _; trivial
  | fail => intro e; exact ⟨s, by rw [e], hr⟩
  | unknown => intro _; trivial

theorem comm_ite {c : Prop} [Decidable c] {p p' : Parser Text α} {q q' : Parser (List Tok) α} (h : Comm p q)
    (h' : Comm p' q') : Comm (if c then p else p') (if c then q else q') := by
  split
  · exact h
  · exact h'

/-! ### The grammar -/

/-- The keywords of the grammar. -/
def keywords : List String := ["unsigned", "long", "short", "unrestricted", "float", "double", "undefined", "ByteString",
  "DOMString", "USVString", "byte", "octet", "object", "symbol", "ArrayBuffer", "DataView", "Int8Array", "Int16Array",
  "Int32Array", "Uint8Array", "Uint16Array", "Uint32Array", "Uint8ClampedArray", "Float32Array", "Float64Array",
  "ArrayBufferView", "BufferSource", "Promise", "boolean", "sequence", "Error", "FrozenArray", "record", "or", "any",
  "true", "false", "-Infinity", "Infinity", "NaN", "null", "optional", "readonly", "attribute", "const", "stringifier",
  "inherit", "static", "constructor", "getter", "setter", "deleter", "legacycaller", "async", "iterable", "maplike",
  "setlike", "required", "callback", "interface", "mixin", "namespace", "dictionary", "partial", "enum", "typedef",
  "includes", "implements"]

/-- Basic parsers for text that do what those for tokens do. -/
structure CommBasic (p : Basic Text) : Prop where
  punct : ∀ x ∈ symbols, Comm (p.punct x) (tok.punct x)
  kw : ∀ k ∈ keywords, Comm (p.kw k) (tok.kw k)
  ident : Comm p.ident tok.ident
  int : Comm p.int tok.int
  float : Comm p.float tok.float
  str : Comm p.str tok.str
  doc : Comm p.doc tok.doc

structure CommRec (r : Rec Text) (r' : Rec (List Tok)) : Prop where
  nonAny : Comm r.nonAny r'.nonAny
  ty : Comm r.ty r'.ty
  union : Comm r.union r'.union
  args : Comm r.args r'.args

/-- One step of a proof that a production commutes. -/
syntax "comm1" term : tactic
macro_rules
  | `(tactic| comm1 $h) => `(tactic| first
    | assumption
    | exact comm_pure _
    | exact ($h).punct _ (by decide)
    | exact ($h).kw _ (by decide)
    | exact ($h).ident
    | exact ($h).int
    | exact ($h).float
    | exact ($h).str
    | exact ($h).doc
    | exact True.intro
    | (refine comm_bind ?_ fun _ => ?_)
    | (refine comm_alt ?_)
    | (refine commAll_append ?_ ?_)
    | (refine commAll_map ?_; intro k hk)
    | (refine comm_opt ?_)
    | (refine comm_flag ?_)
    | (refine comm_sepBy ?_ ?_ _)
    | (refine comm_sepBy1 ?_ ?_ _)
    | (refine comm_many ?_ _)
    | (refine comm_more ?_ ?_ _)
    | (refine comm_ite ?_ ?_)
    | (refine And.intro ?_ ?_))

syntax "comm_all" term : tactic
macro_rules
  | `(tactic| comm_all $h) => `(tactic| repeat' (comm1 $h))

section
variable {p : Basic Text} (h : CommBasic p)
include h

theorem c_within {q : Parser Text α} {q' : Parser (List Tok) α} (l r : String) (hl : l ∈ symbols) (hr : r ∈ symbols)
    (hq : Comm q q') : Comm (within p l r q) (within tok l r q') := by
  unfold within
  have := h.punct l hl
  have := h.punct r hr
  comm_all h

theorem c_attr {n : Nat} {r : Rec Text} {r' : Rec (List Tok)} (hr : CommRec r r') :
    Comm (attr p n r) (attr tok n r') := by
  have h1 := c_within h "(" ")" (by decide) (by decide) hr.args
  have h2 := c_within h "(" ")" (by decide) (by decide) (comm_sepBy (h.punct "," (by decide)) h.ident n)
  unfold attr
  comm_all h

theorem c_attrs {n : Nat} {r : Rec Text} {r' : Rec (List Tok)} (hr : CommRec r r') :
    Comm (attrs p n r) (attrs tok n r') :=
  comm_opt (c_within h "[" "]" (by decide) (by decide) (comm_sepBy (h.punct "," (by decide)) (c_attr h hr) n))

theorem c_mayBeNull {q : Parser Text α} {q' : Parser (List Tok) α} {f : α → Bool → β} (hq : Comm q q') :
    Comm (mayBeNull p q f) (mayBeNull tok q' f) := by
  unfold mayBeNull
  comm_all h

theorem c_keyword {k : String} (hk : k ∈ keywords) {f : Bool → WTy} : Comm (keyword p k f) (keyword tok k f) :=
  c_mayBeNull h (h.kw k hk)

theorem c_integerType : Comm (integerType p) (integerType tok) := by
  unfold integerType
  comm_all h

theorem c_floatType : Comm (floatType p) (floatType tok) := by
  unfold floatType
  comm_all h

theorem c_retType {q : Parser Text WTy} {q' : Parser (List Tok) WTy} (hq : Comm q q') :
    Comm (retType p q) (retType tok q') := by
  unfold retType
  comm_all h

theorem c_keyType {r : Rec Text} {r' : Rec (List Tok)} (hr : CommRec r r') : Comm (keyType p r) (keyType tok r') := by
  have := hr.nonAny
  unfold keyType
  comm_all h

theorem c_nonAny {r : Rec Text} {r' : Rec (List Tok)} (hr : CommRec r r') : Comm (nonAny p r) (nonAny tok r') := by
  have h1 := c_within h "<" ">" (by decide) (by decide) (c_retType h hr.ty)
  have h2 := c_within h "<" ">" (by decide) (by decide) hr.ty
  have h3 := hr.ty
  have h4 := c_keyType h hr
  have h5 := c_within h "<" ">" (by decide) (by decide) (show Comm
    (do
        let k ← keyType p r
        p.punct ","
        let v ← r.ty
        pure (k, v))
    (do
        let k ← keyType tok r'
        tok.punct ","
        let v ← r'.ty
        pure (k, v)) by comm_all h)
  have k1 : CommAll (plain1.map fun k => keyword p k fun _ => .other k)
      (plain1.map fun k => keyword tok k fun _ => .other k) :=
    commAll_map fun k hk => c_keyword h (by revert k; decide)
  have k2 : CommAll (plain2.map fun k => keyword p k fun _ => .other k)
      (plain2.map fun k => keyword tok k fun _ => .other k) :=
    commAll_map fun k hk => c_keyword h (by revert k; decide)
  have k3 : CommAll (plain3.map fun k => keyword p k fun _ => .other k)
      (plain3.map fun k => keyword tok k fun _ => .other k) :=
    commAll_map fun k hk => c_keyword h (by revert k; decide)
  have e1 := c_integerType h
  have e2 := c_floatType h
  unfold nonAny
  refine comm_alt (commAll_append (commAll_append (commAll_append (commAll_append (commAll_append (commAll_append
    ?_ k1) ?_) k2) ?_) k3) ?_)
  · refine ⟨?_, c_mayBeNull h e1, c_mayBeNull h e2, c_keyword h (by decide), trivial⟩
    comm_all h
  · refine ⟨c_mayBeNull h ?_, trivial⟩
    comm_all h
  · exact ⟨c_keyword h (by decide), trivial⟩
  · refine ⟨c_mayBeNull h ?_, c_mayBeNull h ?_, c_mayBeNull h h.ident, trivial⟩
    · comm_all h
    · comm_all h

theorem c_unionType {n : Nat} {r : Rec Text} {r' : Rec (List Tok)} (hr : CommRec r r') :
    Comm (unionType p n r) (unionType tok n r') := by
  have h1 := c_attrs h (n := n) hr
  have h2 := hr.nonAny
  have h3 := hr.union
  unfold unionType
  refine c_mayBeNull h (c_within h "(" ")" (by decide) (by decide) ?_)
  comm_all h

theorem c_typ {n : Nat} {r : Rec Text} {r' : Rec (List Tok)} (hr : CommRec r r') : Comm (typ p n r) (typ tok n r') := by
  have h1 := c_nonAny h hr
  have h2 := c_unionType h (n := n) hr
  unfold typ
  comm_all h

theorem c_boolLit : Comm (boolLit p) (boolLit tok) := by
  unfold boolLit
  comm_all h

theorem c_floatLit : Comm (floatLit p) (floatLit tok) := by
  unfold floatLit
  comm_all h

theorem c_intLit : Comm (intLit p) (intLit tok) := by
  unfold intLit
  comm_all h

theorem c_nullLit : Comm (nullLit p) (nullLit tok) := by
  unfold nullLit
  comm_all h

theorem c_default : Comm (default_ p) (default_ tok) := by
  have h1 := c_boolLit h
  have h2 := c_floatLit h
  have h3 := c_intLit h
  have h4 := c_nullLit h
  unfold default_
  comm_all h

theorem c_attributedType {n : Nat} {r : Rec Text} {r' : Rec (List Tok)} (hr : CommRec r r') :
    Comm (attributedType p n r) (attributedType tok n r') := by
  have h1 := c_attrs h (n := n) hr
  have h2 := c_typ h (n := n) hr
  unfold attributedType
  comm_all h

theorem c_arg {n : Nat} {r : Rec Text} {r' : Rec (List Tok)} (hr : CommRec r r') :
    Comm (arg p n r) (arg tok n r') := by
  have h1 := c_attrs h (n := n) hr
  have h2 := c_typ h (n := n) hr
  have h3 := c_attributedType h (n := n) hr
  have h4 := c_default h
  unfold arg
  comm_all h

theorem c_argList {n : Nat} {r : Rec Text} {r' : Rec (List Tok)} (hr : CommRec r r') :
    Comm (argList p n r) (argList tok n r') :=
  comm_sepBy (h.punct "," (by decide)) (c_arg h hr) n

theorem c_recs {n : Nat} : ∀ d, CommRec (recs p n d) (recs tok n d) := by
  intro d
  induction d with
  | zero => exact ⟨comm_fail, comm_fail, comm_fail, comm_fail⟩
  | succ d ih => exact ⟨c_nonAny h ih, c_typ h ih, c_unionType h ih, c_argList h ih⟩

variable {n : Nat} {r : Rec Text} {r' : Rec (List Tok)} (hr : CommRec r r')
include hr

theorem c_args : Comm (within p "(" ")" (argList p n r)) (within tok "(" ")" (argList tok n r')) :=
  c_within h "(" ")" (by decide) (by decide) (c_argList h hr)

theorem c_opTail {f : Option String → List WArg → β} : Comm (opTail p n r f) (opTail tok n r' f) := by
  have h1 := c_args h (n := n) hr
  unfold opTail
  comm_all h

theorem c_ret : Comm (retType p (typ p n r)) (retType tok (typ tok n r')) := c_retType h (c_typ h hr)

theorem c_nsMember : Comm (nsMember p n r) (nsMember tok n r') := by
  have h1 := c_attrs h (n := n) hr
  have h2 := c_ret h (n := n) hr
  have h3 := c_attributedType h (n := n) hr
  unfold nsMember
  refine comm_alt ⟨?_, ?_, trivial⟩
  · refine comm_bind (comm_opt h.doc) fun _ => comm_bind h1 fun _ => comm_bind h2 fun _ => c_opTail h hr
  · comm_all h

omit hr in
theorem c_constType : Comm (constType p) (constType tok) := by
  have e1 := c_integerType h
  have e2 := c_floatType h
  unfold constType
  exact comm_alt ⟨c_mayBeNull h e1, c_mayBeNull h e2, c_mayBeNull h (h.kw _ (by decide)),
    c_mayBeNull h (h.kw _ (by decide)), c_mayBeNull h (h.kw _ (by decide)), c_mayBeNull h h.ident, trivial⟩

theorem c_constMember : Comm (constMember p n r) (constMember tok n r') := by
  have h1 := c_attrs h (n := n) hr
  have e0 := c_constType h
  have e1 := c_boolLit h
  have e2 := c_floatLit h
  have e3 := c_intLit h
  have e4 := c_nullLit h
  unfold constMember
  comm_all h

theorem c_stringifierMember : Comm (stringifierMember p n r) (stringifierMember tok n r') := by
  have h1 := c_attrs h (n := n) hr
  unfold stringifierMember
  comm_all h

theorem c_attributeMember {l : List String} (hl : ∀ k ∈ l, k ∈ keywords) :
    Comm (attributeMember p n r l) (attributeMember tok n r' l) := by
  have h1 := c_attrs h (n := n) hr
  have h2 := c_attributedType h (n := n) hr
  have h3 : Comm (alt (l.map p.kw)) (alt (l.map tok.kw)) :=
    comm_alt (commAll_map fun k hk => h.kw k (hl k hk))
  unfold attributeMember
  comm_all h

theorem c_ctorMember : Comm (ctorMember p n r) (ctorMember tok n r') := by
  have h1 := c_attrs h (n := n) hr
  have h2 := c_args h (n := n) hr
  unfold ctorMember
  comm_all h

omit hr in
theorem c_modifier : Comm (modifier p) (modifier tok) := by
  unfold modifier
  comm_all h

omit hr in
theorem c_special : Comm (special p) (special tok) := by
  unfold special
  exact comm_alt (commAll_map fun k hk => h.kw k (by revert k; decide))

theorem c_opMember : Comm (opMember p n r) (opMember tok n r') := by
  have h1 := c_attrs h (n := n) hr
  unfold opMember
  exact comm_bind (comm_opt h.doc) fun _ => comm_bind h1 fun _ => comm_bind (comm_opt (c_modifier h)) fun _ =>
    comm_bind (comm_flag (c_special h)) fun _ => comm_bind (c_ret h hr) fun _ => c_opTail h hr

theorem c_generics1 : Comm (generics1 p n r) (generics1 tok n r') := by
  have h1 := c_within h "<" ">" (by decide) (by decide) (c_attributedType h (n := n) hr)
  unfold generics1
  comm_all h

theorem c_generics2 : Comm (generics2 p n r) (generics2 tok n r') := by
  have h1 := c_attributedType h (n := n) hr
  unfold generics2
  refine comm_bind (c_within h "<" ">" (by decide) (by decide) ?_) fun _ => comm_pure _
  comm_all h

theorem c_iterableMember {g : Parser Text Unit} {g' : Parser (List Tok) Unit} (hg : Comm g g') (a : Bool) :
    Comm (iterableMember p n r g a) (iterableMember tok n r' g' a) := by
  have h1 := c_attrs h (n := n) hr
  have h2 := c_args h (n := n) hr
  unfold iterableMember
  comm_all h

theorem c_likeMember {g : Parser Text Unit} {g' : Parser (List Tok) Unit} (hg : Comm g g') {k : String}
    (hk : k ∈ keywords) : Comm (likeMember p n r k g) (likeMember tok n r' k g') := by
  have h1 := c_attrs h (n := n) hr
  have h2 := h.kw k hk
  unfold likeMember
  comm_all h

omit h hr in
theorem c_refused {q : Parser Text Unit} {q' : Parser (List Tok) Unit} (hq : Comm q q') {b : β} :
    Comm (refused q b) (refused q' b) := comm_bind hq fun _ => comm_pure _

theorem c_member : Comm (member p n r) (member tok n r') := by
  have g1 := c_generics1 h (n := n) hr
  have g2 := c_generics2 h (n := n) hr
  unfold member
  exact comm_alt ⟨c_refused (c_constMember h hr), c_refused (c_attributeMember h hr (by decide)), c_ctorMember h hr,
    c_opMember h hr, c_refused (c_iterableMember h hr g1 _), c_refused (c_iterableMember h hr g2 _),
    c_refused (c_iterableMember h hr g1 _), c_refused (c_iterableMember h hr g2 _),
    c_refused (c_likeMember h hr g2 (by decide)), c_refused (c_likeMember h hr g1 (by decide)),
    c_refused (c_stringifierMember h hr), trivial⟩

theorem c_mixinMember : Comm (mixinMember p n r) (mixinMember tok n r') := by
  have h1 := c_attrs h (n := n) hr
  unfold mixinMember
  refine comm_alt ⟨c_constMember h hr, ?_, c_attributeMember h hr (by decide), c_stringifierMember h hr, trivial⟩
  exact comm_bind h1 fun _ => comm_bind (comm_flag (h.kw _ (by decide))) fun _ => comm_bind (c_ret h hr) fun _ =>
    c_opTail h hr

theorem c_field : Comm (field p n r) (field tok n r') := by
  have h1 := c_attrs h (n := n) hr
  have h2 := c_typ h (n := n) hr
  have h3 := c_default h
  unfold field
  comm_all h

omit hr in
theorem c_variants : Comm (variants p n) (variants tok n) := by
  have h1 : Comm (variant p) (variant tok) := by
    unfold variant
    comm_all h
  unfold variants
  comm_all h

omit hr in
theorem c_inheritance : Comm (inheritance p) (inheritance tok) := by
  unfold inheritance
  comm_all h

omit hr in
theorem c_body {q : Parser Text α} {q' : Parser (List Tok) α} (hq : Comm q q') : Comm (body p q) (body tok q') := by
  have h1 := c_within h "{" "}" (by decide) (by decide) hq
  unfold body
  comm_all h

theorem c_definition : Comm (definition p n r) (definition tok n r') := by
  have h1 := c_attrs h (n := n) hr
  have h2 := c_ret h (n := n) hr
  have h3 := c_args h (n := n) hr
  have b1 := c_body h (comm_many (c_member h (n := n) hr) n)
  have b2 := c_body h (comm_many (c_mixinMember h (n := n) hr) n)
  have b3 := c_body h (comm_many (c_nsMember h (n := n) hr) n)
  have b4 := c_body h (comm_many (c_field h (n := n) hr) n)
  have b5 := c_body h (c_variants h (n := n))
  have h4 := c_inheritance h
  have h5 := c_attributedType h (n := n) hr
  unfold definition
  comm_all h

omit hr in
theorem c_definitions : Comm (definitions p n) (definitions tok n) := by
  unfold definitions
  exact comm_many (c_definition h (c_recs h n)) n

end

end Verif.Udl.TextComm
