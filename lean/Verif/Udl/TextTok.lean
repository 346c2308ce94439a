import Verif.Udl.Parse
import Verif.Udl.TextSpec
/-
The grammar of Parse.lean run on lists of tokens, and the proof that it reads what TextSpec.lean says.
-/
namespace Verif.Udl.TextTok
open Verif.Udl Verif.Udl.File Verif.Udl.Parse Verif.Udl.TextSpec

/-- A symbol. -/
def tokPunct (x : String) : Parser (List Tok) Unit
  | .punct y :: ts => if y = x then .ok () ts else .fail
  | _ => .fail

/-- A keyword. -/
def tokKw (k : String) : Parser (List Tok) Unit
  | .word b n :: ts => if b = false ∧ n = k then .ok () ts else .fail
  | _ => .fail

/-- A name. In text, `5` would be a name as well; this is not looked at. -/
def tokIdent : Parser (List Tok) String
  | .word _ n :: ts => .ok n ts
  | .int _ :: _ => .unknown
  | .float _ :: _ => .unknown
  | _ => .fail

/-- An integer. In text, `5.0` begins with an integer; this is not looked at. -/
def tokInt : Parser (List Tok) Text
  | .int t :: ts => .ok t ts
  | .float _ :: _ => .unknown
  | _ => .fail

/-- A floating-point number. -/
def tokFloat : Parser (List Tok) String
  | .float t :: ts => .ok t ts
  | _ => .fail

/-- A string. -/
def tokStr : Parser (List Tok) String
  | .str s :: ts => .ok s ts
  | _ => .fail

/-- Documentation. -/
def tokDoc : Parser (List Tok) String
  | .doc s :: ts => .ok s ts
  | _ => .fail

/-- The basic parsers for tokens. -/
def tok : Basic (List Tok) := ⟨tokPunct, tokKw, tokIdent, tokInt, tokFloat, tokStr, tokDoc⟩

variable {I α β : Type}

theorem bind_eq (q : Parser I α) (f : α → Parser I β) (i : I) :
    (q >>= f) i = match q i with
      | .ok a i' => f a i'
      | .fail => .fail
      | .unknown => .unknown := rfl

theorem pure_eq (a : α) (i : I) : (pure a : Parser I α) i = .ok a i := rfl

theorem bind_ok {q : Parser I α} {f : α → Parser I β} {i i' : I} {a : α} (h : q i = .ok a i') :
    (q >>= f) i = f a i' := by rw [bind_eq, h]

theorem bind_fail {q : Parser I α} {f : α → Parser I β} {i : I} (h : q i = .fail) :
    (q >>= f) i = .fail := by rw [bind_eq, h]

theorem alt_cons_fail {q : Parser I α} {qs : List (Parser I α)} {i : I} (h : q i = .fail) :
    alt (q :: qs) i = alt qs i := by simp only [alt, h]

theorem alt_cons_ok {q : Parser I α} {qs : List (Parser I α)} {i i' : I} {a : α} (h : q i = .ok a i') :
    alt (q :: qs) i = .ok a i' := by simp only [alt, h]

theorem opt_ok {q : Parser I α} {i i' : I} {a : α} (h : q i = .ok a i') : opt q i = .ok (some a) i' := by
  simp only [opt, h]

theorem opt_fail {q : Parser I α} {i : I} (h : q i = .fail) : opt q i = .ok none i := by
  simp only [opt, h]

theorem flag_ok {q : Parser I α} {i i' : I} {a : α} (h : q i = .ok a i') : flag q i = .ok true i' := by
  rw [flag, bind_ok (opt_ok h)]; rfl

theorem flag_fail {q : Parser I α} {i : I} (h : q i = .fail) : flag q i = .ok false i := by
  rw [flag, bind_ok (opt_fail h)]; rfl

theorem sym_ok (x : String) (ts : List Tok) : tok.punct x (.punct x :: ts) = .ok () ts := by
  simp [tok, tokPunct]

theorem sym_fail {x : String} {ts : List Tok} (h : ts.head? ≠ some (.punct x)) : tok.punct x ts = .fail := by
  unfold tok tokPunct
  dsimp only
  split
  · simp_all
  · rfl

theorem key_ok (x : String) (ts : List Tok) : tok.kw x (.word false x :: ts) = .ok () ts := by
  simp [tok, tokKw]

theorem key_fail {x : String} {ts : List Tok} (h : ts.head? ≠ some (.word false x)) : tok.kw x ts = .fail := by
  unfold tok tokKw
  dsimp only
  split
  · simp_all
  · rfl

theorem ident_ok (b : Bool) (x : String) (ts : List Tok) : tok.ident (.word b x :: ts) = .ok x ts := rfl
theorem ident_sym (x : String) (ts : List Tok) : tok.ident (.punct x :: ts) = .fail := rfl
theorem str_ok (x : String) (ts : List Tok) : tok.str (.str x :: ts) = .ok x ts := rfl
theorem ident_str (x : String) (ts : List Tok) : tok.ident (.str x :: ts) = .fail := rfl

theorem within_ok {l r : String} {q : Parser (List Tok) α} {i i' : List Tok} {a : α}
    (h : q i = .ok a (.punct r :: i')) : within tok l r q (.punct l :: i) = .ok a i' := by
  rw [within, bind_ok (sym_ok l i), bind_ok h, bind_ok (sym_ok r i')]; rfl

theorem within_fail {l r : String} {q : Parser (List Tok) α} {i : List Tok} (h : i.head? ≠ some (.punct l)) :
    within tok l r q i = .fail := by
  rw [within, bind_fail (sym_fail h)]

/-! ### Lists -/

theorem more_ok {W : α → List Tok → Prop} {q : Parser (List Tok) α} {F : List Tok → Prop} {N : Nat}
    (hq : ∀ a ts rest, W a ts → ts.length < N → F rest → q (ts ++ rest) = .ok a rest)
    (hF : ∀ ts, F (sym "," :: ts)) {as : List α} {ts : List Tok} (h : Commas1 W as ts) :
    ∀ m rest, ts.length + 1 < m → ts.length < N → F rest → rest.head? ≠ some (sym ",") →
      more (tok.punct ",") q m (sym "," :: (ts ++ rest)) = .ok as rest := by
  induction h with
  | @one a ts hw =>
    intro m rest hm hN hr hc
    match m, hm with
    | m + 2, _ =>
      simp only [more, sym_ok, hq _ _ _ hw hN hr, sym_fail hc]
  | @cons a as ts us hw _ ih =>
    intro m rest hm hN hr hc
    match m, hm with
    | m + 1, hm =>
      simp only [List.length_append, List.length_cons] at hm hN
      rw [List.append_assoc]
      simp only [more, sym_ok, List.cons_append, hq _ _ _ hw (by omega) (hF _)]
      rw [ih m rest (by omega) (by omega) hr hc]

theorem sepBy1_ok {W : α → List Tok → Prop} {q : Parser (List Tok) α} {F : List Tok → Prop} {N n : Nat}
    (hq : ∀ a ts rest, W a ts → ts.length < N → F rest → q (ts ++ rest) = .ok a rest)
    (hF : ∀ ts, F (sym "," :: ts)) {as : List α} {ts rest : List Tok} (h : Commas1 W as ts)
    (hn : ts.length + 1 < n) (hN : ts.length < N) (hr : F rest) (hc : more (tok.punct ",") q n rest = .ok [] rest)
    (hc' : ∀ us m, us.length + 1 < m → us.length < N → ∀ bs, Commas1 W bs us →
      more (tok.punct ",") q m (sym "," :: (us ++ rest)) = .ok bs rest) :
    sepBy1 n (tok.punct ",") q (ts ++ rest) = .ok as rest := by
  cases h with
  | one hw => rw [sepBy1, bind_ok (hq _ _ _ hw hN hr), bind_ok hc]; rfl
  | @cons a as ts us hw h =>
    simp only [List.length_append, List.length_cons] at hn hN
    rw [List.append_assoc, List.cons_append, sepBy1, bind_ok (hq _ _ _ hw (by omega) (hF _)),
      bind_ok (hc' us n (by omega) (by omega) _ h)]
    rfl

theorem sepBy_ok {W : α → List Tok → Prop} {q : Parser (List Tok) α} {F : List Tok → Prop} {N n : Nat}
    (hq : ∀ a ts rest, W a ts → ts.length < N → F rest → q (ts ++ rest) = .ok a rest)
    (hF : ∀ ts, F (sym "," :: ts)) {as : List α} {ts rest : List Tok} (h : Commas W as ts)
    (hn : ts.length + 1 < n) (hN : ts.length < N) (hr : F rest) (hc : rest.head? ≠ some (sym ","))
    (he : q rest = .fail) :
    sepBy n (tok.punct ",") q (ts ++ rest) = .ok as rest := by
  cases h with
  | nil => simp only [List.nil_append, sepBy, he]
  | some h =>
    have : sepBy1 n (tok.punct ",") q (ts ++ rest) = .ok as rest := by
      refine sepBy1_ok hq hF h hn hN hr ?_ fun us m h1 h2 bs hb => more_ok hq hF hb m rest h1 h2 hr hc
      match n, hn with
      | n + 1, _ => simp only [more, sym_fail hc]
    rw [sepBy1, bind_eq] at this
    rw [sepBy]
    split at this
    · rename_i a i' heq
      rw [bind_eq] at this
      rw [heq]
      dsimp only at this ⊢
      split at this
      · rename_i heq'
        rw [heq']
        exact this
      · cases this
      · cases this
    · cases this
    · cases this

theorem many_ok {W : α → List Tok → Prop} {q : Parser (List Tok) α} {N : Nat}
    (hq : ∀ a ts rest, W a ts → ts.length < N → q (ts ++ rest) = .ok a rest)
    (hne : ∀ a ts, W a ts → ts ≠ []) {as : List α} {ts : List Tok} (h : All W as ts) :
    ∀ n rest, ts.length < n → ts.length < N → q rest = .fail → many q n (ts ++ rest) = .ok as rest := by
  induction h with
  | nil =>
    intro n rest hn _ he
    match n, hn with
    | n + 1, _ => simp only [many, List.nil_append, he]
  | @cons a as ts us hw _ ih =>
    intro n rest hn hN he
    match n, hn with
    | n + 1, hn =>
      have := List.length_pos_iff.2 (hne _ _ hw)
      simp only [List.length_append] at hn hN
      rw [List.append_assoc]
      simp only [many, hq _ _ _ hw (by omega), ih n rest (by omega) (by omega) he]

/-! ### Attributes -/

/-- What may follow a type. -/
def NoTail (ts : List Tok) : Prop := ts.head? ≠ some (sym "?") ∧ ts.head? ≠ some (sym "<")

/-- What may follow an attribute in a list. -/
def NoAttr (ts : List Tok) : Prop := ts.head? ≠ some (sym "(") ∧ ts.head? ≠ some (sym "=")

theorem names_ok {n : Nat} {l : List String} {ts rest : List Tok} (h : Commas Name l ts) (hn : ts.length + 1 < n) :
    sepBy n (tok.punct ",") tok.ident (ts ++ sym ")" :: rest) = .ok l (sym ")" :: rest) := by
  refine sepBy_ok (F := fun _ => True) (N := n) ?_ (fun _ => trivial) h hn (by omega) trivial (by simp) rfl
  intro a ts rest hw _ _
  obtain ⟨b, rfl⟩ := hw
  rfl

theorem attr_ok {n : Nat} {r : Rec (List Tok)} {a : Attr} {ts rest : List Tok} (h : AttrW a ts)
    (hn : ts.length < n) (hr : NoAttr rest) : attr tok n r (ts ++ rest) = .ok a rest := by
  have e1 : ∀ (b : Bool) (x : String) (us : List Tok) (f : String → Parser (List Tok) Attr),
      (tok.ident >>= f) (.word b x :: us) = f x us := fun b x us f => bind_ok (ident_ok b x us)
  unfold attr
  cases h with
  | noArgs h =>
    obtain ⟨b, rfl⟩ := h
    simp only [List.cons_append, List.nil_append]
    rw [alt_cons_fail (by rw [e1, bind_fail (within_fail hr.1)]),
      alt_cons_fail (by rw [e1, bind_fail (sym_fail hr.2)]),
      alt_cons_fail (by rw [e1, bind_fail (sym_fail hr.2)]),
      alt_cons_fail (by rw [e1, bind_fail (sym_fail hr.2)]),
      alt_cons_ok (e1 _ _ _ _)]
  | ident h h' =>
    obtain ⟨b, rfl⟩ := h
    obtain ⟨c, rfl⟩ := h'
    simp only [List.cons_append, List.nil_append]
    rw [alt_cons_fail (by rw [e1, bind_fail (within_fail (by simp))]),
      alt_cons_fail (by rw [e1, bind_ok (sym_ok _ _), e1, bind_fail (within_fail hr.1)]),
      alt_cons_fail (by rw [e1, bind_ok (sym_ok _ _), bind_fail (within_fail (by simp))]),
      alt_cons_ok (by rw [e1, bind_ok (sym_ok _ _), alt_cons_ok (e1 _ _ _ _)])]
  | quoted h =>
    obtain ⟨b, rfl⟩ := h
    simp only [List.cons_append, List.nil_append]
    rw [alt_cons_fail (by rw [e1, bind_fail (within_fail (by simp))]),
      alt_cons_fail (by rw [e1, bind_ok (sym_ok _ _), bind_fail (ident_str _ _)]),
      alt_cons_fail (by rw [e1, bind_ok (sym_ok _ _), bind_fail (within_fail (by simp))]),
      alt_cons_ok (by rw [e1, bind_ok (sym_ok _ _), alt_cons_fail (bind_fail (ident_str _ _)),
        alt_cons_ok (by rw [bind_ok (str_ok _ _)]; rfl)])]
  | @list a l ts us h hl =>
    obtain ⟨b, rfl⟩ := h
    simp only [List.cons_append, List.nil_append, List.length_cons, List.length_append, List.append_assoc] at hn ⊢
    rw [alt_cons_fail (by rw [e1, bind_fail (within_fail (by simp))]),
      alt_cons_fail (by rw [e1, bind_ok (sym_ok _ _), bind_fail (ident_sym _ _)]),
      alt_cons_ok (by rw [e1, bind_ok (sym_ok _ _), bind_ok (within_ok (names_ok hl (by omega)))]; rfl)]

theorem attr_sym {n : Nat} {r : Rec (List Tok)} (x : String) (ts : List Tok) :
    attr tok n r (.punct x :: ts) = .fail := by
  unfold attr
  rw [alt_cons_fail (bind_fail (ident_sym _ _)), alt_cons_fail (bind_fail (ident_sym _ _)),
    alt_cons_fail (bind_fail (ident_sym _ _)), alt_cons_fail (bind_fail (ident_sym _ _)),
    alt_cons_fail (bind_fail (ident_sym _ _))]
  rfl

theorem attrs_none {n : Nat} {r : Rec (List Tok)} {rest : List Tok} (hr : rest.head? ≠ some (sym "[")) :
    attrs tok n r rest = .ok none rest := opt_fail (within_fail hr)

theorem attrs_ok {n : Nat} {r : Rec (List Tok)} {a : Attrs} {ts rest : List Tok} (h : AttrsW a ts)
    (hn : ts.length < n) (hr : rest.head? ≠ some (sym "[")) : attrs tok n r (ts ++ rest) = .ok a rest := by
  cases h with
  | none => exact attrs_none hr
  | some h =>
    obtain ⟨us, rfl, h⟩ := h
    simp only [List.cons_append, List.nil_append, List.length_cons, List.length_append, List.append_assoc,
      List.length_nil] at hn ⊢
    refine opt_ok (within_ok ?_)
    refine sepBy_ok (F := NoAttr) (N := n) ?_ ?_ h (by omega) (by omega) ?_ (by simp) (attr_sym _ _)
    · intro a ts rest hw hl hr
      exact attr_ok hw hl hr
    · intro ts; simp [NoAttr]
    · simp [NoAttr]

/-! ### Types -/

/-- Words that are not the first of a type. -/
def lead : List String := ["any", "ByteString", "DOMString", "USVString", "undefined", "optional", "required", "const",
  "attribute", "readonly", "static", "stringifier", "inherit", "getter", "setter", "deleter", "legacycaller",
  "constructor"]

/-- A word that is not a keyword of a list. -/
def Free (L : List String) (b : Bool) (n : String) : Prop := b = true ∨ n ∉ L

theorem key_free {L : List String} {b : Bool} {n k : String} (h : Free L b n) (hk : k ∈ L) (ts : List Tok) :
    tok.kw k (.word b n :: ts) = .fail := by
  apply key_fail
  intro e
  simp only [List.head?_cons, Option.some.injEq, Tok.word.injEq] at e
  obtain ⟨rfl, rfl⟩ := e
  rcases h with h | h
  · cases h
  · exact h hk

theorem ty_head {t : WTy} {ts : List Tok} (h : TyW t ts) : ∃ b n us, ts = .word b n :: us ∧ Free lead b n := by
  cases h with
  | boolean q => exact ⟨_, _, _, rfl, .inr (by decide)⟩
  | named b q h =>
    refine ⟨_, _, _, rfl, ?_⟩
    rcases h with h | h
    · exact .inl h
    · refine .inr fun h' => h ?_
      revert h'
      unfold lead reserved
      simp only [List.mem_cons]
      intro h'
      rcases h' with h | h | h | h | h | h | h | h | h | h | h | h | h | h | h | h | h | h | h <;> simp_all
  | float u q => cases u <;> exact ⟨_, _, _, rfl, .inr (by decide)⟩
  | double u q => cases u <;> exact ⟨_, _, _, rfl, .inr (by decide)⟩
  | sequence q h => exact ⟨_, _, _, rfl, .inr (by decide)⟩
  | record q h h' => exact ⟨_, _, _, rfl, .inr (by decide)⟩
  | recordDom q h => exact ⟨_, _, _, rfl, .inr (by decide)⟩

theorem quest_ok {q : Bool} {rest : List Tok} (h : NoTail rest) :
    flag (tok.punct "?") (quest q ++ rest) = .ok q rest := by
  cases q with
  | false => exact flag_fail (sym_fail h.1)
  | true => exact flag_ok (sym_ok _ _)

theorem mayBeNull_ok {q : Parser (List Tok) α} {f : α → Bool → β} {i rest : List Tok} {a : α} {b : Bool}
    (h : q i = .ok a (quest b ++ rest)) (hr : NoTail rest) : mayBeNull tok q f i = .ok (f a b) rest := by
  rw [mayBeNull, bind_ok h, bind_ok (quest_ok hr)]; rfl

theorem mayBeNull_fail {q : Parser (List Tok) α} {f : α → Bool → β} {i : List Tok}
    (h : q i = .fail) : mayBeNull tok q f i = .fail := by
  rw [mayBeNull, bind_fail h]

theorem alt_skip {ps qs : List (Parser I α)} {i : I} (h : ∀ q ∈ ps, q i = .fail) :
    alt (ps ++ qs) i = alt qs i := by
  induction ps with
  | nil => rfl
  | cons p ps ih =>
    rw [List.cons_append, alt_cons_fail (h p (List.mem_cons_self ..))]
    exact ih fun q hq => h q (List.mem_cons_of_mem _ hq)

theorem int_fail {i : List Tok} (h : ∀ k ∈ ["unsigned", "long", "short"], tok.kw k i = .fail) :
    integerType tok i = .fail := by
  have hu := h "unsigned" (by decide)
  have hl := h "long" (by decide)
  have hs := h "short" (by decide)
  unfold integerType
  rw [alt_cons_fail (by rw [bind_ok (flag_fail hu), bind_fail hl]),
    alt_cons_fail (by rw [bind_ok (flag_fail hu)]; exact hl),
    alt_cons_fail (by rw [bind_ok (flag_fail hu)]; exact hs)]
  rfl

theorem float_fail {i : List Tok} (h : ∀ k ∈ ["unrestricted", "float", "double"], tok.kw k i = .fail) :
    floatType tok i = .fail := by
  have hu := h "unrestricted" (by decide)
  have hl := h "float" (by decide)
  have hs := h "double" (by decide)
  unfold floatType
  rw [alt_cons_fail (by rw [bind_ok (flag_fail hu), bind_fail hl]),
    alt_cons_fail (by rw [bind_ok (flag_fail hu), bind_fail hs])]
  rfl

theorem keyword_fail {i : List Tok} {k : String} {f : Bool → WTy} (h : tok.kw k i = .fail) :
    keyword tok k f i = .fail := mayBeNull_fail h

theorem keywords_fail {i : List Tok} {l : List String} {f : String → Bool → WTy} (h : ∀ k ∈ l, tok.kw k i = .fail) :
    ∀ q ∈ l.map (fun k => keyword tok k (f k)), q i = .fail := by
  intro q hq
  obtain ⟨k, hk, rfl⟩ := List.mem_map.1 hq
  exact keyword_fail (h k hk)

/-- A keyword with `<` after it. -/
theorem generic_fail {i : List Tok} {k : String} {q : Parser (List Tok) α}
    (h : ∀ ts, i = .word false k :: ts → ts.head? ≠ some (sym "<")) :
    (do
      tok.kw k
      within tok "<" ">" q : Parser (List Tok) α) i = .fail := by
  by_cases hk : i.head? = some (.word false k)
  · match i, hk with
    | _ :: ts, hk =>
      simp only [List.head?_cons, Option.some.injEq] at hk
      subst hk
      rw [bind_ok (key_ok _ _)]
      exact within_fail (h ts rfl)
  · exact bind_fail (key_fail hk)

theorem typ_of {n : Nat} {r : Rec (List Tok)} {t : WTy} {ts rest : List Tok} (h : TyW t ts)
    (h' : nonAny tok r (ts ++ rest) = .ok t rest) : typ tok n r (ts ++ rest) = .ok t rest := by
  obtain ⟨b, m, us, rfl, hb⟩ := ty_head h
  unfold typ
  rw [List.cons_append] at h' ⊢
  rw [alt_cons_fail (bind_fail (key_free hb (by decide) _)), alt_cons_ok h']

theorem nonAny_ok {n : Nat} {t : WTy} {ts : List Tok} (h : TyW t ts) : ∀ d rest, ts.length ≤ d → NoTail rest →
    nonAny tok (recs tok n d) (ts ++ rest) = .ok t rest := by
  -- the alternatives before `sequence` on a word that is none of their keywords
  have pre : ∀ (r : Rec (List Tok)) (b : Bool) (m : String) (us : List Tok) (qs : List (Parser (List Tok) WTy)),
      Free ["Promise", "unsigned", "long", "short", "unrestricted", "float", "double", "boolean",
        "byte", "octet", "ByteString", "DOMString", "USVString"] b m ∨
      (Free ["unsigned", "long", "short", "unrestricted", "float", "double", "boolean",
        "byte", "octet", "ByteString", "DOMString", "USVString"] b m ∧ us.head? ≠ some (sym "<")) →
      alt ([
        do
          tok.kw "Promise"
          let _ ← within tok "<" ">" (retType tok r.ty)
          pure (.other "Promise"),
        mayBeNull tok (integerType tok) (fun _ q => .integer q),
        mayBeNull tok (floatType tok) floatTy,
        keyword tok "boolean" .boolean] ++
        (plain1.map (fun k => keyword tok k fun _ => .other k) ++ qs)) (.word b m :: us) = alt qs (.word b m :: us) := by
    intro r b m us qs h
    have hf : Free ["unsigned", "long", "short", "unrestricted", "float", "double", "boolean",
        "byte", "octet", "ByteString", "DOMString", "USVString"] b m := by
      rcases h with (h | h) | h
      · exact .inl h
      · exact .inr fun h' => h (List.mem_cons_of_mem _ h')
      · exact h.1
    have hp : (do
          tok.kw "Promise"
          let _ ← within tok "<" ">" (retType tok r.ty)
          pure (.other "Promise") : Parser (List Tok) WTy) (.word b m :: us) = .fail := by
      rcases h with h | h
      · exact bind_fail (key_free h (by decide) _)
      · by_cases hk : b = false ∧ m = "Promise"
        · obtain ⟨rfl, rfl⟩ := hk
          rw [bind_ok (key_ok _ _), bind_fail (within_fail h.2)]
        · refine bind_fail (key_fail ?_)
          intro e
          simp only [List.head?_cons, Option.some.injEq, Tok.word.injEq] at e
          exact hk e
    rw [alt_skip, alt_skip]
    · refine keywords_fail (f := fun k _ => .other k) fun k hk => key_free hf ?_ _
      revert hk
      simp only [plain1, List.mem_cons]
      intro hk
      rcases hk with h | h | h | h | h | h <;> simp_all
    · intro q hq
      simp only [List.mem_cons, List.not_mem_nil, or_false] at hq
      rcases hq with rfl | rfl | rfl | rfl
      · exact hp
      · refine mayBeNull_fail (int_fail fun k hk => key_free hf ?_ _)
        simp only [List.mem_cons, List.not_mem_nil, or_false] at hk
        rcases hk with rfl | rfl | rfl <;> decide
      · refine mayBeNull_fail (float_fail fun k hk => key_free hf ?_ _)
        simp only [List.mem_cons, List.not_mem_nil, or_false] at hk
        rcases hk with rfl | rfl | rfl <;> decide
      · exact keyword_fail (key_free hf (by decide) _)
  induction h with
  | boolean q =>
    intro d rest _ hr
    have hf : Free ["Promise", "unsigned", "long", "short", "unrestricted", "float", "double"] false "boolean" :=
      .inr (by decide)
    rw [nonAny]
    simp only [List.append_assoc, List.cons_append]
    rw [alt_cons_fail (bind_fail (key_free hf (by decide) _)),
      alt_cons_fail (mayBeNull_fail (int_fail fun k hk => key_free hf (by revert k; decide) _)),
      alt_cons_fail (mayBeNull_fail (float_fail fun k hk => key_free hf (by revert k; decide) _)),
      alt_cons_ok (show keyword tok "boolean" WTy.boolean _ = _ from mayBeNull_ok (key_ok _ _) hr)]
  | @named b m q h =>
    intro d rest _ hr
    have hL : ∀ L : List String, (∀ k ∈ L, k ∈ reserved) → Free L b m := by
      intro L hL
      rcases h with h | h
      · exact .inl h
      · exact .inr fun h' => h (hL _ h')
    have hlt : (quest q ++ rest).head? ≠ some (sym "<") := by
      cases q
      · exact hr.2
      · simp [quest]
    rw [nonAny]
    simp only [List.append_assoc]
    rw [show (Tok.word b m :: quest q) ++ rest = .word b m :: (quest q ++ rest) from rfl, pre _ _ _ _ _ (.inr ⟨hL _ (by decide), hlt⟩), alt_skip, alt_skip, alt_skip, alt_skip]
    · rw [alt_cons_fail (mayBeNull_fail (generic_fail ?_)), alt_cons_fail (mayBeNull_fail (generic_fail ?_)),
        alt_cons_ok (mayBeNull_ok (ident_ok _ _ _) hr)]
      · intro ts e
        simp only [List.cons.injEq] at e
        rw [← e.2]; exact hlt
      · intro ts e
        simp only [List.cons.injEq] at e
        rw [← e.2]; exact hlt
    · exact keywords_fail (f := fun k _ => .other k) fun k hk => key_free (hL plain3 (by decide)) hk _
    · intro q' hq'
      simp only [List.mem_cons, List.not_mem_nil, or_false] at hq'
      subst hq'
      exact keyword_fail (key_free (hL reserved (fun _ h => h)) (by decide) _)
    · exact keywords_fail (f := fun k _ => .other k) fun k hk => key_free (hL plain2 (by decide)) hk _
    · intro q' hq'
      simp only [List.mem_cons, List.not_mem_nil, or_false] at hq'
      subst hq'
      refine mayBeNull_fail (generic_fail ?_)
      intro ts e
      simp only [List.cons.injEq] at e
      rw [← e.2]; exact hlt
  | float u q =>
    intro d rest _ hr
    rw [nonAny]
    simp only [List.append_assoc, List.cons_append]
    cases u with
    | false =>
      have hf : Free ["Promise", "unsigned", "long", "short", "unrestricted"] false "float" := .inr (by decide)
      simp only [unres, Bool.false_eq_true, if_false, List.nil_append]
      rw [alt_cons_fail (bind_fail (key_free hf (by decide) _)),
        alt_cons_fail (mayBeNull_fail (int_fail fun k hk => key_free hf (by revert k; decide) _)),
        alt_cons_ok (mayBeNull_ok (a := (false, false)) ?_ hr)]
      · rfl
      · rw [floatType, alt_cons_ok (by rw [bind_ok (flag_fail (key_free hf (by decide) _)), bind_ok (key_ok _ _)]; rfl)]
    | true =>
      have hf : Free ["Promise", "unsigned", "long", "short"] false "unrestricted" := .inr (by decide)
      simp only [unres, if_true, List.cons_append, List.nil_append]
      rw [alt_cons_fail (bind_fail (key_free hf (by decide) _)),
        alt_cons_fail (mayBeNull_fail (int_fail fun k hk => key_free hf (by revert k; decide) _)),
        alt_cons_ok (mayBeNull_ok (a := (false, true)) ?_ hr)]
      · rfl
      · rw [floatType, alt_cons_ok (by rw [bind_ok (flag_ok (key_ok _ _)), bind_ok (key_ok _ _)]; rfl)]
  | double u q =>
    intro d rest _ hr
    rw [nonAny]
    simp only [List.append_assoc, List.cons_append]
    cases u with
    | false =>
      have hf : Free ["Promise", "unsigned", "long", "short", "unrestricted", "float"] false "double" := .inr (by decide)
      simp only [unres, Bool.false_eq_true, if_false, List.nil_append]
      rw [alt_cons_fail (bind_fail (key_free hf (by decide) _)),
        alt_cons_fail (mayBeNull_fail (int_fail fun k hk => key_free hf (by revert k; decide) _)),
        alt_cons_ok (mayBeNull_ok (a := (true, false)) ?_ hr)]
      · rfl
      · rw [floatType, alt_cons_fail (by rw [bind_ok (flag_fail (key_free hf (by decide) _)),
            bind_fail (key_free hf (by decide) _)]),
          alt_cons_ok (by rw [bind_ok (flag_fail (key_free hf (by decide) _)), bind_ok (key_ok _ _)]; rfl)]
    | true =>
      have hf : Free ["Promise", "unsigned", "long", "short"] false "unrestricted" := .inr (by decide)
      simp only [unres, if_true, List.cons_append, List.nil_append]
      rw [alt_cons_fail (bind_fail (key_free hf (by decide) _)),
        alt_cons_fail (mayBeNull_fail (int_fail fun k hk => key_free hf (by revert k; decide) _)),
        alt_cons_ok (mayBeNull_ok (a := (true, true)) ?_ hr)]
      · rfl
      · rw [floatType, alt_cons_fail (by rw [bind_ok (flag_ok (key_ok _ _)), bind_fail (key_fail (by simp))]),
          alt_cons_ok (by rw [bind_ok (flag_ok (key_ok _ _)), bind_ok (key_ok _ _)]; rfl)]
  | @sequence t ts q h ih =>
    intro d rest hd hr
    simp only [List.length_append, List.length_cons, List.append_assoc, List.cons_append] at hd ⊢
    match d, hd with
    | d + 1, hd =>
      rw [nonAny]
      simp only [List.append_assoc]
      rw [pre _ _ _ _ _ (.inl (.inr (by decide)))]
      simp only [List.cons_append]
      rw [alt_cons_ok (mayBeNull_ok ?_ hr)]
      rw [bind_ok (key_ok _ _)]
      refine within_ok ?_
      exact typ_of h (ih d _ (by omega) (by simp [NoTail]))
  | @record k v ts us q hk hv ihk ihv =>
    intro d rest hd hr
    simp only [List.length_append, List.length_cons, List.append_assoc, List.cons_append] at hd ⊢
    match d, hd with
    | d + 1, hd =>
      rw [nonAny]
      simp only [List.append_assoc]
      rw [pre _ _ _ _ _ (.inl (.inr (by decide))), alt_skip, alt_skip, alt_skip, alt_skip]
      · rw [alt_cons_fail (mayBeNull_fail (bind_fail (key_fail (by simp)))),
          alt_cons_ok (mayBeNull_ok (a := (.ty k, v)) ?_ hr)]
        rw [bind_ok (key_ok _ _)]
        refine within_ok ?_
        have e : keyType tok (recs tok n (d + 1)) (ts ++ (sym "," :: (us ++ (sym ">" :: (quest q ++ rest))))) =
            .ok (.ty k) (sym "," :: (us ++ (sym ">" :: (quest q ++ rest)))) := by
          have hk' := ihk d (sym "," :: (us ++ (sym ">" :: (quest q ++ rest)))) (by omega) (by simp [NoTail])
          obtain ⟨b, m, xs, rfl, hb⟩ := ty_head hk
          unfold keyType
          rw [List.cons_append, alt_cons_fail (bind_fail (key_free hb (by decide) _)),
            alt_cons_fail (bind_fail (key_free hb (by decide) _)),
            alt_cons_fail (bind_fail (key_free hb (by decide) _)), alt_cons_ok]
          rw [List.cons_append] at hk'
          rw [show (recs tok n (d + 1)).nonAny = nonAny tok (recs tok n d) from rfl, bind_ok hk']; rfl
        rw [bind_ok e, bind_ok (sym_ok _ _),
          show (recs tok n (d + 1)).ty = typ tok n (recs tok n d) from rfl, bind_ok (typ_of hv (ihv d _ (by omega) (by simp [NoTail])))]
        rfl
      · exact keywords_fail (f := fun k _ => .other k) fun k hk =>
          key_free (L := plain3) (.inr (by decide)) hk _
      · intro q' hq'
        simp only [List.mem_cons, List.not_mem_nil, or_false] at hq'
        subst hq'
        exact keyword_fail (key_fail (by simp))
      · exact keywords_fail (f := fun k _ => .other k) fun k hk =>
          key_free (L := plain2) (.inr (by decide)) hk _
      · intro q' hq'
        simp only [List.mem_cons, List.not_mem_nil, or_false] at hq'
        subst hq'
        exact mayBeNull_fail (bind_fail (key_fail (by simp)))
  | @recordDom v us q hv ihv =>
    intro d rest hd hr
    simp only [List.length_append, List.length_cons, List.append_assoc, List.cons_append] at hd ⊢
    match d, hd with
    | d + 1, hd =>
      rw [nonAny]
      simp only [List.append_assoc]
      rw [pre _ _ _ _ _ (.inl (.inr (by decide))), alt_skip, alt_skip, alt_skip, alt_skip]
      · rw [alt_cons_fail (mayBeNull_fail (bind_fail (key_fail (by simp)))),
          alt_cons_ok (mayBeNull_ok (a := (.dom, v)) ?_ hr)]
        rw [bind_ok (key_ok _ _)]
        refine within_ok ?_
        have e : keyType tok (recs tok n (d + 1)) (key "DOMString" :: (sym "," :: (us ++ (sym ">" :: (quest q ++ rest))))) =
            .ok .dom (sym "," :: (us ++ (sym ">" :: (quest q ++ rest)))) := by
          unfold keyType
          rw [alt_cons_fail (bind_fail (key_fail (by simp))), alt_cons_ok]
          rw [bind_ok (key_ok _ _)]; rfl
        rw [bind_ok e, bind_ok (sym_ok _ _),
          show (recs tok n (d + 1)).ty = typ tok n (recs tok n d) from rfl, bind_ok (typ_of hv (ihv d _ (by omega) (by simp [NoTail])))]
        rfl
      · exact keywords_fail (f := fun k _ => .other k) fun k hk =>
          key_free (L := plain3) (.inr (by decide)) hk _
      · intro q' hq'
        simp only [List.mem_cons, List.not_mem_nil, or_false] at hq'
        subst hq'
        exact keyword_fail (key_fail (by simp))
      · exact keywords_fail (f := fun k _ => .other k) fun k hk =>
          key_free (L := plain2) (.inr (by decide)) hk _
      · intro q' hq'
        simp only [List.mem_cons, List.not_mem_nil, or_false] at hq'
        subst hq'
        exact mayBeNull_fail (bind_fail (key_fail (by simp)))

theorem typ_ok {n d : Nat} {t : WTy} {ts rest : List Tok} (h : TyW t ts) (hd : ts.length ≤ d) (hr : NoTail rest) :
    typ tok n (recs tok n d) (ts ++ rest) = .ok t rest :=
  typ_of h (nonAny_ok h d rest hd hr)

/-! ### Default values, arguments, operations -/

theorem ret_ok {n d : Nat} {t : WRet} {ts rest : List Tok} (h : RetW t ts) (hd : ts.length ≤ d) (hr : NoTail rest) :
    retType tok (typ tok n (recs tok n d)) (ts ++ rest) = .ok t rest := by
  unfold retType
  cases h with
  | undefined =>
    simp only [List.cons_append, List.nil_append]
    rw [alt_cons_ok (by rw [bind_ok (key_ok _ _)]; rfl)]
  | ty h =>
    have ht := typ_ok (n := n) h hd hr
    obtain ⟨b, m, us, rfl, hb⟩ := ty_head h
    rw [List.cons_append] at ht ⊢
    rw [alt_cons_fail (bind_fail (key_free hb (by decide) _)), alt_cons_ok (by rw [bind_ok ht]; rfl)]

theorem ret_head {t : WRet} {ts : List Tok} (h : RetW t ts) :
    ∃ b n us, ts = .word b n :: us ∧ Free (lead.filter (· ≠ "undefined")) b n := by
  cases h with
  | undefined => exact ⟨_, _, _, rfl, .inr (by decide)⟩
  | ty h =>
    obtain ⟨b, m, us, rfl, hb⟩ := ty_head h
    refine ⟨_, _, _, rfl, ?_⟩
    rcases hb with h | h
    · exact .inl h
    · exact .inr fun h' => h (List.mem_filter.1 h').1

theorem float_key {k : String} {us : List Tok} : tok.float (.word false k :: us) = .fail := rfl

theorem lit_ok {l : Lit} {ts rest : List Tok} (h : LitW l ts) :
    default_ tok (sym "=" :: (ts ++ rest)) = .ok l rest := by
  rw [default_, bind_ok (sym_ok _ _)]
  cases h <;>
  simp [alt, boolLit, floatLit, intLit, nullLit, bind_eq, pure_eq, tok, tokKw, tokPunct, tokFloat, tokInt, tokStr]

theorem default_ok {l : Option Lit} {ts rest : List Tok} (h : DefaultW l ts) (hr : rest.head? ≠ some (sym "=")) :
    opt (default_ tok) (ts ++ rest) = .ok l rest := by
  cases h with
  | none => exact opt_fail (by rw [default_]; exact bind_fail (sym_fail hr))
  | some h =>
    obtain ⟨us, rfl, h⟩ := h
    exact opt_ok (lit_ok h)

theorem name_tail {n : String} {vs : List Tok} (h : Name n vs) (rest : List Tok) : NoTail (vs ++ rest) := by
  obtain ⟨b, rfl⟩ := h
  simp [NoTail]

theorem arg_ok {n d : Nat} {a : WArg} {ts rest : List Tok} (h : ArgW a ts) (hn : ts.length < n) (hd : ts.length ≤ d)
    (hr : rest.head? ≠ some (sym "=")) : arg tok n (recs tok n d) (ts ++ rest) = .ok a rest := by
  unfold arg
  cases h with
  | @required a t m ts us vs ha ht hm =>
    simp only [List.length_append] at hn hd
    have h1 := typ_ok (n := n) (rest := vs ++ rest) ht (d := d) (by omega) (name_tail hm rest)
    obtain ⟨b, k, xs, rfl, hb⟩ := ty_head ht
    obtain ⟨c, rfl⟩ := hm
    simp only [List.append_assoc, List.cons_append, List.nil_append] at h1 ⊢
    rw [alt_cons_ok]
    rw [bind_ok (attrs_ok ha (by omega) (by simp)), bind_ok (flag_fail (key_free hb (by decide) _)),
      bind_ok (by rw [attributedType, bind_ok (attrs_none (by simp)), bind_ok h1]; rfl), bind_ok (ident_ok _ _ _)]
    rfl
  | @optional a t m dv ts us vs zs ha ht hm hv =>
    simp only [List.length_append, List.length_cons] at hn hd
    have h1 := typ_ok (n := n) (rest := vs ++ (zs ++ rest)) ht (d := d) (by omega) (name_tail hm _)
    obtain ⟨b, k, xs, rfl, hb⟩ := ty_head ht
    obtain ⟨c, rfl⟩ := hm
    simp only [List.append_assoc, List.cons_append, List.nil_append] at h1 ⊢
    rw [alt_cons_ok]
    rw [bind_ok (attrs_ok ha (by omega) (by simp)), bind_ok (flag_ok (key_ok _ _)),
      bind_ok (by rw [attributedType, bind_ok (attrs_none (by simp)), bind_ok h1]; rfl), bind_ok (ident_ok _ _ _),
      if_pos rfl, bind_ok (default_ok hv hr)]
    rfl

theorem nonAny_close {r : Rec (List Tok)} (x : String) (rest : List Tok) : nonAny tok r (sym x :: rest) = .fail := by
  unfold nonAny
  simp only [List.append_assoc]
  have hk : ∀ k, tok.kw k (sym x :: rest) = .fail := fun k => key_fail (by simp)
  rw [alt_skip, alt_skip, alt_skip, alt_skip, alt_skip, alt_skip]
  · rw [alt_cons_fail (mayBeNull_fail (bind_fail (hk _))), alt_cons_fail (mayBeNull_fail (bind_fail (hk _))),
      alt_cons_fail (mayBeNull_fail (ident_sym _ _))]
    rfl
  · exact keywords_fail (f := fun k _ => .other k) fun k _ => hk k
  · intro q hq
    simp only [List.mem_cons, List.not_mem_nil, or_false] at hq
    subst hq
    exact keyword_fail (hk _)
  · exact keywords_fail (f := fun k _ => .other k) fun k _ => hk k
  · intro q hq
    simp only [List.mem_cons, List.not_mem_nil, or_false] at hq
    subst hq
    exact mayBeNull_fail (bind_fail (hk _))
  · exact keywords_fail (f := fun k _ => .other k) fun k _ => hk k
  · intro q hq
    simp only [List.mem_cons, List.not_mem_nil, or_false] at hq
    rcases hq with rfl | rfl | rfl | rfl
    · exact bind_fail (hk _)
    · exact mayBeNull_fail (int_fail fun k _ => hk k)
    · exact mayBeNull_fail (float_fail fun k _ => hk k)
    · exact keyword_fail (hk _)

theorem typ_close {n : Nat} {r : Rec (List Tok)} {x : String} (hx : x ≠ "(") (rest : List Tok) :
    typ tok n r (sym x :: rest) = .fail := by
  have hu : unionType tok n r (sym x :: rest) = .fail := mayBeNull_fail (within_fail (by simpa using hx))
  unfold typ
  rw [alt_cons_fail (bind_fail (key_fail (by simp))), alt_cons_fail (nonAny_close _ _), alt_cons_fail hu]
  rfl

theorem arg_close {n : Nat} {r : Rec (List Tok)} (rest : List Tok) : arg tok n r (sym ")" :: rest) = .fail := by
  have ht := typ_close (n := n) (r := r) (x := ")") (by decide) rest
  unfold arg
  rw [alt_cons_fail (by
      rw [bind_ok (attrs_none (by simp)), bind_ok (flag_fail (key_fail (by simp))),
        bind_fail (by rw [attributedType, bind_ok (attrs_none (by simp)), bind_fail ht])]),
    alt_cons_fail (by rw [bind_ok (attrs_none (by simp)), bind_fail ht])]
  rfl

theorem args_ok {n d : Nat} {l : List WArg} {us rest : List Tok} (h : Commas ArgW l us) (hn : us.length + 1 < n)
    (hd : us.length ≤ d) :
    within tok "(" ")" (argList tok n (recs tok n d)) (sym "(" :: (us ++ sym ")" :: rest)) = .ok l rest := by
  refine within_ok ?_
  refine sepBy_ok (F := fun r => r.head? ≠ some (sym "=")) (N := us.length + 1) ?_ (by simp) h hn (by omega) (by simp)
    (by simp) (arg_close _)
  intro a ts rest hw hl hr
  exact arg_ok hw (by omega) (by omega) hr

theorem opTail_ok {n d : Nat} {m : Option String} {l : List WArg} {xs ys rest : List Tok} (hm : Maybe Name m xs)
    (h : ArgsW l ys) (hn : ys.length < n) (hd : ys.length ≤ d) (f : Option String → List WArg → β) :
    opTail tok n (recs tok n d) f (xs ++ (ys ++ rest)) = .ok (f m l) rest := by
  obtain ⟨us, h, rfl⟩ := h
  simp only [List.append_assoc, List.cons_append, List.nil_append, List.length_append, List.length_cons,
    List.length_nil] at hn hd ⊢
  have e : opt tok.ident (xs ++ sym "(" :: (us ++ sym ")" :: sym ";" :: rest)) =
      .ok m (sym "(" :: (us ++ sym ")" :: sym ";" :: rest)) := by
    cases hm with
    | none => exact opt_fail (ident_sym _ _)
    | some hm =>
      obtain ⟨b, rfl⟩ := hm
      exact opt_ok (ident_ok _ _ _)
  rw [opTail, bind_ok e, bind_ok (args_ok h (by omega) (by omega)), bind_ok (sym_ok _ _)]
  rfl

theorem tail_ok {m : Option String} {l : List WArg} {xs ys : List Tok} (hm : Maybe Name m xs)
    (h : ArgsW l ys) (rest : List Tok) : NoTail (xs ++ (ys ++ rest)) := by
  obtain ⟨us, h, rfl⟩ := h
  cases hm with
  | none => simp [NoTail]
  | some hm =>
    obtain ⟨b, rfl⟩ := hm
    simp [NoTail]

theorem doc_ok {d : Option String} {ts rest : List Tok} (h : Maybe Doc d ts) (hr : ¬ startsWithDoc rest) :
    opt tok.doc (ts ++ rest) = .ok d rest := by
  cases h with
  | none =>
    refine opt_fail ?_
    unfold tok tokDoc
    dsimp only [List.nil_append]
    split
    · exact absurd trivial hr
    · rfl
  | some h => cases h; exact opt_ok rfl

/-- What follows documentation and attributes begins with a word. -/
theorem attrs_head {a : Attrs} {us : List Tok} (h : AttrsW a us) (b : Bool) (n : String) (rest : List Tok) :
    ¬ startsWithDoc (us ++ .word b n :: rest) := by
  cases h with
  | none => exact fun h => h
  | some h =>
    obtain ⟨xs, rfl, _⟩ := h
    exact fun h => h

/-- Documentation is no keyword, attribute or symbol. -/
theorem doc_skip {d : Option String} {ts : List Tok} (h : Maybe Doc d ts) {n : Nat} {r : Rec (List Tok)} {a : Attrs}
    {us : List Tok} (ha : AttrsW a us) (hn : us.length < n) (b : Bool) (m : String) (rest : List Tok)
    {f : Attrs → Parser (List Tok) α} (hf : ∀ a, f a (.word b m :: rest) = .fail)
    (hf' : ∀ a s xs, f a (.doc s :: xs) = .fail) :
    (attrs tok n r >>= f) (ts ++ (us ++ .word b m :: rest)) = .fail := by
  cases h with
  | none => rw [List.nil_append, bind_ok (attrs_ok ha hn (by simp))]; exact hf _
  | some h =>
    cases h
    rw [List.cons_append, bind_ok (attrs_none (by simp))]
    exact hf' _ _ _

end Verif.Udl.TextTok
