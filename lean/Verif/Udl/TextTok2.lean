import Verif.Udl.TextTok
/-
The grammar of Parse.lean run on lists of tokens: members and definitions.
-/
namespace Verif.Udl.TextTok
open Verif.Udl Verif.Udl.File Verif.Udl.Parse Verif.Udl.TextSpec

variable {α β : Type}

theorem ns_ok {n d : Nat} {m : WNsMember} {ts rest : List Tok} (h : NsMemberW m ts) (hn : ts.length < n)
    (hd : ts.length ≤ d) : nsMember tok n (recs tok n d) (ts ++ rest) = .ok m rest := by
  cases h with
  | op h hm =>
    cases h with
    | @mk d' a m r x l ts us vs xs ys hd' ha hr hx hl =>
      dsimp only at hm
      subst hm
      simp only [modTok, List.append_nil, List.length_append] at hn hd
      have h1 := ret_ok (n := n) (d := d) (rest := xs ++ (ys ++ rest)) hr (by omega) (tail_ok hx hl rest)
      have h2 := opTail_ok (n := n) (d := d) (rest := rest) hx hl (by omega) (by omega)
        (fun x l => WNsMember.op ⟨d', a, none, false, r, x, l⟩)
      obtain ⟨b, k, zs, rfl, hb⟩ := ret_head hr
      simp only [modTok, List.append_nil, List.append_assoc, List.cons_append] at h1 h2 ⊢
      unfold nsMember
      rw [alt_cons_ok]
      rw [bind_ok (doc_ok hd' (attrs_head ha _ _ _)), bind_ok (attrs_ok ha (by omega) (by simp)), bind_ok h1]
      exact h2

theorem ret_close {t : Parser (List Tok) WTy} {rest : List Tok} (ht : t (sym "}" :: rest) = .fail) :
    retType tok t (sym "}" :: rest) = .fail := by
  unfold retType
  rw [alt_cons_fail (bind_fail (key_fail (by simp))), alt_cons_fail (bind_fail ht)]
  rfl

theorem ns_close {n : Nat} {r : Rec (List Tok)} (rest : List Tok) : nsMember tok n r (sym "}" :: rest) = .fail := by
  have ht := typ_close (n := n) (r := r) (x := "}") (by decide) rest
  have hk : ∀ k, tok.kw k (sym "}" :: rest) = .fail := fun k => key_fail (by simp)
  have ha : attrs tok n r (sym "}" :: rest) = .ok none (sym "}" :: rest) := attrs_none (by simp)
  have hd : opt tok.doc (sym "}" :: rest) = .ok none (sym "}" :: rest) := rfl
  simp only [nsMember, alt, bind_eq, ha, hd, hk, ret_close ht]

theorem modifier_fail {i : List Tok} (h1 : tok.kw "stringifier" i = .fail) (h2 : tok.kw "static" i = .fail) :
    modifier tok i = .fail := by
  simp only [modifier, alt, bind_eq, h1, h2]

theorem special_fail {i : List Tok} (h : ∀ k ∈ ["getter", "setter", "deleter", "legacycaller"], tok.kw k i = .fail) :
    special tok i = .fail := by
  have h1 := h "getter" (by decide)
  have h2 := h "setter" (by decide)
  have h3 := h "deleter" (by decide)
  have h4 := h "legacycaller" (by decide)
  simp only [special, List.map, alt, h1, h2, h3, h4]

theorem refused_fail {q : Parser (List Tok) Unit} {b : β} {i : List Tok} (h : q i = .fail) :
    refused q b i = .fail := by rw [refused, bind_fail h]

theorem member_ok {n d : Nat} {m : WMember} {ts rest : List Tok} (h : MemberW m ts) (hn : ts.length < n)
    (hd : ts.length ≤ d) : member tok n (recs tok n d) (ts ++ rest) = .ok m rest := by
  have hkd : ∀ k s (xs : List Tok), tok.kw k (.doc s :: xs) = .fail := fun k s xs => key_fail (by simp)
  have hdoc : ∀ s (xs : List Tok), alt (["stringifier", "inherit", "static"].map tok.kw) (.doc s :: xs) = .fail := by
    intro s xs
    simp only [List.map, alt, hkd]
  unfold member
  cases h with
  | @ctor d' a l ts us ys hd' ha hl =>
    simp only [List.length_append, List.length_cons] at hn hd
    have hl' := hl
    obtain ⟨zs, hl, rfl⟩ := hl
    simp only [List.length_append, List.length_cons, List.length_nil] at hn hd
    have hk : ∀ k xs, k ≠ "constructor" → tok.kw k (key "constructor" :: xs) = .fail := fun k xs hk =>
      key_fail (by simpa using fun h => hk h.symm)
    have e : ∀ xs, alt (["stringifier", "inherit", "static"].map tok.kw) (key "constructor" :: xs) = .fail := by
      intro xs
      simp only [List.map, alt, hk "stringifier" xs (by decide), hk "inherit" xs (by decide),
        hk "static" xs (by decide)]
    simp only [List.append_assoc, List.cons_append, List.nil_append]
    rw [alt_cons_fail (refused_fail (by
        unfold constMember
        exact doc_skip hd' ha (by omega) _ _ _
          (fun a => bind_fail (hk _ _ (by decide))) (fun a s xs => bind_fail (hkd _ _ _)))),
      alt_cons_fail (refused_fail (by
        unfold attributeMember
        exact doc_skip hd' ha (by omega) _ _ _
          (fun a => by rw [bind_ok (opt_fail (e _)), bind_ok (flag_fail (hk _ _ (by decide))),
            bind_fail (hk _ _ (by decide))])
          (fun a s xs => by rw [bind_ok (opt_fail (hdoc _ _)), bind_ok (flag_fail (hkd _ _ _)),
            bind_fail (hkd _ _ _)]))), alt_cons_ok]
    · rw [ctorMember, bind_ok (doc_ok hd' (attrs_head ha _ _ _)), bind_ok (attrs_ok ha (by omega) (by simp)),
        bind_ok (key_ok _ _), bind_ok (args_ok hl (by omega) (by omega)), bind_ok (sym_ok _ _)]
      rfl
  | op h =>
    cases h with
    | @mk d' a m r x l ts us vs xs ys hd' ha hr hx hl =>
      simp only [List.length_append] at hn hd
      have h1 := ret_ok (n := n) (d := d) (rest := xs ++ (ys ++ rest)) hr (by omega) (tail_ok hx hl rest)
      have h2 := opTail_ok (n := n) (d := d) (rest := rest) hx hl (by omega) (by omega)
        (fun x l => WMember.op ⟨d', a, m, false, r, x, l⟩)
      obtain ⟨b, k, zs, rfl, hb⟩ := ret_head hr
      have hf : ∀ k' ∈ lead.filter (· ≠ "undefined"), ∀ ws, tok.kw k' (.word b k :: ws) = .fail :=
        fun k' hk' ws => key_free hb hk' ws
      -- the first token after documentation and attributes
      have hz : ∃ b' k' ws, modTok m ++ (.word b k :: (zs ++ (xs ++ (ys ++ rest)))) = .word b' k' :: ws ∧
          tok.kw "const" (.word b' k' :: ws) = .fail ∧ tok.kw "constructor" (.word b' k' :: ws) = .fail ∧
          opt (modifier tok) (.word b' k' :: ws) = .ok m (.word b k :: (zs ++ (xs ++ (ys ++ rest)))) ∧
          ∃ o, opt (alt (["stringifier", "inherit", "static"].map tok.kw)) (.word b' k' :: ws) =
            .ok o (.word b k :: (zs ++ (xs ++ (ys ++ rest)))) := by
        match m with
        | none =>
          refine ⟨_, _, _, rfl, hf _ (by decide) _, hf _ (by decide) _,
            opt_fail (modifier_fail (hf _ (by decide) _) (hf _ (by decide) _)), none, opt_fail ?_⟩
          simp only [List.map, alt, hf "stringifier" (by decide) _, hf "inherit" (by decide) _,
            hf "static" (by decide) _]
        | some .static =>
          refine ⟨_, _, _, rfl, key_fail (by simp), key_fail (by simp), opt_ok ?_, some (), opt_ok ?_⟩
          · simp [modifier, alt, bind_eq, pure_eq, tok, tokKw]
          · simp [alt, tok, tokKw]
        | some .stringifier =>
          refine ⟨_, _, _, rfl, key_fail (by simp), key_fail (by simp), opt_ok ?_, some (), opt_ok ?_⟩
          · simp [modifier, alt, bind_eq, pure_eq, tok, tokKw]
          · simp [alt, tok, tokKw]
      obtain ⟨b', k', ws, he, hc, hc', hm, o, ho⟩ := hz
      simp only [List.append_assoc, List.cons_append] at h1 h2 ⊢
      rw [he]
      rw [alt_cons_fail (refused_fail (by
          unfold constMember
          exact doc_skip hd' ha (by omega) _ _ _ (fun a => bind_fail hc) (fun a s xs => bind_fail (hkd _ _ _)))),
        alt_cons_fail (refused_fail (by
          unfold attributeMember
          exact doc_skip hd' ha (by omega) _ _ _
            (fun a => by rw [bind_ok ho, bind_ok (flag_fail (hf _ (by decide) _)), bind_fail (hf _ (by decide) _)])
            (fun a s xs => by rw [bind_ok (opt_fail (hdoc _ _)), bind_ok (flag_fail (hkd _ _ _)),
              bind_fail (hkd _ _ _)]))), alt_cons_fail, alt_cons_ok]
      · rw [opMember, bind_ok (doc_ok hd' (attrs_head ha _ _ _)), bind_ok (attrs_ok ha (by omega) (by simp)),
          bind_ok hm, bind_ok (flag_fail (special_fail fun k hk => hf k (by revert k; decide) _)), bind_ok h1]
        exact h2
      · rw [ctorMember, bind_ok (doc_ok hd' (attrs_head ha _ _ _)), bind_ok (attrs_ok ha (by omega) (by simp)),
          bind_fail hc']

theorem member_close {n : Nat} {r : Rec (List Tok)} (rest : List Tok) : member tok n r (sym "}" :: rest) = .fail := by
  have ht := typ_close (n := n) (r := r) (x := "}") (by decide) rest
  have hk : ∀ k, tok.kw k (sym "}" :: rest) = .fail := fun k => key_fail (by simp)
  have ha : attrs tok n r (sym "}" :: rest) = .ok none (sym "}" :: rest) := attrs_none (by simp)
  have hd : opt tok.doc (sym "}" :: rest) = .ok none (sym "}" :: rest) := rfl
  have hm : opt (modifier tok) (sym "}" :: rest) = .ok none (sym "}" :: rest) :=
    opt_fail (modifier_fail (hk _) (hk _))
  have hs : flag (special tok) (sym "}" :: rest) = .ok false (sym "}" :: rest) :=
    flag_fail (special_fail fun k _ => hk k)
  have hf : ∀ k, flag (tok.kw k) (sym "}" :: rest) = .ok false (sym "}" :: rest) := fun k => flag_fail (hk k)
  have ho : opt (alt (["stringifier", "inherit", "static"].map tok.kw)) (sym "}" :: rest) =
      .ok none (sym "}" :: rest) := opt_fail (by simp only [List.map, alt, hk])
  simp only [member, alt, refused, constMember, attributeMember, ctorMember, opMember, iterableMember, likeMember,
    stringifierMember, bind_eq, ha, hd, hk, ret_close ht, hm, hs, hf, ho, pure_eq, Bool.false_eq_true, if_false,
    if_true]

theorem field_ok {n d : Nat} {m : WField} {ts rest : List Tok} (h : FieldW m ts) (hn : ts.length < n)
    (hd : ts.length ≤ d) : field tok n (recs tok n d) (ts ++ rest) = .ok m rest := by
  cases h with
  | @mk d' a q t x v ts us vs xs ys hd' ha ht hx hv =>
    simp only [List.length_append, List.length_cons] at hn hd
    have h1 := typ_ok (n := n) (rest := xs ++ (ys ++ (sym ";" :: rest))) ht (d := d) (by omega) (name_tail hx _)
    obtain ⟨b, k, zs, rfl, hb⟩ := ty_head ht
    obtain ⟨c, rfl⟩ := hx
    have e : ∃ b' k' ws, (if q then [key "required"] else []) ++ (.word b k :: (zs ++ (.word c x :: (ys ++ (sym ";" :: rest))))) =
        .word b' k' :: ws ∧ flag (tok.kw "required") (.word b' k' :: ws) =
          .ok q (.word b k :: (zs ++ (.word c x :: (ys ++ (sym ";" :: rest))))) := by
      cases q with
      | false => exact ⟨_, _, _, rfl, flag_fail (key_free hb (by decide) _)⟩
      | true => exact ⟨_, _, _, rfl, flag_ok (key_ok _ _)⟩
    obtain ⟨b', k', ws, he, hf⟩ := e
    simp only [List.append_assoc, List.cons_append, List.nil_append] at h1 ⊢
    rw [he]
    rw [field, bind_ok (doc_ok hd' (attrs_head ha _ _ _)), bind_ok (attrs_ok ha (by omega) (by simp)), bind_ok hf,
      bind_ok h1, bind_ok (ident_ok _ _ _), bind_ok (default_ok hv (by simp)), bind_ok (sym_ok _ _)]
    rfl

theorem field_close {n : Nat} {r : Rec (List Tok)} (rest : List Tok) : field tok n r (sym "}" :: rest) = .fail := by
  have ht := typ_close (n := n) (r := r) (x := "}") (by decide) rest
  have ha : attrs tok n r (sym "}" :: rest) = .ok none (sym "}" :: rest) := attrs_none (by simp)
  have hd : opt tok.doc (sym "}" :: rest) = .ok none (sym "}" :: rest) := rfl
  have hf : flag (tok.kw "required") (sym "}" :: rest) = .ok false (sym "}" :: rest) := flag_fail (key_fail (by simp))
  simp only [field, bind_eq, ha, hd, ht, hf]

theorem variant_ok {v : Option String × String} {ts rest : List Tok} (h : VariantW v ts) :
    variant tok (ts ++ rest) = .ok v rest := by
  obtain ⟨us, hd, rfl⟩ := h
  simp only [List.append_assoc, List.cons_append, List.nil_append]
  rw [variant, bind_ok (doc_ok hd (rest := .str v.2 :: rest) (fun h => h)), bind_ok (str_ok _ _)]
  rfl

theorem variants_ok {n : Nat} {l : List (Option String × String)} {us rest : List Tok} (h : Commas1 VariantW l us)
    (trailing : Bool) (hn : us.length + 1 < n) :
    variants tok n (us ++ (if trailing then [sym ","] else []) ++ (sym "}" :: rest)) = .ok l (sym "}" :: rest) := by
  have hv : ∀ a ts rest, VariantW a ts → ts.length < us.length + 1 → True → variant tok (ts ++ rest) = .ok a rest :=
    fun a ts rest h _ _ => variant_ok h
  have hfail : variant tok (sym "}" :: rest) = .fail := by
    rw [variant, bind_ok (show opt tok.doc (sym "}" :: rest) = .ok none (sym "}" :: rest) from rfl)]; rfl
  have hend : ∀ m, more (tok.punct ",") (variant tok) (m + 1) ((if trailing then [sym ","] else []) ++ (sym "}" :: rest)) =
      .ok [] ((if trailing then [sym ","] else []) ++ (sym "}" :: rest)) := by
    intro m
    cases trailing with
    | false =>
      have : tok.punct "," (sym "}" :: rest) = .fail := sym_fail (by simp)
      simp [more, this]
    | true => simp [more, sym_ok, hfail]
  have hmore : ∀ vs m, vs.length + 1 < m → ∀ bs, Commas1 VariantW bs vs →
      more (tok.punct ",") (variant tok) m (sym "," :: (vs ++ ((if trailing then [sym ","] else []) ++ (sym "}" :: rest)))) =
        .ok bs ((if trailing then [sym ","] else []) ++ (sym "}" :: rest)) := by
    intro vs m hm bs hb
    induction hb generalizing m with
    | one hw =>
      match m, hm with
      | m + 2, _ => rw [more]; simp only [sym_ok, variant_ok hw, hend]
    | @cons a as ts us' hw _ ih =>
      match m, hm with
      | m + 1, hm =>
        simp only [List.length_append, List.length_cons] at hm
        simp only [List.append_assoc, List.cons_append, more, sym_ok, variant_ok hw]
        rw [ih m (by omega)]
  rw [List.append_assoc]
  have hs : sepBy1 n (tok.punct ",") (variant tok) (us ++ ((if trailing then [sym ","] else []) ++ (sym "}" :: rest))) =
      .ok l ((if trailing then [sym ","] else []) ++ (sym "}" :: rest)) := by
    refine sepBy1_ok (F := fun _ => True) hv (fun _ => trivial) h hn (by omega) trivial ?_
      (fun us m h1 _ bs hb => hmore us m h1 bs hb)
    match n, hn with
    | n + 1, _ => exact hend n
  rw [variants, bind_ok hs]
  cases trailing with
  | false => rw [bind_ok (flag_fail (sym_fail (by simp)))]; rfl
  | true =>
    simp only [if_true, List.cons_append, List.nil_append]
    rw [bind_ok (flag_ok (sym_ok _ _))]; rfl

theorem inherit_ok {h : Bool} {ts rest : List Tok} (hi : InheritW h ts) (hr : rest.head? ≠ some (sym ":")) :
    inheritance tok (ts ++ rest) = .ok h rest := by
  rcases hi with ⟨rfl, rfl⟩ | ⟨rfl, n, us, ⟨b, rfl⟩, rfl⟩
  · exact flag_fail (bind_fail (sym_fail hr))
  · exact flag_ok (by
      simp only [List.cons_append, List.nil_append]
      rw [bind_ok (sym_ok _ _)]; exact ident_ok _ _ _)

theorem body_ok {q : Parser (List Tok) α} {a : α} {ts rest : List Tok}
    (h : q (ts ++ sym "}" :: sym ";" :: rest) = .ok a (sym "}" :: sym ";" :: rest)) :
    body tok q (sym "{" :: (ts ++ sym "}" :: sym ";" :: rest)) = .ok a rest := by
  rw [body, bind_ok (within_ok h), bind_ok (sym_ok _ _)]; rfl

theorem op_ne {o : WOp} {ts : List Tok} (h : OpW o ts) : ts ≠ [] := by
  cases h with
  | mk m hd ha hr hx hl =>
    obtain ⟨us, _, rfl⟩ := hl
    simp

theorem field_ne {o : WField} {ts : List Tok} (h : FieldW o ts) : ts ≠ [] := by
  cases h with
  | mk q hd ha hr hx hl => simp

theorem def_ne {o : Def} {ts : List Tok} (h : DefW o ts) : ts ≠ [] := by
  cases h with
  | typedef => simp
  | _ h h' =>
    obtain ⟨us, vs, xs, ys, _, _, _, _, rfl⟩ := h'
    simp

/-- The alternatives of a definition on a keyword that they do not begin with. -/
theorem no_key {d : Option String} {a : Attrs} {n : Nat} {r : Rec (List Tok)} {us vs rest : List Tok} {w : String}
    (hd : Maybe Doc d us) (ha : AttrsW a vs) (hn : vs.length < n) {k : String} (hk : k ≠ w)
    {f : Attrs → Unit → Parser (List Tok) α} :
    (attrs tok n r >>= fun a => tok.kw k >>= f a) (us ++ (vs ++ key w :: rest)) = .fail :=
  doc_skip hd ha hn _ _ _ (fun a => bind_fail (key_fail (by simpa using fun h => hk h.symm)))
    (fun a s xs => bind_fail (key_fail (by simp)))

theorem no_key_doc {d : Option String} {a : Attrs} {n : Nat} {r : Rec (List Tok)} {us vs rest : List Tok} {w : String}
    (hd : Maybe Doc d us) (ha : AttrsW a vs) (hn : vs.length < n) {k : String} (hk : k ≠ w)
    {f : Option String → Attrs → Unit → Parser (List Tok) α} :
    (opt tok.doc >>= fun d => attrs tok n r >>= fun a => tok.kw k >>= f d a) (us ++ (vs ++ key w :: rest)) = .fail := by
  rw [bind_ok (doc_ok hd (attrs_head ha _ _ _)), bind_ok (attrs_ok ha hn (by simp))]
  exact bind_fail (key_fail (by simpa using fun h => hk h.symm))

theorem def_ok {n d : Nat} {x : Def} {ts rest : List Tok} (h : DefW x ts) (hn : ts.length < n) (hd : ts.length ≤ d) :
    definition tok n (recs tok n d) (ts ++ rest) = .ok x rest := by
  unfold definition
  cases h with
  | @namespace_ d' a m l bs ts hl hb =>
    obtain ⟨us, vs, xs, ys, hd', ha, ⟨c, rfl⟩, hi, rfl⟩ := hb
    rcases hi with ⟨_, rfl⟩ | ⟨h, _⟩
    · simp only [List.length_append, List.length_cons, List.length_nil, List.length_map] at hn hd
      simp only [List.append_assoc, List.cons_append, List.nil_append, List.map_cons, List.map_nil]
      have hv : vs.length < n := by omega
      rw [alt_cons_fail (no_key hd' ha hv (by decide)), alt_cons_fail (no_key_doc hd' ha hv (by decide)),
        alt_cons_fail (no_key_doc hd' ha hv (by decide)), alt_cons_fail (no_key hd' ha hv (by decide)), alt_cons_ok]
      rw [bind_ok (doc_ok hd' (attrs_head ha _ _ _)), bind_ok (attrs_ok ha hv (by simp)), bind_ok (key_ok _ _),
        bind_ok (ident_ok _ _ _), bind_ok (body_ok ?_)]
      · rfl
      · refine many_ok (N := bs.length + 1) (fun a ts rest hw hl => ns_ok hw (by omega) (by omega)) ?_ hl _ _
          (by omega) (by omega) (ns_close _)
        intro a ts hw
        cases hw with
        | op h _ => exact op_ne h
    · cases h
  | @enum_ d' a m l zs trailing ts hl hb =>
    obtain ⟨us, vs, xs, ys, hd', ha, ⟨c, rfl⟩, hi, rfl⟩ := hb
    rcases hi with ⟨_, rfl⟩ | ⟨h, _⟩
    · simp only [List.length_append, List.length_cons, List.length_nil, List.length_map] at hn hd
      simp only [List.append_assoc, List.cons_append, List.nil_append, List.map_cons, List.map_nil]
      have hv : vs.length < n := by omega
      rw [alt_cons_fail (no_key hd' ha hv (by decide)), alt_cons_fail (no_key_doc hd' ha hv (by decide)),
        alt_cons_fail (no_key_doc hd' ha hv (by decide)), alt_cons_fail (no_key hd' ha hv (by decide)),
        alt_cons_fail (no_key_doc hd' ha hv (by decide)), alt_cons_fail (no_key_doc hd' ha hv (by decide)),
        alt_cons_fail (no_key hd' ha hv (by decide)), alt_cons_fail (no_key hd' ha hv (by decide)),
        alt_cons_fail (no_key hd' ha hv (by decide)), alt_cons_fail (no_key hd' ha hv (by decide)), alt_cons_ok]
      rw [bind_ok (doc_ok hd' (attrs_head ha _ _ _)), bind_ok (attrs_ok ha hv (by simp)), bind_ok (key_ok _ _),
        bind_ok (ident_ok _ _ _), ← List.append_assoc zs, bind_ok (body_ok (variants_ok hl trailing (by omega)))]
      rfl
    · cases h
  | @dictionary d' a m h l bs ts hl hb =>
    obtain ⟨us, vs, xs, ys, hd', ha, ⟨c, rfl⟩, hi, rfl⟩ := hb
    simp only [List.length_append, List.length_cons, List.length_nil, List.length_map] at hn hd
    simp only [List.append_assoc, List.cons_append, List.nil_append, List.map_cons, List.map_nil]
    have hv : vs.length < n := by omega
    rw [alt_cons_fail (no_key hd' ha hv (by decide)), alt_cons_fail (no_key_doc hd' ha hv (by decide)),
      alt_cons_fail (no_key_doc hd' ha hv (by decide)), alt_cons_fail (no_key hd' ha hv (by decide)),
      alt_cons_fail (no_key_doc hd' ha hv (by decide)), alt_cons_ok]
    rw [bind_ok (doc_ok hd' (attrs_head ha _ _ _)), bind_ok (attrs_ok ha hv (by simp)), bind_ok (key_ok _ _),
      bind_ok (ident_ok _ _ _), bind_ok (inherit_ok hi (by simp)), bind_ok (body_ok ?_)]
    · rfl
    · exact many_ok (N := bs.length + 1) (fun a ts rest hw hl => field_ok hw (by omega) (by omega))
        (fun _ _ => field_ne) hl _ _ (by omega) (by omega) (field_close _)
  | @interface d' a m h l bs ts hl hb =>
    obtain ⟨us, vs, xs, ys, hd', ha, ⟨c, rfl⟩, hi, rfl⟩ := hb
    simp only [List.length_append, List.length_cons, List.length_nil, List.length_map] at hn hd
    simp only [List.append_assoc, List.cons_append, List.nil_append, List.map_cons, List.map_nil]
    have hv : vs.length < n := by omega
    rw [alt_cons_fail (no_key hd' ha hv (by decide)), alt_cons_fail (no_key_doc hd' ha hv (by decide)), alt_cons_ok]
    rw [bind_ok (doc_ok hd' (attrs_head ha _ _ _)), bind_ok (attrs_ok ha hv (by simp)), bind_ok (key_ok _ _),
      bind_ok (ident_ok _ _ _), bind_ok (inherit_ok hi (by simp)), bind_ok (body_ok ?_)]
    · rfl
    · refine many_ok (N := bs.length + 1) (fun a ts rest hw hl => member_ok hw (by omega) (by omega)) ?_ hl _ _
        (by omega) (by omega) (member_close _)
      intro a ts hw
      cases hw with
      | op h => exact op_ne h
      | ctor => simp
  | @callback d' a m h l bs ts hl hb =>
    obtain ⟨us, vs, xs, ys, hd', ha, ⟨c, rfl⟩, hi, rfl⟩ := hb
    simp only [List.length_append, List.length_cons, List.length_nil, List.length_map] at hn hd
    simp only [List.append_assoc, List.cons_append, List.nil_append, List.map_cons, List.map_nil]
    have hv : vs.length < n := by omega
    rw [alt_cons_fail (doc_skip hd' ha hv _ _ _
        (fun a => by rw [bind_ok (key_ok _ _), bind_ok (ident_ok _ _ _), bind_fail (sym_fail (by simp))])
        (fun a s xs => bind_fail (key_fail (by simp)))), alt_cons_ok]
    rw [bind_ok (doc_ok hd' (attrs_head ha _ _ _)), bind_ok (attrs_ok ha hv (by simp)), bind_ok (key_ok _ _),
      bind_ok (key_ok _ _), bind_ok (ident_ok _ _ _), bind_ok (inherit_ok hi (by simp)), bind_ok (body_ok ?_)]
    · rfl
    · refine many_ok (N := bs.length + 1) (fun a ts rest hw hl => member_ok hw (by omega) (by omega)) ?_ hl _ _
        (by omega) (by omega) (member_close _)
      intro a ts hw
      cases hw with
      | op h => exact op_ne h
      | ctor => simp
  | @typedef a t m ts us vs ha ht hm =>
    simp only [List.length_append, List.length_cons] at hn hd
    have h1 := typ_ok (n := n) (rest := vs ++ (sym ";" :: rest)) ht (d := d) (by omega) (name_tail hm _)
    obtain ⟨c, rfl⟩ := hm
    have hd' : Maybe Doc none [] := .none
    have hv : ts.length < n := by omega
    obtain ⟨b, k, zs, rfl, hb⟩ := ty_head ht
    simp only [List.append_assoc, List.cons_append, List.nil_append] at h1 ⊢
    have e : ∀ xs, ts ++ (key "typedef" :: xs) = [] ++ (ts ++ (key "typedef" :: xs)) := fun _ => rfl
    rw [e]
    rw [alt_cons_fail (no_key hd' ha hv (by decide)), alt_cons_fail (no_key_doc hd' ha hv (by decide)),
        alt_cons_fail (no_key_doc hd' ha hv (by decide)), alt_cons_fail (no_key hd' ha hv (by decide)),
        alt_cons_fail (no_key_doc hd' ha hv (by decide)), alt_cons_fail (no_key_doc hd' ha hv (by decide)),
        alt_cons_fail (no_key hd' ha hv (by decide)), alt_cons_fail (no_key hd' ha hv (by decide)),
        alt_cons_fail (no_key hd' ha hv (by decide)), alt_cons_fail (no_key hd' ha hv (by decide)),
        alt_cons_fail (no_key_doc hd' ha hv (by decide)), alt_cons_ok]
    rw [List.nil_append, bind_ok (attrs_ok ha hv (by simp)), bind_ok (key_ok _ _),
      bind_ok (by rw [attributedType, bind_ok (attrs_none (by simp)), bind_ok h1]; rfl), bind_ok (ident_ok _ _ _),
      bind_ok (sym_ok _ _)]
    rfl

theorem def_end {n : Nat} {r : Rec (List Tok)} : definition tok n r [] = .fail := by
  have hk : ∀ k, tok.kw k [] = .fail := fun k => key_fail (by simp)
  have ha : attrs tok n r [] = .ok none [] := attrs_none (by simp)
  have hd : opt tok.doc [] = .ok none [] := rfl
  have hi : tok.ident [] = .fail := rfl
  simp only [definition, alt, bind_eq, ha, hd, hk, hi]

/-- The grammar reads files. -/
theorem file_ok {n : Nat} {ds : List Def} {ts : List Tok} (h : FileW ds ts) (hn : ts.length < n) :
    definitions tok n ts = .ok ds [] := by
  have := many_ok (N := n) (fun a ts rest hw hl => def_ok (n := n) (d := n) (rest := rest) hw hl (by omega))
    (fun _ _ => def_ne) h n [] hn hn def_end
  rw [List.append_nil] at this
  exact this

end Verif.Udl.TextTok
