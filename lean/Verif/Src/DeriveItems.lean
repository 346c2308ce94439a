import Verif.Src.DeriveLemmas
namespace Verif.Derive
open Verif.Meta Verif.Src

/-! ### Documentation and `repr` -/

theorem docLines_ok : ∀ {ms : List Meta} {ls : List String},
    docLines ms = .ok ls ↔ DocsText ms ∧ ls = ms.filterMap docLine
  | [], ls => by
    constructor
    · intro h; cases h; exact ⟨fun m hm => (nomatch hm), rfl⟩
    · rintro ⟨_, rfl⟩; rfl
  | m :: ms, ls => by
    have hc : DocsText (m :: ms) ↔ (∀ p v, m = .nameValue p v → p.isIdent "doc" = true → ∃ s, v = .str s) ∧ DocsText ms := by
      unfold DocsText; simp only [List.forall_mem_cons]
    rw [hc, docLines.eq_def, List.filterMap_cons]
    dsimp only
    by_cases hm : m.pathOf.isIdent "doc" = true
    · rw [if_pos hm]
      cases m with
      | path p =>
        rw [docLines_ok]
        simp only [docLine, reduceCtorEq, false_implies, implies_true, true_and]
      | list p as =>
        rw [docLines_ok]
        simp only [docLine, reduceCtorEq, false_implies, implies_true, true_and]
      | nameValue p v =>
        have hp : p.isIdent "doc" = true := hm
        by_cases hv : ∃ s, v = .str s
        · obtain ⟨s, rfl⟩ := hv
          have hd : docLine (.nameValue p (.str s)) = some (trim s) := by rw [docLine, if_pos hp]
          rw [hd]
          show (docLines ms >>= fun r => Except.ok (trim s :: r)) = Except.ok ls ↔ _
          rw [bind_ok]
          constructor
          · rintro ⟨r, hr, h⟩; cases h
            obtain ⟨h1, rfl⟩ := docLines_ok.1 hr
            exact ⟨⟨fun q v h _ => by cases h; exact ⟨s, rfl⟩, h1⟩, rfl⟩
          · rintro ⟨⟨_, h1⟩, rfl⟩
            exact ⟨_, docLines_ok.2 ⟨h1, rfl⟩, rfl⟩
        · constructor
          · intro h
            cases v <;> first | exact absurd ⟨_, rfl⟩ hv | exact nomatch h
          · rintro ⟨⟨h, _⟩, _⟩
            exact absurd (h p v rfl hp) hv
    · rw [if_neg hm, docLines_ok]
      have hd : docLine m = none := by
        cases m with
        | nameValue p v => cases v <;> first | rfl | exact if_neg hm
        | _ => rfl
      rw [hd]
      constructor
      · rintro ⟨h1, rfl⟩
        refine ⟨⟨?_, h1⟩, rfl⟩
        rintro p v rfl hp
        exact absurd hp hm
      · rintro ⟨⟨_, h1⟩, rfl⟩
        exact ⟨h1, rfl⟩

theorem docstring_ok {ms : List Meta} {d : String} : docstring ms = .ok d ↔ DocsText ms ∧ d = (docText ms).getD "" := by
  unfold docstring
  rw [bind_ok]
  have key : "\n".intercalate (ms.filterMap docLine) = (docText ms).getD "" := by
    unfold docText
    cases ms.filterMap docLine <;> rfl
  constructor
  · rintro ⟨ls, hl, h⟩; cases h
    obtain ⟨h1, rfl⟩ := docLines_ok.1 hl
    exact ⟨h1, key⟩
  · rintro ⟨h1, rfl⟩
    exact ⟨_, docLines_ok.2 ⟨h1, rfl⟩, by rw [key]⟩

/-- What one word says. -/
def wordSays (m : Meta) : Option String := reprWords.find? fun w => m.pathOf.isIdent w

theorem reprOne_ok {m : Meta} {r : Option String} : reprOne m = .ok r ↔ (∃ p, m = .path p) ∧ r = wordSays m := by
  have hw : (match m.pathOf.getIdent with
      | some i => if i.raw = false ∧ i.name ∈ reprWords then some i.name else none
      | none => none) = wordSays m := by
    unfold wordSays
    generalize m.pathOf = q
    obtain ⟨l, segs⟩ := q
    cases l with
    | true =>
      have : ∀ w, Path.isIdent ⟨true, segs⟩ w = false := by intro w; simp [Path.isIdent]
      simp only [this, Path.getIdent]; rfl
    | false =>
      match segs with
      | [] =>
        have : ∀ w, Path.isIdent ⟨false, []⟩ w = false := by intro w; simp [Path.isIdent]
        simp only [this, Path.getIdent]; rfl
      | _ :: _ :: _ =>
        rename_i a b c
        have : ∀ w, Path.isIdent ⟨false, a :: b :: c⟩ w = false := by intro w; simp [Path.isIdent]
        simp only [this, Path.getIdent]; rfl
      | [i] =>
        obtain ⟨raw, name⟩ := i
        have hi : ∀ w, Path.isIdent ⟨false, [⟨raw, name⟩]⟩ w = (decide (raw = false) && decide (name = w)) := by
          intro w
          rw [Bool.eq_iff_iff]
          simp [Path.isIdent]
        simp only [hi, Path.getIdent]
        cases raw with
        | true => rfl
        | false =>
          simp only [decide_true, Bool.true_and, true_and]
          split
          · rename_i h
            rw [eq_comm, List.find?_eq_some_iff_append]
            refine ⟨by simp, ?_⟩
            have := List.eq_append_cons_of_mem h
            obtain ⟨as, bs, h1, h2⟩ := this
            refine ⟨as, bs, h1, ?_⟩
            intro a ha
            simp only [Bool.not_eq_true', decide_eq_false_iff_not]
            intro hna
            rw [← hna] at ha
            exact h2 ha
          · rename_i h
            rw [eq_comm, List.find?_eq_none]
            intro w hw
            simp only [decide_eq_true_eq]
            rintro rfl
            exact h hw
  rw [← hw]
  unfold reprOne
  cases m with
  | path p =>
    split
    · rename_i i hi
      simp only [hi]
      exact ⟨fun h => ⟨⟨p, rfl⟩, by cases h; rfl⟩, fun ⟨_, h⟩ => by rw [h]; rfl⟩
    · rename_i hi
      simp only [hi]
      exact ⟨fun h => ⟨⟨p, rfl⟩, by cases h; rfl⟩, fun ⟨_, h⟩ => by rw [h]; rfl⟩
  | list p as =>
    constructor
    · intro h; split at h <;> exact nomatch h
    · rintro ⟨⟨q, h⟩, _⟩; exact nomatch h
  | nameValue p as =>
    constructor
    · intro h; split at h <;> exact nomatch h
    · rintro ⟨⟨q, h⟩, _⟩; exact nomatch h

theorem reprList_ok : ∀ {as : List Meta} {r r' : Option String},
    nested (fun _ m _ => reprOne m) as r = .ok r' ↔
    (∀ a ∈ as, ∃ p, a = .path p) ∧ r' = (match as.getLast? with | none => r | some m => wordSays m)
  | [], r, r' => by
    show Except.ok r = Except.ok r' ↔ _
    simp [eq_comm]
  | m :: as, r, r' => by
    rw [nested, bind_ok]
    have hl : (match (m :: as).getLast? with | none => r | some m => wordSays m)
        = (match as.getLast? with | none => wordSays m | some m => wordSays m) := by
      rw [List.getLast?_cons]
      cases as.getLast? <;> rfl
    rw [hl, List.forall_mem_cons]
    constructor
    · rintro ⟨x, hx, h⟩
      obtain ⟨hp, rfl⟩ := reprOne_ok.1 hx
      obtain ⟨h1, h2⟩ := reprList_ok.1 h
      exact ⟨⟨hp, h1⟩, h2⟩
    · rintro ⟨⟨hp, h1⟩, h2⟩
      exact ⟨_, reprOne_ok.2 ⟨hp, rfl⟩, reprList_ok.2 ⟨h1, h2⟩⟩

theorem extractRepr_from : ∀ {ms : List Meta} {r r' : Option String},
    extractRepr ms r = .ok r' ↔ ReprOk ms ∧
    r' = (match (argsIn (fun m => m.pathOf.isIdent "repr") ms).getLast? with | none => r | some m => wordSays m)
  | [], r, r' => by
    show Except.ok r = Except.ok r' ↔ _
    have : ReprOk [] := ⟨fun m hm => (nomatch hm), fun m hm => (nomatch hm)⟩
    simp [this, argsIn_nil, eq_comm]
  | m :: ms, r, r' => by
    unfold ReprOk
    rw [extractRepr, lists_cons]
    by_cases hm : m.pathOf.isIdent "repr" = true
    · rw [if_pos hm, bind_ok, argsIn_own (own := fun m => m.pathOf.isIdent "repr") hm, List.getLast?_append]
      constructor
      · rintro ⟨as, has, h⟩
        obtain ⟨p, rfl⟩ := args_ok.1 has
        obtain ⟨x, hx, h⟩ := synBind h
        obtain ⟨hw, rfl⟩ := reprList_ok.1 hx
        obtain ⟨⟨h1, h2⟩, rfl⟩ := extractRepr_from.1 h
        refine ⟨⟨⟨fun _ => ⟨p, as, rfl⟩, h1⟩, ?_⟩, ?_⟩
        · intro a ha
          rcases List.mem_append.1 ha with ha | ha
          · exact hw a ha
          · exact h2 a ha
        · show _ = match (Option.or _ as.getLast?) with | none => r | some m => wordSays m
          cases (argsIn (fun m => m.pathOf.isIdent "repr") ms).getLast? <;> rfl
      · rintro ⟨⟨⟨hp, h1⟩, h2⟩, rfl⟩
        obtain ⟨p, as, rfl⟩ := hp hm
        refine ⟨as, rfl, bind_ok.2 ⟨_, reprList_ok.2 ⟨fun a ha => h2 a (List.mem_append_left _ ha), rfl⟩, ?_⟩⟩
        refine extractRepr_from.2 ⟨⟨h1, fun a ha => h2 a (List.mem_append_right _ ha)⟩, ?_⟩
        show (match (Option.or _ as.getLast?) with | none => r | some m => wordSays m) = _
        cases (argsIn (fun m => m.pathOf.isIdent "repr") ms).getLast? <;> rfl
    · rw [if_neg hm, argsIn_not (own := fun m => m.pathOf.isIdent "repr") hm, extractRepr_from]
      unfold ReprOk
      simp only [hm, Bool.false_eq_true, false_implies, true_and]

theorem wordSays_iff {m : Meta} {r : Option String} : r = wordSays m ↔
    (∃ w ∈ ["u8", "u16", "u32", "u64", "usize", "i8", "i16", "i32", "i64", "isize"], m.pathOf.isIdent w = true ∧ r = some w) ∨
    ((∀ w ∈ ["u8", "u16", "u32", "u64", "usize", "i8", "i16", "i32", "i64", "isize"], m.pathOf.isIdent w = false) ∧ r = none) := by
  unfold wordSays
  rw [show ["u8", "u16", "u32", "u64", "usize", "i8", "i16", "i32", "i64", "isize"] = reprWords from rfl]
  cases h : reprWords.find? fun w => m.pathOf.isIdent w with
  | none =>
    rw [List.find?_eq_none] at h
    constructor
    · rintro rfl; exact .inr ⟨fun w hw => by simpa using h w hw, rfl⟩
    · rintro (⟨w, hw, hm, _⟩ | ⟨_, rfl⟩)
      · exact absurd hm (h w hw)
      · rfl
  | some w =>
    have hw := List.mem_of_find?_eq_some h
    have hm : m.pathOf.isIdent w = true := List.find?_some h
    constructor
    · rintro rfl; exact .inl ⟨w, hw, hm, rfl⟩
    · rintro (⟨v, hv, hmv, rfl⟩ | ⟨hn, _⟩)
      · by_cases hvw : v = w
        · rw [hvw]
        · rw [ident_ne hmv hvw] at hm; exact nomatch hm
      · rw [hn w hw] at hm; exact nomatch hm

theorem extractRepr_ok {ms : List Meta} {r : Option String} : extractRepr ms none = .ok r ↔ ReprOk ms ∧ ReprSays ms r := by
  rw [extractRepr_from]
  unfold ReprSays
  cases (argsIn (fun m => m.pathOf.isIdent "repr") ms).getLast? with
  | none => rfl
  | some m => dsimp only; rw [wordSays_iff]

theorem reprTy_ok {w : String} {t : RTy} : reprTy w = .ok t ↔ (w, t) ∈ intTypes := by
  constructor
  · intro h
    unfold reprTy at h
    split at h <;> first | (cases h; decide) | exact nomatch h
  · intro h
    simp only [intTypes, List.mem_cons, Prod.mk.injEq, List.not_mem_nil, or_false] at h
    rcases h with ⟨rfl, rfl⟩ | ⟨rfl, rfl⟩ | ⟨rfl, rfl⟩ | ⟨rfl, rfl⟩ | ⟨rfl, rfl⟩ | ⟨rfl, rfl⟩ | ⟨rfl, rfl⟩ | ⟨rfl, rfl⟩ <;> rfl

/-! ### Names, fields and variants -/

theorem named_is {attr : Option String} {i : Ident} {n : String} {o : Option String} :
    (n, o) = named attr i ↔ NameIs attr i.name n o := by
  cases attr <;> simp [named, NameIs]

theorem calls_some {d : DefSrc} : d.calls.isSome = true ↔ Recordable d := by
  induction d with
  | str s => exact ⟨fun _ => .str s, fun _ => rfl⟩
  | int z b =>
    cases b
    · exact ⟨fun _ => .int z, fun _ => rfl⟩
    · exact ⟨fun h => (nomatch h), fun h => (nomatch h)⟩
  | float z b =>
    cases b
    · exact ⟨fun _ => .float z, fun _ => rfl⟩
    · exact ⟨fun h => (nomatch h), fun h => (nomatch h)⟩
  | bool b => exact ⟨fun _ => .bool b, fun _ => rfl⟩
  | otherLiteral => exact ⟨fun h => (nomatch h), fun h => (nomatch h)⟩
  | optNone => exact ⟨fun _ => .none, fun _ => rfl⟩
  | optSome d ih =>
    rw [DefSrc.calls, Option.isSome_map, ih]
    exact ⟨.some, fun h => by cases h; assumption⟩
  | emptySeq => exact ⟨fun _ => .emptySeq, fun _ => rfl⟩
  | default => exact ⟨fun _ => .default, fun _ => rfl⟩

theorem field_calls {s : FieldSrc} : s.calls.isSome = true ↔ ∀ d, s.default = some d → Recordable d := by
  rw [FieldSrc.calls, Option.isSome_map]
  unfold defaultCalls
  cases s.default with
  | none => simp
  | some d => simp only [Option.isSome_map, Option.some.injEq, forall_eq']; exact calls_some

theorem callsOf_some {α : Type} {f : α → Option (List Op)} : ∀ {as : List α},
    (callsOf f as).isSome = true ↔ ∀ a ∈ as, (f a).isSome = true
  | [] => by simp [callsOf]
  | a :: as => by
    rw [callsOf, List.forall_mem_cons, ← callsOf_some (as := as)]
    cases f a <;> simp

theorem len_some {n : Nat} : (lenValue n).isSome = true ↔ n ≤ 255 := by
  unfold lenValue
  split <;> simp <;> omega

theorem variant_calls {s : VariantSrc} : s.calls.isSome = true ↔ s.fields.length ≤ 255 ∧ ∀ f ∈ s.fields, f.calls.isSome = true := by
  rw [VariantSrc.calls, ← len_some, ← callsOf_some]
  cases lenValue s.fields.length <;> simp

theorem variants_calls {calls : VariantSrc → Option (List Op)} {vs : List VariantSrc} :
    (variantsCalls calls vs).isSome = true ↔ vs.length ≤ 255 ∧ ∀ v ∈ vs, (calls v).isSome = true := by
  rw [variantsCalls, ← len_some, ← callsOf_some]
  cases lenValue vs.length <;> simp

theorem emit_ok {i j : Verif.Meta.Item} : emit i = .ok j ↔ i.calls.isSome = true ∧ j = i := by
  unfold emit
  split
  · rename_i h
    exact ⟨fun h' => by cases h'; exact ⟨h, rfl⟩, fun ⟨_, h'⟩ => by rw [h']⟩
  · rename_i h
    exact ⟨fun h' => (nomatch h'), fun ⟨h', _⟩ => absurd h' h⟩

/-- A field without the check of its default. -/
theorem field_ok {b : Bool} {f : DField} {s : FieldSrc} : expandField b f = .ok s ↔
    (FieldArgsOk f.metas ∧ DocsText f.metas ∧ (b = true → f.ident.isSome = true)) ∧ FieldSays f s := by
  unfold expandField
  rw [bind_ok]
  constructor
  · rintro ⟨a, ha, h⟩
    obtain ⟨h1, h2, h3⟩ := fieldArgs_ok.1 ha
    obtain ⟨n, hn, h⟩ := synBind h
    obtain ⟨d, hd, h⟩ := synBind h
    obtain ⟨h4, rfl⟩ := docstring_ok.1 hd
    cases h
    unfold fieldNames at hn
    rw [h2] at hn
    cases hi : f.ident with
    | some i =>
      rw [hi] at hn
      cases hn
      refine ⟨⟨h1, h4, fun _ => rfl⟩, ⟨?_, rfl, h3, rfl⟩⟩
      rw [hi]
      exact named_is.1 rfl
    | none =>
      rw [hi] at hn
      dsimp only at hn
      cases b with
      | true => exact nomatch hn
      | false =>
        rw [if_neg (by exact Bool.noConfusion)] at hn
        cases hn
        refine ⟨⟨h1, h4, fun h => (nomatch h)⟩, ⟨?_, rfl, h3, rfl⟩⟩
        rw [hi]
        cases textArg "name" (uniffiArgs f.metas) <;> exact ⟨rfl, rfl⟩
  · rintro ⟨⟨h1, h4, hb⟩, hs⟩
    obtain ⟨sn, so, st, sd, sdoc⟩ := s
    obtain ⟨n1, n2, n3, n4⟩ := hs
    dsimp only at n1 n2 n3 n4
    subst n2 n3 n4
    refine ⟨⟨fieldDefault (uniffiArgs f.metas), textArg "name" (uniffiArgs f.metas)⟩, fieldArgs_ok.2 ⟨h1, rfl, rfl⟩,
      bind_ok.2 ⟨(sn, so), ?_, bind_ok.2 ⟨_, docstring_ok.2 ⟨h4, rfl⟩, rfl⟩⟩⟩
    unfold fieldNames
    dsimp only
    cases hi : f.ident with
    | some i =>
      rw [hi] at n1
      exact congrArg _ (named_is.2 n1).symm
    | none =>
      rw [hi] at n1 hb
      obtain ⟨rfl, rfl⟩ := n1
      cases b with
      | true => exact absurd (hb rfl) Bool.noConfusion
      | false => cases textArg "name" (uniffiArgs f.metas) <;> rfl

/-- A variant without the check of its length and of defaults. -/
theorem variant_ok {v : DVariant} {s : VariantSrc} : expandVariant v = .ok s ↔
    (NamesOnly v.metas ∧ DocsText v.metas ∧ v.discr ≠ some .other ∧ ∀ f ∈ v.fields, FieldArgsOk f.metas ∧ DocsText f.metas) ∧
    VariantSays v s := by
  have hf : ∀ {fs : List FieldSrc}, v.fields.mapM (expandField false) = .ok fs ↔
      (∀ f ∈ v.fields, FieldArgsOk f.metas ∧ DocsText f.metas) ∧ Each FieldSays v.fields fs := by
    intro fs
    rw [mapM_ok]
    exact each_iff fun f s => by rw [field_ok]; simp only [Bool.false_eq_true, false_implies, and_true]
  have hv : ∀ {z : Option Int}, variantValue v.discr = .ok z ↔ v.discr ≠ some .other ∧ (match v.discr with
      | none => z = none
      | some (.int n) => z = some (n : Int)
      | some (.neg n) => z = some (-n : Int)
      | some .other => False) := by
    intro z
    rcases v.discr with _ | d
    · simp [variantValue, eq_comm]
    · cases d <;> simp [variantValue, eq_comm]
  unfold expandVariant
  rw [bind_ok]
  constructor
  · rintro ⟨fs, hfs, h⟩
    obtain ⟨a, ha, h⟩ := synBind h
    obtain ⟨z, hz, h⟩ := synBind h
    obtain ⟨d, hd, h⟩ := synBind h
    cases h
    obtain ⟨h1, rfl⟩ := nameArgs_ok.1 ha
    obtain ⟨h2, rfl⟩ := docstring_ok.1 hd
    obtain ⟨h3, h4⟩ := hf.1 hfs
    obtain ⟨h5, h6⟩ := hv.1 hz
    exact ⟨⟨h1, h2, h5, h3⟩, ⟨named_is.1 rfl, h6, h4, rfl⟩⟩
  · rintro ⟨⟨h1, h2, h5, h3⟩, ⟨s1, s2, s3, s4⟩⟩
    obtain ⟨sn, so, sv, sf, sd⟩ := s
    dsimp only at s1 s2 s3 s4
    subst s4
    refine ⟨sf, hf.2 ⟨h3, s3⟩, bind_ok.2 ⟨_, nameArgs_ok.2 ⟨h1, rfl⟩, bind_ok.2 ⟨sv, hv.2 ⟨h5, s2⟩,
      bind_ok.2 ⟨_, docstring_ok.2 ⟨h2, rfl⟩, ?_⟩⟩⟩⟩
    rw [← named_is.2 s1]

theorem flat_ok {v : DVariant} {s : VariantSrc} : expandFlat v = .ok s ↔
    (NamesOnly v.metas ∧ DocsText v.metas) ∧ FlatSays v s := by
  unfold expandFlat
  rw [bind_ok]
  constructor
  · rintro ⟨a, ha, h⟩
    obtain ⟨d, hd, h⟩ := synBind h
    cases h
    obtain ⟨h1, rfl⟩ := nameArgs_ok.1 ha
    obtain ⟨h2, rfl⟩ := docstring_ok.1 hd
    exact ⟨⟨h1, h2⟩, ⟨named_is.1 rfl, rfl, rfl, rfl⟩⟩
  · rintro ⟨⟨h1, h2⟩, ⟨s1, s2, s3, s4⟩⟩
    obtain ⟨sn, so, sv, sf, sd⟩ := s
    dsimp only at s1 s2 s3 s4
    subst s2 s3 s4
    refine ⟨_, nameArgs_ok.2 ⟨h1, rfl⟩, bind_ok.2 ⟨_, docstring_ok.2 ⟨h2, rfl⟩, ?_⟩⟩
    rw [← named_is.2 s1]

/-! ### The parts that are checked when metadata is made -/

theorem each_both {α β : Type} {R : α → β → Prop} {P : α → Prop} {Q : β → Prop} (h : ∀ a b, R a b → (P a ↔ Q b)) :
    ∀ {as : List α} {bs : List β}, Each R as bs → ((∀ a ∈ as, P a) ↔ ∀ b ∈ bs, Q b)
  | _, _, .nil => by simp
  | _, _, .cons h1 h2 => by
    rw [List.forall_mem_cons, List.forall_mem_cons, h _ _ h1, each_both h h2]

theorem fields_calls {fs : List DField} {ss : List FieldSrc} (h : Each FieldSays fs ss) :
    (∀ s ∈ ss, s.calls.isSome = true) ↔ ∀ f ∈ fs, ∀ d, fieldDefault (uniffiArgs f.metas) = some d → Recordable d := by
  refine (each_both (fun f s hs => ?_) h).symm
  rw [field_calls, hs.default]

theorem record_ok {mp : String} {metas : List Meta} {ident : Ident} {fields : List DField} {i : Verif.Meta.Item} :
    expandRecord mp metas ident fields = .ok i ↔
    (NamesOnly metas ∧ DocsText metas ∧ fields.length ≤ 255 ∧ ∀ f ∈ fields, FieldOk f ∧ f.ident.isSome = true) ∧
    ∃ name orig fs, i = .record mp name orig fs ((docText metas).getD "") ∧
      NameIs (textArg "name" (uniffiArgs metas)) ident.name name orig ∧ Each FieldSays fields fs := by
  have hf : ∀ {fs : List FieldSrc}, fields.mapM (expandField true) = .ok fs ↔
      (∀ f ∈ fields, FieldArgsOk f.metas ∧ DocsText f.metas ∧ f.ident.isSome = true) ∧ Each FieldSays fields fs := by
    intro fs
    rw [mapM_ok]
    exact each_iff fun f s => by rw [field_ok]; simp only [true_implies]
  have hc : ∀ {n o fs d}, (Item.calls (.record mp n o fs d)).isSome = true ↔
      fs.length ≤ 255 ∧ ∀ s ∈ fs, s.calls.isSome = true := by
    intro n o fs d
    rw [Item.calls, ← len_some, ← callsOf_some]
    cases lenValue fs.length <;> simp
  unfold expandRecord
  rw [bind_ok]
  constructor
  · rintro ⟨d, hd, h⟩
    obtain ⟨a, ha, h⟩ := synBind h
    obtain ⟨fs, hfs, h⟩ := synBind h
    obtain ⟨h1, rfl⟩ := docstring_ok.1 hd
    obtain ⟨h2, rfl⟩ := nameArgs_ok.1 ha
    obtain ⟨h3, h4⟩ := hf.1 hfs
    obtain ⟨h5, rfl⟩ := emit_ok.1 h
    rw [hc, ← each_len h4, fields_calls h4] at h5
    exact ⟨⟨h2, h1, h5.1, fun f hf => ⟨⟨(h3 f hf).1, (h3 f hf).2.1, h5.2 f hf⟩, (h3 f hf).2.2⟩⟩,
      _, _, fs, rfl, named_is.1 rfl, h4⟩
  · rintro ⟨⟨h2, h1, h5, h3⟩, name, orig, fs, rfl, hn, h4⟩
    refine ⟨_, docstring_ok.2 ⟨h1, rfl⟩, bind_ok.2 ⟨_, nameArgs_ok.2 ⟨h2, rfl⟩, bind_ok.2 ⟨fs,
      hf.2 ⟨fun f hf => ⟨(h3 f hf).1.args, (h3 f hf).1.docs, (h3 f hf).2⟩, h4⟩, ?_⟩⟩⟩
    rw [emit_ok, hc, ← each_len h4, fields_calls h4, ← named_is.2 hn]
    exact ⟨⟨h5, fun f hf => (h3 f hf).1.default⟩, rfl⟩

theorem object_ok {mp : String} {metas : List Meta} {ident : Ident} {i : Verif.Meta.Item} :
    expandObject mp metas ident = .ok i ↔ (NamesOnly metas ∧ DocsText metas) ∧
    ∃ name orig, i = .object mp name orig .struct ((docText metas).getD "") ∧
      NameIs (textArg "name" (uniffiArgs metas)) ident.name name orig := by
  unfold expandObject
  rw [bind_ok]
  constructor
  · rintro ⟨a, ha, h⟩
    obtain ⟨d, hd, h⟩ := synBind h
    obtain ⟨h1, rfl⟩ := docstring_ok.1 hd
    obtain ⟨h2, rfl⟩ := nameArgs_ok.1 ha
    obtain ⟨_, rfl⟩ := emit_ok.1 h
    exact ⟨⟨h2, h1⟩, _, _, rfl, named_is.1 rfl⟩
  · rintro ⟨⟨h2, h1⟩, name, orig, rfl, hn⟩
    refine ⟨_, nameArgs_ok.2 ⟨h2, rfl⟩, bind_ok.2 ⟨_, docstring_ok.2 ⟨h1, rfl⟩, ?_⟩⟩
    rw [emit_ok, ← named_is.2 hn]
    exact ⟨rfl, rfl⟩

theorem rich_iff {vs : List DVariant} {ss : List VariantSrc} :
    (vs.mapM expandVariant = .ok ss ∧ (variantsCalls VariantSrc.calls ss).isSome = true) ↔
    (vs.length ≤ 255 ∧ ∀ v ∈ vs, VariantOk v) ∧ Each VariantSays vs ss := by
  rw [mapM_ok, each_iff fun v s => variant_ok (v := v) (s := s), variants_calls]
  constructor
  · rintro ⟨⟨h1, h2⟩, h3, h4⟩
    rw [← each_len h2] at h3
    refine ⟨⟨h3, ?_⟩, h2⟩
    have := (each_both (P := fun v : DVariant => v.fields.length ≤ 255 ∧
      ∀ f ∈ v.fields, ∀ d, fieldDefault (uniffiArgs f.metas) = some d → Recordable d) (fun v s hs => by
        rw [variant_calls, ← each_len hs.fields, fields_calls hs.fields]) h2).2 h4
    intro v hv
    obtain ⟨g1, g2, g3, g4⟩ := h1 v hv
    exact ⟨g1, g2, g3, (this v hv).1, fun f hf => ⟨(g4 f hf).1, (g4 f hf).2, (this v hv).2 f hf⟩⟩
  · rintro ⟨⟨h3, h1⟩, h2⟩
    refine ⟨⟨fun v hv => ⟨(h1 v hv).args, (h1 v hv).docs, (h1 v hv).discr, fun f hf =>
      ⟨((h1 v hv).fields f hf).args, ((h1 v hv).fields f hf).docs⟩⟩, h2⟩, by rw [← each_len h2]; exact h3, ?_⟩
    refine (each_both (P := fun v : DVariant => v.fields.length ≤ 255 ∧
      ∀ f ∈ v.fields, ∀ d, fieldDefault (uniffiArgs f.metas) = some d → Recordable d) (fun v s hs => by
        rw [variant_calls, ← each_len hs.fields, fields_calls hs.fields]) h2).1 ?_
    exact fun v hv => ⟨(h1 v hv).few, fun f hf => ((h1 v hv).fields f hf).default⟩

theorem flat_iff {vs : List DVariant} {ss : List VariantSrc} :
    (vs.mapM expandFlat = .ok ss ∧ (variantsCalls VariantSrc.flatCalls ss).isSome = true) ↔
    (vs.length ≤ 255 ∧ ∀ v ∈ vs, NamesOnly v.metas ∧ DocsText v.metas) ∧ Each FlatSays vs ss := by
  rw [mapM_ok, each_iff fun v s => flat_ok (v := v) (s := s), variants_calls]
  constructor
  · rintro ⟨⟨h1, h2⟩, h3, h4⟩
    rw [← each_len h2] at h3
    exact ⟨⟨h3, h1⟩, h2⟩
  · rintro ⟨⟨h3, h1⟩, h2⟩
    exact ⟨⟨h1, h2⟩, by rw [← each_len h2]; exact h3, fun _ _ => rfl⟩

theorem names_of_enum {metas : List Meta} : (EnumArgsOk metas ∧ wordArg "flat_error" (uniffiArgs metas) = false ∧
    wordArg "with_try_read" (uniffiArgs metas) = false) ↔ NamesOnly metas := by
  constructor
  · rintro ⟨⟨hl, ha, hn, _, _⟩, hf, hw⟩
    refine ⟨hl, fun a h => ?_, hn⟩
    unfold wordArg at hf hw
    rw [List.any_eq_false] at hf hw
    rcases ha a h with h' | h' | h'
    · exact h'
    · exact absurd (word_path h') (hf a h)
    · exact absurd (word_path h') (hw a h)
  · rintro ⟨hl, ha, hn⟩
    have key : ∀ w, "name" ≠ w → ∀ m ∈ uniffiArgs metas, ¬ m.pathOf.isIdent w = true := by
      intro w hw m hm h
      rw [ident_ne (text_path (ha m hm)) hw] at h
      exact nomatch h
    have once : ∀ w, "name" ≠ w → Once w (uniffiArgs metas) := by
      intro w hw
      unfold Once
      rw [List.filter_eq_nil_iff.2 (key w hw)]; exact Nat.zero_le _
    refine ⟨⟨hl, fun a h => .inl (ha a h), hn, once _ (by decide), once _ (by decide)⟩, ?_, ?_⟩
    · exact List.any_eq_false.2 (key _ (by decide))
    · exact List.any_eq_false.2 (key _ (by decide))

theorem repr_unique {metas : List Meta} {r r' : Option String} (h : ReprSays metas r) (h' : ReprSays metas r') : r = r' := by
  unfold ReprSays at h h'
  cases hl : (argsIn (fun m => m.pathOf.isIdent "repr") metas).getLast? with
  | none => rw [hl] at h h'; exact h.trans h'.symm
  | some m =>
    rw [hl] at h h'
    exact (wordSays_iff.2 h).trans (wordSays_iff.2 h').symm

theorem repr_word {metas : List Meta} {w : String} (h : ReprSays metas (some w)) :
    w = "usize" ∨ w = "isize" ∨ ∃ t, (w, t) ∈ intTypes := by
  unfold ReprSays at h
  split at h
  · exact nomatch h
  · rcases h with ⟨v, hv, _, h⟩ | ⟨_, h⟩
    · cases h
      simp only [List.mem_cons, List.not_mem_nil, or_false] at hv
      rcases hv with rfl | rfl | rfl | rfl | rfl | rfl | rfl | rfl | rfl | rfl
      all_goals first
        | exact .inl rfl
        | exact .inr (.inl rfl)
        | exact .inr (.inr (by
            simp only [intTypes, List.mem_cons, Prod.mk.injEq, String.reduceEq, false_and, true_and, false_or, or_false,
              List.not_mem_nil, exists_eq]))
    · exact nomatch h

theorem reprOpt_ok {r : Option String} {ty : Option RTy} : r.mapM reprTy = .ok ty ↔
    (match ty with | none => r = none | some t => ∃ w, (w, t) ∈ intTypes ∧ r = some w) := by
  cases r with
  | none =>
    show Except.ok none = Except.ok ty ↔ _
    cases ty <;> simp
  | some w =>
    show (reprTy w >>= fun t => Except.ok (some t)) = Except.ok ty ↔ _
    rw [bind_ok]
    constructor
    · rintro ⟨t, ht, h⟩; cases h
      exact ⟨w, reprTy_ok.1 ht, rfl⟩
    · cases ty with
      | none => intro h; exact nomatch h
      | some t => rintro ⟨w', h, hw⟩; cases hw; exact ⟨t, reprTy_ok.2 h, rfl⟩

theorem enum_ok {mp : String} {metas : List Meta} {ident : Ident} {variants : List DVariant} {i : Verif.Meta.Item} :
    expandEnum mp metas ident variants = .ok i ↔
    (NamesOnly metas ∧ DocsText metas ∧ ReprOk metas ∧ (∀ w, ReprSays metas (some w) → w ≠ "usize" ∧ w ≠ "isize") ∧
      variants.length ≤ 255 ∧ ∀ v ∈ variants, VariantOk v) ∧
    ∃ name orig ty vs, i = .enum mp name orig ty vs (wordArg "non_exhaustive" metas) ((docText metas).getD "") ∧
      NameIs (textArg "name" (uniffiArgs metas)) ident.name name orig ∧
      (match ty with | none => ReprSays metas none | some t => ∃ w, (w, t) ∈ intTypes ∧ ReprSays metas (some w)) ∧
      Each VariantSays variants vs := by
  have hc : ∀ {n o t vs e d}, (Item.calls (.enum mp n o t vs e d)).isSome = (variantsCalls VariantSrc.calls vs).isSome := by
    intro n o t vs e d
    rw [Item.calls, Option.isSome_map]
  unfold expandEnum
  rw [bind_ok]
  constructor
  · rintro ⟨d, hd, h⟩
    obtain ⟨r, hr, h⟩ := synBind h
    obtain ⟨a, ha, h⟩ := synBind h
    obtain ⟨h1, rfl⟩ := docstring_ok.1 hd
    obtain ⟨h2, h3⟩ := extractRepr_ok.1 hr
    obtain ⟨h4, h5, h6, h7⟩ := enumArgs_ok.1 ha
    split at h
    · exact nomatch h
    · rename_i hno
      rw [Bool.or_eq_true, not_or, Bool.not_eq_true, Bool.not_eq_true, h6, h7] at hno
      obtain ⟨ty, hty, h⟩ := synBind h
      obtain ⟨vs, hvs, h⟩ := synBind h
      obtain ⟨h8, rfl⟩ := emit_ok.1 h
      rw [hc] at h8
      obtain ⟨⟨g1, g2⟩, g3⟩ := rich_iff.1 ⟨hvs, h8⟩
      have hty := reprOpt_ok.1 hty
      refine ⟨⟨names_of_enum.1 ⟨h4, hno⟩, h1, h2, ?_, g1, g2⟩, _, _, ty, vs, rfl, ?_, ?_, g3⟩
      · intro w hw
        cases repr_unique h3 hw
        cases ty with
        | none => exact nomatch hty
        | some t =>
          obtain ⟨w', hw', h⟩ := hty
          cases h
          constructor <;> (rintro rfl; simp [intTypes] at hw')
      · rw [← h5]; exact named_is.1 rfl
      · cases ty with
        | none => rw [show r = none from hty] at h3; exact h3
        | some t =>
          obtain ⟨w, hw, rfl⟩ := hty
          exact ⟨w, hw, h3⟩
  · rintro ⟨⟨h4, h1, h2, h3, g1, g2⟩, name, orig, ty, vs, rfl, hn, hty, g3⟩
    obtain ⟨h4, h6, h7⟩ := names_of_enum.2 h4
    obtain ⟨hvs, h8⟩ := rich_iff.2 ⟨⟨g1, g2⟩, g3⟩
    have hr : ∃ r, ReprSays metas r ∧
        (match (generalizing := false) ty with | none => r = none | some t => ∃ w, (w, t) ∈ intTypes ∧ r = some w) := by
      cases ty with
      | none => exact ⟨none, hty, rfl⟩
      | some t => obtain ⟨w, hw, h⟩ := hty; exact ⟨some w, h, w, hw, rfl⟩
    obtain ⟨r, hr, hrt⟩ := hr
    refine ⟨_, docstring_ok.2 ⟨h1, rfl⟩, bind_ok.2 ⟨r, extractRepr_ok.2 ⟨h2, hr⟩, bind_ok.2
      ⟨⟨none, none, textArg "name" (uniffiArgs metas)⟩, enumArgs_ok.2 ⟨h4, rfl, h6.symm, h7.symm⟩, ?_⟩⟩⟩
    show (r.mapM reprTy >>= _) = _
    refine bind_ok.2 ⟨ty, reprOpt_ok.2 hrt, bind_ok.2 ⟨vs, hvs, ?_⟩⟩
    rw [emit_ok, hc, ← named_is.2 hn]
    exact ⟨h8, rfl⟩

theorem noArgs_all {fs : List DField} : (∃ us, (fs.mapM fun f => noArgs.ofAttrs f.metas) = .ok us) ↔
    ∀ f ∈ fs, Lists "uniffi" f.metas ∧ uniffiArgs f.metas = [] := by
  constructor
  · rintro ⟨us, h⟩
    exact each_left (fun f u h => noArgs_ok.1 h) (mapM_ok.1 h)
  · intro h
    obtain ⟨us, hu⟩ := each_exists (R := fun (f : DField) u => noArgs.ofAttrs f.metas = .ok u)
      (fun f hf => ⟨(), noArgs_ok.2 (h f hf)⟩)
    exact ⟨us, mapM_ok.2 hu⟩

theorem error_ok {mp : String} {metas : List Meta} {ident : Ident} {variants : List DVariant} {i : Verif.Meta.Item} :
    expandError mp metas ident variants = .ok i ↔
    (EnumArgsOk metas ∧ DocsText metas ∧ ReprOk metas ∧ variants.length ≤ 255 ∧
      (∀ v ∈ variants, if wordArg "flat_error" (uniffiArgs metas) = true then NamesOnly v.metas ∧ DocsText v.metas
        else VariantOk v) ∧
      ∀ v ∈ variants, ∀ f ∈ v.fields, Lists "uniffi" f.metas ∧ uniffiArgs f.metas = []) ∧
    ∃ name orig vs, i = .error mp name orig (wordArg "flat_error" (uniffiArgs metas)) vs (wordArg "non_exhaustive" metas)
        ((docText metas).getD "") ∧
      NameIs (textArg "name" (uniffiArgs metas)) ident.name name orig ∧
      (if wordArg "flat_error" (uniffiArgs metas) = true then Each FlatSays variants vs else Each VariantSays variants vs) := by
  have hc : ∀ {n o b vs e d}, (Item.calls (.error mp n o b vs e d)).isSome =
      (variantsCalls (if b then VariantSrc.flatCalls else VariantSrc.calls) vs).isSome := by
    intro n o b vs e d
    rw [Item.calls, Option.isSome_map]
  have hall : (∀ f ∈ variants.flatMap (·.fields), Lists "uniffi" f.metas ∧ uniffiArgs f.metas = []) ↔
      ∀ v ∈ variants, ∀ f ∈ v.fields, Lists "uniffi" f.metas ∧ uniffiArgs f.metas = [] := by
    simp only [List.mem_flatMap]
    exact ⟨fun h v hv f hf => h f ⟨v, hv, hf⟩, fun h f ⟨v, hv, hf⟩ => h v hv f hf⟩
  have hvs : ∀ {b : Bool} {vs : List VariantSrc}, (variants.mapM (if b then expandFlat else expandVariant) = .ok vs ∧
      (variantsCalls (if b then VariantSrc.flatCalls else VariantSrc.calls) vs).isSome = true) ↔
      (variants.length ≤ 255 ∧ ∀ v ∈ variants, if b = true then NamesOnly v.metas ∧ DocsText v.metas else VariantOk v) ∧
      (if b = true then Each FlatSays variants vs else Each VariantSays variants vs) := by
    intro b vs
    cases b with
    | true => exact flat_iff
    | false => exact rich_iff
  unfold expandError
  rw [bind_ok]
  constructor
  · rintro ⟨d, hd, h⟩
    obtain ⟨r, hr, h⟩ := synBind h
    obtain ⟨a, ha, h⟩ := synBind h
    obtain ⟨vs, hv, h⟩ := synBind h
    obtain ⟨us, hu, h⟩ := synBind h
    obtain ⟨h1, rfl⟩ := docstring_ok.1 hd
    obtain ⟨h2, h3⟩ := extractRepr_ok.1 hr
    obtain ⟨h4, h5, h6, h7⟩ := enumArgs_ok.1 ha
    obtain ⟨h8, rfl⟩ := emit_ok.1 h
    rw [hc, h6] at h8
    rw [h6] at hv
    obtain ⟨⟨g1, g2⟩, g3⟩ := hvs.1 ⟨hv, h8⟩
    refine ⟨⟨h4, h1, h2, g1, g2, hall.1 (noArgs_all.1 ⟨us, hu⟩)⟩, (named a.name ident).1, (named a.name ident).2, vs, ?_, ?_, g3⟩
    · rw [h6]; rfl
    · rw [← h5]; exact named_is.1 rfl
  · rintro ⟨⟨h4, h1, h2, g1, g2, g4⟩, name, orig, vs, rfl, hn, g3⟩
    obtain ⟨hv, h8⟩ := hvs.2 ⟨⟨g1, g2⟩, g3⟩
    obtain ⟨us, hu⟩ := noArgs_all.2 (hall.2 g4)
    have hr : ∃ r, ReprSays metas r := by
      unfold ReprSays
      cases (argsIn (fun m => m.pathOf.isIdent "repr") metas).getLast? with
      | none => exact ⟨none, rfl⟩
      | some m => exact ⟨wordSays m, wordSays_iff.1 rfl⟩
    obtain ⟨r, hr⟩ := hr
    have hb : ∀ b : Bool, (if b then some () else none).isSome = b := by intro b; cases b <;> rfl
    refine ⟨_, docstring_ok.2 ⟨h1, rfl⟩, bind_ok.2 ⟨r, extractRepr_ok.2 ⟨h2, hr⟩, bind_ok.2
      ⟨⟨if wordArg "flat_error" (uniffiArgs metas) then some () else none,
        if wordArg "with_try_read" (uniffiArgs metas) then some () else none, textArg "name" (uniffiArgs metas)⟩,
        enumArgs_ok.2 ⟨h4, rfl, hb _, hb _⟩, ?_⟩⟩⟩
    dsimp only
    rw [hb]
    refine bind_ok.2 ⟨vs, hv, bind_ok.2 ⟨us, hu, ?_⟩⟩
    rw [emit_ok, hc, ← named_is.2 hn]
    exact ⟨h8, rfl⟩

end Verif.Derive
