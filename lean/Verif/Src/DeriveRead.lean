import Verif.Src.DeriveReadSpec
import Verif.Src.DeriveItems
namespace Verif.Derive
open Verif.Meta Verif.Src

/-! ### Attributes that the readers accept -/

/-- Every step succeeds in states with `I`, which steps keep. -/
theorem nested_accepts {σ : Type} {f : Bool → Meta → σ → SynRes σ} (I : List Meta → σ → Prop)
    (h : ∀ m ms s, I (m :: ms) s → ∃ s', f ms.isEmpty m s = .ok s' ∧ I ms s') :
    ∀ (ms : List Meta) (s : σ), I ms s → ∃ s', nested f ms s = .ok s' ∧ I [] s'
  | [], s, hs => ⟨s, rfl, hs⟩
  | m :: ms, s, hs => by
    obtain ⟨s1, h1, h2⟩ := h m ms s hs
    obtain ⟨s2, h3, h4⟩ := nested_accepts I h ms s1 h2
    exact ⟨s2, by rw [nested, h1]; exact h3, h4⟩

theorem strValue_text {m : Meta} (h : IsText "name" m) : ∃ s, strValue m = .ok s := by
  obtain ⟨p, s, rfl, _⟩ := h; exact ⟨s, rfl⟩

theorem args_mem {key : String} {m : Meta} {ms : List Meta} {p : Path} {as : List Meta} (hm : m.pathOf.isIdent key = true)
    (h : m = .list p (some as)) : argsIn (fun m => m.pathOf.isIdent key) (m :: ms) =
      as ++ argsIn (fun m => m.pathOf.isIdent key) ms := by
  rw [argsIn_own (own := fun m => m.pathOf.isIdent key) hm, h]; rfl

theorem onlyNames {σ : Type} (set : σ → Option String → σ) {as : List Meta} (h : ∀ a ∈ as, IsText "name" a) (s : σ) :
    ∃ s', nested (fun _ m a => if m.pathOf.isIdent "name" then do .ok (set a (some (← strValue m))) else .error .syn) as s
      = .ok s' := by
  obtain ⟨s', hs, _⟩ := nested_accepts (σ := σ)
    (f := fun _ m a => if m.pathOf.isIdent "name" then do .ok (set a (some (← strValue m))) else .error .syn)
    (fun ms _ => ∀ a ∈ ms, IsText "name" a) (fun m ms s hI => by
      have hm := hI m List.mem_cons_self
      obtain ⟨t, ht⟩ := strValue_text hm
      refine ⟨set s (some t), ?_, fun a ha => hI a (List.mem_cons_of_mem _ ha)⟩
      rw [if_pos (text_path hm), ht]; rfl) as s h
  exact ⟨s', hs⟩

theorem typeAttrs_accepts : ∀ {ms : List Meta} {a : TypeAttrs}, Lists "uniffi" ms →
    (∀ a ∈ uniffiArgs ms, IsText "name" a) → ∃ a', typeAttrs ms a = .ok a'
  | [], a, _, _ => ⟨a, rfl⟩
  | m :: ms, a, hl, hn => by
    obtain ⟨hp, hl2⟩ := lists_cons.1 hl
    rw [typeAttrs]
    by_cases hm : m.pathOf.isIdent "uniffi" = true
    · rw [if_pos hm]
      obtain ⟨p, as, rfl⟩ := hp hm
      rw [uniffiArgs_own hm] at hn
      obtain ⟨b, hb⟩ := onlyNames (fun (a : TypeAttrs) n => { a with name := n }) (as := as)
        (fun x hx => hn x (List.mem_append_left _ hx)) a
      obtain ⟨c, hc⟩ := typeAttrs_accepts (a := b) hl2 (fun x hx => hn x (List.mem_append_right _ hx))
      exact ⟨c, bind_ok.2 ⟨b, hb, hc⟩⟩
    · rw [if_neg hm]
      rw [uniffiArgs_not hm] at hn
      split
      · exact typeAttrs_accepts hl2 hn
      · exact typeAttrs_accepts hl2 hn

theorem variantAttrs_accepts : ∀ {ms : List Meta} {a : VariantAttrs}, Lists "uniffi" ms →
    (∀ a ∈ uniffiArgs ms, IsText "name" a) → ∃ a', variantAttrs ms a = .ok a'
  | [], a, _, _ => ⟨a, rfl⟩
  | m :: ms, a, hl, hn => by
    obtain ⟨hp, hl2⟩ := lists_cons.1 hl
    rw [variantAttrs]
    by_cases hm : m.pathOf.isIdent "uniffi" = true
    · rw [if_pos hm]
      obtain ⟨p, as, rfl⟩ := hp hm
      rw [uniffiArgs_own hm] at hn
      obtain ⟨b, hb⟩ := onlyNames (fun (a : VariantAttrs) n => { a with name := n }) (as := as)
        (fun x hx => hn x (List.mem_append_left _ hx)) a
      obtain ⟨c, hc⟩ := variantAttrs_accepts (a := b) hl2 (fun x hx => hn x (List.mem_append_right _ hx))
      exact ⟨c, bind_ok.2 ⟨b, hb, hc⟩⟩
    · rw [if_neg hm]
      rw [uniffiArgs_not hm] at hn
      split
      · exact variantAttrs_accepts hl2 hn
      · exact variantAttrs_accepts hl2 hn

/-- What is still to come may have a default only if there was none. -/
def DefaultLeft (rest : List Meta) (d : Option DefSrc) : Prop :=
  (rest.filter fun m => m.pathOf.isIdent "default").length + (if d.isSome then 1 else 0) ≤ 1

theorem fieldAttrs_accepts : ∀ {ms : List Meta} {a : FieldAttrs}, Lists "uniffi" ms →
    (∀ a ∈ uniffiArgs ms, IsText "name" a ∨ IsDefault a) → DefaultLeft (uniffiArgs ms) a.default → DefaultLast ms →
    ∃ a', fieldAttrs ms a = .ok a'
  | [], a, _, _, _, _ => ⟨a, rfl⟩
  | m :: ms, a, hl, hn, hd, hlast => by
    obtain ⟨hp, hl2⟩ := lists_cons.1 hl
    have hlast' : DefaultLast ms := fun x hx => hlast x (List.mem_cons_of_mem _ hx)
    rw [fieldAttrs]
    by_cases hm : m.pathOf.isIdent "uniffi" = true
    · rw [if_pos hm]
      obtain ⟨p, as, rfl⟩ := hp hm
      rw [uniffiArgs_own hm] at hn hd
      have hd' : DefaultLeft (as ++ uniffiArgs ms) a.default := hd
      obtain ⟨b, hb, hI⟩ := nested_accepts (σ := FieldAttrs)
        (f := fun last m a =>
          if m.pathOf.isIdent "name" then do .ok { a with name := some (← strValue m) }
          else if m.pathOf.isIdent "default" then
            if a.default.isSome then .error .syn else do .ok { a with default := some (← parseDefault last m) }
          else .error .syn)
        (fun rest s => (∃ pre, as = pre ++ rest) ∧ DefaultLeft (rest ++ uniffiArgs ms) s.default)
        (fun x xs s ⟨⟨pre, he⟩, hs⟩ => by
          have hx : x ∈ as := by rw [he]; simp
          have hnext : ∃ pre, as = pre ++ xs := ⟨pre ++ [x], by rw [he]; simp⟩
          rcases hn x (List.mem_append_left _ hx) with h | h
          · obtain ⟨t, ht⟩ := strValue_text h
            refine ⟨{ s with name := some t }, ?_, hnext, ?_⟩
            · rw [if_pos (text_path h), ht]; rfl
            · unfold DefaultLeft at hs ⊢
              have hnd : ¬ x.pathOf.isIdent "default" = true := by
                rw [ident_ne (text_path h) (by decide)]; exact Bool.noConfusion
              rw [List.cons_append, List.filter_cons_of_neg (p := fun m : Meta => m.pathOf.isIdent "default") hnd] at hs
              exact hs
          · have hdp := default_path h
            have hnn : ¬ x.pathOf.isIdent "name" = true := by
              rw [ident_ne hdp (by decide)]; exact Bool.noConfusion
            unfold DefaultLeft at hs
            rw [List.cons_append, List.filter_cons_of_pos (p := fun m : Meta => m.pathOf.isIdent "default") hdp,
              List.length_cons] at hs
            have hsn : ¬ s.default.isSome = true := by
              intro hsome; rw [if_pos hsome] at hs; omega
            have hv : ∃ v, parseDefault xs.isEmpty x = .ok v := by
              rcases h with hw | ⟨q, v, rfl, hne, _⟩
              · have : xs = [] := hlast _ List.mem_cons_self hm p pre x xs (by rw [he]) hw
                obtain ⟨q, rfl, _⟩ := hw
                exact ⟨.default, by rw [this]; rfl⟩
              · exact ⟨v, by cases v <;> first | rfl | exact absurd rfl hne⟩
            obtain ⟨v, hv⟩ := hv
            refine ⟨{ s with default := some v }, ?_, hnext, ?_⟩
            · rw [if_neg hnn, if_pos hdp, if_neg hsn, hv]; rfl
            · unfold DefaultLeft
              rw [if_pos (show (some v).isSome = true from rfl)]
              rw [if_neg hsn] at hs
              omega) as a ⟨⟨[], rfl⟩, hd'⟩
      obtain ⟨c, hc⟩ := fieldAttrs_accepts (a := b) hl2 (fun x hx => hn x (List.mem_append_right _ hx)) hI.2 hlast'
      exact ⟨c, bind_ok.2 ⟨b, hb, hc⟩⟩
    · rw [if_neg hm]
      rw [uniffiArgs_not hm] at hn hd
      split
      · exact fieldAttrs_accepts hl2 hn hd hlast'
      · exact fieldAttrs_accepts hl2 hn hd hlast'

theorem intTypes_repr {p : Path} {t : String × RTy} (ht : t ∈ intTypes) (h : p.isIdent t.1 = true) :
    ∃ u, reprType p = some u := by
  have hp : p = ⟨false, [⟨false, t.1⟩]⟩ := by
    unfold Path.isIdent at h; exact eq_of_beq h
  subst hp
  simp only [intTypes, List.mem_cons, List.not_mem_nil, or_false] at ht
  rcases ht with rfl | rfl | rfl | rfl | rfl | rfl | rfl | rfl <;> exact ⟨_, rfl⟩

theorem enumAttrs_accepts : ∀ {ms : List Meta} {a : EnumAttrs}, Lists "uniffi" ms →
    (∀ x ∈ uniffiArgs ms, IsText "name" x ∨ (IsWord "flat_error" x ∧ a.shape ≠ .enum)) → ReprOk ms → ReprCrosses ms →
    ∃ a', enumAttrs ms a = .ok a'
  | [], a, _, _, _, _ => ⟨a, rfl⟩
  | m :: ms, a, hl, hn, hr, hc => by
    obtain ⟨hp, hl2⟩ := lists_cons.1 hl
    obtain ⟨hr1, hr2⟩ := hr
    obtain ⟨hrp, hr3⟩ := lists_cons.1 hr1
    rw [enumAttrs.eq_def]
    dsimp only
    by_cases hm : m.pathOf.isIdent "uniffi" = true
    · rw [if_pos hm]
      have hnr : ¬ m.pathOf.isIdent "repr" = true := by rw [ident_ne hm (by decide)]; exact Bool.noConfusion
      unfold ReprCrosses at hc
      rw [argsIn_not (own := fun m => m.pathOf.isIdent "repr") hnr] at hr2 hc
      obtain ⟨p, as, rfl⟩ := hp hm
      rw [uniffiArgs_own hm] at hn
      obtain ⟨b, hb, hI⟩ := nested_accepts (σ := EnumAttrs)
        (f := fun _ m a =>
          if m.pathOf.isIdent "name" then do .ok { a with name := some (← strValue m) }
          else if m.pathOf.isIdent "flat_error" then
            match a.shape with
            | .error _ => flag { a with shape := .error true } m
            | .enum => .error .syn
          else .error .syn)
        (fun rest s => (s.shape = .enum → a.shape = .enum) ∧ ∀ x ∈ rest, IsText "name" x ∨ (IsWord "flat_error" x ∧ a.shape ≠ .enum))
        (fun x xs s ⟨hs, hI⟩ => by
          have hnext := fun y hy => hI y (List.mem_cons_of_mem x hy)
          rcases hI x List.mem_cons_self with h | ⟨h, hsh⟩
          · obtain ⟨t, ht⟩ := strValue_text h
            exact ⟨{ s with name := some t }, by rw [if_pos (text_path h), ht]; rfl, hs, hnext⟩
          · have hf := word_path h
            have hnn : ¬ x.pathOf.isIdent "name" = true := by rw [ident_ne hf (by decide)]; exact Bool.noConfusion
            rw [if_neg hnn, if_pos hf]
            cases hsh' : s.shape with
            | enum => exact absurd (hs hsh') hsh
            | error b =>
              obtain ⟨q, rfl, _⟩ := h
              exact ⟨{ s with shape := .error true }, rfl, fun h => (nomatch h), hnext⟩)
        as a ⟨id, fun x hx => hn x (List.mem_append_left _ hx)⟩
      obtain ⟨c, hc⟩ := enumAttrs_accepts (a := b) hl2 (fun x hx => by
        rcases hn x (List.mem_append_right _ hx) with h | ⟨h, h'⟩
        · exact .inl h
        · exact .inr ⟨h, fun hb => h' (hI.1 hb)⟩) ⟨hr3, hr2⟩ hc
      exact ⟨c, bind_ok.2 ⟨b, hb, hc⟩⟩
    · rw [if_neg hm]
      rw [uniffiArgs_not hm] at hn
      by_cases hrm : m.pathOf.isIdent "repr" = true
      · have h1 : ¬ m.pathOf.isIdent "doc" = true := by rw [ident_ne hrm (by decide)]; exact Bool.noConfusion
        have h2 : ¬ m.pathOf.isIdent "non_exhaustive" = true := by rw [ident_ne hrm (by decide)]; exact Bool.noConfusion
        rw [if_neg h1, if_neg h2, if_pos hrm]
        obtain ⟨p, as, rfl⟩ := hrp hrm
        unfold ReprCrosses at hc
        rw [args_mem hrm rfl] at hr2 hc
        obtain ⟨b, hb, hI⟩ := nested_accepts (σ := EnumAttrs) (f := fun _ => reprAttr)
          (fun rest s => s.shape = a.shape ∧ ∀ x ∈ rest, (∃ p, x = .path p) ∧ ∃ t, t ∈ intTypes ∧ x.pathOf.isIdent t.1 = true)
          (fun x xs s ⟨hs, hI⟩ => by
            obtain ⟨⟨q, rfl⟩, t, ht, hq⟩ := hI x List.mem_cons_self
            obtain ⟨u, hu⟩ := intTypes_repr ht hq
            refine ⟨{ s with discrType := some u }, ?_, hs, fun y hy => hI y (List.mem_cons_of_mem _ hy)⟩
            unfold reprAttr
            have hp : (Meta.path q).pathOf = ⟨false, [⟨false, t.1⟩]⟩ := by
              unfold Path.isIdent at hq; exact eq_of_beq hq
            rw [hp] at hu ⊢
            simp only [Path.getIdent, hu]; rfl)
          as a ⟨rfl, fun x hx => ⟨hr2 x (List.mem_append_left _ hx), hc x (List.mem_append_left _ hx)⟩⟩
        obtain ⟨c, hc'⟩ := enumAttrs_accepts (a := b) hl2 (fun x hx => by rw [hI.1]; exact hn x hx)
          ⟨hr3, fun x hx => hr2 x (List.mem_append_right _ hx)⟩ (fun x hx => hc x (List.mem_append_right _ hx))
        exact ⟨c, bind_ok.2 ⟨b, hb, hc'⟩⟩
      · unfold ReprCrosses at hc
        rw [argsIn_not (own := fun m => m.pathOf.isIdent "repr") hrm] at hr2 hc
        split
        · exact enumAttrs_accepts hl2 hn ⟨hr3, hr2⟩ hc
        · split
          · exact enumAttrs_accepts hl2 hn ⟨hr3, hr2⟩ hc
          · exact enumAttrs_accepts hl2 hn ⟨hr3, hr2⟩ hc

/-! ### Fields and variants -/

theorem or_none' {α : Type} (o : Option α) : o.or none = o := by cases o <;> rfl

theorem field_read {f : DField} {s : FieldSrc} (ho : FieldArgsOk f.metas) (hl : DefaultLast f.metas) (hs : FieldSays f s) :
    ∃ a, fieldAttrs f.metas {} = .ok a ∧ ∀ ty, FieldAgrees ⟨a, f.ident, ty⟩ s := by
  obtain ⟨a, ha⟩ := fieldAttrs_accepts (a := {}) ho.1 ho.2.1 (by unfold DefaultLeft; exact ho.2.2.2) hl
  obtain ⟨h1, h2, h3⟩ := fieldAttrs_is ha
  refine ⟨a, ha, fun ty => ⟨?_, ?_, ?_⟩⟩
  · intro i hi
    have := hs.name
    rw [show f.ident = some i from hi] at this
    show NameIs a.name _ _ _
    rw [h2, or_none']; exact this
  · show a.default = _
    rw [h3, hs.default]; rfl
  · show a.docstring.getD "" = _
    rw [h1, hs.docstring, docs_text]

theorem fields_read {env : CompileEnv} : ∀ {fs : List (SField Meta)} {ds : List DField} {ss : List FieldSrc},
    Each (FieldSame env) (fs.filter fun f => isActive env f.attrs) ds → (∀ f ∈ fs, Readable env f.attrs) →
    (∀ d ∈ ds, FieldArgsOk d.metas ∧ DefaultLast d.metas) → Each FieldSays ds ss →
    ∃ ps, parseFields env fs = .ok ps ∧ Each FieldAgrees ps ss
  | [], ds, ss, he, _, _, hs => by
    rw [List.filter_nil, each_nil] at he
    subst he
    rw [each_nil] at hs
    subst hs
    exact ⟨[], rfl, .nil⟩
  | f :: fs, ds, ss, he, hr, ho, hs => by
    have hr' := fun g hg => hr g (List.mem_cons_of_mem f hg)
    by_cases hf : isActive env f.attrs = true
    · rw [List.filter_cons_of_pos (p := fun f : SField Meta => isActive env f.attrs) hf, each_cons] at he
      obtain ⟨d, ds, rfl, ⟨h1, h2⟩, he⟩ := he
      obtain ⟨s, ss, rfl, h3, hs⟩ := each_cons.1 hs
      obtain ⟨ps, hp, ha⟩ := fields_read he hr' (fun x hx => ho x (List.mem_cons_of_mem _ hx)) hs
      obtain ⟨a, ha1, ha2⟩ := field_read (ho d List.mem_cons_self).1 (ho d List.mem_cons_self).2 h3
      refine ⟨⟨a, f.ident, f.ty⟩ :: ps, ?_, .cons (by rw [h2]; exact ha2 _) ha⟩
      rw [parseFields]
      refine bind_ok.2 ⟨some a, ?_, bind_ok.2 ⟨ps, hp, rfl⟩⟩
      unfold parseFieldAttrs
      refine bind_ok.2 ⟨some d.metas, h1, bind_ok.2 ⟨a, ha1, rfl⟩⟩
    · rw [List.filter_cons_of_neg (p := fun f : SField Meta => isActive env f.attrs) hf] at he
      obtain ⟨ps, hp, ha⟩ := fields_read he hr' ho hs
      refine ⟨ps, ?_, ha⟩
      rw [parseFields]
      refine bind_ok.2 ⟨none, ?_, hp⟩
      unfold parseFieldAttrs
      exact bind_ok.2 ⟨none, hr f List.mem_cons_self (by simpa using hf), rfl⟩

/-- The type that the reader gives to the values. -/
def mtyOf : RTy → MTy
  | .u8 => .uint8 | .i8 => .int8 | .u16 => .uint16 | .i16 => .int16 | .u32 => .uint32 | .i32 => .int32
  | .u64 => .uint64 | _ => .int64

theorem discr_read {ty : Option RTy} {d : Option SDiscr} {z : Option Int} (ht : ∀ t, ty = some t → ∃ w, (w, t) ∈ intTypes)
    (hf : DiscrFits ty d) (hz : match (generalizing := false) d with
      | none => z = none
      | some (.int n) => z = some (n : Int)
      | some (.neg n) => z = some (-n : Int)
      | some .other => False) :
    ∃ l, parseDiscr (ty.map mtyOf) d = .ok l ∧ ValueAgrees ty l z := by
  cases d with
  | none => subst hz; exact ⟨none, rfl, by cases ty <;> rfl⟩
  | some d =>
    cases ty with
    | none => exact ⟨none, rfl, rfl⟩
    | some t =>
      obtain ⟨w, hw⟩ := ht t rfl
      have hsig : signed (mtyOf t) = true ↔ t ∈ [RTy.i8, .i16, .i32, .i64] := by
        simp only [intTypes, List.mem_cons, Prod.mk.injEq, List.not_mem_nil, or_false] at hw
        rcases hw with ⟨_, rfl⟩ | ⟨_, rfl⟩ | ⟨_, rfl⟩ | ⟨_, rfl⟩ | ⟨_, rfl⟩ | ⟨_, rfl⟩ | ⟨_, rfl⟩ | ⟨_, rfl⟩ <;> decide
      cases d with
      | int n =>
        cases hz
        show ∃ l, (if signed (mtyOf t) then _ else _) = _ ∧ _
        simp only [DiscrFits] at hf
        by_cases hs : t ∈ [RTy.i8, .i16, .i32, .i64]
        · rw [if_pos hs] at hf
          rw [if_pos (hsig.2 hs), if_pos hf]
          exact ⟨_, rfl, .inl ⟨_, rfl⟩⟩
        · rw [if_neg hs] at hf
          rw [if_neg (fun h => hs (hsig.1 h)), if_pos hf]
          exact ⟨_, rfl, .inr ⟨_, n, rfl, rfl⟩⟩
      | neg n =>
        cases hz
        show ∃ l, (if signed (mtyOf t) && decide (n < 2 ^ 63) then _ else _) = _ ∧ _
        obtain ⟨hs, hn⟩ := hf
        rw [if_pos (by rw [hsig.2 hs, decide_eq_true hn]; rfl)]
        exact ⟨_, rfl, .inl ⟨_, rfl⟩⟩
      | other => exact hz.elim

theorem variants_read {env : CompileEnv} {ty : Option RTy} (ht : ∀ t, ty = some t → ∃ w, (w, t) ∈ intTypes) :
    ∀ {vs : List (SVariant Meta)} {ds : List DVariant} {ss : List VariantSrc},
    Each (VariantSame env) (vs.filter fun v => isActive env v.attrs) ds → (∀ v ∈ vs, Readable env v.attrs) →
    (∀ d ∈ ds, NamesOnly d.metas ∧ DiscrFits ty d.discr ∧ ∀ f ∈ d.fields, FieldArgsOk f.metas ∧ DefaultLast f.metas) →
    Each VariantSays ds ss →
    ∃ ps, parseVariants env (ty.map mtyOf) vs = .ok ps ∧ Each (VariantAgrees ty) ps ss
  | [], ds, ss, he, _, _, hs => by
    rw [List.filter_nil, each_nil] at he
    subst he
    rw [each_nil] at hs
    subst hs
    exact ⟨[], rfl, .nil⟩
  | v :: vs, ds, ss, he, hr, ho, hs => by
    have hr' := fun g hg => hr g (List.mem_cons_of_mem v hg)
    by_cases hf : isActive env v.attrs = true
    · rw [List.filter_cons_of_pos (p := fun f : SVariant Meta => isActive env f.attrs) hf, each_cons] at he
      obtain ⟨d, ds, rfl, ⟨h1, h2, h3, h4, h5⟩, he⟩ := he
      obtain ⟨s, ss, rfl, hsays, hs⟩ := each_cons.1 hs
      obtain ⟨ps, hp, ha⟩ := variants_read ht he hr' (fun x hx => ho x (List.mem_cons_of_mem _ hx)) hs
      obtain ⟨o1, o2, o3⟩ := ho d List.mem_cons_self
      obtain ⟨a, ha1⟩ := variantAttrs_accepts (a := {}) o1.1 o1.2.1
      obtain ⟨a1, a2⟩ := variantAttrs_is ha1
      obtain ⟨l, hl, hv⟩ := discr_read ht o2 hsays.discr
      obtain ⟨fs, hfs, hfa⟩ := fields_read h4 h5 o3 hsays.fields
      refine ⟨⟨a, v.ident, l, fs⟩ :: ps, ?_, .cons ⟨?_, hv, hfa, ?_⟩ ha⟩
      · rw [parseVariants]
        refine bind_ok.2 ⟨some a, ?_, bind_ok.2 ⟨l, by rw [h3]; exact hl, bind_ok.2 ⟨fs, hfs, bind_ok.2 ⟨ps, hp, rfl⟩⟩⟩⟩
        unfold parseVariantAttrs
        exact bind_ok.2 ⟨some d.metas, h1, bind_ok.2 ⟨a, ha1, rfl⟩⟩
      · show NameIs a.name v.ident.name _ _
        rw [a2, or_none', h2]; exact hsays.name
      · show a.docstring.getD "" = _
        rw [a1, hsays.docstring, docs_text]
    · rw [List.filter_cons_of_neg (p := fun f : SVariant Meta => isActive env f.attrs) hf] at he
      obtain ⟨ps, hp, ha⟩ := variants_read ht he hr' ho hs
      refine ⟨ps, ?_, ha⟩
      rw [parseVariants]
      refine bind_ok.2 ⟨none, ?_, hp⟩
      unfold parseVariantAttrs
      exact bind_ok.2 ⟨none, hr v List.mem_cons_self (by simpa using hf), rfl⟩

theorem bare_last {metas : List Meta} (h : uniffiArgs metas = []) : DefaultLast metas := by
  intro m hm hu p pre x post he _
  subst he
  have : x ∈ uniffiArgs metas := by
    unfold uniffiArgs argsIn
    rw [List.mem_flatMap]
    exact ⟨_, List.mem_filter.2 ⟨hm, hu⟩, by simp⟩
  rw [h] at this
  exact nomatch this

/-- Fields without arguments. -/
theorem bare_fields {env : CompileEnv} : ∀ {fs : List (SField Meta)} {ds : List DField},
    Each (FieldSame env) (fs.filter fun f => isActive env f.attrs) ds → (∀ f ∈ fs, Readable env f.attrs) →
    (∀ d ∈ ds, Lists "uniffi" d.metas ∧ uniffiArgs d.metas = []) → ∃ ps, parseFields env fs = .ok ps
  | [], ds, _, _, _ => ⟨[], rfl⟩
  | f :: fs, ds, he, hr, ho => by
    have hr' := fun g hg => hr g (List.mem_cons_of_mem f hg)
    by_cases hf : isActive env f.attrs = true
    · rw [List.filter_cons_of_pos (p := fun f : SField Meta => isActive env f.attrs) hf, each_cons] at he
      obtain ⟨d, ds, rfl, ⟨h1, h2⟩, he⟩ := he
      obtain ⟨ps, hp⟩ := bare_fields he hr' (fun x hx => ho x (List.mem_cons_of_mem _ hx))
      obtain ⟨o1, o2⟩ := ho d List.mem_cons_self
      obtain ⟨a, ha⟩ := fieldAttrs_accepts (a := {}) o1 (by rw [o2]; exact fun _ h => (nomatch h))
        (by unfold DefaultLeft; rw [o2]; decide) (bare_last o2)
      refine ⟨⟨a, f.ident, f.ty⟩ :: ps, ?_⟩
      rw [parseFields]
      refine bind_ok.2 ⟨some a, ?_, bind_ok.2 ⟨ps, hp, rfl⟩⟩
      unfold parseFieldAttrs
      refine bind_ok.2 ⟨some d.metas, h1, bind_ok.2 ⟨a, ha, rfl⟩⟩
    · rw [List.filter_cons_of_neg (p := fun f : SField Meta => isActive env f.attrs) hf] at he
      obtain ⟨ps, hp⟩ := bare_fields he hr' ho
      refine ⟨ps, ?_⟩
      rw [parseFields]
      refine bind_ok.2 ⟨none, ?_, hp⟩
      unfold parseFieldAttrs
      exact bind_ok.2 ⟨none, hr f List.mem_cons_self (by simpa using hf), rfl⟩

theorem flats_read {env : CompileEnv} : ∀ {vs : List (SVariant Meta)} {ds : List DVariant} {ss : List VariantSrc},
    Each (VariantSame env) (vs.filter fun v => isActive env v.attrs) ds → (∀ v ∈ vs, Readable env v.attrs) →
    (∀ d ∈ ds, NamesOnly d.metas ∧ ∀ f ∈ d.fields, Lists "uniffi" f.metas ∧ uniffiArgs f.metas = []) →
    Each FlatSays ds ss →
    ∃ ps, parseVariants env none vs = .ok ps ∧ Each FlatAgrees ps ss
  | [], ds, ss, he, _, _, hs => by
    rw [List.filter_nil, each_nil] at he
    subst he
    rw [each_nil] at hs
    subst hs
    exact ⟨[], rfl, .nil⟩
  | v :: vs, ds, ss, he, hr, ho, hs => by
    have hr' := fun g hg => hr g (List.mem_cons_of_mem v hg)
    by_cases hf : isActive env v.attrs = true
    · rw [List.filter_cons_of_pos (p := fun f : SVariant Meta => isActive env f.attrs) hf, each_cons] at he
      obtain ⟨d, ds, rfl, ⟨h1, h2, h3, h4, h5⟩, he⟩ := he
      obtain ⟨s, ss, rfl, hsays, hs⟩ := each_cons.1 hs
      obtain ⟨ps, hp, ha⟩ := flats_read he hr' (fun x hx => ho x (List.mem_cons_of_mem _ hx)) hs
      obtain ⟨o1, o3⟩ := ho d List.mem_cons_self
      obtain ⟨a, ha1⟩ := variantAttrs_accepts (a := {}) o1.1 o1.2.1
      obtain ⟨a1, a2⟩ := variantAttrs_is ha1
      obtain ⟨fs, hfs⟩ := bare_fields h4 h5 o3
      refine ⟨⟨a, v.ident, none, fs⟩ :: ps, ?_, .cons ⟨?_, rfl, ?_⟩ ha⟩
      · rw [parseVariants]
        refine bind_ok.2 ⟨some a, ?_, bind_ok.2 ⟨none, by cases v.discr <;> rfl, bind_ok.2 ⟨fs, hfs, bind_ok.2 ⟨ps, hp, rfl⟩⟩⟩⟩
        unfold parseVariantAttrs
        exact bind_ok.2 ⟨some d.metas, h1, bind_ok.2 ⟨a, ha1, rfl⟩⟩
      · show NameIs a.name v.ident.name _ _
        rw [a2, or_none', h2]; exact hsays.name
      · show a.docstring.getD "" = _
        rw [a1, hsays.docstring, docs_text]
    · rw [List.filter_cons_of_neg (p := fun f : SVariant Meta => isActive env f.attrs) hf] at he
      obtain ⟨ps, hp, ha⟩ := flats_read he hr' ho hs
      refine ⟨ps, ?_, ha⟩
      rw [parseVariants]
      refine bind_ok.2 ⟨none, ?_, hp⟩
      unfold parseVariantAttrs
      exact bind_ok.2 ⟨none, hr v List.mem_cons_self (by simpa using hf), rfl⟩

/-! ### The type of an enum -/

theorem repr_read {metas : List Meta} (hc : ReprCrosses metas) {ty : Option RTy}
    (h : match ty with | none => ReprSays metas none | some t => ∃ w, (w, t) ∈ intTypes ∧ ReprSays metas (some w)) :
    reprOf metas = ty.map mtyOf := by
  have hm : reprOf metas = ((argsIn (fun m => m.pathOf.isIdent "repr") metas).getLast?).bind fun m => reprType m.pathOf := by
    unfold reprOf
    simp only [← reprType_is]
    unfold ReprCrosses at hc
    generalize argsIn (fun m => m.pathOf.isIdent "repr") metas = l at hc
    clear h
    induction l with
    | nil => rfl
    | cons x l ih =>
      obtain ⟨t, ht, hx⟩ := hc x List.mem_cons_self
      obtain ⟨u, hu⟩ := intTypes_repr ht hx
      have := ih (fun y hy => hc y (List.mem_cons_of_mem _ hy))
      rw [List.filterMap_cons, hu]
      dsimp only
      rw [List.getLast?_cons, List.getLast?_cons, this]
      cases hl : l.getLast? with
      | none => simp [hu]
      | some y =>
        obtain ⟨t', ht', hy⟩ := hc y (List.mem_cons_of_mem _ (List.mem_of_getLast? hl))
        obtain ⟨u', hu'⟩ := intTypes_repr ht' hy
        simp [hu']
  rw [hm]
  unfold ReprSays at h
  cases hl : (argsIn (fun m => m.pathOf.isIdent "repr") metas).getLast? with
  | none =>
    rw [hl] at h
    cases ty with
    | none => rfl
    | some t => obtain ⟨w, _, h⟩ := h; exact nomatch h
  | some m =>
    rw [hl] at h
    obtain ⟨x, hx, hmx⟩ := hc m (List.mem_of_getLast? hl)
    have hmem : x.1 ∈ ["u8", "u16", "u32", "u64", "usize", "i8", "i16", "i32", "i64", "isize"] := by
      simp only [intTypes, List.mem_cons, List.not_mem_nil, or_false] at hx
      rcases hx with rfl | rfl | rfl | rfl | rfl | rfl | rfl | rfl <;> decide
    cases ty with
    | none =>
      rcases h with ⟨_, _, _, h⟩ | ⟨h, _⟩
      · exact nomatch h
      · rw [h _ hmem] at hmx; exact nomatch hmx
    | some t =>
      obtain ⟨w, hw, h⟩ := h
      rcases h with ⟨v, _, hv, h⟩ | ⟨_, h⟩
      · cases h
        have hp : m.pathOf = ⟨false, [⟨false, w⟩]⟩ := by unfold Path.isIdent at hv; exact eq_of_beq hv
        show reprType m.pathOf = some (mtyOf t)
        rw [hp]
        simp only [intTypes, List.mem_cons, Prod.mk.injEq, List.not_mem_nil, or_false] at hw
        rcases hw with ⟨rfl, rfl⟩ | ⟨rfl, rfl⟩ | ⟨rfl, rfl⟩ | ⟨rfl, rfl⟩ | ⟨rfl, rfl⟩ | ⟨rfl, rfl⟩ | ⟨rfl, rfl⟩ | ⟨rfl, rfl⟩ <;> decide
      · exact nomatch h

end Verif.Derive
