import Verif.Src.EmitSpec
namespace Verif.Src
open Verif.Meta

/-! ### The words of the specification -/

theorem reprType_is (p : Path) : reprType p = (intNames.find? fun x => p.isIdent x.1).map (·.2) := by
  simp only [reprType, intNames, List.find?_cons, List.find?_nil]
  repeat' split
  all_goals simp_all

theorem isUniffiAttr_is (name : String) (m : Meta) : isUniffiAttr m name = isAttr name m := by
  unfold isUniffiAttr isAttr
  split
  · rename_i a b h
    rw [h, Bool.eq_iff_iff]; simp
  · rename_i h
    rw [eq_comm, decide_eq_false_iff_not]
    exact fun hc => h _ _ hc

theorem isUniffiAttr_fun (name : String) : (fun m => isUniffiAttr m name) = isAttr name :=
  funext fun m => isUniffiAttr_is name m

theorem findDerive_is (l : Look) (name : String) (m : Meta) : findDerive l name m = derivedBy l name m := by
  unfold findDerive derivedBy
  cases m with
  | path p => dsimp only; repeat' split
              all_goals rfl
  | nameValue p v => dsimp only; repeat' split
                     all_goals rfl
  | list p args =>
    cases args with
    | none => dsimp only; repeat' split
              all_goals rfl
    | some ms =>
      have hp : (Meta.list p (some ms)).pathOf = p := rfl
      rw [hp]
      dsimp only
      generalize hd : (fun m : Meta => l.deriveOf m.pathOf) = d
      generalize hi : (fun m : Meta => m.pathOf.isIdent name) = i
      have hd' : ∀ m : Meta, l.deriveOf m.pathOf = d m := fun m => congrFun hd m
      have hi' : ∀ m : Meta, m.pathOf.isIdent name = i m := fun m => congrFun hi m
      simp only [hd', List.any_eq_true, beq_iff_eq, hi']
      repeat' split
      all_goals simp_all

theorem derived_is (l : Look) (name : String) (metas : List Meta) :
    derived l name metas = metas.findSome? (findDerive l name) := by
  unfold derived
  rw [show findDerive l name = derivedBy l name from funext (findDerive_is l name)]

theorem udlName_is {t : MTy} {n : String} (h : udlName t = some n) : TypeName t n := by
  cases t <;> simp only [udlName, reduceCtorEq, Option.some.injEq] at h <;> subst h <;> simp [TypeName]

theorem signed_iff {t : MTy} : signed t = true ↔ t ∈ [MTy.int8, .int16, .int32, .int64] := by
  cases t <;> simp [signed]

theorem isScaffolding_iff {path : Path} :
    isScaffolding path = true ↔ path.segs.getLast? = some ⟨false, "include_scaffolding"⟩ := by
  unfold isScaffolding
  split
  · rename_i i h; rw [h]; simp
  · rename_i h; rw [h]; simp

/-! ### Reading attributes -/

theorem synBind {α β : Type} {r : SynRes α} {f : α → SynRes β} {b} (h : (r >>= f) = .ok b) : ∃ a, r = .ok a ∧ f a = .ok b := by
  cases r with
  | ok a => exact ⟨a, rfl, h⟩
  | error e => exact nomatch h

theorem nested_get {σ τ : Type} {f : Bool → Meta → σ → SynRes σ} (g : σ → τ) (upd : Meta → τ → τ)
    (hf : ∀ b m s s', f b m s = .ok s' → g s' = upd m (g s)) : ∀ {ms s s'}, nested f ms s = .ok s' →
    g s' = ms.foldl (fun t m => upd m t) (g s)
  | [], _, _, h => by cases h; rfl
  | m :: ms, s, s', h => by
    rw [nested] at h
    obtain ⟨s1, h1, h2⟩ := synBind h
    rw [nested_get g upd hf h2, hf _ _ _ _ h1]; rfl

/-- What is in the parentheses of an attribute. -/
def argsOf : Meta → List Meta
  | .list _ (some as) => as
  | _ => []

theorem inList_get {σ τ : Type} {f : Bool → Meta → σ → SynRes σ} (g : σ → τ) (upd : Meta → τ → τ)
    (hf : ∀ b m s s', f b m s = .ok s' → g s' = upd m (g s)) {m s s'} (h : inList f m s = .ok s') :
    g s' = (argsOf m).foldl (fun t m => upd m t) (g s) := by
  unfold inList at h
  split at h
  · exact nested_get g upd hf h
  · exact nomatch h
  · rename_i h1 h2
    cases h
    unfold argsOf
    split
    · rename_i p as; exact absurd rfl (h1 p as)
    · rfl

theorem argsIn_nil {own : Meta → Bool} : argsIn own [] = [] := rfl

theorem argsIn_cons {own : Meta → Bool} {m ms} :
    argsIn own (m :: ms) = (if own m then argsOf m else []) ++ argsIn own ms := by
  unfold argsIn
  rw [List.filter_cons]
  split
  · rw [List.flatMap_cons]; congr 1
  · rfl

theorem argsIn_own {own : Meta → Bool} {m ms} (h : own m = true) : argsIn own (m :: ms) = argsOf m ++ argsIn own ms := by
  rw [argsIn_cons, if_pos h]

theorem argsIn_not {own : Meta → Bool} {m ms} (h : ¬ own m = true) : argsIn own (m :: ms) = argsIn own ms := by
  rw [argsIn_cons, if_neg h]; rfl

/-! ### Documentation -/

theorem extractDoc_line (d : Option String) (m : Meta) : extractDoc d m = match docLine m with
    | none => d
    | some l => match d with
      | none => some l
      | some c => some (c ++ "\n" ++ l) := by
  match m with
  | .nameValue p (.str s) =>
    have h : docLine (.nameValue p (.str s)) = if p.isIdent "doc" then some (trim s) else none := rfl
    have h2 : extractDoc d (.nameValue p (.str s)) = if p.isIdent "doc" then
        (match d with
          | none => some (trim s)
          | some c => some (c ++ "\n" ++ trim s)) else d := rfl
    rw [h2, h]
    by_cases hd : p.isIdent "doc" = true
    · rw [if_pos hd, if_pos hd]
    · rw [if_neg hd, if_neg hd]
  | .path _ | .list _ _ | .nameValue _ .default | .nameValue _ .emptySeq | .nameValue _ .optNone
  | .nameValue _ (.optSome _) | .nameValue _ (.int _ _) | .nameValue _ (.float _ _) | .nameValue _ (.bool _)
  | .nameValue _ .otherLiteral => rfl

theorem docs_some : ∀ (ms : List Meta) (c : String),
    ms.foldl extractDoc (some c) = some ((ms.filterMap docLine).foldl (fun c l => c ++ "\n" ++ l) c)
  | [], _ => rfl
  | m :: ms, c => by
    rw [List.foldl_cons, List.filterMap_cons, extractDoc_line]
    cases docLine m <;> exact docs_some ms _

theorem foldl_cat : ∀ (ls : List String) (c d : String),
    ls.foldl (fun c l => c ++ "\n" ++ l) (c ++ d) = c ++ ls.foldl (fun c l => c ++ "\n" ++ l) d
  | [], _, _ => rfl
  | l :: ls, c, d => by
    rw [List.foldl_cons, List.foldl_cons, String.append_assoc, String.append_assoc, foldl_cat, String.append_assoc]

theorem foldl_go : ∀ (ls : List String) (c : String),
    ls.foldl (fun c l => c ++ "\n" ++ l) c = "\n".intercalate (c :: ls)
  | [], _ => by simp
  | l :: ls, c => by
    rw [List.foldl_cons, foldl_cat, foldl_go]
    simp [String.intercalate_cons_cons]

theorem docs_text : ∀ (ms : List Meta), ms.foldl extractDoc none = docText ms
  | [] => rfl
  | m :: ms => by
    unfold docText
    rw [List.foldl_cons, List.filterMap_cons, extractDoc_line]
    cases docLine m with
    | none => exact docs_text ms
    | some l =>
      dsimp only
      rw [docs_some, foldl_go]

/-- Documentation without the attributes of UniFFI. -/
theorem docs_filter (own : Meta → Bool) (ms : List Meta) (d : Option String) :
    ms.foldl (fun d m => if own m then d else extractDoc d m) d = (ms.filter fun m => !own m).foldl extractDoc d := by
  induction ms generalizing d with
  | nil => rfl
  | cons m ms ih =>
    rw [List.foldl_cons, List.filter_cons]
    by_cases h : own m = true
    · rw [if_pos h, ih, if_neg (by simp [h])]
    · rw [if_neg h, ih, if_pos (by simp [h])]; rfl

theorem extractDoc_not {d m} (h : m.pathOf.isIdent "doc" = false) : extractDoc d m = d := by
  unfold extractDoc
  split
  · rename_i p s; rw [Meta.pathOf] at h; rw [h]; rfl
  · rfl

theorem ident_ne {p : Path} {a b : String} (h : p.isIdent a = true) (hne : a ≠ b) : p.isIdent b = false := by
  unfold Path.isIdent at h ⊢
  rw [beq_iff_eq] at h
  subst h
  rw [beq_eq_false_iff_ne]
  intro h
  injection h with _ h
  injection h with h
  injection h with _ h
  exact hne h

/-! ### Text, words and defaults -/

def textOf (key : String) : Meta → Option String
  | .nameValue p (.str s) => if p.isIdent key then some s else none
  | _ => none

theorem textArg_eq (key : String) (as : List Meta) : textArg key as = (as.filterMap (textOf key)).getLast? := by
  unfold textArg; congr 2

theorem textArg_append {key : String} {as bs : List Meta} : textArg key (as ++ bs) = (textArg key bs).or (textArg key as) := by
  simp only [textArg_eq, List.filterMap_append, List.getLast?_append]

def textUpd (key : String) (m : Meta) (t : Option String) : Option String := (textOf key m).or t

theorem text_fold {key : String} : ∀ (as : List Meta) (t : Option String),
    as.foldl (fun t m => textUpd key m t) t = (textArg key as).or t
  | [], _ => rfl
  | m :: as, t => by
    rw [List.foldl_cons, text_fold]
    rw [show m :: as = [m] ++ as from rfl, textArg_append, Option.or_assoc]
    congr 1
    rw [textArg_eq, List.filterMap_cons]
    unfold textUpd
    cases textOf key m <;> rfl

theorem text_value {key : String} {m : Meta} {s : String} (h : m.pathOf.isIdent key = true) (hs : strValue m = .ok s) :
    textOf key m = some s := by
  unfold strValue at hs
  split at hs
  · cases hs; rw [Meta.pathOf] at h; rw [textOf, if_pos h]
  · exact nomatch hs

theorem text_other {key : String} {m : Meta} (h : m.pathOf.isIdent key = false) : textOf key m = none := by
  unfold textOf
  split
  · rw [Meta.pathOf] at h; rw [h]; rfl
  · rfl

def wordUpd (key : String) (m : Meta) (b : Bool) : Bool := b || m.pathOf.isIdent key

theorem word_fold {key : String} : ∀ (as : List Meta) (b : Bool),
    as.foldl (fun t m => wordUpd key m t) b = (b || wordArg key as)
  | [], b => by simp [wordArg]
  | m :: as, b => by
    rw [List.foldl_cons, word_fold, wordUpd, Bool.or_assoc]
    rfl

theorem wordArg_append {key : String} {as bs : List Meta} : wordArg key (as ++ bs) = (wordArg key as || wordArg key bs) := by
  unfold wordArg; rw [List.any_append]

theorem flag_ok {α : Type} {a b : α} {m : Meta} (h : flag a m = .ok b) : b = a := by
  unfold flag at h
  split at h
  · cases h; rfl
  · exact nomatch h

def fieldUpd (m : Meta) (d : Option DefSrc) : Option DefSrc := d.or (defaultIn (fun p => p.isIdent "default") m)

theorem field_fold : ∀ (as : List Meta) (d : Option DefSrc),
    as.foldl (fun t m => fieldUpd m t) d = d.or (fieldDefault as)
  | [], d => by simp [fieldDefault]
  | m :: as, d => by
    rw [List.foldl_cons, field_fold, fieldUpd, Option.or_assoc]
    congr 1
    unfold fieldDefault
    rw [List.findSome?_cons]
    cases defaultIn (fun p => p.isIdent "default") m <;> rfl

theorem fieldDefault_append {as bs : List Meta} : fieldDefault (as ++ bs) = (fieldDefault as).or (fieldDefault bs) := by
  unfold fieldDefault; rw [List.findSome?_append]

theorem parseDefault_is {last : Bool} {m : Meta} {v : DefSrc} {is : Path → Bool} (h : parseDefault last m = .ok v)
    (hi : is m.pathOf = true) : defaultIn is m = some v := by
  unfold parseDefault at h
  split at h
  · split at h
    · cases h; rw [Meta.pathOf] at hi; rw [defaultIn, if_pos hi]
    · exact nomatch h
  · exact nomatch h
  · cases h; rw [Meta.pathOf] at hi; rw [defaultIn, if_pos hi]
  · exact nomatch h

theorem defaultIn_not {m : Meta} {is : Path → Bool} (h : is m.pathOf = false) : defaultIn is m = none := by
  unfold defaultIn
  split
  · rw [Meta.pathOf] at h; rw [h]; rfl
  · rw [Meta.pathOf] at h; rw [h]; rfl
  · rfl

/-- The default of the argument `x` in the list of all of them. -/
def lookupUpd (x : Ident) (m : Meta) (d : Option DefSrc) : Option DefSrc := d.or (defaultIn (fun p => p.getIdent == some x) m)

theorem lookup_fold {x : Ident} : ∀ (as : List Meta) (d : Option DefSrc),
    as.foldl (fun t m => lookupUpd x m t) d = d.or (as.findSome? (defaultIn fun p => p.getIdent == some x))
  | [], d => by simp
  | m :: as, d => by
    rw [List.foldl_cons, lookup_fold, lookupUpd, Option.or_assoc]
    congr 1
    rw [List.findSome?_cons]
    cases defaultIn (fun p => p.getIdent == some x) m <;> rfl

theorem parseDefaults_is {m : Meta} {ds ds' : List (Ident × DefSrc)} (h : parseDefaults m ds = .ok ds') (x : Ident) :
    ds'.lookup x = (ds.lookup x).or ((argsOf m).findSome? (defaultIn fun p => p.getIdent == some x)) := by
  unfold parseDefaults at h
  split at h
  · rename_i ms
    rw [← lookup_fold]
    refine nested_get (fun ds => ds.lookup x) (lookupUpd x) ?_ h
    intro b m ds ds' h
    unfold lookupUpd
    split at h
    · exact nomatch h
    · rename_i y hy
      split at h
      · exact nomatch h
      · rename_i hn
        obtain ⟨v, hv, h⟩ := synBind h
        cases h
        rw [List.lookup_cons]
        by_cases hxy : x = y
        · subst hxy
          rw [beq_self_eq_true]
          dsimp only
          rw [Option.not_isSome_iff_eq_none.1 hn, parseDefault_is hv (by rw [hy]; exact beq_self_eq_true _)]
          rfl
        · rw [beq_eq_false_iff_ne.2 hxy]
          dsimp only
          rw [defaultIn_not (by rw [hy, beq_eq_false_iff_ne]; intro h; cases h; exact hxy rfl)]
          cases ds.lookup x <;> rfl
  · exact nomatch h

theorem argDefault_append {as bs : List Meta} {x : Ident} : argDefault (as ++ bs) x = (argDefault as x).or (argDefault bs x) := by
  unfold argDefault argsIn
  rw [List.filter_append, List.flatMap_append, List.findSome?_append]

/-! ### Functions -/

theorem fnAttr_is {m : Meta} {a a' : FnAttrs} (h : fnAttr m a = .ok a') :
    a'.docstring = a.docstring ∧ a'.name = textUpd "name" m a.name ∧
    ∀ x, a'.defaults.lookup x = (a.defaults.lookup x).or (argDefault [m] x) := by
  unfold fnAttr at h
  have hd : m.pathOf.isIdent "default" = false → ∀ x, argDefault [m] x = none := by
    intro h x
    unfold argDefault
    rw [argsIn_not (by rw [h]; exact nofun)]; rfl
  split at h
  · rename_i hi
    obtain ⟨ds, hds, h⟩ := synBind h
    cases h
    refine ⟨rfl, ?_, fun x => ?_⟩
    · rw [textUpd, text_other (ident_ne hi (by decide))]; rfl
    · rw [argDefault, argsIn_own hi, argsIn_nil, List.append_nil]
      exact parseDefaults_is hds x
  · rename_i hi
    have hx := hd (by simpa using hi)
    split at h
    · rename_i hn
      obtain ⟨s, hs, h⟩ := synBind h
      cases h
      exact ⟨rfl, by rw [textUpd, text_value hn hs]; rfl, fun x => by rw [hx x]; cases a.defaults.lookup x <;> rfl⟩
    · rename_i hn
      split at h
      · obtain ⟨s, hs, h⟩ := synBind h
        cases h
        exact ⟨rfl, by rw [textUpd, text_other (by simpa using hn)]; rfl, fun x => by
          rw [hx x]; cases a.defaults.lookup x <;> rfl⟩
      · exact nomatch h

theorem lookup_args {x : Ident} : ∀ (as : List Meta) (d : Option DefSrc),
    as.foldl (fun t m => t.or (argDefault [m] x)) d = d.or (argDefault as x)
  | [], d => by simp [argDefault, argsIn_nil]
  | m :: as, d => by
    rw [List.foldl_cons, lookup_args, Option.or_assoc, ← argDefault_append]; rfl

theorem fnAttrs_is (own : Meta → Bool) : ∀ {ms : List Meta} {a a' : FnAttrs}, fnAttrs own ms a = .ok a' →
    a'.docstring = ms.foldl (fun d m => if own m then d else extractDoc d m) a.docstring ∧
    a'.name = (textArg "name" (argsIn own ms)).or a.name ∧
    ∀ x, a'.defaults.lookup x = (a.defaults.lookup x).or (argDefault (argsIn own ms) x)
  | [], a, a', h => by
    cases h
    exact ⟨rfl, rfl, fun x => by rw [argsIn_nil]; simp [argDefault, argsIn_nil]⟩
  | m :: ms, a, a', h => by
    rw [fnAttrs] at h
    split at h
    · rename_i hm
      obtain ⟨a1, h1, h2⟩ := synBind h
      obtain ⟨i1, i2, i3⟩ := fnAttrs_is own h2
      refine ⟨?_, ?_, fun x => ?_⟩
      · rw [i1, List.foldl_cons, if_pos hm]
        congr 1
        have := inList_get (·.docstring) (fun _ d => d) (fun _ _ _ _ h => (fnAttr_is h).1) h1
        rw [this]
        generalize argsOf m = l
        induction l with
        | nil => rfl
        | cons _ _ ih => exact ih
      · rw [i2, argsIn_own hm, textArg_append, Option.or_assoc]
        congr 1
        rw [← text_fold]
        exact inList_get (·.name) (textUpd "name") (fun _ _ _ _ h => (fnAttr_is h).2.1) h1
      · rw [i3, argsIn_own hm, argDefault_append, ← Option.or_assoc]
        congr 1
        rw [← lookup_args]
        exact inList_get (·.defaults.lookup x) (fun m t => t.or (argDefault [m] x))
          (fun _ _ _ _ h => (fnAttr_is h).2.2 x) h1
    · rename_i hm
      rw [argsIn_not hm, List.foldl_cons, if_neg hm]
      split at h
      · exact fnAttrs_is own h
      · rename_i hd
        rw [extractDoc_not (by simpa using hd)]
        exact fnAttrs_is own h

theorem fold_id {σ : Type} (l : List Meta) (s : σ) : l.foldl (fun t _ => t) s = s := by
  induction l with
  | nil => rfl
  | cons _ _ ih => exact ih

theorem implAttrs_is (l : Look) : ∀ {ms : List Meta} {n n' : Option String}, implAttrs l ms n = .ok n' →
    n' = (textArg "name" (argsIn l.isExport ms)).or n
  | [], n, n', h => by cases h; rfl
  | m :: ms, n, n', h => by
    rw [implAttrs] at h
    split at h
    · rename_i hm
      obtain ⟨n1, h1, h2⟩ := synBind h
      rw [implAttrs_is l h2, argsIn_own hm, textArg_append, Option.or_assoc]
      congr 1
      rw [← text_fold]
      refine inList_get (fun n => n) (textUpd "name") ?_ h1
      intro b m n n' h
      split at h
      · rename_i hn
        obtain ⟨s, hs, h⟩ := synBind h
        cases h
        rw [textUpd, text_value hn hs]; rfl
      · rename_i hn
        split at h
        · obtain ⟨s, hs, h⟩ := synBind h
          cases h
          rw [textUpd, text_other (by simpa using hn)]; rfl
        · exact nomatch h
    · rename_i hm
      rw [argsIn_not hm]
      exact implAttrs_is l h

/-! ### Types -/

theorem uniffiArgs_own {m ms} (h : m.pathOf.isIdent "uniffi" = true) : uniffiArgs (m :: ms) = argsOf m ++ uniffiArgs ms :=
  argsIn_own h

theorem uniffiArgs_not {m ms} (h : ¬ m.pathOf.isIdent "uniffi" = true) : uniffiArgs (m :: ms) = uniffiArgs ms := argsIn_not h

theorem onlyName_is {σ : Type} (set : σ → Option String → σ) {m : Meta} {a a' : σ}
    (h : (if m.pathOf.isIdent "name" then do .ok (set a (some (← strValue m))) else .error .syn : SynRes σ) = .ok a') :
    ∃ s, textOf "name" m = some s ∧ a' = set a (some s) := by
  split at h
  · rename_i hn
    obtain ⟨s, hs, h⟩ := synBind h
    cases h
    exact ⟨s, text_value hn hs, rfl⟩
  · exact nomatch h

theorem typeAttrs_is : ∀ {ms : List Meta} {a a' : TypeAttrs}, typeAttrs ms a = .ok a' →
    a'.docstring = ms.foldl extractDoc a.docstring ∧ a'.name = (textArg "name" (uniffiArgs ms)).or a.name ∧
    a'.remote = a.remote ∧ a'.utraits = a.utraits
  | [], a, a', h => by cases h; exact ⟨rfl, rfl, rfl, rfl⟩
  | m :: ms, a, a', h => by
    rw [typeAttrs] at h
    split at h
    · rename_i hm
      obtain ⟨a1, h1, h2⟩ := synBind h
      obtain ⟨i1, i2, i3, i4⟩ := typeAttrs_is h2
      have key : ∀ (b : Bool) (m : Meta) (a a' : TypeAttrs),
          (if m.pathOf.isIdent "name" then do .ok { a with name := some (← strValue m) } else .error .syn : SynRes TypeAttrs) = .ok a' →
          a'.docstring = a.docstring ∧ a'.name = textUpd "name" m a.name ∧ a'.remote = a.remote ∧ a'.utraits = a.utraits := by
        intro b m a a' h
        obtain ⟨s, hs, rfl⟩ := onlyName_is (fun (a : TypeAttrs) n => { a with name := n }) h
        exact ⟨rfl, by rw [textUpd, hs]; rfl, rfl, rfl⟩
      refine ⟨?_, ?_, ?_, ?_⟩
      · rw [i1, List.foldl_cons, extractDoc_not (ident_ne hm (by decide))]
        rw [inList_get (·.docstring) (fun _ d => d) (fun b m a a' h => (key b m a a' h).1) h1, fold_id]
      · rw [i2, uniffiArgs_own hm, textArg_append, Option.or_assoc]
        congr 1
        rw [← text_fold]
        exact inList_get (·.name) (textUpd "name") (fun b m a a' h => (key b m a a' h).2.1) h1
      · rw [i3, inList_get (·.remote) (fun _ d => d) (fun b m a a' h => (key b m a a' h).2.2.1) h1, fold_id]
      · rw [i4, inList_get (·.utraits) (fun _ d => d) (fun b m a a' h => (key b m a a' h).2.2.2) h1, fold_id]
    · rename_i hm
      rw [uniffiArgs_not hm, List.foldl_cons]
      split at h
      · exact typeAttrs_is h
      · rename_i hd
        rw [extractDoc_not (by simpa using hd)]
        exact typeAttrs_is h

theorem variantAttrs_is : ∀ {ms : List Meta} {a a' : VariantAttrs}, variantAttrs ms a = .ok a' →
    a'.docstring = ms.foldl extractDoc a.docstring ∧ a'.name = (textArg "name" (uniffiArgs ms)).or a.name
  | [], a, a', h => by cases h; exact ⟨rfl, rfl⟩
  | m :: ms, a, a', h => by
    rw [variantAttrs] at h
    split at h
    · rename_i hm
      obtain ⟨a1, h1, h2⟩ := synBind h
      obtain ⟨i1, i2⟩ := variantAttrs_is h2
      have key : ∀ (b : Bool) (m : Meta) (a a' : VariantAttrs),
          (if m.pathOf.isIdent "name" then do .ok { a with name := some (← strValue m) } else .error .syn : SynRes VariantAttrs) = .ok a' →
          a'.docstring = a.docstring ∧ a'.name = textUpd "name" m a.name := by
        intro b m a a' h
        obtain ⟨s, hs, rfl⟩ := onlyName_is (fun (a : VariantAttrs) n => { a with name := n }) h
        exact ⟨rfl, by rw [textUpd, hs]; rfl⟩
      refine ⟨?_, ?_⟩
      · rw [i1, List.foldl_cons, extractDoc_not (ident_ne hm (by decide))]
        rw [inList_get (·.docstring) (fun _ d => d) (fun b m a a' h => (key b m a a' h).1) h1, fold_id]
      · rw [i2, uniffiArgs_own hm, textArg_append, Option.or_assoc]
        congr 1
        rw [← text_fold]
        exact inList_get (·.name) (textUpd "name") (fun b m a a' h => (key b m a a' h).2) h1
    · rename_i hm
      rw [uniffiArgs_not hm, List.foldl_cons]
      split at h
      · exact variantAttrs_is h
      · rename_i hd
        rw [extractDoc_not (by simpa using hd)]
        exact variantAttrs_is h

theorem fieldAttrs_is : ∀ {ms : List Meta} {a a' : FieldAttrs}, fieldAttrs ms a = .ok a' →
    a'.docstring = ms.foldl extractDoc a.docstring ∧ a'.name = (textArg "name" (uniffiArgs ms)).or a.name ∧
    a'.default = a.default.or (fieldDefault (uniffiArgs ms))
  | [], a, a', h => by cases h; exact ⟨rfl, rfl, by simp [uniffiArgs, argsIn_nil, fieldDefault]⟩
  | m :: ms, a, a', h => by
    rw [fieldAttrs] at h
    split at h
    · rename_i hm
      obtain ⟨a1, h1, h2⟩ := synBind h
      obtain ⟨i1, i2, i3⟩ := fieldAttrs_is h2
      have key : ∀ (last : Bool) (m : Meta) (a a' : FieldAttrs),
          (if m.pathOf.isIdent "name" then do .ok { a with name := some (← strValue m) }
            else if m.pathOf.isIdent "default" then
              if a.default.isSome then .error .syn else do .ok { a with default := some (← parseDefault last m) }
            else .error .syn : SynRes FieldAttrs) = .ok a' →
          a'.docstring = a.docstring ∧ a'.name = textUpd "name" m a.name ∧ a'.default = fieldUpd m a.default := by
        intro b m a a' h
        split at h
        · rename_i hn
          obtain ⟨s, hs, h⟩ := synBind h
          cases h
          refine ⟨rfl, by rw [textUpd, text_value hn hs]; rfl, ?_⟩
          rw [fieldUpd, defaultIn_not (ident_ne hn (by decide))]; cases a.default <;> rfl
        · rename_i hn
          split at h
          · rename_i hdef
            split at h
            · exact nomatch h
            · rename_i hnone
              obtain ⟨v, hv, h⟩ := synBind h
              cases h
              refine ⟨rfl, by rw [textUpd, text_other (by simpa using hn)]; rfl, ?_⟩
              rw [fieldUpd, parseDefault_is hv hdef, Option.not_isSome_iff_eq_none.1 hnone]; rfl
          · exact nomatch h
      refine ⟨?_, ?_, ?_⟩
      · rw [i1, List.foldl_cons, extractDoc_not (ident_ne hm (by decide))]
        rw [inList_get (·.docstring) (fun _ d => d) (fun b m a a' h => (key b m a a' h).1) h1, fold_id]
      · rw [i2, uniffiArgs_own hm, textArg_append, Option.or_assoc]
        congr 1
        rw [← text_fold]
        exact inList_get (·.name) (textUpd "name") (fun b m a a' h => (key b m a a' h).2.1) h1
      · rw [i3, uniffiArgs_own hm, fieldDefault_append, ← Option.or_assoc]
        congr 1
        rw [← field_fold]
        exact inList_get (·.default) fieldUpd (fun b m a a' h => (key b m a a' h).2.2) h1
    · rename_i hm
      rw [uniffiArgs_not hm, List.foldl_cons]
      split at h
      · exact fieldAttrs_is h
      · rename_i hd
        rw [extractDoc_not (by simpa using hd)]
        exact fieldAttrs_is h

/-- The shape of an enum with the words in `#[uniffi(…)]`. -/
def shapeWith (s : Shape) (b : Bool) : Shape :=
  match s with
  | .enum => .enum
  | .error f => .error (f || b)

theorem shapeWith_append {s : Shape} {a b : Bool} : shapeWith (shapeWith s a) b = shapeWith s (a || b) := by
  cases s <;> simp [shapeWith, Bool.or_assoc]

theorem shape_fold : ∀ (as : List Meta) (s : Shape),
    as.foldl (fun s m => shapeWith s (m.pathOf.isIdent "flat_error")) s = shapeWith s (wordArg "flat_error" as)
  | [], s => by cases s <;> simp [shapeWith, wordArg]
  | m :: as, s => by
    rw [List.foldl_cons, shape_fold, shapeWith_append]; rfl

def reprUpd (m : Meta) (t : Option MTy) : Option MTy := (reprType m.pathOf).or t

theorem repr_fold : ∀ (as : List Meta) (t : Option MTy),
    as.foldl (fun t m => reprUpd m t) t = ((as.filterMap fun m => reprType m.pathOf).getLast?).or t
  | [], _ => rfl
  | m :: as, t => by
    rw [List.foldl_cons, repr_fold, List.filterMap_cons, reprUpd]
    cases h : reprType m.pathOf with
    | none => rfl
    | some x =>
      dsimp only
      rw [List.getLast?_cons]
      cases (as.filterMap fun m => reprType m.pathOf).getLast? <;> rfl

theorem reprOf_own {m ms} (h : m.pathOf.isIdent "repr" = true) :
    reprOf (m :: ms) = (reprOf ms).or (((argsOf m).filterMap fun m => reprType m.pathOf).getLast?) := by
  unfold reprOf
  simp only [← reprType_is]
  rw [argsIn_own h, List.filterMap_append, List.getLast?_append]

theorem reprOf_not {m ms} (h : ¬ m.pathOf.isIdent "repr" = true) : reprOf (m :: ms) = reprOf ms := by
  unfold reprOf; rw [argsIn_not h]

theorem reprType_ident {p : Path} (h : p.getIdent = none) : reprType p = none := by
  have hf : ∀ x, p.isIdent x = false := by
    intro x
    unfold Path.isIdent
    rw [beq_eq_false_iff_ne]
    rintro rfl
    exact nomatch h
  unfold reprType
  simp only [hf]
  rfl

theorem reprAttr_is {m : Meta} {a a' : EnumAttrs} (h : reprAttr m a = .ok a') :
    a' = { a with discrType := reprUpd m a.discrType } := by
  unfold reprAttr at h
  split at h
  · rename_i hn
    rw [flag_ok h, reprUpd, reprType_ident hn]; rfl
  · split at h
    · rename_i t ht
      rw [flag_ok h, reprUpd, ht]; rfl
    · exact nomatch h

theorem enumAttrs_is : ∀ {ms : List Meta} {a a' : EnumAttrs}, enumAttrs ms a = .ok a' →
    a'.docstring = ms.foldl extractDoc a.docstring ∧ a'.name = (textArg "name" (uniffiArgs ms)).or a.name ∧
    a'.remote = a.remote ∧ a'.utraits = a.utraits ∧ a'.shape = shapeWith a.shape (wordArg "flat_error" (uniffiArgs ms)) ∧
    a'.nonExhaustive = (a.nonExhaustive || wordArg "non_exhaustive" ms) ∧ a'.discrType = (reprOf ms).or a.discrType
  | [], a, a', h => by
    cases h
    exact ⟨rfl, rfl, rfl, rfl, by cases a.shape <;> simp [shapeWith, wordArg, uniffiArgs, argsIn_nil], by simp [wordArg], rfl⟩
  | m :: ms, a, a', h => by
    rw [enumAttrs.eq_def] at h
    dsimp only at h
    have hw : wordArg "non_exhaustive" (m :: ms) = (m.pathOf.isIdent "non_exhaustive" || wordArg "non_exhaustive" ms) := rfl
    rw [hw]
    split at h
    · rename_i hm
      obtain ⟨a1, h1, h2⟩ := synBind h
      obtain ⟨i1, i2, i3, i4, i5, i6, i7⟩ := enumAttrs_is h2
      have key : ∀ (b : Bool) (m : Meta) (a a' : EnumAttrs),
          (if m.pathOf.isIdent "name" then do .ok { a with name := some (← strValue m) }
            else if m.pathOf.isIdent "flat_error" then
              match a.shape with
              | .error _ => flag { a with shape := .error true } m
              | .enum => .error .syn
            else .error .syn : SynRes EnumAttrs) = .ok a' →
          a'.docstring = a.docstring ∧ a'.name = textUpd "name" m a.name ∧ a'.remote = a.remote ∧ a'.utraits = a.utraits ∧
          a'.shape = shapeWith a.shape (m.pathOf.isIdent "flat_error") ∧ a'.nonExhaustive = a.nonExhaustive ∧
          a'.discrType = a.discrType := by
        intro b m a a' h
        split at h
        · rename_i hn
          obtain ⟨s, hs, h⟩ := synBind h
          cases h
          refine ⟨rfl, by rw [textUpd, text_value hn hs]; rfl, rfl, rfl, ?_, rfl, rfl⟩
          rw [ident_ne hn (by decide)]
          cases a.shape <;> simp [shapeWith]
        · rename_i hn
          split at h
          · rename_i hf
            split at h
            · rename_i f hs
              rw [flag_ok h, hf, hs]
              refine ⟨rfl, by rw [textUpd, text_other (by simpa using hn)]; rfl, rfl, rfl, ?_, rfl, rfl⟩
              simp [shapeWith]
            · exact nomatch h
          · exact nomatch h
      refine ⟨?_, ?_, ?_, ?_, ?_, ?_, ?_⟩
      · rw [i1, List.foldl_cons, extractDoc_not (ident_ne hm (by decide))]
        rw [inList_get (·.docstring) (fun _ d => d) (fun b m a a' h => (key b m a a' h).1) h1, fold_id]
      · rw [i2, uniffiArgs_own hm, textArg_append, Option.or_assoc]
        congr 1
        rw [← text_fold]
        exact inList_get (·.name) (textUpd "name") (fun b m a a' h => (key b m a a' h).2.1) h1
      · rw [i3, inList_get (·.remote) (fun _ d => d) (fun b m a a' h => (key b m a a' h).2.2.1) h1, fold_id]
      · rw [i4, inList_get (·.utraits) (fun _ d => d) (fun b m a a' h => (key b m a a' h).2.2.2.1) h1, fold_id]
      · rw [i5, uniffiArgs_own hm, wordArg_append, ← shapeWith_append]
        congr 1
        rw [← shape_fold]
        exact inList_get (·.shape) (fun m s => shapeWith s (m.pathOf.isIdent "flat_error"))
          (fun b m a a' h => (key b m a a' h).2.2.2.2.1) h1
      · rw [i6, ident_ne hm (by decide), Bool.false_or]
        congr 1
        rw [inList_get (·.nonExhaustive) (fun _ d => d) (fun b m a a' h => (key b m a a' h).2.2.2.2.2.1) h1, fold_id]
      · rw [i7, reprOf_not (by rw [ident_ne hm (by decide)]; exact nofun)]
        congr 1
        rw [inList_get (·.discrType) (fun _ d => d) (fun b m a a' h => (key b m a a' h).2.2.2.2.2.2) h1, fold_id]
    · rename_i hm
      rw [uniffiArgs_not hm, List.foldl_cons]
      split at h
      · rename_i hd
        obtain ⟨i1, i2, i3, i4, i5, i6, i7⟩ := enumAttrs_is h
        rw [reprOf_not (by rw [ident_ne hd (by decide)]; exact nofun), ident_ne hd (by decide), Bool.false_or]
        exact ⟨i1, i2, i3, i4, i5, i6, i7⟩
      · rename_i hd
        rw [extractDoc_not (by simpa using hd)]
        split at h
        · rename_i hx
          obtain ⟨i1, i2, i3, i4, i5, i6, i7⟩ := enumAttrs_is h
          rw [reprOf_not (by rw [ident_ne hx (by decide)]; exact nofun), hx]
          exact ⟨i1, i2, i3, i4, i5, by rw [i6]; simp, i7⟩
        · rename_i hx
          rw [show m.pathOf.isIdent "non_exhaustive" = false by simpa using hx, Bool.false_or]
          split at h
          · rename_i hp
            split at h
            · obtain ⟨a1, h1, h2⟩ := synBind h
              obtain ⟨i1, i2, i3, i4, i5, i6, i7⟩ := enumAttrs_is h2
              have e : ∀ {τ : Type} (g : EnumAttrs → τ), (∀ a d, g { a with discrType := d } = g a) → g a1 = g a := by
                intro τ g hg
                rw [inList_get g (fun _ d => d) (fun b m a a' h => by rw [reprAttr_is h, hg]) h1, fold_id]
              rw [i1, i2, i3, i4, i5, i6, i7, reprOf_own hp, Option.or_assoc, ← repr_fold]
              refine ⟨by rw [e (·.docstring) fun _ _ => rfl], by rw [e (·.name) fun _ _ => rfl],
                by rw [e (·.remote) fun _ _ => rfl], by rw [e (·.utraits) fun _ _ => rfl],
                by rw [e (·.shape) fun _ _ => rfl], by rw [e (·.nonExhaustive) fun _ _ => rfl], ?_⟩
              congr 1
              exact inList_get (·.discrType) reprUpd (fun b m a a' h => by rw [reprAttr_is h]) h1
            · exact nomatch h
          · rename_i hp
            rw [reprOf_not hp]
            exact enumAttrs_is h

/-! ### Built-in traits -/

theorem utAdd_is {t t' : UTraits} {m : Meta} (h : t.add m = .ok t') :
    t'.debug = wordUpd "Debug" m t.debug ∧ t'.display = wordUpd "Display" m t.display ∧ t'.eq = wordUpd "Eq" m t.eq ∧
    t'.hash = wordUpd "Hash" m t.hash ∧ t'.ord = wordUpd "Ord" m t.ord := by
  unfold UTraits.add at h
  unfold wordUpd
  split at h
  · rename_i hi
    rw [flag_ok h, hi, ident_ne hi (b := "Display") (by decide), ident_ne hi (b := "Eq") (by decide),
      ident_ne hi (b := "Hash") (by decide), ident_ne hi (b := "Ord") (by decide)]
    simp
  · rename_i h1
    split at h
    · rename_i hi
      rw [flag_ok h, hi, ident_ne hi (b := "Debug") (by decide), ident_ne hi (b := "Eq") (by decide),
        ident_ne hi (b := "Hash") (by decide), ident_ne hi (b := "Ord") (by decide)]
      simp
    · split at h
      · rename_i hi
        rw [flag_ok h, hi, ident_ne hi (b := "Debug") (by decide), ident_ne hi (b := "Display") (by decide),
          ident_ne hi (b := "Hash") (by decide), ident_ne hi (b := "Ord") (by decide)]
        simp
      · split at h
        · rename_i hi
          rw [flag_ok h, hi, ident_ne hi (b := "Debug") (by decide), ident_ne hi (b := "Display") (by decide),
            ident_ne hi (b := "Hash") (by decide), ident_ne hi (b := "Eq") (by decide)]
          simp
        · split at h
          · rename_i hi
            rw [flag_ok h, hi, ident_ne hi (b := "Debug") (by decide), ident_ne hi (b := "Display") (by decide),
              ident_ne hi (b := "Eq") (by decide), ident_ne hi (b := "Ord") (by decide)]
            simp
          · exact nomatch h

theorem parseUTraits_is (l : Look) : ∀ {ms : List Meta} {t t' : UTraits}, parseUTraits l ms t = .ok t' →
    t'.debug = (t.debug || wordArg "Debug" (argsIn l.isExport ms)) ∧
    t'.display = (t.display || wordArg "Display" (argsIn l.isExport ms)) ∧
    t'.eq = (t.eq || wordArg "Eq" (argsIn l.isExport ms)) ∧
    t'.hash = (t.hash || wordArg "Hash" (argsIn l.isExport ms)) ∧
    t'.ord = (t.ord || wordArg "Ord" (argsIn l.isExport ms))
  | [], t, t', h => by cases h; simp [argsIn_nil, wordArg]
  | m :: ms, t, t', h => by
    rw [parseUTraits.eq_def] at h
    dsimp only at h
    split at h
    · rename_i hm
      split at h
      · rename_i args
        obtain ⟨t1, h1, h2⟩ := synBind h
        obtain ⟨i1, i2, i3, i4, i5⟩ := parseUTraits_is l h2
        rw [i1, i2, i3, i4, i5, argsIn_own hm]
        simp only [wordArg_append, ← Bool.or_assoc]
        refine ⟨?_, ?_, ?_, ?_, ?_⟩
        · congr 1; rw [← word_fold]
          exact nested_get (·.debug) (wordUpd "Debug") (fun _ _ _ _ h => (utAdd_is h).1) h1
        · congr 1; rw [← word_fold]
          exact nested_get (·.display) (wordUpd "Display") (fun _ _ _ _ h => (utAdd_is h).2.1) h1
        · congr 1; rw [← word_fold]
          exact nested_get (·.eq) (wordUpd "Eq") (fun _ _ _ _ h => (utAdd_is h).2.2.1) h1
        · congr 1; rw [← word_fold]
          exact nested_get (·.hash) (wordUpd "Hash") (fun _ _ _ _ h => (utAdd_is h).2.2.2.1) h1
        · congr 1; rw [← word_fold]
          exact nested_get (·.ord) (wordUpd "Ord") (fun _ _ _ _ h => (utAdd_is h).2.2.2.2) h1
      · exact nomatch h
    · rename_i hm
      rw [argsIn_not hm]
      exact parseUTraits_is l h

/-! ### Traits -/

theorem traitAttr_is {m : Meta} {a a' : TraitAttrs} (h : traitAttr m a = .ok a') :
    a'.docstring = a.docstring ∧ a'.exportTy = a.exportTy ∧ a'.name = textUpd "name" m a.name ∧
    a'.callback = wordUpd "callback_interface" m a.callback ∧
    a'.rust = (a.rust || (m.pathOf.isIdent "rust" || m.pathOf.isIdent "with_foreign")) ∧
    a'.foreign = (a.foreign || (m.pathOf.isIdent "foreign" || m.pathOf.isIdent "with_foreign")) := by
  unfold traitAttr at h
  unfold wordUpd
  split at h
  · rename_i hn
    obtain ⟨s, hs, h⟩ := synBind h
    cases h
    rw [ident_ne hn (b := "callback_interface") (by decide), ident_ne hn (b := "rust") (by decide),
      ident_ne hn (b := "with_foreign") (by decide), ident_ne hn (b := "foreign") (by decide)]
    exact ⟨rfl, rfl, by rw [textUpd, text_value hn hs]; rfl, by simp, by simp, by simp⟩
  · rename_i hn
    have hn : m.pathOf.isIdent "name" = false := by simpa using hn
    rw [show textUpd "name" m a.name = a.name by rw [textUpd, text_other hn]; rfl]
    split at h
    · rename_i hi
      rw [flag_ok h, hi, ident_ne hi (b := "callback_interface") (by decide), ident_ne hi (b := "with_foreign") (by decide),
        ident_ne hi (b := "foreign") (by decide)]
      simp
    · split at h
      · rename_i hi
        rw [flag_ok h, hi, ident_ne hi (b := "callback_interface") (by decide), ident_ne hi (b := "with_foreign") (by decide),
          ident_ne hi (b := "rust") (by decide)]
        simp
      · split at h
        · rename_i hi
          rw [flag_ok h, hi, ident_ne hi (b := "callback_interface") (by decide), ident_ne hi (b := "foreign") (by decide),
            ident_ne hi (b := "rust") (by decide)]
          simp
        · split at h
          · rename_i hi
            rw [flag_ok h, hi, ident_ne hi (b := "foreign") (by decide), ident_ne hi (b := "with_foreign") (by decide),
              ident_ne hi (b := "rust") (by decide)]
            simp
          · exact nomatch h

theorem words_fold {k1 k2 : String} : ∀ (as : List Meta) (b : Bool),
    as.foldl (fun t m => t || (m.pathOf.isIdent k1 || m.pathOf.isIdent k2)) b = (b || (wordArg k1 as || wordArg k2 as))
  | [], b => by simp [wordArg]
  | m :: as, b => by
    rw [List.foldl_cons, words_fold]
    have : ∀ k, wordArg k (m :: as) = (m.pathOf.isIdent k || wordArg k as) := fun _ => rfl
    rw [this, this]
    cases b <;> cases m.pathOf.isIdent k1 <;> cases m.pathOf.isIdent k2 <;> simp

theorem kind_is {as : List Meta} {a : TraitAttrs} {t : ExportTy} (h : a.kind = .ok t)
    (hc : a.callback = wordArg "callback_interface" as) (hr : a.rust = (wordArg "rust" as || wordArg "with_foreign" as))
    (hf : a.foreign = (wordArg "foreign" as || wordArg "with_foreign" as)) : ExportIs as t := by
  unfold TraitAttrs.kind at h
  rw [hc, hr, hf] at h
  generalize h1 : wordArg "callback_interface" as = b1 at *
  generalize h2 : wordArg "rust" as = b2 at *
  generalize h3 : wordArg "foreign" as = b3 at *
  generalize h4 : wordArg "with_foreign" as = b4 at *
  cases b1 <;> cases b2 <;> cases b3 <;> cases b4 <;> simp at h <;> subst h <;> simp [ExportIs, h1, h2, h3, h4]

/-- Attributes after the one `export`. -/
theorem traitAttrs_rest (l : Look) : ∀ {ms : List Meta} {a a' : TraitAttrs}, a.exportTy.isSome = true →
    traitAttrs l ms a = .ok a' → ms.any l.isExport = false ∧ a'.exportTy = a.exportTy ∧ a'.name = a.name ∧
      a'.docstring = ms.foldl (fun d m => if l.isExport m then d else extractDoc d m) a.docstring
  | [], a, a', _, h => by cases h; exact ⟨rfl, rfl, rfl, rfl⟩
  | m :: ms, a, a', hs, h => by
    rw [traitAttrs] at h
    split at h
    · exact nomatch h
    · rename_i hm
      rw [List.any_cons, List.foldl_cons, if_neg hm, show l.isExport m = false by simpa using hm, Bool.false_or]
      split at h
      · exact traitAttrs_rest l (a := { a with docstring := extractDoc a.docstring m }) hs h
      · rename_i hd
        rw [extractDoc_not (by simpa using hd)]
        exact traitAttrs_rest l hs h

theorem argsIn_none {own : Meta → Bool} {ms : List Meta} (h : ms.any own = false) : argsIn own ms = [] := by
  unfold argsIn
  rw [List.filter_eq_nil_iff.2 (by simpa using h)]; rfl

theorem traitAttrs_is (l : Look) : ∀ {ms : List Meta} {a a' : TraitAttrs}, a.exportTy = none → a.name = none →
    traitAttrs l ms a = .ok a' →
      a'.docstring = ms.foldl (fun d m => if l.isExport m then d else extractDoc d m) a.docstring ∧
      a'.name = textArg "name" (argsIn l.isExport ms) ∧ a'.exportTy.isSome = ms.any l.isExport ∧
      ∀ t, a'.exportTy = some t → ExportIs (argsIn l.isExport ms) t
  | [], a, a', h1, h2, h => by cases h; exact ⟨rfl, h2, by rw [h1]; rfl, fun t ht => by rw [h1] at ht; exact nomatch ht⟩
  | m :: ms, a, a', h1, h2, h => by
    rw [traitAttrs] at h
    split at h
    · rename_i hm
      rw [h1] at h
      rw [if_neg nofun] at h
      obtain ⟨a1, h3, h⟩ := synBind h
      obtain ⟨t, ht, h⟩ := synBind h
      obtain ⟨i1, i2, i3, i4⟩ := traitAttrs_rest l (a := { a1 with exportTy := some t }) rfl h
      rw [argsIn_own hm, argsIn_none i1, List.append_nil, List.foldl_cons, if_pos hm, List.any_cons, hm, Bool.true_or, i2, i3, i4]
      refine ⟨?_, ?_, rfl, ?_⟩
      · dsimp only
        rw [inList_get (·.docstring) (fun _ d => d) (fun _ _ _ _ h => (traitAttr_is h).1) h3, fold_id]
      · dsimp only
        rw [inList_get (·.name) (textUpd "name") (fun _ _ _ _ h => (traitAttr_is h).2.2.1) h3, text_fold]
        dsimp only
        rw [h2]; simp
      · rintro _ ⟨⟩
        refine kind_is ht ?_ ?_ ?_
        · rw [inList_get (·.callback) (wordUpd "callback_interface") (fun _ _ _ _ h => (traitAttr_is h).2.2.2.1) h3, word_fold]
          simp
        · rw [inList_get (·.rust) (fun m t => t || (m.pathOf.isIdent "rust" || m.pathOf.isIdent "with_foreign"))
            (fun _ _ _ _ h => (traitAttr_is h).2.2.2.2.1) h3, words_fold]
          simp
        · rw [inList_get (·.foreign) (fun m t => t || (m.pathOf.isIdent "foreign" || m.pathOf.isIdent "with_foreign"))
            (fun _ _ _ _ h => (traitAttr_is h).2.2.2.2.2) h3, words_fold]
          simp
    · rename_i hm
      rw [argsIn_not hm, List.any_cons, List.foldl_cons, if_neg hm, show l.isExport m = false by simpa using hm, Bool.false_or]
      split at h
      · exact traitAttrs_is l (a := { a with docstring := extractDoc a.docstring m }) h1 h2 h
      · rename_i hd
        rw [extractDoc_not (by simpa using hd)]
        exact traitAttrs_is l h1 h2 h

end Verif.Src
