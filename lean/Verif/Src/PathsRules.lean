import Verif.Src.PathsMain
namespace Verif.Src

variable {ir : Ir}

/-- An item other than a glob import that gives a meaning to a name in its module. -/
def Item.introduces (ident : Ident) (ns : Ns) (i : Item) : Bool :=
  match i with
  | .useItem _ _ _ useIdent => useIdent == ident.unraw
  | .udl _ ty => udlName ty == some ident.name
  | i => i.ident == some ident.unraw && ns.matches i

/-- An item that is declared in the module: not an import, not `use_remote_type!`, not from UDL. -/
def Item.isDecl : Item → Bool
  | .module _ _ _ _ | .decl _ _ _ _ _ _ => true
  | _ => false

theorem decl_introduces {ident ns i} (hd : Item.isDecl i = true) :
    i.introduces ident ns = true ↔ (i.ident = some ident.unraw ∧ ns.matches i = true) := by
  cases i <;> simp_all [Item.introduces, Item.isDecl]

theorem lookupUdl_none {items ident ns} (h : ∀ i ∈ items, Item.introduces ident ns i = true → ∀ uid ty, i ≠ .udl uid ty) :
    lookupUdl items ident.unraw = none := by
  refine List.find?_eq_none.2 fun i hi => ?_
  split
  · rename_i uid ty
    split
    · rename_i n hn
      intro hc
      have hc := eq_of_beq hc
      refine h _ hi ?_ uid ty rfl
      show (udlName ty == some ident.name) = true
      rw [hn, ← hc]
      simp [Ident.unraw]
    · simp
  · simp

theorem childUdl_none {items ident ns} (h : ∀ i ∈ items, Item.introduces ident ns i = true → ∀ uid ty, i ≠ .udl uid ty) :
    childUdl items ident.unraw ns = none := by
  rw [childUdl, lookupUdl_none h]

theorem special_introduces {ident ns i} (h1 : Item.isSpecial i = true) (h2 : ns.matches i = true)
    (h3 : i.ident = some ident.unraw) : i.introduces ident ns = true := by
  cases i <;> simp_all [Item.introduces, Item.isSpecial, Item.ident]

theorem findSpecial_skip {p : RPath} {ident : Ident} {ns : Ns} : ∀ {items : List Item} {found},
    (∀ i ∈ items, ¬ (i.isSpecial = true ∧ ns.matches i = true ∧ i.ident = some ident)) →
    findSpecial p ident ns found items = .ok found
  | [], found, _ => rfl
  | a :: as, found, h => by
    rw [findSpecial.eq_def]
    dsimp only
    rw [if_neg (fun hc => by
      simp only [Bool.and_eq_true, beq_iff_eq] at hc
      exact h a (.head _) ⟨hc.1.1, hc.1.2, hc.2⟩)]
    exact findSpecial_skip fun i hi => h i (.tail _ hi)

/-- Items that do not introduce the name are skipped. -/
theorem scanItems_skip {p : RPath} {ident : Ident} {ns : Ns} {i : Item} {is found}
    (h : i.introduces ident ns = false) :
    scanItems ir p ident.unraw ns found (i :: is) = scanItems ir p ident.unraw ns found is := by
  rw [scanItems.eq_def]
  dsimp only
  cases i with
  | useItem a b c d => simp_all [Item.introduces, Item.ident]
  | udl a b => rfl
  | builtin a => rfl
  | other a => rfl
  | useGlob a b c => rfl
  | module a b c d => simp_all [Item.introduces, Item.ident]
  | decl a b c d e f => simp_all [Item.introduces, Item.ident]
  | useRemote a b =>
    simp only [Item.introduces, Item.ident, Bool.and_eq_false_iff, beq_eq_false_iff_ne] at h
    simp only [Item.ident]
    split
    · rename_i j hj
      rw [hj] at h
      rw [if_neg]
      intro hc
      simp only [Bool.and_eq_true, beq_iff_eq] at hc
      rcases h with h | h
      · exact h (by rw [hc.1])
      · rw [hc.2] at h; exact nomatch h
    · rfl

theorem scanItems_filter {p : RPath} {ident : Ident} {ns : Ns} : ∀ {is : List Item} {found},
    scanItems ir p ident.unraw ns found is
      = scanItems ir p ident.unraw ns found (is.filter (Item.introduces ident ns))
  | [], _ => rfl
  | i :: is, found => by
    rw [List.filter_cons]
    split
    · rw [scanItems.eq_def, scanItems.eq_def ir p ident.unraw ns found (i :: _)]
      dsimp only
      have ih := fun found => scanItems_filter (p := p) (ident := ident) (ns := ns) (is := is) (found := found)
      simp only [ih]
    · rename_i h
      rw [scanItems_skip (by simpa using h)]
      exact scanItems_filter

theorem scanItems_decl {p : RPath} {ident : Ident} {ns : Ns} {i : Item} {is}
    (hd : i.isDecl = true) (h : i.introduces ident ns = true) :
    scanItems ir p ident.unraw ns none (i :: is) = scanItems ir p ident.unraw ns (some (.item i)) is := by
  obtain ⟨h1, h2⟩ := (decl_introduces hd).1 h
  rw [scanItems.eq_def]
  dsimp only
  rw [h1]
  simp [h2]

theorem scanItems_decl_conflict {p : RPath} {ident : Ident} {ns : Ns} {i : Item} {is f}
    (hd : i.isDecl = true) (h : i.introduces ident ns = true) :
    scanItems ir p ident.unraw ns (some f) (i :: is) = .ret (.error (RPath.err p .nameConflict)) := by
  obtain ⟨h1, h2⟩ := (decl_introduces hd).1 h
  rw [scanItems.eq_def]
  dsimp only
  rw [h1]
  simp [h2]

theorem module_err {p : RPath} {id mi vis items} (h : p.getLast? = some (.module id mi vis items)) (e : Err) :
    RPath.err p e = e := by
  unfold RPath.err RPath.module
  have hne : p ≠ [] := by rintro rfl; cases h
  have : p.reverse = .module id mi vis items :: p.dropLast.reverse := by
    rw [List.getLast?_eq_some_getLast hne, Option.some.injEq] at h
    conv => lhs; rw [← List.dropLast_concat_getLast hne, h]
    simp
  rw [this]
  rfl

theorem childStart_module {p : RPath} {id mi vis items ident} (h : p.getLast? = some (.module id mi vis items))
    (h1 : ident ≠ ⟨false, "super"⟩) (h2 : ident ≠ ⟨false, "crate"⟩) : childStart p ident = .inr (id, items) := by
  rw [childStart, if_neg h1, if_neg h2, h]

/-- `childRef` in a module where only ordinary items and imports introduce the name. -/
theorem childRef_plain {p : RPath} {id mi vis items ident ns k} (hl : p.getLast? = some (.module id mi vis items))
    (h1 : ident ≠ ⟨false, "super"⟩) (h2 : ident ≠ ⟨false, "crate"⟩)
    (hudl : ∀ i ∈ items, Item.introduces ident ns i = true → ∀ uid ty, i ≠ .udl uid ty)
    (hsp : ∀ i ∈ items, Item.introduces ident ns i = true → i.isSpecial = false) :
    childRef ir (k + 1) p ident ns = (childPlain ir p items ident.unraw ns).eval (childRef ir k) := by
  rw [childRef, childStart_module hl h1 h2]
  dsimp only
  rw [childBody, childUdl_none hudl]
  dsimp only
  rw [eval_bind, childSpecial, findSpecial_skip]
  · rfl
  · rintro i hi ⟨ha, hb, hc⟩
    have := hsp i hi (special_introduces ha hb hc)
    rw [ha] at this
    exact nomatch this

/-- The path with one segment. -/
theorem resolveRef_one {p : RPath} {ident ns k q} (hp : p ≠ [])
    (h : childRef ir k p ident ns = .ok q) : resolveRef ir k p ⟨false, [ident]⟩ ns = .ok q := by
  unfold resolveRef resolve
  have : p.isEmpty = false := by cases p <;> simp_all
  simp only [this, Bool.or_false]
  simp only [Bool.false_eq_true, if_false]
  rw [eval_bind]
  have h' : (lookup p ident (segNs [] ns)).eval (childRef ir k) = _ := h
  rw [h']
  rfl

theorem resolveRef_one_err {p : RPath} {ident ns k e} (hp : p ≠ []) (he : e ≠ .notFound)
    (h : childRef ir k p ident ns = .error e) : resolveRef ir k p ⟨false, [ident]⟩ ns = .error e := by
  unfold resolveRef resolve
  have : p.isEmpty = false := by cases p <;> simp_all
  simp only [this, Bool.or_false]
  simp only [Bool.false_eq_true, if_false]
  rw [eval_bind]
  have h' : (lookup p ident (segNs [] ns)).eval (childRef ir k) = _ := h
  rw [h']
  cases e <;> first | exact absurd rfl he | rfl

/-- The loop over glob imports, when each one finds nothing or the item at `q`. -/
theorem scanGlobs_agree {p : RPath} {ident : Ident} {ns : Ns} {k : Nat} {q : RPath} :
    ∀ {gs : List Path} {found : Option RPath}, (found = none ∨ found = some q) →
    (∀ g ∈ gs, resolveRef ir k p ⟨g.leading, g.segs ++ [ident.unraw]⟩ ns = .error .notFound ∨
      resolveRef ir k p ⟨g.leading, g.segs ++ [ident.unraw]⟩ ns = .ok q) →
    ∃ r, (scanGlobs ir p ident.unraw ns found gs).eval (childRef ir k) = .ok r ∧
      (found = some q → r = some q) ∧
      (∀ g ∈ gs, resolveRef ir k p ⟨g.leading, g.segs ++ [ident.unraw]⟩ ns = .ok q → r = some q)
  | [], found, hf, _ => ⟨found, rfl, fun h => h, nofun⟩
  | g :: gs, found, hf, hg => by
    have hg' := fun g' h' => hg g' (.tail _ h')
    have h0 : (resolve ir p ⟨g.leading, g.segs ++ [ident.unraw]⟩ ns).eval (childRef ir k)
        = resolveRef ir k p ⟨g.leading, g.segs ++ [ident.unraw]⟩ ns := rfl
    rcases hg g (.head _) with h | h
    · obtain ⟨r, h1, h2, h3⟩ := scanGlobs_agree hf hg'
      refine ⟨r, ?_, h2, ?_⟩
      · rw [scanGlobs, eval_bind, h0, h]; exact h1
      · intro x hx hxq
        cases hx with
        | head => rw [h] at hxq; exact nomatch hxq
        | tail _ hx => exact h3 x hx hxq
    · have hadd : addGlob p found q = .ok (some q) := by
        rcases hf with rfl | rfl
        · rfl
        · simp [addGlob, RPath.same]
      obtain ⟨r, h1, h2, h3⟩ := scanGlobs_agree (.inr rfl) hg'
      refine ⟨r, ?_, fun _ => h2 rfl, fun _ _ _ => h2 rfl⟩
      rw [scanGlobs, eval_bind, h0, h]
      dsimp only
      rw [hadd]
      exact h1

end Verif.Src
