import Verif.Meta.NamesSpec
/- Helper lemmas for symbol names. -/
namespace Verif.Meta

theorem beforeColons_cons {c : Char} {cs : List Char} (h : ∀ ds, c :: cs ≠ ':' :: ':' :: ds) :
    beforeColons (c :: cs) = c :: beforeColons cs := by
  rw [beforeColons]
  intro ds e
  intro e2; exact h ds (by rw [e, e2])

theorem replaceColons_cons {c : Char} {cs : List Char} (h : ∀ ds, c :: cs ≠ ':' :: ':' :: ds) :
    replaceColons (c :: cs) = c :: replaceColons cs := by
  rw [replaceColons]
  intro ds e
  intro e2; exact h ds (by rw [e, e2])

/-- Nothing is left to replace in the name of a crate. -/
theorem replaceColons_beforeColons (l : List Char) :
    replaceColons (beforeColons l) = beforeColons l ∧
      beforeColons (beforeColons l) = beforeColons l := by
  fun_induction beforeColons l with
  | case1 => exact ⟨rfl, rfl⟩
  | case2 => exact ⟨rfl, rfl⟩
  | case3 c cs h ih =>
    have key : ∀ ds, c :: beforeColons cs ≠ ':' :: ':' :: ds := by
      intro ds e
      obtain ⟨rfl, e1⟩ := List.cons.inj e
      clear e
      cases cs with
      | nil => simp [beforeColons] at e1
      | cons d ds' =>
        have : d ≠ ':' := by rintro rfl; exact h ds' rfl rfl
        rw [beforeColons_cons (by intro ds e; exact this (List.cons.inj e).1)] at e1
        exact this (List.cons.inj e1).1
    rw [replaceColons_cons key, beforeColons_cons key, ih.1, ih.2]
    exact ⟨rfl, rfl⟩

theorem symNamespace_eq (m : String) : symNamespace m = crateName m := by
  simp only [symNamespace, crateName, String.toList_ofList, (replaceColons_beforeColons _).1]

theorem crateName_crateName (m : String) : crateName (crateName m) = crateName m := by
  simp only [crateName, String.toList_ofList, (replaceColons_beforeColons _).2]

theorem replaceColons_crate {lib : String} (h : crateName lib = lib) :
    String.ofList (replaceColons lib.toList) = lib := by
  have := symNamespace_eq lib
  rw [symNamespace, h] at this
  exact this

theorem toList_asciiLower (s : String) : (asciiLower s).toList = s.toList.map Char.toLower := by
  simp [asciiLower]

theorem toLower_eq_underscore {c : Char} (h : c.toLower = '_') : c = '_' := by
  unfold Char.toLower at h
  split at h
  · rename_i hc
    exfalso
    have hv : (c.val + 32) = '_'.val := congrArg Char.val h
    have h1 := hc.1; have h2 := hc.2
    have e : c.val = '_'.val - 32 := by
      rw [← hv]; simp
    rw [e] at h1
    revert h1; decide
  · exact h

theorem not_mem_asciiLower {s : String} (h : '_' ∉ s.toList) : '_' ∉ (asciiLower s).toList := by
  rw [toList_asciiLower]
  intro hm
  obtain ⟨c, hc, e⟩ := List.mem_map.mp hm
  exact h (toLower_eq_underscore e ▸ hc)

/-- The part before the first separator is determined. -/
theorem split_at_sep {α : Type} {c : α} {a b x y : List α} (ha : c ∉ a) (hb : c ∉ b)
    (h : a ++ c :: x = b ++ c :: y) : a = b ∧ x = y := by
  induction a generalizing b with
  | nil =>
    cases b with
    | nil => exact ⟨rfl, (List.cons.inj h).2⟩
    | cons d ds =>
      exact absurd (List.mem_cons.mpr (.inl (List.cons.inj h).1)) hb
  | cons d ds ih =>
    cases b with
    | nil => exact absurd (List.mem_cons.mpr (.inl (List.cons.inj h).1.symm)) ha
    | cons e es =>
      obtain ⟨rfl, h1⟩ := List.cons.inj h
      obtain ⟨rfl, rfl⟩ := ih (fun m => ha (List.mem_cons_of_mem _ m))
        (fun m => hb (List.mem_cons_of_mem _ m)) h1
      exact ⟨rfl, rfl⟩

/-- The part of the name between the crate and the names of the item. -/
def Sym.tag : Sym → List Char
  | .func _ =>
    ['f', 'n', '_', 'f', 'u', 'n', 'c', '_']
  | .constructor .. =>
    ['f', 'n', '_', 'c', 'o', 'n', 's', 't', 'r', 'u', 'c', 't', 'o', 'r', '_']
  | .method .. =>
    ['f', 'n', '_', 'm', 'e', 't', 'h', 'o', 'd', '_']
  | .clone _ =>
    ['f', 'n', '_', 'c', 'l', 'o', 'n', 'e', '_']
  | .free _ =>
    ['f', 'n', '_', 'f', 'r', 'e', 'e', '_']
  | .initVtable _ =>
    ['f', 'n', '_', 'i', 'n', 'i', 't', '_', 'c', 'a', 'l', 'l', 'b', 'a', 'c', 'k', '_', 'v',
     't', 'a', 'b', 'l', 'e', '_']
  | .funcChecksum _ =>
    ['c', 'h', 'e', 'c', 'k', 's', 'u', 'm', '_', 'f', 'u', 'n', 'c', '_']
  | .constructorChecksum .. =>
    ['c', 'h', 'e', 'c', 'k', 's', 'u', 'm', '_', 'c', 'o', 'n', 's', 't', 'r', 'u', 'c', 't',
     'o', 'r', '_']
  | .methodChecksum .. =>
    ['c', 'h', 'e', 'c', 'k', 's', 'u', 'm', '_', 'm', 'e', 't', 'h', 'o', 'd', '_']

private theorem t1 : "_fn_func_".toList = '_' ::
    ['f', 'n', '_', 'f', 'u', 'n', 'c', '_'] := by
  decide +kernel
private theorem t2 : "_fn_constructor_".toList = '_' ::
    ['f', 'n', '_', 'c', 'o', 'n', 's', 't', 'r', 'u', 'c', 't', 'o', 'r', '_'] := by
  decide +kernel
private theorem t3 : "_fn_method_".toList = '_' ::
    ['f', 'n', '_', 'm', 'e', 't', 'h', 'o', 'd', '_'] := by
  decide +kernel
private theorem t4 : "_fn_clone_".toList = '_' ::
    ['f', 'n', '_', 'c', 'l', 'o', 'n', 'e', '_'] := by
  decide +kernel
private theorem t5 : "_fn_free_".toList = '_' ::
    ['f', 'n', '_', 'f', 'r', 'e', 'e', '_'] := by
  decide +kernel
private theorem t6 : "_fn_init_callback_vtable_".toList = '_' ::
    ['f', 'n', '_', 'i', 'n', 'i', 't', '_', 'c', 'a', 'l', 'l', 'b', 'a', 'c', 'k', '_', 'v',
     't', 'a', 'b', 'l', 'e', '_'] := by
  decide +kernel
private theorem t7 : "_checksum_func_".toList = '_' ::
    ['c', 'h', 'e', 'c', 'k', 's', 'u', 'm', '_', 'f', 'u', 'n', 'c', '_'] := by
  decide +kernel
private theorem t8 : "_checksum_constructor_".toList = '_' ::
    ['c', 'h', 'e', 'c', 'k', 's', 'u', 'm', '_', 'c', 'o', 'n', 's', 't', 'r', 'u', 'c', 't',
     'o', 'r', '_'] := by
  decide +kernel
private theorem t9 : "_checksum_method_".toList = '_' ::
    ['c', 'h', 'e', 'c', 'k', 's', 'u', 'm', '_', 'm', 'e', 't', 'h', 'o', 'd', '_'] := by
  decide +kernel
private theorem t0 : "_".toList = ['_'] := by decide +kernel

/-- The rest of the name. -/
def Sym.body : Sym → List Char
  | .func n | .clone n | .free n | .initVtable n | .funcChecksum n => (asciiLower n).toList
  | .constructor o n | .method o n | .constructorChecksum o n | .methodChecksum o n =>
    (asciiLower o).toList ++ '_' :: (asciiLower n).toList

theorem Sym.name_toList (crate : String) (s : Sym) :
    (s.name crate).toList =
      "uniffi_".toList ++ ((crateName crate).toList ++ '_' :: (s.tag ++ s.body)) := by
  have e1 : ∀ x y : String, (x ++ y).toList = x.toList ++ y.toList := by simp
  cases s <;>
  simp only [Sym.name, Sym.tag, Sym.body, fnSymbol, constructorSymbol, methodSymbol, cloneSymbol,
    freeSymbol, initVtableSymbol, fnChecksumSymbol, constructorChecksumSymbol, methodChecksumSymbol,
    symNamespace_eq, e1, List.append_assoc, t0, t1, t2, t3, t4, t5, t6, t7, t8, t9,
    List.cons_append, List.nil_append]

theorem Sym.tag_append {s t : Sym} {x y : List Char} (h : s.tag ++ x = t.tag ++ y) :
    s.kind = t.kind ∧ x = y := by
  cases s <;> cases t <;> simp_all [Sym.tag, Sym.kind]

theorem Sym.body_inj {s t : Sym} (k : s.kind = t.kind) (hs : s.plain) (ht : t.plain)
    (h : s.body = t.body) : s.lower = t.lower := by
  cases s <;> cases t <;> simp only [Sym.kind, reduceCtorEq, Nat.reduceEqDiff] at k <;>
    simp only [Sym.body] at h <;> simp only [Sym.lower]
  all_goals first
    | (rw [String.toList_injective h])
    | (simp only [Sym.plain] at hs ht
       obtain ⟨h1, h2⟩ := split_at_sep (not_mem_asciiLower hs) (not_mem_asciiLower ht) h
       rw [String.toList_injective h1, String.toList_injective h2])

theorem stripPrefix_append (p l : List Char) : stripPrefix p (p ++ l) = some l := by
  induction p with
  | nil => rfl
  | cons c cs ih => simp [stripPrefix, ih]

end Verif.Meta
