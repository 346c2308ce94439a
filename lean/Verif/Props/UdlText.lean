import Verif.Udl.TextChar
import Verif.Udl.TextTok2
import Verif.Udl.Collect
/-
C81: the text of an interface definition file is read as what it says, whatever its layout.
-/
namespace Verif.Props.UdlText
open Verif.Udl Verif.Udl.File Verif.Udl.Parse Verif.Udl.TextSpec Verif.Udl.TextTok Verif.Udl.TextComm Verif.Udl.TextChar

theorem isWhite_iff (c : Char) : isWhite c = true ↔ white c := by
  simp only [isWhite, white, Bool.or_eq_true, Bool.and_eq_true, decide_eq_true_eq, List.contains_iff_mem, or_assoc]

theorem dropWhite {w s : Text} (hw : ∀ c ∈ w, white c) (hs : ∀ c, s.head? = some c → ¬ white c) :
    (w ++ s).dropWhile isWhite = s := by
  refine (takeWhile_append (fun c hc => (isWhite_iff c).2 (hw c hc)) fun c hc => ?_).2
  have := hs c hc
  cases e : isWhite c with
  | false => rfl
  | true => exact absurd ((isWhite_iff c).1 e) this

theorem trim_white {w1 s w2 : Text} (h1 : ∀ c ∈ w1, white c) (h2 : ∀ c ∈ w2, white c)
    (hh : ∀ c, s.head? = some c → ¬ white c) (hl : ∀ c, s.getLast? = some c → ¬ white c) :
    trim (w1 ++ s ++ w2) = s := by
  match s, hh, hl with
  | [], _, _ =>
    have : ((w1 ++ [] ++ w2).dropWhile isWhite) = [] := by
      have := dropWhite (w := w1 ++ [] ++ w2) (s := []) (by
        intro c hc
        simp only [List.append_nil, List.mem_append] at hc
        exact hc.elim (h1 c) (h2 c)) (by simp)
      rwa [List.append_nil] at this
    rw [trim, this]
    rfl
  | d :: s, hh, hl =>
    have e1 : (w1 ++ d :: s ++ w2).dropWhile isWhite = d :: s ++ w2 := by
      rw [List.append_assoc]
      exact dropWhite h1 (by simpa using hh)
    have e2 : ((d :: s ++ w2).reverse).dropWhile isWhite = (d :: s).reverse := by
      rw [List.reverse_append]
      exact dropWhite (by simpa using h2) (by rw [List.head?_reverse]; exact hl)
    rw [trim, e1, e2, List.reverse_reverse]

theorem spells_length {ts : List Tok} {s : Text} (h : Spells ts s) : ts.length ≤ s.length := by
  induction h with
  | nil => exact Nat.le_refl _
  | cons hw _ _ _ _ ih =>
    obtain ⟨c, cs, rfl, _⟩ := written_first hw
    simp only [List.length_cons, List.length_append]
    omega

/-- Text that spells the tokens of a list of definitions is read as these definitions: nothing is lost,
added, or put in another place. -/
theorem C81_read {ds : List Def} {ts : List Tok} {s : Text} (hl : Laid ts s) (hw : FileW ds ts) :
    parse s = some ds := by
  obtain ⟨w1, gap, core, w2, rfl, h1, h2, hh, hlast, hg, hs, hnil⟩ := hl
  have hlen := spells_length hs
  have hr : Rel ts (gap ++ core) := by
    refine ⟨gap, core, rfl, hg, hs, fun e => hnil (.inl e), fun e => ?_⟩
    rw [hnil (.inr e)]
    simp
  have hok := file_ok (n := (gap ++ core).length + 1) hw (by rw [List.length_append]; omega)
  have hc := c_definitions (n := (gap ++ core).length + 1) basic ts (gap ++ core) hr
  rw [hok] at hc
  obtain ⟨s', e, gap', core', rfl, _, hs', hn', _⟩ := hc
  cases hs'
  rw [hn' rfl] at e
  rw [parse, trim_white h1 h2 hh hlast, e]
  rfl

/-- White space, line breaks and comments do not matter: two texts with the same tokens are read alike. -/
theorem C81_layout {ds : List Def} {ts : List Tok} {s s' : Text} (hl : Laid ts s) (hl' : Laid ts s')
    (hw : FileW ds ts) : parse s = parse s' := by
  rw [C81_read hl hw, C81_read hl' hw]

/-- Text says one thing only. -/
theorem C81_unambiguous {ds ds' : List Def} {ts ts' : List Tok} {s : Text} (hl : Laid ts s) (hl' : Laid ts' s)
    (hw : FileW ds ts) (hw' : FileW ds' ts') : ds = ds' := by
  have := C81_read hl hw
  rw [C81_read hl' hw'] at this
  simpa using this.symm

/-- `from_webidl`: collectors.rs:29-74. -/
def fromWebidl (crate : String) (s : Text) : Res UGroup :=
  match parse s with
  | none => bail
  | some ds => fromDefinitions crate ds

/-- The metadata of a file is that of the definitions it says, whatever its layout. -/
theorem C81_metadata {ds : List Def} {ts : List Tok} {s s' : Text} (crate : String) (hl : Laid ts s)
    (hl' : Laid ts s') (hw : FileW ds ts) :
    fromWebidl crate s = fromDefinitions crate ds ∧ fromWebidl crate s = fromWebidl crate s' := by
  simp only [fromWebidl, C81_read hl hw, C81_read hl' hw]
  exact ⟨trivial, trivial⟩

/-! ### A file -/

/-- The example below as text. -/
def demo : Text :=
  "// A demo.\nnamespace demo {\n  /// Says hello.\n  [Throws=Oops] sequence<string>? hello(optional u32 n = 0x1F); };\n".toList

def demoToks : List Tok :=
  [key "namespace", key "demo", sym "{", .doc " Says hello.", sym "[", key "Throws", sym "=", key "Oops", sym "]",
   key "sequence", sym "<", key "string", sym ">", sym "?", key "hello", sym "(", key "optional", key "u32", key "n",
   sym "=", .int "0x1F".toList, sym ")", sym ";", sym "}", sym ";"]

def demoDef : Def :=
  .namespace_ none none "demo"
    [.op ⟨some " Says hello.", some [.ident "Throws" false "Oops"], none, false,
      .ty (.sequence (.identifier "string" false) true), some "hello",
      [.single none true false (.identifier "u32" false) "n" (some (.integer "0x1F".toList))]⟩]

theorem demo_written : FileW [demoDef] demoToks := by
  have hty : TyW (.sequence (.identifier "string" false) true)
      [key "sequence", sym "<", key "string", sym ">", sym "?"] :=
    .sequence (ts := [key "string"]) true (.named false false (.inr (by decide)))
  have harg : ArgW (.single none true false (.identifier "u32" false) "n" (some (.integer "0x1F".toList)))
      [key "optional", key "u32", key "n", sym "=", .int "0x1F".toList] :=
    .optional (ts := []) (us := [key "u32"]) (vs := [key "n"]) (xs := [sym "=", .int "0x1F".toList]) .none
      (.named false false (.inr (by decide))) ⟨false, rfl⟩ (.some ⟨_, rfl, .integer _⟩)
  have hattrs : AttrsW (some [.ident "Throws" false "Oops"])
      [sym "[", key "Throws", sym "=", key "Oops", sym "]"] :=
    .some ⟨[key "Throws", sym "=", key "Oops"], rfl,
      .some (.one (.ident (ts := [key "Throws"]) (us := [key "Oops"]) ⟨false, rfl⟩ ⟨false, rfl⟩))⟩
  have hop := OpW.mk (d := some " Says hello.") (n := some "hello") none (.some rfl) hattrs (.ty hty)
    (.some (⟨false, rfl⟩ : Name "hello" [key "hello"])) ⟨_, .some (.one harg), rfl⟩
  have hbody : All NsMemberW _ _ := .cons (.op hop rfl) .nil
  exact .cons (us := []) (DefW.namespace_ hbody ⟨[], [], [key "demo"], [], .none, .none, ⟨false, rfl⟩, .inl ⟨rfl, rfl⟩, rfl⟩) .nil

theorem gap_ok {gap : Text} (h : gap.all isSpace = true) : Trivia gap := by
  induction gap with
  | nil => exact .nil
  | cons c gap ih =>
    simp only [List.all_cons, Bool.and_eq_true] at h
    exact .space ((isSpace_iff c).1 h.1) (ih h.2)

theorem put_word {n : String} {gap s : Text} {ts : List Tok} (hs : Spells ts s)
    (h1 : n.toList.head?.map Char.isAlpha = some true) (h2 : n.toList.all isWordChar = true)
    (hg : gap.all isSpace = true) (hc : (gap ++ s).head?.map isWordChar ≠ some true) :
    Spells (key n :: ts) (n.toList ++ gap ++ s) := by
  match e : n.toList, h1, h2 with
  | c :: cs, h1, h2 =>
    have := Written.word false (c := c) (cs := cs) (by simpa using h1) (by
      intro d hd
      exact (isWordChar_iff d).1 (List.all_eq_true.1 h2 d (List.mem_cons_of_mem _ hd)))
    rw [← e, String.ofList_toList] at this
    refine .cons (by rw [← e]; exact this) (gap_ok hg) hs (fun d hd hw => hc ?_) (fun h => absurd h (fun h => h))
    rw [hd, Option.map_some, (isWordChar_iff d).2 hw]

theorem put_sym {n : String} {gap s : Text} {ts : List Tok} (hs : Spells ts s) (h1 : n ∈ symbols)
    (hg : gap.all isSpace = true) : Spells (sym n :: ts) (n.toList ++ gap ++ s) :=
  .cons (.punct h1) (gap_ok hg) hs (fun _ _ h => h) (fun h => absurd h (fun h => h))

theorem demo_laid : Laid demoToks demo := by
  have t0 : Spells [] [] := .nil
  have t1 := put_sym (n := ";") (gap := []) t0 (by decide) rfl
  have t2 := put_sym (n := "}") (gap := []) t1 (by decide) rfl
  have t3 := put_sym (n := ";") (gap := [' ']) t2 (by decide) rfl
  have t4 := put_sym (n := ")") (gap := []) t3 (by decide) rfl
  have t5 := Spells.cons (t := .int "0x1F".toList) (gap := [])
    (.int (.hex (m := []) (x := 'x') (ds := ['1', 'F']) (.inl rfl) (.inl rfl) (by decide) (by
      intro c hc
      simp only [List.mem_cons, List.not_mem_nil, or_false] at hc
      rcases hc with rfl | rfl
      · exact .inl (by decide)
      · exact .inr (.inr (by decide))))) .nil t4 (by
        intro c hc
        have : some ')' = some c := hc
        cases this
        show ¬ (_ ∨ _ ∨ _)
        decide) (fun h => absurd h (fun h => h))
  have t6 := put_sym (n := "=") (gap := [' ']) t5 (by decide) rfl
  have t7 := put_word (n := "n") (gap := [' ']) t6 (by decide) (by decide) rfl (by decide)
  have t8 := put_word (n := "u32") (gap := [' ']) t7 (by decide) (by decide) rfl (by decide)
  have t9 := put_word (n := "optional") (gap := [' ']) t8 (by decide) (by decide) rfl (by decide)
  have t10 := put_sym (n := "(") (gap := []) t9 (by decide) rfl
  have t11 := put_word (n := "hello") (gap := []) t10 (by decide) (by decide) rfl (by decide)
  have t12 := put_sym (n := "?") (gap := [' ']) t11 (by decide) rfl
  have t13 := put_sym (n := ">") (gap := []) t12 (by decide) rfl
  have t14 := put_word (n := "string") (gap := []) t13 (by decide) (by decide) rfl (by decide)
  have t15 := put_sym (n := "<") (gap := []) t14 (by decide) rfl
  have t16 := put_word (n := "sequence") (gap := []) t15 (by decide) (by decide) rfl (by decide)
  have t17 := put_sym (n := "]") (gap := [' ']) t16 (by decide) rfl
  have t18 := put_word (n := "Oops") (gap := []) t17 (by decide) (by decide) rfl (by decide)
  have t19 := put_sym (n := "=") (gap := []) t18 (by decide) rfl
  have t20 := put_word (n := "Throws") (gap := []) t19 (by decide) (by decide) rfl (by decide)
  have t21 := put_sym (n := "[") (gap := []) t20 (by decide) rfl
  have t22 := Spells.cons (t := .doc " Says hello.") (gap := [' ', ' '])
    (.doc (ls := [" Says hello.".toList]) (.one (by decide))) (gap_ok rfl) t21 (fun _ _ h => h)
    (fun _ => ⟨by simp, fun h => h⟩)
  have t23 := put_sym (n := "{") (gap := ['\n', ' ', ' ']) t22 (by decide) rfl
  have t24 := put_word (n := "demo") (gap := [' ']) t23 (by decide) (by decide) rfl (by decide)
  have t25 := put_word (n := "namespace") (gap := [' ']) t24 (by decide) (by decide) rfl (by decide)
  refine ⟨[], "// A demo.\n".toList, _, ['\n'], ?_, by simp, ?_, ?_, ?_, ?_, t25, ?_⟩
  · rfl
  · intro c hc
    simp only [List.mem_cons, List.not_mem_nil, or_false] at hc
    subst hc
    left; decide
  · intro c hc
    have : some '/' = some c := hc
    cases this
    unfold white
    decide
  · intro c hc
    have : some ';' = some c := hc
    cases this
    unfold white
    decide
  · exact .line (l := " A demo.".toList) (by decide) (by decide) .nil
  · rintro (h | h)
    · cases h
    · exact absurd h (fun h => h)

/-- A file that meets the conditions. -/
example : ∃ ds ts s, Laid ts s ∧ FileW ds ts ∧ ds ≠ [] :=
  ⟨_, _, _, demo_laid, demo_written, by simp⟩

example : parse demo = some [demoDef] := C81_read demo_laid demo_written

/-! ### Files that are not read as one would expect -/

/-- A file that ends with a line comment is refused: the end of the line goes away before the file is read,
and a comment needs it. Without the comment, or with another kind of comment, the file is read. -/
theorem C81_last_comment_broken :
    (parse "namespace a {};\n// b\n".toList).isNone = true ∧
    (parse "namespace a {};\n/* b */\n".toList).isSome = true ∧
    (parse "namespace a {};\n".toList).isSome = true := by
  set_option maxRecDepth 10000 in decide

/-- A file of nothing but a comment is refused, one of nothing is read. -/
theorem C81_only_comment_broken :
    (parse "// b\n".toList).isNone = true ∧ (parse "/* b */".toList).isNone = true ∧
    (parse "".toList).isSome = true := by
  set_option maxRecDepth 10000 in decide

/-- A comment before documentation is refused at the beginning of the file; anywhere else it is allowed, and
so is a comment before something without documentation. -/
theorem C81_comment_then_doc_broken :
    (parse "// b\n/// c\nnamespace a {};".toList).isNone = true ∧
    (parse "// b\nnamespace a {};".toList).isSome = true ∧
    (parse "namespace a {\n// b\n/// c\nu8 f();\n};".toList).isSome = true := by
  set_option maxRecDepth 10000 in decide

/-- A comment between lines of documentation is refused. -/
theorem C81_comment_in_doc_broken :
    (parse "/// b\n// c\n/// d\nnamespace a {};".toList).isNone = true ∧
    (parse "/// b\n/// d\nnamespace a {};".toList).isSome = true := by
  set_option maxRecDepth 10000 in decide

/-- The type that a typedef is for, if it is a name. -/
def typedefName : Option (List Def) → Option String
  | some [.typedef _ _ (.identifier n _) _] => some n
  | _ => none

/-- A type called `Error` is not read as a name, although nothing is wrong with it as the name of a
definition; with an underscore before it, it is. -/
theorem C81_name_broken :
    (parse "typedef Error E;".toList).isSome = true ∧ typedefName (parse "typedef Error E;".toList) = none ∧
    typedefName (parse "typedef _Error E;".toList) = some "Error" ∧
    typedefName (parse "typedef Errors E;".toList) = some "Errors" ∧
    (parse "dictionary Error {};".toList).isSome = true := by
  set_option maxRecDepth 10000 in decide

end Verif.Props.UdlText
