import Verif.Src.Syntax
/-
Conditional compilation: uniffi_parse_rs/src/compile_env.rs.
-/
namespace Verif.Src
open Verif.Meta

/-- An attribute without `#[]`: `syn::Meta`. `list` has what is between the parentheses; `none` if it is not a
list of attributes. A value is a literal, or one of the values that only defaults can have; any other
expression is `DefSrc.otherLiteral`. -/
inductive Meta where
  | path (p : Path)
  | list (p : Path) (args : Option (List Meta))
  | nameValue (p : Path) (value : DefSrc)
  deriving Repr

/-- `Meta::path`. -/
def Meta.pathOf : Meta → Path
  | .path p | .list p _ | .nameValue p _ => p

/-- `Path::is_ident`. -/
def Path.isIdent (p : Path) (name : String) : Bool := p == ⟨false, [⟨false, name⟩]⟩

/-- `CompileEnv`: compile_env.rs:14-17. The parts of the target that `check` uses, written out; `endian` and
`pointerWidth` are `none` if target_lexicon does not know them. -/
structure CompileEnv where
  arch : String
  os : String
  env : String
  vendor : String
  /-- `some true` is big. -/
  endian : Option Bool
  pointerWidth : Option Nat
  features : List String
  deriving DecidableEq, Repr

/-- An attribute that has the wrong form; a `syn::Error`. -/
inductive SynErr where
  | syn
  deriving DecidableEq, Repr

abbrev SynRes (α : Type) := Except SynErr α

/-- `parse_meta_str`: compile_env.rs:128-136. -/
def parseMetaStr : Meta → SynRes String
  | .nameValue _ (.str s) => .ok s
  | _ => .error .syn

/-- `require_list` and `parse_args_with(Punctuated::parse_terminated)`. -/
def Meta.args : Meta → SynRes (List Meta)
  | .list _ (some ms) => .ok ms
  | _ => .error .syn

/-- `parse_args::<Meta>`. -/
def Meta.arg : Meta → SynRes Meta
  | .list _ (some [m]) => .ok m
  | _ => .error .syn

mutual
/-- `check`: compile_env.rs:69-125. -/
def CompileEnv.check (e : CompileEnv) : Meta → SynRes Bool
  | .list p args =>
    if p.isIdent "all" then
      match args with
      | some ms => e.checkAll ms
      | none => .error .syn
    else if p.isIdent "any" then
      match args with
      | some ms => e.checkAny ms
      | none => .error .syn
    else if p.isIdent "not" then
      match args with
      | some [m] => do .ok (!(← e.check m))
      | _ => .error .syn
    else if ["feature", "target_arch", "target_os", "target_env", "target_vendor", "target_endian"].any p.isIdent then
      .error .syn
    else if p.isIdent "target_pointer_width" then
      match e.pointerWidth with
      | some _ => .error .syn
      | none => .ok false
    else .ok false
  | .path p =>
    if ["all", "any", "not", "feature", "target_arch", "target_os", "target_env", "target_vendor",
      "target_endian"].any p.isIdent then .error .syn
    else if p.isIdent "target_pointer_width" then
      match e.pointerWidth with
      | some _ => .error .syn
      | none => .ok false
    else .ok false
  | .nameValue p v =>
    if ["all", "any", "not"].any p.isIdent then .error .syn
    else if p.isIdent "feature" then do .ok (e.features.contains (← parseMetaStr (.nameValue p v)))
    else if p.isIdent "target_arch" then do .ok (e.arch == (← parseMetaStr (.nameValue p v)))
    else if p.isIdent "target_os" then do .ok (e.os == (← parseMetaStr (.nameValue p v)))
    else if p.isIdent "target_env" then do .ok (e.env == (← parseMetaStr (.nameValue p v)))
    else if p.isIdent "target_vendor" then do .ok (e.vendor == (← parseMetaStr (.nameValue p v)))
    else if p.isIdent "target_endian" then do
      let s ← parseMetaStr (.nameValue p v)
      match e.endian with
      | some true => .ok (s == "big")
      | some false => .ok (s == "little")
      | none => .ok false
    else if p.isIdent "target_pointer_width" then
      match e.pointerWidth with
      | some n => do .ok (toString n == (← parseMetaStr (.nameValue p v)))
      | none => .ok false
    else .ok false
/-- The loop for `all`: compile_env.rs:77-82. -/
def CompileEnv.checkAll (e : CompileEnv) : List Meta → SynRes Bool
  | [] => .ok true
  | m :: ms => do if ← e.check m then e.checkAll ms else .ok false
/-- The loop for `any`: compile_env.rs:88-93. -/
def CompileEnv.checkAny (e : CompileEnv) : List Meta → SynRes Bool
  | [] => .ok false
  | m :: ms => do if ← e.check m then .ok true else e.checkAny ms
end

/-- `parse_attrs`: compile_env.rs:41-66. -/
def CompileEnv.parseAttrs (e : CompileEnv) : List Meta → SynRes (Option (List Meta))
  | [] => .ok (some [])
  | a :: as =>
    if a.pathOf.isIdent "cfg" then do
      if ← e.check (← a.arg) then e.parseAttrs as else .ok none
    else if a.pathOf.isIdent "cfg_attr" then do
      match ← a.args with
      | [] => .error .syn
      | pred :: metas => do
        let metas := if ← e.check pred then metas else []
        .ok ((← e.parseAttrs as).map (metas ++ ·))
    else do .ok ((← e.parseAttrs as).map (a :: ·))

end Verif.Src
