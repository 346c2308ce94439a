import Verif.Src.TypesLemmas
import Verif.Src.Places
namespace Verif.Src
open Verif.Meta

variable {ir : Ir}

/-! ### More fuel does not change the result -/

/-- The second computation does what the first does, unless that runs out of fuel. -/
def Le {α : Type} (m m' : M α) : Prop := ∀ c, (m c).1 ≠ .error .fuel → m' c = m c

theorem le_refl {α : Type} {m : M α} : Le m m := fun _ _ => rfl

theorem le_bind {α β : Type} {m m' : M α} {f f' : α → M β} (hm : Le m m') (hf : ∀ a, Le (f a) (f' a)) :
    Le (m.bind f) (m'.bind f') := by
  intro c hne
  have h : (m c).1 ≠ .error .fuel := by
    intro h
    apply hne
    unfold M.bind
    split
    · rename_i h'; rw [h'] at h; exact nomatch h
    · rename_i h'; rw [h'] at h; cases h; rfl
  unfold M.bind at hne ⊢
  rw [hm c h]
  split
  · rename_i a c' h'
    rw [h'] at hne
    exact hf a c' hne
  · rfl

theorem le_checkEmpty {α : Type} {args : List Ty} {m m' : M α} (h : Le m m') : Le (checkEmpty args m) (checkEmpty args m') := by
  unfold checkEmpty; split
  · exact h
  · exact le_refl

section
variable {rec rec' : Rec} (h : ∀ p ty seen env, Le (rec p ty seen env) (rec' p ty seen env))
include h

theorem le_arg {p env arg} : Le (resolveArg rec p env arg) (resolveArg rec' p env arg) := by
  unfold resolveArg
  split
  · split
    · exact le_refl
    · exact h _ _ _ _
  · exact h _ _ _ _

theorem le_params {q p env} : ∀ {ps args}, Le (resolveParams rec q p env ps args) (resolveParams rec' q p env ps args)
  | [], _ => by rw [resolveParams, resolveParams]; exact le_refl
  | (x, d) :: ps, arg :: args => by
    rw [resolveParams, resolveParams]
    exact le_bind (le_arg h) fun t => le_bind le_params fun _ => le_refl
  | (x, some d) :: ps, [] => by
    rw [resolveParams, resolveParams]
    exact le_bind (h _ _ _ _) fun t => le_bind le_params fun _ => le_refl
  | (x, none) :: ps, [] => by rw [resolveParams, resolveParams]; exact le_refl

theorem le_generics {q p env ps args} :
    Le (resolveGenerics rec q p env ps args) (resolveGenerics rec' q p env ps args) := by
  unfold resolveGenerics; split
  · exact le_refl
  · exact le_params h

theorem le_1 {p env f args} : Le (resolve1 rec p env f args) (resolve1 rec' p env f args) := by
  unfold resolve1; split
  · exact le_bind (le_arg h) fun _ => le_refl
  · exact le_refl

theorem le_2 {p env f args} : Le (resolve2 rec p env f args) (resolve2 rec' p env f args) := by
  unfold resolve2; split
  · exact le_bind (le_arg h) fun _ => le_bind (le_arg h) fun _ => le_refl
  · exact le_refl

theorem le_builtin {p env args b} : Le (resolveBuiltin rec p env args b) (resolveBuiltin rec' p env args b) := by
  cases b <;> first | exact le_refl | exact le_1 h | exact le_2 h

theorem le_item {p args seen env q} : Le (resolveItem ir rec p args seen env q) (resolveItem ir rec' p args seen env q) := by
  unfold resolveItem
  split
  · exact le_refl
  · exact le_refl
  · exact le_refl
  · exact le_refl
  · split
    · exact le_refl
    · split
      · exact le_refl
      · exact le_bind (le_generics h) fun _ => h _ _ _ _
  · exact le_builtin h
  · exact le_refl
  · split
    · exact le_refl
    · exact le_bind (h _ _ _ _) fun _ => le_refl
  · exact le_refl
  · exact le_refl

end

theorem le_succ : ∀ n p ty seen env, Le (resolveTy ir n p ty seen env) (resolveTy ir (n + 1) p ty seen env) := by
  intro n
  induction n with
  | zero => intro p ty seen env c h; exact absurd rfl h
  | succ n ih =>
    intro p ty seen env
    cases ty with
    | reference => exact le_bind (ih _ _ _ _) fun _ => le_refl
    | slice => exact le_bind (ih _ _ _ _) fun _ => le_refl
    | unit => exact le_refl
    | other => exact le_refl
    | dyn bounds =>
      match bounds with
      | [] => exact le_refl
      | [_] => exact le_refl
      | _ :: _ :: _ => exact le_refl
    | path path args =>
      rw [resolveTy, resolveTy]
      split
      · exact le_refl
      · exact le_bind le_refl fun q => le_item ih

theorem le_fuel {n m p ty seen env} (h : n ≤ m) : Le (resolveTy ir n p ty seen env) (resolveTy ir m p ty seen env) := by
  induction h with
  | refl => exact le_refl
  | step _ ih =>
    intro c hne
    have := ih c hne
    rw [← this] at hne ⊢
    exact le_succ _ _ _ _ _ c hne

/-! ### Types do not lead further and further -/

mutual
/-- The number of types in a type. -/
def Ty.size : Ty → Nat
  | .path _ args => tysSize args + 1
  | .reference _ t => t.size + 1
  | .slice t => t.size + 1
  | _ => 1
def tysSize : List Ty → Nat
  | [] => 0
  | t :: ts => t.size + tysSize ts
end

theorem size_mem {arg : Ty} : ∀ {args : List Ty}, arg ∈ args → arg.size ≤ tysSize args
  | _ :: _, .head _ => by rw [tysSize]; omega
  | _ :: _, .tail _ h => by rw [tysSize]; have := size_mem h; omega

/-- The types in a declaration. -/
def Item.tys : Item → List Ty
  | .decl _ (.alias ps target) _ _ _ _ => target :: ps.filterMap (·.2)
  | .decl _ (.custom b) _ _ _ _ => [b]
  | _ => []

/-- All types in declarations. -/
def Ir.tys (ir : Ir) : List Ty := ir.places.flatMap fun p => match p.getLast? with
  | some i => i.tys
  | none => []

theorem tys_mem {q : RPath} {i : Item} {ty : Ty} (hq : Canon ir (q ++ [i])) (h : ty ∈ i.tys) : ty ∈ ir.tys := by
  rcases canon_places hq with hp | ⟨b, hb⟩
  · exact List.mem_flatMap.2 ⟨_, hp, by rw [List.getLast?_concat]; exact h⟩
  · cases q with
    | nil => cases hb; exact nomatch h
    | cons _ as => cases as <;> exact nomatch hb

section
variable {rec : Rec} {I : FullCache → Prop}

/-- The computation does not run out of fuel. -/
abbrev EndsM {α : Type} (I : FullCache → Prop) (m : M α) : Prop := Sat I m (fun _ => True) (· ≠ .fuel)

theorem ends_pure {α : Type} {a : α} : EndsM I (.pure a) := sat_pure trivial
theorem ends_bind {α β : Type} {m : M α} {f : α → M β} (hm : EndsM I m) (hf : ∀ a, EndsM I (f a)) : EndsM I (m.bind f) :=
  sat_bind hm fun a _ => hf a

theorem ends_arg {p : RPath} {env : Env} {arg : Ty} (h : EndsM I (rec p arg [] [])) : EndsM I (resolveArg rec p env arg) := by
  unfold resolveArg
  split
  · split
    · exact ends_pure
    · exact h
  · exact h

theorem ends_params {q p : RPath} {env : Env} : ∀ (ps : List (Ident × Option Ty)) (args : List Ty),
    (∀ arg ∈ args, EndsM I (rec p arg [] [])) → (∀ x d, (x, some d) ∈ ps → EndsM I (rec q d [] [])) →
    EndsM I (resolveParams rec q p env ps args)
  | [], _, _, _ => by rw [resolveParams]; exact ends_pure
  | (x, d) :: ps, arg :: args, h1, h2 => by
    rw [resolveParams]
    exact ends_bind (ends_arg (h1 _ (.head _))) fun t => ends_bind
      (ends_params ps args (fun a h => h1 a (.tail _ h)) fun x d h => h2 x d (.tail _ h)) fun _ => ends_pure
  | (x, some d) :: ps, [], h1, h2 => by
    rw [resolveParams]
    exact ends_bind (h2 _ _ (.head _)) fun t => ends_bind
      (ends_params ps [] nofun fun x d h => h2 x d (.tail _ h)) fun _ => ends_pure
  | (x, none) :: ps, [], h1, h2 => by rw [resolveParams]; exact sat_fail nofun

theorem ends_generics {q p : RPath} {env : Env} {ps : List (Ident × Option Ty)} {args : List Ty}
    (h1 : ∀ arg ∈ args, EndsM I (rec p arg [] [])) (h2 : ∀ x d, (x, some d) ∈ ps → EndsM I (rec q d [] [])) :
    EndsM I (resolveGenerics rec q p env ps args) := by
  unfold resolveGenerics; split
  · exact sat_fail nofun
  · exact ends_params ps args h1 h2

theorem ends_1 {p : RPath} {env : Env} {f : STy → STy} {args : List Ty} (h : ∀ arg ∈ args, EndsM I (rec p arg [] [])) :
    EndsM I (resolve1 rec p env f args) := by
  unfold resolve1; split
  · exact ends_bind (ends_arg (h _ (.head _))) fun _ => ends_pure
  · exact sat_fail nofun

theorem ends_2 {p : RPath} {env : Env} {f : STy → STy → STy} {args : List Ty}
    (h : ∀ arg ∈ args, EndsM I (rec p arg [] [])) : EndsM I (resolve2 rec p env f args) := by
  unfold resolve2; split
  · exact ends_bind (ends_arg (h _ (.head _))) fun _ =>
      ends_bind (ends_arg (h _ (.tail _ (.head _)))) fun _ => ends_pure
  · exact sat_fail nofun

theorem ends_builtin {p : RPath} {env : Env} {args : List Ty} {b : Builtin}
    (h : ∀ arg ∈ args, EndsM I (rec p arg [] [])) : EndsM I (resolveBuiltin rec p env args b) := by
  cases b <;> first
    | exact ends_1 h
    | exact ends_2 h
    | exact sat_checkEmpty nofun fun _ => ends_pure
    | exact sat_checkEmpty nofun fun _ => sat_fail nofun

end

theorem ends_item (hu : ir.Unique) (hr : ir.RootsModules) {rec : Rec}
    {p : RPath} {args : List Ty} {seen : List String} {env : Env} {q : RPath} (hq : Canon ir q)
    (hargs : ∀ arg ∈ args, EndsM (FullReach ir) (rec p arg [] []))
    (halias : ∀ q' id ps target ident vis attr remote, q = q' ++ [.decl id (.alias ps target) ident vis attr remote] →
      Canon ir q' → (∀ x d, (x, some d) ∈ ps → EndsM (FullReach ir) (rec q' d [] [])) ∧
      (pathString q ∉ seen → ∀ env, EndsM (FullReach ir) (rec q' target (pathString q :: seen) env)))
    (hcustom : ∀ q' id builtin ident vis attr remote, q = q' ++ [.decl id (.custom builtin) ident vis attr remote] →
      Canon ir q' → EndsM (FullReach ir) (rec q' builtin seen [])) :
    EndsM (FullReach ir) (resolveItem ir rec p args seen env q) := by
  have pub : ∀ {id k ident vis attr remote} {f : ItemNames → STy},
      q.getLast? = some (.decl id k ident vis attr remote) → k.exportable = true →
      EndsM (FullReach ir) (checkEmpty args ((M.publicPath ir q).bind fun n => .pure (f n))) := by
    intro id k ident vis attr remote f hl hk
    refine sat_checkEmpty nofun fun _ => sat_bind (Q := fun _ => True) ?_ fun _ _ => sat_pure trivial
    intro c hc
    refine ⟨.publicPath hc hq (canon_isDecl hr hq hl hk), fun _ _ => trivial, fun e he => ?_⟩
    rintro rfl
    rcases publicPathTop_plain hu hq hc he with h | h <;> exact nomatch h
  unfold resolveItem
  split
  · exact sat_fail nofun
  · rename_i hl; exact pub hl rfl
  · rename_i hl; exact pub hl rfl
  · rename_i hl; exact pub hl rfl
  · rename_i ps target _ _ _ _ hl
    obtain ⟨q', _, _, _, _, rfl, hq', hm⟩ := canon_decl hr hq hl
    have := halias _ _ _ _ _ _ _ _ rfl hq'
    split
    · exact sat_fail nofun
    · rename_i hs
      rw [parent_concat (by rintro rfl; exact nomatch hm)]
      exact ends_bind (ends_generics hargs this.1) fun env => this.2 hs env
  · exact ends_builtin hargs
  · exact sat_fail nofun
  · rename_i hl
    obtain ⟨q', _, _, _, _, rfl, hq', hm⟩ := canon_decl hr hq hl
    rw [parent_concat (by rintro rfl; exact nomatch hm)]
    exact ends_bind (hcustom _ _ _ _ _ _ _ rfl hq') fun _ => ends_pure
  · exact ends_pure
  · exact sat_fail nofun

/-- Everything in the type is below `R`. -/
def AllLt (ir : Ir) (rank : RPath → Nat) (p : RPath) (ty : Ty) (R : Nat) : Prop :=
  ∀ path r, Within path ty → Denotes ir p path .type r → rank r < R

/-- The head of the type is at most `R`, the arguments are below. -/
def HeadLe (ir : Ir) (rank : RPath → Nat) (p : RPath) (ty : Ty) (R : Nat) : Prop :=
  (∀ path r, Head path ty → Denotes ir p path .type r → rank r ≤ R) ∧
  ∀ path r, InArg path ty → Denotes ir p path .type r → rank r < R

theorem resolveTy_ends (hu : ir.Unique) (hr : ir.RootsModules) {rank : RPath → Nat} {bound : Nat} (hrank : Ranked ir rank bound) {S : Nat}
    (hS : ∀ t ∈ ir.tys, t.size ≤ S) : ∀ n p ty seen env, Canon ir p → ty.size ≤ S → seen.Nodup →
    seen ⊆ ir.places.map pathString →
    (∀ R, AllLt ir rank p ty R → R * ((S + 1) * (ir.places.length + 2)) + ty.size < n →
      EndsM (FullReach ir) (resolveTy ir n p ty seen env)) ∧
    (∀ R, HeadLe ir rank p ty R →
      R * ((S + 1) * (ir.places.length + 2)) + (S + 1) + (ir.places.length - seen.length) * (S + 1) + ty.size < n →
      EndsM (FullReach ir) (resolveTy ir n p ty seen env)) := by
  intro n
  induction n with
  | zero => intros; exact ⟨fun R _ h => absurd h (by omega), fun R _ h => absurd h (by omega)⟩
  | succ n ih =>
    intro p ty seen env hp hsize hnd hsub
    cases ty with
    | unit => exact ⟨fun _ _ _ => ends_pure, fun _ _ _ => ends_pure⟩
    | other => exact ⟨fun _ _ _ => sat_fail nofun, fun _ _ _ => sat_fail nofun⟩
    | reference mutable t =>
      have hs : (Ty.reference mutable t).size = t.size + 1 := by rw [Ty.size]
      rw [hs] at hsize ⊢
      have := ih p t seen env hp (by omega) hnd hsub
      refine ⟨fun R h hn => ?_, fun R h hn => ?_⟩
      · exact ends_bind (this.1 R (fun a b c => h a b (.reference c)) (by omega)) fun _ => ends_pure
      · exact ends_bind (this.2 R ⟨fun a b c => h.1 a b (.reference c), fun a b c => h.2 a b (.reference c)⟩
          (by omega)) fun _ => ends_pure
    | slice t =>
      have hs : (Ty.slice t).size = t.size + 1 := by rw [Ty.size]
      rw [hs] at hsize ⊢
      have := ih p t seen env hp (by omega) hnd hsub
      refine ⟨fun R h hn => ?_, fun R h hn => ?_⟩
      · exact ends_bind (this.1 R (fun a b c => h a b (.slice c)) (by omega)) fun _ => ends_pure
      · exact ends_bind (this.2 R ⟨fun a b c => h.1 a b (.slice c), fun a b c => h.2 a b (.slice c)⟩
          (by omega)) fun _ => ends_pure
    | dyn bounds =>
      have : EndsM (FullReach ir) (resolveTy ir (n + 1) p (.dyn bounds) seen env) := by
        match bounds with
        | [] => exact sat_fail nofun
        | _ :: _ :: _ => exact sat_fail nofun
        | [path] =>
          refine sat_bind (resolve_sat hu path hp (lookupErrors _ fun _ h => h)) fun q _ => ?_
          unfold resolveDyn
          split
          · exact sat_fail nofun
          · exact ends_pure
          · exact ends_pure
          · exact ends_pure
          · exact sat_fail nofun
      exact ⟨fun _ _ _ => this, fun _ _ _ => this⟩
    | path path args =>
      have hs : (Ty.path path args).size = tysSize args + 1 := by rw [Ty.size]
      rw [hs] at hsize ⊢
      -- what is behind a name of rank `R'`
      have key : ∀ (R' : Nat), (∀ r, Denotes ir p path .type r → rank r ≤ R') →
          (∀ arg ∈ args, EndsM (FullReach ir) (resolveTy ir n p arg [] [])) →
          R' * ((S + 1) * (ir.places.length + 2)) + (S + 1) + (ir.places.length - seen.length) * (S + 1) ≤ n →
          EndsM (FullReach ir) (resolveTy ir (n + 1) p (.path path args) seen env) := by
        intro R' hhead hargs hn
        rw [resolveTy]
        split
        · exact ends_pure
        refine sat_bind (resolve_sat hu path hp (lookupErrors _ fun _ h => h)) fun q hq => ?_
        have hrq := hhead q hq.2
        have hmul : rank q * ((S + 1) * (ir.places.length + 2)) ≤ R' * ((S + 1) * (ir.places.length + 2)) :=
          Nat.mul_le_mul_right _ hrq
        refine ends_item hu hr hq.1 hargs ?_ ?_
        · rintro q' id ps target ident vis attr remote rfl hq'
          have hts : ∀ t ∈ target :: ps.filterMap (·.2), t.size ≤ S := fun t ht => hS t (tys_mem hq.1 ht)
          refine ⟨fun x d hd => ?_, fun hns env => ?_⟩
          · have hds := hts d (.tail _ (List.mem_filterMap.2 ⟨_, hd, rfl⟩))
            refine (ih q' d [] [] hq' hds List.nodup_nil (List.nil_subset _)).1 _
              (fun a b c e => hrank.default hq.1 hd c e) ?_
            omega
          · have hts := hts target (.head _)
            have hnd' : (pathString (q' ++ [.decl id (.alias ps target) ident vis attr remote]) :: seen).Nodup :=
              List.nodup_cons.2 ⟨hns, hnd⟩
            have hsub' : (pathString (q' ++ [.decl id (.alias ps target) ident vis attr remote]) :: seen) ⊆
                ir.places.map pathString := by
              refine List.cons_subset.2 ⟨List.mem_map.2 ⟨_, ?_, rfl⟩, hsub⟩
              rcases canon_places hq.1 with h | ⟨b, hb⟩
              · exact h
              · cases q' with
                | nil => exact nomatch hb
                | cons _ as => cases as <;> exact nomatch hb
            refine (ih q' target _ env hq' hts hnd' hsub').2 _
              ⟨fun a b c e => hrank.head hq.1 c e, fun a b c e => hrank.arg hq.1 c e⟩ ?_
            have hlen := List.Nodup.length_le_of_subset hnd' hsub'
            rw [List.length_map] at hlen
            have h1 : ir.places.length - seen.length = (ir.places.length -
              (pathString (q' ++ [.decl id (.alias ps target) ident vis attr remote]) :: seen).length) + 1 := by
              simp only [List.length_cons] at hlen ⊢; omega
            rw [h1, Nat.add_mul _ 1 (S + 1)] at hn
            omega
        · rintro q' id builtin ident vis attr remote rfl hq'
          have hts := hS builtin (tys_mem hq.1 (.head _))
          refine (ih q' builtin seen [] hq' hts hnd hsub).1 _ (fun a b c e => hrank.custom hq.1 c e) ?_
          omega
      refine ⟨fun R h hn => ?_, fun R h hn => ?_⟩
      · have hargs : ∀ arg ∈ args, EndsM (FullReach ir) (resolveTy ir n p arg [] []) := by
          intro arg ha
          have := size_mem ha
          exact (ih p arg [] [] hp (by omega) List.nodup_nil (List.nil_subset _)).1 R
            (fun a b c => h a b (.arg ha c)) (by omega)
        by_cases hden : ∃ r, Denotes ir p path .type r
        · obtain ⟨r, hd⟩ := hden
          have hR : 0 < R := Nat.lt_of_le_of_lt (Nat.zero_le _) (h path r .here hd)
          refine key (R - 1) (fun r hd => Nat.le_sub_one_of_lt (h path r .here hd)) hargs ?_
          have h1 : R * ((S + 1) * (ir.places.length + 2)) =
              (R - 1) * ((S + 1) * (ir.places.length + 2)) + (S + 1) * (ir.places.length + 2) := by
            rw [← Nat.succ_mul]; congr 1; omega
          have h2 : (ir.places.length - seen.length) * (S + 1) ≤ ir.places.length * (S + 1) :=
            Nat.mul_le_mul_right _ (Nat.sub_le _ _)
          have h3 : (S + 1) * (ir.places.length + 2) = ir.places.length * (S + 1) + 2 * (S + 1) := by
            rw [Nat.mul_add, Nat.mul_comm, Nat.mul_comm _ 2]
          omega
        · rw [resolveTy]
          split
          · exact ends_pure
          exact sat_bind (resolve_sat hu path hp (lookupErrors _ fun _ h => h)) fun q hq => absurd ⟨q, hq.2⟩ hden
      · refine key R (fun r hd => h.1 path r .path hd) ?_ (by omega)
        intro arg ha
        have := size_mem ha
        exact (ih p arg [] [] hp (by omega) List.nodup_nil (List.nil_subset _)).1 R
          (fun a b c => h.2 a b (.arg ha c)) (by omega)

end Verif.Src
