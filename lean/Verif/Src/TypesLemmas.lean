import Verif.Src.TypesSpec
import Verif.Src.PublicMain
namespace Verif.Src
open Verif.Meta

variable {ir : Ir}

/-- From caches with `I`, the computation keeps `I`, its result has `Q` and its errors have `E`. -/
def Sat {α : Type} (I : FullCache → Prop) (m : M α) (Q : α → Prop) (E : Err → Prop) : Prop :=
  ∀ c, I c → I (m c).2 ∧ (∀ a, (m c).1 = .ok a → Q a) ∧ ∀ e, (m c).1 = .error e → E e

section
variable {α β : Type} {I : FullCache → Prop} {E : Err → Prop}

theorem sat_pure {a : α} {Q : α → Prop} (h : Q a) : Sat I (.pure a) Q E :=
  fun _ hc => ⟨hc, fun _ h' => by cases h'; exact h, nofun⟩

theorem sat_fail {e : Err} {Q : α → Prop} (h : E e) : Sat I (.fail e : M α) Q E :=
  fun _ hc => ⟨hc, nofun, fun _ h' => by cases h'; exact h⟩

theorem sat_bind {m : M α} {f : α → M β} {Q : α → Prop} {R : β → Prop} (hm : Sat I m Q E)
    (hf : ∀ a, Q a → Sat I (f a) R E) : Sat I (m.bind f) R E := by
  intro c hc
  have := hm c hc
  unfold M.bind
  split
  · rename_i a c' h
    rw [h] at this
    exact hf a (this.2.1 a rfl) c' this.1
  · rename_i e c' h
    rw [h] at this
    exact ⟨this.1, nofun, fun _ h' => by cases h'; exact this.2.2 e rfl⟩

theorem sat_mono {m : M α} {Q Q' : α → Prop} (hm : Sat I m Q E) (h : ∀ a, Q a → Q' a) : Sat I m Q' E :=
  fun c hc => ⟨(hm c hc).1, fun a ha => h a ((hm c hc).2.1 a ha), (hm c hc).2.2⟩

theorem sat_checkEmpty {args : List Ty} {m : M α} {Q : α → Prop} (he : E .invalidGenericArg)
    (hm : args = [] → Sat I m Q E) : Sat I (checkEmpty args m) Q E := by
  unfold checkEmpty
  split
  · rename_i h; exact hm (List.isEmpty_iff.1 h)
  · exact sat_fail he

end

/-- The errors of lookups. -/
def LookupErrors (E : Err → Prop) : Prop := ∀ e : Err, e.fromLookup = true ∨ e = .noPubPath → E e

theorem resolve_sat (hu : ir.Unique) {p} (path : Path) (hp : Canon ir p) {E} (hE : LookupErrors E) :
    Sat (FullReach ir) (M.resolve ir p path) (fun q => Canon ir q ∧ Denotes ir p path .type q) E := by
  intro c hc
  have hr := (fullReach_good hu hc).1
  have hwp := resolve_wp (ns := .type) (S := path.segs) hp (fun i hi => hi)
  have h1 := (run_main hu hwp hr).1
  refine ⟨?_, h1.2, fun e he => hE e (.inl (h1.1 e he))⟩
  refine (wp_run (I := fun l => Reach ir l ∧ FullReach ir { c with lookups := l }) (ch := child ir ir.fuel)
    (fun p i ns s ha hs => ⟨(child_top hu i ns ha.1 (reach_good hu hs.1).1 (reach_good hu hs.1).2).1,
      .child i ns hs.1 ha.1, .child i ns hs.2 ha.1⟩) hwp ⟨hr, hc⟩).2.2

theorem publicPath_sat (hu : ir.Unique) {p} (hp : Canon ir p) (hd : RPath.isDecl p = true) (ho : OnlyPath ir p)
    {E} (hE : LookupErrors E) :
    Sat (FullReach ir) (M.publicPath ir p) (fun n => PublicName ir p n.modulePath n.name) E := by
  intro c hc
  refine ⟨.publicPath hc hp hd, ?_, fun e he => hE e (publicPathTop_plain hu hp hc he)⟩
  intro n hn
  obtain ⟨r, hr, hc'⟩ := publicPathTop_ok hu hp hc ho
  have hn : (publicPathTop ir p c).1 = .ok n := hn
  rw [hn] at hc'
  rcases hc' with rfl | ⟨_, _, h'⟩
  · obtain ⟨t, m, h1, h2, h3, h4, ⟨ident, h5, h6⟩, h7⟩ := hr.found n rfl
    exact ⟨t, ident, m, _, h1, h5, h2, h3, h4, h7, h6⟩
  · exact nomatch h'

theorem canon_decl (hr : ir.RootsModules) {p : RPath} (hp : Canon ir p) {id k ident vis attr remote}
    (hl : p.getLast? = some (.decl id k ident vis attr remote)) :
    ∃ q mid mi mvis items, p = q ++ [.decl id k ident vis attr remote] ∧ Canon ir q ∧
      q.getLast? = some (.module mid mi mvis items) := by
  cases hp with
  | root h =>
    obtain ⟨_, _, _, _, rfl⟩ := hr _ _ h
    exact nomatch hl
  | builtin b => exact nomatch hl
  | item h h1 h2 =>
    rw [List.getLast?_concat] at hl
    cases hl
    exact ⟨_, _, _, _, _, rfl, h, h1⟩

theorem isDecl_concat {q : RPath} {id k ident vis attr remote mid mi mvis items}
    (h : q.getLast? = some (.module mid mi mvis items)) (hk : k.exportable = true) :
    RPath.isDecl (q ++ [.decl id k ident vis attr remote]) = true := by
  unfold RPath.isDecl
  rw [List.dropLast_concat, List.getLast?_concat]
  cases q with
  | nil => exact nomatch h
  | cons => exact hk

theorem canon_isDecl (hr : ir.RootsModules) {p : RPath} (hp : Canon ir p) {id k ident vis attr remote}
    (hl : p.getLast? = some (.decl id k ident vis attr remote)) (hk : k.exportable = true) : RPath.isDecl p = true := by
  obtain ⟨q, _, _, _, _, rfl, _, hm⟩ := canon_decl hr hp hl
  exact isDecl_concat hm hk

theorem parent_concat {q : RPath} {i : Item} (h : q ≠ []) : RPath.parent (q ++ [i]) = .ok q := by
  match q, h with
  | a :: as, _ =>
    unfold RPath.parent
    split
    · rename_i h; exact nomatch h
    · rename_i h; simp at h
    · rw [List.dropLast_concat]

/-! ### More type parameters -/

/-- The names of the parameters do not stand for items at `p`. -/
def Fresh (ir : Ir) (p : RPath) (env : Env) : Prop := ∀ x t, (x, t) ∈ env → ∀ r, ¬ Denotes ir p ⟨false, [x]⟩ .type r

theorem fresh_notParam {p : RPath} {env : Env} (h : Fresh ir p env) {path args q} (hd : Denotes ir p path .type q) :
    NotParam env path args := by
  rintro x t hx ⟨rfl, _⟩
  exact h x t hx _ hd

theorem means_env {env p ty t} (h : Means ir env p ty t) : ∀ {env'}, env = [] → Fresh ir p env' →
    Means ir env' p ty t := by
  refine Means.rec (ir := ir)
    (motive_1 := fun env p ty t _ => ∀ {env'}, env = [] → Fresh ir p env' → Means ir env' p ty t)
    (motive_2 := fun env p q acc ps args e _ => ∀ {env'}, env = [] → Fresh ir p env' →
      MeansArgs ir env' p q acc ps args e)
    ?_ ?_ ?_ ?_ ?_ ?_ ?_ ?_ ?_ ?_ ?_ ?_ ?_ ?_ ?_ ?_ ?_ ?_ ?_ ?_ h
  · intro env p x t h env' he; subst he; exact nomatch h
  · intros; exact .self
  · intros; exact .unit
  · intro _ _ _ _ _ _ ih _ he hf; exact .reference (ih he hf)
  · intro _ _ _ _ _ ih _ he hf; exact .slice (ih he hf)
  · intro _ _ _ _ _ _ _ _ _ _ _ _ hd h1 h2 _ _ hf; exact .record (fresh_notParam hf hd) hd h1 h2
  · intro _ _ _ _ _ _ _ _ _ _ _ _ hd h1 h2 _ _ hf; exact .enum (fresh_notParam hf hd) hd h1 h2
  · intro _ _ _ _ _ _ _ _ _ _ _ _ hd h1 h2 _ _ hf; exact .object (fresh_notParam hf hd) hd h1 h2
  · intro _ _ _ _ _ _ _ _ _ _ _ hd h1 h2 h3 _ _ _; exact .trait hd h1 h2 h3
  · intro _ _ _ _ _ _ _ _ hd h1 _ _ _; exact .udlTrait hd h1
  · intro _ _ _ _ _ _ _ hd h1 _ _ _; exact .udlCallback hd h1
  · intro _ _ _ _ _ _ _ _ hd h1 _ _ hf; exact .udl (fresh_notParam hf hd) hd h1
  · intro _ _ _ _ _ _ hd h1 _ _ hf; exact .plain (fresh_notParam hf hd) hd h1
  · intro _ _ _ _ _ _ _ _ hd h1 _ ih _ he hf; exact .one (fresh_notParam hf hd) hd h1 (ih he hf)
  · intro _ _ _ _ _ _ _ _ _ _ hd h1 _ _ ih1 ih2 _ he hf; exact .two (fresh_notParam hf hd) hd h1 (ih1 he hf) (ih2 he hf)
  · intro _ _ _ _ _ _ _ _ _ _ _ _ _ _ _ hd _ h2 ih1 _ _ he hf; exact .alias (fresh_notParam hf hd) hd (ih1 he hf) h2
  · intro _ _ _ _ _ _ _ _ _ _ _ _ _ hd h1 _ _ _ hf; exact .custom (fresh_notParam hf hd) hd h1
  · intros; exact .nil
  · intro _ _ _ _ _ _ _ _ _ _ _ _ _ ih1 ih2 _ he hf; exact .arg (ih1 he hf) (ih2 he hf)
  · intro _ _ _ _ _ _ _ _ _ h1 _ _ ih2 _ he hf; exact .default h1 (ih2 he hf)

/-! ### What is found is right -/

section
variable {rec : Rec} {I : FullCache → Prop} {E : Err → Prop}

theorem resolveArg_sound {p : RPath} {env : Env} {arg : Ty} (hf : Fresh ir p env)
    (hrec : Sat I (rec p arg [] []) (Means ir [] p arg) E) :
    Sat I (resolveArg rec p env arg) (Means ir env p arg) E := by
  have hrec' := sat_mono hrec (fun t ht => means_env ht rfl hf)
  unfold resolveArg
  split
  · split
    · rename_i h; exact sat_pure (.param h)
    · exact hrec'
  · exact hrec'

theorem resolveParams_sound (hE : ∀ e : Err, e ≠ .fuel → E e) {q p : RPath} {env : Env} (hf : Fresh ir p env) :
    ∀ (ps : List (Ident × Option Ty)) (args : List Ty) (acc : Env), args.length ≤ ps.length →
      (∀ x t, (x, t) ∈ acc → ∀ r, ¬ Denotes ir q ⟨false, [x]⟩ .type r) →
      (∀ x d, (x, d) ∈ ps → ∀ r, ¬ Denotes ir q ⟨false, [x]⟩ .type r) →
      (∀ arg ∈ args, Sat I (rec p arg [] []) (Means ir [] p arg) E) →
      (∀ x d, (x, some d) ∈ ps → Sat I (rec q d [] []) (Means ir [] q d) E) →
      Sat I (resolveParams rec q p env ps args)
        (fun e => MeansArgs ir env p q acc ps args (acc ++ e) ∧ Fresh ir q e) E
  | [], [], acc, _, _, _, _, _ => by
    rw [resolveParams]
    exact sat_pure ⟨by rw [List.append_nil]; exact .nil, nofun⟩
  | [], _ :: _, _, h, _, _, _, _ => nomatch h
  | (x, d) :: ps, arg :: args, acc, hl, hacc, hps, hargs, hds => by
    rw [resolveParams]
    refine sat_bind (resolveArg_sound hf (hargs arg (.head _))) fun t ht => ?_
    refine sat_bind (resolveParams_sound hE hf ps args (acc ++ [(x, t)]) (Nat.le_of_succ_le_succ hl) ?_
      (fun x d h => hps x d (.tail _ h)) (fun a h => hargs a (.tail _ h)) (fun x d h => hds x d (.tail _ h))) ?_
    · intro y s hy
      rcases List.mem_append.1 hy with hy | hy
      · exact hacc y s hy
      · cases List.mem_singleton.1 hy; exact hps _ _ (.head _)
    · intro e he
      rw [List.append_assoc] at he
      refine sat_pure ⟨.arg ht he.1, ?_⟩
      intro y s hy
      cases hy with
      | head => exact hps _ _ (.head _)
      | tail _ hy => exact he.2 y s hy
  | (x, some d) :: ps, [], acc, hl, hacc, hps, hargs, hds => by
    rw [resolveParams]
    refine sat_bind (hds x d (.head _)) fun t ht => ?_
    refine sat_bind (resolveParams_sound hE hf ps [] (acc ++ [(x, t)]) (Nat.zero_le _) ?_
      (fun x d h => hps x d (.tail _ h)) nofun (fun x d h => hds x d (.tail _ h))) ?_
    · intro y s hy
      rcases List.mem_append.1 hy with hy | hy
      · exact hacc y s hy
      · cases List.mem_singleton.1 hy; exact hps _ _ (.head _)
    · intro e he
      rw [List.append_assoc] at he
      refine sat_pure ⟨.default (means_env ht rfl hacc) he.1, ?_⟩
      intro y s hy
      cases hy with
      | head => exact hps _ _ (.head _)
      | tail _ hy => exact he.2 y s hy
  | (_, none) :: _, [], _, _, _, _, _, _ => by
    rw [resolveParams]
    exact sat_fail (hE _ nofun)

theorem resolve1_sound (hE : ∀ e : Err, e ≠ .fuel → E e) {p : RPath} {env : Env} {path : Path} {b : Builtin} {f : STy → STy}
    (hd : Denotes ir p path .type [.builtin b]) (hb : b.one = some f) (hf : Fresh ir p env) (args : List Ty)
    (hargs : ∀ arg ∈ args, Sat I (rec p arg [] []) (Means ir [] p arg) E) :
    Sat I (resolve1 rec p env f args) (Means ir env p (.path path args)) E := by
  unfold resolve1
  split
  · exact sat_bind (resolveArg_sound hf (hargs _ (.head _))) fun t ht =>
      sat_pure (.one (fresh_notParam hf hd) hd hb ht)
  · exact sat_fail (hE _ nofun)

theorem resolve2_sound (hE : ∀ e : Err, e ≠ .fuel → E e) {p : RPath} {env : Env} {path : Path} {b : Builtin}
    {f : STy → STy → STy} (hd : Denotes ir p path .type [.builtin b]) (hb : b.two = some f) (hf : Fresh ir p env)
    (args : List Ty) (hargs : ∀ arg ∈ args, Sat I (rec p arg [] []) (Means ir [] p arg) E) :
    Sat I (resolve2 rec p env f args) (Means ir env p (.path path args)) E := by
  unfold resolve2
  split
  · exact sat_bind (resolveArg_sound hf (hargs _ (.head _))) fun t ht =>
      sat_bind (resolveArg_sound hf (hargs _ (.tail _ (.head _)))) fun t' ht' =>
      sat_pure (.two (fresh_notParam hf hd) hd hb ht ht')
  · exact sat_fail (hE _ nofun)

theorem resolveBuiltin_sound (hE : ∀ e : Err, e ≠ .fuel → E e) {p : RPath} {env : Env} {path : Path} {b : Builtin}
    (hd : Denotes ir p path .type [.builtin b]) (hf : Fresh ir p env)
    (args : List Ty) (hargs : ∀ arg ∈ args, Sat I (rec p arg [] []) (Means ir [] p arg) E) :
    Sat I (resolveBuiltin rec p env args b) (Means ir env p (.path path args)) E := by
  have plain : ∀ {t}, b.plain = some t → Sat I (checkEmpty args (.pure t)) (Means ir env p (.path path args)) E :=
    fun h => sat_checkEmpty (hE _ nofun) fun he => by
      subst he; exact sat_pure (.plain (fresh_notParam hf hd) hd h)
  cases b
  case option => exact resolve1_sound hE hd rfl hf args hargs
  case vec => exact resolve1_sound hE hd rfl hf args hargs
  case arc => exact resolve1_sound hE hd rfl hf args hargs
  case box => exact resolve1_sound hE hd rfl hf args hargs
  case hashSet => exact resolve1_sound hE hd rfl hf args hargs
  case hashMap => exact resolve2_sound hE hd rfl hf args hargs
  case result => exact resolve2_sound hE hd rfl hf args hargs
  case from_ => exact sat_checkEmpty (hE _ nofun) fun _ => sat_fail (hE _ nofun)
  case uniffiMacro => exact sat_checkEmpty (hE _ nofun) fun _ => sat_fail (hE _ nofun)
  case uniffiDerive => exact sat_checkEmpty (hE _ nofun) fun _ => sat_fail (hE _ nofun)
  all_goals exact plain rfl

end

theorem lookupErrors (E : Err → Prop) (hE : ∀ e : Err, e ≠ .fuel → E e) : LookupErrors E := by
  rintro e (h | rfl)
  · refine hE e ?_; rintro rfl; exact nomatch h
  · exact hE _ nofun

/-- The conditions for a type and for all types it leads to. -/
structure Ok (ir : Ir) (p : RPath) (ty : Ty) : Prop where
  place : Canon ir p
  traits : TraitsLocal ir p ty
  fresh : ParamsFresh ir p ty

theorem Ok.sub {p p' : RPath} {ty ty' : Ty} (h : Ok ir p ty) (hp : Canon ir p')
    (ho : ∀ p'' ty'', Occurs ir p' ty' p'' ty'' → Occurs ir p ty p'' ty'') : Ok ir p' ty' :=
  ⟨hp, fun a b c d e f g i j k => h.traits a b c d e f g i j (ho _ _ k),
    fun a b c d e f g i j k l m => h.fresh a b c d e f g i j k l (ho _ _ m)⟩

theorem resolveItem_sound (hu : ir.Unique) (hr : ir.RootsModules) (ho : ir.OnlyPaths) {E : Err → Prop}
    (hE : ∀ e : Err, e ≠ .fuel → E e) {rec : Rec}
    (hrec : ∀ p ty seen env, Ok ir p ty → Fresh ir p env → Sat (FullReach ir) (rec p ty seen env) (Means ir env p ty) E)
    {p : RPath} {path : Path} {args : List Ty} {seen : List String} {env : Env} {q : RPath}
    (hok : Ok ir p (.path path args)) (hf : Fresh ir p env) (hq : Canon ir q) (hd : Denotes ir p path .type q) :
    Sat (FullReach ir) (resolveItem ir rec p args seen env q) (Means ir env p (.path path args)) E := by
  have hl := lookupErrors E hE
  have hargs : ∀ arg ∈ args, Sat (FullReach ir) (rec p arg [] []) (Means ir [] p arg) E :=
    fun arg h => hrec p arg [] [] (hok.sub hok.place fun _ _ => .arg h) nofun
  have hn := @fresh_notParam ir p env hf path args q hd
  unfold resolveItem
  split
  · exact sat_fail (hE _ nofun)
  · rename_i hlast
    have hdecl := canon_isDecl hr hq hlast rfl
    refine sat_checkEmpty (hE _ nofun) fun he => ?_
    subst he
    exact sat_bind (publicPath_sat hu hq hdecl (ho _ hq hdecl) hl) fun n hn' => sat_pure (.record hn hd hlast hn')
  · rename_i hlast
    have hdecl := canon_isDecl hr hq hlast rfl
    refine sat_checkEmpty (hE _ nofun) fun he => ?_
    subst he
    exact sat_bind (publicPath_sat hu hq hdecl (ho _ hq hdecl) hl) fun n hn' => sat_pure (.enum hn hd hlast hn')
  · rename_i hlast
    have hdecl := canon_isDecl hr hq hlast rfl
    refine sat_checkEmpty (hE _ nofun) fun he => ?_
    subst he
    exact sat_bind (publicPath_sat hu hq hdecl (ho _ hq hdecl) hl) fun n hn' => sat_pure (.object hn hd hlast hn')
  · rename_i ps target _ _ _ _ hlast
    obtain ⟨q', _, _, _, _, rfl, hq', hm⟩ := canon_decl hr hq hlast
    split
    · exact sat_fail (hE _ nofun)
    · rw [parent_concat (by rintro rfl; exact nomatch hm)]
      dsimp only
      have hfr := hok.fresh _ _ _ _ _ _ _ _ _ _ _ .here hd
      unfold resolveGenerics
      split
      · exact sat_bind (Q := fun _ => False) (sat_fail (hE _ nofun)) nofun
      · rename_i hlen
        refine sat_bind (resolveParams_sound hE hf ps args [] (by omega) nofun hfr hargs fun x d h =>
          hrec q' d [] [] (hok.sub hq' fun _ _ => .default hd h) nofun) fun e he => ?_
        exact sat_mono (hrec q' target _ e (hok.sub hq' fun _ _ => .alias hd) he.2) fun t ht => .alias hn hd he.1 ht
  · rename_i b hlast
    have : q = [.builtin b] := hu q _ hq (.builtin b) (by rw [hlast]; rfl)
    subst this
    exact resolveBuiltin_sound hE hd hf args hargs
  · exact sat_fail (hE _ nofun)
  · rename_i builtin ident _ _ _ hlast
    obtain ⟨q', _, _, _, _, rfl, hq', hm⟩ := canon_decl hr hq hlast
    rw [parent_concat (by rintro rfl; exact nomatch hm)]
    dsimp only
    exact sat_bind (hrec q' builtin seen [] (hok.sub hq' fun _ _ => .custom hd) nofun) fun t ht =>
      sat_pure (.custom hn hd ht)
  · rename_i hlast
    exact sat_pure (.udl hn hd hlast)
  · exact sat_fail (hE _ nofun)

theorem resolveDyn_sound {E : Err → Prop} (hE : ∀ e : Err, e ≠ .fuel → E e) {p q : RPath} {path : Path}
    {env : Env} (hok : Ok ir p (.dyn [path])) (hd : Denotes ir p path .type q) :
    Sat (FullReach ir) (resolveDyn p q) (Means ir env p (.dyn [path])) E := by
  unfold resolveDyn
  split
  · exact sat_fail (hE _ nofun)
  · rename_i exportTy ident vis attr remote hlast
    obtain ⟨hh, rfl⟩ := hok.traits _ _ _ _ _ _ _ _ _ .here hd hlast
    exact sat_pure (.trait (attr := none) hd hlast hok.place hh.symm)
  · rename_i hlast; exact sat_pure (.udlTrait hd hlast)
  · rename_i hlast; exact sat_pure (.udlCallback hd hlast)
  · exact sat_fail (hE _ nofun)

theorem resolveTy_sound (hu : ir.Unique) (hr : ir.RootsModules) (ho : ir.OnlyPaths) : ∀ n p ty seen env,
    Ok ir p ty → Fresh ir p env →
    Sat (FullReach ir) (resolveTy ir n p ty seen env) (Means ir env p ty) (fun _ => True) := by
  intro n
  induction n with
  | zero => intros; exact sat_fail trivial
  | succ n ih =>
    intro p ty seen env hok hf
    cases ty with
    | reference mutable t =>
      exact sat_bind (ih p t seen env (hok.sub hok.place fun _ _ => .reference) hf) fun t ht => sat_pure (.reference ht)
    | slice t =>
      exact sat_bind (ih p t seen env (hok.sub hok.place fun _ _ => .slice) hf) fun t ht => sat_pure (.slice ht)
    | unit => exact sat_pure .unit
    | other => exact sat_fail trivial
    | dyn bounds =>
      match bounds with
      | [] => exact sat_fail trivial
      | _ :: _ :: _ => exact sat_fail trivial
      | [path] =>
        exact sat_bind (resolve_sat hu path hok.place fun _ _ => trivial) fun q hq =>
          resolveDyn_sound (fun _ _ => trivial) hok hq.2
    | path path args =>
      rw [resolveTy]
      split
      · rename_i h; obtain ⟨rfl, rfl⟩ := h; exact sat_pure .self
      · exact sat_bind (resolve_sat hu path hok.place fun _ _ => trivial) fun q hq =>
          resolveItem_sound hu hr ho (fun _ _ => trivial) ih hok hf hq.1 hq.2

end Verif.Src
