import Verif.Src.TypesCheck
import Verif.Src.MacroSpec
/-
Checks for the conditions of the theorems about the macros. Used for examples.
-/
namespace Verif.Src
variable {ir : Ir}

/-- No type of the program comes from a UDL file. -/
def Ir.udlCheck (ir : Ir) : Bool :=
  ir.places.all fun p => match p.getLast? with
    | some (.udl _ _) => false
    | _ => true

theorem no_udl (h : ir.udlCheck = true) {q : RPath} {id t} (hq : Canon ir q) : q.getLast? ≠ some (.udl id t) := by
  intro hl
  rcases canon_places hq with hp | ⟨b, rfl⟩
  · have := List.all_eq_true.1 h q hp
    rw [hl] at this
    exact nomatch this
  · exact nomatch hl

theorem noUdl_of_check (hr : ir.RootsModules) (hk : ir.KeepsNames) (h : ir.udlCheck = true) {env p ty t}
    (hm : Means ir env p ty t) : (∀ e ∈ env, e.2.noUdl = true) → Canon ir p → t.noUdl = true := by
  have den : ∀ {p path q}, Denotes ir p path .type q → Canon ir p → Canon ir q := fun hd hp => (denotes_name hr hk hd hp).1
  have par : ∀ {p path} {q : RPath} {id k ident vis attr remote},
      Denotes ir p path .type (q ++ [.decl id k ident vis attr remote]) → Canon ir p → Canon ir q :=
    fun hd hp => canon_alias hr (den hd hp) nofun rfl
  refine Means.rec (ir := ir)
    (motive_1 := fun env p ty t _ => (∀ e ∈ env, e.2.noUdl = true) → Canon ir p → t.noUdl = true)
    (motive_2 := fun env p q acc ps args e _ => (∀ e ∈ env, e.2.noUdl = true) → Canon ir p → Canon ir q →
      (∀ e ∈ acc, e.2.noUdl = true) → ∀ x ∈ e, x.2.noUdl = true)
    ?_ ?_ ?_ ?_ ?_ ?_ ?_ ?_ ?_ ?_ ?_ ?_ ?_ ?_ ?_ ?_ ?_ ?_ ?_ ?_ hm
  · intro env p x t hl he _
    obtain ⟨y, hy⟩ : ∃ y, (y, t) ∈ env := by
      clear he
      induction env with
      | nil => exact nomatch hl
      | cons a env ih =>
        rw [List.lookup] at hl
        split at hl
        · cases hl; exact ⟨_, .head _⟩
        · obtain ⟨y, hy⟩ := ih hl; exact ⟨y, .tail _ hy⟩
    exact he _ hy
  · intros; rfl
  · intros; rfl
  · intro env p m ty t _ ih he hp; exact ih he hp
  · intro env p ty t _ ih he hp; exact ih he hp
  · intros; rfl
  · intros; rfl
  · intros; rfl
  · intros; rfl
  · intros; rfl
  · intros; rfl
  · intro env p path args q id t _ hd hl _ hp
    exact absurd hl (no_udl h (den hd hp))
  · intro env p path b t _ _ hb _ _
    cases b <;> cases hb <;> rfl
  · intro env p path b f arg t _ _ hb _ ih he hp
    have := ih he hp
    cases b <;> cases hb <;> exact this
  · intro env p path b f arg1 arg2 t1 t2 _ _ hb _ _ ih1 ih2 he hp
    have h1 := ih1 he hp
    have h2 := ih2 he hp
    cases b <;> cases hb <;> simp [STy.noUdl, h1, h2]
  · intro env p path args q id ps target ident vis attr remote env' t _ hd _ _ ih1 ih2 he hp
    exact ih2 (ih1 he hp (par hd hp) nofun) (par hd hp)
  · intro env p path args q id builtin ident vis attr remote t _ hd _ ih he hp
    exact ih nofun (par hd hp)
  · intro env p q acc _ _ _ ha; exact ha
  · intro env p q acc x d ps arg args t e _ _ ih1 ih2 he hp hq ha
    refine ih2 he hp hq fun y hy => ?_
    rcases List.mem_append.1 hy with hy | hy
    · exact ha y hy
    · rw [List.mem_singleton.1 hy]; exact ih1 he hp
  · intro env p q acc x d ps t e _ _ ih1 ih2 he hp hq ha
    refine ih2 he hp hq fun y hy => ?_
    rcases List.mem_append.1 hy with hy | hy
    · exact ha y hy
    · rw [List.mem_singleton.1 hy]; exact ih1 ha hq

/-- All types of a program are settled. -/
theorem settled_of_check (hr : ir.RootsModules) (hk : ir.KeepsNames) (h : ir.udlCheck = true) (ht : ir.traitsCheck = true)
    (hp : ir.paramsCheck = true) {p : RPath} (hc : Canon ir p) (hl : ∃ id mi vis items, p.getLast? = some (.module id mi vis items))
    (ty : Ty) : Settled ir p ty :=
  ⟨traits_of_check hr hk ht hc hl, params_of_check hr hk hp hc, fun _ hm => noUdl_of_check hr hk h hm nofun hc⟩

/-- The metadata of one item is part of that of all. -/
theorem items_mem {env : CompileEnv} {look : RPath → Look} {sp p : RPath} {items : List (SItem Meta)} {all : List Out}
    (h : ItemsAre env look ir sp p items all) : ∀ i ∈ items, ∃ os, ItemIs env look ir sp p i os ∧ ∀ o ∈ os, o ∈ all := by
  induction items generalizing all with
  | nil => exact nofun
  | cons i is ih =>
    cases h with
    | cons h1 h2 hp =>
      intro j hj
      cases hj with
      | head => exact ⟨_, h1, fun o ho => hp.mem_iff.2 (List.mem_append_left _ ho)⟩
      | tail _ hj =>
        obtain ⟨os, h3, h4⟩ := ih h2 j hj
        exact ⟨os, h3, fun o ho => hp.mem_iff.2 (List.mem_append_right _ (h4 o ho))⟩

end Verif.Src
