import Verif.Gen.Recursive
import Verif.Gen.RecursiveSpec
namespace Verif.Gen
open Verif.Meta

theorem position_some {n : String} {l : List String} {i : Nat} (h : position n l = some i) :
    ∃ post, l.drop i = n :: post := by
  induction l generalizing i with
  | nil => simp [position] at h
  | cons a l ih =>
    unfold position at h
    split at h
    · rename_i e; simp only [Option.some.injEq] at h; subst h; subst e; exact ⟨l, rfl⟩
    · simp only [Option.map_eq_some_iff] at h
      obtain ⟨j, hj, rfl⟩ := h
      obtain ⟨post, hp⟩ := ih hj
      exact ⟨post, by simpa using hp⟩

theorem position_none {n : String} {l : List String} (h : position n l = none) : n ∉ l := by
  induction l with
  | nil => simp
  | cons a l ih =>
    unfold position at h
    split at h
    · simp at h
    · rename_i e
      simp only [Option.map_eq_none_iff] at h
      simp only [List.mem_cons, not_or]
      exact ⟨fun e' => e e'.symm, ih h⟩

/-- The edges of the graph. -/
def GEdge (g : DepGraph) (a b : String) : Prop := ∃ ds, depsGet g a = some ds ∧ b ∈ ds

theorem Way.trans {e : String → String → Prop} {a b c : String} (h : Way e a b) (h' : Way e b c) :
    Way e a c := by
  induction h with
  | one h => exact .more h h'
  | more h _ ih => exact .more h (ih h')

theorem Chain.tail {e : String → String → Prop} {a : String} {l : List String}
    (h : Chain e (a :: l)) : Chain e l := by
  cases l with
  | nil => trivial
  | cons b l => exact h.2

theorem Chain.drop {e : String → String → Prop} {l : List String} (h : Chain e l) (i : Nat) :
    Chain e (l.drop i) := by
  induction i generalizing l with
  | zero => exact h
  | succ i ih =>
    cases l with
    | nil => simp [Chain]
    | cons a l => exact ih h.tail

/-- In a chain that ends in `z`, every element before the end has a way to `z`. -/
theorem Chain.way {e : String → String → Prop} {l : List String} {z : String}
    (h : Chain e (l ++ [z])) : ∀ x ∈ l, Way e x z := by
  induction l with
  | nil => simp
  | cons a l ih =>
    intro x hx
    cases l with
    | nil =>
      rw [List.mem_singleton.1 hx]
      exact .one h.1
    | cons b l =>
      have h' : e a b ∧ Chain e ((b :: l) ++ [z]) := h
      rcases List.mem_cons.1 hx with rfl | hx
      · exact .more h'.1 (ih h'.2 b (by simp))
      · exact ih h'.2 x hx

/-- In a chain that starts with `z`, there is a way from it to every later element. -/
theorem Chain.way_from {e : String → String → Prop} {z : String} {l : List String}
    (h : Chain e (z :: l)) : ∀ x ∈ l, Way e z x := by
  induction l generalizing z with
  | nil => simp
  | cons b l ih =>
    intro x hx
    rcases List.mem_cons.1 hx with rfl | hx
    · exact .one h.1
    · exact .more h.1 (ih h.2 x hx)

theorem Chain.snoc {e : String → String → Prop} {l : List String} {a b : String}
    (h : Chain e (l ++ [a])) (hab : e a b) : Chain e (l ++ [a] ++ [b]) := by
  induction l with
  | nil => exact ⟨hab, trivial⟩
  | cons c l ih =>
    cases l with
    | nil => exact ⟨h.1, hab, trivial⟩
    | cons d l => exact ⟨h.1, ih h.2⟩

/-- What holds between calls. -/
structure DfsInv (g : DepGraph) (st : DfsSt) : Prop where
  sound : ∀ v ∈ st.recursive, Way (GEdge g) v v
  order : ∀ pre v post, st.visited = pre ++ v :: post → ∀ w, GEdge g v w →
    w ∈ pre ∨ v ∈ st.recursive

/-- The effect of a call for `n`. -/
structure DfsPost (g : DepGraph) (stack : List String) (n : String) (st st' : DfsSt) : Prop where
  inv : DfsInv g st'
  vmono : ∀ x ∈ st.visited, x ∈ st'.visited
  rmono : ∀ x ∈ st.recursive, x ∈ st'.recursive
  found : n ∈ st'.visited ∨ n ∈ stack ∧ ∀ top, stack.getLast? = some top → top ∈ st'.recursive

/-- Keys that are not on the stack. -/
def freeKeys (g : DepGraph) (stack : List String) : Nat :=
  ((g.map Prod.fst).filter fun k => k ∉ stack).length

theorem freeKeys_push_le (g : DepGraph) (stack : List String) (n : String) :
    freeKeys g (stack ++ [n]) ≤ freeKeys g stack := by
  unfold freeKeys
  induction g.map Prod.fst with
  | nil => simp
  | cons x K ih => simp only [List.filter_cons]; split <;> split <;> simp_all <;> omega

theorem freeKeys_push_lt (g : DepGraph) (stack : List String) (n : String) (hn : n ∉ stack)
    (hk : n ∈ g.map Prod.fst) : freeKeys g (stack ++ [n]) < freeKeys g stack := by
  have hle := freeKeys_push_le g stack n
  unfold freeKeys at hle ⊢
  generalize g.map Prod.fst = K at hk hle
  clear hle
  induction K with
  | nil => simp at hk
  | cons x K ih =>
    have le : (K.filter fun k => k ∉ stack ++ [n]).length ≤ (K.filter fun k => k ∉ stack).length := by
      clear ih hk
      induction K with
      | nil => simp
      | cons y K ih => simp only [List.filter_cons]; split <;> split <;> simp_all <;> omega
    rcases List.mem_cons.1 hk with rfl | hk
    · simp only [List.filter_cons]
      split <;> split <;> simp_all
      omega
    · have := ih hk
      simp only [List.filter_cons]
      split <;> split <;> simp_all <;> omega

theorem depsGet_key {g : DepGraph} {n : String} {ds : List String} (h : depsGet g n = some ds) :
    n ∈ g.map Prod.fst := by
  induction g with
  | nil => simp [depsGet] at h
  | cons p g ih =>
    obtain ⟨k, d⟩ := p
    unfold depsGet at h
    split at h
    · rename_i e; simp [e]
    · simp [ih h]

theorem dfs_spec (g : DepGraph) :
    ∀ (fuel : Nat) (n : String) (stack : List String) (st : DfsSt),
      DfsInv g st → freeKeys g stack + 1 < fuel ∨ (depsGet g n = none ∧ 1 ≤ fuel) →
      Chain (GEdge g) (stack ++ [n]) →
      ∃ st', dfs g fuel n stack st = some st' ∧ DfsPost g stack n st st' := by
  intro fuel
  induction fuel with
  | zero => intro n stack st _ h; omega
  | succ fuel ih =>
    intro n stack st hinv hfuel hchain
    unfold dfs
    split
    · rename_i hv
      exact ⟨st, rfl, hinv, fun _ h => h, fun _ h => h, .inl hv⟩
    · split
      · -- back edge
        rename_i pos hp
        obtain ⟨post, hpost⟩ := position_some hp
        have hpl : pos ≤ stack.length := by
          rcases Nat.lt_or_ge stack.length pos with h | h
          · rw [List.drop_eq_nil_of_le (by omega)] at hpost; simp at hpost
          · exact h
        have hc : Chain (GEdge g) (stack.drop pos ++ [n]) := by
          have := hchain.drop pos
          rwa [List.drop_append_of_le_length hpl] at this
        refine ⟨_, rfl, ⟨?_, ?_⟩, fun _ h => h, fun x h => by simp [h], .inr ⟨?_, ?_⟩⟩
        · intro v hv
          dsimp only at hv
          rcases List.mem_append.1 hv with hv | hv
          · exact hinv.sound v hv
          · have h1 := hc.way v hv
            rw [hpost] at hv hc
            rcases List.mem_cons.1 hv with rfl | hv
            · exact h1
            · have h2 : Way (GEdge g) n v := by
                refine Chain.way_from (z := n) (l := post ++ [n]) hc v (by simp [hv])
              exact h1.trans h2
        · intro pre v post' he w hw
          exact (hinv.order pre v post' he w hw).imp id fun h => by simp [h]
        · have : n ∈ stack.drop pos := by rw [hpost]; simp
          exact List.mem_of_mem_drop this
        · intro top ht
          dsimp only
          apply List.mem_append_right
          have : (stack.drop pos).getLast? = some top := by
            rw [List.getLast?_drop, if_neg, ht]
            have : (stack.drop pos).length ≠ 0 := by rw [hpost]; simp
            rw [List.length_drop] at this; omega
          exact List.mem_of_getLast? this
      · rename_i hv hp
        have hns := position_none hp
        have loop : ∀ (ds : List String) (st0 : DfsSt), (∀ d ∈ ds, GEdge g n d) → DfsInv g st0 →
            (ds = [] ∨ freeKeys g (stack ++ [n]) + 1 < fuel) →
            ∃ st1, ds.foldlM (fun st d => dfs g fuel d (stack ++ [n]) st) st0 = some st1 ∧
              DfsInv g st1 ∧ (∀ x ∈ st0.visited, x ∈ st1.visited) ∧
              (∀ x ∈ st0.recursive, x ∈ st1.recursive) ∧
              ∀ d ∈ ds, d ∈ st1.visited ∨ n ∈ st1.recursive := by
          intro ds
          induction ds with
          | nil => intro st0 _ h _; exact ⟨st0, rfl, h, fun _ h => h, fun _ h => h, by simp⟩
          | cons d ds ihd =>
            intro st0 hsub h0 hf
            have hf' : freeKeys g (stack ++ [n]) + 1 < fuel := hf.resolve_left (by simp)
            obtain ⟨sta, ea, pa⟩ := ih d (stack ++ [n]) st0 h0 (.inl hf')
              (hchain.snoc (hsub d (by simp)))
            obtain ⟨stb, eb, b1, b2, b3, b4⟩ := ihd sta (fun d hd => hsub d (by simp [hd])) pa.inv (.inr hf')
            refine ⟨stb, by rw [List.foldlM_cons, ea]; exact eb, b1, fun x hx => b2 x (pa.vmono x hx),
              fun x hx => b3 x (pa.rmono x hx), ?_⟩
            intro d' hd'
            rcases List.mem_cons.1 hd' with rfl | hd'
            · rcases pa.found with h | ⟨_, h⟩
              · exact .inl (b2 _ h)
              · exact .inr (b3 _ (h n (by simp)))
            · exact b4 d' hd'
        have hds : ∀ d ∈ (depsGet g n).getD [], GEdge g n d := by
          intro d hd
          cases hg : depsGet g n with
          | none => rw [hg] at hd; simp at hd
          | some ds => rw [hg] at hd; exact ⟨ds, hg, hd⟩
        have hf : (depsGet g n).getD [] = [] ∨ freeKeys g (stack ++ [n]) + 1 < fuel := by
          cases hg : depsGet g n with
          | none => left; rfl
          | some ds =>
            right
            have := freeKeys_push_lt g stack n hns (depsGet_key hg)
            rcases hfuel with h | h
            · omega
            · rw [hg] at h; simp at h
        obtain ⟨st1, e1, i1, v1, r1, f1⟩ := loop _ st hds hinv hf
        refine ⟨{ st1 with visited := st1.visited ++ [n] }, by rw [e1]; rfl, ⟨i1.sound, ?_⟩,
          fun x hx => List.mem_append_left _ (v1 x hx), r1, .inl (by simp)⟩
        dsimp only
        intro pre v post he w hw
        rcases List.eq_nil_or_concat post with rfl | ⟨post', z, rfl⟩
        · obtain ⟨rfl, hz⟩ := List.append_inj' he rfl
          simp only [List.cons.injEq, and_true] at hz
          subst hz
          obtain ⟨ds, hg, hwd⟩ := hw
          exact f1 w (by rw [hg]; exact hwd)
        · refine i1.order pre v post' ?_ w hw
          rw [List.concat_eq_append, ← List.cons_append, ← List.append_assoc] at he
          exact (List.append_inj' he rfl).1

theorem freeKeys_nil (g : DepGraph) : freeKeys g [] ≤ g.length := by
  unfold freeKeys
  have := List.length_filter_le (fun k => decide (k ∉ ([] : List String))) (g.map Prod.fst)
  simpa using this

theorem findLoop_spec (g : DepGraph) (ks : List String) : ∀ (st : DfsSt), DfsInv g st →
    ∃ st', findLoop g (g.length + 2) ks st = some st' ∧ DfsInv g st' ∧
      (∀ x ∈ st.visited, x ∈ st'.visited) ∧ ∀ k ∈ ks, k ∈ st'.visited := by
  induction ks with
  | nil => intro st h; exact ⟨st, rfl, h, fun _ h => h, by simp⟩
  | cons k ks ih =>
    intro st h
    obtain ⟨sta, ea, pa⟩ := dfs_spec g (g.length + 2) k [] st h
      (.inl (by have := freeKeys_nil g; omega)) trivial
    obtain ⟨stb, eb, b1, b2, b3⟩ := ih sta pa.inv
    refine ⟨stb, by simp [findLoop, ea, eb], b1, fun x hx => b2 x (pa.vmono x hx), ?_⟩
    intro k' hk'
    rcases List.mem_cons.1 hk' with rfl | hk'
    · exact b2 _ (pa.found.resolve_right (by simp))
    · exact b3 k' hk'

theorem findRecursive_spec (g : DepGraph) :
    ∃ r visited, findRecursive g = some r ∧ DfsInv g ⟨visited, r⟩ ∧
      ∀ k ∈ g.map Prod.fst, k ∈ visited := by
  obtain ⟨st, e, h1, _, h3⟩ := findLoop_spec g (g.map Prod.fst) { visited := [], recursive := [] }
    ⟨by simp, by simp⟩
  exact ⟨st.recursive, st.visited, by simp [findRecursive, e], h1, h3⟩

/-- Each element of a cycle has a successor in the cycle. -/
theorem Cycle.next {e : String → String → Prop} {l : List String} (h : Cycle e l) :
    ∀ x ∈ l, ∃ y ∈ l, e x y := by
  obtain ⟨first, rest, rfl, hc⟩ := h
  have key : ∀ (l : List String), Chain e (l ++ [first]) → ∀ x ∈ l, ∃ y, (y ∈ l ∨ y = first) ∧ e x y := by
    intro l
    induction l with
    | nil => simp
    | cons a l ih =>
      intro hc x hx
      cases l with
      | nil =>
        rw [List.mem_singleton.1 hx]
        exact ⟨first, .inr rfl, hc.1⟩
      | cons b l =>
        have hc' : e a b ∧ Chain e ((b :: l) ++ [first]) := hc
        rcases List.mem_cons.1 hx with rfl | hx
        · exact ⟨b, .inl (by simp), hc'.1⟩
        · obtain ⟨y, hy, he⟩ := ih hc'.2 x hx
          exact ⟨y, hy.imp (fun h => List.mem_cons_of_mem _ h) id, he⟩
  intro x hx
  obtain ⟨y, hy, he⟩ := key _ hc x hx
  exact ⟨y, by rcases hy with h | rfl; exact h; simp, he⟩

theorem cycle_marked {g : DepGraph} {visited r : List String} (h : DfsInv g ⟨visited, r⟩)
    (hall : ∀ k ∈ g.map Prod.fst, k ∈ visited) {l : List String} (hc : Cycle (GEdge g) l) :
    ∃ v ∈ l, v ∈ r := by
  have hnext := hc.next
  apply Classical.byContradiction
  intro hno
  have hun : ∀ v ∈ l, v ∉ r := fun v hv hr => hno ⟨v, hv, hr⟩
  -- no prefix of the visited names has a member of the cycle
  have key : ∀ (k : Nat) (pre post : List String), pre.length = k → visited = pre ++ post →
      ∀ v ∈ l, v ∉ pre := by
    intro k
    induction k using Nat.strongRecOn with
    | _ k ih =>
      intro pre post hk he v hv hvp
      obtain ⟨p, q, rfl⟩ := List.append_of_mem hvp
      obtain ⟨w, hw, hedge⟩ := hnext v hv
      have := h.order p v (q ++ post) (by simp [he]) w hedge
      rcases this with hwp | hr
      · exact ih p.length (by simp at hk; omega) p (v :: q ++ post) rfl (by simp [he]) w hw hwp
      · exact hun v hv hr
  obtain ⟨first, rest, rfl, _⟩ := hc
  obtain ⟨w, _, ds, hg, _⟩ := hnext first (by simp)
  exact key visited.length visited [] rfl (by simp) first (by simp) (hall _ (depsGet_key hg))

theorem mem_typeNamesIn {n : String} (t : MTy) : n ∈ typeNamesIn t ↔ Stores n t := by
  induction t with
  | map k v ihk ihv =>
    simp only [typeNamesIn, List.mem_append, ihk, ihv]
    constructor
    · rintro (h | h)
      · exact .key h
      · exact .value h
    · intro h
      cases h with
      | key h => exact .inl h
      | value h => exact .inr h
  | optional t ih | sequence t ih | set t ih | box t ih =>
    simp only [typeNamesIn, ih]
    constructor
    · intro h; constructor; exact h
    · intro h; cases h; assumption
  | record m k | enum m k =>
    simp only [typeNamesIn, List.mem_singleton]
    constructor
    · rintro rfl; constructor
    · intro h; cases h; rfl
  | _ =>
    simp only [typeNamesIn, List.not_mem_nil, false_iff]
    intro h; cases h

theorem depsGet_typeDepGraph (defs : List (String × List MTy)) (hn : (defs.map Prod.fst).Nodup)
    (a b : String) : GEdge (typeDepGraph defs) a b ↔ Edge defs a b := by
  unfold GEdge Edge
  induction defs with
  | nil => simp [typeDepGraph, depsGet]
  | cons d defs ih =>
    obtain ⟨k, fs⟩ := d
    simp only [List.map_cons, List.nodup_cons] at hn
    have ih := ih hn.2
    simp only [typeDepGraph, List.map_cons, depsGet] at ih ⊢
    by_cases h : k = a
    · subst h
      simp only [if_pos, Option.some.injEq, exists_eq_left', List.mem_flatMap, mem_typeNamesIn,
        List.mem_cons, Prod.mk.injEq, true_and]
      constructor
      · intro h; exact ⟨fs, .inl rfl, h⟩
      · rintro ⟨fs', rfl | hm, h⟩
        · exact h
        · exact absurd (List.mem_map.2 ⟨_, hm, rfl⟩) hn.1
    · rw [if_neg h, ih]
      simp only [List.mem_cons, Prod.mk.injEq]
      constructor
      · rintro ⟨f, hm, hh⟩; exact ⟨f, .inr hm, hh⟩
      · rintro ⟨f, ⟨rfl, rfl⟩ | hm, hh⟩
        · exact absurd rfl h
        · exact ⟨f, hm, hh⟩

end Verif.Gen
