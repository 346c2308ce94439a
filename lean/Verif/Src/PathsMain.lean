import Verif.Src.PathsLemmas
namespace Verif.Src

variable {ir : Ir}

/-! ### Places in the program -/

theorem canon_parent {p : RPath} (h : Canon ir p) (hl : 2 ≤ p.length) : Canon ir p.dropLast := by
  cases h with
  | root _ => simp at hl
  | builtin _ => simp at hl
  | item h _ _ => rw [List.dropLast_concat]; exact h

theorem moduleIds_mem {items : List Item} {i : Item} (h : i ∈ items) : ∀ x ∈ i.moduleIds, x ∈ itemsModuleIds items := by
  induction items with
  | nil => cases h
  | cons a as ih =>
    intro x hx
    rw [itemsModuleIds]
    cases h with
    | head => exact List.mem_append_left _ hx
    | tail _ h => exact List.mem_append_right _ (ih h x hx)

theorem useIdents_mem {items : List Item} {i : Item} (h : i ∈ items) : ∀ x ∈ i.useIdents, x ∈ itemsUseIdents items :=
  useRemote_mem (fun _ h => h) h

theorem root_mem {crate m} (h : ir.root crate = some m) : m ∈ ir.roots.map (·.2) := by
  obtain ⟨e, he, rfl⟩ := Option.map_eq_some_iff.1 h
  exact List.mem_map.2 ⟨e, List.mem_of_find?_eq_some he, rfl⟩

theorem canon_last {p : RPath} (h : Canon ir p) : ∀ {i}, p.getLast? = some i →
    (∀ x ∈ i.moduleIds, x ∈ ir.moduleIds) ∧ (∀ x ∈ i.useIdents, x ∈ ir.useIdents) := by
  induction h with
  | root h => intro i hi; cases hi; exact ⟨moduleIds_mem (root_mem h), useIdents_mem (root_mem h)⟩
  | builtin b => intro i hi; cases hi; exact ⟨nofun, nofun⟩
  | @item p id ident vis items j h hl hi ih =>
    intro i hi'
    rw [List.getLast?_concat] at hi'
    cases hi'
    have := ih hl
    refine ⟨fun x hx => this.1 x ?_, fun x hx => this.2 x ?_⟩
    · rw [Item.moduleIds]; exact .tail _ (moduleIds_mem hi x hx)
    · rw [Item.useIdents]; exact useIdents_mem hi x hx

theorem unraw_unraw (i : Ident) : i.unraw.unraw = i.unraw := rfl

theorem idents_unraw {x i} (h : i ∈ ir.idents x) : i.unraw ∈ ir.idents x := by
  unfold Ir.idents at *
  rcases List.mem_append.1 h with h | h
  · exact List.mem_append_right _ (List.mem_map.2 ⟨i, h, rfl⟩)
  · obtain ⟨j, hj, rfl⟩ := List.mem_map.1 h
    rw [unraw_unraw]
    exact List.mem_append_right _ (List.mem_map.2 ⟨j, hj, rfl⟩)

theorem idents_use {x i} (h : i ∈ ir.useIdents) : i ∈ ir.idents x :=
  List.mem_append_left _ (List.mem_cons_of_mem _ h)

theorem idents_self {i} : i ∈ ir.idents i := List.mem_append_left _ List.mem_cons_self

theorem mem_keys {x id i ns} (h1 : id ∈ ir.moduleIds) (h2 : i ∈ ir.idents x) :
    (id, i, ns) ∈ ir.keys x := by
  refine List.mem_flatMap.2 ⟨id, h1, List.mem_flatMap.2 ⟨i, h2, List.mem_map.2 ⟨ns, ?_, rfl⟩⟩⟩
  cases ns <;> decide

theorem length_flatMap_const {α β : Type} {f : α → List β} {n : Nat} (h : ∀ a, (f a).length = n) :
    ∀ l : List α, (l.flatMap f).length = l.length * n
  | [] => by simp
  | a :: l => by
    rw [List.flatMap_cons, List.length_append, h, length_flatMap_const h l, List.length_cons, Nat.succ_mul,
      Nat.add_comm]

theorem keys_length {x} : (ir.keys x).length < ir.fuel := by
  unfold Ir.keys Ir.fuel
  rw [length_flatMap_const (n := 2 * (ir.useIdents.length + 1) * 4)]
  · omega
  · intro id
    rw [length_flatMap_const (n := 4) (fun _ => rfl)]
    unfold Ir.idents
    simp only [List.length_append, List.length_map, List.length_cons]
    omega

theorem childStart_inr {p ident id items} (h : childStart p ident = .inr (id, items)) :
    ∃ mi vis, p.getLast? = some (.module id mi vis items) := by
  unfold childStart at h
  split at h
  · exact nomatch h
  · split at h
    · exact nomatch h
    · split at h
      · exact nomatch h
      · cases h; exact ⟨_, _, by assumption⟩
      · exact nomatch h

theorem childStart_inl {p ident ns r} (hp : Canon ir p) (h : childStart p ident = .inl r) :
    AnsOk ir p ident ns r := by
  unfold childStart at h
  split at h
  · rename_i hid; subst hid
    cases h
    unfold RPath.parent
    split
    · rename_i q hq
      split at hq
      · exact nomatch hq
      · exact nomatch hq
      · cases hq
        have hl : 2 ≤ p.length := by
          match p with
          | [] => simp_all
          | [a] => rename_i h; exact absurd rfl (h a)
          | _ :: _ :: _ => simp
        exact good ⟨canon_parent hp hl, .super hl⟩
    · exact bad (by decide)
  · split at h
    · rename_i hid; subst hid
      cases h
      unfold RPath.crateRoot
      cases p with
      | nil => exact absurd rfl (canon_ne hp)
      | cons a as => exact good ⟨canon_root hp, .crate⟩
    · split at h
      · cases h; exact bad' (fun _ h => by cases h; rfl)
      · exact nomatch h
      · cases h; exact bad (by decide)

/-! ### The cache -/

/-- What the cache says is right, and is what the lookup without a cache says. -/
def Good (ir : Ir) (c : Cache) : Prop :=
  ∀ id ident ns r, c.get (id, ident, ns) = some r → Plain r ∧
    ∀ p mi vis items, Canon ir p → p.getLast? = some (.module id mi vis items) →
      (∀ q, r = .ok q → Canon ir q ∧ Names ir p ident ns q) ∧
      ∀ k, childRef ir k p ident ns ≠ .error .fuel → r = childRef ir k p ident ns

/-- The lookups in progress take longer than the one that starts now. -/
def Stack (ir : Ir) (resolving : List Key) (p : RPath) (ident : Ident) (ns : Ns) : Prop :=
  ∀ id' ident' ns', (id', ident', ns') ∈ resolving → ∀ p' mi vis items, Canon ir p' →
    p'.getLast? = some (.module id' mi vis items) → ∀ h, childRef ir h p' ident' ns' ≠ .error .fuel →
      ∃ h' < h, childRef ir h' p ident ns ≠ .error .fuel

theorem get_cons {key key' : Key} {r : Res RPath} {l : List (Key × Res RPath)} {res res'} :
    Cache.get ⟨(key, r) :: l, res⟩ key' = if key = key' then some r else Cache.get ⟨l, res'⟩ key' := by
  unfold Cache.get
  rw [List.find?_cons]
  by_cases h : key = key'
  · subst h; simp
  · rw [if_neg h]
    have : (key == key') = false := by simpa using h
    simp [this]

theorem first_height {P : Nat → Prop} (h0 : ¬ P 0) : ∀ k, P k → ∃ m, ¬ P m ∧ P (m + 1)
  | 0, h => absurd h h0
  | k + 1, h => by
    by_cases hk : P k
    · exact first_height h0 k hk
    · exact ⟨k, hk, h⟩

theorem same_place (hu : ir.Unique) {p q : RPath} (hp : Canon ir p) (hq : Canon ir q) {id mi vis items mi' vis' items'}
    (h1 : p.getLast? = some (.module id mi vis items)) (h2 : q.getLast? = some (.module id mi' vis' items')) :
    p = q := hu p q hp hq (by rw [h1, h2]; rfl)

theorem child_main (hu : ir.Unique) (x : Ident) : ∀ n c p ident ns, Canon ir p → ident ∈ ir.idents x →
    Good ir c → c.resolving.Nodup → c.resolving ⊆ ir.keys x →
    (ir.keys x).length < n + c.resolving.length → Stack ir c.resolving p ident ns →
    AnsOk ir p ident ns (child ir n p ident ns c).1 ∧ Good ir (child ir n p ident ns c).2 ∧
    (child ir n p ident ns c).2.resolving = c.resolving ∧
    ∀ k, childRef ir k p ident ns ≠ .error .fuel → (child ir n p ident ns c).1 = childRef ir k p ident ns := by
  intro n
  induction n with
  | zero =>
    intro c p ident ns _ _ _ hnd hsub hlen _
    have := List.Nodup.length_le_of_subset hnd hsub
    omega
  | succ n ihn =>
    intro c p ident ns hp hident hgood hnd hsub hlen hstack
    rw [child]
    split
    · rename_i r hr
      refine ⟨childStart_inl hp hr, hgood, rfl, ?_⟩
      intro k hk
      cases k with
      | zero => exact absurd rfl hk
      | succ k => rw [childRef, hr]
    · rename_i id items hr
      obtain ⟨mi, vis, hl⟩ := childStart_inr hr
      have hplace := canon_last hp hl
      have hidm : id ∈ ir.moduleIds := hplace.1 _ (by rw [Item.moduleIds]; exact .head _)
      have hS : ∀ i ∈ itemsUseIdents items, i ∈ ir.idents x :=
        fun i hi => idents_use (hplace.2 i (by rw [Item.useIdents]; exact hi))
      split
      · rename_i hcyc
        refine ⟨bad (by decide), hgood, rfl, ?_⟩
        intro k hk
        obtain ⟨m, hm1, hm2⟩ := first_height
          (P := fun k => childRef ir k p ident ns ≠ .error .fuel) (fun h => h rfl) k hk
        obtain ⟨h', hlt, hne⟩ := hstack _ _ _ hcyc p mi vis items hp hl _ hm2
        exact absurd (by rw [childRef_le (by omega : h' ≤ m) hne]; exact hne) hm1
      · rename_i hcyc
        split
        · rename_i r hget
          have hg := hgood _ _ _ _ hget
          have := hg.2 p mi vis items hp hl
          exact ⟨⟨hg.1, this.1⟩, hgood, rfl, this.2⟩
        · rename_i hget
          have hwp := childBody_wp (ns := ns) hp hl hS (idents_unraw hident)
          let I : Cache → Prop := fun s => Good ir s ∧ s.resolving = (id, ident, ns) :: c.resolving
          have hI0 : I { c with resolving := (id, ident, ns) :: c.resolving } :=
            ⟨fun id i ns r h => hgood id i ns r h, rfl⟩
          have hnd' : ((id, ident, ns) :: c.resolving).Nodup := List.nodup_cons.2 ⟨hcyc, hnd⟩
          have hsub' : ((id, ident, ns) :: c.resolving) ⊆ ir.keys x :=
            List.cons_subset.2 ⟨mem_keys hidm hident, hsub⟩
          have hlen' : (ir.keys x).length < n + ((id, ident, ns) :: c.resolving).length := by
            simp only [List.length_cons]; omega
          -- the call below, once the stack condition is known
          have step : ∀ p' i' ns' s, AskOk ir (ir.idents x) p' i' ns' → I s →
              Stack ir ((id, ident, ns) :: c.resolving) p' i' ns' →
              (AnsOk ir p' i' ns' (child ir n p' i' ns' s).1 ∧ I (child ir n p' i' ns' s).2) ∧
              ∀ k, childRef ir k p' i' ns' ≠ .error .fuel → (child ir n p' i' ns' s).1 = childRef ir k p' i' ns' := by
            intro p' i' ns' s ha hs hst
            have := ihn s p' i' ns' ha.1 ha.2 hs.1 (hs.2 ▸ hnd') (hs.2 ▸ hsub') (hs.2 ▸ hlen') (hs.2 ▸ hst)
            exact ⟨⟨this.1, this.2.1, this.2.2.1.trans hs.2⟩, this.2.2.2⟩
          -- the run of the body
          have main : AnsOk ir p ident ns ((childBody ir p items ident ns).run (child ir n)
                { c with resolving := (id, ident, ns) :: c.resolving }).1 ∧
              I ((childBody ir p items ident ns).run (child ir n)
                { c with resolving := (id, ident, ns) :: c.resolving }).2 ∧
              ∀ k, childRef ir k p ident ns ≠ .error .fuel →
                ((childBody ir p items ident ns).run (child ir n)
                { c with resolving := (id, ident, ns) :: c.resolving }).1 = childRef ir k p ident ns := by
            by_cases hends : ∃ k, childRef ir k p ident ns ≠ .error .fuel
            · obtain ⟨k, hk⟩ := hends
              obtain ⟨m, hm1, hm2⟩ := first_height
                (P := fun k => childRef ir k p ident ns ≠ .error .fuel) (fun h => h rfl) k hk
              have hm2' : (childBody ir p items ident ns).eval (childRef ir m) ≠ .error .fuel := by
                rw [childRef, hr] at hm2; exact hm2
              have := strict_run (I := I) (ref := childRef ir m) (ch := child ir n) ?_ childBody_strict hwp hI0 hm2'
              · refine ⟨this.1, this.2.1, fun k' hk' => ?_⟩
                rw [this.2.2]
                have hle : m + 1 ≤ k' := by
                  rcases Nat.lt_or_ge m k' with h | h
                  · exact h
                  · exact absurd (by rw [childRef_le h hk']; exact hk') hm1
                rw [childRef_le hle hm2, childRef, hr]
              · intro p' i' ns' s ha hs hne
                have := step p' i' ns' s ha hs ?_
                · exact ⟨this.1.1, this.1.2, this.2 _ hne⟩
                · intro id'' i'' ns'' hmem p'' mi'' vis'' items'' hp'' hl'' h'' hne''
                  cases hmem with
                  | head =>
                    have := same_place hu hp hp'' hl hl''
                    subst this
                    refine ⟨m, ?_, hne⟩
                    rcases Nat.lt_or_ge m h'' with h | h
                    · exact h
                    · exact absurd (by rw [childRef_le h hne'']; exact hne'') hm1
                  | tail _ hmem =>
                    obtain ⟨h', hlt, hne'⟩ := hstack _ _ _ hmem p'' mi'' vis'' items'' hp'' hl'' h'' hne''
                    refine ⟨m, ?_, hne⟩
                    rcases Nat.lt_or_ge m h' with h | h
                    · omega
                    · exact absurd (by rw [childRef_le h hne']; exact hne') hm1
            · have := wp_run (I := I) (ch := child ir n) ?_ hwp hI0
              · exact ⟨this.1, this.2, fun k hk => absurd ⟨k, hk⟩ hends⟩
              · intro p' i' ns' s ha hs
                refine (step p' i' ns' s ha hs ?_).1
                intro id'' i'' ns'' hmem p'' mi'' vis'' items'' hp'' hl'' h'' hne''
                cases hmem with
                | head =>
                  have := same_place hu hp hp'' hl hl''
                  subst this
                  exact absurd ⟨h'', hne''⟩ hends
                | tail _ hmem =>
                  obtain ⟨h', hlt, hne'⟩ := hstack _ _ _ hmem p'' mi'' vis'' items'' hp'' hl'' h'' hne''
                  exact absurd ⟨h', hne'⟩ hends
          obtain ⟨h1, ⟨h2, h3⟩, h4⟩ := main
          dsimp only
          refine ⟨h1, ?_, ?_, h4⟩
          · intro id' i' ns' r hg
            rw [get_cons (res' := [])] at hg
            split at hg
            · rename_i heq
              cases hg
              cases heq
              refine ⟨h1.1, fun p' mi' vis' items' hp' hl' => ?_⟩
              have := same_place hu hp hp' hl hl'
              subst this
              exact ⟨h1.2, h4⟩
            · exact h2 id' i' ns' r hg
          · rw [h3, List.erase_cons_head]

/-- A call of `child` when no other is in progress. -/
theorem child_top (hu : ir.Unique) {c p} (ident : Ident) (ns : Ns) (hp : Canon ir p) (hg : Good ir c)
    (hr : c.resolving = []) :
    AnsOk ir p ident ns (child ir ir.fuel p ident ns c).1 ∧
    (Good ir (child ir ir.fuel p ident ns c).2 ∧ (child ir ir.fuel p ident ns c).2.resolving = []) ∧
    ∀ k, childRef ir k p ident ns ≠ .error .fuel →
      (child ir ir.fuel p ident ns c).1 = childRef ir k p ident ns := by
  have := child_main hu ident ir.fuel c p ident ns hp idents_self hg (by rw [hr]; exact List.nodup_nil)
    (by rw [hr]; exact List.nil_subset _) (by rw [hr]; exact keys_length) (by rw [hr]; exact nofun)
  exact ⟨this.1, ⟨this.2.1, this.2.2.1.trans hr⟩, this.2.2.2⟩

theorem good_empty : Good ir {} := by
  intro id i ns r h
  exact nomatch h

theorem reach_good (hu : ir.Unique) {c} (h : Reach ir c) : Good ir c ∧ c.resolving = [] := by
  induction h with
  | empty => exact ⟨good_empty, rfl⟩
  | child ident ns _ hp ih => exact (child_top hu ident ns hp ih.1 ih.2).2.1

/-- An answer is right, and is the answer without a cache if that comes to an end. -/
def AnsRef (ir : Ir) (p : RPath) (i : Ident) (ns : Ns) (r : Res RPath) : Prop :=
  AnsOk ir p i ns r ∧ ∀ k, childRef ir k p i ns ≠ .error .fuel → r = childRef ir k p i ns

theorem strict_wp {α : Type} {A} {Q : Res α → Prop} : ∀ {m : Prog (Res α)}, m.Strict → m.wp A (AnsOk ir) Q →
    m.wp A (AnsRef ir) (fun r => Q r ∧ ∀ k, m.eval (childRef ir k) ≠ .error .fuel → r = m.eval (childRef ir k))
  | .ret _, _, hm => ⟨hm, fun _ _ => rfl⟩
  | .ask p i ns k, hst, hm => by
    refine ⟨hm.1, fun r hr => wp_mono ?_ (strict_wp (m := k r) (hst.2 r) (hm.2 r hr.1))⟩
    rintro a ⟨ha, hk⟩
    refine ⟨ha, fun n hne => ?_⟩
    have h : childRef ir n p i ns ≠ .error .fuel := by
      intro h
      simp only [Prog.eval, h, hst.1] at hne
      exact hne rfl
    simp only [Prog.eval] at hne ⊢
    rw [← hr.2 n h] at hne ⊢
    exact hk n hne

theorem run_wp (hu : ir.Unique) {α : Type} {S} {Q : α → Prop} {m : Prog α} {c : Cache}
    (hwp : m.wp (AskOk ir S) (AnsRef ir) Q) (hc : Reach ir c) :
    Q (m.run (child ir ir.fuel) c).1 ∧ Reach ir (m.run (child ir ir.fuel) c).2 :=
  wp_run (I := Reach ir) (ch := child ir ir.fuel) (fun p i ns s ha hs =>
    ⟨⟨(child_top hu i ns ha.1 (reach_good hu hs).1 (reach_good hu hs).2).1,
      (child_top hu i ns ha.1 (reach_good hu hs).1 (reach_good hu hs).2).2.2⟩, .child i ns hs ha.1⟩) hwp hc

/-- A program that asks only at places of the program, from a reachable cache. -/
theorem run_main (hu : ir.Unique) {α : Type} {S} {Q : α → Prop} {m : Prog α} {c : Cache}
    (hwp : m.wp (AskOk ir S) (AnsOk ir) Q) (hc : Reach ir c) :
    Q (m.run (child ir ir.fuel) c).1 ∧ Reach ir (m.run (child ir ir.fuel) c).2 :=
  wp_run (I := Reach ir) (ch := child ir ir.fuel) (fun p i ns s ha hs =>
    ⟨(child_top hu i ns ha.1 (reach_good hu hs).1 (reach_good hu hs).2).1, .child i ns hs ha.1⟩) hwp hc

/-- The same for a strict program that ends without a cache. -/
theorem run_ref (hu : ir.Unique) {α : Type} {S} {Q : Res α → Prop} {m : Prog (Res α)} {c : Cache} {k : Nat}
    (hst : m.Strict) (hwp : m.wp (AskOk ir S) (AnsOk ir) Q) (hc : Reach ir c)
    (hk : m.eval (childRef ir k) ≠ .error .fuel) :
    (m.run (child ir ir.fuel) c).1 = m.eval (childRef ir k) :=
  (strict_run (I := Reach ir) (ch := child ir ir.fuel) (ref := childRef ir k) (fun p i ns s ha hs hne =>
    ⟨(child_top hu i ns ha.1 (reach_good hu hs).1 (reach_good hu hs).2).1, .child i ns hs ha.1,
      (child_top hu i ns ha.1 (reach_good hu hs).1 (reach_good hu hs).2).2.2 k hne⟩) hst hwp hc hk).2.2

/-! ### `resolve` -/

theorem resolve_ref {S p path ns} (hp : Canon ir p) (hS : ∀ i ∈ path.segs, i ∈ S) :
    (resolve ir p path ns).wp (AskOk ir S) (AnsRef ir) (fun r => PathOk ir p path ns r ∧
      ∀ k, resolveRef ir k p path ns ≠ .error .fuel → r = resolveRef ir k p path ns) :=
  strict_wp resolve_strict (resolve_wp hp hS)

theorem resolve_main (hu : ir.Unique) {c p} (path : Path) (ns : Ns) (hp : Canon ir p) (hc : Reach ir c) :
    PathOk ir p path ns (resolveTop ir p path ns c).1 ∧ Reach ir (resolveTop ir p path ns c).2 ∧
    ∀ k, Ends ir k p path ns → (resolveTop ir p path ns c).1 = resolveRef ir k p path ns := by
  have hwp := resolve_wp (ns := ns) (S := path.segs) hp (fun i hi => hi)
  exact ⟨(run_main hu hwp hc).1, (run_main hu hwp hc).2, fun k hk => run_ref hu resolve_strict hwp hc hk⟩

end Verif.Src
