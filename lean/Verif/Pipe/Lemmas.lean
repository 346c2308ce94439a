import Verif.Pipe.Spec

/-! Walking a tree: the descendants are visited in reading order. -/
namespace Verif.Pipe

/-- The proper parts of a list of values, numbered from `i`, with their paths, in the order of the
walk. -/
def partsOf (parts : Val → List (List Nat × Val)) : Nat → List Val → List (List Nat × Val)
  | _, [] => []
  | i, c :: cs => ([i], c) :: ((parts c).map fun x => (i :: x.1, x.2)) ++ partsOf parts (i + 1) cs

/-- The same with depth bounded by fuel. -/
def partsF : Nat → Val → List (List Nat × Val)
  | 0, _ => []
  | f + 1, v => partsOf (partsF f) 0 (children v)

noncomputable def parts (v : Val) : List (List Nat × Val) := partsF (sizeOf v) v

theorem partsOf_congr {g h : Val → List (List Nat × Val)} :
    ∀ (cs : List Val) (i : Nat), (∀ c ∈ cs, g c = h c) → partsOf g i cs = partsOf h i cs
  | [], _, _ => rfl
  | c :: cs, i, H => by
    simp only [partsOf]
    rw [H c (List.mem_cons_self ..), partsOf_congr cs (i + 1) fun c hc => H c (List.mem_cons_of_mem _ hc)]

theorem partsF_eq : ∀ (n f g : Nat) (v : Val), sizeOf v ≤ n → sizeOf v ≤ f → sizeOf v ≤ g →
    partsF f v = partsF g v
  | 0, _, _, v, h, _, _ => by
    have : 0 < sizeOf v := by cases v <;> simp <;> omega
    omega
  | n + 1, f, g, v, h, hf, hg => by
    have : 0 < sizeOf v := by cases v <;> simp <;> omega
    obtain ⟨f, rfl⟩ : ∃ f', f = f' + 1 := ⟨f - 1, by omega⟩
    obtain ⟨g, rfl⟩ : ∃ g', g = g' + 1 := ⟨g - 1, by omega⟩
    simp only [partsF]
    apply partsOf_congr
    intro c hc
    have := child_size hc
    exact partsF_eq n f g c (by omega) (by omega) (by omega)

theorem parts_eq (v : Val) : parts v = partsOf parts 0 (children v) := by
  unfold parts
  have : 0 < sizeOf v := by cases v <;> simp <;> omega
  obtain ⟨f, hf⟩ : ∃ f', sizeOf v = f' + 1 := ⟨sizeOf v - 1, by omega⟩
  rw [hf]
  simp only [partsF]
  apply partsOf_congr
  intro c hc
  have := child_size hc
  exact partsF_eq f _ _ c (by omega) (by omega) (by omega)

/-- Induction over a tree: from the children to the value. -/
theorem Val.byChildren {P : Val → Prop} (h : ∀ v, (∀ c ∈ children v, P c) → P v) (v : Val) : P v :=
  h v fun c hc => by
    have := child_size hc
    exact Val.byChildren h c
termination_by sizeOf v

theorem mem_partsOf (g : Val → List (List Nat × Val)) :
    ∀ (cs : List Val) (i : Nat) (p : List Nat) (w : Val),
      (p, w) ∈ partsOf g i cs ↔
        ∃ j c, cs[j]? = some c ∧ ((p = [i + j] ∧ w = c) ∨ ∃ q, p = (i + j) :: q ∧ (q, w) ∈ g c)
  | [], i, p, w => by simp [partsOf]
  | c :: cs, i, p, w => by
    simp only [partsOf, List.cons_append, List.mem_cons, List.mem_append, List.mem_map, Prod.exists,
      Prod.mk.injEq, mem_partsOf g cs (i + 1)]
    constructor
    · rintro (⟨rfl, rfl⟩ | ⟨q, w', hm, rfl, rfl⟩ | ⟨j, c', hc, hh⟩)
      · exact ⟨0, w, by simp, Or.inl ⟨by simp, rfl⟩⟩
      · exact ⟨0, c, by simp, Or.inr ⟨q, by simp, hm⟩⟩
      · refine ⟨j + 1, c', by simpa using hc, ?_⟩
        have : i + (j + 1) = i + 1 + j := by omega
        rw [this]
        exact hh
    · rintro ⟨j, c', hc, hh⟩
      cases j with
      | zero =>
        simp only [List.getElem?_cons_zero, Option.some.injEq] at hc
        subst hc
        rcases hh with ⟨rfl, rfl⟩ | ⟨q, rfl, hm⟩
        · exact Or.inl ⟨by simp, rfl⟩
        · exact Or.inr (Or.inl ⟨q, w, hm, by simp, rfl⟩)
      | succ j =>
        refine Or.inr (Or.inr ⟨j, c', by simpa using hc, ?_⟩)
        have : i + (j + 1) = i + 1 + j := by omega
        rw [this] at hh
        exact hh

theorem mem_parts (v : Val) : ∀ p w, (p, w) ∈ parts v ↔ p ≠ [] ∧ at? v p = some w := by
  induction v using Val.byChildren with
  | h v ih =>
    intro p w
    rw [parts_eq, mem_partsOf]
    simp only [Nat.zero_add]
    constructor
    · rintro ⟨j, c, hc, ⟨rfl, rfl⟩ | ⟨q, rfl, hm⟩⟩
      · exact ⟨by simp, by simp [at?, hc]⟩
      · have := (ih c (List.mem_of_getElem? hc) q w).1 hm
        exact ⟨by simp, by simp [at?, hc, this.2]⟩
    · rintro ⟨hp, ha⟩
      cases p with
      | nil => exact absurd rfl hp
      | cons j q =>
        simp only [at?] at ha
        cases hc : (children v)[j]? with
        | none => rw [hc] at ha; cases ha
        | some c =>
          rw [hc] at ha
          simp only at ha
          refine ⟨j, c, hc, ?_⟩
          cases q with
          | nil => simp only [at?, Option.some.injEq] at ha; exact Or.inl ⟨rfl, ha.symm⟩
          | cons k r =>
            exact Or.inr ⟨k :: r, rfl, (ih c (List.mem_of_getElem? hc) _ w).2 ⟨by simp, ha⟩⟩

theorem partsOf_head (g : Val → List (List Nat × Val)) {cs : List Val} {i : Nat}
    {x : List Nat × Val} (h : x ∈ partsOf g i cs) : ∃ j q, x.1 = j :: q ∧ i ≤ j := by
  obtain ⟨p, w⟩ := x
  obtain ⟨j, c, _, ⟨rfl, _⟩ | ⟨q, rfl, _⟩⟩ := (mem_partsOf g cs i p w).1 h
  · exact ⟨_, _, rfl, by omega⟩
  · exact ⟨_, _, rfl, by omega⟩

theorem partsOf_ordered {g : Val → List (List Nat × Val)} :
    ∀ (cs : List Val) (i : Nat),
      (∀ c ∈ cs, (g c).Pairwise fun a b => Before a.1 b.1) →
      (∀ c ∈ cs, ∀ x ∈ g c, x.1 ≠ []) →
      (partsOf g i cs).Pairwise fun a b => Before a.1 b.1
  | [], i, _, _ => by simp [partsOf]
  | c :: cs, i, H, N => by
    simp only [partsOf, List.cons_append, List.pairwise_cons, List.pairwise_append, List.pairwise_map,
      List.mem_append, List.mem_map]
    refine ⟨?_, ?_, ?_, ?_⟩
    · rintro x (⟨y, hy, rfl⟩ | hx)
      · have := N c (List.mem_cons_self ..) y hy
        obtain ⟨p, w⟩ := y
        cases p with
        | nil => exact absurd rfl this
        | cons a q => simp [Before]
      · obtain ⟨j, q, hj, hle⟩ := partsOf_head g hx
        rw [hj]
        simp only [Before]
        left; omega
    · refine (H c (List.mem_cons_self ..)).imp ?_
      intro a b hab
      simp only [Before]
      right; exact ⟨trivial, hab⟩
    · exact partsOf_ordered cs (i + 1) (fun c hc => H c (List.mem_cons_of_mem _ hc))
        (fun c hc => N c (List.mem_cons_of_mem _ hc))
    · rintro x ⟨y, hy, rfl⟩ z hz
      obtain ⟨j, q, hj, hle⟩ := partsOf_head g hz
      rw [hj]
      simp only [Before]
      left; omega

theorem parts_ordered (v : Val) : (parts v).Pairwise fun a b => Before a.1 b.1 := by
  induction v using Val.byChildren with
  | h v ih =>
    rw [parts_eq]
    exact partsOf_ordered _ _ ih fun c _ x hx => ((mem_parts c x.1 x.2).1 hx).1

theorem feed_append {σ ε : Type} (f : Visitor σ ε) (b : List Val) :
    ∀ (a : List Val) (s : σ), feed f (a ++ b) s =
      match feed f a s with
      | (s, .error e) => (s, .error e)
      | (s, .ok ()) => feed f b s
  | [], s => by simp [feed]
  | v :: a, s => by
    simp only [List.cons_append, feed]
    rcases f s v with ⟨s', e | u⟩
    · rfl
    · exact feed_append f b a s'

/-- The step that the walk makes for one child. -/
def step {σ ε : Type} (f : Visitor σ ε) (g : Val → σ → σ × Except ε Unit)
    (acc : σ × Except ε Unit) (c : Val) : σ × Except ε Unit :=
  match acc with
  | (s, .error e) => (s, .error e)
  | (s, .ok ()) =>
    match f s c with
    | (s, .error e) => (s, .error e)
    | (s, .ok ()) => g c s

theorem tryVisitDescendants_eq {σ ε : Type} (f : Visitor σ ε) (v : Val) (s : σ) :
    tryVisitDescendants f v s = (children v).foldl (step f (tryVisitDescendants f)) (s, .ok ()) := by
  rw [tryVisitDescendants]
  have h : ∀ (l : List Val) (acc : σ × Except ε Unit),
      List.foldl (fun acc (c : {x // x ∈ l}) =>
        match acc with
        | (s, .error e) => (s, .error e)
        | (s, .ok ()) =>
          match f s c.1 with
          | (s, .error e) => (s, .error e)
          | (s, .ok ()) => tryVisitDescendants f c.1 s) acc l.attach
      = List.foldl (step f (tryVisitDescendants f)) acc l := by
    intro l acc
    exact List.foldl_attach (l := l) (f := step f (tryVisitDescendants f)) (b := acc)
  exact h _ _

theorem foldl_step_error {σ ε : Type} (f : Visitor σ ε) (g) (s : σ) (e : ε) :
    ∀ l : List Val, List.foldl (step f g) (s, .error e) l = (s, .error e)
  | [] => rfl
  | _ :: l => by simp only [List.foldl, step]; exact foldl_step_error f g s e l

theorem walk_list {σ ε : Type} (f : Visitor σ ε) (g : Val → List (List Nat × Val)) :
    ∀ (cs : List Val) (i : Nat) (s : σ),
      (∀ c ∈ cs, ∀ s, tryVisitDescendants f c s = feed f ((g c).map (·.2)) s) →
      cs.foldl (step f (tryVisitDescendants f)) (s, .ok ()) =
        feed f ((partsOf g i cs).map (·.2)) s
  | [], i, s, _ => by simp [partsOf, feed]
  | c :: cs, i, s, H => by
    simp only [List.foldl_cons, partsOf, List.cons_append, List.map_cons, feed, List.map_append,
      List.map_map, step]
    rcases f s c with ⟨s', e | u⟩
    · exact foldl_step_error f _ s' e cs
    · simp only
      have hfun : ((fun x : List Nat × Val => x.2) ∘ fun x : List Nat × Val => (i :: x.1, x.2))
          = fun x => x.2 := rfl
      rw [hfun, feed_append, H c (List.mem_cons_self ..) s']
      rcases hx : feed f ((g c).map (fun x => x.2)) s' with ⟨s'', e | u⟩
      · simp only [hx]; exact foldl_step_error f _ s'' e cs
      · simp only [hx]; exact walk_list f g cs (i + 1) s'' fun c hc => H c (List.mem_cons_of_mem _ hc)

/-- The walk is feeding the parts in reading order. -/
theorem walk {σ ε : Type} (f : Visitor σ ε) (v : Val) :
    ∀ s, tryVisitDescendants f v s = feed f ((parts v).map (·.2)) s := by
  induction v using Val.byChildren with
  | h v ih =>
    intro s
    rw [tryVisitDescendants_eq, parts_eq]
    exact walk_list f parts (children v) 0 s ih

theorem feed_onType {σ ε : Type} (t : Ty) (f : Visitor σ ε) :
    ∀ (l : List Val) (s : σ), feed (onType t f) l s = feed f (l.filter fun w => typeOf w = t) s
  | [], s => rfl
  | v :: l, s => by
    simp only [feed, onType, List.filter_cons]
    by_cases h : typeOf v = t
    · simp only [h, if_true, decide_true, feed]
      rcases f s v with ⟨s', e | u⟩
      · rfl
      · exact feed_onType t f l s'
    · simp only [h, if_false, decide_false, Bool.false_eq_true]
      exact feed_onType t f l s

/-- The parts of one type. -/
noncomputable def partsOfType (v : Val) (t : Ty) : List (List Nat × Val) :=
  (parts v).filter fun x => typeOf x.2 = t

theorem listsParts (v : Val) (t : Ty) : ListsParts v t (partsOfType v t) where
  ordered := (parts_ordered v).filter _
  complete p w := by
    simp only [partsOfType, List.mem_filter, mem_parts, decide_eq_true_eq, and_assoc]

theorem walk_onType {σ ε : Type} (t : Ty) (f : Visitor σ ε) (v : Val) (s : σ) :
    tryVisitDescendants (onType t f) v s = feed f ((partsOfType v t).map (·.2)) s := by
  rw [walk, feed_onType, partsOfType, List.filter_map]
  rfl

theorem feed_ok {σ ε : Type} (f : σ → Val → σ) :
    ∀ (l : List Val) (s : σ),
      feed (ε := ε) (fun s v => (f s v, .ok ())) l s = (l.foldl f s, .ok ())
  | [], s => rfl
  | v :: l, s => by simp only [feed, List.foldl]; exact feed_ok f l (f s v)

theorem feed_find (p : Val → Bool) :
    ∀ l : List Val,
      (feed (fun (s : Unit) v => if p v then (s, Except.error ()) else (s, .ok ())) l ()).2 =
        if l.any p then .error () else .ok ()
  | [] => rfl
  | v :: l => by
    simp only [feed, List.any_cons]
    by_cases hp : p v = true
    · simp [hp]
    · simp only [hp, Bool.false_eq_true, if_false, Bool.false_or]
      exact feed_find p l

end Verif.Pipe
