import Verif.Pipe.Lemmas

/-! Searching a tree for printing, and rebuilding it. -/
namespace Verif.Pipe

theorem at?_cons {v c : Val} {j : Nat} (h : (children v)[j]? = some c) (p : List Nat) :
    at? v (j :: p) = at? c p := by
  simp [at?, h]

theorem search_eq (m : Val → Val → Bool) (v : Val) :
    search m v = if (children v).any fun c => m v c then [v] else (children v).flatMap (search m) := by
  rw [search]
  split
  · rfl
  · have := List.flatMap_subtype (l := (children v).attach) (f := fun c => search m c.1)
      (g := search m) (fun _ _ => rfl)
    rw [this, List.unattach_attach]

theorem hit_iff {m : Val → Val → Bool} {v : Val} :
    ((children v).any fun c => m v c) = true ↔ Hit m v := by
  simp [Hit, List.any_eq_true]

theorem firstHit_nil (m : Val → Val → Bool) (v : Val) : FirstHit m v [] := by
  rintro q ⟨i, r, h⟩
  simp at h

theorem firstHit_cons {m : Val → Val → Bool} {v c : Val} {j : Nat}
    (h : (children v)[j]? = some c) (p : List Nat) :
    FirstHit m v (j :: p) ↔ ¬ Hit m v ∧ FirstHit m c p := by
  constructor
  · intro H
    refine ⟨H [] ⟨j, p, rfl⟩ v rfl, ?_⟩
    rintro q ⟨i, r, rfl⟩ w hw
    exact H (j :: q) ⟨i, r, rfl⟩ w (by rw [at?_cons h]; exact hw)
  · rintro ⟨h0, H⟩ q ⟨i, r, hq⟩ w hw
    cases q with
    | nil => simp only [at?, Option.some.injEq] at hw; subst hw; exact h0
    | cons k q =>
      simp only [List.cons_append, List.cons.injEq] at hq
      obtain ⟨rfl, rfl⟩ := hq
      rw [at?_cons h] at hw
      exact H q ⟨i, r, rfl⟩ w hw

/-- What the search prints, with paths. -/
structure Printed (m : Val → Val → Bool) (v : Val) (l : List (List Nat × Val)) : Prop where
  ordered : l.Pairwise fun a b => Before a.1 b.1
  mem : ∀ p w, (p, w) ∈ l ↔ at? v p = some w ∧ Hit m w ∧ FirstHit m v p

theorem search_list (m : Val → Val → Bool) :
    ∀ (cs : List Val) (i : Nat), (∀ c ∈ cs, ∃ l, Printed m c l ∧ search m c = l.map (·.2)) →
      ∃ l : List (List Nat × Val), (l.Pairwise fun a b => Before a.1 b.1) ∧
        (∀ p w, (p, w) ∈ l ↔ ∃ j c q, cs[j]? = some c ∧ p = (i + j) :: q ∧
          (at? c q = some w ∧ Hit m w ∧ FirstHit m c q)) ∧
        cs.flatMap (search m) = l.map (·.2)
  | [], i, _ => ⟨[], by simp, by simp, by simp⟩
  | c :: cs, i, H => by
    obtain ⟨lc, hc, ec⟩ := H c (List.mem_cons_self ..)
    obtain ⟨ls, os, ms, es⟩ := search_list m cs (i + 1) fun c hc => H c (List.mem_cons_of_mem _ hc)
    refine ⟨lc.map (fun x => (i :: x.1, x.2)) ++ ls, ?_, ?_, ?_⟩
    · rw [List.pairwise_append]
      refine ⟨?_, os, ?_⟩
      · rw [List.pairwise_map]
        exact hc.ordered.imp fun h => Or.inr ⟨rfl, h⟩
      · intro a ha b hb
        obtain ⟨x, _, rfl⟩ := List.mem_map.1 ha
        obtain ⟨j, c', q, _, hq, _⟩ := (ms b.1 b.2).1 hb
        rw [hq]
        exact Or.inl (by omega)
    · intro p w
      simp only [List.mem_append, List.mem_map, Prod.exists, Prod.mk.injEq, ms]
      constructor
      · rintro (⟨q, w', hm, rfl, rfl⟩ | ⟨j, c', q, hj, rfl, hh⟩)
        · exact ⟨0, c, q, by simp, by simp, (hc.mem _ _).1 hm⟩
        · exact ⟨j + 1, c', q, by simpa using hj, by congr 1; omega, hh⟩
      · rintro ⟨j, c', q, hj, rfl, hh⟩
        cases j with
        | zero =>
          simp only [List.getElem?_cons_zero, Option.some.injEq] at hj
          subst hj
          exact Or.inl ⟨q, w, (hc.mem _ _).2 hh, by simp, rfl⟩
        | succ j =>
          exact Or.inr ⟨j, c', q, by simpa using hj, by congr 1; omega, hh⟩
    · simp [List.flatMap_cons, ec, es, Function.comp_def]

theorem search_printed (m : Val → Val → Bool) (v : Val) :
    ∃ l, Printed m v l ∧ search m v = l.map (·.2) := by
  induction v using Val.byChildren with
  | h v ih =>
    rw [search_eq]
    by_cases hh : ((children v).any fun c => m v c) = true
    · rw [if_pos hh]
      rw [hit_iff] at hh
      refine ⟨[([], v)], ⟨by simp, ?_⟩, rfl⟩
      intro p w
      simp only [List.mem_singleton, Prod.mk.injEq]
      constructor
      · rintro ⟨rfl, rfl⟩
        exact ⟨rfl, hh, firstHit_nil m _⟩
      · rintro ⟨ha, _, hf⟩
        cases p with
        | nil => simp only [at?, Option.some.injEq] at ha; exact ⟨rfl, ha.symm⟩
        | cons j p => exact absurd hh (hf [] ⟨j, p, rfl⟩ v rfl)
    · rw [if_neg hh]
      rw [hit_iff] at hh
      obtain ⟨l, ol, ml, el⟩ := search_list m (children v) 0 ih
      refine ⟨l, ⟨ol, ?_⟩, el⟩
      intro p w
      rw [ml]
      constructor
      · rintro ⟨j, c, q, hj, rfl, ha, hw, hf⟩
        rw [Nat.zero_add, at?_cons hj, firstHit_cons hj]
        exact ⟨ha, hw, hh, hf⟩
      · rintro ⟨ha, hw, hf⟩
        cases p with
        | nil => simp only [at?, Option.some.injEq] at ha; subst ha; exact absurd hw hh
        | cons j q =>
          cases hc : (children v)[j]? with
          | none => simp [at?, hc] at ha
          | some c =>
            rw [at?_cons hc] at ha
            rw [firstHit_cons hc] at hf
            exact ⟨j, c, q, hc, by simp, ha, hw, hf.2⟩

/-! ### Rebuilding -/

theorem mapAll_map {α β γ ε : Type} (f : β → Except ε γ) (h : α → β) :
    ∀ l : List α, mapAll f (l.map h) = mapAll (fun a => f (h a)) l
  | [] => rfl
  | a :: l => by simp only [List.map_cons, mapAll, mapAll_map f h l]

theorem mapAll_attach {α β ε : Type} (f : α → Except ε β) (l : List α) :
    mapAll (fun a : {x // x ∈ l} => f a.1) l.attach = mapAll f l := by
  have := mapAll_map f (fun a : {x // x ∈ l} => a.1) l.attach
  rw [← this]
  congr 1
  exact List.attach_map_subtype_val l

theorem mapAll_ok {α β ε : Type} {f : α → Except ε β} :
    ∀ {l : List α} {l' : List β}, mapAll f l = .ok l' ↔
      l'.length = l.length ∧ ∀ (i : Nat) (a : α), l[i]? = some a → ∃ b, f a = .ok b ∧ l'[i]? = some b
  | [], l' => by
    cases l' <;> simp [mapAll]
  | a :: l, l' => by
    simp only [mapAll]
    cases hf : f a with
    | error e =>
      simp only [reduceCtorEq, false_iff, not_and]
      intro _ H
      obtain ⟨b, hb, _⟩ := H 0 a rfl
      rw [hf] at hb; cases hb
    | ok b =>
      cases hm : mapAll f l with
      | error e =>
        simp only [reduceCtorEq, false_iff, not_and]
        intro hlen H
        cases l' with
        | nil => simp at hlen
        | cons b' l' =>
          have : mapAll f l = .ok l' := mapAll_ok.2 ⟨by simpa using hlen, fun i x hx => by
            obtain ⟨y, hy, hz⟩ := H (i + 1) x (by simpa using hx)
            exact ⟨y, hy, by simpa using hz⟩⟩
          rw [hm] at this; cases this
      | ok bs =>
        simp only [Except.ok.injEq]
        constructor
        · rintro rfl
          obtain ⟨hlen, H⟩ := mapAll_ok.1 hm
          refine ⟨by simp [hlen], ?_⟩
          intro i x hx
          cases i with
          | zero => simp only [List.getElem?_cons_zero, Option.some.injEq] at hx ⊢; subst hx; exact ⟨b, hf, rfl⟩
          | succ i =>
            obtain ⟨y, hy, hz⟩ := H i x (by simpa using hx)
            exact ⟨y, hy, by simpa using hz⟩
        · rintro ⟨hlen, H⟩
          cases l' with
          | nil => simp at hlen
          | cons b' l' =>
            have h2 : mapAll f l = .ok l' := mapAll_ok.2 ⟨by simpa using hlen, fun i x hx => by
              obtain ⟨y, hy, hz⟩ := H (i + 1) x (by simpa using hx)
              exact ⟨y, hy, by simpa using hz⟩⟩
            rw [hm] at h2
            obtain ⟨y, hy, hz⟩ := H 0 a rfl
            rw [hf] at hy
            simp only [List.getElem?_cons_zero, Option.some.injEq] at hz
            simp only [Except.ok.injEq] at hy h2
            rw [h2, hz, ← hy]

theorem mapAll_error {α β ε : Type} {f : α → Except ε β} {e : ε} :
    ∀ {l : List α}, mapAll f l = .error e →
      ∃ (j : Nat) (a : α), l[j]? = some a ∧ f a = .error e ∧
        ∀ (i : Nat) (b : α), i < j → l[i]? = some b → ∃ b', f b = .ok b'
  | [], h => by simp [mapAll] at h
  | a :: l, h => by
    simp only [mapAll] at h
    cases hf : f a with
    | error e' =>
      rw [hf] at h
      simp only [Except.error.injEq] at h
      subst h
      exact ⟨0, a, rfl, hf, by simp⟩
    | ok b =>
      rw [hf] at h
      cases hm : mapAll f l with
      | ok bs => rw [hm] at h; simp at h
      | error e' =>
        rw [hm] at h
        simp only [Except.error.injEq] at h
        subst h
        obtain ⟨j, x, hj, hx, hall⟩ := mapAll_error hm
        refine ⟨j + 1, x, by simpa using hj, hx, ?_⟩
        intro i y hi hy
        cases i with
        | zero => simp only [List.getElem?_cons_zero, Option.some.injEq] at hy; subst hy; exact ⟨b, hf⟩
        | succ i => exact hall i y (by omega) (by simpa using hy)

/-- Mapping the values of fields is mapping the fields. -/
theorem mapAll_fields {ε : Type} (g : Val → Except ε Val) :
    ∀ fs : List (String × Val),
      mapAll (fun f : String × Val => inField f.1 (g f.2)) fs =
      match mapAll g (fs.map (·.2)) with
      | .error e => .error e
      | .ok vs => .ok ((fs.map (·.1)).zip vs)
  | [] => rfl
  | f :: fs => by
    simp only [mapAll, List.map_cons, mapAll_fields g fs]
    cases g f.2 with
    | error e => rfl
    | ok v =>
      cases mapAll g (fs.map (·.2)) with
      | error e => rfl
      | ok vs => rfl

/-- Every other element, in pairs. -/
def inPairs : List Val → List (Val × Val)
  | a :: b :: l => (a, b) :: inPairs l
  | _ => []

theorem mapAll_entries {ε : Type} (g : Val → Except ε Val) :
    ∀ es : List (Val × Val),
      mapAll (fun e : Val × Val => inEntry (g e.1) (g e.2)) es =
      match mapAll g (es.flatMap fun e => [e.1, e.2]) with
      | .error e => .error e
      | .ok vs => .ok (inPairs vs)
  | [] => rfl
  | e :: es => by
    simp only [mapAll, List.flatMap_cons, List.cons_append, List.nil_append, mapAll_entries g es]
    cases g e.1 with
    | error x => rfl
    | ok k =>
      cases g e.2 with
      | error x => rfl
      | ok v =>
        cases mapAll g (es.flatMap fun e => [e.1, e.2]) with
        | error x => rfl
        | ok vs => rfl

theorem inPairs_flat : ∀ es : List (Val × Val), inPairs (es.flatMap fun e => [e.1, e.2]) = es
  | [] => rfl
  | e :: es => by simp [inPairs, inPairs_flat es]

/-- The same node around other children. -/
def rebuild (c : Collect) : Val → List Val → Val
  | .box t _, v :: _ => .box t v
  | .some t _, v :: _ => .some t v
  | .vec t _, vs => .vec t vs
  | .btreeSet t _, vs => .btreeSet t (c.btreeSet vs)
  | .indexSet t _, vs => .indexSet t (c.indexSet vs)
  | .indexMap k v _, vs => .indexMap k v (c.indexMap (inPairs vs))
  | .struct n fs, vs => .struct n ((fs.map (·.1)).zip vs)
  | .enum n x fs, vs => .enum n x ((fs.map (·.1)).zip vs)
  | v, _ => v

variable {ε : Type} {c : Collect} {custom : String → Option (Val → Except ε Val)}

theorem mapNode_custom {v : Val} {n : String} {f : Val → Except ε Val} (hn : nodeName v = some n)
    (hf : custom n = some f) : mapNode c custom v = f v := by
  cases v <;> simp only [nodeName, reduceCtorEq, Option.some.injEq] at hn <;> subst hn <;>
    rw [mapNode] <;> simp only [hf]

/-- A node without a function of its own is rebuilt around its children. -/
theorem mapNode_plain {v : Val} (h : ¬ Custom custom v) :
    mapNode c custom v =
      match mapAll (mapNode c custom) (children v) with
      | .error e => .error e
      | .ok vs => .ok (rebuild c v vs) := by
  cases v with
  | leaf k s => rw [mapNode]; rfl
  | none t => rw [mapNode]; rfl
  | box t v =>
    rw [mapNode]
    simp only [children, mapAll]
    cases mapNode c custom v <;> rfl
  | some t v =>
    rw [mapNode]
    simp only [children, mapAll]
    cases mapNode c custom v <;> rfl
  | vec t vs =>
    rw [mapNode, mapAll_attach (mapNode c custom) vs]
    rfl
  | btreeSet t vs =>
    rw [mapNode, mapAll_attach (mapNode c custom) vs]
    rfl
  | indexSet t vs =>
    rw [mapNode, mapAll_attach (mapNode c custom) vs]
    rfl
  | indexMap k v es =>
    rw [mapNode]
    have := mapAll_attach
      (fun e : Val × Val => inEntry (mapNode c custom e.1) (mapNode c custom e.2)) es
    rw [this, mapAll_entries]
    simp only [children]
    cases mapAll (mapNode c custom) (es.flatMap fun e => [e.1, e.2]) <;> rfl
  | struct n fs =>
    rw [mapNode]
    cases hc : custom n with
    | some f => exact absurd ⟨n, rfl, by simp [hc]⟩ h
    | none =>
      have := mapAll_attach (fun f : String × Val => inField f.1 (mapNode c custom f.2)) fs
      simp only
      rw [this, mapAll_fields]
      simp only [children]
      cases mapAll (mapNode c custom) (fs.map (·.2)) <;> rfl
  | enum n x fs =>
    rw [mapNode]
    cases hc : custom n with
    | some f => exact absurd ⟨n, rfl, by simp [hc]⟩ h
    | none =>
      have := mapAll_attach (fun f : String × Val => inField f.1 (mapNode c custom f.2)) fs
      simp only
      rw [this, mapAll_fields]
      simp only [children]
      cases mapAll (mapNode c custom) (fs.map (·.2)) <;> rfl

theorem zip_self (fs : List (String × Val)) : (fs.map (·.1)).zip (fs.map (·.2)) = fs := by
  induction fs with
  | nil => rfl
  | cons f fs ih => simp [ih]

theorem rebuild_self {v : Val}
    (hs : (∀ t vs, v = .btreeSet t vs → c.btreeSet vs = vs) ∧
      (∀ t vs, v = .indexSet t vs → c.indexSet vs = vs) ∧
      (∀ k u es, v = .indexMap k u es → c.indexMap es = es)) :
    rebuild c v (children v) = v := by
  cases v with
  | btreeSet t vs => simp only [rebuild, children]; rw [hs.1 _ _ rfl]
  | indexSet t vs => simp only [rebuild, children]; rw [hs.2.1 _ _ rfl]
  | indexMap k u es => simp only [rebuild, children, inPairs_flat]; rw [hs.2.2 _ _ _ rfl]
  | struct n fs => simp only [rebuild, children, zip_self]
  | enum n x fs => simp only [rebuild, children, zip_self]
  | _ => rfl

theorem children_rebuild {v : Val} {vs : List Val} (hl : vs.length = (children v).length)
    (hn : (∀ t vs, v ≠ .btreeSet t vs) ∧ (∀ t vs, v ≠ .indexSet t vs) ∧
      (∀ k u es, v ≠ .indexMap k u es)) :
    children (rebuild c v vs) = vs := by
  cases v with
  | btreeSet t vs => exact absurd rfl (hn.1 _ _)
  | indexSet t vs => exact absurd rfl (hn.2.1 _ _)
  | indexMap k u es => exact absurd rfl (hn.2.2 _ _ _)
  | vec t us => rfl
  | struct n fs =>
    simp only [rebuild, children]
    rw [List.map_snd_zip]
    simp only [children, List.length_map] at hl
    simp [hl]
  | enum n x fs =>
    simp only [rebuild, children]
    rw [List.map_snd_zip]
    simp only [children, List.length_map] at hl
    simp [hl]
  | box t u =>
    match vs, hl with
    | [w], _ => rfl
  | some t u =>
    match vs, hl with
    | [w], _ => rfl
  | leaf k s =>
    match vs, hl with
    | [], _ => rfl
  | none t =>
    match vs, hl with
    | [], _ => rfl

theorem at?_child {v : Val} {j : Nat} {p : List Nat} {w : Val} (h : at? v (j :: p) = some w) :
    ∃ x, (children v)[j]? = some x ∧ at? x p = some w := by
  simp only [at?] at h
  cases hc : (children v)[j]? with
  | none => rw [hc] at h; simp at h
  | some x => rw [hc] at h; exact ⟨x, rfl, h⟩

theorem mapNode_id (v : Val) (hc : ∀ p w, at? v p = some w → ¬ Custom custom w) (hs : Settled c v) :
    mapNode c custom v = .ok v := by
  induction v using Val.byChildren with
  | h v ih =>
    rw [mapNode_plain (hc [] v rfl)]
    have : mapAll (mapNode c custom) (children v) = .ok (children v) := by
      rw [mapAll_ok]
      refine ⟨rfl, ?_⟩
      intro i x hx
      refine ⟨x, ?_, hx⟩
      apply ih x (List.mem_of_getElem? hx)
      · intro p w hw; exact hc (i :: p) w (by rw [at?_cons hx]; exact hw)
      · intro p w hw; exact hs (i :: p) w (by rw [at?_cons hx]; exact hw)
    rw [this]
    simp only
    rw [rebuild_self (hs [] v rfl)]

theorem exposed_cons {v x : Val} {j : Nat} (h : (children v)[j]? = some x) (p : List Nat) :
    Exposed custom v (j :: p) ↔ ¬ Custom custom v ∧ Exposed custom x p := by
  constructor
  · intro H
    refine ⟨H [] ⟨j, p, rfl⟩ v rfl, ?_⟩
    rintro q ⟨i, r, rfl⟩ w hw
    exact H (j :: q) ⟨i, r, rfl⟩ w (by rw [at?_cons h]; exact hw)
  · rintro ⟨h0, H⟩ q ⟨i, r, hq⟩ w hw
    cases q with
    | nil => simp only [at?, Option.some.injEq] at hw; subst hw; exact h0
    | cons k q =>
      simp only [List.cons_append, List.cons.injEq] at hq
      obtain ⟨rfl, rfl⟩ := hq
      rw [at?_cons h] at hw
      exact H q ⟨i, r, rfl⟩ w hw

/-- After a successful rebuild every exposed part has been mapped. -/
theorem mapped_parts : ∀ (p : List Nat) (v v' w : Val), mapNode c custom v = .ok v' →
    at? v p = some w → Exposed custom v p →
    ∃ w', mapNode c custom w = .ok w' ∧ (NoSets v → at? v' p = some w')
  | [], v, v', w, h, hw, _ => by
    simp only [at?, Option.some.injEq] at hw
    subst hw
    exact ⟨v', h, fun _ => rfl⟩
  | j :: p, v, v', w, h, hw, he => by
    obtain ⟨x, hx, hw⟩ := at?_child hw
    rw [exposed_cons hx] at he
    rw [mapNode_plain he.1] at h
    cases hm : mapAll (mapNode c custom) (children v) with
    | error e => rw [hm] at h; simp at h
    | ok vs =>
      rw [hm] at h
      simp only [Except.ok.injEq] at h
      obtain ⟨hl, H⟩ := mapAll_ok.1 hm
      obtain ⟨x', hx', hj⟩ := H j x hx
      obtain ⟨w', hw', ha⟩ := mapped_parts p x x' w hx' hw he.2
      refine ⟨w', hw', fun hn => ?_⟩
      have hk : children v' = vs := by
        rw [← h]
        exact children_rebuild hl (hn [] v rfl)
      rw [at?_cons (by rw [hk]; exact hj)]
      apply ha
      intro q u hu
      exact hn (j :: q) u (by rw [at?_cons hx]; exact hu)

theorem not_before_nil (p : List Nat) : ¬ Before p [] := by cases p <;> simp [Before]

theorem first_failure (e : ε) (v : Val) :
    mapNode c custom v = .error e → ∃ p, FirstFailure custom v p e := by
  induction v using Val.byChildren with
  | h v ih =>
    intro h
    by_cases hc : Custom custom v
    · obtain ⟨n, hn, hs⟩ := hc
      obtain ⟨f, hf⟩ := Option.isSome_iff_exists.1 hs
      rw [mapNode_custom hn hf] at h
      refine ⟨[], ⟨v, n, f, rfl, ?_, hn, hf, h⟩, ?_⟩
      · rintro q ⟨i, r, hq⟩; simp at hq
      · intro q hq; exact absurd hq (not_before_nil q)
    · rw [mapNode_plain hc] at h
      cases hm : mapAll (mapNode c custom) (children v) with
      | ok vs => rw [hm] at h; simp at h
      | error e' =>
        rw [hm] at h
        simp only [Except.error.injEq] at h
        subst h
        obtain ⟨j, x, hj, hx, hall⟩ := mapAll_error hm
        obtain ⟨p, ⟨w, n, f, hw, he, hn, hf, hfail⟩, hrest⟩ := ih x (List.mem_of_getElem? hj) hx
        refine ⟨j :: p, ⟨w, n, f, ?_, ?_, hn, hf, hfail⟩, ?_⟩
        · rw [at?_cons hj]; exact hw
        · rw [exposed_cons hj]; exact ⟨hc, he⟩
        · intro q hq heq w' n' f' hw' hn' hf'
          cases q with
          | nil =>
            simp only [at?, Option.some.injEq] at hw'
            subst hw'
            exact absurd ⟨n', hn', by simp [hf']⟩ hc
          | cons i q =>
            obtain ⟨y, hy, hw'⟩ := at?_child hw'
            rw [exposed_cons hy] at heq
            simp only [Before] at hq
            rcases hq with hlt | ⟨rfl, hq⟩
            · obtain ⟨y', hy'⟩ := hall i y hlt hy
              obtain ⟨u, hu, _⟩ := mapped_parts q y y' w' hy' hw' heq.2
              rw [mapNode_custom hn' hf'] at hu
              exact ⟨u, hu⟩
            · rw [hj] at hy
              simp only [Option.some.injEq] at hy
              subst hy
              exact hrest q hq heq.2 w' n' f' hw' hn' hf'

theorem before_total : ∀ p q : List Nat, Before p q ∨ p = q ∨ Before q p
  | [], [] => by simp
  | [], _ :: _ => by simp [Before]
  | _ :: _, [] => by simp [Before]
  | a :: p, b :: q => by
    rcases before_total p q with h | h | h
    · by_cases hab : a = b
      · subst hab; exact Or.inl (Or.inr ⟨rfl, h⟩)
      · rcases Nat.lt_or_gt_of_ne hab with hl | hl
        · exact Or.inl (Or.inl hl)
        · exact Or.inr (Or.inr (Or.inl hl))
    · subst h
      by_cases hab : a = b
      · subst hab; exact Or.inr (Or.inl rfl)
      · rcases Nat.lt_or_gt_of_ne hab with hl | hl
        · exact Or.inl (Or.inl hl)
        · exact Or.inr (Or.inr (Or.inl hl))
    · by_cases hab : a = b
      · subst hab; exact Or.inr (Or.inr (Or.inr ⟨rfl, h⟩))
      · rcases Nat.lt_or_gt_of_ne hab with hl | hl
        · exact Or.inl (Or.inl hl)
        · exact Or.inr (Or.inr (Or.inl hl))

theorem error_iff (v : Val) (e : ε) :
    mapNode c custom v = .error e ↔ ∃ p, FirstFailure custom v p e := by
  refine ⟨first_failure e v, ?_⟩
  rintro ⟨p, ⟨w, n, f, hw, he, hn, hf, hfail⟩, hrest⟩
  cases hm : mapNode c custom v with
  | ok v' =>
    obtain ⟨u, hu, _⟩ := mapped_parts p v v' w hm hw he
    rw [mapNode_custom hn hf, hfail] at hu
    cases hu
  | error e' =>
    obtain ⟨p', ⟨w', n', f', hw', he', hn', hf', hfail'⟩, hrest'⟩ := first_failure e' v hm
    rcases before_total p p' with hb | hb | hb
    · obtain ⟨u, hu⟩ := hrest' p hb he w n f hw hn hf
      rw [hfail] at hu; cases hu
    · subst hb
      rw [hw] at hw'
      simp only [Option.some.injEq] at hw'
      subst hw'
      rw [hn] at hn'
      simp only [Option.some.injEq] at hn'
      subst hn'
      rw [hf] at hf'
      simp only [Option.some.injEq] at hf'
      subst hf'
      rw [hfail] at hfail'
      simp only [Except.error.injEq] at hfail'
      rw [hfail']
    · obtain ⟨u, hu⟩ := hrest p' hb he' w' n' f' hw' hn' hf'
      rw [hfail'] at hu; cases hu

end Verif.Pipe
