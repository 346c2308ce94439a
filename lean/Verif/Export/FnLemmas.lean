import Verif.Export.Lemmas

/-!
# Arguments of functions and signatures: lemmas
-/

namespace Verif.Export

open Spec

/-- Lookup in a map. -/
def look (m : List (String × Value)) (n : String) : Option Value :=
  (m.find? (fun x => x.1 = n)).map Prod.snd

theorem look_append {m m' : List (String × Value)} {n : String} :
    look (m ++ m') n = (look m n).or (look m' n) := by
  unfold look
  rw [List.find?_append]
  cases List.find? (fun x => decide (x.1 = n)) m <;> simp

theorem look_filter_ne {m : List (String × Value)} {k n : String} (h : n ≠ k) :
    look (m.filter (fun x => x.1 ≠ k)) n = look m n := by
  unfold look
  induction m with
  | nil => rfl
  | cons x m ih =>
    by_cases hx : x.1 = k
    · rw [List.filter_cons_of_neg (by simp [hx]), ih, List.find?_cons_of_neg]
      simp only [decide_eq_true_eq]
      exact fun e => h (e ▸ hx)
    · rw [List.filter_cons_of_pos (by simp [hx])]
      by_cases hn : x.1 = n
      · simp [hn]
      · rw [List.find?_cons_of_neg (by simp [hn]), List.find?_cons_of_neg (by simp [hn]), ih]

theorem look_filter_self {m : List (String × Value)} {n : String} :
    look (m.filter (fun x => x.1 ≠ n)) n = none := by
  unfold look
  rw [Option.map_eq_none_iff, List.find?_eq_none]
  intro x hx
  simpa using (List.mem_filter.1 hx).2

theorem look_insert {m : List (String × Value)} {e : String × Value} {n : String} :
    look (insert m e) n = if e.1 = n then some e.2 else look m n := by
  unfold insert
  rw [look_append]
  split
  · rename_i h
    subst h
    rw [look_filter_self]
    simp [look]
  · rename_i h
    rw [look_filter_ne (Ne.symm h)]
    simp [look, h]

theorem lastFor_cons {n : String} {e : String × Value} {es : List (String × Value)} :
    lastFor n (e :: es) = (lastFor n es).or (if e.1 = n then some e.2 else none) := by
  unfold lastFor
  rw [List.reverse_cons, List.find?_append]
  cases List.find? (fun p => decide (p.1 = n)) es.reverse with
  | some x => simp
  | none => by_cases h : e.1 = n <;> simp [h]

theorem look_extend {m es : List (String × Value)} {n : String} :
    look (extend m es) n = (lastFor n es).or (look m n) := by
  induction es generalizing m with
  | nil => simp [extend, lastFor]
  | cons e es ih =>
    have : extend m (e :: es) = extend (insert m e) es := rfl
    rw [this, ih, look_insert, lastFor_cons]
    cases lastFor n es <;> by_cases h : e.1 = n <;> simp [h]

theorem mem_keys_insert {m : List (String × Value)} {e : String × Value} {k : String} :
    k ∈ (insert m e).map Prod.fst ↔ k ∈ m.map Prod.fst ∨ k = e.1 := by
  unfold insert
  simp only [List.map_append, List.mem_append, List.mem_map, List.mem_filter, List.map_cons, List.map_nil,
    List.mem_singleton]
  constructor
  · rintro (⟨x, ⟨hx, _⟩, rfl⟩ | rfl)
    · exact .inl ⟨x, hx, rfl⟩
    · exact .inr rfl
  · rintro (⟨x, hx, rfl⟩ | rfl)
    · by_cases h : x.1 = e.1
      · exact .inr h
      · exact .inl ⟨x, ⟨hx, by simpa using h⟩, rfl⟩
    · exact .inr rfl

theorem keys_insert {m : List (String × Value)} {e : String × Value} (h : (m.map Prod.fst).Nodup) :
    ((insert m e).map Prod.fst).Nodup := by
  unfold insert
  rw [List.map_append, List.map_cons, List.map_nil, nodup_snoc]
  refine ⟨?_, ?_⟩
  · exact h.sublist (List.filter_sublist.map _)
  · rw [List.mem_map]
    rintro ⟨x, hx, hxe⟩
    have := (List.mem_filter.1 hx).2
    simp [hxe] at this

theorem keys_extend {m es : List (String × Value)} (h : (m.map Prod.fst).Nodup) :
    ((extend m es).map Prod.fst).Nodup := by
  induction es generalizing m with
  | nil => exact h
  | cons e es ih => exact ih (keys_insert h)

theorem mem_keys_extend {m es : List (String × Value)} {k : String} :
    k ∈ (extend m es).map Prod.fst ↔ k ∈ m.map Prod.fst ∨ k ∈ es.map Prod.fst := by
  induction es generalizing m with
  | nil => simp [extend]
  | cons e es ih =>
    have : extend m (e :: es) = extend (insert m e) es := rfl
    rw [this, ih, mem_keys_insert, List.map_cons, List.mem_cons]
    constructor
    · rintro ((h | h) | h) <;> simp_all
    · rintro (h | h | h) <;> simp_all

theorem lastFor_append {n : String} {a b : List (String × Value)} :
    lastFor n (a ++ b) = (lastFor n b).or (lastFor n a) := by
  unfold lastFor
  rw [List.reverse_append, List.find?_append]
  cases List.find? (fun p => decide (p.1 = n)) b.reverse <;> simp

/-- The value found is the one written when names are not repeated. -/
theorem lastFor_of_mem {n : String} {v : Value} {ps : List (String × Value)} (h : (ps.map Prod.fst).Nodup)
    (hm : (n, v) ∈ ps) : lastFor n ps = some v := by
  induction ps with
  | nil => cases hm
  | cons e ps ih =>
    rw [List.map_cons, List.nodup_cons] at h
    rw [lastFor_cons]
    rcases List.mem_cons.1 hm with rfl | hm
    · have : lastFor n ps = none := by
        unfold lastFor
        rw [Option.map_eq_none_iff, List.find?_eq_none]
        intro x hx
        simp only [decide_eq_true_eq]
        intro hxn
        exact h.1 (List.mem_map.2 ⟨x, List.mem_reverse.1 hx, hxn⟩)
      simp [this]
    · simp [ih h.2 hm]

theorem mem_of_lastFor {n : String} {v : Value} {ps : List (String × Value)} (h : lastFor n ps = some v) :
    (n, v) ∈ ps := by
  unfold lastFor at h
  rw [Option.map_eq_some_iff] at h
  obtain ⟨x, hx, rfl⟩ := h
  have h1 := List.mem_of_find?_eq_some hx
  have h2 := List.find?_some hx
  simp at h2
  subst h2
  exact List.mem_reverse.1 h1

theorem lastFor_isSome {n : String} {ps : List (String × Value)} :
    (lastFor n ps).isSome ↔ n ∈ ps.map Prod.fst := by
  unfold lastFor
  rw [Option.isSome_map, List.find?_isSome, List.mem_map]
  simp

/-! ### Entries -/

theorem parseEntries_ok {t : Bool} {es : List DefaultEntry} {ps : List (String × Value)} :
    parseEntries t es = .ok ps ↔ EntriesOk es t ∧ ps = es.map entryPair := by
  induction es generalizing ps with
  | nil =>
    simp only [parseEntries, Except.ok.injEq]
    constructor
    · rintro rfl; exact ⟨⟨by simp, by simp⟩, rfl⟩
    · rintro ⟨_, rfl⟩; rfl
  | cons e es ih =>
    obtain ⟨n, v⟩ := e
    cases v with
    | some v =>
      rw [parseEntries, bind_ok]
      have hE : EntriesOk (⟨n, some v⟩ :: es) t ↔ EntriesOk es t := by
        unfold EntriesOk
        cases es with
        | nil => simp
        | cons e' es' => simp
      rw [hE]
      constructor
      · rintro ⟨tail, ht, h⟩
        obtain ⟨h1, rfl⟩ := ih.1 ht
        cases h
        exact ⟨h1, rfl⟩
      · rintro ⟨h1, rfl⟩
        exact ⟨_, ih.2 ⟨h1, rfl⟩, rfl⟩
    | none =>
      cases es with
      | nil =>
        rw [parseEntries]
        cases t
        · simp only [Bool.false_eq_true, if_false, Except.ok.injEq]
          constructor
          · rintro rfl; exact ⟨⟨by simp, by simp⟩, rfl⟩
          · rintro ⟨_, rfl⟩; rfl
        · simp [EntriesOk]
      | cons e' es' =>
        simp [parseEntries, EntriesOk]

/-! ### Arguments of functions -/

theorem FnArgs.merge_ok {a b c : FnArgs} : FnArgs.merge a b = .ok c ↔
    (a.asyncRuntime = none ∨ b.asyncRuntime = none) ∧ (a.name = none ∨ b.name = none) ∧
    c = ⟨a.asyncRuntime.or b.asyncRuntime, a.name.or b.name, extend a.defaults b.defaults⟩ := by
  unfold FnArgs.merge
  simp only [bind_ok, either_ok]
  constructor
  · rintro ⟨_, ⟨h1, rfl⟩, _, ⟨h2, rfl⟩, h⟩
    cases h
    exact ⟨h1, h2, rfl⟩
  · rintro ⟨h1, h2, rfl⟩
    exact ⟨_, ⟨h1, rfl⟩, _, ⟨h2, rfl⟩, rfl⟩

theorem FnArgs.parseOne_ok {x : Argument} {p : FnArgs} : FnArgs.parseOne x = .ok p ↔
    (x = .assign "async_runtime" "tokio" ∧ p = { asyncRuntime := some .tokio }) ∨
    (∃ n, x = .assign "name" n ∧ p = { name := some n }) ∨
    (∃ es t, x = .defaults es t ∧ EntriesOk es t ∧ p = { defaults := extend [] (es.map entryPair) }) := by
  cases x with
  | assign k v =>
    simp only [FnArgs.parseOne]
    split
    · rename_i h
      subst h
      simp only [bind_ok, parseRuntime_ok]
      constructor
      · rintro ⟨r, rfl, h⟩; cases r; cases h; simp
      · rintro h
        simp at h
        obtain ⟨rfl, rfl⟩ := h
        exact ⟨.tokio, rfl, rfl⟩
    · split
      · rename_i h
        subst h
        simp [eq_comm]
      · simp_all
  | word w => simp [FnArgs.parseOne]
  | defaults es t =>
    simp only [FnArgs.parseOne, bind_ok, parseEntries_ok]
    constructor
    · rintro ⟨ps, ⟨h, rfl⟩, he⟩
      cases he
      exact .inr (.inr ⟨es, t, rfl, h, rfl⟩)
    · rintro (⟨h, _⟩ | ⟨n, h, _⟩ | ⟨es', t', h, he, rfl⟩)
      · cases h
      · cases h
      · cases h
        exact ⟨_, ⟨he, rfl⟩, rfl⟩

theorem writtenNames_append {l m : List Argument} :
    writtenNames (l ++ m) = writtenNames l ++ writtenNames m := by
  induction l with
  | nil => rfl
  | cons x l ih =>
    cases x <;> simp only [List.cons_append, writtenNames, ih]
    split <;> simp

theorem writtenRuntimes_append {l m : List Argument} :
    writtenRuntimes (l ++ m) = writtenRuntimes l ++ writtenRuntimes m := by
  induction l with
  | nil => rfl
  | cons x l ih =>
    cases x <;> simp only [List.cons_append, writtenRuntimes, ih]
    split <;> simp

theorem written_append {l m : List Argument} : written (l ++ m) = written l ++ written m := by
  induction l with
  | nil => rfl
  | cons x l ih => cases x <;> simp [written, ih]

/-- What has been read so far from the arguments of a function. -/
structure FnRep (l : List Argument) (a : FnArgs) : Prop where
  args : FnArguments l
  name : a.name = (writtenNames l).head?
  asyncRuntime : a.asyncRuntime = (writtenRuntimes l).head?.map (fun _ => .tokio)
  keys : (a.defaults.map Prod.fst).Nodup
  defaults : ∀ n, look a.defaults n = lastFor n (written l)

theorem FnRep.nil : FnRep [] {} :=
  ⟨⟨by simp, by simp [writtenNames], by simp [writtenRuntimes]⟩, rfl, rfl, by simp, by simp [look, lastFor, written]⟩

theorem fnArguments_left {l m : List Argument} (h : FnArguments (l ++ m)) : FnArguments l := by
  obtain ⟨h1, h2, h3⟩ := h
  rw [writtenNames_append, List.length_append] at h2
  rw [writtenRuntimes_append, List.length_append] at h3
  exact ⟨fun y hy => h1 y (by simp [hy]), by omega, by omega⟩

theorem FnArgs.parseOne_known {x : Argument} : (∃ p, FnArgs.parseOne x = .ok p) ↔ FnArgument x := by
  simp only [FnArgs.parseOne_ok, FnArgument]
  constructor
  · rintro ⟨p, ⟨rfl, _⟩ | ⟨n, rfl, _⟩ | ⟨es, t, rfl, h, _⟩⟩
    · exact .inl rfl
    · exact .inr (.inl ⟨n, rfl⟩)
    · exact .inr (.inr ⟨es, t, rfl, h⟩)
  · rintro (rfl | ⟨n, rfl⟩ | ⟨es, t, rfl, h⟩)
    · exact ⟨_, .inl ⟨rfl, rfl⟩⟩
    · exact ⟨_, .inr (.inl ⟨n, rfl, rfl⟩)⟩
    · exact ⟨_, .inr (.inr ⟨es, t, rfl, h, rfl⟩)⟩

/-- One more argument. -/
theorem FnRep.step {l : List Argument} {a p c : FnArgs} {x : Argument} (h : FnRep l a)
    (hp : FnArgs.parseOne x = .ok p) (hc : FnArgs.merge a p = .ok c) : FnRep (l ++ [x]) c := by
  rw [FnArgs.merge_ok] at hc
  obtain ⟨g1, g2, rfl⟩ := hc
  have hk := FnArgs.parseOne_known.1 ⟨p, hp⟩
  have hknown : ∀ y ∈ l ++ [x], FnArgument y := by
    intro y hy
    rcases List.mem_append.1 hy with hy | hy
    · exact h.args.known y hy
    · simp at hy; exact hy ▸ hk
  have e1 := h.args.oneName
  have e2 := h.args.oneRuntime
  have n1 := h.name
  have n2 := h.asyncRuntime
  have hkeys := keys_extend (es := p.defaults) h.keys
  have hdef : ∀ n, look (extend a.defaults p.defaults) n = lastFor n (written (l ++ [x])) := by
    intro n
    rw [look_extend, h.defaults, written_append, lastFor_append]
    rw [FnArgs.parseOne_ok] at hp
    rcases hp with ⟨rfl, rfl⟩ | ⟨m, rfl, rfl⟩ | ⟨es, t, rfl, ht, rfl⟩
    · simp [written, lastFor]
    · simp [written, lastFor]
    · simp only [written, List.append_nil]
      congr 1
      -- the map of one `default(...)` gives the last value for a name
      have hkn : ((extend [] (es.map entryPair)).map Prod.fst).Nodup := keys_extend (by simp)
      have hl : look (extend [] (es.map entryPair)) n = lastFor n (es.map entryPair) := by
        rw [look_extend]; simp [look]
      rw [← hl]
      cases hL : look (extend [] (es.map entryPair)) n with
      | none =>
        have : n ∉ (extend [] (es.map entryPair)).map Prod.fst := by
          unfold look at hL
          rw [Option.map_eq_none_iff, List.find?_eq_none] at hL
          rw [List.mem_map]
          rintro ⟨y, hy, hyn⟩
          exact hL y hy (by simpa using hyn)
        rw [← lastFor_isSome] at this
        simpa using this
      | some v =>
        unfold look at hL
        rw [Option.map_eq_some_iff] at hL
        obtain ⟨y, hy, rfl⟩ := hL
        have h1 := List.mem_of_find?_eq_some hy
        have h2 := List.find?_some hy
        simp at h2
        subst h2
        exact lastFor_of_mem hkn h1
  rw [FnArgs.parseOne_ok] at hp
  rcases hp with ⟨rfl, rfl⟩ | ⟨m, rfl, rfl⟩ | ⟨es, t, rfl, ht, rfl⟩
  · refine ⟨⟨hknown, ?_, ?_⟩, ?_, ?_, hkeys, hdef⟩
    · rw [writtenNames_append]; simpa [writtenNames] using e1
    · rw [writtenRuntimes_append]
      have : writtenRuntimes l = [] := by
        cases hw : writtenRuntimes l with
        | nil => rfl
        | cons y ys => rw [hw] at n2; simp [n2] at g1
      simp [this, writtenRuntimes]
    · rw [writtenNames_append]; simp [writtenNames, n1]
    · rw [writtenRuntimes_append]
      have : writtenRuntimes l = [] := by
        cases hw : writtenRuntimes l with
        | nil => rfl
        | cons y ys => rw [hw] at n2; simp [n2] at g1
      simp [this, writtenRuntimes, n2]
  · refine ⟨⟨hknown, ?_, ?_⟩, ?_, ?_, hkeys, hdef⟩
    · rw [writtenNames_append]
      have : writtenNames l = [] := by
        cases hw : writtenNames l with
        | nil => rfl
        | cons y ys => rw [hw] at n1; simp [n1] at g2
      simp [this, writtenNames]
    · rw [writtenRuntimes_append]; simpa [writtenRuntimes] using e2
    · rw [writtenNames_append]
      have : writtenNames l = [] := by
        cases hw : writtenNames l with
        | nil => rfl
        | cons y ys => rw [hw] at n1; simp [n1] at g2
      simp [this, writtenNames, n1]
    · rw [writtenRuntimes_append]; simp [writtenRuntimes, n2]
  · refine ⟨⟨hknown, ?_, ?_⟩, ?_, ?_, hkeys, hdef⟩
    · rw [writtenNames_append]; simpa [writtenNames] using e1
    · rw [writtenRuntimes_append]; simpa [writtenRuntimes] using e2
    · rw [writtenNames_append]; simp [writtenNames, n1]
    · rw [writtenRuntimes_append]; simp [writtenRuntimes, n2]

/-- One more argument that may be written is taken. -/
theorem FnRep.progress {l : List Argument} {a p : FnArgs} {x : Argument} (h : FnRep l a)
    (hp : FnArgs.parseOne x = .ok p) (hx : FnArguments (l ++ [x])) : ∃ c, FnArgs.merge a p = .ok c := by
  refine ⟨_, FnArgs.merge_ok.2 ⟨?_, ?_, rfl⟩⟩
  · have e := hx.oneRuntime
    rw [writtenRuntimes_append, List.length_append] at e
    rw [FnArgs.parseOne_ok] at hp
    rcases hp with ⟨rfl, rfl⟩ | ⟨m, rfl, rfl⟩ | ⟨es, t, rfl, ht, rfl⟩
    · left
      have : writtenRuntimes l = [] := by
        simp [writtenRuntimes] at e
        exact e
      rw [h.asyncRuntime, this]; rfl
    · exact .inr rfl
    · exact .inr rfl
  · have e := hx.oneName
    rw [writtenNames_append, List.length_append] at e
    rw [FnArgs.parseOne_ok] at hp
    rcases hp with ⟨rfl, rfl⟩ | ⟨m, rfl, rfl⟩ | ⟨es, t, rfl, ht, rfl⟩
    · exact .inr rfl
    · left
      have : writtenNames l = [] := by
        simp [writtenNames] at e
        exact e
      rw [h.name, this]; rfl
    · exact .inr rfl

theorem FnRep.fold {l ps : List Argument} {qs : List FnArgs} {a c : FnArgs} (h : FnRep l a)
    (hq : List.Forall₂ (fun x p => FnArgs.parseOne x = .ok p) ps qs)
    (hc : qs.foldlM FnArgs.merge a = .ok c) : FnRep (l ++ ps) c := by
  induction hq generalizing l a with
  | nil =>
    rw [foldlM_nil_ok] at hc
    simpa using hc ▸ h
  | @cons x p xs qs hx _ ih =>
    rw [foldlM_cons_ok] at hc
    obtain ⟨b, hb, hr⟩ := hc
    simpa using ih (h.step hx hb) hr

theorem FnRep.fold_progress {l ps : List Argument} {qs : List FnArgs} {a : FnArgs} (h : FnRep l a)
    (hq : List.Forall₂ (fun x p => FnArgs.parseOne x = .ok p) ps qs) (hl : FnArguments (l ++ ps)) :
    ∃ c, qs.foldlM FnArgs.merge a = .ok c := by
  induction hq generalizing l a with
  | nil => exact ⟨a, foldlM_nil_ok.2 rfl⟩
  | @cons x p xs qs hx _ ih =>
    have hl' : FnArguments ((l ++ [x]) ++ xs) := by simpa using hl
    obtain ⟨b, hb⟩ := h.progress hx (fnArguments_left hl')
    obtain ⟨c, hc⟩ := ih (h.step hx hb) hl'
    exact ⟨c, foldlM_cons_ok.2 ⟨b, hb, hc⟩⟩

theorem FnArgs.parse_rep {l : List Argument} {a : FnArgs} (h : FnArgs.parse l = .ok a) : FnRep l a := by
  unfold FnArgs.parse at h
  simp only [bind_ok, mapM_ok] at h
  obtain ⟨ps, hps, h⟩ := h
  simpa using FnRep.nil.fold hps h

theorem FnArgs.parse_accepts {l : List Argument} : (∃ a, FnArgs.parse l = .ok a) ↔ FnArguments l := by
  constructor
  · rintro ⟨a, h⟩; exact (FnArgs.parse_rep h).args
  · intro h
    obtain ⟨ps, hps⟩ := forall₂_exists (R := fun x p => FnArgs.parseOne x = .ok p) (l := l)
      (fun x hx => FnArgs.parseOne_known.2 (h.known x hx))
    obtain ⟨c, hc⟩ := FnRep.nil.fold_progress hps (by simpa using h)
    refine ⟨c, ?_⟩
    unfold FnArgs.parse
    simp only [bind_ok, mapM_ok]
    exact ⟨ps, hps, hc⟩

/-! ### Arguments of `impl` blocks -/

theorem implArgs_ok {l : List Argument} {a : ImplArgs} : ImplArgs.parse l = .ok a ↔
    ∃ f, FnArgs.parse l = .ok f ∧ (∀ x ∈ l, ∀ es t, x ≠ .defaults es t) ∧
      a = ⟨f.asyncRuntime, f.name⟩ := by
  -- without default values the two parsers do the same
  have hone : ∀ x, (∀ es t, x ≠ .defaults es t) → ∀ q : ImplArgs, ImplArgs.parseOne x = .ok q ↔
      ∃ p, FnArgs.parseOne x = .ok p ∧ p.defaults = [] ∧ q = ⟨p.asyncRuntime, p.name⟩ := by
    intro x hx q
    cases x with
    | word w => simp [ImplArgs.parseOne, FnArgs.parseOne]
    | defaults es t => exact absurd rfl (hx es t)
    | assign k v =>
      simp only [ImplArgs.parseOne, FnArgs.parseOne]
      split
      · simp only [bind_ok]
        constructor
        · rintro ⟨r, hr, h⟩; cases h; exact ⟨_, ⟨r, hr, rfl⟩, rfl, rfl⟩
        · rintro ⟨p, ⟨r, hr, h⟩, _, rfl⟩; cases h; exact ⟨r, hr, rfl⟩
      · split
        · simp [eq_comm]
        · simp
  have hmerge : ∀ (a b c : ImplArgs) (p q : FnArgs), a = ⟨p.asyncRuntime, p.name⟩ → b = ⟨q.asyncRuntime, q.name⟩ →
      p.defaults = [] → q.defaults = [] →
      (ImplArgs.merge a b = .ok c ↔ ∃ r, FnArgs.merge p q = .ok r ∧ r.defaults = [] ∧ c = ⟨r.asyncRuntime, r.name⟩) := by
    rintro a b c p q rfl rfl hp hq
    simp only [ImplArgs.merge, FnArgs.merge, bind_ok]
    constructor
    · rintro ⟨x, hx, y, hy, h⟩
      cases h
      exact ⟨_, ⟨x, hx, y, hy, rfl⟩, by simp [hp, hq, extend], rfl⟩
    · rintro ⟨r, ⟨x, hx, y, hy, h⟩, _, rfl⟩
      cases h
      exact ⟨x, hx, y, hy, rfl⟩
  have hnodef : ∀ x (q : ImplArgs), ImplArgs.parseOne x = .ok q → ∀ es t, x ≠ .defaults es t := by
    rintro x q h es t rfl
    simp [ImplArgs.parseOne] at h
  have hfold : ∀ (qs : List ImplArgs) (ps : List FnArgs) (a c : ImplArgs) (p : FnArgs),
      List.Forall₂ (fun q p => p.defaults = [] ∧ q = ⟨p.asyncRuntime, p.name⟩) qs ps →
      a = ⟨p.asyncRuntime, p.name⟩ → p.defaults = [] →
      (qs.foldlM ImplArgs.merge a = .ok c ↔
        ∃ r, ps.foldlM FnArgs.merge p = .ok r ∧ r.defaults = [] ∧ c = ⟨r.asyncRuntime, r.name⟩) := by
    intro qs ps a c p h
    induction h generalizing a p with
    | nil =>
      rintro rfl hp
      simp only [foldlM_nil_ok]
      constructor
      · rintro rfl; exact ⟨p, rfl, hp, rfl⟩
      · rintro ⟨r, rfl, _, rfl⟩; rfl
    | @cons q f qs ps hq _ ih =>
      rintro rfl hp
      simp only [foldlM_cons_ok]
      constructor
      · rintro ⟨b, hb, hr⟩
        obtain ⟨r, hr', hd, rfl⟩ := (hmerge _ _ _ _ _ rfl hq.2 hp hq.1).1 hb
        obtain ⟨r2, h2, h3⟩ := (ih _ r rfl hd).1 hr
        exact ⟨r2, ⟨r, hr', h2⟩, h3⟩
      · rintro ⟨r2, ⟨r, hr', h2⟩, h3⟩
        have hd : r.defaults = [] := by
          have := FnArgs.merge_ok.1 hr'
          rw [this.2.2]; simp [hp, hq.1, extend]
        exact ⟨_, (hmerge _ _ _ _ _ rfl hq.2 hp hq.1).2 ⟨r, hr', hd, rfl⟩, (ih _ r rfl hd).2 ⟨r2, h2, h3⟩⟩
  unfold ImplArgs.parse FnArgs.parse
  simp only [bind_ok, mapM_ok]
  constructor
  · rintro ⟨qs, hqs, h⟩
    have : ∀ x ∈ l, ∀ es t, x ≠ .defaults es t := by
      intro x hx
      clear h
      induction hqs with
      | nil => cases hx
      | cons h1 _ ih =>
        rcases List.mem_cons.1 hx with rfl | hx
        · exact hnodef _ _ h1
        · exact ih hx
    have : ∃ ps, List.Forall₂ (fun x p => FnArgs.parseOne x = .ok p) l ps ∧
        List.Forall₂ (fun q p => p.defaults = [] ∧ q = ⟨p.asyncRuntime, p.name⟩) qs ps := by
      clear h
      induction hqs with
      | nil => exact ⟨[], .nil, .nil⟩
      | @cons x q xs qs h1 _ ih =>
        obtain ⟨ps, hp1, hp2⟩ := ih (fun y hy => this y (by simp [hy]))
        obtain ⟨p, hp, hd, hq⟩ := (hone x (this x (by simp)) q).1 h1
        exact ⟨p :: ps, .cons hp hp1, .cons ⟨hd, hq⟩ hp2⟩
    obtain ⟨ps, hp1, hp2⟩ := this
    obtain ⟨r, hr, _, rfl⟩ := (hfold qs ps _ a {} hp2 rfl rfl).1 h
    exact ⟨r, ⟨ps, hp1, hr⟩, by assumption, rfl⟩
  · rintro ⟨r, ⟨ps, hps, hr⟩, hnd, rfl⟩
    have : ∃ qs, List.Forall₂ (fun x q => ImplArgs.parseOne x = .ok q) l qs ∧
        List.Forall₂ (fun q p => p.defaults = [] ∧ q = ⟨p.asyncRuntime, p.name⟩) qs ps := by
      clear hr
      induction hps with
      | nil => exact ⟨[], .nil, .nil⟩
      | @cons x p xs ps h1 _ ih =>
        obtain ⟨qs, hp1, hp2⟩ := ih (fun y hy => hnd y (by simp [hy]))
        have hd : p.defaults = [] := by
          rw [FnArgs.parseOne_ok] at h1
          rcases h1 with ⟨rfl, rfl⟩ | ⟨n, rfl, rfl⟩ | ⟨es, t, rfl, _⟩
          · rfl
          · rfl
          · exact absurd rfl (hnd _ (by simp) es t)
        exact ⟨⟨p.asyncRuntime, p.name⟩ :: qs, .cons ((hone x (hnd x (by simp)) _).2 ⟨p, h1, hd, rfl⟩) hp1,
          .cons ⟨hd, rfl⟩ hp2⟩
    obtain ⟨qs, hq1, hq2⟩ := this
    have hd : r.defaults = [] := by
      have : ∀ (ps : List FnArgs) (qs : List ImplArgs) (p : FnArgs), List.Forall₂ (fun q p => p.defaults = [] ∧
          q = (⟨p.asyncRuntime, p.name⟩ : ImplArgs)) qs ps → p.defaults = [] →
          ps.foldlM FnArgs.merge p = .ok r → r.defaults = [] := by
        intro ps qs p h
        induction h generalizing p with
        | nil => intro hp h; rw [foldlM_nil_ok] at h; exact h ▸ hp
        | cons h1 _ ih =>
          intro hp h
          obtain ⟨b, hb, h⟩ := foldlM_cons_ok.1 h
          refine ih b ?_ h
          rw [(FnArgs.merge_ok.1 hb).2.2]; simp [hp, h1.1, extend]
      exact this ps qs {} hq2 rfl hr
    exact ⟨qs, hq1, (hfold qs ps _ _ {} hq2 rfl rfl).2 ⟨r, hr, hd, rfl⟩⟩

end Verif.Export
