import Verif.Src.DeriveSpec
import Verif.Src.EmitAttrs
namespace Verif.Derive
open Verif.Meta Verif.Src

/-! ### Lists of results -/

theorem syn_err {α : Type} {r : SynRes α} (h : ∀ a, r ≠ .ok a) : r = .error .syn := by
  cases r with
  | ok a => exact absurd rfl (h a)
  | error e => cases e; rfl

theorem bind_ok {α β : Type} {r : SynRes α} {f : α → SynRes β} {b : β} :
    (r >>= f) = .ok b ↔ ∃ a, r = .ok a ∧ f a = .ok b := by
  constructor
  · exact synBind
  · rintro ⟨a, rfl, h⟩; exact h

theorem each_cons {α β : Type} {R : α → β → Prop} {a : α} {as : List α} {bs : List β} :
    Each R (a :: as) bs ↔ ∃ b bs', bs = b :: bs' ∧ R a b ∧ Each R as bs' := by
  constructor
  · intro h; cases h with | cons h1 h2 => exact ⟨_, _, rfl, h1, h2⟩
  · rintro ⟨b, bs', rfl, h1, h2⟩; exact .cons h1 h2

theorem each_nil {α β : Type} {R : α → β → Prop} {bs : List β} : Each R ([] : List α) bs ↔ bs = [] := by
  constructor
  · intro h; cases h; rfl
  · rintro rfl; exact .nil

theorem mapM_ok {α β : Type} {f : α → SynRes β} : ∀ {l : List α} {r : List β},
    l.mapM f = .ok r ↔ Each (fun a b => f a = .ok b) l r
  | [], r => by
    rw [List.mapM_nil, each_nil]
    constructor
    · intro h; cases h; rfl
    · rintro rfl; rfl
  | a :: l, r => by
    rw [List.mapM_cons, each_cons, bind_ok]
    constructor
    · rintro ⟨b, hb, h⟩
      obtain ⟨bs, hbs, h⟩ := synBind h
      cases h
      exact ⟨b, bs, rfl, hb, mapM_ok.1 hbs⟩
    · rintro ⟨b, bs, rfl, hb, hbs⟩
      exact ⟨b, hb, bind_ok.2 ⟨bs, mapM_ok.2 hbs, rfl⟩⟩

theorem each_imp {α β : Type} {R S : α → β → Prop} (h : ∀ a b, R a b → S a b) :
    ∀ {as : List α} {bs : List β}, Each R as bs → Each S as bs
  | _, _, .nil => .nil
  | _, _, .cons h1 h2 => .cons (h _ _ h1) (each_imp h h2)

theorem each_len {α β : Type} {R : α → β → Prop} : ∀ {as : List α} {bs : List β}, Each R as bs → as.length = bs.length
  | _, _, .nil => rfl
  | _, _, .cons _ h => by simp [each_len h]

/-- Each element has a partner that is determined by `R`, and elements have one if they satisfy `P`. -/
theorem each_iff {α β : Type} {R S : α → β → Prop} {P : α → Prop} (h : ∀ a b, R a b ↔ P a ∧ S a b) :
    ∀ {as : List α} {bs : List β}, Each R as bs ↔ (∀ a ∈ as, P a) ∧ Each S as bs
  | [], bs => by rw [each_nil, each_nil]; simp
  | a :: as, bs => by
    rw [each_cons, each_cons]
    constructor
    · rintro ⟨b, bs', rfl, h1, h2⟩
      obtain ⟨p, s⟩ := (h _ _).1 h1
      obtain ⟨ps, ss⟩ := (each_iff h).1 h2
      refine ⟨?_, b, bs', rfl, s, ss⟩
      intro x hx
      rcases List.mem_cons.1 hx with rfl | hx
      · exact p
      · exact ps x hx
    · rintro ⟨ps, b, bs', rfl, s, ss⟩
      exact ⟨b, bs', rfl, (h _ _).2 ⟨ps _ List.mem_cons_self, s⟩,
        (each_iff h).2 ⟨fun x hx => ps x (List.mem_cons_of_mem _ hx), ss⟩⟩

/-! ### Merging -/

/-- Merging is associative and `empty` is neutral. -/
structure Lawful {α : Type} (k : Args α) : Prop where
  left : ∀ a, k.merge k.empty a = .ok a
  right : ∀ a, k.merge a k.empty = .ok a
  assoc : ∀ a b c, (k.merge b c >>= k.merge a) = (k.merge a b >>= fun x => k.merge x c)

theorem foldM_merge {α : Type} {k : Args α} (hk : Lawful k) (a : α) : ∀ (xs : List α) (b : α),
    (xs.foldlM k.merge b >>= k.merge a) = (k.merge a b >>= fun x => xs.foldlM k.merge x)
  | [], b => by
    show (Except.ok b >>= k.merge a) = (k.merge a b >>= fun x => Except.ok x)
    cases h : k.merge a b <;> simp only [bind, Except.bind, h]
  | x :: xs, b => by
    simp only [List.foldlM_cons]
    have ih := fun c => foldM_merge hk a xs c
    rw [show ((k.merge b x >>= fun c => xs.foldlM k.merge c) >>= k.merge a)
        = (k.merge b x >>= fun c => (xs.foldlM k.merge c >>= k.merge a)) from bind_assoc _ _ _]
    simp only [ih]
    rw [← bind_assoc, hk.assoc, bind_assoc]

theorem foldM_empty {α : Type} {k : Args α} (hk : Lawful k) (a : α) (xs : List α) :
    (xs.foldlM k.merge k.empty >>= k.merge a) = xs.foldlM k.merge a := by
  rw [foldM_merge hk, hk.right]; rfl

theorem each_append {α β : Type} {R : α → β → Prop} : ∀ {as bs : List α} {zs : List β}, Each R (as ++ bs) zs →
    ∃ ys xs, zs = ys ++ xs ∧ Each R as ys ∧ Each R bs xs
  | [], bs, zs, h => ⟨[], zs, rfl, .nil, h⟩
  | a :: as, bs, zs, h => by
    obtain ⟨b, bs', rfl, h1, h2⟩ := each_cons.1 h
    obtain ⟨ys, xs, rfl, h3, h4⟩ := each_append h2
    exact ⟨b :: ys, xs, rfl, .cons h1 h3, h4⟩

theorem each_join {α β : Type} {R : α → β → Prop} : ∀ {as bs : List α} {ys xs : List β}, Each R as ys → Each R bs xs →
    Each R (as ++ bs) (ys ++ xs)
  | _, _, _, _, .nil, h => h
  | _, _, _, _, .cons h1 h2, h => .cons h1 (each_join h2 h)

theorem lists_cons {key : String} {m : Meta} {ms : List Meta} :
    Lists key (m :: ms) ↔ (m.pathOf.isIdent key = true → ∃ p as, m = .list p (some as)) ∧ Lists key ms := by
  unfold Lists; simp only [List.forall_mem_cons]

theorem args_ok {m : Meta} {as : List Meta} : m.args = .ok as ↔ ∃ p, m = .list p (some as) := by
  unfold Meta.args
  split
  · rename_i p ms
    constructor
    · intro h; cases h; exact ⟨p, rfl⟩
    · rintro ⟨p, h⟩; cases h; rfl
  · rename_i hn
    constructor
    · intro h; exact nomatch h
    · rintro ⟨p, rfl⟩; exact absurd rfl (hn p as)

theorem ofAttrs_from {α : Type} {k : Args α} (hk : Lawful k) : ∀ (ms : List Meta) (a r : α),
    (ms.filter fun m => m.pathOf.isIdent "uniffi").foldlM (fun res m => do
      k.merge res (← k.commaSeparated (← m.args))) a = .ok r ↔
    Lists "uniffi" ms ∧ ∃ xs, Each (fun m x => k.parseOne m = .ok x) (uniffiArgs ms) xs ∧ xs.foldlM k.merge a = .ok r
  | [], a, r => by
    constructor
    · intro h; exact ⟨fun m hm => (nomatch hm), [], each_nil.2 rfl, h⟩
    · rintro ⟨_, xs, h, hr⟩
      rw [show uniffiArgs ([] : List Meta) = [] from rfl, each_nil] at h
      subst h; exact hr
  | m :: ms, a, r => by
    by_cases hm : m.pathOf.isIdent "uniffi" = true
    · rw [List.filter_cons_of_pos (p := fun m : Meta => m.pathOf.isIdent "uniffi") hm, List.foldlM_cons, bind_ok, lists_cons, uniffiArgs_own hm]
      constructor
      · rintro ⟨b, hb, h⟩
        obtain ⟨hl, xs, hxs, hr⟩ := (ofAttrs_from hk ms b r).1 h
        obtain ⟨as, has, hb1⟩ := synBind hb
        clear hb
        obtain ⟨p, rfl⟩ := args_ok.1 has
        obtain ⟨c, hc1, hb⟩ := synBind hb1
        obtain ⟨ys, hys, hc⟩ := synBind hc1
        refine ⟨⟨fun _ => ⟨p, as, rfl⟩, hl⟩, ys ++ xs, ?_, ?_⟩
        · show Each _ (as ++ _) _
          exact each_join (mapM_ok.1 hys) hxs
        · rw [List.foldlM_append, bind_ok]
          refine ⟨b, ?_, hr⟩
          rw [← foldM_empty hk, hc]; exact hb
      · rintro ⟨⟨hp, hl⟩, zs, hzs, hr⟩
        obtain ⟨p, as, rfl⟩ := hp hm
        have hz : ∃ ys xs, zs = ys ++ xs ∧ Each (fun m x => k.parseOne m = .ok x) as ys ∧
            Each (fun m x => k.parseOne m = .ok x) (uniffiArgs ms) xs := by
          have hzs : Each (fun m x => k.parseOne m = .ok x) (as ++ uniffiArgs ms) zs := hzs
          exact each_append hzs
        obtain ⟨ys, xs, rfl, hys, hxs⟩ := hz
        rw [List.foldlM_append, bind_ok] at hr
        obtain ⟨b, hb, hr⟩ := hr
        refine ⟨b, ?_, (ofAttrs_from hk ms b r).2 ⟨hl, xs, hxs, hr⟩⟩
        rw [← foldM_empty hk] at hb
        obtain ⟨c, hc, hb⟩ := synBind hb
        exact bind_ok.2 ⟨as, rfl, bind_ok.2 ⟨c, bind_ok.2 ⟨ys, mapM_ok.2 hys, hc⟩, hb⟩⟩
    · rw [List.filter_cons_of_neg (p := fun m : Meta => m.pathOf.isIdent "uniffi") hm, lists_cons, uniffiArgs_not hm, ofAttrs_from hk ms a r]
      simp only [hm, false_implies, true_and, Bool.false_eq_true]

theorem ofAttrs_ok {α : Type} {k : Args α} (hk : Lawful k) {ms : List Meta} {r : α} :
    k.ofAttrs ms = .ok r ↔
    Lists "uniffi" ms ∧ ∃ xs, Each (fun m x => k.parseOne m = .ok x) (uniffiArgs ms) xs ∧ xs.foldlM k.merge k.empty = .ok r :=
  ofAttrs_from hk ms k.empty r

/-! ### At most one -/

theorem either_fold {α : Type} : ∀ (l : List (Option α)) (a r : Option α),
    l.foldlM either a = .ok r ↔ (a.toList ++ l.filterMap id).length ≤ 1 ∧ r = (a.toList ++ l.filterMap id).head?
  | [], a, r => by
    show Except.ok a = Except.ok r ↔ _
    cases a <;> simp [eq_comm]
  | x :: l, a, r => by
    rw [List.foldlM_cons]
    cases a with
    | none =>
      cases x with
      | none => exact either_fold l none r
      | some x => exact either_fold l (some x) r
    | some a =>
      cases x with
      | none => exact either_fold l (some a) r
      | some x =>
        constructor
        · intro h; exact nomatch h
        · rintro ⟨h, _⟩
          simp at h

theorem one_last {α : Type} {l : List α} (h : l.length ≤ 1) : l.head? = l.getLast? := by
  match l with
  | [] => rfl
  | [_] => rfl
  | _ :: _ :: _ => simp at h

theorem lawful_name : Lawful nameArgs where
  left a := by cases a <;> rfl
  right a := by cases a <;> rfl
  assoc a b c := by cases a <;> cases b <;> cases c <;> rfl

theorem lawful_field : Lawful fieldArgs where
  left a := by obtain ⟨d, n⟩ := a; cases d <;> cases n <;> rfl
  right a := by obtain ⟨d, n⟩ := a; cases d <;> cases n <;> rfl
  assoc a b c := by
    obtain ⟨d, n⟩ := a; obtain ⟨d', n'⟩ := b; obtain ⟨d'', n''⟩ := c
    cases d <;> cases d' <;> cases d'' <;> cases n <;> cases n' <;> cases n'' <;> rfl

theorem lawful_enum : Lawful enumArgs where
  left a := by obtain ⟨d, w, n⟩ := a; cases d <;> cases w <;> cases n <;> rfl
  right a := by obtain ⟨d, w, n⟩ := a; cases d <;> cases w <;> cases n <;> rfl
  assoc a b c := by
    obtain ⟨d, w, n⟩ := a; obtain ⟨d', w', n'⟩ := b; obtain ⟨d'', w'', n''⟩ := c
    cases d <;> cases d' <;> cases d'' <;> cases n <;> cases n' <;> cases n'' <;> cases w <;> cases w' <;> cases w'' <;> rfl

theorem lawful_no : Lawful noArgs where
  left _ := rfl
  right _ := rfl
  assoc _ _ _ := rfl

theorem field_fold' : ∀ (l : List FieldArgs) (a r : FieldArgs), l.foldlM fieldArgs.merge a = .ok r ↔
    (l.map (·.default)).foldlM either a.default = .ok r.default ∧ (l.map (·.name)).foldlM either a.name = .ok r.name
  | [], a, r => by
    show Except.ok a = Except.ok r ↔ Except.ok a.default = Except.ok r.default ∧ Except.ok a.name = Except.ok r.name
    obtain ⟨_, _⟩ := a; obtain ⟨_, _⟩ := r
    simp
  | x :: l, a, r => by
    simp only [List.foldlM_cons, List.map_cons, bind_ok]
    constructor
    · rintro ⟨b, hb, h⟩
      obtain ⟨h1, h2⟩ := (field_fold' l b r).1 h
      obtain ⟨d, hd, hb⟩ := synBind hb
      obtain ⟨n, hn, hb⟩ := synBind hb
      cases hb
      exact ⟨⟨d, hd, h1⟩, ⟨n, hn, h2⟩⟩
    · rintro ⟨⟨d, hd, h1⟩, ⟨n, hn, h2⟩⟩
      exact ⟨⟨d, n⟩, bind_ok.2 ⟨d, hd, bind_ok.2 ⟨n, hn, rfl⟩⟩, (field_fold' l ⟨d, n⟩ r).2 ⟨h1, h2⟩⟩

theorem enum_fold' : ∀ (l : List EnumArgs) (a r : EnumArgs), l.foldlM enumArgs.merge a = .ok r ↔
    (l.map (·.flatError)).foldlM either a.flatError = .ok r.flatError ∧
    (l.map (·.withTryRead)).foldlM either a.withTryRead = .ok r.withTryRead ∧
    (l.map (·.name)).foldlM either a.name = .ok r.name
  | [], a, r => by
    show Except.ok a = Except.ok r ↔ Except.ok a.flatError = Except.ok r.flatError ∧
      Except.ok a.withTryRead = Except.ok r.withTryRead ∧ Except.ok a.name = Except.ok r.name
    obtain ⟨_, _, _⟩ := a; obtain ⟨_, _, _⟩ := r
    simp
  | x :: l, a, r => by
    simp only [List.foldlM_cons, List.map_cons, bind_ok]
    constructor
    · rintro ⟨b, hb, h⟩
      obtain ⟨h1, h2, h3⟩ := (enum_fold' l b r).1 h
      obtain ⟨d, hd, hb⟩ := synBind hb
      obtain ⟨w, hw, hb⟩ := synBind hb
      obtain ⟨n, hn, hb⟩ := synBind hb
      cases hb
      exact ⟨⟨d, hd, h1⟩, ⟨w, hw, h2⟩, ⟨n, hn, h3⟩⟩
    · rintro ⟨⟨d, hd, h1⟩, ⟨w, hw, h2⟩, ⟨n, hn, h3⟩⟩
      exact ⟨⟨d, w, n⟩, bind_ok.2 ⟨d, hd, bind_ok.2 ⟨w, hw, bind_ok.2 ⟨n, hn, rfl⟩⟩⟩,
        (enum_fold' l ⟨d, w, n⟩ r).2 ⟨h1, h2, h3⟩⟩

/-! ### Single arguments -/

theorem name_one {m : Meta} {s : String} : nameOne m = .ok s ↔ textOf "name" m = some s := by
  unfold nameOne
  constructor
  · intro h
    split at h
    · rename_i hn; exact text_value hn h
    · exact nomatch h
  · intro h
    unfold textOf at h
    split at h
    · split at h
      · rename_i p s' hp
        cases h
        rw [if_pos (show (Meta.nameValue p (.str s)).pathOf.isIdent "name" = true from hp)]; rfl
      · exact nomatch h
    · exact nomatch h

theorem text_iff {key : String} {m : Meta} : IsText key m ↔ ∃ s, textOf key m = some s := by
  constructor
  · rintro ⟨p, s, rfl, hp⟩
    exact ⟨s, by rw [textOf, if_pos hp]⟩
  · rintro ⟨s, h⟩
    unfold textOf at h
    split at h
    · split at h
      · rename_i p s' hp; exact ⟨p, s', rfl, hp⟩
      · exact nomatch h
    · exact nomatch h

theorem text_path {key : String} {m : Meta} (h : IsText key m) : m.pathOf.isIdent key = true := by
  obtain ⟨p, s, rfl, hp⟩ := h; exact hp

theorem word_path {key : String} {m : Meta} (h : IsWord key m) : m.pathOf.isIdent key = true := by
  obtain ⟨p, rfl, hp⟩ := h; exact hp

theorem default_path {m : Meta} (h : IsDefault m) : m.pathOf.isIdent "default" = true := by
  rcases h with h | ⟨p, v, rfl, _, hp⟩
  · exact word_path h
  · exact hp

theorem default_one {m : Meta} {v : DefSrc} (hm : m.pathOf.isIdent "default" = true) :
    defaultOne m = .ok v ↔ IsDefault m ∧ defaultIn (fun p => p.isIdent "default") m = some v := by
  cases m with
  | path p =>
    show Except.ok _ = _ ↔ _
    rw [Meta.pathOf] at hm
    simp [IsDefault, IsWord, hm, defaultIn]
  | list p as =>
    constructor
    · intro h; exact nomatch h
    · rintro ⟨⟨q, h, _⟩ | ⟨q, w, h, _⟩, _⟩ <;> exact nomatch h
  | nameValue p w =>
    rw [Meta.pathOf] at hm
    have hd : w ≠ .default → IsDefault (.nameValue p w) := fun h => .inr ⟨p, w, rfl, h, hm⟩
    have hi : defaultIn (fun p => p.isIdent "default") (.nameValue p w) = some w := by simp [defaultIn, hm]
    rw [hi]
    by_cases hw : w = .default
    · subst hw
      constructor
      · intro h; exact nomatch h
      · rintro ⟨⟨q, h, _⟩ | ⟨q, w, h, hne, _⟩, _⟩
        · exact nomatch h
        · cases h; exact absurd rfl hne
    · have : defaultOne (.nameValue p w) = .ok w := by cases w <;> first | rfl | exact absurd rfl hw
      rw [this]
      constructor
      · intro h; cases h; exact ⟨hd hw, rfl⟩
      · rintro ⟨_, h⟩; cases h; rfl

theorem flag_iff {m : Meta} {key : String} {u : Unit} (hm : m.pathOf.isIdent key = true) : flag () m = .ok u ↔ IsWord key m := by
  cases m with
  | path p => exact ⟨fun _ => ⟨p, rfl, hm⟩, fun _ => rfl⟩
  | list p as => exact ⟨fun h => (nomatch h), fun ⟨q, h, _⟩ => (nomatch h)⟩
  | nameValue p as => exact ⟨fun h => (nomatch h), fun ⟨q, h, _⟩ => (nomatch h)⟩

/-- The values of one key among parsed arguments. -/
theorem each_values {α β : Type} {R : Meta → α → Prop} {get : α → Option β} {val : Meta → Option β}
    (h : ∀ m x, R m x → get x = val m) :
    ∀ {as : List Meta} {xs : List α}, Each R as xs → (xs.map get).filterMap id = as.filterMap val
  | _, _, .nil => rfl
  | m :: as, x :: xs, .cons h1 h2 => by
    rw [List.map_cons, List.filterMap_cons, List.filterMap_cons, each_values h h2, h m x h1]; rfl

theorem count_values {β : Type} {key : String} {val : Meta → Option β} : ∀ {as : List Meta},
    (∀ m ∈ as, (val m).isSome = m.pathOf.isIdent key) →
    (as.filter fun m => m.pathOf.isIdent key).length = (as.filterMap val).length
  | [], _ => rfl
  | m :: as, h => by
    have ih := count_values (as := as) (fun x hx => h x (List.mem_cons_of_mem _ hx))
    have hm := h m List.mem_cons_self
    cases hv : val m with
    | none =>
      rw [hv] at hm
      rw [List.filter_cons_of_neg (by rw [← hm]; exact Bool.noConfusion), List.filterMap_cons, hv]; exact ih
    | some b =>
      rw [hv] at hm
      rw [List.filter_cons_of_pos (by rw [← hm]; rfl), List.filterMap_cons, hv]
      simp [ih]

theorem either_values {α β : Type} {R : Meta → α → Prop} {get : α → Option β} {val : Meta → Option β} {key : String}
    (h : ∀ m x, R m x → get x = val m) {as : List Meta} {xs : List α} (hx : Each R as xs)
    (hc : ∀ m ∈ as, (val m).isSome = m.pathOf.isIdent key) (r : Option β) :
    (xs.map get).foldlM either none = .ok r ↔ Once key as ∧ r = (as.filterMap val).getLast? := by
  rw [either_fold, Option.toList_none, List.nil_append, each_values h hx, Once, count_values hc]
  constructor
  · rintro ⟨h1, h2⟩; exact ⟨h1, by rw [h2, one_last h1]⟩
  · rintro ⟨h1, h2⟩; exact ⟨h1, by rw [h2, one_last h1]⟩

theorem each_exists {α β : Type} {R : α → β → Prop} : ∀ {as : List α}, (∀ a ∈ as, ∃ b, R a b) → ∃ bs, Each R as bs
  | [], _ => ⟨[], .nil⟩
  | a :: as, h => by
    obtain ⟨b, hb⟩ := h a List.mem_cons_self
    obtain ⟨bs, hbs⟩ := each_exists (as := as) (fun x hx => h x (List.mem_cons_of_mem _ hx))
    exact ⟨b :: bs, .cons hb hbs⟩

theorem each_left {α β : Type} {R : α → β → Prop} {P : α → Prop} (h : ∀ a b, R a b → P a) :
    ∀ {as : List α} {bs : List β}, Each R as bs → ∀ a ∈ as, P a
  | _, _, .nil, _, ha => nomatch ha
  | _, _, .cons h1 h2, a, ha => by
    rcases List.mem_cons.1 ha with rfl | ha
    · exact h _ _ h1
    · exact each_left h h2 a ha

/-! ### All arguments of an item -/

theorem nameArgs_ok {metas : List Meta} {r : Option String} :
    nameArgs.ofAttrs metas = .ok r ↔ NamesOnly metas ∧ r = textArg "name" (uniffiArgs metas) := by
  rw [ofAttrs_ok lawful_name]
  have key : ∀ m x, nameArgs.parseOne m = .ok x ↔ IsText "name" m ∧ x = textOf "name" m := by
    intro m x
    show (nameOne m >>= fun s => Except.ok (some s)) = _ ↔ _
    rw [bind_ok, text_iff]
    constructor
    · rintro ⟨s, hs, h⟩; cases h; rw [name_one] at hs; exact ⟨⟨s, hs⟩, hs.symm⟩
    · rintro ⟨⟨s, hs⟩, rfl⟩; exact ⟨s, name_one.2 hs, by rw [hs]⟩
  have count : (∀ a ∈ uniffiArgs metas, IsText "name" a) →
      ∀ m ∈ uniffiArgs metas, (textOf "name" m).isSome = m.pathOf.isIdent "name" := by
    intro h m hm
    obtain ⟨s, hs⟩ := text_iff.1 (h m hm)
    rw [hs, text_path (h m hm)]; rfl
  constructor
  · rintro ⟨hl, xs, hxs, hr⟩
    have ht := each_left (fun m x h => ((key m x).1 h).1) hxs
    have hr : (xs.map id).foldlM either none = .ok r := by rw [List.map_id]; exact hr
    rw [either_values (get := id) (fun m x h => ((key m x).1 h).2) hxs (count ht)] at hr
    exact ⟨⟨hl, ht, hr.1⟩, by rw [textArg_eq]; exact hr.2⟩
  · rintro ⟨⟨hl, ht, ho⟩, rfl⟩
    obtain ⟨xs, hxs⟩ := each_exists (R := fun m x => nameArgs.parseOne m = .ok x)
      (fun m hm => ⟨_, (key m _).2 ⟨ht m hm, rfl⟩⟩)
    refine ⟨hl, xs, hxs, ?_⟩
    have := (either_values (get := id) (fun m x h => ((key m x).1 h).2) hxs (count ht) (textArg "name" (uniffiArgs metas))).2
      ⟨ho, textArg_eq _ _⟩
    rw [List.map_id] at this
    exact this

theorem fieldDefault_last {as : List Meta} (h : Once "default" as) :
    (as.filterMap (defaultIn fun p => p.isIdent "default")).getLast? = fieldDefault as := by
  rw [fieldDefault, ← List.head?_filterMap, eq_comm]
  apply one_last
  refine Nat.le_trans ?_ h
  clear h
  induction as with
  | nil => exact Nat.le_refl _
  | cons m as ih =>
    by_cases hm : m.pathOf.isIdent "default" = true
    · rw [List.filter_cons_of_pos (p := fun m : Meta => m.pathOf.isIdent "default") hm, List.filterMap_cons]
      split
      · simp only [List.length_cons]; omega
      · simp only [List.length_cons]; omega
    · rw [List.filter_cons_of_neg (p := fun m : Meta => m.pathOf.isIdent "default") hm, List.filterMap_cons, defaultIn_not (by simpa using hm)]
      exact ih

theorem fieldArgs_ok {metas : List Meta} {r : FieldArgs} :
    fieldArgs.ofAttrs metas = .ok r ↔
    FieldArgsOk metas ∧ r.name = textArg "name" (uniffiArgs metas) ∧ r.default = fieldDefault (uniffiArgs metas) := by
  rw [ofAttrs_ok lawful_field]
  have key : ∀ m x, fieldArgs.parseOne m = .ok x ↔ (IsText "name" m ∨ IsDefault m) ∧
      x = ⟨defaultIn (fun p => p.isIdent "default") m, textOf "name" m⟩ := by
    intro m x
    show (if m.pathOf.isIdent "default" then _ else _) = _ ↔ _
    by_cases hm : m.pathOf.isIdent "default" = true
    · rw [if_pos hm, bind_ok]
      have hn : textOf "name" m = none := text_other (ident_ne hm (by decide))
      have hnt : ¬ IsText "name" m := fun h => by rw [text_iff, hn] at h; obtain ⟨_, h⟩ := h; exact nomatch h
      rw [hn]
      constructor
      · rintro ⟨v, hv, h⟩; cases h
        rw [default_one hm] at hv
        exact ⟨.inr hv.1, by rw [hv.2]⟩
      · rintro ⟨h | h, rfl⟩
        · exact absurd h hnt
        · rcases h' : defaultIn (fun p => p.isIdent "default") m with _ | v
          · rcases h with ⟨p, rfl, hp⟩ | ⟨p, v, rfl, _, hp⟩ <;> simp [defaultIn, hp] at h'
          · exact ⟨v, (default_one hm).2 ⟨h, h'⟩, rfl⟩
    · rw [if_neg hm, bind_ok]
      have hd : defaultIn (fun p => p.isIdent "default") m = none := defaultIn_not (by simpa using hm)
      rw [hd]
      constructor
      · rintro ⟨s, hs, h⟩; cases h
        rw [name_one] at hs
        exact ⟨.inl (text_iff.2 ⟨s, hs⟩), by rw [hs]⟩
      · rintro ⟨h | h, rfl⟩
        · obtain ⟨s, hs⟩ := text_iff.1 h
          exact ⟨s, name_one.2 hs, by rw [hs]⟩
        · exact absurd (default_path h) hm
  have cn : (∀ a ∈ uniffiArgs metas, IsText "name" a ∨ IsDefault a) →
      ∀ m ∈ uniffiArgs metas, (textOf "name" m).isSome = m.pathOf.isIdent "name" := by
    intro h m hm
    rcases h m hm with h | h
    · obtain ⟨s, hs⟩ := text_iff.1 h
      rw [hs, text_path h]; rfl
    · have := ident_ne (default_path h) (show "default" ≠ "name" by decide)
      rw [text_other this, this]; rfl
  have cd : (∀ a ∈ uniffiArgs metas, IsText "name" a ∨ IsDefault a) →
      ∀ m ∈ uniffiArgs metas, (defaultIn (fun p => p.isIdent "default") m).isSome = m.pathOf.isIdent "default" := by
    intro h m hm
    rcases h m hm with h | h
    · have := ident_ne (text_path h) (show "name" ≠ "default" by decide)
      rw [defaultIn_not this, this]; rfl
    · rcases h with ⟨p, rfl, hp⟩ | ⟨p, v, rfl, _, hp⟩ <;> simp [defaultIn, hp, Meta.pathOf]
  constructor
  · rintro ⟨hl, xs, hxs, hr⟩
    have ht := each_left (fun m x h => ((key m x).1 h).1) hxs
    obtain ⟨h1, h2⟩ := (field_fold' xs _ r).1 hr
    rw [show (fieldArgs.empty).default = none from rfl,
      either_values (fun m x h => by rw [((key m x).1 h).2]) hxs (cd ht)] at h1
    rw [show (fieldArgs.empty).name = none from rfl,
      either_values (fun m x h => by rw [((key m x).1 h).2]) hxs (cn ht)] at h2
    exact ⟨⟨hl, ht, h2.1, h1.1⟩, by rw [textArg_eq]; exact h2.2, by rw [← fieldDefault_last h1.1]; exact h1.2⟩
  · rintro ⟨⟨hl, ht, hon, hod⟩, h1, h2⟩
    obtain ⟨xs, hxs⟩ := each_exists (R := fun m x => fieldArgs.parseOne m = .ok x)
      (fun m hm => ⟨_, (key m _).2 ⟨ht m hm, rfl⟩⟩)
    refine ⟨hl, xs, hxs, (field_fold' xs _ r).2 ⟨?_, ?_⟩⟩
    · exact (either_values (fun m x h => by rw [((key m x).1 h).2]) hxs (cd ht) r.default).2
        ⟨hod, by rw [h2, fieldDefault_last hod]⟩
    · exact (either_values (fun m x h => by rw [((key m x).1 h).2]) hxs (cn ht) r.name).2
        ⟨hon, by rw [h1, textArg_eq]⟩

/-- Whether the word is this one. -/
def wordOf (key : String) (m : Meta) : Option Unit := if m.pathOf.isIdent key then some () else none

theorem words_last {key : String} : ∀ {as : List Meta}, (as.filterMap (wordOf key)).getLast?.isSome = wordArg key as
  | [] => rfl
  | m :: as => by
    rw [List.filterMap_cons, wordArg, List.any_cons, ← wordArg, ← words_last (as := as)]
    unfold wordOf
    by_cases h : m.pathOf.isIdent key = true
    · simp [h]
    · simp [h]

theorem word_eq {r : Option Unit} {key : String} {as : List Meta} :
    r = (as.filterMap (wordOf key)).getLast? ↔ r.isSome = wordArg key as := by
  rw [← words_last]
  generalize (as.filterMap (wordOf key)).getLast? = o
  cases r <;> cases o <;> simp

theorem enumArgs_ok {metas : List Meta} {r : EnumArgs} :
    enumArgs.ofAttrs metas = .ok r ↔
    EnumArgsOk metas ∧ r.name = textArg "name" (uniffiArgs metas) ∧
    r.flatError.isSome = wordArg "flat_error" (uniffiArgs metas) ∧
    r.withTryRead.isSome = wordArg "with_try_read" (uniffiArgs metas) := by
  rw [ofAttrs_ok lawful_enum]
  have key : ∀ m x, enumArgs.parseOne m = .ok x ↔ (IsText "name" m ∨ IsWord "flat_error" m ∨ IsWord "with_try_read" m) ∧
      x = ⟨wordOf "flat_error" m, wordOf "with_try_read" m, textOf "name" m⟩ := by
    intro m x
    show (if m.pathOf.isIdent "flat_error" then _ else if m.pathOf.isIdent "with_try_read" then _
      else if m.pathOf.isIdent "handle_unknown_callback_error" then _ else _) = _ ↔ _
    by_cases hf : m.pathOf.isIdent "flat_error" = true
    · have hw := ident_ne hf (show "flat_error" ≠ "with_try_read" by decide)
      have hn := ident_ne hf (show "flat_error" ≠ "name" by decide)
      rw [if_pos hf, bind_ok]
      simp only [wordOf, if_pos hf, hw, text_other hn]
      constructor
      · rintro ⟨u, hu, h⟩; cases h; exact ⟨.inr (.inl ((flag_iff hf).1 hu)), rfl⟩
      · rintro ⟨h | h | h, rfl⟩
        · rw [text_path h] at hn; exact nomatch hn
        · exact ⟨(), (flag_iff hf).2 h, rfl⟩
        · rw [word_path h] at hw; exact nomatch hw
    · rw [if_neg hf]
      by_cases hw : m.pathOf.isIdent "with_try_read" = true
      · have hn := ident_ne hw (show "with_try_read" ≠ "name" by decide)
        rw [if_pos hw, bind_ok]
        simp only [wordOf, if_neg hf, if_pos hw, text_other hn]
        constructor
        · rintro ⟨u, hu, h⟩; cases h; exact ⟨.inr (.inr ((flag_iff hw).1 hu)), rfl⟩
        · rintro ⟨h | h | h, rfl⟩
          · rw [text_path h] at hn; exact nomatch hn
          · exact absurd (word_path h) hf
          · exact ⟨(), (flag_iff hw).2 h, rfl⟩
      · rw [if_neg hw]
        simp only [wordOf, if_neg hf, if_neg hw]
        by_cases hh : m.pathOf.isIdent "handle_unknown_callback_error" = true
        · rw [if_pos hh]
          constructor
          · intro h; exact nomatch h
          · rintro ⟨h | h | h, rfl⟩
            · have := ident_ne hh (show "handle_unknown_callback_error" ≠ "name" by decide)
              rw [text_path h] at this; exact nomatch this
            · exact absurd (word_path h) hf
            · exact absurd (word_path h) hw
        · rw [if_neg hh, bind_ok]
          constructor
          · rintro ⟨s, hs, h⟩; cases h
            rw [name_one] at hs
            exact ⟨.inl (text_iff.2 ⟨s, hs⟩), by rw [hs]⟩
          · rintro ⟨h | h | h, rfl⟩
            · obtain ⟨s, hs⟩ := text_iff.1 h
              exact ⟨s, name_one.2 hs, by rw [hs]⟩
            · exact absurd (word_path h) hf
            · exact absurd (word_path h) hw
  have cn : (∀ a ∈ uniffiArgs metas, IsText "name" a ∨ IsWord "flat_error" a ∨ IsWord "with_try_read" a) →
      ∀ m ∈ uniffiArgs metas, (textOf "name" m).isSome = m.pathOf.isIdent "name" := by
    intro h m hm
    rcases h m hm with h | h | h
    · obtain ⟨s, hs⟩ := text_iff.1 h
      rw [hs, text_path h]; rfl
    · have := ident_ne (word_path h) (show "flat_error" ≠ "name" by decide)
      rw [text_other this, this]; rfl
    · have := ident_ne (word_path h) (show "with_try_read" ≠ "name" by decide)
      rw [text_other this, this]; rfl
  have cw : ∀ w, ∀ m ∈ uniffiArgs metas, (wordOf w m).isSome = m.pathOf.isIdent w := by
    intro w m _
    unfold wordOf
    split <;> simp_all
  constructor
  · rintro ⟨hl, xs, hxs, hr⟩
    have ht := each_left (fun m x h => ((key m x).1 h).1) hxs
    obtain ⟨h1, h2, h3⟩ := (enum_fold' xs _ r).1 hr
    rw [show (enumArgs.empty).flatError = none from rfl,
      either_values (fun m x h => by rw [((key m x).1 h).2]) hxs (cw "flat_error"), word_eq] at h1
    rw [show (enumArgs.empty).withTryRead = none from rfl,
      either_values (fun m x h => by rw [((key m x).1 h).2]) hxs (cw "with_try_read"), word_eq] at h2
    rw [show (enumArgs.empty).name = none from rfl,
      either_values (fun m x h => by rw [((key m x).1 h).2]) hxs (cn ht)] at h3
    exact ⟨⟨hl, ht, h3.1, h1.1, h2.1⟩, by rw [textArg_eq]; exact h3.2, h1.2, h2.2⟩
  · rintro ⟨⟨hl, ht, hn, hf, hw⟩, h1, h2, h3⟩
    obtain ⟨xs, hxs⟩ := each_exists (R := fun m x => enumArgs.parseOne m = .ok x)
      (fun m hm => ⟨_, (key m _).2 ⟨ht m hm, rfl⟩⟩)
    refine ⟨hl, xs, hxs, (enum_fold' xs _ r).2 ⟨?_, ?_, ?_⟩⟩
    · exact (either_values (fun m x h => by rw [((key m x).1 h).2]) hxs (cw "flat_error") r.flatError).2
        ⟨hf, word_eq.2 h2⟩
    · exact (either_values (fun m x h => by rw [((key m x).1 h).2]) hxs (cw "with_try_read") r.withTryRead).2
        ⟨hw, word_eq.2 h3⟩
    · exact (either_values (fun m x h => by rw [((key m x).1 h).2]) hxs (cn ht) r.name).2
        ⟨hn, by rw [h1, textArg_eq]⟩

theorem noArgs_ok {metas : List Meta} : noArgs.ofAttrs metas = .ok () ↔ Lists "uniffi" metas ∧ uniffiArgs metas = [] := by
  rw [ofAttrs_ok lawful_no]
  constructor
  · rintro ⟨hl, xs, hxs, _⟩
    refine ⟨hl, ?_⟩
    cases h : uniffiArgs metas with
    | nil => rfl
    | cons m as =>
      rw [h] at hxs
      obtain ⟨b, bs, _, hb, _⟩ := each_cons.1 hxs
      exact nomatch hb
  · rintro ⟨hl, h⟩
    exact ⟨hl, [], by rw [h]; exact .nil, rfl⟩

end Verif.Derive
