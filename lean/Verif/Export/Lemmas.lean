import Verif.Export.Spec
import Mathlib.Data.List.Forall2

/-!
# Reading the arguments of an attribute: lemmas
-/

namespace Verif.Export

open Spec

theorem bind_ok {α β : Type} {x : Except Err α} {f : α → Except Err β} {r : β} :
    (x >>= f) = .ok r ↔ ∃ a, x = .ok a ∧ f a = .ok r := by
  cases x <;> simp [bind, Except.bind]

theorem pure_ok {α : Type} {a b : α} : (pure a : Except Err α) = .ok b ↔ a = b := by
  simp [pure, Except.pure]

theorem mapM_nil_ok {α β : Type} {f : α → Except Err β} {r : List β} :
    [].mapM f = .ok r ↔ r = [] := by
  rw [List.mapM_nil, pure_ok, eq_comm]

theorem mapM_cons_ok {α β : Type} {f : α → Except Err β} {x : α} {l : List α} {r : List β} :
    (x :: l).mapM f = .ok r ↔ ∃ y ys, f x = .ok y ∧ l.mapM f = .ok ys ∧ r = y :: ys := by
  simp only [List.mapM_cons, bind_ok, pure_ok]
  constructor
  · rintro ⟨y, hy, ys, hys, rfl⟩; exact ⟨y, ys, hy, hys, rfl⟩
  · rintro ⟨y, ys, hy, hys, rfl⟩; exact ⟨y, hy, ys, hys, rfl⟩

theorem mapM_ok {α β : Type} {f : α → Except Err β} {l : List α} {r : List β} :
    l.mapM f = .ok r ↔ List.Forall₂ (fun x y => f x = .ok y) l r := by
  induction l generalizing r with
  | nil => rw [mapM_nil_ok]; constructor <;> intro h
           · subst h; exact .nil
           · cases h; rfl
  | cons x l ih =>
    rw [mapM_cons_ok]
    constructor
    · rintro ⟨y, ys, hy, hys, rfl⟩; exact .cons hy (ih.1 hys)
    · intro h
      cases h with
      | cons hy hys => exact ⟨_, _, hy, ih.2 hys, rfl⟩

theorem foldlM_nil_ok {α β : Type} {f : β → α → Except Err β} {b r : β} :
    [].foldlM f b = .ok r ↔ b = r := by
  simp [pure_ok]

theorem foldlM_cons_ok {α β : Type} {f : β → α → Except Err β} {b r : β} {x : α} {l : List α} :
    (x :: l).foldlM f b = .ok r ↔ ∃ b', f b x = .ok b' ∧ l.foldlM f b' = .ok r := by
  simp only [List.foldlM_cons, bind_ok]

theorem either_ok {α : Type} {a b c : Option α} :
    either a b = .ok c ↔ (a = none ∨ b = none) ∧ c = a.or b := by
  cases a <;> cases b <;> simp [either, eq_comm]

theorem parseRuntime_ok {s : String} {r : Runtime} : parseRuntime s = .ok r ↔ s = "tokio" := by
  unfold parseRuntime
  split
  · cases r; simp_all
  · simp_all

/-! ### Traits -/

/-- What has been read so far from the arguments of a trait. -/
structure TraitRep (l : List Argument) (a : TraitArgs) : Prop where
  args : TraitArguments l
  asyncRuntime : a.asyncRuntime.isSome ↔ .assign "async_runtime" "tokio" ∈ l
  callbackInterface : a.callbackInterface.isSome ↔ .word "callback_interface" ∈ l
  withForeign : a.withForeign.isSome ↔ .word "with_foreign" ∈ l
  rust : a.rust.isSome ↔ .word "rust" ∈ l
  foreign : a.foreign.isSome ↔ .word "foreign" ∈ l
  remote : a.remote.isSome ↔ .word "remote" ∈ l

theorem TraitRep.nil : TraitRep [] {} :=
  ⟨⟨by simp, by simp, by simp, by simp⟩, by simp, by simp, by simp, by simp, by simp, by simp⟩

theorem merge_ok {a b c : TraitArgs} : TraitArgs.merge a b = .ok c ↔
    (a.asyncRuntime = none ∨ b.asyncRuntime = none) ∧
    (a.callbackInterface = none ∨ b.callbackInterface = none) ∧
    (a.withForeign = none ∨ b.withForeign = none) ∧
    (a.rust = none ∨ b.rust = none) ∧
    (a.foreign = none ∨ b.foreign = none) ∧
    (a.remote = none ∨ b.remote = none) ∧
    ¬ ((c.rust.isSome ∨ c.foreign.isSome) ∧ (c.callbackInterface.isSome ∨ c.withForeign.isSome)) ∧
    ¬ (c.callbackInterface.isSome ∧ c.withForeign.isSome) ∧
    c = ⟨a.asyncRuntime.or b.asyncRuntime, a.callbackInterface.or b.callbackInterface,
      a.withForeign.or b.withForeign, a.rust.or b.rust, a.foreign.or b.foreign, a.remote.or b.remote⟩ := by
  unfold TraitArgs.merge
  simp only [bind_ok, either_ok]
  constructor
  · rintro ⟨_, ⟨h1, rfl⟩, _, ⟨h2, rfl⟩, _, ⟨h3, rfl⟩, _, ⟨h4, rfl⟩, _, ⟨h5, rfl⟩, _, ⟨h6, rfl⟩, h⟩
    split at h
    · cases h
    · split at h
      · cases h
      · cases h
        rename_i g7 g8
        simp only [Bool.and_eq_true, Bool.or_eq_true] at g7 g8
        exact ⟨h1, h2, h3, h4, h5, h6, g7, g8, rfl⟩
  · rintro ⟨h1, h2, h3, h4, h5, h6, h7, h8, rfl⟩
    refine ⟨_, ⟨h1, rfl⟩, _, ⟨h2, rfl⟩, _, ⟨h3, rfl⟩, _, ⟨h4, rfl⟩, _, ⟨h5, rfl⟩, _, ⟨h6, rfl⟩, ?_⟩
    rw [if_neg (by simpa only [Bool.and_eq_true, Bool.or_eq_true] using h7),
      if_neg (by simpa only [Bool.and_eq_true, Bool.or_eq_true] using h8)]

theorem TraitArgs.parseOne_ok {x : Argument} {p : TraitArgs} : TraitArgs.parseOne x = .ok p ↔
    (x = .assign "async_runtime" "tokio" ∧ p = { asyncRuntime := some .tokio }) ∨
    (x = .word "callback_interface" ∧ p = { callbackInterface := some () }) ∨
    (x = .word "with_foreign" ∧ p = { withForeign := some () }) ∨
    (x = .word "rust" ∧ p = { rust := some () }) ∨
    (x = .word "foreign" ∧ p = { foreign := some () }) ∨
    (x = .word "remote" ∧ p = { remote := some () }) := by
  cases x with
  | assign k v =>
    simp only [TraitArgs.parseOne]
    split
    · rename_i h
      subst h
      simp only [bind_ok, parseRuntime_ok]
      constructor
      · rintro ⟨r, rfl, h⟩; cases r; cases h; simp
      · rintro h
        simp at h
        obtain ⟨rfl, rfl⟩ := h
        exact ⟨.tokio, rfl, rfl⟩
    · simp_all
  | word w =>
    simp only [TraitArgs.parseOne]
    repeat' split
    all_goals simp_all [eq_comm]
  | defaults es t => simp [TraitArgs.parseOne]

theorem isSome_or_none {α : Type} {a : Option α} : a = none ↔ ¬ a.isSome = true := by
  cases a <;> simp

theorem nodup_snoc {α : Type} {l : List α} {x : α} : (l ++ [x]).Nodup ↔ l.Nodup ∧ x ∉ l := by
  rw [List.nodup_append]
  constructor
  · rintro ⟨h, _, h'⟩
    exact ⟨h, fun hx => h' x hx x (by simp) rfl⟩
  · rintro ⟨h, hx⟩
    refine ⟨h, by simp, ?_⟩
    intro a ha b hb hab
    simp at hb
    exact hx (by rw [← hb, ← hab]; exact ha)

theorem unit_ext {a b : Option Unit} (h : a.isSome ↔ b.isSome) : a = b := by
  cases a <;> cases b <;> simp_all

theorem runtime_ext {a b : Option Runtime} (h : a.isSome ↔ b.isSome) : a = b := by
  cases a with
  | none => cases b <;> simp_all
  | some x =>
    cases b with
    | none => simp_all
    | some y => cases x; cases y; rfl

theorem TraitRep.ext {l : List Argument} {a b : TraitArgs} (ha : TraitRep l a) (hb : TraitRep l b) : a = b := by
  have h1 := runtime_ext (ha.asyncRuntime.trans hb.asyncRuntime.symm)
  have h2 := unit_ext (ha.callbackInterface.trans hb.callbackInterface.symm)
  have h3 := unit_ext (ha.withForeign.trans hb.withForeign.symm)
  have h4 := unit_ext (ha.rust.trans hb.rust.symm)
  have h5 := unit_ext (ha.foreign.trans hb.foreign.symm)
  have h6 := unit_ext (ha.remote.trans hb.remote.symm)
  cases a; cases b; simp_all

theorem traitArguments_left {l m : List Argument} (h : TraitArguments (l ++ m)) : TraitArguments l := by
  obtain ⟨h1, h2, h3, h4⟩ := h
  rw [List.nodup_append] at h2
  refine ⟨fun y hy => h1 y (by simp [hy]), h2.1, ?_, ?_⟩
  · intro h
    have := h3 (by rcases h with h | h <;> simp [h])
    simp only [List.mem_append, not_or] at this
    exact ⟨this.1.1, this.2.1⟩
  · rintro ⟨ha, hb⟩
    exact h4 ⟨by simp [ha], by simp [hb]⟩

/-- One more argument. -/
theorem TraitRep.step {l : List Argument} {a p c : TraitArgs} {x : Argument} (h : TraitRep l a)
    (hp : TraitArgs.parseOne x = .ok p) : TraitArgs.merge a p = .ok c ↔ TraitRep (l ++ [x]) c := by
  have key : ∀ c, TraitArgs.merge a p = .ok c → TraitRep (l ++ [x]) c := by
    intro c hc
    rw [merge_ok] at hc
    obtain ⟨g1, g2, g3, g4, g5, g6, g7, g8, rfl⟩ := hc
    obtain ⟨hargs, r1, r2, r3, r4, r5, r6⟩ := h
    rw [TraitArgs.parseOne_ok] at hp
    simp only [isSome_or_none, r1, r2, r3, r4, r5, r6] at g1 g2 g3 g4 g5 g6
    rcases hp with ⟨rfl, rfl⟩ | ⟨rfl, rfl⟩ | ⟨rfl, rfl⟩ | ⟨rfl, rfl⟩ | ⟨rfl, rfl⟩ | ⟨rfl, rfl⟩
    all_goals
      simp only [Option.isSome_or, Bool.or_eq_true, r2, r3, r4, r5] at g7 g8
      simp at g1 g2 g3 g4 g5 g6 g7 g8
      refine ⟨⟨?_, ?_, ?_, ?_⟩, ?_, ?_, ?_, ?_, ?_, ?_⟩
      · intro y hy
        rcases List.mem_append.1 hy with hy | hy
        · exact hargs.known y hy
        · simp at hy; subst hy; simp [TraitArgument, traitWords]
      · rw [nodup_snoc]; exact ⟨hargs.once, by assumption⟩
      all_goals
        simp only [List.mem_append, List.mem_singleton, Option.isSome_or, Bool.or_eq_true, r1, r2, r3, r4, r5, r6,
          Option.isSome_none, Option.isSome_some] at *
      all_goals simp_all
  constructor
  · exact key c
  · intro hc
    have hx := (nodup_snoc.1 hc.args.once).2
    have : ∃ c', TraitArgs.merge a p = .ok c' := by
      refine ⟨_, merge_ok.2 ⟨?_, ?_, ?_, ?_, ?_, ?_, ?_, ?_, rfl⟩⟩
      all_goals
        obtain ⟨hargs, r1, r2, r3, r4, r5, r6⟩ := h
        have hs := hc.args.styles
        have hl := hc.args.legacy
        rw [TraitArgs.parseOne_ok] at hp
        rcases hp with ⟨rfl, rfl⟩ | ⟨rfl, rfl⟩ | ⟨rfl, rfl⟩ | ⟨rfl, rfl⟩ | ⟨rfl, rfl⟩ | ⟨rfl, rfl⟩
        all_goals
          simp only [isSome_or_none, r1, r2, r3, r4, r5, r6, Option.isSome_or, Bool.or_eq_true, Option.isSome_none, Option.isSome_some] at *
          simp at *
          try grind
    obtain ⟨c', hc'⟩ := this
    rw [hc', (key c' hc').ext hc]

theorem TraitRep.fold {l ps : List Argument} {qs : List TraitArgs} {a c : TraitArgs} (h : TraitRep l a)
    (hq : List.Forall₂ (fun x p => TraitArgs.parseOne x = .ok p) ps qs) :
    qs.foldlM TraitArgs.merge a = .ok c ↔ TraitRep (l ++ ps) c := by
  induction hq generalizing l a with
  | nil =>
    rw [foldlM_nil_ok, List.append_nil]
    exact ⟨fun e => e ▸ h, fun hc => h.ext hc⟩
  | @cons x p xs qs hx _ ih =>
    rw [foldlM_cons_ok]
    constructor
    · rintro ⟨b, hb, hr⟩
      have := (ih ((h.step hx).1 hb)).1 hr
      simpa using this
    · intro hc
      have hm : TraitArguments (l ++ [x]) := by
        apply traitArguments_left (m := xs)
        have := hc.args
        simpa using this
      have : ∃ b, TraitRep (l ++ [x]) b := by
        refine ⟨⟨if .assign "async_runtime" "tokio" ∈ l ++ [x] then some .tokio else none,
          if .word "callback_interface" ∈ l ++ [x] then some () else none,
          if .word "with_foreign" ∈ l ++ [x] then some () else none,
          if .word "rust" ∈ l ++ [x] then some () else none,
          if .word "foreign" ∈ l ++ [x] then some () else none,
          if .word "remote" ∈ l ++ [x] then some () else none⟩, hm, ?_, ?_, ?_, ?_, ?_, ?_⟩ <;>
        · dsimp only; split <;> simp_all
      obtain ⟨b, hb⟩ := this
      refine ⟨b, (h.step hx).2 hb, (ih hb).2 ?_⟩
      simpa using hc

theorem TraitArgs.parseOne_known {x : Argument} : (∃ p, TraitArgs.parseOne x = .ok p) ↔ TraitArgument x := by
  simp only [TraitArgs.parseOne_ok, TraitArgument, traitWords]
  constructor
  · rintro ⟨p, ⟨rfl, _⟩ | ⟨rfl, _⟩ | ⟨rfl, _⟩ | ⟨rfl, _⟩ | ⟨rfl, _⟩ | ⟨rfl, _⟩⟩ <;> simp
  · rintro (rfl | ⟨w, hw, rfl⟩)
    · exact ⟨_, .inl ⟨rfl, rfl⟩⟩
    · simp at hw
      rcases hw with rfl | rfl | rfl | rfl | rfl <;> simp

theorem forall₂_exists {α β : Type} {R : α → β → Prop} {l : List α} (h : ∀ x ∈ l, ∃ y, R x y) :
    ∃ r, List.Forall₂ R l r := by
  induction l with
  | nil => exact ⟨[], .nil⟩
  | cons x l ih =>
    obtain ⟨y, hy⟩ := h x (by simp)
    obtain ⟨r, hr⟩ := ih (fun z hz => h z (by simp [hz]))
    exact ⟨y :: r, .cons hy hr⟩

theorem TraitArgs.parse_ok {l : List Argument} {a : TraitArgs} :
    TraitArgs.parse l = .ok a ↔ TraitRep l a := by
  unfold TraitArgs.parse
  simp only [bind_ok, mapM_ok]
  constructor
  · rintro ⟨ps, hps, h⟩
    simpa using (TraitRep.nil.fold hps).1 h
  · intro h
    obtain ⟨ps, hps⟩ := forall₂_exists (R := fun x p => TraitArgs.parseOne x = .ok p) (l := l)
      (fun x hx => TraitArgs.parseOne_known.2 (h.args.known x hx))
    exact ⟨ps, hps, (TraitRep.nil.fold hps).2 (by simpa using h)⟩

end Verif.Export
