import Verif.Src.StripSpec
import Verif.Src.CfgLemmas
/-
Lemmas for Verif.Props.Cfg: reading a program gives the same as reading what the compiler keeps of it.
-/
namespace Verif.Src
open Verif.Meta

theorem parse_expand {e : CompileEnv} {o : Options} : ∀ as : List Attr, (∀ a ∈ as, a.Known o) →
    e.parseAttrs (attrsExpand o as) = .ok (some (attrsExpand o as)) := by
  have key : ∀ ms : List Meta, (∀ m ∈ ms, ¬ m.pathOf.isIdent "cfg" ∧ ¬ m.pathOf.isIdent "cfg_attr") →
      e.parseAttrs ms = .ok (some ms) := by
    intro ms
    induction ms with
    | nil => intro _; rfl
    | cons m ms ih =>
      intro h
      have h1 := h m (.head _)
      simp only [Bool.not_eq_true] at h1
      simp [CompileEnv.parseAttrs, h1.1, h1.2, ih fun m hm => h m (.tail _ hm), bind, Except.bind]
  intro as h
  refine key _ ?_
  induction as with
  | nil => intro m hm; simp [attrsExpand] at hm
  | cons a as ih =>
    intro m hm
    simp only [attrsExpand, List.mem_append] at hm
    rcases hm with hm | hm
    · have ha := h a (.head _)
      cases a with
      | cfg p => simp [Attr.expand] at hm
      | plain m' => simp only [Attr.expand, List.mem_singleton] at hm; subst hm; exact ha
      | cfgAttr p bs =>
        simp only [Attr.expand] at hm
        split at hm
        · rw [(plain_expand (o := o) bs ha.2).2] at hm
          have hb := ha.2
          clear ha h ih
          induction bs with
          | nil => simp [attrsWritten] at hm
          | cons b bs ih =>
            obtain ⟨m', rfl, h'⟩ := hb b (.head _)
            simp only [attrsWritten, Attr.written, List.mem_cons] at hm
            rcases hm with rfl | hm
            · exact h'
            · exact ih hm fun a ha => hb a (.tail _ ha)
        · simp at hm
    · exact ih (fun a ha => h a (.tail _ ha)) m hm

/-- Either the attributes are read like those that remain, or they are read as "left out". -/
theorem parse_cases {e : CompileEnv} {o : Options} (he : Describes e o) {as : List Attr} (h : ∀ a ∈ as, a.Known o) :
    (∃ ms, configured o as = some ms ∧ e.parseAttrs (attrsWritten as) = e.parseAttrs ms) ∨
    (configured o as = none ∧ e.parseAttrs (attrsWritten as) = .ok none) := by
  rw [parse_attrs he as h]
  unfold configured
  split
  · exact .inl ⟨_, rfl, (parse_expand as h).symm⟩
  · exact .inr ⟨rfl, rfl⟩

theorem parse_active {e : CompileEnv} {o : Options} (he : Describes e o) {as : List Attr} (h : ∀ a ∈ as, a.Known o)
    (ha : attrsActive o as = true) :
    ∃ ms, configured o as = some ms ∧ e.parseAttrs (attrsWritten as) = e.parseAttrs ms := by
  rcases parse_cases he h with h | ⟨h, -⟩
  · exact h
  · simp [configured, ha] at h

variable {e : CompileEnv} {o : Options}

theorem parseFields_kept (he : Describes e o) : ∀ fs : List (SField Attr), (∀ f ∈ fs, f.Known o) →
    parseFields e (fs.map SField.written) = parseFields e (fs.filterMap (SField.kept o))
  | [], _ => rfl
  | f :: fs, h => by
    have ih := parseFields_kept he fs fun f hf => h f (.tail _ hf)
    rcases parse_cases he (h f (.head _)) with ⟨ms, h1, h2⟩ | ⟨h1, h2⟩
    · rw [List.filterMap_cons_some (b := ⟨ms, f.ident, f.ty⟩) (by simp [SField.kept, h1])]
      simp only [List.map_cons, parseFields, SField.written, parseFieldAttrs, h2, ih]
    · rw [List.filterMap_cons_none (by simp [SField.kept, h1])]
      simp only [List.map_cons, parseFields, SField.written, parseFieldAttrs, h2, ih, bind, Except.bind]

theorem parseVariants_kept (he : Describes e o) (t : Option MTy) :
    ∀ vs : List (SVariant Attr), (∀ v ∈ vs, v.Known o) →
      parseVariants e t (vs.map SVariant.written) = parseVariants e t (vs.filterMap (SVariant.kept o))
  | [], _ => rfl
  | v :: vs, h => by
    have ih := parseVariants_kept he t vs fun f hf => h f (.tail _ hf)
    have hv := h v (.head _)
    rcases parse_cases he hv.1 with ⟨ms, h1, h2⟩ | ⟨h1, h2⟩
    · rw [List.filterMap_cons_some (b := ⟨ms, v.ident, v.discr, v.fields.filterMap (SField.kept o)⟩)
        (by simp [SVariant.kept, h1])]
      simp only [List.map_cons, parseVariants, SVariant.written, parseVariantAttrs, h2, ih, parseFields_kept he _ hv.2]
    · rw [List.filterMap_cons_none (by simp [SVariant.kept, h1])]
      simp only [List.map_cons, parseVariants, SVariant.written, parseVariantAttrs, h2, ih, bind, Except.bind]

theorem parseMethods_kept (he : Describes e o) : ∀ fs : List (SFn Attr), (∀ f ∈ fs, f.Known o) →
    parseMethods e (fs.map SFn.written) = parseMethods e (fs.filterMap (SFn.kept o))
  | [], _ => rfl
  | f :: fs, h => by
    have ih := parseMethods_kept he fs fun f hf => h f (.tail _ hf)
    rcases parse_cases he (h f (.head _)) with ⟨ms, h1, h2⟩ | ⟨h1, h2⟩
    · rw [List.filterMap_cons_some (b := ⟨ms, f.isAsync, f.ident, f.inputs, f.output⟩) (by simp [SFn.kept, h1])]
      simp only [List.map_cons, parseMethods, SFn.written, parseMethodAttrs, parseMethod, parseFn, h2, ih]
    · rw [List.filterMap_cons_none (by simp [SFn.kept, h1])]
      simp only [List.map_cons, parseMethods, SFn.written, parseMethodAttrs, h2, ih, bind, Except.bind]

theorem parseImplFns_kept (he : Describes e o) : ∀ fs : List (SFn Attr), (∀ f ∈ fs, f.Known o) →
    parseImplFns e (fs.map SFn.written) = parseImplFns e (fs.filterMap (SFn.kept o))
  | [], _ => rfl
  | f :: fs, h => by
    have ih := parseImplFns_kept he fs fun f hf => h f (.tail _ hf)
    rcases parse_cases he (h f (.head _)) with ⟨ms, h1, h2⟩ | ⟨h1, h2⟩
    · rw [List.filterMap_cons_some (b := ⟨ms, f.isAsync, f.ident, f.inputs, f.output⟩) (by simp [SFn.kept, h1])]
      simp only [List.map_cons, parseImplFns, SFn.written, parseMethodAttrs, parseConsAttrs, parseMethod, parseFn, h2, ih]
    · rw [List.filterMap_cons_none (by simp [SFn.kept, h1])]
      simp only [List.map_cons, parseImplFns, SFn.written, parseMethodAttrs, parseConsAttrs, h2, ih, bind, Except.bind]

mutual
theorem skeleton_kept (he : Describes e o) : ∀ i : SItem Attr, i.Known o →
    skeleton e i.written = (match i.kept o with
      | some i => skeleton e i
      | none => .ok [])
  | .mod id attrs vis ident items, h => by
    simp only [SItem.Known] at h
    have ih := skeletons_kept he items h.2
    rcases parse_cases he h.1 with ⟨ms, h1, h2⟩ | ⟨h1, h2⟩
    · simp only [SItem.written, SItem.kept, h1, Option.map_some, skeleton, h2, ih]
    · simp only [SItem.written, SItem.kept, h1, Option.map_none, skeleton, h2, bind, Except.bind]
  | .use attrs items, h => by
    simp only [SItem.Known] at h
    simp only [SItem.written, SItem.kept, configured, h, if_true, Option.map_some, skeleton]
  | .type id attrs vis ident ps t, h => by
    simp only [SItem.Known] at h
    simp only [SItem.written, SItem.kept, configured, h, if_true, Option.map_some, skeleton]
  | .fn _ _ f, _ => by
    simp only [SItem.written, SItem.kept, skeleton]; cases f.kept o <;> simp [skeleton]
  | .struct _ a _ _ _, _ => by simp only [SItem.written, SItem.kept, skeleton]; cases configured o a <;> simp [skeleton]
  | .enum _ a _ _ _, _ => by simp only [SItem.written, SItem.kept, skeleton]; cases configured o a <;> simp [skeleton]
  | .trait _ a _ _ _, _ => by simp only [SItem.written, SItem.kept, skeleton]; cases configured o a <;> simp [skeleton]
  | .impl _ a _ _ _, _ => by simp only [SItem.written, SItem.kept, skeleton]; cases configured o a <;> simp [skeleton]
  | .macro _ a _ _, _ => by simp only [SItem.written, SItem.kept, skeleton]; cases configured o a <;> simp [skeleton]
  | .other a, _ => by simp only [SItem.written, SItem.kept, skeleton]; cases configured o a <;> simp [skeleton]
theorem skeletons_kept (he : Describes e o) : ∀ is : List (SItem Attr), ItemsKnown o is →
    skeletons e (itemsWritten is) = skeletons e (itemsKept o is)
  | [], _ => by simp only [itemsWritten, itemsKept]
  | i :: is, h => by
    simp only [ItemsKnown] at h
    have h1 := skeleton_kept he i h.1
    have h2 := skeletons_kept he is h.2
    simp only [itemsWritten, itemsKept, skeletons, h1, h2]
    cases i.kept o with
    | none =>
      simp only [bind, Except.bind, List.nil_append]
      cases skeletons e (itemsKept o is) <;> rfl
    | some j => simp only [skeletons]
end

theorem resolveSyn_kept (he : Describes e o) (l : Look) : ∀ i : SItem Attr, i.Known o →
    ∀ r, (match i.kept o with
      | some i => resolveSyn e l i
      | none => .ok []) = r →
    (resolveSyn e l i.written).map pruneAll = r.map pruneAll
  | .fn id vis f, h, r, hr => by
    subst hr
    simp only [SItem.Known] at h
    rcases parse_cases he h with ⟨ms, h1, h2⟩ | ⟨h1, h2⟩
    · simp only [SItem.written, SItem.kept, SFn.written, SFn.kept, h1, Option.map_some, resolveSyn, parseFnAttrs, h2, parseFn]
    · simp only [SItem.written, SItem.kept, SFn.written, SFn.kept, h1, Option.map_none, resolveSyn, parseFnAttrs, h2, bind,
        Except.bind]
  | .struct id attrs vis ident fields, h, r, hr => by
    subst hr
    simp only [SItem.Known] at h
    obtain ⟨ms, h1, h2⟩ := parse_active he h.1 h.2.1
    simp only [SItem.written, SItem.kept, h1, Option.map_some, resolveSyn, parseTypeAttrs, h2, parseFields_kept he _ h.2.2]
  | .enum id attrs vis ident fields, h, r, hr => by
    subst hr
    simp only [SItem.Known] at h
    obtain ⟨ms, h1, h2⟩ := parse_active he h.1 h.2.1
    simp only [SItem.written, SItem.kept, h1, Option.map_some, resolveSyn, parseTypeAttrs, parseEnumAttrs, h2,
      parseVariants_kept he _ _ h.2.2]
  | .trait id attrs vis ident fns, h, r, hr => by
    subst hr
    simp only [SItem.Known] at h
    rcases parse_cases he h.1 with ⟨ms, h1, h2⟩ | ⟨h1, h2⟩
    · simp only [SItem.written, SItem.kept, h1, Option.map_some, resolveSyn, parseTraitAttrs, h2, parseMethods_kept he _ h.2]
    · simp only [SItem.written, SItem.kept, h1, Option.map_none, resolveSyn, parseTraitAttrs, h2, bind, Except.bind]
  | .impl id attrs trait self fns, h, r, hr => by
    subst hr
    simp only [SItem.Known] at h
    rcases parse_cases he h.1 with ⟨ms, h1, h2⟩ | ⟨h1, h2⟩
    · simp only [SItem.written, SItem.kept, h1, Option.map_some, resolveSyn, parseImplAttrs, h2, parseImplFns_kept he _ h.2.2]
    · rcases h.2.1 with ha | rfl
      · simp [configured, ha] at h1
      · simp only [SItem.written, SItem.kept, h1, Option.map_none, resolveSyn, parseImplAttrs, h2, bind, Except.bind,
          Except.map, pruneAll, PItem.prune, List.nil_append]
  | .mod id attrs vis ident items, h, r, hr => by
    subst hr
    simp only [SItem.written, SItem.kept]
    cases configured o attrs <;> simp [resolveSyn]
  | .use attrs _, h, r, hr => by
    subst hr
    simp only [SItem.written, SItem.kept]
    cases configured o attrs <;> simp [resolveSyn]
  | .type _ attrs _ _ _ _, h, r, hr => by
    subst hr
    simp only [SItem.written, SItem.kept]
    cases configured o attrs <;> simp [resolveSyn]
  | .macro id attrs path body, h, r, hr => by
    subst hr
    simp only [SItem.Known] at h
    simp only [SItem.written, SItem.kept, configured, h, if_true, Option.map_some, resolveSyn]
  | .other attrs, h, r, hr => by
    subst hr
    simp only [SItem.written, SItem.kept]
    cases configured o attrs <;> simp [resolveSyn]

theorem pruneAll_append : ∀ a b : List PItem, pruneAll (a ++ b) = pruneAll a ++ pruneAll b
  | [], _ => by simp [pruneAll]
  | i :: is, b => by simp [pruneAll, pruneAll_append is b]

/-- Both lists of `readItem`, pruned. -/
def prunePair (p : List PItem × List PItem) : List PItem × List PItem := (pruneAll p.1, pruneAll p.2)

theorem mapPair {a b : SynRes (List PItem)} (h : a.map pruneAll = b.map pruneAll) :
    (a >>= fun r => Except.ok (ε := SynErr) (([] : List PItem), r)).map prunePair
      = (b >>= fun r => Except.ok (ε := SynErr) (([] : List PItem), r)).map prunePair := by
  cases a <;> cases b <;> simp_all [Except.map, bind, Except.bind, prunePair]

mutual
theorem readItem_kept (he : Describes e o) (look : RPath → Look) (p : RPath) : ∀ i : SItem Attr, i.Known o →
    (readItem e look p i.written).map prunePair = (match i.kept o with
      | some i => readItem e look p i
      | none => .ok ([], [])).map prunePair
  | .mod id attrs vis ident items, h => by
    simp only [SItem.Known] at h
    rcases parse_cases he h.1 with ⟨ms, h1, h2⟩ | ⟨h1, h2⟩
    · simp only [SItem.written, SItem.kept, h1, Option.map_some, readItem, h2, skeletons_kept he items h.2]
      cases e.parseAttrs ms with
      | error _ => rfl
      | ok r =>
        cases r with
        | none => rfl
        | some _ =>
          simp only [bind, Except.bind]
          cases skeletons e (itemsKept o items) with
          | error _ => rfl
          | ok inner =>
            have ih := readItems_kept he look (p ++ [.module id ident vis inner]) items h.2
            revert ih
            dsimp only
            generalize readItems e look (p ++ [.module id ident vis inner]) (itemsWritten items) = x
            generalize readItems e look (p ++ [.module id ident vis inner]) (itemsKept o items) = y
            intro ih
            cases x <;> cases y <;>
              simp_all [Except.map, prunePair, joinItems, pruneAll, PItem.prune, pruneAll_append]
    · simp only [SItem.written, SItem.kept, h1, Option.map_none, readItem, h2, bind, Except.bind]
  | .use attrs items, h => by
    simp only [SItem.Known] at h
    simp only [SItem.written, SItem.kept, configured, h, if_true, Option.map_some, readItem]
  | .type id attrs vis ident ps t, h => by
    simp only [SItem.Known] at h
    simp only [SItem.written, SItem.kept, configured, h, if_true, Option.map_some, readItem]
  | .fn id vis f, h => by
    have := mapPair (resolveSyn_kept he (look p) _ h _ rfl)
    simp only [SItem.written, SItem.kept, readItem] at this ⊢
    rw [this]
    cases f.kept o <;> simp [readItem, bind, Except.bind]
  | .struct _ a _ _ _, h => by
    have := mapPair (resolveSyn_kept he (look p) _ h _ rfl)
    simp only [SItem.written, SItem.kept, readItem] at this ⊢
    rw [this]
    cases configured o a <;> simp [readItem, bind, Except.bind]
  | .enum _ a _ _ _, h => by
    have := mapPair (resolveSyn_kept he (look p) _ h _ rfl)
    simp only [SItem.written, SItem.kept, readItem] at this ⊢
    rw [this]
    cases configured o a <;> simp [readItem, bind, Except.bind]
  | .trait _ a _ _ _, h => by
    have := mapPair (resolveSyn_kept he (look p) _ h _ rfl)
    simp only [SItem.written, SItem.kept, readItem] at this ⊢
    rw [this]
    cases configured o a <;> simp [readItem, bind, Except.bind]
  | .impl _ a _ _ _, h => by
    have := mapPair (resolveSyn_kept he (look p) _ h _ rfl)
    simp only [SItem.written, SItem.kept, readItem] at this ⊢
    rw [this]
    cases configured o a <;> simp [readItem, bind, Except.bind]
  | .macro _ a _ _, h => by
    have := mapPair (resolveSyn_kept he (look p) _ h _ rfl)
    simp only [SItem.written, SItem.kept, readItem] at this ⊢
    rw [this]
    cases configured o a <;> simp [readItem, bind, Except.bind]
  | .other a, h => by
    have := mapPair (resolveSyn_kept he (look p) _ h _ rfl)
    simp only [SItem.written, SItem.kept, readItem] at this ⊢
    rw [this]
    cases configured o a <;> simp [readItem, bind, Except.bind]
theorem readItems_kept (he : Describes e o) (look : RPath → Look) (p : RPath) : ∀ is : List (SItem Attr), ItemsKnown o is →
    (readItems e look p (itemsWritten is)).map prunePair = (readItems e look p (itemsKept o is)).map prunePair
  | [], _ => by simp only [itemsWritten, itemsKept]
  | i :: is, h => by
    simp only [ItemsKnown] at h
    have h1 := readItem_kept he look p i h.1
    have h2 := readItems_kept he look p is h.2
    simp only [itemsWritten, itemsKept, readItems]
    revert h1 h2
    generalize readItem e look p i.written = a
    generalize readItems e look p (itemsWritten is) = b
    cases i.kept o with
    | none =>
      dsimp only
      generalize readItems e look p (itemsKept o is) = c
      intro h1 h2
      cases a <;> cases b <;> cases c <;>
        simp_all [Except.map, prunePair, bind, Except.bind, pruneAll_append, pruneAll]
    | some j =>
      simp only [readItems]
      generalize readItem e look p j = d
      generalize readItems e look p (itemsKept o is) = c
      intro h1 h2
      cases a <;> cases b <;> cases c <;> cases d <;>
        simp_all [Except.map, prunePair, bind, Except.bind, pruneAll_append, pruneAll]
end

theorem crateSkeleton_kept {c : SCrate Attr} {o : Nat → Options} (he : Describes c.env (o c.id))
    (h : ItemsKnown (o c.id) c.items) : crateSkeleton c.written = crateSkeleton (c.kept o) := by
  simp only [crateSkeleton, SCrate.written, SCrate.kept, skeletons_kept he _ h]

theorem cratesSkeleton_kept {o : Nat → Options} : ∀ cs : List (SCrate Attr), (∀ c ∈ cs, Describes c.env (o c.id)) →
    (∀ c ∈ cs, ItemsKnown (o c.id) c.items) →
    cratesSkeleton (cs.map SCrate.written) = cratesSkeleton (cs.map (SCrate.kept o))
  | [], _, _ => rfl
  | c :: cs, he, h => by
    have ih := cratesSkeleton_kept cs (fun c hc => he c (.tail _ hc)) fun c hc => h c (.tail _ hc)
    simp only [List.map_cons, cratesSkeleton, crateSkeleton_kept (he c (.head _)) (h c (.head _)), ih]
    rfl

theorem readCrate_kept {ir : Ir} {c : SCrate Attr} {o : Nat → Options} (he : Describes c.env (o c.id))
    (h : ItemsKnown (o c.id) c.items) :
    (readCrate ir c.written).map PItem.prune = (readCrate ir (c.kept o)).map PItem.prune := by
  unfold readCrate
  rw [crateSkeleton_kept he h]
  cases crateSkeleton (c.kept o) with
  | error _ => rfl
  | ok root =>
    simp only [bind, Except.bind]
    have := readItems_kept he (lookIn ir) [root] c.items h
    revert this
    simp only [SCrate.written, SCrate.kept]
    generalize readItems c.env (lookIn ir) [root] (itemsWritten c.items) = a
    generalize readItems c.env (lookIn ir) [root] (itemsKept (o c.id) c.items) = b
    intro h
    cases a <;> cases b <;> simp_all [Except.map, prunePair, joinItems, PItem.prune, pruneAll_append]

theorem readCrates_kept {ir : Ir} {o : Nat → Options} : ∀ cs : List (SCrate Attr),
    (∀ c ∈ cs, Describes c.env (o c.id)) → (∀ c ∈ cs, ItemsKnown (o c.id) c.items) →
    (readCrates ir (cs.map SCrate.written)).map pruneCrates = (readCrates ir (cs.map (SCrate.kept o))).map pruneCrates
  | [], _, _ => rfl
  | c :: cs, he, h => by
    have ih := readCrates_kept (ir := ir) cs (fun c hc => he c (.tail _ hc)) fun c hc => h c (.tail _ hc)
    have h1 := readCrate_kept (ir := ir) (he c (.head _)) (h c (.head _))
    simp only [List.map_cons, readCrates]
    revert ih h1
    generalize readCrate ir c.written = a
    generalize readCrate ir (c.kept o) = b
    generalize readCrates ir (cs.map SCrate.written) = x
    generalize readCrates ir (cs.map (SCrate.kept o)) = y
    intro ih h1
    cases a <;> cases b <;> cases x <;> cases y <;>
      simp_all [Except.map, bind, Except.bind, pruneCrates, SCrate.written, SCrate.kept]

theorem read_kept {o : Nat → Options} {cs : List (SCrate Attr)} (he : ∀ c ∈ cs, Describes c.env (o c.id))
    (h : ∀ c ∈ cs, ItemsKnown (o c.id) c.items) :
    (read (cs.map SCrate.written)).map pruneCrates = (read (cs.map (SCrate.kept o))).map pruneCrates := by
  unfold read
  rw [cratesSkeleton_kept cs he h]
  cases cratesSkeleton (cs.map (SCrate.kept o)) with
  | error _ => rfl
  | ok roots => exact readCrates_kept cs he h

end Verif.Src
