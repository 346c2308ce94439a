import Verif.Src.EmitItems
namespace Verif.Src
open Verif.Meta

variable {ir : Ir}

theorem each_append {α β : Type} {R : α → β → Prop} : ∀ {as as' : List α} {bs : List β}, Each R (as ++ as') bs →
    ∃ b1 b2, bs = b1 ++ b2 ∧ Each R as b1 ∧ Each R as' b2
  | [], _, bs, h => ⟨[], bs, rfl, .nil, h⟩
  | _ :: _, _, _, .cons h1 h2 => by
    obtain ⟨b1, b2, rfl, h3, h4⟩ := each_append h2
    exact ⟨_ :: b1, b2, rfl, .cons h1 h3, h4⟩

theorem eraseAll_append : ∀ {as bs : List PItem}, eraseAll (as ++ bs) = eraseAll as ++ eraseAll bs
  | [], _ => by rw [eraseAll]; rfl
  | a :: as, bs => by
    rw [List.cons_append, eraseAll, eraseAll, eraseAll_append]; rfl

theorem mem_eraseAll : ∀ {is : List PItem} {i : PItem}, i ∈ is → i.erase ∈ eraseAll is
  | _ :: _, _, .head _ => by rw [eraseAll]; exact .head _
  | _ :: _, _, .tail _ h => by rw [eraseAll]; exact .tail _ (mem_eraseAll h)

theorem got_plain {n : Nat} {p : RPath} {i : Item} {os} (h : Got ir n p (.plain i) os) : os = [] := by
  obtain ⟨c, _, h⟩ := h
  rw [emitItem] at h
  exact (Except.ok.inj h).symm

theorem got_plains {n : Nat} {p : RPath} : ∀ {is : List Item} {oss}, Each (Got ir n p) (is.map .plain) oss → oss.flatten = []
  | [], _, .nil => rfl
  | _ :: _, _, .cons h1 h2 => by rw [List.flatten_cons, got_plain h1, got_plains h2]; rfl

/-- The metadata of one resolved item. -/
theorem resolveSyn_is (hu : ir.Unique) (hr : ir.RootsModules) (ho : ir.OnlyPaths) {n : Nat} {p : RPath} (hp : Canon ir p)
    {env : CompileEnv} {look : RPath → Look} {sp : RPath} {si : SItem Meta} {b : List PItem} {oss : List (List Out)}
    (h : resolveSyn env (look sp) si = .ok b) (hsi : ∀ id attrs vis ident items, si ≠ .mod id attrs vis ident items)
    (hq : ∀ i ∈ b, Canon ir (p ++ [i.erase])) (hg : Each (Got ir n p) b oss) : ItemIs env look ir sp p si oss.flatten := by
  have one : ∀ {i : PItem} {Q : List Out → Prop}, b = [i] → Gives ir (emitItem ir n p i) Q → Q oss.flatten := by
    rintro i Q rfl hgi
    cases hg with
    | cons h1 h2 =>
      cases h2
      rw [List.flatten_cons, List.flatten_nil, List.append_nil]
      exact got_of h1 hgi
  have can : ∀ {i : PItem}, b = [i] → Canon ir (p ++ [i.erase]) := by
    rintro i rfl; exact hq i (.head _)
  have none_ : b = [] → oss.flatten = [] := by
    rintro rfl; cases hg; rfl
  have plain : ∀ {i : Item}, b = [.plain i] → oss.flatten = [] := by
    intro i hb; exact one (Q := fun os => os = []) hb (by rw [emitItem]; exact sat_pure rfl)
  cases si with
  | mod id attrs vis ident items => exact absurd rfl (hsi _ _ _ _ _)
  | use attrs items => cases h; rw [none_ rfl]; exact .use
  | type => cases h; rw [none_ rfl]; exact .type
  | other => cases h; rw [none_ rfl]; exact .other
  | fn id vis f =>
    rw [resolveSyn] at h
    obtain ⟨o, hoa, h⟩ := synBind h
    unfold parseFnAttrs at hoa
    obtain ⟨o', hm, hoa⟩ := synBind hoa
    cases o' with
    | none => cases hoa; cases h; rw [none_ rfl]; exact .fnOff hm
    | some metas =>
      dsimp only at hoa
      split at hoa
      · rename_i hex
        obtain ⟨a, ha, hoa⟩ := synBind hoa
        cases hoa
        obtain ⟨pf, hpf, h⟩ := synBind h
        cases h
        have hread := parseFn_read ha hpf
        refine one rfl ?_
        rw [emitItem]
        refine sat_bind (fnMetadata_gives hu hr ho hp hread (can rfl)) fun out hout => sat_pure ?_
        obtain ⟨m, rfl, hfn, hpl⟩ := hout
        exact .fn hm hex hfn hpl
      · rename_i hex
        cases hoa; cases h; rw [none_ rfl]
        exact .fnNot hm (by simpa using hex)
  | struct id attrs vis ident fields =>
    rw [resolveSyn] at h
    obtain ⟨o, hoa, h⟩ := synBind h
    unfold parseTypeAttrs at hoa
    obtain ⟨o', hm, hoa⟩ := synBind hoa
    have hobj : o = none → ∃ o2, parseTypeAttrs (look sp) env "Object" attrs = .ok o2 ∧ (match o2 with
        | some a => .ok [.object id a vis ident]
        | none => .ok [.plain (.decl id .nonUniffi ident vis none false)] : SynRes (List PItem)) = .ok b := by
      rintro rfl
      exact synBind h
    cases o' with
    | none =>
      cases hoa
      obtain ⟨o2, h2, h⟩ := hobj rfl
      unfold parseTypeAttrs at h2
      rw [hm] at h2
      cases h2
      rw [plain (Except.ok.inj h).symm]
      exact .structOff hm
    | some metas =>
      dsimp only at hoa
      simp only [← derived_is] at hoa
      cases hd : derived (look sp) "Record" metas with
      | some remote =>
        rw [hd] at hoa
        obtain ⟨t, ht, hoa⟩ := synBind hoa
        obtain ⟨a, ha, hoa⟩ := synBind hoa
        cases hoa
        obtain ⟨pfs, hpfs, h⟩ := synBind h
        cases h
        refine .struct hm (.record hd (one rfl ?_))
        rw [emitItem]
        exact recordMetadata_gives hu hr ho hp (typeAttrs_read ht ha) hpfs (can rfl)
      | none =>
        rw [hd] at hoa
        cases hoa
        obtain ⟨o2, h2, h⟩ := hobj rfl
        unfold parseTypeAttrs at h2
        rw [hm] at h2
        simp only [← derived_is] at h2
        dsimp only [bind, Except.bind] at h2
        cases hd2 : derived (look sp) "Object" metas with
        | some remote =>
          rw [hd2] at h2
          obtain ⟨t, ht, h2⟩ := synBind h2
          obtain ⟨a, ha, h2⟩ := synBind h2
          cases h2
          cases h
          refine .struct hm (.object hd hd2 (one rfl ?_))
          rw [emitItem]
          exact objectMetadata_gives hu hr ho hp (typeAttrs_read ht ha) (can rfl)
        | none =>
          rw [hd2] at h2
          cases h2
          rw [plain (Except.ok.inj h).symm]
          exact .struct hm (.nothing hd hd2)
  | enum id attrs vis ident variants =>
    rw [resolveSyn] at h
    obtain ⟨o, hoa, h⟩ := synBind h
    unfold parseTypeAttrs at hoa
    obtain ⟨o', hm, hoa⟩ := synBind hoa
    have henum : o = none → ∃ o2, parseEnumAttrs (look sp) env attrs = .ok o2 ∧ (match o2 with
        | some a => do .ok [.enum id a vis ident (← parseVariants env a.discrType variants)]
        | none => .ok [.plain (.decl id .nonUniffi ident vis none false)] : SynRes (List PItem)) = .ok b := by
      rintro rfl
      exact synBind h
    cases o' with
    | none =>
      cases hoa
      obtain ⟨o2, h2, h⟩ := henum rfl
      unfold parseEnumAttrs at h2
      rw [hm] at h2
      cases h2
      rw [plain (Except.ok.inj h).symm]
      exact .enumOff hm
    | some metas =>
      dsimp only at hoa
      simp only [← derived_is] at hoa
      cases hd : derived (look sp) "Object" metas with
      | some remote =>
        rw [hd] at hoa
        obtain ⟨t, ht, hoa⟩ := synBind hoa
        obtain ⟨a, ha, hoa⟩ := synBind hoa
        cases hoa
        cases h
        refine .enum hm (.object hd (one rfl ?_))
        rw [emitItem]
        exact objectMetadata_gives hu hr ho hp (typeAttrs_read ht ha) (can rfl)
      | none =>
        rw [hd] at hoa
        cases hoa
        obtain ⟨o2, h2, h⟩ := henum rfl
        unfold parseEnumAttrs at h2
        rw [hm] at h2
        simp only [← derived_is] at h2
        dsimp only [bind, Except.bind] at h2
        cases hd2 : derived (look sp) "Enum" metas with
        | some remote =>
          rw [hd2] at h2
          cases hd3 : derived (look sp) "Error" metas with
          | some _ => rw [hd3] at h2; exact nomatch h2
          | none =>
            rw [hd3] at h2
            obtain ⟨t, ht, h2⟩ := synBind h2
            obtain ⟨a, ha, h2⟩ := synBind h2
            cases h2
            obtain ⟨pvs, hpvs, h⟩ := synBind h
            cases h
            refine .enum hm (.enum hd hd2 (one rfl ?_))
            rw [emitItem]
            exact enumMetadata_gives hu hr ho hp (enumAttrs_read ht ha) hpvs (can rfl)
        | none =>
          rw [hd2] at h2
          cases hd3 : derived (look sp) "Error" metas with
          | some remote =>
            rw [hd3] at h2
            obtain ⟨t, ht, h2⟩ := synBind h2
            obtain ⟨a, ha, h2⟩ := synBind h2
            cases h2
            obtain ⟨pvs, hpvs, h⟩ := synBind h
            cases h
            refine .enum hm (.error hd hd3 (one rfl ?_))
            rw [emitItem]
            have hread := enumAttrs_read ht ha
            rw [shapeWith, Bool.false_or] at hread
            exact enumMetadata_gives hu hr ho hp hread hpvs (can rfl)
          | none =>
            rw [hd3] at h2
            cases h2
            rw [plain (Except.ok.inj h).symm]
            exact .enum hm (.nothing hd hd2 hd3)
  | trait id attrs vis ident fns =>
    rw [resolveSyn] at h
    obtain ⟨o, hoa, h⟩ := synBind h
    unfold parseTraitAttrs at hoa
    obtain ⟨o', hm, hoa⟩ := synBind hoa
    cases o' with
    | none => cases hoa; cases h; rw [none_ rfl]; exact .traitOff hm
    | some metas =>
      obtain ⟨a, ha, hoa⟩ := synBind hoa
      have hex := (traitAttrs_is (look sp) rfl rfl ha).2.2.1
      cases hoa
      cases ht : a.exportTy with
      | none =>
        rw [ht] at h hex
        cases h
        rw [none_ rfl]
        exact .traitNot hm hex.symm
      | some t =>
        rw [ht] at h hex
        simp only [Option.isSome_some, if_true] at h
        rw [ht] at h
        obtain ⟨pms, hpms, h⟩ := synBind h
        cases h
        refine .trait hm hex.symm (one rfl ?_)
        rw [emitItem]
        exact traitMetadata_gives hu hr ho hp ha ht hpms (can rfl)
  | impl id attrs trait self fns =>
    rw [resolveSyn] at h
    obtain ⟨o, hoa, h⟩ := synBind h
    unfold parseImplAttrs at hoa
    obtain ⟨o', hm, hoa⟩ := synBind hoa
    cases o' with
    | none =>
      cases hoa; cases h
      refine .implOff hm (one rfl ?_)
      rw [emitItem]
      exact unresolvedMetadata_gives hu hr ho hp
    | some metas =>
      dsimp only at hoa
      split at hoa
      · rename_i hex
        obtain ⟨name, hname, hoa⟩ := synBind hoa
        cases hoa
        obtain ⟨⟨cs, ms⟩, hfns, h⟩ := synBind h
        cases h
        refine .impl hm hex (one rfl ?_)
        rw [emitItem]
        exact implMetadata_gives hu hr ho hp hname hfns
      · rename_i hex
        cases hoa; cases h
        refine .implNot hm (by simpa using hex) (one rfl ?_)
        rw [emitItem]
        exact unresolvedMetadata_gives hu hr ho hp
  | «macro» id attrs path body =>
    rw [resolveSyn] at h
    split at h
    · rename_i hs
      cases h
      rw [none_ rfl]
      exact .macro (.inl (isScaffolding_iff.1 hs))
    · rename_i hs
      unfold resolveMacro at h
      have cust : ∀ key, (look sp).macroOf path = some key → key = "custom_type" ∨ key = "custom_newtype" →
          ∀ ds ident builtin, body = .custom ds ident builtin → b = [.custom id (docs ds) ident builtin] →
          ItemIs env look ir sp p (.macro id attrs path body) oss.flatten := by
        rintro key hk1 hk2 ds ident builtin rfl hb
        refine one hb ?_
        rw [emitItem]
        refine sat_bind (customMetadata_gives hu hr ho hp (can hb)) fun out hout => sat_pure ?_
        obtain ⟨m, orig, b, rfl, hpl, hty⟩ := hout
        exact .custom (fun hl => hs (isScaffolding_iff.2 hl)) hk1 hk2 hpl hty
      split at h
      · rename_i hk
        split at h
        · exact cust _ hk (.inl rfl) _ _ _ rfl (Except.ok.inj h).symm
        · exact nomatch h
      · rename_i hk
        split at h
        · exact cust _ hk (.inr rfl) _ _ _ rfl (Except.ok.inj h).symm
        · exact nomatch h
      · rename_i hk
        have hn : (look sp).macroOf path ≠ some "custom_type" ∧ (look sp).macroOf path ≠ some "custom_newtype" := by
          rw [hk]; decide
        split at h
        · rw [plain (Except.ok.inj h).symm]; exact .macro (.inr hn)
        · exact nomatch h
      · rename_i h1 h2 h3
        cases h
        rw [none_ rfl]
        exact .macro (.inr ⟨h1, h2⟩)

mutual
theorem readItem_is (hu : ir.Unique) (hr : ir.RootsModules) (ho : ir.OnlyPaths) {n : Nat} {env : CompileEnv} {look : RPath → Look} :
    ∀ (si : SItem Meta) {p sp : RPath} {mid mi mvis items} {a b : List PItem} {oss1 oss2 : List (List Out)}, Canon ir p →
      p.getLast? = some (.module mid mi mvis items) → readItem env look sp si = .ok (a, b) →
      (∀ i ∈ eraseAll a, i ∈ items) → (∀ i ∈ eraseAll b, i ∈ items) → Each (Got ir n p) a oss1 → Each (Got ir n p) b oss2 →
      ItemIs env look ir sp p si (oss1.flatten ++ oss2.flatten)
  | .mod id attrs vis ident is, p, sp, mid, mi, mvis, items, a, b, oss1, oss2, hp, hl, h, ha, hb, h1, h2 => by
    rw [readItem] at h
    obtain ⟨o, hm, h⟩ := synBind h
    cases o with
    | none => cases h; cases h1; cases h2; exact .modOff hm
    | some metas =>
      obtain ⟨inner, hin, h⟩ := synBind h
      obtain ⟨⟨kept, resolved⟩, hread, h⟩ := synBind h
      cases h
      cases h2
      cases h1 with
      | cons h1 h2 =>
        cases h2
        obtain ⟨c, hc, h1⟩ := h1
        rw [emitItem] at h1
        have hq := Canon.item hp hl (ha _ (.head _))
        rw [PItem.erase] at hq
        obtain ⟨oss, heach, hos⟩ := (emitItems_got hu hr hq List.getLast?_concat (joinItems kept resolved) (fun _ h => h) c hc).2.1 _ h1
        obtain ⟨o1, o2, rfl, he1, he2⟩ := each_append heach
        have hsub : ∀ i, (i ∈ eraseAll kept ∨ i ∈ eraseAll resolved) → i ∈ eraseAll (joinItems kept resolved) := by
          intro i hi
          unfold joinItems
          rw [eraseAll_append]
          exact List.mem_append.2 hi
        have := readItems_is hu hr ho is hq List.getLast?_concat hread (fun i hi => hsub i (.inl hi))
          (fun i hi => hsub i (.inr hi)) he1 he2
        simp only [List.flatten_cons, List.flatten_nil, List.append_nil, hos, List.flatten_append]
        exact .mod hm hin hq this
  | .use attrs is, p, sp, mid, mi, mvis, items, a, b, oss1, oss2, hp, hl, h, ha, hb, h1, h2 => by
    rw [readItem] at h
    cases h
    cases h2
    rw [got_plains h1]
    exact .use
  | .type id attrs vis ident params target, p, sp, mid, mi, mvis, items, a, b, oss1, oss2, hp, hl, h, ha, hb, h1, h2 => by
    rw [readItem] at h
    cases h
    cases h2
    rw [got_plains (is := [_]) h1]
    exact .type
  | .fn id vis f, p, sp, mid, mi, mvis, items, a, b, oss1, oss2, hp, hl, h, ha, hb, h1, h2 => by
    rw [readItem.eq_def] at h
    dsimp only at h
    obtain ⟨b', hb', h⟩ := synBind h
    cases h
    cases h1
    exact resolveSyn_is hu hr ho hp hb' nofun (fun i hi => .item hp hl (hb _ (mem_eraseAll hi))) h2
  | .struct id attrs vis ident fields, p, sp, mid, mi, mvis, items, a, b, oss1, oss2, hp, hl, h, ha, hb, h1, h2 => by
    rw [readItem.eq_def] at h
    dsimp only at h
    obtain ⟨b', hb', h⟩ := synBind h
    cases h
    cases h1
    exact resolveSyn_is hu hr ho hp hb' nofun (fun i hi => .item hp hl (hb _ (mem_eraseAll hi))) h2
  | .enum id attrs vis ident variants, p, sp, mid, mi, mvis, items, a, b, oss1, oss2, hp, hl, h, ha, hb, h1, h2 => by
    rw [readItem.eq_def] at h
    dsimp only at h
    obtain ⟨b', hb', h⟩ := synBind h
    cases h
    cases h1
    exact resolveSyn_is hu hr ho hp hb' nofun (fun i hi => .item hp hl (hb _ (mem_eraseAll hi))) h2
  | .trait id attrs vis ident fns, p, sp, mid, mi, mvis, items, a, b, oss1, oss2, hp, hl, h, ha, hb, h1, h2 => by
    rw [readItem.eq_def] at h
    dsimp only at h
    obtain ⟨b', hb', h⟩ := synBind h
    cases h
    cases h1
    exact resolveSyn_is hu hr ho hp hb' nofun (fun i hi => .item hp hl (hb _ (mem_eraseAll hi))) h2
  | .impl id attrs trait self fns, p, sp, mid, mi, mvis, items, a, b, oss1, oss2, hp, hl, h, ha, hb, h1, h2 => by
    rw [readItem.eq_def] at h
    dsimp only at h
    obtain ⟨b', hb', h⟩ := synBind h
    cases h
    cases h1
    exact resolveSyn_is hu hr ho hp hb' nofun (fun i hi => .item hp hl (hb _ (mem_eraseAll hi))) h2
  | .macro id attrs path body, p, sp, mid, mi, mvis, items, a, b, oss1, oss2, hp, hl, h, ha, hb, h1, h2 => by
    rw [readItem.eq_def] at h
    dsimp only at h
    obtain ⟨b', hb', h⟩ := synBind h
    cases h
    cases h1
    exact resolveSyn_is hu hr ho hp hb' nofun (fun i hi => .item hp hl (hb _ (mem_eraseAll hi))) h2
  | .other attrs, p, sp, mid, mi, mvis, items, a, b, oss1, oss2, hp, hl, h, ha, hb, h1, h2 => by
    rw [readItem.eq_def] at h
    dsimp only at h
    obtain ⟨b', hb', h⟩ := synBind h
    cases h
    cases h1
    exact resolveSyn_is hu hr ho hp hb' nofun (fun i hi => .item hp hl (hb _ (mem_eraseAll hi))) h2
theorem readItems_is (hu : ir.Unique) (hr : ir.RootsModules) (ho : ir.OnlyPaths) {n : Nat} {env : CompileEnv} {look : RPath → Look} :
    ∀ (sis : List (SItem Meta)) {p sp : RPath} {mid mi mvis items} {a b : List PItem} {oss1 oss2 : List (List Out)}, Canon ir p →
      p.getLast? = some (.module mid mi mvis items) → readItems env look sp sis = .ok (a, b) →
      (∀ i ∈ eraseAll a, i ∈ items) → (∀ i ∈ eraseAll b, i ∈ items) → Each (Got ir n p) a oss1 → Each (Got ir n p) b oss2 →
      ItemsAre env look ir sp p sis (oss1.flatten ++ oss2.flatten)
  | [], p, sp, mid, mi, mvis, items, a, b, oss1, oss2, hp, hl, h, ha, hb, h1, h2 => by
    cases h; cases h1; cases h2; exact .nil
  | si :: sis, p, sp, mid, mi, mvis, items, a, b, oss1, oss2, hp, hl, h, ha, hb, h1, h2 => by
    rw [readItems] at h
    obtain ⟨⟨a1, b1⟩, hi, h⟩ := synBind h
    obtain ⟨⟨a2, b2⟩, his, h⟩ := synBind h
    cases h
    obtain ⟨p1, p2, rfl, e1, e2⟩ := each_append h1
    obtain ⟨q1, q2, rfl, e3, e4⟩ := each_append h2
    rw [eraseAll_append] at ha hb
    have i1 := readItem_is hu hr ho si hp hl hi (fun i hi => ha i (List.mem_append_left _ hi))
      (fun i hi => hb i (List.mem_append_left _ hi)) e1 e3
    have i2 := readItems_is hu hr ho sis hp hl his (fun i hi => ha i (List.mem_append_right _ hi))
      (fun i hi => hb i (List.mem_append_right _ hi)) e2 e4
    refine .cons i1 i2 ?_
    rw [List.flatten_append, List.flatten_append, List.append_assoc, List.append_assoc]
    refine List.Perm.append_left _ ?_
    rw [← List.append_assoc, ← List.append_assoc]
    exact List.perm_append_comm.append_right _
end

/-! ### Whole programs -/

theorem readCrate_ok {before : Ir} {c : SCrate Meta} {m : PItem} (h : readCrate before c = .ok m) :
    ∃ inner kept resolved, skeletons c.env c.items = .ok inner ∧
      readItems c.env (lookIn before) [.module c.id c.ident .pub (inner ++ c.udl)] c.items = .ok (kept, resolved) ∧
      m = .module c.id c.ident .pub (joinItems (kept ++ c.udl.map .plain) resolved) := by
  unfold readCrate at h
  obtain ⟨root, hroot, h⟩ := synBind h
  unfold crateSkeleton at hroot
  obtain ⟨inner, hin, hroot⟩ := synBind hroot
  cases hroot
  obtain ⟨⟨kept, resolved⟩, hread, h⟩ := synBind h
  cases h
  exact ⟨inner, kept, resolved, hin, hread, rfl⟩

theorem readCrates_names {before : Ir} : ∀ {cs : List (SCrate Meta)} {items}, readCrates before cs = .ok items →
    items.map (·.1) = cs.map (·.ident)
  | [], _, h => by cases h; rfl
  | c :: cs, _, h => by
    rw [readCrates] at h
    obtain ⟨m, _, h⟩ := synBind h
    obtain ⟨ms, h2, h⟩ := synBind h
    cases h
    rw [List.map_cons, List.map_cons, readCrates_names h2]

theorem readCrates_modules {before : Ir} : ∀ {cs : List (SCrate Meta)} {items}, readCrates before cs = .ok items →
    ∀ x ∈ items, ∃ id ident vis is, x.2 = .module id ident vis is
  | [], _, h => by cases h; exact nofun
  | c :: cs, _, h => by
    rw [readCrates] at h
    obtain ⟨m, hm, h⟩ := synBind h
    obtain ⟨ms, h2, h⟩ := synBind h
    cases h
    obtain ⟨_, _, _, _, _, rfl⟩ := readCrate_ok hm
    intro x hx
    cases hx with
    | head => exact ⟨_, _, _, _, rfl⟩
    | tail _ hx => exact readCrates_modules h2 x hx

theorem read_rootsModules {before : Ir} {cs : List (SCrate Meta)} {items} (h : readCrates before cs = .ok items) :
    (eraseCrates items).RootsModules := by
  intro crate m hm
  unfold Ir.root eraseCrates at hm
  obtain ⟨x, hx, rfl⟩ := Option.map_eq_some_iff.1 hm
  have := List.mem_of_find?_eq_some hx
  dsimp only at this
  obtain ⟨y, hy, rfl⟩ := List.mem_map.1 this
  obtain ⟨id, ident, vis, is, he⟩ := readCrates_modules h y hy
  dsimp only
  rw [he, PItem.erase]
  exact ⟨_, _, _, _, rfl⟩

theorem root_canon : ∀ {items : List (Ident × PItem)}, (items.map (·.1)).Nodup → ∀ x ∈ items,
    (eraseCrates items).root x.1 = some x.2.erase
  | y :: items, hn, x, hx => by
    rw [List.map_cons, List.nodup_cons] at hn
    unfold Ir.root eraseCrates
    dsimp only
    rw [List.map_cons, List.find?_cons]
    cases hx with
    | head => simp
    | tail _ hx =>
      have hne : (y.1 == x.1) = false := by
        rw [beq_eq_false_iff_ne]
        intro h
        exact hn.1 (h ▸ List.mem_map.2 ⟨x, hx, rfl⟩)
      dsimp only
      rw [hne]
      exact root_canon hn.2 x hx

theorem emitCrates_gives (hu : ir.Unique) (hr : ir.RootsModules) (ho : ir.OnlyPaths) {n : Nat} {before : Ir} :
    ∀ {cs : List (SCrate Meta)} {items}, readCrates before cs = .ok items → (∀ x ∈ items, Canon ir [x.2.erase]) →
      Gives ir (emitCrates ir n items) (Each (CrateIs before ir) cs)
  | [], _, h, _ => by cases h; exact sat_pure .nil
  | c :: cs, _, h, hc => by
    rw [readCrates] at h
    obtain ⟨m, hm, h⟩ := synBind h
    obtain ⟨ms, h2, h⟩ := synBind h
    cases h
    obtain ⟨inner, kept, resolved, hin, hread, rfl⟩ := readCrate_ok hm
    rw [emitCrates]
    have hroot := hc _ (.head _)
    dsimp only at hroot
    rw [PItem.erase] at hroot
    refine sat_bind (emitItems_got hu hr hroot rfl _ fun _ h => h) fun os hos =>
      sat_bind (emitCrates_gives hu hr ho h2 fun x hx => hc x (.tail _ hx)) fun rest hrest => sat_pure (.cons ?_ hrest)
    obtain ⟨oss, heach, rfl⟩ := hos
    refine ⟨rfl, inner, _, hin, hroot, ?_⟩
    obtain ⟨o1, o2, rfl, he1, he2⟩ := each_append heach
    obtain ⟨o3, o4, rfl, he3, he4⟩ := each_append he1
    have hsub : ∀ i, (i ∈ eraseAll kept ∨ i ∈ eraseAll resolved) →
        i ∈ eraseAll (joinItems (kept ++ c.udl.map .plain) resolved) := by
      intro i hi
      unfold joinItems
      rw [eraseAll_append, eraseAll_append]
      rcases hi with hi | hi
      · exact List.mem_append_left _ (List.mem_append_left _ hi)
      · exact List.mem_append_right _ hi
    have := readItems_is hu hr ho c.items hroot rfl hread (fun i hi => hsub i (.inl hi)) (fun i hi => hsub i (.inr hi)) he3 he2
    rw [List.flatten_append, List.flatten_append, got_plains he4, List.append_nil]
    exact this

/-- The metadata that is made from a program belongs to its items. -/
theorem emit_is {cs : List (SCrate Meta)} {items : List (Ident × PItem)} (hread : read cs = .ok items)
    (hn : (cs.map (·.ident)).Nodup) (hu : (eraseCrates items).Unique) (ho : (eraseCrates items).OnlyPaths) {n : Nat}
    {out : List (String × List Out)} (h : (emitCrates (eraseCrates items) n items {}).1 = .ok out) :
    ∃ before, cratesSkeleton cs = .ok before ∧ Each (CrateIs ⟨before⟩ (eraseCrates items)) cs out := by
  unfold read at hread
  obtain ⟨before, hb, hread⟩ := synBind hread
  have hr := read_rootsModules hread
  rw [← readCrates_names hread] at hn
  exact ⟨before, hb, (emitCrates_gives hu hr ho hread (fun x hx => .root (root_canon hn x hx)) {} .empty).2.1 out h⟩

end Verif.Src
