import Verif.Meta.ExtractSpec
import Verif.Props.Metadata
/-
C77: the items found in a library are those that were compiled into it.
-/
namespace Verif.Props.Extract
open Verif Verif.Meta Verif.Meta.Extract

/-! ### Helpers -/

theorem liesAt_trans {a b c : Bytes} {i j : Nat} (h : LiesAt a b i) (h' : LiesAt b c j) : LiesAt a c (j + i) := by
  obtain ⟨p, q, e, hl⟩ := h
  obtain ⟨p', q', e', hl'⟩ := h'
  refine ⟨p' ++ p, q ++ q', ?_, ?_⟩
  · rw [e', e]; simp only [List.append_assoc]
  · rw [List.length_append]; omega

theorem liesAt_le {a b : Bytes} {i : Nat} (h : LiesAt a b i) : i ≤ b.length := by
  obtain ⟨p, q, e, hl⟩ := h
  rw [e]; simp only [List.length_append]; omega

theorem liesAt_read {a b : Bytes} {i : Nat} {m : Metadata} (h : LiesAt a b i) (hr : readMetadata a = .ok m) :
    readMetadata (b.drop i) = .ok m := by
  obtain ⟨p, q, e, hl⟩ := h
  rw [e, List.append_assoc, ← hl, List.drop_left]
  exact Metadata.C40_trailing_data a q m hr

theorem extract_ok {e : Items} {n : String} {file : Bytes} {off : Nat} {m : Metadata} {bs : Bytes} (h : LiesAt bs file off)
    (hr : readMetadata bs = .ok m) :
    e.extract n file off = .ok (if n ∈ e.names then e else { items := e.items ++ [m], names := e.names ++ [n] }) := by
  unfold Items.extract
  by_cases hn : n ∈ e.names
  · rw [if_pos hn, if_pos hn]
  · rw [if_neg hn, if_neg hn, if_neg (by have := liesAt_le h; omega), liesAt_read h hr]

/-- `e` has the items of exactly the names `l` (metadata symbols among `syms`). -/
def Good (item : String → Metadata) (syms : List String) (e : Items) : Prop :=
  e.names.Nodup ∧ e.items = e.names.map item ∧ ∀ n, n ∈ e.names ↔ n ∈ syms ∧ isMetadataSymbol n = true

theorem good_fold {α : Type} {f : Items → α → Res Items} {item : String → Metadata} {view : α → Option String} {xs : List α}
    (h : ∀ x ∈ xs, ∀ e, match view x with
      | some n => if isMetadataSymbol n = true then
          f e x = .ok (if n ∈ e.names then e else { items := e.items ++ [item n], names := e.names ++ [n] })
        else f e x = .ok e
      | none => f e x = .ok e) :
    ∀ (e : Items) (l : List String), Good item l e → ∃ e', foldRes f e xs = .ok e' ∧ Good item (l ++ xs.filterMap view) e' := by
  induction xs with
  | nil => intro e l g; exact ⟨e, rfl, by simpa using g⟩
  | cons x xs ih =>
    intro e l g
    have hx := h x (List.mem_cons_self ..) e
    have ih := ih fun y hy => h y (List.mem_cons_of_mem _ hy)
    obtain ⟨g1, g2, g3⟩ := g
    cases hv : view x with
    | none =>
      simp only [hv] at hx
      obtain ⟨e', h1, h2⟩ := ih e l ⟨g1, g2, g3⟩
      refine ⟨e', ?_, ?_⟩
      · simp only [foldRes, hx]; exact h1
      · simpa only [List.filterMap_cons, hv] using h2
    | some n =>
      simp only [hv] at hx
      have key : ∃ e1, f e x = .ok e1 ∧ Good item (l ++ [n]) e1 := by
        by_cases hm : isMetadataSymbol n = true
        · rw [if_pos hm] at hx
          refine ⟨_, hx, ?_⟩
          by_cases hn : n ∈ e.names
          · rw [if_pos hn]
            refine ⟨g1, g2, fun k => ?_⟩
            rw [g3 k]
            constructor
            · rintro ⟨a, b⟩; exact ⟨List.mem_append_left _ a, b⟩
            · rintro ⟨a, b⟩
              rcases List.mem_append.1 a with a | a
              · exact ⟨a, b⟩
              · rw [List.mem_singleton] at a; subst a; exact (g3 k).1 hn
          · rw [if_neg hn]
            refine ⟨?_, ?_, fun k => ?_⟩
            · rw [List.nodup_append]
              refine ⟨g1, by simp, ?_⟩
              intro a ha b hb
              rw [List.mem_singleton] at hb
              subst hb
              intro e; subst e; exact hn ha
            · dsimp only; rw [g2, List.map_append]; rfl
            · dsimp only
              rw [List.mem_append, List.mem_append, g3 k, List.mem_singleton]
              constructor
              · rintro (⟨a, b⟩ | a)
                · exact ⟨.inl a, b⟩
                · subst a; exact ⟨.inr rfl, hm⟩
              · rintro ⟨a | a, b⟩
                · exact .inl ⟨a, b⟩
                · exact .inr a
        · rw [if_neg hm] at hx
          refine ⟨e, hx, g1, g2, fun k => ?_⟩
          rw [g3 k, List.mem_append, List.mem_singleton]
          constructor
          · rintro ⟨a, b⟩; exact ⟨.inl a, b⟩
          · rintro ⟨a | a, b⟩
            · exact ⟨a, b⟩
            · subst a; exact absurd b hm
      obtain ⟨e1, h1, g'⟩ := key
      obtain ⟨e', h2, h3⟩ := ih e1 (l ++ [n]) g'
      refine ⟨e', ?_, ?_⟩
      · simp only [foldRes, h1]; exact h2
      · simpa only [List.filterMap_cons, hv, List.append_assoc, List.singleton_append] using h3

theorem good_nil (item : String → Metadata) : Good item [] {} := ⟨List.nodup_nil, rfl, by simp⟩

theorem good_allOnce {item : String → Metadata} {l : List String} {e : Items} (g : Good item l e) : AllOnce l item e.items :=
  ⟨e.names, g.1, g.2.2, g.2.1⟩

theorem extract_holds {e : Items} {n : String} {file content : Bytes} {base addr off : Nat} {m : Metadata}
    (h : LiesAt content file off) (hh : Holds content base addr m) :
    base ≤ addr ∧ e.extract n file (off + (addr - base)) =
      .ok (if n ∈ e.names then e else { items := e.items ++ [m], names := e.names ++ [n] }) := by
  obtain ⟨bs, k, e1, e2, e3⟩ := hh
  refine ⟨by omega, ?_⟩
  have : addr - base = k := by omega
  rw [this]
  exact extract_ok (liesAt_trans e2 h) e3

theorem table_at {ks : List Nat} {g : Nat → Bytes} (hg : ∀ x ∈ ks, (g x).length = 4) : ∀ {i k : Nat}, ks[i]? = some k →
    LiesAt (g k) (ks.flatMap g) (i * 4) := by
  induction ks with
  | nil => intro i k h; simp at h
  | cons a ks ih =>
    intro i k h
    cases i with
    | zero =>
      simp only [List.getElem?_cons_zero, Option.some.injEq] at h
      subst h
      exact ⟨[], ks.flatMap g, by simp, rfl⟩
    | succ i =>
      simp only [List.getElem?_cons_succ] at h
      obtain ⟨p, q, e, hl⟩ := ih (fun x hx => hg x (List.mem_cons_of_mem _ hx)) h
      refine ⟨g a ++ p, q, ?_, ?_⟩
      · rw [List.flatMap_cons, e]; simp only [List.append_assoc]
      · rw [List.length_append, hg a (List.mem_cons_self ..)]; omega

theorem elfIndex_ok {elf : Elf} {file : Bytes} {i k : Nat} {sym : ElfSym} (h : sym.InSection elf file i k) :
    elfIndex elf file i sym = .ok k := by
  unfold elfIndex xindex
  rcases h with ⟨h1, h2⟩ | ⟨h1, t, ks, h2, h3, h4, h5⟩
  · rw [if_neg h1, h2]
  · rw [if_pos h1, h2]
    dsimp only
    have hk : k < 2 ^ 32 := h4 k (List.mem_of_getElem? h3)
    have hl : ∀ x ∈ ks, (if elf.littleEndian then leBytes 4 x else (leBytes 4 x).reverse).length = 4 := by
      intro x _; split <;> simp [length_leBytes]
    obtain ⟨p, q, e, hp⟩ := liesAt_trans (table_at hl h3) h5
    have hs : (file.drop (t.offset + i * 4)).take 4 = if elf.littleEndian then leBytes 4 k else (leBytes 4 k).reverse := by
      rw [e, List.append_assoc, ← hp, List.drop_left]
      exact List.take_left' (hl k (List.mem_of_getElem? h3))
    rw [hs, if_pos (hl k (List.mem_of_getElem? h3))]
    have hv : leNat (leBytes 4 k) = k := leNat_leBytes_of_lt (by omega)
    by_cases hb : elf.littleEndian = true
    · simp only [hb, if_true, hv]
    · simp [hb, hv]

/-! ### Theorems -/

/-- Every item of an ELF file is found once, wherever its section lies and however many sections there are. -/
theorem C77_elf (elf : Elf) (file : Bytes) (item : String → Metadata) (h : elf.Sound file item) :
    ∃ ms, extractElf elf file = .ok ms ∧ AllOnce (elf.syms.filterMap (·.name)) item ms := by
  obtain ⟨e', h1, h2⟩ := good_fold (f := elfStep elf file) (item := item) (view := fun x : ElfSym × Nat => x.1.name)
    (xs := elf.syms.zipIdx) (by
      rintro ⟨sym, i⟩ hx e
      have hi : elf.syms[i]? = some sym := by
        have := List.mem_zipIdx_iff_getElem?.1 hx
        exact this
      obtain ⟨n, hn, hs⟩ := h i sym hi
      simp only [hn]
      by_cases hm : isMetadataSymbol n = true
      · rw [if_pos hm]
        obtain ⟨k, s, content, k1, k2, k3, k4⟩ := hs hm
        obtain ⟨q1, q2⟩ := extract_holds (e := e) (n := n) k3 k4
        simp only [elfStep, hn, hm, Bool.not_true, Bool.false_eq_true, if_false, elfIndex_ok k1, k2]
        rw [if_neg (by omega)]
        exact q2
      · rw [if_neg hm]
        simp [elfStep, hn, hm]) {} [] (good_nil item)
  refine ⟨e'.items, ?_, ?_⟩
  · unfold extractElf; rw [h1]; rfl
  · have := good_allOnce h2
    rw [List.nil_append] at this
    have e : elf.syms.zipIdx.filterMap (fun x : ElfSym × Nat => x.1.name) = elf.syms.filterMap (·.name) := by
      rw [show (fun x : ElfSym × Nat => x.1.name) = (fun s : ElfSym => s.name) ∘ Prod.fst from rfl, ← List.filterMap_map,
        List.zipIdx_map_fst]
    rw [e] at this
    exact this

/-- The same for COFF. -/
theorem C77_coff (c : Coff) (file : Bytes) (item : String → Metadata) (h : c.Sound file item) :
    ∃ ms, extractCoff c file = .ok ms ∧ AllOnce c.defined item ms := by
  obtain ⟨e', h1, h2⟩ := good_fold (f := coffStep c file) (item := item)
    (view := fun x : CoffSym => if 0 < x.section_ then x.name else none) (xs := c.syms) (by
      intro sym hx e
      by_cases hp : 0 < sym.section_
      · simp only [hp, if_true]
        obtain ⟨k, ptr, k1, k2, k3⟩ := h sym hx hp
        have hk : (sym.section_ - 1).toNat = k := by omega
        cases hn : sym.name with
        | none => simp only [coffStep, hn]; rw [if_neg (by omega)]
        | some n =>
          dsimp only
          by_cases hm : isMetadataSymbol n = true
          · rw [if_pos hm]
            obtain ⟨content, k4, k5⟩ := k3 n hn hm
            obtain ⟨_, q2⟩ := extract_holds (e := e) (n := n) k4 k5
            simp only [coffStep, hn, hk, k2, hm]
            rw [if_neg (by omega)]
            simp only [Bool.not_true, Bool.false_eq_true, if_false]
            rw [Nat.sub_zero] at q2
            exact q2
          · rw [if_neg hm]
            simp only [coffStep, hn, hk, k2]
            rw [if_neg (by omega)]
            simp [hm]
      · simp only [hp, if_false]
        simp only [coffStep]
        rw [if_pos (by omega)]) {} [] (good_nil item)
  refine ⟨e'.items, ?_, ?_⟩
  · unfold extractCoff; rw [h1]; rfl
  · have := good_allOnce h2
    rw [List.nil_append] at this
    have e : c.syms.filterMap (fun x : CoffSym => if 0 < x.section_ then x.name else none) = c.defined := by
      unfold Coff.defined
      rw [List.filterMap_filter]
      congr 1
      funext x
      by_cases hp : 0 < x.section_ <;> simp [hp]
    rw [e] at this
    exact this

/-- The same for PE. -/
theorem C77_pe (exports : List PeExport) (file : Bytes) (item : String → Metadata) (h : PeSound exports file item) :
    ∃ ms, extractPe exports file = .ok ms ∧ AllOnce (exports.filterMap (·.name)) item ms := by
  obtain ⟨e', h1, h2⟩ := good_fold (f := peStep file) (item := item) (view := fun x : PeExport => x.name) (xs := exports) (by
    intro x hx e
    cases hn : x.name with
    | none => simp [peStep, hn]
    | some n =>
      dsimp only
      by_cases hm : isMetadataSymbol n = true
      · rw [if_pos hm]
        obtain ⟨bs, off, k1, k2, k3⟩ := h x hx n hn hm
        simp only [peStep, hn, hm, if_true, k1]
        exact extract_ok k2 k3
      · rw [if_neg hm]; simp [peStep, hn, hm]) {} [] (good_nil item)
  refine ⟨e'.items, ?_, ?_⟩
  · unfold extractPe; rw [h1]; rfl
  · simpa using good_allOnce h2

theorem insert_last {s : MachSection} : ∀ {l : List MachSection}, (∀ t ∈ l, t.addr ≤ s.addr) → insertByAddr s l = l ++ [s]
  | [], _ => rfl
  | t :: l, h => by
    simp only [insertByAddr]
    rw [if_pos (h t (List.mem_cons_self ..)), insert_last fun x hx => h x (List.mem_cons_of_mem _ hx)]
    rfl

theorem sort_sorted (l : List MachSection) (h : l.Pairwise fun a b => a.addr ≤ b.addr) : sortByAddr l = l := by
  suffices ∀ (l acc : List MachSection), (acc ++ l).Pairwise (fun a b => a.addr ≤ b.addr) →
      l.foldl (fun acc s => insertByAddr s acc) acc = acc ++ l from by
    unfold sortByAddr; simpa using this l [] (by simpa using h)
  intro l
  induction l with
  | nil => intro acc _; simp
  | cons s l ih =>
    intro acc h
    have h1 : ∀ t ∈ acc, t.addr ≤ s.addr := fun t ht => (List.pairwise_append.1 h).2.2 t ht s (List.mem_cons_self ..)
    simp only [List.foldl_cons]
    rw [insert_last h1, ih _ (by simpa using h)]
    simp

/-- The same for Mach-O, if the sections are in the order of their addresses. (They need not be, see
`C77_macho_order_broken`.) -/
theorem C77_macho_partial (m : MachO) (file : Bytes) (item : String → Metadata) (h : m.Sound file item)
    (ho : m.sections.Pairwise fun a b => a.addr ≤ b.addr) :
    ∃ ms, extractMachO m file = .ok ms ∧ AllOnce (m.defined.map (·.name) ++ m.exports.map (·.1)) item ms := by
  obtain ⟨e1, h1, g1⟩ := good_fold (f := machSymStep (sortByAddr m.sections) file) (item := item)
    (view := fun x : MachSym => if x.isGlobal && x.inSection && x.sect != 0 then some x.name else none) (xs := m.syms) (by
      intro x hx e
      by_cases hd : (x.isGlobal && x.inSection && x.sect != 0) = true
      · simp only [hd, if_true]
        by_cases hm : isMetadataSymbol x.name = true
        · rw [if_pos hm]
          obtain ⟨s, content, k1, k2, k3⟩ := h.1 x (List.mem_filter.2 ⟨hx, hd⟩) hm
          obtain ⟨q1, q2⟩ := extract_holds (e := e) (n := x.name) k2 k3
          have hc : (x.isGlobal && x.inSection && isMetadataSymbol x.name && x.sect != 0) = true := by
            simp_all
          simp only [machSymStep, hc, if_true, sort_sorted _ ho, k1]
          rw [if_neg (by omega), ← q2]
          congr 1
          omega
        · rw [if_neg hm]
          simp [machSymStep, hm]
      · have hc : (x.isGlobal && x.inSection && isMetadataSymbol x.name && x.sect != 0) = false := by
          revert hd
          cases x.isGlobal <;> cases x.inSection <;> cases isMetadataSymbol x.name <;> cases (x.sect != 0) <;> simp
        simp only [hd, Bool.false_eq_true, if_false, machSymStep, hc]) {} [] (good_nil item)
  obtain ⟨e2, h2, g2⟩ := good_fold (f := machExportStep file) (item := item) (view := fun x : String × Nat => some x.1)
    (xs := m.exports) (by
      rintro ⟨n, off⟩ hx e
      dsimp only
      by_cases hm : isMetadataSymbol n = true
      · rw [if_pos hm]
        obtain ⟨bs, k1, k2⟩ := h.2 n off hx hm
        simp only [machExportStep, hm, if_true]
        exact extract_ok k1 k2
      · rw [if_neg hm]; simp [machExportStep, hm]) e1 _ g1
  refine ⟨e2.items, ?_, ?_⟩
  · unfold extractMachO; rw [h1]; dsimp only; rw [h2]; rfl
  · have := good_allOnce g2
    rw [List.nil_append] at this
    have e : m.syms.filterMap (fun x : MachSym => if x.isGlobal && x.inSection && x.sect != 0 then some x.name else none) =
        m.defined.map (·.name) := by
      unfold MachO.defined
      rw [← List.filterMap_eq_map, List.filterMap_filter]
      rfl
    have e' : m.exports.filterMap (fun x : String × Nat => some x.1) = m.exports.map (·.1) := by
      rw [← List.filterMap_eq_map]; rfl
    rw [e, e'] at this
    exact this

/-- Of a fat file, the first part is read, at its place. -/
theorem C77_fat_partial (off : Nat) (m : MachO) (more : List (Nat × MachO)) (file : Bytes) (item : String → Metadata)
    (part : Bytes) (hp : LiesAt part file off) (h : m.Sound part item) (ho : m.sections.Pairwise fun a b => a.addr ≤ b.addr) :
    ∃ ms, extractFat ((off, m) :: more) file = .ok ms ∧
      AllOnce (m.defined.map (·.name) ++ m.exports.map (·.1)) item ms := by
  have hd : m.Sound (file.drop off) item := by
    obtain ⟨p, q, e, hl⟩ := hp
    have hf : file.drop off = part ++ q := by rw [e, List.append_assoc, ← hl, List.drop_left]
    have up : ∀ {c : Bytes} {k : Nat}, LiesAt c part k → LiesAt c (file.drop off) k := by
      rintro c k ⟨p', q', e', hl'⟩
      exact ⟨p', q' ++ q, by rw [hf, e']; simp only [List.append_assoc], hl'⟩
    refine ⟨fun sym h1 h2 => ?_, fun n o h1 h2 => ?_⟩
    · obtain ⟨s, c, a1, a2, a3⟩ := h.1 sym h1 h2
      exact ⟨s, c, a1, up a2, a3⟩
    · obtain ⟨bs, a1, a2⟩ := h.2 n o h1 h2
      exact ⟨bs, up a1, a2⟩
  obtain ⟨ms, h1, h2⟩ := C77_macho_partial m _ item hd ho
  refine ⟨ms, ?_, h2⟩
  simp only [extractFat]
  rw [if_neg (by have := liesAt_le hp; omega), h1]

theorem memberNamed_of {ms : List Member} (hn : (ms.map (·.name)).Nodup) {m : Member} (hm : m ∈ ms) :
    memberNamed ms m.name = some m := by
  unfold memberNamed
  have hex : ∃ x, ms.reverse.find? (fun x => decide (x.name = m.name)) = some x := by
    cases e : ms.reverse.find? (fun x => decide (x.name = m.name)) with
    | some x => exact ⟨x, rfl⟩
    | none =>
      have := List.find?_eq_none.1 e m (List.mem_reverse.2 hm)
      simp at this
  obtain ⟨x, hx⟩ := hex
  rw [hx]
  have h1 : x ∈ ms := List.mem_reverse.1 (List.mem_of_find?_eq_some hx)
  have h2 : x.name = m.name := by simpa using List.find?_some hx
  have hp : ms.Pairwise fun a b => a.name ≠ b.name := List.pairwise_map.1 hn
  have : x = m := by
    clear hx hn
    induction ms with
    | nil => simp at h1
    | cons a ms ih =>
      obtain ⟨p1, p2⟩ := List.pairwise_cons.1 hp
      rcases List.mem_cons.1 h1 with e1 | e1 <;> rcases List.mem_cons.1 hm with e2 | e2
      · rw [e1, e2]
      · subst e1; exact absurd h2 (p1 m e2)
      · subst e2; exact absurd h2.symm (p1 x e1)
      · exact ih e2 e1 p2
  rw [this]

theorem eraseDups_of_nodup {l : List String} (h : l.Nodup) : l.eraseDups = l := by
  induction l with
  | nil => rfl
  | cons a l ih =>
    obtain ⟨h1, h2⟩ := List.nodup_cons.1 h
    rw [List.eraseDups_cons]
    have : l.filter (fun b => !b == a) = l := List.filter_eq_self.2 fun b hb => by
      have : b ≠ a := fun e => h1 (e ▸ hb)
      simp [this]
    rw [this, ih h2]

theorem perm_map {α β : Type} {f : α → β} {a b : List β} (h : a.Perm b) :
    ∀ l : List α, b = l.map f → ∃ l' : List α, l'.Perm l ∧ a = l'.map f := by
  induction h with
  | nil => intro l e; exact ⟨l, .refl _, e⟩
  | cons x _ ih =>
    intro l e
    cases l with
    | nil => simp at e
    | cons y l =>
      simp only [List.map_cons, List.cons.injEq] at e
      obtain ⟨l', h1, h2⟩ := ih l e.2
      exact ⟨y :: l', h1.cons y, by simp [e.1, h2]⟩
  | swap x y l0 =>
    intro l e
    match l, e with
    | u :: v :: l, e =>
      simp only [List.map_cons, List.cons.injEq] at e
      exact ⟨v :: u :: l, .swap u v l, by simp [e.1, e.2.1, e.2.2]⟩
  | trans _ _ ih1 ih2 =>
    intro l e
    obtain ⟨l1, h1, h2⟩ := ih2 l e
    obtain ⟨l2, h3, h4⟩ := ih1 l1 h2
    exact ⟨l2, h3.trans h1, h4⟩

/-- Of an archive whose members have different names, exactly the items of the members with metadata are found,
in whatever order they are visited. (Names need not be different, see `C77_archive_names_broken`.) -/
theorem C77_archive_partial (ms : List Member) (hn : (ms.map (·.name)).Nodup) (items : Member → List Metadata)
    (hx : ∀ m ∈ ms, m.symbols.any isMetadataSymbol = true → extractObj m.obj m.data = .ok (items m))
    (order : List String) (ho : order.Perm (membersToCheck ms)) :
    ∃ l, extractArchive ms order = .ok l ∧
      l.Perm ((ms.filter fun m => m.symbols.any isMetadataSymbol).flatMap items) := by
  have hd : membersToCheck ms = (ms.filter fun m => m.symbols.any isMetadataSymbol).map (·.name) := by
    unfold membersToCheck
    apply eraseDups_of_nodup
    exact (List.Sublist.map _ List.filter_sublist).nodup hn
  rw [hd] at ho
  obtain ⟨l, hl, e⟩ := perm_map ho _ rfl
  refine ⟨l.flatMap items, ?_, hl.flatMap_right _⟩
  subst e
  have hall : ∀ m ∈ l, memberNamed ms m.name = some m ∧ extractObj m.obj m.data = .ok (items m) := by
    intro m hm
    obtain ⟨h1, h2⟩ := List.mem_filter.1 (hl.mem_iff.1 hm)
    exact ⟨memberNamed_of hn h1, hx m h1 h2⟩
  unfold extractArchive
  suffices ∀ (l : List Member) (acc : List Metadata), (∀ m ∈ l, memberNamed ms m.name = some m ∧
      extractObj m.obj m.data = .ok (items m)) →
      foldRes (archiveStep ms) acc (l.map (·.name)) = .ok (acc ++ l.flatMap items) from by
    simpa using this l [] hall
  intro l
  induction l with
  | nil => intro acc _; simp [foldRes]
  | cons m l ih =>
    intro acc h
    obtain ⟨h1, h2⟩ := h m (List.mem_cons_self ..)
    simp only [List.map_cons, foldRes, archiveStep, h1, h2]
    rw [ih _ fun x hx => h x (List.mem_cons_of_mem _ hx)]
    simp only [List.flatMap_cons, List.append_assoc]

/-- An item that was emitted by the macros is held by every section its bytes were put in, with the meaning of the
item. -/
theorem C77_emitted (i : Item) (bs : Bytes) (h : i.emit = some bs) : ∃ c1 c2, ∀ m, i.meaning (fnv16 bs) c1 c2 = some m →
    ∀ (content : Bytes) (base k : Nat), LiesAt bs content k → Holds content base (base + k) m := by
  obtain ⟨c1, c2, h1⟩ := Metadata.C39_item_round_trip i bs h
  refine ⟨c1, c2, fun m hm content base k hl => ⟨bs, k, rfl, hl, ?_⟩⟩
  have := h1 []
  rw [hm] at this
  simpa using this

/-- The symbols of items are recognised, with and without the underscore of Darwin. -/
theorem C77_symbols (crate kind name : String) :
    isMetadataSymbol (metaSymbol crate kind name) = true ∧ isMetadataSymbol ("_" ++ metaSymbol crate kind name) = true := by
  unfold isMetadataSymbol metaSymbol
  constructor
  · simp [String.toList_append]
  · simp [String.toList_append]

/-! Nothing is left out silently: whatever the file is, if extraction succeeds there is an item for every symbol. -/

def Counted (syms : List String) (e : Items) : Prop :=
  e.names.Nodup ∧ e.items.length = e.names.length ∧ ∀ n, n ∈ e.names ↔ n ∈ syms ∧ isMetadataSymbol n = true

theorem counted_extract {l : List String} {e e' : Items} {n : String} {file : Bytes} {off : Nat} (g : Counted l e)
    (hm : isMetadataSymbol n = true) (h : e.extract n file off = .ok e') : Counted (l ++ [n]) e' := by
  obtain ⟨g1, g2, g3⟩ := g
  unfold Items.extract at h
  by_cases hn : n ∈ e.names
  · rw [if_pos hn] at h
    cases h
    refine ⟨g1, g2, fun k => ?_⟩
    rw [g3 k, List.mem_append, List.mem_singleton]
    constructor
    · rintro ⟨a, b⟩; exact ⟨.inl a, b⟩
    · rintro ⟨a | a, b⟩
      · exact ⟨a, b⟩
      · subst a; exact (g3 k).1 hn
  · rw [if_neg hn] at h
    split at h
    · cases h
    · split at h <;> cases h
      refine ⟨?_, by simp [g2], fun k => ?_⟩
      · rw [List.nodup_append]
        refine ⟨g1, by simp, ?_⟩
        intro a ha b hb
        rw [List.mem_singleton] at hb
        subst hb
        intro e; subst e; exact hn ha
      · dsimp only
        rw [List.mem_append, List.mem_append, g3 k, List.mem_singleton]
        constructor
        · rintro (⟨a, b⟩ | a)
          · exact ⟨.inl a, b⟩
          · subst a; exact ⟨.inr rfl, hm⟩
        · rintro ⟨a | a, b⟩
          · exact .inl ⟨a, b⟩
          · exact .inr a

theorem counted_skip {l : List String} {e : Items} {n : String} (g : Counted l e) (hm : ¬ isMetadataSymbol n = true) :
    Counted (l ++ [n]) e := by
  obtain ⟨g1, g2, g3⟩ := g
  refine ⟨g1, g2, fun k => ?_⟩
  rw [g3 k, List.mem_append, List.mem_singleton]
  constructor
  · rintro ⟨a, b⟩; exact ⟨.inl a, b⟩
  · rintro ⟨a | a, b⟩
    · exact ⟨a, b⟩
    · subst a; exact absurd b hm

theorem counted_fold {α : Type} {f : Items → α → Res Items} {view : α → Option String} {xs : List α}
    (h : ∀ x e e' l, f e x = .ok e' → Counted l e → Counted (l ++ (view x).toList) e') :
    ∀ (e e' : Items) (l : List String), foldRes f e xs = .ok e' → Counted l e → Counted (l ++ xs.filterMap view) e' := by
  induction xs with
  | nil => intro e e' l h1 g; cases h1; simpa using g
  | cons x xs ih =>
    intro e e' l h1 g
    simp only [foldRes] at h1
    split at h1
    · rename_i e1 he
      have := ih e1 e' _ h1 (h x e e1 l he g)
      cases hv : view x <;> simpa [hv, List.filterMap_cons] using this
    · cases h1
    · cases h1

theorem counted_nil : Counted [] {} := ⟨List.nodup_nil, rfl, by simp⟩

/-- `ms` has one item for each of the metadata symbols. -/
def OneEach (syms : List String) (ms : List Metadata) : Prop :=
  ∃ names : List String, names.Nodup ∧ (∀ n, n ∈ names ↔ n ∈ syms ∧ isMetadataSymbol n = true) ∧ ms.length = names.length

theorem counted_oneEach {l : List String} {e : Items} (g : Counted l e) : OneEach l e.items := ⟨e.names, g.1, g.2.2, g.2.1⟩

theorem res_items {r : Res Items} {ms : List Metadata} (h : Res.items r = .ok ms) : ∃ e, r = .ok e ∧ ms = e.items := by
  cases r <;> simp [Res.items] at h
  exact ⟨_, rfl, h.symm⟩

theorem C77_elf_no_loss (elf : Elf) (file : Bytes) (ms : List Metadata) (h : extractElf elf file = .ok ms) :
    OneEach (elf.syms.filterMap (·.name)) ms := by
  obtain ⟨e, h1, rfl⟩ := res_items h
  have := counted_fold (view := fun x : ElfSym × Nat => x.1.name) (by
    intro x e e' l hx g
    unfold elfStep at hx
    split at hx
    · cases hx
    · rename_i n hn
      simp only [hn, Option.toList_some]
      by_cases hm : isMetadataSymbol n = true
      · simp only [hm, Bool.not_true, Bool.false_eq_true, if_false] at hx
        split at hx
        · split at hx
          · cases hx
          · split at hx
            · cases hx
            · exact counted_extract g hm hx
        · cases hx
        · cases hx
      · simp only [hm, Bool.not_false, if_true] at hx
        cases hx
        exact counted_skip g hm) _ _ _ h1 counted_nil
  have e1 : elf.syms.zipIdx.filterMap (fun x : ElfSym × Nat => x.1.name) = elf.syms.filterMap (·.name) := by
    rw [show (fun x : ElfSym × Nat => x.1.name) = (fun s : ElfSym => s.name) ∘ Prod.fst from rfl, ← List.filterMap_map,
      List.zipIdx_map_fst]
  rw [List.nil_append, e1] at this
  exact counted_oneEach this

theorem C77_pe_no_loss (exports : List PeExport) (file : Bytes) (ms : List Metadata) (h : extractPe exports file = .ok ms) :
    OneEach (exports.filterMap (·.name)) ms := by
  obtain ⟨e, h1, rfl⟩ := res_items h
  have := counted_fold (view := fun x : PeExport => x.name) (by
    intro x e e' l hx g
    unfold peStep at hx
    split at hx
    · rename_i hn; cases hx; simpa [hn] using g
    · rename_i n hn
      simp only [hn, Option.toList_some]
      by_cases hm : isMetadataSymbol n = true
      · rw [if_pos hm] at hx
        split at hx
        · cases hx
        · exact counted_extract g hm hx
      · rw [if_neg hm] at hx
        cases hx
        exact counted_skip g hm) _ _ _ h1 counted_nil
  simpa using counted_oneEach this

theorem C77_coff_no_loss (c : Coff) (file : Bytes) (ms : List Metadata) (h : extractCoff c file = .ok ms) :
    OneEach c.defined ms := by
  obtain ⟨e, h1, rfl⟩ := res_items h
  have := counted_fold (view := fun x : CoffSym => if 0 < x.section_ then x.name else none) (by
    intro x e e' l hx g
    unfold coffStep at hx
    split at hx
    · cases hx; rw [if_neg (by omega)]; simpa using g
    · rw [if_pos (by omega)]
      split at hx
      · rename_i hn; cases hx; simpa [hn] using g
      · rename_i n hn
        simp only [hn, Option.toList_some]
        split at hx
        · cases hx
        · by_cases hm : isMetadataSymbol n = true
          · simp only [hm, Bool.not_true, Bool.false_eq_true, if_false] at hx
            exact counted_extract g hm hx
          · simp only [hm, Bool.not_false, if_true] at hx
            cases hx
            exact counted_skip g hm) _ _ _ h1 counted_nil
  have e1 : c.syms.filterMap (fun x : CoffSym => if 0 < x.section_ then x.name else none) = c.defined := by
    unfold Coff.defined
    rw [List.filterMap_filter]
    congr 1
    funext x
    by_cases hp : 0 < x.section_ <;> simp [hp]
  rw [List.nil_append, e1] at this
  exact counted_oneEach this

theorem C77_macho_no_loss (m : MachO) (file : Bytes) (ms : List Metadata) (h : extractMachO m file = .ok ms) :
    OneEach (m.defined.map (·.name) ++ m.exports.map (·.1)) ms := by
  unfold extractMachO at h
  split at h
  · rename_i e1 h1
    obtain ⟨e2, h2, rfl⟩ := res_items h
    have g1 := counted_fold (view := fun x : MachSym => if x.isGlobal && x.inSection && x.sect != 0 then some x.name else none) (by
      intro x e e' l hx g
      unfold machSymStep at hx
      by_cases hd : (x.isGlobal && x.inSection && x.sect != 0) = true
      · simp only [hd, if_true, Option.toList_some]
        by_cases hm : isMetadataSymbol x.name = true
        · have hc : (x.isGlobal && x.inSection && isMetadataSymbol x.name && x.sect != 0) = true := by simp_all
          rw [if_pos hc] at hx
          split at hx
          · cases hx
          · split at hx
            · cases hx
            · exact counted_extract g hm hx
        · have hc : ¬ (x.isGlobal && x.inSection && isMetadataSymbol x.name && x.sect != 0) = true := by simp [hm]
          rw [if_neg hc] at hx
          cases hx
          exact counted_skip g hm
      · have hc : ¬ (x.isGlobal && x.inSection && isMetadataSymbol x.name && x.sect != 0) = true := by
          revert hd
          cases x.isGlobal <;> cases x.inSection <;> cases isMetadataSymbol x.name <;> cases (x.sect != 0) <;> simp
        rw [if_neg hc] at hx
        cases hx
        rw [if_neg hd]
        simpa using g) _ _ _ h1 counted_nil
    have g2 := counted_fold (view := fun x : String × Nat => some x.1) (by
      intro x e e' l hx g
      unfold machExportStep at hx
      simp only [Option.toList_some]
      split at hx
      · rename_i hm; exact counted_extract g hm hx
      · rename_i hm; cases hx; exact counted_skip g hm) _ _ _ h2 g1
    have e1 : m.syms.filterMap (fun x : MachSym => if x.isGlobal && x.inSection && x.sect != 0 then some x.name else none) =
        m.defined.map (·.name) := by
      unfold MachO.defined
      rw [← List.filterMap_eq_map, List.filterMap_filter]
      rfl
    have e2 : m.exports.filterMap (fun x : String × Nat => some x.1) = m.exports.map (·.1) := by
      rw [← List.filterMap_eq_map]; rfl
    rw [List.nil_append, e1, e2] at g2
    exact counted_oneEach g2
  · cases h
  · cases h

/-- If an archive can be read, so can every member that has items. -/
theorem C77_archive_no_loss (ms : List Member) (order : List String) (l : List Metadata) (hn : (ms.map (·.name)).Nodup)
    (ho : order.Perm (membersToCheck ms)) (h : extractArchive ms order = .ok l) (m : Member) (hm : m ∈ ms)
    (hs : m.symbols.any isMetadataSymbol = true) : ∃ items, extractObj m.obj m.data = .ok items ∧ ∀ x ∈ items, x ∈ l := by
  have hmem : m.name ∈ order := by
    rw [ho.mem_iff]
    unfold membersToCheck
    rw [List.mem_eraseDups, List.mem_map]
    exact ⟨m, List.mem_filter.2 ⟨hm, hs⟩, rfl⟩
  have hnm := memberNamed_of hn hm
  unfold extractArchive at h
  suffices ∀ (order : List String) (acc l : List Metadata), foldRes (archiveStep ms) acc order = .ok l →
      (∀ x ∈ acc, x ∈ l) ∧ (m.name ∈ order → ∃ items, extractObj m.obj m.data = .ok items ∧ ∀ x ∈ items, x ∈ l) from
    (this order [] l h).2 hmem
  intro order
  induction order with
  | nil => intro acc l h; cases h; exact ⟨fun _ h => h, fun h => by cases h⟩
  | cons n order ih =>
    intro acc l h
    simp only [foldRes] at h
    split at h
    · rename_i acc' ha
      obtain ⟨i1, i2⟩ := ih acc' l h
      unfold archiveStep at ha
      split at ha
      · cases ha
      · rename_i m' hm'
        split at ha
        · rename_i li hli
          cases ha
          refine ⟨fun x hx => i1 x (List.mem_append_left _ hx), fun hin => ?_⟩
          rcases List.mem_cons.1 hin with e | e
          · rw [← e, hnm] at hm'
            cases hm'
            exact ⟨li, hli, fun x hx => i1 x (List.mem_append_right _ hx)⟩
          · exact i2 e
        · cases ha
        · cases ha
    · cases h
    · cases h

/-! ### Examples -/

/-- The bytes of two items. -/
def nsBytes : Bytes := [6, 2, 109, 121, 2, 109, 121]
def otherBytes : Bytes := [6, 2, 109, 121, 2, 110, 110]
def nsItem : Metadata := .namespace_ "my" "my"
def otherItem : Metadata := .namespace_ "my" "nn"

theorem ns_reads : readMetadata nsBytes = .ok nsItem := by rfl
theorem other_reads : readMetadata otherBytes = .ok otherItem := by rfl

theorem ns_emits : (Item.namespace_ "my" "my").emit = some nsBytes := Metadata.emits (by decide +kernel)

/-- The items of the symbols of the examples. -/
def exItem (n : String) : Metadata := if n = "UNIFFI_META_A" then nsItem else otherItem

/-- A file with a header of three bytes, a section of 16 bytes, which is loaded at 100, and the table of section
numbers. -/
def exFile : Bytes := [1, 2, 3] ++ (nsBytes ++ [0, 0] ++ otherBytes) ++ [0, 0, 0, 0, 1, 0, 0, 0, 0, 0, 0, 0, 0, 0, 0, 0]

def exElf : Elf :=
  { sections := [⟨0, 0, false⟩, ⟨100, 3, false⟩, ⟨0, 19, true⟩],
    syms := [⟨some "", 0, 0⟩, ⟨some "UNIFFI_META_B", 0xffff, 109⟩, ⟨some "main", 0, 7⟩, ⟨some "UNIFFI_META_A", 1, 100⟩] }

theorem exContent : LiesAt (nsBytes ++ [0, 0] ++ otherBytes) exFile 3 := ⟨[1, 2, 3], _, rfl, rfl⟩
theorem exA : Holds (nsBytes ++ [0, 0] ++ otherBytes) 100 100 nsItem := ⟨nsBytes, 0, rfl, ⟨[], [0, 0] ++ otherBytes, rfl, rfl⟩, ns_reads⟩
theorem exB : Holds (nsBytes ++ [0, 0] ++ otherBytes) 100 109 otherItem :=
  ⟨otherBytes, 9, rfl, ⟨nsBytes ++ [0, 0], [], rfl, rfl⟩, other_reads⟩

theorem exElf_sound : exElf.Sound exFile exItem := by
  intro i sym h
  match i, h with
  | 0, h => cases h; exact ⟨"", rfl, fun h => absurd h (by decide)⟩
  | 1, h =>
    cases h
    exact ⟨"UNIFFI_META_B", rfl, fun _ => ⟨1, ⟨100, 3, false⟩, _, .inr ⟨rfl, ⟨0, 19, true⟩, [0, 1, 0, 0], rfl, rfl, by decide,
      ⟨exFile.take 19, [], by decide, by decide⟩⟩, rfl, exContent, exB⟩⟩
  | 2, h => cases h; exact ⟨"main", rfl, fun h => absurd h (by decide)⟩
  | 3, h => cases h; exact ⟨"UNIFFI_META_A", rfl, fun _ => ⟨1, ⟨100, 3, false⟩, _, .inl ⟨by decide, rfl⟩, rfl, exContent, exA⟩⟩
  | _ + 4, h => simp [exElf] at h

example : extractElf exElf exFile = .ok [otherItem, nsItem] := by rfl

def exCoff : Coff :=
  { sections := [0, 3], syms := [⟨some "UNIFFI_META_A", 2, 0⟩, ⟨some "UNIFFI_META_X", 0, 0⟩, ⟨none, 1, 0⟩, ⟨some "UNIFFI_META_B", 2, 9⟩] }

theorem exCoff_sound : exCoff.Sound exFile exItem := by
  intro sym hs hp
  simp only [exCoff, List.mem_cons, List.not_mem_nil, or_false] at hs
  rcases hs with rfl | rfl | rfl | rfl
  · exact ⟨1, 3, rfl, rfl, fun n h _ => by cases h; exact ⟨_, exContent, nsBytes, 0, rfl, ⟨[], _, rfl, rfl⟩, ns_reads⟩⟩
  · simp at hp
  · exact ⟨0, 0, rfl, rfl, fun n h _ => by cases h⟩
  · exact ⟨1, 3, rfl, rfl, fun n h _ => by
      cases h; exact ⟨_, exContent, otherBytes, 9, rfl, ⟨nsBytes ++ [0, 0], [], rfl, rfl⟩, other_reads⟩⟩

example : extractCoff exCoff exFile = .ok [nsItem, otherItem] := by rfl

def exPe : List PeExport := [⟨some "UNIFFI_META_A", some 3⟩, ⟨none, none⟩, ⟨some "f", none⟩, ⟨some "UNIFFI_META_B", some 12⟩]

theorem exPe_sound : PeSound exPe exFile exItem := by
  intro x hx n hn hm
  simp only [exPe, List.mem_cons, List.not_mem_nil, or_false] at hx
  rcases hx with rfl | rfl | rfl | rfl
  · cases hn; exact ⟨nsBytes, 3, rfl, ⟨[1, 2, 3], _, by rfl, rfl⟩, ns_reads⟩
  · cases hn
  · cases hn; exact absurd hm (by decide)
  · cases hn; exact ⟨otherBytes, 12, rfl, ⟨[1, 2, 3] ++ nsBytes ++ [0, 0], _, by rfl, rfl⟩, other_reads⟩

example : extractPe exPe exFile = .ok [nsItem, otherItem] := by rfl

/-- A symbol that is also exported; in Mach-O files names start with an underscore. -/
def exMach (sections : List MachSection) (sect : Nat) : MachO :=
  { sections, syms := [⟨"_UNIFFI_META_A", true, true, sect, 100⟩, ⟨"_UNIFFI_META_L", false, true, 9, 0⟩],
    exports := [("_UNIFFI_META_A", 3), ("_main", 77)] }

theorem exMach_sound (sections : List MachSection) (sect : Nat) (h : sections[sect - 1]? = some ⟨100, 3⟩) :
    (exMach sections sect).Sound exFile fun _ => nsItem := by
  constructor
  · intro sym hs hm
    have hs' := (List.mem_filter.1 hs).1
    simp only [exMach, List.mem_cons, List.not_mem_nil, or_false] at hs'
    rcases hs' with rfl | rfl
    · exact ⟨_, _, h, exContent, exA⟩
    · simp [MachO.defined] at hs
  · intro n off h hm
    simp only [exMach, List.mem_cons, List.not_mem_nil, or_false, Prod.mk.injEq] at h
    rcases h with ⟨rfl, rfl⟩ | ⟨rfl, rfl⟩
    · exact ⟨nsBytes, ⟨[1, 2, 3], _, by rfl, rfl⟩, ns_reads⟩
    · exact absurd hm (by decide)

example : extractMachO (exMach [⟨0, 0⟩, ⟨100, 3⟩] 2) exFile = .ok [nsItem] := by rfl

example : ([⟨0, 0⟩, ⟨100, 3⟩] : List MachSection).Pairwise fun a b => a.addr ≤ b.addr := by decide

/-- A Mach-O file with a section in front of one with a lower address: the symbol is looked up in the other section
and nothing can be extracted. -/
theorem C77_macho_order_broken : ∃ (m : MachO) (file : Bytes) (item : String → Metadata),
    m.Sound file item ∧ "_UNIFFI_META_A" ∈ m.defined.map (·.name) ∧ extractMachO m file = .panic :=
  ⟨exMach [⟨100, 3⟩, ⟨0, 0⟩] 1, exFile, fun _ => nsItem, exMach_sound _ _ rfl, by decide, by rfl⟩

/-- Members of an archive with one item each. -/
def exMember (name : String) (item : Bytes) : Member :=
  { name, symbols := ["f", "UNIFFI_META_" ++ name],
    obj := .elf { sections := [⟨0, 0, false⟩, ⟨0, 2, false⟩], syms := [⟨some ("UNIFFI_META_" ++ name), 1, 0⟩] },
    data := [5, 5] ++ item }

example : extractArchive [exMember "a" nsBytes, ⟨"c", ["g"], .unknown, []⟩, exMember "b" otherBytes] ["b", "a"] =
    .ok [otherItem, nsItem] := by rfl

example : ["b", "a"].Perm (membersToCheck [exMember "a" nsBytes, ⟨"c", ["g"], .unknown, []⟩, exMember "b" otherBytes]) := by
  decide

/-- Two members with the same name: the items of one are missing. -/
theorem C77_archive_names_broken : ∃ (ms : List Member) (order : List String), order.Perm (membersToCheck ms) ∧
    (∀ m ∈ ms, ∃ x, extractObj m.obj m.data = .ok [x]) ∧ ms.length = 2 ∧ extractArchive ms order = .ok [otherItem] ∧
    ∃ m ∈ ms, extractObj m.obj m.data = .ok [nsItem] := by
  refine ⟨[exMember "a" nsBytes, exMember "a" otherBytes], ["a"], by decide, ?_, rfl, by rfl, _, List.mem_cons_self .., by rfl⟩
  intro m hm
  simp only [List.mem_cons, List.not_mem_nil, or_false] at hm
  rcases hm with rfl | rfl
  · exact ⟨nsItem, by rfl⟩
  · exact ⟨otherItem, by rfl⟩

/-- A symbol that an ELF file uses but does not define (number 0 of a section) is looked for at the start of the file, and
all extraction fails, though every symbol that is defined holds an item. -/
theorem C77_undefined_broken : ∃ (elf : Elf) (file : Bytes), extractElf elf file = .err ∧
    ({ elf with syms := elf.syms.filter fun s => s.shndx != 0 } : Elf).Sound file exItem ∧
    extractElf { elf with syms := elf.syms.filter fun s => s.shndx != 0 } file = .ok [nsItem] := by
  refine ⟨{ sections := [⟨0, 0, false⟩, ⟨100, 3, false⟩],
            syms := [⟨some "UNIFFI_META_A", 1, 100⟩, ⟨some "UNIFFI_META_B", 0, 0⟩] }, [127] ++ exFile.drop 1, by rfl, ?_, by rfl⟩
  intro i sym h
  match i, h with
  | 0, h =>
    cases h
    exact ⟨"UNIFFI_META_A", rfl, fun _ => ⟨1, ⟨100, 3, false⟩, nsBytes ++ [0, 0] ++ otherBytes, .inl ⟨by decide, rfl⟩, rfl,
      ⟨[127, 2, 3], _, by rfl, rfl⟩, exA⟩⟩
  | _ + 1, h => simp at h

/-- Different items can have the same symbol: a function of crate `a` and one of crate `a_func_x`, a method `c` of `A_b`
and a method `b_c` of `A`, and records that differ in case. (Building such a library fails with a clash of symbols.) -/
theorem C77_symbols_clash_broken :
    metaSymbol "a" "func" "x_func_y" = metaSymbol "a_func_x" "func" "y" ∧
    metaSymbol "a" "method" ("A_b" ++ "_" ++ "c") = metaSymbol "a" "method" ("A" ++ "_" ++ "b_c") ∧
    metaSymbol "a" "record" "URLInfo" = metaSymbol "a" "record" "UrlInfo" := by
  decide +kernel

end Verif.Props.Extract
