import Verif.Jni.ObjectsLemmas
/-
Every step of `Jni/Objects.lean` keeps the invariants.
-/
namespace Verif.JniObjects

/-! ### Every Rust object is alive or was dropped once -/

structure Objs (w : W) : Prop where
  fresh : ∀ n, w.nextRust ≤ n → (∀ a, w.body a ≠ some (.obj n)) ∧ w.log.count (.dropped n) = 0
  unique : ∀ a b n, w.body a = some (.obj n) → w.body b = some (.obj n) → a = b
  live : ∀ a n, w.body a = some (.obj n) → w.log.count (.dropped n) = 0
  dead : ∀ n, n < w.nextRust → (∀ a, w.body a ≠ some (.obj n)) → w.log.count (.dropped n) = 1
  made : ∀ n, Ev.made (.rust n) ∈ w.log ↔ n < w.nextRust

theorem Objs.same {w w' : W} (j : Objs w) (hb : ∀ a n, w'.body a = some (.obj n) ↔ w.body a = some (.obj n))
    (hn : w'.nextRust = w.nextRust) {l : List Ev} (hl : w'.log = w.log ++ l)
    (hd : ∀ n, Ev.dropped n ∉ l ∧ Ev.made (.rust n) ∉ l) : Objs w' := by
  have hc : ∀ n, w'.log.count (.dropped n) = w.log.count (.dropped n) := by
    intro n; rw [hl, List.count_append, List.count_eq_zero.2 (hd n).1, Nat.add_zero]
  refine ⟨?_, ?_, ?_, ?_, ?_⟩
  · intro n h; rw [hn] at h; rw [hc]
    exact ⟨fun a h' => (j.fresh n h).1 a ((hb a n).1 h'), (j.fresh n h).2⟩
  · intro a b n h1 h2; exact j.unique a b n ((hb _ _).1 h1) ((hb _ _).1 h2)
  · intro a n h; rw [hc]; exact j.live a n ((hb _ _).1 h)
  · intro n h h'; rw [hn] at h; rw [hc]; exact j.dead n h fun a ha => h' a ((hb _ _).2 ha)
  · intro n
    rw [hn, ← j.made n, hl, List.mem_append]
    exact ⟨fun h => h.resolve_right (hd n).2, .inl⟩

theorem Objs.incr {w : W} (j : Objs w) (a : Nat) : Objs (w.incr a) := by
  unfold W.incr
  cases h : w.heap a with
  | none => exact j.same (fun _ _ => Iff.rfl) rfl (l := []) (by simp) (by simp)
  | some p =>
    obtain ⟨b, c⟩ := p
    refine j.same (fun x n => ?_) rfl (l := []) (by simp [W.setHeap]) (by simp)
    unfold W.body W.setHeap
    dsimp only
    split
    · rename_i e; rw [e, h]; rfl
    · exact Iff.rfl

theorem Objs.decrWith {w : W} {inner : W → Nat → W} (j : Objs w) (a : Nat)
    (hi : ∀ w' b, Objs w' → Objs (inner w' b)) : Objs (W.decrWith inner w a) := by
  unfold W.decrWith
  cases h : w.heap a with
  | none => exact j.same (fun _ _ => Iff.rfl) rfl (l := []) (by simp) (by simp)
  | some p =>
    obtain ⟨b, c⟩ := p
    have hbo : w.body a = some b := body_some.2 ⟨c, h⟩
    dsimp only
    split
    · have hb : ∀ x, ((w.setHeap a none).forget a).body x = if x = a then none else w.body x := by
        intro x; unfold W.body W.setHeap W.forget; dsimp only; split <;> rfl
      have hsame : (∀ n, b ≠ .obj n) → Objs ((w.setHeap a none).forget a) := by
        intro hno
        refine j.same (fun x n => ?_) rfl (l := []) (by simp [W.setHeap, W.forget]) (by simp)
        rw [hb]
        split
        · rename_i e
          rw [e, hbo]
          exact ⟨fun h => by (cases h), fun h => absurd (Option.some.inj h) (hno n)⟩
        · exact Iff.rfl
      cases b with
      | obj n =>
        have hcn : ∀ m, (w.log ++ [Ev.dropped n]).count (.dropped m) =
            w.log.count (.dropped m) + if n = m then 1 else 0 := by
          intro m
          rw [List.count_append, List.count_cons, List.count_nil]
          by_cases e : n = m
          · subst e; simp
          · simp [e]
        have hb' : ∀ x, (((w.setHeap a none).forget a).add (.dropped n)).body x = if x = a then none else w.body x := hb
        refine ⟨?_, ?_, ?_, ?_, ?_⟩
        · intro m hm
          have := j.fresh m hm
          refine ⟨fun x hx => ?_, ?_⟩
          · rw [hb'] at hx
            split at hx
            · cases hx
            · exact this.1 x hx
          · show (w.log ++ [Ev.dropped n]).count (.dropped m) = 0
            rw [hcn, this.2, if_neg]
            rintro rfl
            exact this.1 a hbo
        · intro x y m hx hy
          rw [hb'] at hx hy
          split at hx
          · cases hx
          · split at hy
            · cases hy
            · exact j.unique x y m hx hy
        · intro x m hx
          rw [hb'] at hx
          split at hx
          · cases hx
          · rename_i hne
            show (w.log ++ [Ev.dropped n]).count (.dropped m) = 0
            rw [hcn, j.live x m hx, if_neg]
            rintro rfl
            exact hne (j.unique x a n hx hbo)
        · intro m hm hno
          show (w.log ++ [Ev.dropped n]).count (.dropped m) = 1
          rw [hcn]
          by_cases e : n = m
          · subst e; rw [j.live a n hbo, if_pos rfl]
          · rw [if_neg e, j.dead m hm]
            intro x hx
            refine hno x ?_
            rw [hb', if_neg]
            · exact hx
            · rintro rfl; rw [hbo] at hx; cases hx; exact e rfl
        · intro m
          show Ev.made _ ∈ w.log ++ [Ev.dropped n] ↔ m < w.nextRust
          rw [← j.made m, List.mem_append]
          simp
      | wrapper fh =>
        have jo := hsame (by intro n e; cases e)
        dsimp only
        unfold W.freeKotlin
        split <;> exact jo.same (fun _ _ => Iff.rfl) rfl (l := []) (by simp [W.setMap]) (by simp)
      | double b' =>
        exact hi _ _ (hsame (by intro n e; cases e))
    · refine j.same (fun x n => ?_) rfl (l := []) (by simp [W.setHeap]) (by simp)
      unfold W.body W.setHeap
      dsimp only
      split
      · rename_i e; rw [e, h]; rfl
      · exact Iff.rfl

theorem Objs.decr {w : W} (j : Objs w) (a : Nat) : Objs (w.decr a) :=
  j.decrWith a fun _ b j' => j'.decrWith b fun _ _ j'' =>
    j''.same (fun _ _ => Iff.rfl) rfl (l := []) (by simp) (by simp)

/-! ### What dropping does not change -/

structure Frame (w w' : W) : Prop where
  kts : w'.kts = w.kts
  borrows : w'.borrows = w.borrows
  held : ∀ j, w'.held j = w.held j
  freed : ∀ j, w'.log.count (.freed j) = w.log.count (.freed j)
  next : w'.next = w.next
  nextKotlin : w'.nextKotlin = w.nextKotlin

theorem Frame.refl (w : W) : Frame w w := ⟨rfl, rfl, fun _ => rfl, fun _ => rfl, rfl, rfl⟩

theorem Frame.trans {w w' w'' : W} (h : Frame w w') (h' : Frame w' w'') : Frame w w'' :=
  ⟨h'.kts.trans h.kts, h'.borrows.trans h.borrows, fun j => (h'.held j).trans (h.held j),
    fun j => (h'.freed j).trans (h.freed j), h'.next.trans h.next, h'.nextKotlin.trans h.nextKotlin⟩

theorem frame_forget (w : W) (a : Nat) : Frame w ((w.setHeap a none).forget a) := by
  refine ⟨rfl, rfl, fun j => ?_, fun _ => rfl, rfl, rfl⟩
  show (w.own.filter _).filter _ = w.own.filter _
  rw [List.filter_filter]
  apply List.filter_congr
  intro r _
  by_cases e : r.place = .kotlin j
  · simp [e]
  · simp [e]

theorem frame_add (w : W) {e : Ev} (h : ∀ j, e ≠ .freed j) : Frame w (w.add e) := by
  refine ⟨rfl, rfl, fun _ => rfl, fun j => ?_, rfl, rfl⟩
  show (w.log ++ [e]).count _ = _
  rw [List.count_append, List.count_cons, List.count_nil, if_neg]
  · simp
  · intro e'; exact h j (by simpa using e')

theorem frame_decrWith {inner : W → Nat → W} (hi : ∀ w b, Frame w (inner w b)) (w : W) (a : Nat) :
    Frame w (W.decrWith inner w a) := by
  unfold W.decrWith
  split
  · exact ⟨rfl, rfl, fun _ => rfl, fun _ => rfl, rfl, rfl⟩
  · split
    · refine (frame_forget w a).trans ?_
      dsimp only
      split
      · exact frame_add _ (fun j e => by cases e)
      · unfold W.freeKotlin; split <;> exact ⟨rfl, rfl, fun _ => rfl, fun _ => rfl, rfl, rfl⟩
      · exact hi _ _
    · exact ⟨rfl, rfl, fun _ => rfl, fun _ => rfl, rfl, rfl⟩

theorem frame_decr (w : W) (a : Nat) : Frame w (w.decr a) :=
  frame_decrWith (inner := W.decrInner) (frame_decrWith (inner := fun w _ => { w with bad := true })
    fun _ _ => ⟨rfl, rfl, fun _ => rfl, fun _ => rfl, rfl, rfl⟩) w a

theorem frame_incr (w : W) (a : Nat) : Frame w (w.incr a) := by
  unfold W.incr; split <;> exact ⟨rfl, rfl, fun _ => rfl, fun _ => rfl, rfl, rfl⟩

theorem frame_call (w : W) (a : Nat) (t : Who) : Frame w (w.call a t) := by
  unfold W.call
  split
  · exact frame_add _ (fun j e => by cases e)
  · split
    · exact frame_add _ (fun j e => by cases e)
    · exact ⟨rfl, rfl, fun _ => rfl, fun _ => rfl, rfl, rfl⟩
  · exact ⟨rfl, rfl, fun _ => rfl, fun _ => rfl, rfl, rfl⟩

theorem frame_callRef (k : Kind) (w : W) (a : Nat) (t : Who) : Frame w (w.callRef k a t) := by
  unfold W.callRef
  split
  · exact frame_call ..
  · split
    · exact frame_call ..
    · exact ⟨rfl, rfl, fun _ => rfl, fun _ => rfl, rfl, rfl⟩

/-- A reference that no Kotlin object holds comes or goes. -/
theorem frame_own (w : W) {l : List Ref} (h : ∀ j, l.filter (fun r => r.place = .kotlin j) = w.held j) :
    Frame w { w with own := l } :=
  ⟨rfl, rfl, h, fun _ => rfl, rfl, rfl⟩

theorem held_append (w : W) {l : List Ref} (h : ∀ r ∈ l, ∀ j, r.place ≠ .kotlin j) (j : Nat) :
    (w.own ++ l).filter (fun r => r.place = .kotlin j) = w.held j := by
  rw [List.filter_append]
  have : l.filter (fun r => decide (r.place = .kotlin j)) = [] := by
    rw [List.filter_eq_nil_iff]
    intro r hr hp
    exact h r hr j (by simpa using hp)
  rw [this, List.append_nil]; rfl

theorem held_erase (w : W) {r : Ref} (h : ∀ j, r.place ≠ .kotlin j) (j : Nat) :
    (w.own.erase r).filter (fun r => r.place = .kotlin j) = w.held j := by
  rw [← List.erase_filter]
  apply List.erase_of_not_mem
  intro hm
  exact h j (by simpa using (List.mem_filter.1 hm).2)

theorem frame_append (w : W) {l : List Ref} (h : ∀ r ∈ l, ∀ j, r.place ≠ .kotlin j) :
    Frame w { w with own := w.own ++ l } := frame_own w (held_append w h)

theorem frame_erase (w : W) {r : Ref} (h : ∀ j, r.place ≠ .kotlin j) :
    Frame w { w with own := w.own.erase r } := frame_own w (held_erase w h)

theorem frame_lift (k : Kind) (w : W) (h a : Nat) (t : Who) : Frame w (w.lift k h a t) := by
  have hd : Frame w (w.liftDouble h t) := by
    unfold W.liftDouble
    split
    · exact ((frame_incr _ _).trans (frame_append _ (by simp))).trans (frame_decr _ _)
    · exact ⟨rfl, rfl, fun _ => rfl, fun _ => rfl, rfl, rfl⟩
  have hw : Frame w (w.liftWrapper h a t) :=
    ⟨rfl, rfl, fun j => held_append w (by simp) j, fun _ => rfl, rfl, rfl⟩
  unfold W.lift
  split
  · exact frame_append _ (by simp)
  · exact hd
  · split
    · exact hw
    · exact hd
  · exact hw

theorem frame_lower {k : Kind} {w w' : W} {a d : Nat} {t : Who} (e : w.lower k a d t = some w') : Frame w w' := by
  unfold W.lower at e
  split at e
  · cases e; exact frame_append _ (by simp)
  · cases e
  · cases e; exact ⟨rfl, rfl, fun j => held_append w (by simp) j, fun _ => rfl, rfl, rfl⟩

/-! ### Kotlin objects -/

/-- What holds whatever Kotlin code does. -/
structure Kts (w : W) : Prop where
  flag : ∀ (j : Nat) (o : Kt), w.kts[j]? = some o → o.flag = true → o.cleaning = true ∨ o.cleaned = true
  cleaning : ∀ (j : Nat) (o : Kt), w.kts[j]? = some o → o.cleaning = true → o.flag = true
  cleaned : ∀ (j : Nat) (o : Kt), w.kts[j]? = some o → o.cleaned = true → o.flag = true ∨ o.gone = true ∨ o.handle = 0
  freed : ∀ j, w.log.count (.freed j) =
    match w.kts[j]? with
    | some o => if o.cleaned = true ∧ o.handle ≠ 0 then 1 else 0
    | none => 0
  held : ∀ j, w.held j =
    match w.kts[j]? with
    | some o => if o.cleaned then [] else [⟨.kotlin j, o.handle, o.who⟩]
    | none => []

theorem Kts.frame {w w' : W} (j : Kts w) (f : Frame w w') : Kts w' := by
  refine ⟨?_, ?_, ?_, ?_, ?_⟩
  · rw [f.kts]; exact j.flag
  · rw [f.kts]; exact j.cleaning
  · rw [f.kts]; exact j.cleaned
  · intro i; rw [f.freed, f.kts]; exact j.freed i
  · intro i; rw [f.held, f.kts]; exact j.held i

theorem Kts.set {w : W} (j : Kts w) {i : Nat} {o o' : Kt} (ho : w.kts[i]? = some o)
    (hh : o'.handle = o.handle) (hw : o'.who = o.who) (hc : o'.cleaned = o.cleaned)
    (h1 : o'.flag = true → o'.cleaning = true ∨ o'.cleaned = true) (h2 : o'.cleaning = true → o'.flag = true)
    (h3 : o.flag = true ∨ o.gone = true → o'.flag = true ∨ o'.gone = true) :
    Kts { w with kts := w.kts.set i o' } := by
  have hlt : i < w.kts.length := (List.getElem?_eq_some_iff.1 ho).1
  have hg : ∀ x, (w.kts.set i o')[x]? = if x = i then some o' else w.kts[x]? := by
    intro x
    rw [List.getElem?_set]
    by_cases e : i = x
    · subst e; simp [hlt]
    · have : ¬ x = i := fun e' => e e'.symm
      simp [e, this]
  refine ⟨?_, ?_, ?_, ?_, ?_⟩
  · intro x y h
    rw [hg] at h
    split at h
    · cases h; exact h1
    · exact j.flag x y h
  · intro x y h
    rw [hg] at h
    split at h
    · cases h; exact h2
    · exact j.cleaning x y h
  · intro x y h hcl
    rw [hg] at h
    split at h
    · cases h
      rw [hc] at hcl
      rw [hh]
      rcases j.cleaned i o ho hcl with h | h | h
      · exact (h3 (.inl h)).imp id .inl
      · exact (h3 (.inr h)).imp id .inl
      · exact .inr (.inr h)
    · exact j.cleaned x y h hcl
  · intro x
    show w.log.count _ = match (w.kts.set i o')[x]? with | some o => _ | none => _
    rw [hg]
    split
    · rename_i e; split at e
      · rename_i e'; cases e; subst e'; have := j.freed x; rw [ho] at this; rw [this, hc, hh]
      · have := j.freed x; rw [e] at this; exact this
    · rename_i e; split at e
      · cases e
      · have := j.freed x; rw [e] at this; exact this
  · intro x
    show w.held x = match (w.kts.set i o')[x]? with | some o => _ | none => _
    rw [hg]
    split
    · rename_i e; split at e
      · rename_i e'; cases e; subst e'; have := j.held x; rw [ho] at this; rw [this, hc, hh, hw]
      · have := j.held x; rw [e] at this; exact this
    · rename_i e; split at e
      · cases e
      · have := j.held x; rw [e] at this; exact this

theorem Kts.push {w : W} (j : Kts w) (o : Kt) (hf : o.flag = false) (hc : o.cleaning = false) {l : List Ref} {lg : List Ev}
    (h0 : o.cleaned = true → o.handle = 0)
    (hl : ∀ x, l.filter (fun r => r.place = .kotlin x) = w.held x ++ if x = w.kts.length then
      (if o.cleaned then [] else [⟨.kotlin x, o.handle, o.who⟩]) else [])
    (hlg : ∀ x, lg.count (.freed x) = w.log.count (.freed x)) :
    Kts { w with kts := w.kts ++ [o], own := l, log := lg } := by
  have hg : ∀ x, (w.kts ++ [o])[x]? = if x = w.kts.length then some o else w.kts[x]? := by
    intro x
    rw [List.getElem?_append]
    split
    · rename_i h; rw [if_neg (by omega)]
    · rename_i h
      by_cases e : x = w.kts.length
      · subst e; simp
      · rw [if_neg e, List.getElem?_eq_none (by simp; omega), List.getElem?_eq_none (by omega)]
  have hn : w.kts[w.kts.length]? = none := List.getElem?_eq_none (Nat.le_refl _)
  refine ⟨?_, ?_, ?_, ?_, ?_⟩
  · intro x y h h'
    rw [hg] at h
    split at h
    · cases h; rw [hf] at h'; cases h'
    · exact j.flag x y h h'
  · intro x y h h'
    rw [hg] at h
    split at h
    · cases h; rw [hc] at h'; cases h'
    · exact j.cleaning x y h h'
  · intro x y h hcl
    rw [hg] at h
    split at h
    · cases h; exact .inr (.inr (h0 hcl))
    · exact j.cleaned x y h hcl
  · intro x
    show lg.count _ = match (w.kts ++ [o])[x]? with | some o => _ | none => _
    rw [hg, hlg]
    have := j.freed x
    split
    · rename_i e; split at e
      · rename_i e'; cases e; subst e'; rw [hn] at this; rw [this, if_neg]; exact fun h => h.2 (h0 h.1)
      · rw [e] at this; exact this
    · rename_i e; split at e
      · cases e
      · rw [e] at this; exact this
  · intro x
    show l.filter _ = match (w.kts ++ [o])[x]? with | some o => _ | none => _
    rw [hg, hl]
    have := j.held x
    by_cases e : x = w.kts.length
    · subst e; rw [hn] at this; rw [this, if_pos rfl, if_pos rfl]; rfl
    · rw [if_neg e, if_neg e, List.append_nil]; exact this

theorem Kts.clean {w : W} (j : Kts w) {i : Nat} {o : Kt} (ho : w.kts[i]? = some o)
    (hr : o.cleaning = true ∨ o.gone = true) : Kts (w.clean i o) := by
  unfold W.clean
  split
  · rename_i hc
    exact j.set ho rfl rfl rfl (fun _ => .inr hc) (fun h => by cases h) id
  · rename_i hc
    have hc : o.cleaned = false := by simpa using hc
    have hlt : i < w.kts.length := (List.getElem?_eq_some_iff.1 ho).1
    have hg : ∀ x, (w.kts.set i { o with cleaning := false, cleaned := true })[x]? =
        if x = i then some { o with cleaning := false, cleaned := true } else w.kts[x]? := by
      intro x
      rw [List.getElem?_set]
      by_cases e : i = x
      · subst e; simp [hlt]
      · have : ¬ x = i := fun e' => e e'.symm
        simp [e, this]
    have hreq : o.flag = true ∨ o.gone = true := hr.imp (j.cleaning i o ho) id
    have hheld := j.held i
    rw [ho] at hheld
    simp only [hc, Bool.false_eq_true, if_false] at hheld
    have hfreed := j.freed i
    rw [ho] at hfreed
    simp only [hc, Bool.false_eq_true, false_and, if_false] at hfreed
    have main : ∀ (l : List Ref) (lg : List Ev),
        (∀ x, l.filter (fun r => r.place = .kotlin x) = if x = i then [] else w.held x) →
        (∀ x, lg.count (.freed x) = w.log.count (.freed x) + if x = i ∧ o.handle ≠ 0 then 1 else 0) →
        Kts { w with kts := w.kts.set i { o with cleaning := false, cleaned := true }, own := l, log := lg } := by
      intro l lg hl hlg
      refine ⟨?_, ?_, ?_, ?_, ?_⟩
      · intro x y h h'
        rw [hg] at h
        split at h
        · cases h; exact .inr rfl
        · exact j.flag x y h h'
      · intro x y h h'
        rw [hg] at h
        split at h
        · cases h; cases h'
        · exact j.cleaning x y h h'
      · intro x y h hcl
        rw [hg] at h
        split at h
        · cases h; exact hreq.imp id .inl
        · exact j.cleaned x y h hcl
      · intro x
        show lg.count _ = match (w.kts.set i _)[x]? with | some o => _ | none => _
        rw [hg, hlg]
        by_cases e : x = i
        · subst e; rw [hfreed]; simp
        · simp only [e, if_false, false_and, Nat.add_zero]; exact j.freed x
      · intro x
        show l.filter _ = match (w.kts.set i _)[x]? with | some o => _ | none => _
        rw [hg, hl]
        by_cases e : x = i
        · subst e; simp
        · simp only [e, if_false]; exact j.held x
    have hown : ∀ x, (w.own.erase ⟨.kotlin i, o.handle, o.who⟩).filter (fun r => r.place = .kotlin x) =
        if x = i then [] else w.held x := by
      intro x
      rw [← List.erase_filter]
      by_cases e : x = i
      · subst e
        have : w.own.filter (fun r => decide (r.place = .kotlin x)) = [⟨.kotlin x, o.handle, o.who⟩] := hheld
        rw [this]; simp
      · rw [if_neg e]
        apply List.erase_of_not_mem
        intro hm
        have := (List.mem_filter.1 hm).2
        simp at this
        exact e this.symm
    dsimp only
    split
    · rename_i hz
      exact main _ w.log hown (fun x => by simp [hz])
    · rename_i hz
      refine Kts.frame ?_ (frame_decr _ _)
      refine main _ _ hown ?_
      intro x
      show (w.log ++ [Ev.freed i]).count _ = _
      rw [List.count_append, List.count_cons, List.count_nil]
      by_cases e : x = i
      · subst e; simp [hz]
      · have : ¬ i = x := fun e' => e e'.symm
        simp [e, this]

/-! ### Steps -/

theorem Kts.step {k : Kind} {careful : Bool} {w w' : W} {c : Cmd} (j : Kts w) (h : step k careful w c = some w') :
    Kts w' := by
  cases c with
  | rustNew a =>
    simp only [JniObjects.step] at h
    split at h
    · cases h
      exact j.frame ⟨rfl, rfl, fun j => held_append w (by simp) j, (frame_add w (by simp)).freed, rfl, rfl⟩
    · cases h
  | rustClone a t =>
    simp only [JniObjects.step] at h
    split at h
    · cases h
      have f := frame_incr w a
      have ho : (w.incr a).own = w.own := by unfold W.incr; split <;> rfl
      refine j.frame ⟨f.kts, f.borrows, fun j => held_append w (by simp) j, f.freed, f.next, f.nextKotlin⟩
    · cases h
  | rustDrop a t =>
    simp only [JniObjects.step] at h
    split at h
    · cases h
      exact j.frame ((frame_erase w (by simp)).trans (frame_decr _ _))
    · cases h
  | rustCall a t =>
    simp only [JniObjects.step] at h
    split at h
    · cases h; exact j.frame (frame_call ..)
    · cases h
  | rustLower a d t =>
    simp only [JniObjects.step] at h
    split at h
    · exact j.frame ((frame_erase w (by simp)).trans (frame_lower h))
    · cases h
  | rustLift x a t =>
    simp only [JniObjects.step] at h
    split at h
    · cases h; exact j.frame ((frame_erase w (by simp)).trans (frame_lift ..))
    · cases h
  | kotlinNew =>
    simp only [JniObjects.step] at h
    split at h
    · cases h
      exact ⟨j.flag, j.cleaning, j.cleaned, fun i => ((frame_add w (by simp)).freed i).trans (j.freed i), j.held⟩
    · cases h
  | insert f =>
    simp only [JniObjects.step] at h
    split at h
    · cases h
      exact ⟨j.flag, j.cleaning, j.cleaned, j.freed, fun i => (held_append w (by simp) i).trans (j.held i)⟩
    · cases h
  | kotlinLift x t =>
    simp only [JniObjects.step] at h
    split at h
    · cases h
      have j' := j.frame (frame_erase w (r := ⟨.toKotlin, x, t⟩) (by simp))
      unfold W.kotlinLift
      split
      · split
        · exact j'.frame ⟨rfl, rfl, fun _ => rfl, fun _ => rfl, rfl, rfl⟩
        · rename_i f _
          have f1 : Frame { w with own := w.own.erase ⟨.toKotlin, x, t⟩ }
              (W.setMap { w with own := w.own.erase ⟨.toKotlin, x, t⟩ } x none) :=
            ⟨rfl, rfl, fun _ => rfl, fun _ => rfl, rfl, rfl⟩
          exact j'.frame (f1.trans (frame_add _ (by simp)))
      · refine j'.push { handle := x, who := t } rfl rfl (fun h => by cases h) ?_ ?_
        · intro i
          rw [List.filter_append]
          congr 1
          by_cases e : i = w.kts.length
          · subst e; simp
          · have : ¬ w.kts.length = i := fun e' => e e'.symm
            simp [e, this]
        · intro i; exact (frame_add _ (by simp)).freed i
    · cases h
  | fake =>
    simp only [JniObjects.step] at h
    cases h
    refine j.push { handle := 0, who := .kotlin 0, cleaned := true } rfl rfl (fun _ => rfl) (l := w.own) (lg := w.log) ?_ (fun _ => rfl)
    intro i
    simp [W.held]
  | begin i =>
    simp only [JniObjects.step] at h
    split at h
    · split at h
      · cases h; exact ⟨j.flag, j.cleaning, j.cleaned, j.freed, j.held⟩
      · cases h
    · cases h
  | use b =>
    simp only [JniObjects.step] at h
    split at h
    · cases h; exact j.frame (frame_callRef ..)
    · cases h
  | clone b =>
    simp only [JniObjects.step] at h
    split at h
    · split at h
      · cases h; exact j
      · cases h
        have f := frame_incr w b.h
        have ho : (w.incr b.h).own = w.own := by unfold W.incr; split <;> rfl
        refine j.frame ⟨f.kts, f.borrows, fun j => held_append w (by simp) j, f.freed, f.next, f.nextKotlin⟩
    · cases h
  | done b =>
    simp only [JniObjects.step] at h
    split at h
    · cases h; exact ⟨j.flag, j.cleaning, j.cleaned, j.freed, j.held⟩
    · cases h
  | destroy i =>
    simp only [JniObjects.step] at h
    split at h
    · rename_i o ho
      split at h
      · cases h
        split
        · exact j
        · exact j.set ho rfl rfl rfl (fun _ => .inl rfl) (fun _ => rfl) (fun _ => .inl rfl)
      · cases h
    · cases h
  | clean i =>
    simp only [JniObjects.step] at h
    split at h
    · rename_i o ho
      split at h
      · rename_i hc; cases h; exact j.clean ho (.inl hc)
      · cases h
    · cases h
  | lose i =>
    simp only [JniObjects.step] at h
    split at h
    · rename_i o ho
      split at h
      · cases h
        exact j.set ho rfl rfl rfl (j.flag i o ho) (j.cleaning i o ho) (fun _ => .inr rfl)
      · cases h
    · cases h
  | collect i =>
    simp only [JniObjects.step] at h
    split at h
    · rename_i o ho
      split at h
      · rename_i hc; cases h; exact j.clean ho (.inr hc)
      · cases h
    · cases h

theorem Reach.kts {k : Kind} {careful : Bool} {w : W} (h : Reach k careful w) : Kts w := by
  induction h with
  | init =>
    refine ⟨?_, ?_, ?_, ?_, ?_⟩
    · intro j o h; cases h
    · intro j o h; cases h
    · intro j o h; cases h
    · intro j; rfl
    · intro j; rfl
  | step w w' c _ e ih => exact ih.step e

/-! ### Rust objects -/

theorem Objs.own {w : W} (j : Objs w) {o : List Ref} : Objs { w with own := o } :=
  j.same (fun _ _ => Iff.rfl) rfl (l := []) (by simp) (by simp)

/-- A new allocation that is not an object. -/
theorem Objs.alloc {w : W} (j : Objs w) {d : Nat} {b : Body} {o : List Ref} (hd : w.FreeAddr d) (hb : ∀ n, b ≠ .obj n) :
    Objs { w.setHeap d (some (b, 1)) with own := o } := by
  refine j.same (fun x n => ?_) rfl (l := []) (by simp [W.setHeap]) (by simp)
  unfold W.body W.setHeap
  dsimp only
  split
  · rename_i e
    rw [e, hd.2.2]
    exact ⟨fun h => absurd (Option.some.inj h) (hb n), fun h => by cases h⟩
  · exact Iff.rfl

theorem Objs.call {w : W} (j : Objs w) (a : Nat) (t : Who) : Objs (w.call a t) := by
  unfold W.call
  split
  · exact j.same (fun _ _ => Iff.rfl) rfl (l := [_]) rfl (by simp)
  · split
    · exact j.same (fun _ _ => Iff.rfl) rfl (l := [_]) rfl (by simp)
    · exact j.same (fun _ _ => Iff.rfl) rfl (l := []) (by simp) (by simp)
  · exact j.same (fun _ _ => Iff.rfl) rfl (l := []) (by simp) (by simp)

theorem Objs.callRef {w : W} (j : Objs w) (k : Kind) (a : Nat) (t : Who) : Objs (w.callRef k a t) := by
  unfold W.callRef
  split
  · exact j.call a t
  · split
    · exact j.call _ t
    · exact j.same (fun _ _ => Iff.rfl) rfl (l := []) (by simp) (by simp)

theorem Objs.liftDouble {w : W} (j : Objs w) (h : Nat) (t : Who) : Objs (w.liftDouble h t) := by
  unfold W.liftDouble
  split
  · exact ((j.incr _).own).decr _
  · exact j.same (fun _ _ => Iff.rfl) rfl (l := []) (by simp) (by simp)

theorem Objs.lift {w : W} (j : Objs w) (k : Kind) (h : Nat) {a : Nat} (t : Who) (ha : w.FreeAddr a) :
    Objs (w.lift k h a t) := by
  have hw : Objs (w.liftWrapper h a t) := j.alloc ha (fun n e => by cases e)
  unfold W.lift
  split
  · exact j.own
  · exact j.liftDouble h t
  · split
    · exact hw
    · exact j.liftDouble h t
  · exact hw

theorem Objs.clean {w : W} (j : Objs w) (i : Nat) (o : Kt) : Objs (w.clean i o) := by
  unfold W.clean
  split
  · exact j.same (fun _ _ => Iff.rfl) rfl (l := []) (by simp) (by simp)
  · dsimp only
    split
    · exact j.same (fun _ _ => Iff.rfl) rfl (l := []) (by simp) (by simp)
    · have j1 : Objs (W.add { w with
          kts := w.kts.set i { o with cleaning := false, cleaned := true }
          own := w.own.erase ⟨.kotlin i, o.handle, o.who⟩ } (.freed i)) :=
        j.same (fun _ _ => Iff.rfl) rfl (l := [.freed i]) rfl (by simp)
      exact j1.decr _

theorem Objs.step {k : Kind} {careful : Bool} {w w' : W} {c : Cmd} (j : Objs w) (h : step k careful w c = some w') :
    Objs w' := by
  cases c with
  | rustNew a =>
    simp only [JniObjects.step] at h
    split at h
    · rename_i hc
      cases h
      have hb : ∀ x, ({ (w.setHeap a (some (.obj w.nextRust, 1))).add (.made (.rust w.nextRust)) with
          own := w.own ++ [⟨.rust, a, .rust w.nextRust⟩], nextRust := w.nextRust + 1 } : W).body x =
          if x = a then some (.obj w.nextRust) else w.body x := by
        intro x; unfold W.body W.setHeap W.add; dsimp only; split <;> rfl
      have hd : ∀ n, (w.log ++ [Ev.made (.rust w.nextRust)]).count (.dropped n) = w.log.count (.dropped n) := by
        intro n; rw [List.count_append]; simp
      have hnone : w.body a = none := body_none.2 hc.2.2.2
      refine ⟨?_, ?_, ?_, ?_, ?_⟩
      · intro n hn
        have hn : w.nextRust + 1 ≤ n := hn
        refine ⟨fun x hx => ?_, (hd n).trans (j.fresh n (by omega)).2⟩
        rw [hb] at hx
        split at hx
        · cases hx; omega
        · exact (j.fresh n (by omega)).1 x hx
      · intro x y n hx hy
        rw [hb] at hx hy
        split at hx <;> split at hy
        · rename_i e1 e2; rw [e1, e2]
        · cases hx; exact absurd hy ((j.fresh _ (Nat.le_refl _)).1 y)
        · cases hy; exact absurd hx ((j.fresh _ (Nat.le_refl _)).1 x)
        · exact j.unique x y n hx hy
      · intro x n hx
        rw [hb] at hx
        refine (hd n).trans ?_
        split at hx
        · cases hx; exact (j.fresh _ (Nat.le_refl _)).2
        · exact j.live x n hx
      · intro n hn hno
        have hn : n < w.nextRust + 1 := hn
        refine (hd n).trans ?_
        have hne : n ≠ w.nextRust := by
          rintro rfl; exact hno a (by rw [hb, if_pos rfl])
        refine j.dead n (by omega) fun x hx => hno x ?_
        rw [hb, if_neg]
        · exact hx
        · rintro rfl; rw [hnone] at hx; cases hx
      · intro n
        show Ev.made _ ∈ w.log ++ [_] ↔ n < w.nextRust + 1
        rw [List.mem_append, j.made n, List.mem_singleton]
        simp only [Ev.made.injEq, Who.rust.injEq]
        omega
    · cases h
  | rustClone a t =>
    simp only [JniObjects.step] at h
    split at h
    · cases h; exact (j.incr a).own
    · cases h
  | rustDrop a t =>
    simp only [JniObjects.step] at h
    split at h
    · cases h; exact (Objs.own j).decr a
    · cases h
  | rustCall a t =>
    simp only [JniObjects.step] at h
    split at h
    · cases h; exact j.call a t
    · cases h
  | rustLower a d t =>
    simp only [JniObjects.step] at h
    split at h
    · rename_i hc
      unfold W.lower at h
      split at h
      · cases h; exact j.own
      · cases h
      · cases h; exact j.alloc hc.2 (fun n e => by cases e)
    · cases h
  | rustLift x a t =>
    simp only [JniObjects.step] at h
    split at h
    · rename_i hc; cases h; exact Objs.lift (Objs.own j) k x t hc.2
    · cases h
  | kotlinNew =>
    simp only [JniObjects.step] at h
    split at h
    · cases h; exact j.same (fun _ _ => Iff.rfl) rfl (l := [_]) rfl (by simp)
    · cases h
  | insert f =>
    simp only [JniObjects.step] at h
    split at h
    · cases h; exact j.same (fun _ _ => Iff.rfl) rfl (l := []) (by simp [W.setMap]) (by simp)
    · cases h
  | kotlinLift x t =>
    simp only [JniObjects.step] at h
    split at h
    · cases h
      unfold W.kotlinLift
      split
      · split
        · exact j.same (fun _ _ => Iff.rfl) rfl (l := []) (by simp) (by simp)
        · exact j.same (fun _ _ => Iff.rfl) rfl (l := [_]) rfl (by simp)
      · exact j.same (fun _ _ => Iff.rfl) rfl (l := [_]) rfl (by simp)
    · cases h
  | fake =>
    simp only [JniObjects.step] at h
    cases h; exact j.same (fun _ _ => Iff.rfl) rfl (l := []) (by simp) (by simp)
  | begin i =>
    simp only [JniObjects.step] at h
    split at h
    · split at h
      · cases h; exact j.same (fun _ _ => Iff.rfl) rfl (l := []) (by simp) (by simp)
      · cases h
    · cases h
  | use b =>
    simp only [JniObjects.step] at h
    split at h
    · cases h; exact j.callRef ..
    · cases h
  | clone b =>
    simp only [JniObjects.step] at h
    split at h
    · split at h
      · cases h; exact j
      · cases h; exact (j.incr b.h).own
    · cases h
  | done b =>
    simp only [JniObjects.step] at h
    split at h
    · cases h; exact j.same (fun _ _ => Iff.rfl) rfl (l := []) (by simp) (by simp)
    · cases h
  | destroy i =>
    simp only [JniObjects.step] at h
    split at h
    · split at h
      · cases h
        split
        · exact j
        · exact j.same (fun _ _ => Iff.rfl) rfl (l := []) (by simp) (by simp)
      · cases h
    · cases h
  | clean i =>
    simp only [JniObjects.step] at h
    split at h
    · split at h
      · cases h; exact j.clean ..
      · cases h
    · cases h
  | lose i =>
    simp only [JniObjects.step] at h
    split at h
    · split at h
      · cases h; exact j.same (fun _ _ => Iff.rfl) rfl (l := []) (by simp) (by simp)
      · cases h
    · cases h
  | collect i =>
    simp only [JniObjects.step] at h
    split at h
    · split at h
      · cases h; exact j.clean ..
      · cases h
    · cases h

theorem Reach.objs {k : Kind} {careful : Bool} {w : W} (h : Reach k careful w) : Objs w := by
  induction h with
  | init =>
    refine ⟨?_, ?_, ?_, ?_, ?_⟩
    · intro n _; exact ⟨fun a => by simp [W.body], rfl⟩
    · intro a b n h; simp [W.body] at h
    · intro a n h; simp [W.body] at h
    · intro n h; exact absurd h (Nat.not_lt_zero n)
    · intro n; simp
  | step w w' c _ e ih => exact ih.step e

/-! ### Memory, when Kotlin code is careful -/

theorem Inv.other {k : Kind} {l : List Nat} {w : W} (j : Inv k l w) {a : List Kt} {b : List Borrow} {n m : Nat} :
    Inv k l { w with kts := a, borrows := b, nextRust := n, nextKotlin := m } :=
  ⟨j.bad, j.count, j.pos, j.even, j.mapOdd, j.nextOdd, j.shape,
    fun r hr => have := j.content r hr; ⟨this.odd, this.obj, this.double, this.wrapper⟩, j.kidsD, j.kidsW, j.calls⟩

theorem content_erase {w : W} {r s : Ref} (hc : Content w s) (hp : ∀ a, r.place ≠ .inner a) :
    Content { w with own := w.own.erase r } s := by
  have hin : ∀ a x t, (⟨.inner a, x, t⟩ : Ref) ∈ w.own → (⟨.inner a, x, t⟩ : Ref) ∈ w.own.erase r :=
    fun a x t hm => (List.mem_erase_of_ne (fun e => hp a (by rw [← e]))).2 hm
  exact ⟨hc.odd, hc.obj, fun b hb => hin _ _ _ (hc.double b hb), fun b hb => hin _ _ _ (hc.wrapper b hb)⟩

theorem content_place {w : W} {p q : Place} {x : Nat} {t : Who} (hc : Content w ⟨p, x, t⟩) : Content w ⟨q, x, t⟩ :=
  ⟨hc.odd, hc.obj, hc.double, hc.wrapper⟩

/-- A reference changes hands. -/
theorem Inv.move {k : Kind} {w : W} {p q : Place} {x : Nat} {t : Who} (j : Inv k [] w) (hr : ⟨p, x, t⟩ ∈ w.own)
    (hp : ∀ a, p ≠ .inner a) (hq : ∀ a, q ≠ .inner a) (hs : Shape k w ⟨q, x, t⟩) :
    Inv k [] { w with own := w.own.erase ⟨p, x, t⟩ ++ [⟨q, x, t⟩] } :=
  Inv.take (r := ⟨q, x, t⟩) (l := []) (w := { w with own := w.own.erase ⟨p, x, t⟩ }) (j.give hr hp) hq hs
    (content_erase (r := ⟨p, x, t⟩) (content_place (j.content _ hr)) hp)

/-- A method call on a reference to an object or a stand-in. -/
theorem Inv.call {k : Kind} {l : List Nat} {w : W} {r : Ref} (j : Inv k l w) (hr : r ∈ w.own) (hp : Plain w r.x) :
    Inv k l (w.call r.x r.who) := by
  have hc := j.content r hr
  rcases hp with ⟨n, e⟩ | ⟨fh, e⟩
  · obtain ⟨c, h⟩ := body_some.1 e
    unfold W.call
    rw [h]
    dsimp only
    refine j.addLog ?_
    intro t u e'
    cases e'
    exact (hc.obj n e).symm
  · obtain ⟨c, h⟩ := body_some.1 e
    have hk := hc.wrapper fh e
    have hs := j.shape _ hk
    have ho : fh % 2 = 1 := by
      unfold Shape at hs
      dsimp only at hs
      rcases hs with ⟨e', _⟩ | ⟨_, e'⟩
      · rw [e] at e'; cases e'
      · exact e'.1
    obtain ⟨f, hf, hw⟩ := (j.content _ hk).odd ho
    dsimp only at hf hw
    unfold W.call
    rw [h]
    dsimp only
    rw [hf]
    dsimp only
    refine j.addLog ?_
    intro t u e'
    cases e'
    exact hw.symm

/-- What a double `Arc` holds. -/
theorem Inv.inside {k : Kind} {l : List Nat} {w : W} {r : Ref} {b : Nat} (j : Inv k l w) (hr : r ∈ w.own)
    (hb : w.body r.x = some (.double b)) : ⟨.inner r.x, b, r.who⟩ ∈ w.own ∧ Plain w b := by
  have hk := (j.content r hr).double b hb
  refine ⟨hk, ?_⟩
  have hs := j.shape _ hk
  unfold Shape at hs
  dsimp only at hs
  rcases hs with ⟨_, h⟩ | ⟨e', _⟩
  · exact h
  · rw [hb] at e'; cases e'

theorem Inv.callRef {k : Kind} {l : List Nat} {w : W} {r : Ref} (j : Inv k l w) (hr : r ∈ w.own)
    (hh : Handle k w r.x) : Inv k l (w.callRef k r.x r.who) := by
  obtain ⟨_, ⟨rfl, n, e⟩ | ⟨hk, b, e⟩⟩ := hh
  · exact j.call hr (.inl ⟨n, e⟩)
  · obtain ⟨c, h⟩ := body_some.1 e
    obtain ⟨hm, hp⟩ := j.inside hr e
    unfold W.callRef
    split
    · exact absurd rfl hk
    · rw [h]; exact j.call hm hp

theorem Handle.even {k : Kind} {l : List Nat} {w : W} {x : Nat} (h : Handle k w x) (j : Inv k l w) : x % 2 = 0 ∧ x ≠ 0 := by
  obtain ⟨_, ⟨_, n, e⟩ | ⟨_, b, e⟩⟩ := h <;> exact j.even _ _ e

theorem Handle.body {k : Kind} {w : W} {x : Nat} (h : Handle k w x) : ∃ b, w.body x = some b := by
  obtain ⟨_, ⟨_, n, e⟩ | ⟨_, b, e⟩⟩ := h <;> exact ⟨_, e⟩

theorem Plain.body {w : W} {x : Nat} (h : Plain w x) : ∃ b, w.body x = some b := by
  rcases h with ⟨n, e⟩ | ⟨n, e⟩ <;> exact ⟨_, e⟩

/-- `x` is freed by whoever held it. -/
theorem Inv.dropRef {k : Kind} {w : W} {r : Ref} (j : Inv k [] w) (hr : r ∈ w.own) (hp : ∀ a, r.place ≠ .inner a)
    (he : r.x % 2 = 0) : Inv k [] (({ w with own := w.own.erase r } : W).decr r.x) :=
  (j.give hr hp).decr he

theorem Inv.liftDouble {k : Kind} {w : W} {h : Nat} {t : Who} (j : Inv k [] w) (hr : ⟨.toRust, h, t⟩ ∈ w.own)
    {b : Nat} (hb : w.body h = some (.double b)) :
    Inv k [] (({ w with own := w.own.erase ⟨.toRust, h, t⟩ } : W).liftDouble h t) := by
  have jg := j.give hr (by simp)
  obtain ⟨hm, hp⟩ := j.inside hr hb
  obtain ⟨c, hh⟩ := body_some.1 hb
  obtain ⟨bb, hbb⟩ := hp.body
  unfold W.liftDouble
  have e : ({ w with own := w.own.erase ⟨.toRust, h, t⟩ } : W).heap h = some (.double b, c) := hh
  rw [e]
  dsimp only
  obtain ⟨ji, ho, hbi⟩ := jg.incr (a := b) (b := bb) hbb
  refine Inv.decr ?_ (j.even _ _ hb).1
  refine Inv.take (r := ⟨.rust, b, t⟩) ji (by simp) ?_ ?_
  · show Plain _ b
    unfold Plain
    rw [hbi]
    exact hp
  · have hc : Content w ⟨.rust, b, t⟩ := content_place (j.content _ hm)
    have hc := content_erase (r := ⟨.toRust, h, t⟩) hc (by simp)
    refine ⟨?_, ?_, ?_, ?_⟩
    · intro hodd
      have : (({ w with own := w.own.erase ⟨.toRust, h, t⟩ } : W).incr b).map = w.map := by
        unfold W.incr; split <;> rfl
      rw [this]; exact hc.odd hodd
    · intro n hn; rw [hbi] at hn; exact hc.obj n hn
    · intro n hn; rw [hbi] at hn; rw [ho]; exact hc.double n hn
    · intro n hn; rw [hbi] at hn; rw [ho]; exact hc.wrapper n hn

theorem Inv.liftWrapper {k : Kind} {w : W} {h a : Nat} {t : Who} (j : Inv k [] w) (hr : ⟨.toRust, h, t⟩ ∈ w.own)
    (ho : h % 2 = 1) (hk : k = .foreign ∨ k = .callback) (ha : w.FreeAddr a) :
    Inv k [] (({ w with own := w.own.erase ⟨.toRust, h, t⟩ } : W).liftWrapper h a t) := by
  have jg := j.give hr (by simp)
  have hc : Content w ⟨.inner a, h, t⟩ := content_place (j.content _ hr)
  have hc := content_erase (r := ⟨.toRust, h, t⟩) hc (by simp)
  have ja := Inv.alloc (b := .wrapper h) (l := []) (d := a) (kid := [⟨.inner a, h, t⟩]) jg ha ⟨t, rfl, ⟨ho, hk⟩, hc⟩
  have jt := Inv.take (r := ⟨.rust, a, t⟩) ja (by simp) ?_ ?_
  · unfold W.liftWrapper
    have e : ({ w with own := w.own.erase ⟨.toRust, h, t⟩ } : W).own ++ [⟨.inner a, h, t⟩, ⟨.rust, a, t⟩] =
      (w.own.erase ⟨.toRust, h, t⟩ ++ [⟨.inner a, h, t⟩]) ++ [⟨.rust, a, t⟩] := by simp
    rw [e]
    exact jt
  · refine .inr ⟨h, ?_⟩
    simp [W.body, W.setHeap]
  · have hbd : ∀ y, ({ W.setHeap { w with own := w.own.erase ⟨.toRust, h, t⟩ } a (some (.wrapper h, 1)) with
        own := w.own.erase ⟨.toRust, h, t⟩ ++ [⟨.inner a, h, t⟩] } : W).body a = some y → y = .wrapper h := by
      intro y hy; simp [W.body, W.setHeap] at hy; exact hy.symm
    refine ⟨?_, ?_, ?_, ?_⟩
    · intro hodd; have := ha.1; dsimp only at hodd; omega
    · intro n hn; cases hbd _ hn
    · intro n hn; cases hbd _ hn
    · intro n hn; cases hbd _ hn; simp

/-- Handles that calls are using. -/
def Borrows (w : W) : Prop :=
  ∀ b ∈ w.borrows, ∃ o, w.kts[b.j]? = some o ∧ o.handle = b.h ∧ o.who = b.who ∧ o.flag = false ∧ o.gone = false ∧
    o.handle ≠ 0

/-- Such a handle is held by its Kotlin object. -/
theorem Kts.borrowed {w : W} (j : Kts w) {b : Borrow} (hb : Borrows w) (h : b ∈ w.borrows) :
    ⟨.kotlin b.j, b.h, b.who⟩ ∈ w.own := by
  obtain ⟨o, ho, hh, hw, hf, hg, hz⟩ := hb b h
  have hc : o.cleaned = false := by
    cases hc : o.cleaned with
    | false => rfl
    | true =>
      rcases j.cleaned _ _ ho hc with h | h | h
      · rw [hf] at h; cases h
      · rw [hg] at h; cases h
      · exact absurd h hz
  have := j.held b.j
  rw [ho] at this
  simp only [hc, Bool.false_eq_true, if_false] at this
  have hm : (⟨.kotlin b.j, o.handle, o.who⟩ : Ref) ∈ w.held b.j := by rw [this]; simp
  rw [← hh, ← hw]
  exact (List.mem_filter.1 hm).1

theorem Borrows.frame {w w' : W} (h : Borrows w) (f : Frame w w') : Borrows w' := by
  intro b hb
  rw [f.borrows] at hb
  rw [f.kts]
  exact h b hb

theorem Borrows.set {w : W} (h : Borrows w) {i : Nat} {o' : Kt} (hq : w.Quiet i) :
    Borrows { w with kts := w.kts.set i o' } := by
  intro b hb
  obtain ⟨o, ho, rest⟩ := h b hb
  refine ⟨o, ?_, rest⟩
  show (w.kts.set i o')[b.j]? = some o
  rw [List.getElem?_set_ne (fun e => hq b hb e.symm)]
  exact ho

theorem Borrows.push {w : W} (h : Borrows w) {o' : Kt} : Borrows { w with kts := w.kts ++ [o'] } := by
  intro b hb
  obtain ⟨o, ho, rest⟩ := h b hb
  refine ⟨o, ?_, rest⟩
  show (w.kts ++ [o'])[b.j]? = some o
  rw [List.getElem?_append_left (List.getElem?_eq_some_iff.1 ho).1]
  exact ho

structure Good (k : Kind) (w : W) : Prop where
  inv : Inv k [] w
  kts : Kts w
  borrows : Borrows w

theorem Good.clean {k : Kind} {w : W} (g : Good k w) {i : Nat} {o : Kt} (ho : w.kts[i]? = some o)
    (hr : o.cleaning = true ∨ o.gone = true) : Inv k [] (w.clean i o) ∧ Borrows (w.clean i o) := by
  have hquiet : w.Quiet i := by
    intro b hb e
    obtain ⟨o', ho', _, _, hf, hg, _⟩ := g.borrows b hb
    rw [e, ho] at ho'
    cases ho'
    rcases hr with h | h
    · have := g.kts.cleaning i o ho h; rw [hf] at this; cases this
    · rw [hg] at h; cases h
  unfold W.clean
  split
  · exact ⟨g.inv.other (w := w), g.borrows.set hquiet⟩
  · rename_i hc
    have hc : o.cleaned = false := by simpa using hc
    have hh := g.kts.held i
    rw [ho] at hh
    simp only [hc, Bool.false_eq_true, if_false] at hh
    have hm : (⟨.kotlin i, o.handle, o.who⟩ : Ref) ∈ w.own := by
      have : (⟨.kotlin i, o.handle, o.who⟩ : Ref) ∈ w.held i := by rw [hh]; simp
      exact (List.mem_filter.1 this).1
    have hs := g.inv.shape _ hm
    have hs : Handle k w o.handle := hs
    have he := hs.even g.inv
    dsimp only
    rw [if_neg he.2]
    constructor
    · exact (((g.inv.give hm (by simp)).other).addLog (fun _ _ e => by cases e)).decr he.1
    · refine Borrows.frame ?_ (frame_decr _ _)
      exact (g.borrows.set hquiet)

theorem Good.step {k : Kind} {w w' : W} {c : Cmd} (g : Good k w) (h : step k true w c = some w') : Good k w' := by
  refine ⟨?_, g.kts.step h, ?_⟩
  · have j := g.inv
    cases c with
    | rustNew a =>
      simp only [JniObjects.step] at h
      split at h
      · rename_i hc
        cases h
        have ja := Inv.alloc (b := .obj w.nextRust) (l := []) (d := a) (kid := []) j hc.2 rfl
        have jt := Inv.take (r := ⟨.rust, a, .rust w.nextRust⟩) ja (by simp) ?_ ?_
        · have := jt.addLog (e := .made (.rust w.nextRust)) (fun _ _ e => by cases e)
          have := this.other (a := w.kts) (b := w.borrows) (n := w.nextRust + 1) (m := w.nextKotlin)
          rw [List.append_nil] at this
          exact this
        · refine .inl ⟨w.nextRust, ?_⟩
          simp [W.body, W.setHeap]
        · have hbd : ∀ y, ({ W.setHeap w a (some (.obj w.nextRust, 1)) with own := w.own ++ [] } : W).body a = some y → y = .obj w.nextRust := by
            intro y hy; simp [W.body, W.setHeap] at hy; exact hy.symm
          refine ⟨?_, ?_, ?_, ?_⟩
          · intro hodd; have := hc.2.1; dsimp only at hodd; omega
          · intro n hn; cases hbd _ hn; rfl
          · intro n hn; cases hbd _ hn
          · intro n hn; cases hbd _ hn
      · cases h
    | rustClone a t =>
      simp only [JniObjects.step] at h
      split at h
      · rename_i hc
        cases h
        have hs : Plain w a := j.shape _ hc.2
        obtain ⟨b, hb⟩ := hs.body
        obtain ⟨ji, ho, hbi⟩ := j.incr hb
        have := Inv.take (r := ⟨.rust, a, t⟩) ji (by simp) ?_ ?_
        · rw [ho] at this; exact this
        · show Plain _ a
          unfold Plain; rw [hbi]; exact hs
        · have hcn := j.content _ hc.2
          refine ⟨?_, ?_, ?_, ?_⟩
          · intro hodd
            have : (w.incr a).map = w.map := by unfold W.incr; split <;> rfl
            rw [this]; exact hcn.odd hodd
          · intro n hn; rw [hbi] at hn; exact hcn.obj n hn
          · intro n hn; rw [hbi] at hn; rw [ho]; exact hcn.double n hn
          · intro n hn; rw [hbi] at hn; rw [ho]; exact hcn.wrapper n hn
      · cases h
    | rustDrop a t =>
      simp only [JniObjects.step] at h
      split at h
      · rename_i hc
        cases h
        have hs : Plain w a := j.shape _ hc
        obtain ⟨b, hb⟩ := hs.body
        exact j.dropRef hc (by simp) (j.even _ _ hb).1
      · cases h
    | rustCall a t =>
      simp only [JniObjects.step] at h
      split at h
      · rename_i hc; cases h; exact j.call hc (j.shape _ hc)
      · cases h
    | rustLower a d t =>
      simp only [JniObjects.step] at h
      split at h
      · rename_i hc
        have hs : Plain w a := j.shape _ hc.1
        have hdbl : k ≠ .struct → k ≠ .callback → Inv k []
            { W.setHeap { w with own := w.own.erase ⟨.rust, a, t⟩ } d (some (.double a, 1)) with
              own := w.own.erase ⟨.rust, a, t⟩ ++ [⟨.inner d, a, t⟩, ⟨.toKotlin, d, t⟩] } := by
          intro hk1 hk2
          have jg := j.give hc.1 (by simp)
          have hcn : Content w ⟨.inner d, a, t⟩ := content_place (j.content _ hc.1)
          have hcn := content_erase (r := ⟨.rust, a, t⟩) hcn (by simp)
          have ja := Inv.alloc (b := .double a) (l := []) (d := d) (kid := [⟨.inner d, a, t⟩]) jg hc.2 ⟨t, rfl, hs, hcn⟩
          have jt := Inv.take (r := ⟨.toKotlin, d, t⟩) ja (by simp) ?_ ?_
          · have e : w.own.erase ⟨.rust, a, t⟩ ++ [⟨.inner d, a, t⟩, ⟨.toKotlin, d, t⟩] =
              (w.own.erase ⟨.rust, a, t⟩ ++ [⟨.inner d, a, t⟩]) ++ [⟨.toKotlin, d, t⟩] := by simp
            rw [e]
            exact jt
          · refine ⟨hk2, .inr ⟨hk1, a, ?_⟩⟩
            simp [W.body, W.setHeap]
          · have hbd : ∀ y, ({ W.setHeap { w with own := w.own.erase ⟨.rust, a, t⟩ } d (some (.double a, 1)) with
                own := w.own.erase ⟨.rust, a, t⟩ ++ [⟨.inner d, a, t⟩] } : W).body d = some y → y = .double a := by
              intro y hy; simp [W.body, W.setHeap] at hy; exact hy.symm
            refine ⟨?_, ?_, ?_, ?_⟩
            · intro hodd; have := hc.2.1; dsimp only at hodd; omega
            · intro n hn; cases hbd _ hn
            · intro n hn; cases hbd _ hn; simp
            · intro n hn; cases hbd _ hn
        unfold W.lower at h
        split at h
        · cases h
          refine j.move hc.1 (by simp) (by simp) ⟨by simp, .inl ⟨rfl, ?_⟩⟩
          rcases hs with h | ⟨fh, h⟩
          · exact h
          · obtain ⟨t', ht⟩ := j.kidsW _ _ h
            have hm : (⟨.inner a, fh, t'⟩ : Ref) ∈ w.kids a := by rw [ht]; simp
            have := j.shape _ (List.mem_filter.1 hm).1
            unfold Shape at this
            dsimp only at this
            rcases this with ⟨e, _⟩ | ⟨_, _, e | e⟩
            · rw [h] at e; cases e
            · cases e
            · cases e
        · cases h
        · rename_i hk1 hk2
          cases h
          exact hdbl hk1 hk2
      · cases h
    | rustLift x a t =>
      simp only [JniObjects.step] at h
      split at h
      · rename_i hc
        cases h
        have hs : Handle k w x ∨ (x % 2 = 1 ∧ (k = .foreign ∨ k = .callback)) := j.shape _ hc.1
        have hwr := fun ho hk => j.liftWrapper (a := a) hc.1 ho hk hc.2
        have hdb : (¬ k = .struct) → x % 2 = 0 → Inv k [] (({ w with own := w.own.erase ⟨.toRust, x, t⟩ } : W).liftDouble x t) := by
          intro hk he
          rcases hs with ⟨_, ⟨e, _⟩ | ⟨_, b, e⟩⟩ | ⟨ho, _⟩
          · exact absurd e hk
          · exact j.liftDouble hc.1 e
          · omega
        unfold W.lift
        split
        · refine j.move hc.1 (by simp) (by simp) ?_
          rcases hs with ⟨_, ⟨_, n, e⟩ | ⟨e, _⟩⟩ | ⟨_, e | e⟩
          · exact .inl ⟨n, e⟩
          · exact absurd rfl e
          · cases e
          · cases e
        · refine hdb (by simp) ?_
          rcases hs with h | ⟨_, e | e⟩
          · exact (h.even j).1
          · cases e
          · cases e
        · split
          · rename_i ho; exact hwr ho (.inl rfl)
          · rename_i ho; exact hdb (by simp) (by omega)
        · refine hwr ?_ (.inr rfl)
          rcases hs with ⟨e, _⟩ | ⟨ho, _⟩
          · exact absurd rfl e
          · exact ho
      · cases h
    | kotlinNew =>
      simp only [JniObjects.step] at h
      split at h
      · cases h
        exact (j.addLog (e := .made (.kotlin w.nextKotlin)) (fun _ _ e => by cases e)).other
      · cases h
    | insert f =>
      simp only [JniObjects.step] at h
      split at h
      · rename_i hc
        cases h
        have hodd := j.nextOdd
        have hn : w.map w.next = none := by
          cases hm : w.map w.next with
          | none => rfl
          | some f => have := (j.mapOdd _ _ hm).2; omega
        have hs0 : w.strong w.next = 0 := by simp [W.strong, hodd, hn]
        have hno := j.noRef hs0
        have hm : ∀ x, x ≠ w.next → (w.setMap w.next (some f)).map x = w.map x := by
          intro x hx; simp [W.setMap, hx]
        have j1 : Inv k [w.next] { w.setMap w.next (some f) with next := w.next + 2 } := by
          refine ⟨j.bad, ?_, j.pos, j.even, ?_, ?_, j.shape, ?_, j.kidsD, j.kidsW, j.calls⟩
          · intro x
            have h1 := j.count x
            simp only [List.count_nil, Nat.add_zero] at h1
            rw [List.count_cons, List.count_nil]
            show refs x w.own + _ = _
            by_cases e : w.next = x
            · subst e
              rw [h1, hs0]
              simp [W.strong, W.setMap, hodd]
            · have e' : x ≠ w.next := fun e' => e e'.symm
              have : ({ w.setMap w.next (some f) with next := w.next + 2 } : W).strong x = w.strong x :=
                strong_congr rfl (hm x e')
              rw [this, h1]
              simp [e]
          · intro x g hg
            by_cases e : x = w.next
            · subst e; exact ⟨hodd, by show w.next < w.next + 2; omega⟩
            · have hg : (w.setMap w.next (some f)).map x = some g := hg
              rw [hm x e] at hg
              have := j.mapOdd x g hg
              exact ⟨this.1, by show x < w.next + 2; omega⟩
          · show (w.next + 2) % 2 = 1; omega
          · intro r hr
            have hcn := j.content r hr
            refine ⟨fun he => ?_, hcn.obj, hcn.double, hcn.wrapper⟩
            show ∃ g, (w.setMap w.next (some f)).map r.x = some g ∧ _
            rw [hm _ (hno r hr)]; exact hcn.odd he
        refine Inv.take (r := ⟨.toRust, w.next, .kotlin f⟩) j1 (by simp) (.inr ⟨hodd, hc.1⟩) ?_
        have hbn : ∀ y, w.body w.next ≠ some y := fun y hy => by have := (j.even _ _ hy).1; omega
        exact ⟨fun _ => ⟨f, by simp [W.setMap], rfl⟩, fun n hn => absurd hn (hbn _), fun n hn => absurd hn (hbn _),
          fun n hn => absurd hn (hbn _)⟩
      · cases h
    | kotlinLift x t =>
      simp only [JniObjects.step] at h
      split at h
      · rename_i hc
        cases h
        have hs : Handle k w x := j.shape _ hc
        have he := hs.even j
        unfold W.kotlinLift
        rw [if_neg (by omega)]
        have := j.move (q := .kotlin w.kts.length) hc (by simp) (by simp) hs
        exact (this.addLog (e := .proxy t) (fun _ _ e => by cases e)).other
      · cases h
    | fake =>
      simp only [JniObjects.step] at h
      cases h
      exact j.other
    | begin i =>
      simp only [JniObjects.step] at h
      split at h
      · split at h
        · cases h; exact j.other
        · cases h
      · cases h
    | use b =>
      simp only [JniObjects.step] at h
      split at h
      · rename_i hb
        cases h
        have hm := g.kts.borrowed g.borrows hb
        exact j.callRef hm (j.shape _ hm)
      · cases h
    | clone b =>
      simp only [JniObjects.step] at h
      split at h
      · rename_i hb
        split at h
        · cases h; exact j
        · cases h
          have hm := g.kts.borrowed g.borrows hb
          have hs : Handle k w b.h := j.shape _ hm
          obtain ⟨bb, hbb⟩ := hs.body
          obtain ⟨ji, ho, hbi⟩ := j.incr hbb
          have := Inv.take (r := ⟨.toRust, b.h, b.who⟩) ji (by simp) ?_ ?_
          · rw [ho] at this; exact this
          · refine .inl ?_
            show Handle k _ b.h
            unfold Handle; rw [hbi]; exact hs
          · have hcn := j.content _ hm
            refine ⟨?_, ?_, ?_, ?_⟩
            · intro hodd
              have : (w.incr b.h).map = w.map := by unfold W.incr; split <;> rfl
              rw [this]; exact hcn.odd hodd
            · intro n hn; rw [hbi] at hn; exact hcn.obj n hn
            · intro n hn; rw [hbi] at hn; rw [ho]; exact hcn.double n hn
            · intro n hn; rw [hbi] at hn; rw [ho]; exact hcn.wrapper n hn
      · cases h
    | done b =>
      simp only [JniObjects.step] at h
      split at h
      · cases h; exact j.other
      · cases h
    | destroy i =>
      simp only [JniObjects.step] at h
      split at h
      · split at h
        · cases h
          split
          · exact j
          · exact j.other
        · cases h
      · cases h
    | clean i =>
      simp only [JniObjects.step] at h
      split at h
      · rename_i o ho
        split at h
        · rename_i hc; cases h; exact (g.clean ho (.inl hc)).1
        · cases h
      · cases h
    | lose i =>
      simp only [JniObjects.step] at h
      split at h
      · split at h
        · cases h; exact j.other
        · cases h
      · cases h
    | collect i =>
      simp only [JniObjects.step] at h
      split at h
      · rename_i o ho
        split at h
        · rename_i hc; cases h; exact (g.clean ho (.inr hc)).1
        · cases h
      · cases h
  · have hb := g.borrows
    cases c with
    | rustNew a =>
      simp only [JniObjects.step] at h
      split at h
      · cases h; exact hb
      · cases h
    | rustClone a t =>
      simp only [JniObjects.step] at h
      split at h
      · cases h
        have := hb.frame (frame_incr w a)
        exact this
      · cases h
    | rustDrop a t =>
      simp only [JniObjects.step] at h
      split at h
      · cases h; exact hb.frame ((frame_erase w (by simp)).trans (frame_decr _ _))
      · cases h
    | rustCall a t =>
      simp only [JniObjects.step] at h
      split at h
      · cases h; exact hb.frame (frame_call ..)
      · cases h
    | rustLower a d t =>
      simp only [JniObjects.step] at h
      split at h
      · exact hb.frame ((frame_erase w (by simp)).trans (frame_lower h))
      · cases h
    | rustLift x a t =>
      simp only [JniObjects.step] at h
      split at h
      · cases h; exact hb.frame ((frame_erase w (by simp)).trans (frame_lift ..))
      · cases h
    | kotlinNew =>
      simp only [JniObjects.step] at h
      split at h
      · cases h; exact hb
      · cases h
    | insert f =>
      simp only [JniObjects.step] at h
      split at h
      · cases h; exact hb
      · cases h
    | kotlinLift x t =>
      simp only [JniObjects.step] at h
      split at h
      · cases h
        unfold W.kotlinLift
        split
        · split
          · exact hb
          · exact hb
        · exact hb.push
      · cases h
    | fake =>
      simp only [JniObjects.step] at h
      cases h; exact hb.push
    | begin i =>
      simp only [JniObjects.step] at h
      split at h
      · rename_i o ho
        split at h
        · rename_i hc
          cases h
          intro b hb'
          rcases List.mem_cons.1 hb' with rfl | hb'
          · exact ⟨o, ho, rfl, rfl, (hc.2 trivial).1, hc.1, (hc.2 trivial).2⟩
          · exact hb b hb'
        · cases h
      · cases h
    | use b =>
      simp only [JniObjects.step] at h
      split at h
      · cases h; exact hb.frame (frame_callRef ..)
      · cases h
    | clone b =>
      simp only [JniObjects.step] at h
      split at h
      · split at h
        · cases h; exact hb
        · cases h
          have := hb.frame (frame_incr w b.h)
          exact this
      · cases h
    | done b =>
      simp only [JniObjects.step] at h
      split at h
      · cases h; exact fun b' hb' => hb b' (List.mem_of_mem_erase hb')
      · cases h
    | destroy i =>
      simp only [JniObjects.step] at h
      split at h
      · split at h
        · rename_i hc
          cases h
          split
          · exact hb
          · exact hb.set (hc.2 trivial)
        · cases h
      · cases h
    | clean i =>
      simp only [JniObjects.step] at h
      split at h
      · rename_i o ho
        split at h
        · rename_i hc; cases h; exact (g.clean ho (.inl hc)).2
        · cases h
      · cases h
    | lose i =>
      simp only [JniObjects.step] at h
      split at h
      · split at h
        · rename_i hc; cases h; exact hb.set (hc trivial)
        · cases h
      · cases h
    | collect i =>
      simp only [JniObjects.step] at h
      split at h
      · rename_i o ho
        split at h
        · rename_i hc; cases h; exact (g.clean ho (.inr hc)).2
        · cases h
      · cases h

theorem Reach.good {k : Kind} {w : W} (h : Reach k true w) : Good k w := by
  induction h with
  | init =>
    refine ⟨⟨rfl, ?_, ?_, ?_, ?_, rfl, ?_, ?_, ?_, ?_, ?_⟩, Reach.kts (careful := true) (k := k) .init, ?_⟩
    · intro x; simp [refs, W.strong]
    · intro x b c h; cases h
    · intro x b h; simp [W.body] at h
    · intro x f h; cases h
    · intro r h; cases h
    · intro r h; cases h
    · intro a b h; simp [W.body] at h
    · intro a b h; simp [W.body] at h
    · intro t u h; cases h
    · intro b h; cases h
  | step w w' c _ e ih => exact ih.step e

end Verif.JniObjects
