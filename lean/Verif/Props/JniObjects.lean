import Verif.Jni.ObjectsSteps
/-
C75: objects passed through JNI between Rust and Kotlin, and how long they live.
-/
namespace Verif.Props.JniObjects
open Verif.JniObjects

/-! ### Specification -/

/-- Somebody can still use object `t`: Rust code, a Kotlin object whose cleaner has not run, or whoever
lifts a value that is on its way. -/
def Held (w : W) (t : Who) : Prop := ∃ r ∈ w.own, (∀ a, r.place ≠ .inner a) ∧ r.who = t

/-- The Rust object was made and its value was not destroyed. -/
def Alive (w : W) (n : Nat) : Prop := Ev.made (.rust n) ∈ w.log ∧ Ev.dropped n ∉ w.log

/-- Kotlin keeps its object for Rust. -/
def Kept (w : W) (f : Nat) : Prop := ∃ h, w.map h = some f

/-- A history as a list of steps. -/
def doAll (k : Kind) (careful : Bool) : W → List Cmd → Option W
  | w, [] => some w
  | w, c :: cs => (step k careful w c).bind fun w' => doAll k careful w' cs

theorem reach_doAll {k : Kind} {careful : Bool} : ∀ (cs : List Cmd) (w w' : W), Reach k careful w →
    doAll k careful w cs = some w' → Reach k careful w'
  | [], w, w', h, e => by cases e; exact h
  | c :: cs, w, w', h, e => by
    simp only [doAll] at e
    cases e1 : step k careful w c with
    | none => rw [e1] at e; cases e
    | some w1 =>
      rw [e1] at e
      exact reach_doAll cs w1 w' (.step w w1 c h e1) e

/-! ### Who is held -/

theorem ref_of_body {k : Kind} {w : W} (j : Inv k [] w) {a : Nat} {b : Body} (h : w.body a = some b) :
    ∃ r ∈ w.own, r.x = a := by
  obtain ⟨c, hh⟩ := body_some.1 h
  have hc := j.count a
  have he := (j.even a b h).1
  have hp := j.pos a b c hh
  simp only [W.strong, he, hh, List.count_nil, Nat.add_zero] at hc
  exact refs_ex (by simp at hc; omega)

/-- A reference to `d` comes from the same object as what is inside. -/
theorem who_of_inner {k : Kind} {w : W} (j : Inv k [] w) {r : Ref} (hr : r ∈ w.own) {d : Nat} (hp : r.place = .inner d) :
    ∃ r2 ∈ w.own, r2.x = d ∧ r2.who = r.who := by
  have hm : r ∈ w.kids d := List.mem_filter.2 ⟨hr, by simp [hp]⟩
  have hs := j.shape r hr
  unfold Shape at hs
  rw [hp] at hs
  dsimp only at hs
  have key : ∀ t, w.kids d = [⟨.inner d, r.x, t⟩] → ∀ r2 ∈ w.own, (⟨.inner d, r.x, r2.who⟩ : Ref) ∈ w.own →
      r2.who = r.who := by
    intro t ht r2 _ h2
    have h3 : (⟨.inner d, r.x, r2.who⟩ : Ref) ∈ w.kids d := List.mem_filter.2 ⟨h2, by simp⟩
    rw [ht, List.mem_singleton] at hm h3
    rw [hm]
    have := congrArg Ref.who h3
    exact this
  rcases hs with ⟨hb, _⟩ | ⟨hb, _⟩
  · obtain ⟨r2, h2, e2⟩ := ref_of_body j hb
    obtain ⟨t, ht⟩ := j.kidsD _ _ hb
    refine ⟨r2, h2, e2, key t ht r2 h2 ?_⟩
    subst e2
    exact (j.content r2 h2).double _ hb
  · obtain ⟨r2, h2, e2⟩ := ref_of_body j hb
    obtain ⟨t, ht⟩ := j.kidsW _ _ hb
    refine ⟨r2, h2, e2, key t ht r2 h2 ?_⟩
    subst e2
    exact (j.content r2 h2).wrapper _ hb

/-- Nothing inside another allocation is a double `Arc`. -/
theorem not_inner {k : Kind} {w : W} (j : Inv k [] w) {r : Ref} (hr : r ∈ w.own) {b : Nat}
    (hb : w.body r.x = some (.double b)) : ∀ a, r.place ≠ .inner a := by
  intro a hp
  have hs := j.shape r hr
  unfold Shape at hs
  rw [hp] at hs
  dsimp only at hs
  rcases hs with ⟨_, ⟨n, e⟩ | ⟨n, e⟩⟩ | ⟨_, e, _⟩
  · rw [hb] at e; cases e
  · rw [hb] at e; cases e
  · have := (j.even _ _ hb).1; omega

theorem held_of_ref {k : Kind} {w : W} (j : Inv k [] w) {r : Ref} (hr : r ∈ w.own) : Held w r.who := by
  have lvl1 : ∀ {r : Ref}, r ∈ w.own → ∀ {d b : Nat}, r.place = .inner d → w.body d = some (.double b) → Held w r.who := by
    intro r hr d b hp hb
    obtain ⟨r2, h2, e2, e3⟩ := who_of_inner j hr hp
    subst e2
    exact ⟨r2, h2, not_inner j h2 hb, e3⟩
  cases hp : r.place with
  | inner d =>
    have hs := j.shape r hr
    unfold Shape at hs
    rw [hp] at hs
    dsimp only at hs
    rcases hs with ⟨hb, _⟩ | ⟨hb, _⟩
    · exact lvl1 hr hp hb
    · obtain ⟨r2, h2, e2, e3⟩ := who_of_inner j hr hp
      subst e2
      rw [← e3]
      cases hp2 : r2.place with
      | inner e =>
        have hs2 := j.shape r2 h2
        unfold Shape at hs2
        rw [hp2] at hs2
        dsimp only at hs2
        rcases hs2 with ⟨hb2, _⟩ | ⟨_, ho, _⟩
        · exact lvl1 h2 hp2 hb2
        · have := (j.even _ _ hb).1; omega
      | _ => exact ⟨r2, h2, by simp [hp2], rfl⟩
  | _ => exact ⟨r, hr, by simp [hp], rfl⟩

/-- The object behind a reference is there. -/
def There (w : W) : Who → Prop
  | .rust n => ∃ a, w.body a = some (.obj n)
  | .kotlin f => ∃ h, w.map h = some f

theorem there_plain {k : Kind} {w : W} (j : Inv k [] w) {r : Ref} (hr : r ∈ w.own) (hp : Plain w r.x) : There w r.who := by
  rcases hp with ⟨n, e⟩ | ⟨fh, e⟩
  · rw [(j.content r hr).obj n e]; exact ⟨_, e⟩
  · have hk := (j.content r hr).wrapper fh e
    have hs := j.shape _ hk
    unfold Shape at hs
    dsimp only at hs
    rcases hs with ⟨e', _⟩ | ⟨_, ho, _⟩
    · rw [e] at e'; cases e'
    · obtain ⟨f, hf, hw⟩ := (j.content _ hk).odd ho
      dsimp only at hf hw
      rw [hw]; exact ⟨_, hf⟩

theorem there_of_ref {k : Kind} {w : W} (j : Inv k [] w) {r : Ref} (hr : r ∈ w.own) : There w r.who := by
  have handle : Handle k w r.x → There w r.who := by
    rintro ⟨_, ⟨_, n, e⟩ | ⟨_, b, e⟩⟩
    · exact there_plain j hr (.inl ⟨n, e⟩)
    · obtain ⟨hm, hp⟩ := j.inside hr e
      exact there_plain (r := ⟨.inner r.x, b, r.who⟩) j hm hp
  have odd : r.x % 2 = 1 → There w r.who := by
    intro ho
    obtain ⟨f, hf, hw⟩ := (j.content r hr).odd ho
    rw [hw]; exact ⟨_, hf⟩
  have hs := j.shape r hr
  unfold Shape at hs
  cases hp : r.place with
  | rust => rw [hp] at hs; exact there_plain j hr hs
  | toKotlin => rw [hp] at hs; exact handle hs
  | kotlin i => rw [hp] at hs; exact handle hs
  | toRust =>
    rw [hp] at hs
    rcases hs with h | ⟨h, _⟩
    · exact handle h
    · exact odd h
  | inner d =>
    rw [hp] at hs
    rcases hs with ⟨_, h⟩ | ⟨_, h, _⟩
    · exact there_plain j hr h
    · exact odd h

/-! ### Theorems -/

/-- No step of any history reads or frees memory that was freed before, takes memory for something it is
not, or asks Kotlin for a handle it does not have. (Provided that Kotlin code does not destroy an object
during a call or use it afterwards, and that no object is collected during a call: see the witnesses.) -/
theorem C75_memory_safe_partial (k : Kind) (w : W) (h : Reach k true w) : w.bad = false :=
  h.good.inv.bad

/-- A Rust object is alive exactly as long as somebody can use it. -/
theorem C75_alive_iff_held_partial (k : Kind) (w : W) (h : Reach k true w) (n : Nat) :
    Alive w n ↔ Held w (.rust n) := by
  have g := h.good
  have o := h.objs
  constructor
  · rintro ⟨hm, hd⟩
    have hn := (o.made n).1 hm
    have : ∃ a, w.body a = some (.obj n) := by
      apply Classical.byContradiction
      intro hno
      have := o.dead n hn (fun a ha => hno ⟨a, ha⟩)
      rw [List.count_eq_zero.2 hd] at this
      cases this
    obtain ⟨a, ha⟩ := this
    obtain ⟨r, hr, e⟩ := ref_of_body g.inv ha
    subst e
    rw [← (g.inv.content r hr).obj n ha]
    exact held_of_ref g.inv hr
  · rintro ⟨r, hr, _, e⟩
    have ht := there_of_ref g.inv hr
    rw [e] at ht
    obtain ⟨a, ha⟩ := ht
    refine ⟨(o.made n).2 ?_, List.count_eq_zero.1 (o.live a n ha)⟩
    apply Classical.byContradiction
    intro hlt
    exact (o.fresh n (by omega)).1 a ha

/-- Kotlin keeps an object for Rust exactly as long as Rust, or a value on its way, can use it. -/
theorem C75_kept_iff_held_partial (k : Kind) (w : W) (h : Reach k true w) (f : Nat) :
    Kept w f ↔ Held w (.kotlin f) := by
  have j := h.good.inv
  constructor
  · rintro ⟨x, hx⟩
    have ho := (j.mapOdd x f hx).1
    have hc := j.count x
    simp only [W.strong, ho, hx, List.count_nil, Nat.add_zero] at hc
    obtain ⟨r, hr, e⟩ := refs_ex (x := x) (l := w.own) (by simp at hc; omega)
    subst e
    obtain ⟨f', hf, hw⟩ := (j.content r hr).odd ho
    rw [hx] at hf
    cases hf
    rw [← hw]
    exact held_of_ref j hr
  · rintro ⟨r, hr, _, e⟩
    have ht := there_of_ref j hr
    rw [e] at ht
    exact ht

/-- A Rust object is destroyed at most once, whatever Kotlin code does. -/
theorem C75_dropped_once (k : Kind) (careful : Bool) (w : W) (h : Reach k careful w) (n : Nat) :
    w.log.count (.dropped n) ≤ 1 := by
  have o := h.objs
  by_cases hn : n < w.nextRust
  · by_cases hx : ∃ a, w.body a = some (.obj n)
    · obtain ⟨a, ha⟩ := hx; rw [o.live a n ha]; exact Nat.zero_le 1
    · rw [o.dead n hn (fun a ha => hx ⟨a, ha⟩)]; exact Nat.le_refl 1
  · rw [(o.fresh n (by omega)).2]; exact Nat.zero_le 1

/-- Nothing is left over: when nobody can use any object, no memory is allocated and Kotlin keeps nothing. -/
theorem C75_no_leak_partial (k : Kind) (w : W) (h : Reach k true w) (hn : ∀ t, ¬ Held w t) :
    (∀ a, w.heap a = none) ∧ ∀ x, w.map x = none := by
  have j := h.good.inv
  constructor
  · intro a
    cases e : w.heap a with
    | none => rfl
    | some p =>
      obtain ⟨r, hr, _⟩ := ref_of_body j (body_some.2 ⟨p.2, e⟩)
      exact absurd (held_of_ref j hr) (hn _)
  · intro x
    cases e : w.map x with
    | none => rfl
    | some f => exact absurd ((C75_kept_iff_held_partial k w h f).1 ⟨x, e⟩) (hn _)

/-- A method runs on the object the caller was given, on whatever side that object lives. -/
theorem C75_dispatch_partial (k : Kind) (w : W) (h : Reach k true w) (t u : Who) (hc : Ev.call t u ∈ w.log) : u = t :=
  h.good.inv.calls t u hc

/-- The handle of a Kotlin object is freed at most once, whatever Kotlin code does and however `destroy`
and the cleaner race. -/
theorem C75_freed_once (k : Kind) (careful : Bool) (w : W) (h : Reach k careful w) (j : Nat) :
    w.log.count (.freed j) ≤ 1 := by
  rw [h.kts.freed j]
  split
  · split <;> simp
  · simp

/-- After `destroy` (and the cleaning that belongs to it) the handle was freed and the Kotlin object holds
nothing. -/
theorem C75_destroyed (k : Kind) (careful : Bool) (w : W) (h : Reach k careful w) (j : Nat) (o : Kt)
    (ho : w.kts[j]? = some o) (hf : o.flag = true) (hc : o.cleaning = false) (hz : o.handle ≠ 0) :
    w.log.count (.freed j) = 1 ∧ ∀ r ∈ w.own, r.place ≠ .kotlin j := by
  have hcl : o.cleaned = true := by
    rcases h.kts.flag j o ho hf with h' | h'
    · rw [hc] at h'; cases h'
    · exact h'
  constructor
  · rw [h.kts.freed j, ho]; simp [hcl, hz]
  · intro r hr hp
    have := h.kts.held j
    rw [ho] at this
    simp only [hcl, if_true] at this
    have hm : r ∈ w.held j := List.mem_filter.2 ⟨hr, by simp [hp]⟩
    rw [this] at hm
    cases hm

/-- An object that nobody destroyed and that is still reachable keeps its handle. -/
theorem C75_not_freed_early (k : Kind) (careful : Bool) (w : W) (h : Reach k careful w) (j : Nat) (o : Kt)
    (ho : w.kts[j]? = some o) (hf : o.flag = false) (hg : o.gone = false) (hz : o.handle ≠ 0) :
    w.log.count (.freed j) = 0 ∧ ⟨.kotlin j, o.handle, o.who⟩ ∈ w.own := by
  have hcl : o.cleaned = false := by
    cases e : o.cleaned with
    | false => rfl
    | true =>
      rcases h.kts.cleaned j o ho e with h' | h' | h'
      · rw [hf] at h'; cases h'
      · rw [hg] at h'; cases h'
      · exact absurd h' hz
  constructor
  · rw [h.kts.freed j, ho]; simp [hcl]
  · have := h.kts.held j
    rw [ho] at this
    simp only [hcl, Bool.false_eq_true, if_false] at this
    have hm : (⟨.kotlin j, o.handle, o.who⟩ : Ref) ∈ w.held j := by rw [this]; simp
    exact (List.mem_filter.1 hm).1

/-- The rest of `destroy`, and the cleaning of an object that is not reachable any more, can always happen. -/
theorem C75_can_clean (k : Kind) (careful : Bool) (w : W) (j : Nat) (o : Kt) (ho : w.kts[j]? = some o) :
    (o.cleaning = true → ∃ w', step k careful w (.clean j) = some w') ∧
    (o.gone = true → ∃ w', step k careful w (.collect j) = some w') := by
  constructor
  · intro hc; simp only [step, ho, hc, if_true]; exact ⟨_, rfl⟩
  · intro hc; simp only [step, ho, hc, if_true]; exact ⟨_, rfl⟩

/-! ### Histories -/

/-- What can be seen of the end of a history. -/
def seen (k : Kind) (careful : Bool) (cs : List Cmd) : Option (List Ev × Bool × List Ref) :=
  (doAll k careful {} cs).map fun w => (w.log, w.bad, w.own)

theorem seen_reach {k : Kind} {careful : Bool} {cs : List Cmd} {l : List Ev} {b : Bool} {o : List Ref}
    (h : seen k careful cs = some (l, b, o)) : ∃ w, Reach k careful w ∧ w.log = l ∧ w.bad = b ∧ w.own = o := by
  unfold seen at h
  cases e : doAll k careful {} cs with
  | none => rw [e] at h; cases h
  | some w =>
    rw [e] at h
    injection h with h
    injection h with h1 h2
    injection h2 with h2 h3
    exact ⟨w, reach_doAll cs {} w .init e, h1, h2, h3⟩

/-- A Rust object is given to Kotlin, called, cloned back to Rust, destroyed in Kotlin, called and dropped
in Rust. -/
def demoStruct : List Cmd :=
  [.rustNew 8, .rustLower 8 16 (.rust 0), .kotlinLift 8 (.rust 0), .begin 0, .use ⟨0, 8, .rust 0⟩,
   .clone ⟨0, 8, .rust 0⟩, .done ⟨0, 8, .rust 0⟩, .rustLift 8 16 (.rust 0), .destroy 0, .clean 0,
   .rustCall 8 (.rust 0), .rustDrop 8 (.rust 0)]

example : seen .struct true demoStruct =
    some ([.made (.rust 0), .proxy (.rust 0), .call (.rust 0) (.rust 0), .freed 0, .call (.rust 0) (.rust 0), .dropped 0],
      false, []) := by decide

/-- Before the last two steps it is held and alive. -/
example : ∃ w, Reach .struct true w ∧ Held w (.rust 0) ∧ Alive w 0 := by
  obtain ⟨w, hw, h1, h2, h3⟩ := seen_reach (k := .struct) (careful := true) (cs := demoStruct.take 10)
    (l := _) (b := _) (o := _) rfl
  refine ⟨w, hw, ⟨⟨.rust, 8, .rust 0⟩, ?_, by simp, rfl⟩, ?_, ?_⟩
  · rw [h3]; decide
  · rw [h1]; decide
  · rw [h1]; decide

/-- A Kotlin object is given to Rust, called there, given back as an object that stands for it, called through
that one, and everything is given up. -/
def demoForeign : List Cmd :=
  [.kotlinNew, .insert 0, .rustLift 1 8 (.kotlin 0), .rustCall 8 (.kotlin 0), .rustClone 8 (.kotlin 0),
   .rustLower 8 16 (.kotlin 0), .kotlinLift 16 (.kotlin 0), .begin 0, .use ⟨0, 16, .kotlin 0⟩, .done ⟨0, 16, .kotlin 0⟩,
   .rustDrop 8 (.kotlin 0), .lose 0, .collect 0]

example : seen .foreign true demoForeign =
    some ([.made (.kotlin 0), .call (.kotlin 0) (.kotlin 0), .proxy (.kotlin 0), .call (.kotlin 0) (.kotlin 0), .freed 0],
      false, []) := by decide

example : ∃ w, Reach .foreign true w ∧ Held w (.kotlin 0) ∧ Kept w 0 := by
  obtain ⟨w, hw, h1, h2, h3⟩ := seen_reach (k := .foreign) (careful := true) (cs := demoForeign.take 9)
    (l := _) (b := _) (o := _) rfl
  have hh : Held w (.kotlin 0) := ⟨⟨.rust, 8, .kotlin 0⟩, by rw [h3]; decide, by simp, rfl⟩
  exact ⟨w, hw, hh, (C75_kept_iff_held_partial _ w hw 0).2 hh⟩

example : ∃ w, Reach .foreign true w ∧ (∀ t, ¬ Held w t) ∧ Ev.made (.kotlin 0) ∈ w.log := by
  obtain ⟨w, hw, h1, h2, h3⟩ := seen_reach (k := .foreign) (careful := true) (cs := demoForeign)
    (l := _) (b := _) (o := _) rfl
  refine ⟨w, hw, ?_, ?_⟩
  · rintro t ⟨r, hr, _⟩
    have h3 : w.own = [] := h3.trans (by decide)
    rw [h3] at hr; cases hr
  · rw [h1]; decide

/-- The cleaner of an object that was destroyed does not free its handle again. -/
example : ∃ w, Reach .struct true w ∧ ∃ o, w.kts[0]? = some o ∧ o.flag = true ∧ o.cleaning = false ∧ o.handle ≠ 0 ∧ o.gone = true := by
  cases e : doAll .struct true {} (demoStruct ++ [.lose 0, .collect 0]) with
  | none => exact absurd (congrArg Option.isNone e) (by decide)
  | some w =>
    refine ⟨w, reach_doAll _ {} w .init e, ?_⟩
    have : (doAll .struct true {} (demoStruct ++ [.lose 0, .collect 0])).map (fun w => w.kts[0]?) =
        some (some { handle := 8, who := .rust 0, flag := true, cleaned := true, gone := true }) := by decide
    rw [e] at this
    exact ⟨_, Option.some.inj this, rfl, rfl, by decide, rfl⟩

/-! ### Where the code does otherwise -/

/-- Methods do not look at the flag that `destroy` sets: Rust uses memory that was freed. -/
theorem C75_use_after_destroy_broken : ∃ w, Reach .struct false w ∧ w.bad = true := by
  obtain ⟨w, hw, _, h2, _⟩ := seen_reach (k := .struct) (careful := false)
    (cs := [.rustNew 8, .rustLower 8 16 (.rust 0), .kotlinLift 8 (.rust 0), .destroy 0, .clean 0, .begin 0,
      .use ⟨0, 8, .rust 0⟩]) (l := _) (b := _) (o := _) rfl
  exact ⟨w, hw, h2.trans (by decide)⟩

/-- A call that has started does not keep the object alive: another thread destroys it. -/
theorem C75_destroy_during_call_broken : ∃ w, Reach .struct false w ∧ w.bad = true := by
  obtain ⟨w, hw, _, h2, _⟩ := seen_reach (k := .struct) (careful := false)
    (cs := [.rustNew 8, .rustLower 8 16 (.rust 0), .kotlinLift 8 (.rust 0), .begin 0, .use ⟨0, 8, .rust 0⟩, .destroy 0,
      .clean 0, .use ⟨0, 8, .rust 0⟩]) (l := _) (b := _) (o := _) rfl
  exact ⟨w, hw, h2.trans (by decide)⟩

/-- Nor does it keep the Kotlin object from being collected, if this was its last use: nobody called
`destroy` here. -/
theorem C75_collected_during_call_broken : ∃ w, Reach .struct false w ∧ w.bad = true := by
  obtain ⟨w, hw, _, h2, _⟩ := seen_reach (k := .struct) (careful := false)
    (cs := [.rustNew 8, .rustLower 8 16 (.rust 0), .kotlinLift 8 (.rust 0), .begin 0, .lose 0, .collect 0,
      .use ⟨0, 8, .rust 0⟩]) (l := _) (b := _) (o := _) rfl
  exact ⟨w, hw, h2.trans (by decide)⟩

/-- The objects without handle that are made for tests in Kotlin crash Rust when a method is called. -/
theorem C75_fake_object_broken : ∃ w, Reach .struct false w ∧ w.bad = true := by
  obtain ⟨w, hw, _, h2, _⟩ := seen_reach (k := .struct) (careful := false)
    (cs := [.fake, .begin 0, .use ⟨0, 0, .kotlin 0⟩]) (l := _) (b := _) (o := _) rfl
  exact ⟨w, hw, h2.trans (by decide)⟩

/-- No Kotlin object came home. -/
def NoBack (w : W) : Prop := ∀ t u, Ev.back t u ∉ w.log

theorem NoBack.add {w : W} (h : NoBack w) {e : Ev} (he : ∀ t u, Ev.back t u ≠ e) : NoBack (w.add e) := by
  intro t u hm
  rcases List.mem_append.1 hm with hm | hm
  · exact h t u hm
  · exact he t u (List.mem_singleton.1 hm)

theorem NoBack.incr {w : W} (h : NoBack w) (a : Nat) : NoBack (w.incr a) := by
  unfold W.incr; split <;> exact h

theorem NoBack.decrWith {w : W} (h : NoBack w) (a : Nat) {inner : W → Nat → W}
    (hi : ∀ w b, NoBack w → NoBack (inner w b)) : NoBack (W.decrWith inner w a) := by
  unfold W.decrWith
  split
  · exact h
  · split
    · dsimp only
      split
      · exact NoBack.add (w := (w.setHeap a none).forget a) h (by simp)
      · unfold W.freeKotlin; split <;> exact h
      · exact hi _ _ h
    · exact h

theorem NoBack.decr {w : W} (h : NoBack w) (a : Nat) : NoBack (w.decr a) :=
  h.decrWith a fun _ b h' => h'.decrWith b fun _ _ h'' => h''

theorem NoBack.call {w : W} (h : NoBack w) (a : Nat) (t : Who) : NoBack (w.call a t) := by
  unfold W.call
  split
  · exact h.add (by simp)
  · split
    · exact h.add (by simp)
    · exact h
  · exact h

theorem NoBack.callRef {w : W} (h : NoBack w) (k : Kind) (a : Nat) (t : Who) : NoBack (w.callRef k a t) := by
  unfold W.callRef
  split
  · exact h.call a t
  · split
    · exact h.call _ t
    · exact h

theorem NoBack.liftDouble {w : W} (h : NoBack w) (a : Nat) (t : Who) : NoBack (w.liftDouble a t) := by
  unfold W.liftDouble
  split
  · rename_i b _ _
    exact NoBack.decr (w := { w.incr b with own := (w.incr b).own ++ [⟨.rust, b, t⟩] }) (h.incr b) a
  · exact h

theorem NoBack.clean {w : W} (h : NoBack w) (i : Nat) (o : Kt) : NoBack (w.clean i o) := by
  unfold W.clean
  split
  · exact h
  · dsimp only
    split
    · exact h
    · refine NoBack.decr ?_ _
      exact NoBack.add (w := { w with
        kts := w.kts.set i { o with cleaning := false, cleaned := true }
        own := w.own.erase ⟨.kotlin i, o.handle, o.who⟩ }) h (by simp)

theorem NoBack.step {k : Kind} {w w' : W} {c : Cmd} (h : NoBack w) (g : Good k w) (e : step k true w c = some w') :
    NoBack w' := by
  cases c <;> simp only [JniObjects.step] at e
  case kotlinLift x t =>
    split at e
    · rename_i hc
      cases e
      have hs : Handle k w x := g.inv.shape _ hc
      have he := hs.even g.inv
      unfold W.kotlinLift
      rw [if_neg (by omega)]
      exact NoBack.add (w := { w with own := w.own.erase ⟨.toKotlin, x, t⟩ }) h (by simp)
    · cases e
  case rustNew a =>
    split at e
    · cases e; exact NoBack.add (w := w.setHeap a _) h (by simp)
    · cases e
  case rustClone a t =>
    split at e
    · cases e; exact h.incr a
    · cases e
  case rustDrop a t =>
    split at e
    · cases e; exact NoBack.decr (w := { w with own := w.own.erase ⟨.rust, a, t⟩ }) h a
    · cases e
  case rustCall a t =>
    split at e
    · cases e; exact h.call a t
    · cases e
  case rustLower a d t =>
    split at e
    · unfold W.lower at e
      split at e
      · cases e; exact h
      · cases e
      · cases e; exact h
    · cases e
  case rustLift x a t =>
    split at e
    · cases e
      unfold W.lift
      split
      · exact h
      · exact NoBack.liftDouble (w := { w with own := w.own.erase ⟨.toRust, x, t⟩ }) h x t
      · split
        · exact h
        · exact NoBack.liftDouble (w := { w with own := w.own.erase ⟨.toRust, x, t⟩ }) h x t
      · exact h
    · cases e
  case kotlinNew =>
    split at e
    · cases e; exact NoBack.add (w := w) h (by simp)
    · cases e
  case insert f =>
    split at e
    · cases e; exact h
    · cases e
  case fake => cases e; exact h
  case begin i =>
    split at e
    · split at e
      · cases e; exact h
      · cases e
    · cases e
  case use b =>
    split at e
    · cases e; exact NoBack.callRef h k b.h b.who
    · cases e
  case clone b =>
    split at e
    · split at e
      · cases e; exact h
      · cases e; exact h.incr b.h
    · cases e
  case done b =>
    split at e
    · cases e; exact h
    · cases e
  case destroy i =>
    split at e
    · split at e
      · cases e
        split <;> exact h
      · cases e
    · cases e
  case clean i =>
    split at e
    · split at e
      · cases e; exact NoBack.clean h i _
      · cases e
    · cases e
  case lose i =>
    split at e
    · split at e
      · cases e; exact h
      · cases e
    · cases e
  case collect i =>
    split at e
    · split at e
      · cases e; exact NoBack.clean h i _
      · cases e
    · cases e

/-- A Kotlin object that Rust gives back never arrives as itself: Kotlin gets a new object that stands for
it (`back` is the event of an object that comes home). -/
theorem C75_identity_broken :
    (∀ w, Reach .foreign true w → ∀ t u, Ev.back t u ∉ w.log) ∧
    ∃ w, Reach .foreign true w ∧ Ev.proxy (.kotlin 0) ∈ w.log := by
  constructor
  · intro w h
    induction h with
    | init => intro t u hm; cases hm
    | step w w' c hw e ih => exact NoBack.step ih hw.good e
  · obtain ⟨w, hw, h1, h2, h3⟩ := seen_reach (k := .foreign) (careful := true) (cs := demoForeign)
      (l := _) (b := _) (o := _) rfl
    exact ⟨w, hw, by rw [h1]; decide⟩

end Verif.Props.JniObjects
