import Verif.Handles.ObjectsLemmas
/-
C33 and C35: objects passed between Rust and foreign code, for every history of making, cloning,
passing in both directions, calling and dropping, with any number of objects.

`Reach k rustImpl w` ranges over all states of all histories of an interface of kind `k`. `w.rust`
are the references Rust code holds, `w.proxies` the foreign objects holding a Rust handle,
`w.toForeign` and `w.toRust` the handles in transit. Each entry is labelled with the object its
holder was given.
-/
namespace Verif.Props.Objects
open Verif Verif.Objects

variable {k : Kind} {rustImpl : Bool} {w : W}

/-! ### Specification -/

/-- Somebody can still reach object `t`. -/
def Held (w : W) (t : Who) : Prop :=
  ∃ a, (a, t) ∈ w.rust ∨ (a, t) ∈ w.toForeign ∨ (a, t) ∈ w.toRust ∨ (a, t) ∈ w.proxies

/-! ### Histories as lists of commands, to show that states are reachable -/

inductive Cmd where
  | rustNew (a : Nat)
  | rustClone (a : Nat) (t : Who)
  | rustDrop (a : Nat) (t : Who)
  | rustCall (a : Nat) (t : Who)
  | rustLower (a d h : Nat) (t : Who)
  | rustLift (h a : Nat) (t : Who)
  | foreignNew
  | lowerProxy (h : Nat) (t : Who)
  | lowerImpl (h f : Nat)
  | foreignLift (h : Nat) (t : Who)
  | foreignFree (h : Nat) (t : Who)

instance (w : W) (a : Nat) : Decidable (w.FreeAddr a) := by unfold W.FreeAddr; infer_instance
instance (w : W) (a : Nat) : Decidable (w.FreeHandle a) := by unfold W.FreeHandle; infer_instance

def doCmd (k : Kind) (i : Bool) (w : W) : Cmd → Option W
  | .rustNew a => if i = true ∧ w.FreeAddr a then
      some { (w.alloc a (.obj w.nextRust)).add (.made (.rust w.nextRust)) with
          rust := w.rust ++ [(a, .rust w.nextRust)], nextRust := w.nextRust + 1 } else none
  | .rustClone a t => if k ≠ .callback ∧ (a, t) ∈ w.rust then
      some { w.incr a with rust := w.rust ++ [(a, t)] } else none
  | .rustDrop a t => if (a, t) ∈ w.rust then
      some ({ w with rust := w.rust.erase (a, t) }.decr a) else none
  | .rustCall a t => if (a, t) ∈ w.rust then some (w.call a t) else none
  | .rustLower a d h t => if (a, t) ∈ w.rust ∧ w.FreeAddr d ∧ w.FreeHandle h then
      W.lower k { w with rust := w.rust.erase (a, t) } a d h t else none
  | .rustLift h a t => if (h, t) ∈ w.toRust ∧ w.FreeAddr a then
      some (W.lift k { w with toRust := w.toRust.erase (h, t) } h a t) else none
  | .foreignNew => if k.hasForeign = true then
      some { w.add (.made (.foreign w.nextForeign)) with nextForeign := w.nextForeign + 1 } else none
  | .lowerProxy h t => if (h, t) ∈ w.proxies then
      some { w.incr h with toRust := w.toRust ++ [(h, t)] } else none
  | .lowerImpl h f => if k.hasForeign = true ∧ f < w.nextForeign ∧ w.FreeHandle h then
      some { w with map := (h, f) :: w.map, toRust := w.toRust ++ [(h, .foreign f)] } else none
  | .foreignLift h t => if (h, t) ∈ w.toForeign then
      some (W.foreignLift k { w with toForeign := w.toForeign.erase (h, t) } h t) else none
  | .foreignFree h t => if (h, t) ∈ w.proxies then
      some ({ w with proxies := w.proxies.erase (h, t) }.decr h) else none

theorem doCmd_step {w w' : W} {c : Cmd} (h : doCmd k rustImpl w c = some w') :
    Step k rustImpl w w' := by
  cases c <;> simp only [doCmd] at h <;> split at h <;>
    (try simp only [Option.some.injEq, reduceCtorEq] at h) <;> rename_i hc
  · subst h; exact .rustNew w _ hc.1 hc.2
  · subst h; exact .rustClone w _ _ hc.1 hc.2
  · subst h; exact .rustDrop w _ _ hc
  · subst h; exact .rustCall w _ _ hc
  · exact .rustLower w w' _ _ _ _ hc.1 hc.2.1 hc.2.2 h
  · subst h; exact .rustLift w _ _ _ hc.1 hc.2
  · subst h; exact .foreignNew w hc
  · subst h; exact .lowerProxy w _ _ hc
  · subst h; exact .lowerImpl w _ _ hc.1 hc.2.1 hc.2.2
  · subst h; exact .foreignLift w _ _ hc
  · subst h; exact .foreignFree w _ _ hc

def doCmds (k : Kind) (i : Bool) (w : W) : List Cmd → Option W
  | [] => some w
  | c :: cs => (doCmd k i w c).bind fun w => doCmds k i w cs

theorem doCmds_reach {w w' : W} {cs : List Cmd} (hw : Reach k rustImpl w)
    (h : doCmds k rustImpl w cs = some w') : Reach k rustImpl w' := by
  induction cs generalizing w with
  | nil => simp only [doCmds, Option.some.injEq] at h; exact h ▸ hw
  | cons c cs ih =>
    simp only [doCmds, Option.bind_eq_some_iff] at h
    obtain ⟨w₁, h1, h2⟩ := h
    exact ih (.step _ _ hw (doCmd_step h1)) h2

/-- A Rust object goes to the foreign side and back twice and is called there; a foreign object goes
to Rust, is called, goes back and returns; then everything is dropped. -/
def demo : List Cmd :=
  [.rustNew 16, .rustLower 16 32 1 (.rust 0), .foreignLift 32 (.rust 0),
    .lowerProxy 32 (.rust 0), .rustLift 32 64 (.rust 0), .rustCall 16 (.rust 0),
    .rustLower 16 48 1 (.rust 0), .foreignLift 48 (.rust 0), .foreignFree 32 (.rust 0),
    .foreignNew, .lowerImpl 1 0, .rustLift 1 32 (.foreign 0), .rustCall 32 (.foreign 0),
    .rustClone 32 (.foreign 0), .rustLower 32 64 3 (.foreign 0), .foreignLift 3 (.foreign 0)]

/-- In the middle: both objects are alive, the foreign one through the wrapper Rust holds. -/
theorem demo_mid : ∃ w, Reach .both true w ∧ w.proxies = [(48, .rust 0)] ∧
    w.rust = [(32, .foreign 0)] ∧ w.map = [(1, 0)] ∧
    w.log = [.made (.rust 0), .call (.rust 0) (.rust 0), .made (.foreign 0),
      .call (.foreign 0) (.foreign 0), .back (.foreign 0) (.foreign 0)] :=
  ⟨_, doCmds_reach (cs := demo) .init rfl, by decide⟩

theorem demo_end : ∃ w, Reach .both true w ∧ w.bodies = [] ∧ w.map = [] ∧
    Ev.dropped 0 ∈ w.log ∧ w.log.count (.dropped 0) = 1 :=
  ⟨_, doCmds_reach (cs := demo ++ [.foreignFree 48 (.rust 0), .rustDrop 32 (.foreign 0)]) .init rfl,
    by decide⟩

/-- The same for an object type. -/
theorem demo_struct : ∃ w, Reach .struct true w ∧ w.proxies = [(16, .rust 0)] ∧
    w.log = [.made (.rust 0), .call (.rust 0) (.rust 0)] :=
  ⟨_, doCmds_reach (cs := [.rustNew 16, .rustLower 16 32 1 (.rust 0), .foreignLift 16 (.rust 0),
    .lowerProxy 16 (.rust 0), .rustLift 16 64 (.rust 0), .rustCall 16 (.rust 0),
    .rustDrop 16 (.rust 0)]) .init rfl, by decide⟩

/-! ### C33 -/

section
variable (hk : Fits k rustImpl) (h : Reach k rustImpl w)
include hk h

/-- C33. No step touches memory that is not allocated or has another shape, and no handle map is
asked for a handle it does not have. -/
theorem C33_memory_safe : w.bad = false := (h.inv hk).bad

private theorem held_alive {n : Nat} (hh : Held w (.rust n)) :
    ∃ a, (a, Body.obj n) ∈ w.bodies := by
  have j := h.inv hk
  have hh' : ∀ x, w.RustHandle k x (.rust n) → ∃ a, (a, Body.obj n) ∈ w.bodies := by
    rintro x ⟨m, e, ⟨_, g⟩ | ⟨_, b, _, g⟩⟩ <;> cases e
    · exact ⟨x, g⟩
    · exact ⟨b, g⟩
  have hf : ∀ x, w.ForeignHandle k x (.rust n) → ∃ a, (a, Body.obj n) ∈ w.bodies := by
    rintro x ⟨_, f, _, e⟩; cases e
  obtain ⟨a, ha | ha | ha | ha⟩ := hh
  · rcases j.rustOk _ _ ha with ⟨m, g, e⟩ | ⟨_, fh, f, _, _, e⟩ <;> cases e
    exact ⟨a, g⟩
  · exact (j.toForeignOk _ _ ha).elim (hh' _) (hf _)
  · exact (j.toRustOk _ _ ha).elim (hh' _) (hf _)
  · exact hh' _ (j.proxyOk _ _ ha)

private theorem alive_held {n a : Nat} (hb : (a, Body.obj n) ∈ w.bodies) : Held w (.rust n) := by
  have j := h.inv hk
  have hc := j.count a _ hb
  simp only [W.owners, List.count_nil] at hc
  have hH : ∀ x t, (x, Body.obj n) ∈ w.bodies → w.RustHandle k x t ∨ w.ForeignHandle k x t →
      t = .rust n := by
    rintro x t hx (⟨m, e, ⟨_, g⟩ | ⟨_, b, g, _⟩⟩ | ⟨_, f, g, _⟩)
    · have := unique j.keys hx g; cases this; exact e
    · have := unique j.keys hx g; cases this
    · have := j.mapOdd _ _ g; have := (j.even _ _ hx).1; omega
  -- a handle of the double Arc around the object
  have hD : ∀ x t, (x, Body.double a) ∈ w.bodies → w.RustHandle k x t ∨ w.ForeignHandle k x t →
      t = .rust n := by
    rintro x t hx (⟨m, e, ⟨_, g⟩ | ⟨_, b, g, g'⟩⟩ | ⟨_, f, g, _⟩)
    · have := unique j.keys hx g; cases this
    · have := unique j.keys hx g; cases this
      have := unique j.keys hb g'; cases this; exact e
    · have := j.mapOdd _ _ g; have := (j.even _ _ hx).1; omega
  have hsum : 0 < refs a w.rust ∨ 0 < refs a w.toForeign ∨ 0 < refs a w.toRust ∨
      0 < refs a w.proxies ∨ 0 < bodyCount (.double a) w.bodies := by omega
  rcases hsum with hp | hp | hp | hp | hp
  · obtain ⟨t, ht⟩ := exists_of_refs_pos hp
    rcases j.rustOk _ _ ht with ⟨m, g, e⟩ | ⟨_, fh, f, g, _, e⟩
    · have := unique j.keys hb g; cases this; exact ⟨a, .inl (e ▸ ht)⟩
    · have := unique j.keys hb g; cases this
  · obtain ⟨t, ht⟩ := exists_of_refs_pos hp
    exact ⟨a, .inr (.inl (hH _ _ hb (j.toForeignOk _ _ ht) ▸ ht))⟩
  · obtain ⟨t, ht⟩ := exists_of_refs_pos hp
    exact ⟨a, .inr (.inr (.inl (hH _ _ hb (j.toRustOk _ _ ht) ▸ ht)))⟩
  · obtain ⟨t, ht⟩ := exists_of_refs_pos hp
    exact ⟨a, .inr (.inr (.inr (hH _ _ hb (.inl (j.proxyOk _ _ ht)) ▸ ht)))⟩
  · obtain ⟨d, hd⟩ := exists_of_bodyCount_pos hp
    have hc := j.count d _ hd
    simp only [W.owners, List.count_nil] at hc
    have hsum : 0 < refs d w.rust ∨ 0 < refs d w.toForeign ∨ 0 < refs d w.toRust ∨
        0 < refs d w.proxies ∨ 0 < bodyCount (.double d) w.bodies := by omega
    rcases hsum with hp | hp | hp | hp | hp
    · obtain ⟨t, ht⟩ := exists_of_refs_pos hp
      rcases j.rustOk _ _ ht with ⟨m, g, e⟩ | ⟨_, fh, f, g, _, e⟩
      · have := unique j.keys hd g; cases this
      · have := unique j.keys hd g; cases this
    · obtain ⟨t, ht⟩ := exists_of_refs_pos hp
      exact ⟨d, .inr (.inl (hD _ _ hd (j.toForeignOk _ _ ht) ▸ ht))⟩
    · obtain ⟨t, ht⟩ := exists_of_refs_pos hp
      exact ⟨d, .inr (.inr (.inl (hD _ _ hd (j.toRustOk _ _ ht) ▸ ht)))⟩
    · obtain ⟨t, ht⟩ := exists_of_refs_pos hp
      exact ⟨d, .inr (.inr (.inr (hD _ _ hd (.inl (j.proxyOk _ _ ht)) ▸ ht)))⟩
    · obtain ⟨e, he⟩ := exists_of_bodyCount_pos hp
      obtain ⟨_, m, hm⟩ := j.doubleOk e d he
      have := unique j.keys hd hm; cases this

/-- C33. An object is dropped at most once, and only one that was made. -/
theorem C33_dropped_once (n : Nat) :
    w.log.count (.dropped n) ≤ 1 ∧ (Ev.dropped n ∈ w.log → Ev.made (.rust n) ∈ w.log) := by
  have j := h.inv hk
  by_cases hn : n < w.nextRust
  · have := j.objOld n hn
    rw [drops] at this
    exact ⟨by omega, fun _ => (j.made n).2 hn⟩
  · have := j.objNew n (by omega)
    rw [drops] at this
    refine ⟨by omega, fun hd => ?_⟩
    have := List.count_pos_iff.2 hd
    omega

/-- C33. A Rust object is dropped exactly when nobody holds a reference or handle to it: not Rust
code, not foreign code, and none in transit. -/
theorem C33_alive_iff_held (n : Nat) (hm : Ev.made (.rust n) ∈ w.log) :
    Ev.dropped n ∈ w.log ↔ ¬ Held w (.rust n) := by
  have j := h.inv hk
  have ho := j.objOld n ((j.made n).1 hm)
  rw [drops] at ho
  constructor
  · intro hd hh
    obtain ⟨a, ha⟩ := held_alive hk h hh
    have := bodyCount_pos ha
    have := List.count_pos_iff.2 hd
    omega
  · intro hh
    have : bodyCount (.obj n) w.bodies = 0 := Nat.eq_zero_of_not_pos fun hp => by
      obtain ⟨a, ha⟩ := exists_of_bodyCount_pos hp
      exact hh (alive_held hk h ha)
    exact List.count_pos_iff.1 (by omega)

/-- C33. Nothing leaks: when nobody holds anything, no memory is allocated and the handle map is
empty. -/
theorem C33_no_leak (hn : ∀ t, ¬ Held w t) : w.bodies = [] ∧ w.map = [] := by
  have j := h.inv hk
  have h1 : w.rust = [] := List.eq_nil_iff_forall_not_mem.2 fun ⟨a, t⟩ ha => hn t ⟨a, .inl ha⟩
  have h2 : w.toForeign = [] := List.eq_nil_iff_forall_not_mem.2 fun ⟨a, t⟩ ha =>
    hn t ⟨a, .inr (.inl ha)⟩
  have h3 : w.toRust = [] := List.eq_nil_iff_forall_not_mem.2 fun ⟨a, t⟩ ha =>
    hn t ⟨a, .inr (.inr (.inl ha))⟩
  have h4 : w.proxies = [] := List.eq_nil_iff_forall_not_mem.2 fun ⟨a, t⟩ ha =>
    hn t ⟨a, .inr (.inr (.inr ha))⟩
  have hdbl : ∀ a b, (a, b) ∈ w.bodies → ∃ d, (d, Body.double a) ∈ w.bodies := by
    intro a b hb
    have hc := j.count a b hb
    simp only [W.owners, h1, h2, h3, h4, refs_nil, List.count_nil] at hc
    exact exists_of_bodyCount_pos (by omega)
  have hb : w.bodies = [] := List.eq_nil_iff_forall_not_mem.2 fun ⟨a, b⟩ hb => by
    obtain ⟨d, hd⟩ := hdbl a b hb
    obtain ⟨e, he⟩ := hdbl d _ hd
    obtain ⟨_, n, hn⟩ := j.doubleOk e d he
    have := unique j.keys hd hn; cases this
  refine ⟨hb, List.eq_nil_iff_forall_not_mem.2 fun ⟨x, y⟩ hx => ?_⟩
  have h5 := j.mapCount x (j.mapOdd _ _ hx)
  have h6 := keyCount_pos hx
  simp only [h2, h3, hb, refs_nil, List.count_nil, bodyCount, List.countP_nil] at h5
  omega

/-! ### C35 -/

/-- C35. A method called on a reference Rust was given for `t` runs on `t`, after any number of
passes in either direction. -/
theorem C35_dispatch (t u : Who) (hc : Ev.call t u ∈ w.log) : u = t :=
  ((h.inv hk).calls t u (.inl hc)).symm

/-- C35. A foreign object coming home is the object that left. -/
theorem C35_returns (t u : Who) (hc : Ev.back t u ∈ w.log) : u = t :=
  ((h.inv hk).calls t u (.inr hc)).symm

/-- C35. The low bit tells the sides apart: a handle in transit is odd exactly if it stands for a
foreign object. -/
theorem C35_low_bit (x : Nat) (t : Who) (hx : (x, t) ∈ w.toForeign ∨ (x, t) ∈ w.toRust) :
    (x % 2 = 1 ↔ ∃ f, t = .foreign f) ∧ x ≠ 0 := by
  have j := h.inv hk
  have hr : w.RustHandle k x t ∨ w.ForeignHandle k x t :=
    hx.elim (j.toForeignOk x t) (j.toRustOk x t)
  rcases hr with hr | hr
  · have he := hr.even j
    obtain ⟨b, hb⟩ := he.2
    have := (j.even _ _ hb).2
    obtain ⟨n, rfl, _⟩ := hr
    refine ⟨⟨fun h => by omega, fun ⟨f, e⟩ => by cases e⟩, this⟩
  · have ho := hr.odd j
    obtain ⟨_, f, _, rfl⟩ := hr
    exact ⟨⟨fun _ => ⟨f, rfl⟩, fun _ => ho⟩, by omega⟩

/-- C35. A Rust handle in foreign hands is even; foreign code never keeps its own handles. -/
theorem C35_proxies_even (x : Nat) (t : Who) (hx : (x, t) ∈ w.proxies) :
    x % 2 = 0 ∧ ∃ n, t = .rust n := by
  have j := h.inv hk
  have hr := j.proxyOk x t hx
  refine ⟨(hr.even j).1, ?_⟩
  obtain ⟨n, e, _⟩ := hr
  exact ⟨n, e⟩

/-- C35. The handle map has an entry for a foreign object only while Rust holds a reference to it or
one is in transit: once Rust dropped its wrappers, the entry is gone. -/
theorem C35_entry_removed (x f : Nat) (hx : (x, f) ∈ w.map) :
    ∃ a, (a, Who.foreign f) ∈ w.rust ∨ (a, .foreign f) ∈ w.toForeign ∨ (a, .foreign f) ∈ w.toRust := by
  have j := h.inv hk
  have hodd := j.mapOdd _ _ hx
  have hc := j.mapCount x hodd
  have hp := keyCount_pos hx
  simp only [List.count_nil] at hc
  have hH : ∀ t, w.RustHandle k x t ∨ w.ForeignHandle k x t → t = .foreign f := by
    rintro t (hr | ⟨_, f', g, e⟩)
    · have := (hr.even j).1; omega
    · have := unique j.mapKeys hx g; subst this; exact e
  have hsum : 0 < refs x w.toForeign ∨ 0 < refs x w.toRust ∨
      0 < bodyCount (.wrapper x) w.bodies := by omega
  rcases hsum with hp | hp | hp
  · obtain ⟨t, ht⟩ := exists_of_refs_pos hp
    exact ⟨x, .inr (.inl (hH t (j.toForeignOk _ _ ht) ▸ ht))⟩
  · obtain ⟨t, ht⟩ := exists_of_refs_pos hp
    exact ⟨x, .inr (.inr (hH t (j.toRustOk _ _ ht) ▸ ht))⟩
  · obtain ⟨a, ha⟩ := exists_of_bodyCount_pos hp
    have hc := j.count a _ ha
    simp only [W.owners, List.count_nil] at hc
    have hno : ∀ t, w.RustHandle k a t ∨ w.ForeignHandle k a t → False := by
      rintro t (⟨m, e, ⟨_, g⟩ | ⟨_, b, g, _⟩⟩ | ⟨_, f, g, _⟩)
      · have := unique j.keys ha g; cases this
      · have := unique j.keys ha g; cases this
      · have := j.mapOdd _ _ g; have := (j.even _ _ ha).1; omega
    have hsum : 0 < refs a w.rust ∨ 0 < refs a w.toForeign ∨ 0 < refs a w.toRust ∨
        0 < refs a w.proxies ∨ 0 < bodyCount (.double a) w.bodies := by omega
    rcases hsum with hp | hp | hp | hp | hp
    · obtain ⟨t, ht⟩ := exists_of_refs_pos hp
      rcases j.rustOk _ _ ht with ⟨m, g, e⟩ | ⟨_, fh, f', g, g', e⟩
      · have := unique j.keys ha g; cases this
      · have := unique j.keys ha g; cases this
        have := unique j.mapKeys hx g'; subst this
        exact ⟨a, .inl (e ▸ ht)⟩
    · obtain ⟨t, ht⟩ := exists_of_refs_pos hp
      exact (hno t (j.toForeignOk _ _ ht)).elim
    · obtain ⟨t, ht⟩ := exists_of_refs_pos hp
      exact (hno t (j.toRustOk _ _ ht)).elim
    · obtain ⟨t, ht⟩ := exists_of_refs_pos hp
      exact (hno t (.inl (j.proxyOk _ _ ht))).elim
    · obtain ⟨d, hd⟩ := exists_of_bodyCount_pos hp
      obtain ⟨_, m, hm⟩ := j.doubleOk d a hd
      have := unique j.keys ha hm; cases this

end

/-- The theorems apply: Rust implementations are fine for every kind but foreign-only and callback. -/
example : Fits .struct true ∧ Fits .rustOnly true ∧ Fits .both true ∧ Fits .foreignOnly false ∧
    Fits .callback false := by simp [Fits]

/-- C35 fails for a trait exported as foreign-only that Rust code implements nevertheless: a Rust
object that is passed out and comes back is taken for a foreign one (trait_interface.rs:177-186 does
not look at the low bit, although `lower` 197-209 makes even handles), and a call asks the foreign
handle map for a Rust address. -/
theorem C35_foreign_only_confused : ∃ w, Reach .foreignOnly true w ∧ w.bad = true ∧
    Held w (.rust 0) :=
  ⟨_, doCmds_reach (cs := [.rustNew 16, .rustLower 16 32 1 (.rust 0), .foreignLift 32 (.rust 0),
    .lowerProxy 32 (.rust 0), .rustLift 32 64 (.rust 0), .rustCall 64 (.rust 0)]) .init rfl,
    by decide, 64, by decide⟩

end Verif.Props.Objects
