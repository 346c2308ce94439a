import Verif.Jni.CallbackAsyncSpec
/-
Lemmas for C80: async methods.
-/
namespace Verif.JniCallback

variable {K E L R F : Type}

/-- Where the sender is. -/
inductive Phase where
  /-- There is no coroutine. -/
  | no
  /-- It was not used. -/
  | held
  /-- The value is about to be stored. -/
  | storing
  /-- It was stored. -/
  | stored
  /-- The sender was dropped. -/
  | over
  deriving DecidableEq

def CPc.phase : CPc R F → Phase
  | .none => .no
  | .queued => .held
  | .running => .held
  | .store _ _ => .storing
  | .wake _ _ => .stored
  | .drop _ => .stored
  | .back _ => .over
  | .ended => .over

/-- The sender exists. -/
def Phase.sender : Phase → Nat
  | .held => 1
  | .storing => 1
  | .stored => 1
  | _ => 0

/-- What holds of a call. `live`: its object is in the map. -/
structure Inv (live : Prop) (c : ACall K E L R F) : Prop where
  noUb : c.ub = false
  openLive : c.rust.open = true → live
  /-- No coroutine: the call is over. -/
  no : c.co = .none → c.rust.open = false ∧ c.sends = 0 ∧ c.runs = 0 ∧ c.how = none ∧ ((∃ m, c.rust = .failed m) ∨ ∃ m, c.rust = .panicked m)
  started : c.co ≠ .none → (∀ m, c.rust ≠ .failed m) ∧ (∀ m, c.rust ≠ .panicked m) ∧
    c.count = c.co.phase.sender + (if c.rust.open then 1 else 0)
  held : c.co.phase = .held → c.sends = 0 ∧ c.value = none ∧ c.how = none ∧ (c.rust.open = true ∨ c.rust = .dropped) ∧
    c.runs = (match c.co with | .running => 1 | _ => 0) ∧ ∀ n, c.rust = .waiting n → c.waker = some n
  sent : c.co.phase = .storing ∨ c.co.phase = .stored ∨ c.co.phase = .over → c.sends = 1 ∧ c.runs ≤ 1 ∧
    ∃ how, c.how = some how ∧ (how ≠ .noObject ∨ c.rust = .dropped) ∧ (c.runs = 1 ↔ ∃ e, how = .ends e) ∧ ∃ v, Brings c.m how v ∧
      (∀ w last, c.co = .store w last → w = v) ∧
      (c.co.phase ≠ .storing → (c.rust.open = true → c.value = some v) ∧ ∀ w, c.rust = .got w → w = v)
  storing : c.co.phase = .storing → c.value = none ∧ (c.rust.open = true ∨ c.rust = .dropped) ∧
    ∀ n, c.rust = .waiting n → c.waker = some n
  wakes : c.co.phase = .stored ∨ c.co.phase = .over → ∀ n, c.rust = .waiting n → n ∈ c.woken ∨ ∃ last, c.co = .wake (some n) last
  releases : c.released = if c.count = 0 then 1 else 0

theorem inv_start (h : Nat) (m : AMethod K E L R F) (args : Conv Unit) (launch : Except Exc Unit) {live : Prop} (hl : live) :
    Inv live (startCall h m args launch) := by
  unfold startCall
  cases args with
  | err t => constructor <;> simp [RPc.open, CPc.phase, hl]
  | panic t => constructor <;> simp [RPc.open, CPc.phase, hl]
  | ok u =>
    cases launch with
    | error x => constructor <;> simp [RPc.open, CPc.phase, hl]
    | ok u => constructor <;> simp [RPc.open, CPc.phase, Phase.sender, hl]

theorem inv_poll {live : Prop} {c : ACall K E L R F} {n : Nat} (h : Inv live c) (hr : c.rust = .waiting n) :
    Inv live { c with rust := .recv (n + 1) } := by
  obtain ⟨h1, h2, h3, h4, h5, h6, h7, h8, h9⟩ := h
  simp only [hr] at *
  constructor <;> simp_all [RPc.open]

theorem inv_recv_none {live : Prop} {c : ACall K E L R F} {n : Nat} (h : Inv live c) (hr : c.rust = .recv n) (hv : c.value = none) :
    Inv live { c with waker := some n, rust := .waiting n } := by
  obtain ⟨h1, h2, h3, h4, h5, h6, h7, h8, h9⟩ := h
  simp only [hr] at *
  constructor <;> simp_all [RPc.open]
  rintro (hp | hp)
  · obtain ⟨_, _, how, _, _, _, v, _, _, hs⟩ := h6 (.inr (.inl hp))
    rw [hp] at hs
    cases hs
  · obtain ⟨_, _, how, _, _, _, v, _, _, hs⟩ := h6 (.inr (.inr hp))
    rw [hp] at hs
    cases hs

theorem inv_recv_some {live : Prop} {c : ACall K E L R F} {n : Nat} {v : Sent R F} (h : Inv live c) (hr : c.rust = .recv n)
    (hv : c.value = some v) : Inv live ({ c with value := none, rust := .got v }.dropArc) := by
  obtain ⟨h1, h2, h3, h4, h5, h6, h7, h8, h9⟩ := h
  simp only [hr] at *
  unfold ACall.dropArc
  split
  · constructor <;> simp_all [RPc.open]
  · constructor <;> simp_all [RPc.open]

theorem inv_drop {live : Prop} {c : ACall K E L R F} {n : Nat} (h : Inv live c) (hr : c.rust = .waiting n) :
    Inv live ({ c with rust := .dropped }.dropArc) := by
  obtain ⟨h1, h2, h3, h4, h5, h6, h7, h8, h9⟩ := h
  simp only [hr] at *
  unfold ACall.dropArc
  split
  · constructor <;> simp_all [RPc.open]
    intro hp
    obtain ⟨a, b, how, c1, c2, c3, v, d1, d2, d3⟩ := h6 hp
    exact ⟨how, c1, c3, v, d1, d2⟩
  · constructor <;> simp_all [RPc.open]
    intro hp
    obtain ⟨a, b, how, c1, c2, c3, v, d1, d2, d3⟩ := h6 hp
    exact ⟨how, c1, c3, v, d1, d2⟩

theorem inv_begin_ok {live : Prop} {c : ACall K E L R F} (h : Inv live c) (hq : c.co = .queued) :
    Inv live { c with co := .running, args := false, runs := c.runs + 1 } := by
  obtain ⟨h1, h2, h3, h4, h5, h6, h7, h8, h9⟩ := h
  simp only [hq] at *
  constructor <;> simp_all [CPc.phase, Phase.sender]

theorem inv_begin_noArgs {live : Prop} {c : ACall K E L R F} {x : Exc} (h : Inv live c) (hq : c.co = .queued) :
    Inv live ({ c with args := false, how := some (.noArgs x) } : ACall K E L R F).unexpected := by
  obtain ⟨h1, h2, h3, h4, h5, h6, h7, h8, h9⟩ := h
  simp only [hq] at *
  have := @Brings.noArgs _ _ _ _ _ c.m x
  constructor <;> simp_all [CPc.phase, Phase.sender, ACall.unexpected, ACall.complete]

theorem inv_begin_noObject {live : Prop} {c : ACall K E L R F} (h : Inv live c) (hq : c.co = .queued) (hl : ¬live) :
    Inv live ({ c with how := some .noObject } : ACall K E L R F).unexpected := by
  obtain ⟨h1, h2, h3, h4, h5, h6, h7, h8, h9⟩ := h
  simp only [hq] at *
  have := @Brings.noObject _ _ _ _ _ c.m
  constructor <;> simp_all [CPc.phase, Phase.sender, ACall.unexpected, ACall.complete]

theorem inv_finish {live : Prop} {c : ACall K E L R F} {v : Sent R F} {last : Bool} {e : Ends K E} (h : Inv live c)
    (hq : c.co = .running) (hb : Brings c.m (.ends e) v) :
    Inv live (({ c with how := some (.ends e) } : ACall K E L R F).complete v last) := by
  obtain ⟨h1, h2, h3, h4, h5, h6, h7, h8, h9⟩ := h
  simp only [hq] at *
  constructor <;> simp_all [CPc.phase, Phase.sender, ACall.complete]

theorem inv_store {live : Prop} {c : ACall K E L R F} {v : Sent R F} {last : Bool} (h : Inv live c) (hq : c.co = .store v last) :
    Inv live { c with value := some v, waker := none, co := .wake c.waker last } := by
  obtain ⟨h1, h2, h3, h4, h5, h6, h7, h8, h9⟩ := h
  simp only [hq] at *
  constructor <;> simp_all [CPc.phase, Phase.sender]
  obtain ⟨a, b, how, c1, c2, c3, c4⟩ := h6
  refine ⟨how, c1, c2, c3, v, c4, fun _ => rfl, fun w hw => ?_⟩
  rcases h7.2.1 with ho | ho
  · rw [hw] at ho; cases ho
  · rw [hw] at ho; cases ho

theorem inv_wake {live : Prop} {c : ACall K E L R F} {w : Option Nat} {last : Bool} (h : Inv live c) (hq : c.co = .wake w last) :
    Inv live { c with woken := w.toList ++ c.woken, co := .drop last } := by
  obtain ⟨h1, h2, h3, h4, h5, h6, h7, h8, h9⟩ := h
  simp only [hq] at *
  constructor <;> simp_all [CPc.phase, Phase.sender]
  intro n hn
  exact (h8 n hn).symm

theorem inv_dropSender {live : Prop} {c : ACall K E L R F} {last : Bool} (h : Inv live c) (hq : c.co = .drop last) :
    Inv live ({ c with co := .back last }.dropArc) := by
  obtain ⟨h1, h2, h3, h4, h5, h6, h7, h8, h9⟩ := h
  simp only [hq] at *
  unfold ACall.dropArc
  split
  · constructor <;> simp_all [CPc.phase, Phase.sender]
  · constructor <;> simp_all [CPc.phase, Phase.sender]

theorem inv_back {live : Prop} {c : ACall K E L R F} {last : Bool} (h : Inv live c) (hq : c.co = .back last) :
    Inv live { c with co := .ended } := by
  obtain ⟨h1, h2, h3, h4, h5, h6, h7, h8, h9⟩ := h
  simp only [hq] at *
  constructor <;> simp_all [CPc.phase, Phase.sender]

theorem finish_brings (c : ACall K E L R F) (e : Ends K E) : ∃ v last, c.finish e = c.complete v last ∧ Brings c.m (.ends e) v := by
  cases e with
  | returns k =>
    simp only [ACall.finish]
    split
    · rename_i hv
      exact ⟨_, _, rfl, .nothing hv⟩
    · rename_i hv
      have hv : c.m.void = false := by simpa using hv
      split
      · rename_i hl; exact ⟨_, _, rfl, .lowerValue hv hl⟩
      · rename_i l hl
        refine ⟨_, _, rfl, ?_⟩
        cases hr : c.m.codec.liftRet l with
        | ok r => exact .value hv hl hr
        | err t => exact .badValue hv hl hr
        | panic t => exact .valuePanic hv hl hr
  | declared e =>
    simp only [ACall.finish]
    split
    · rename_i ht
      split
      · rename_i hl; exact ⟨_, _, rfl, .lowerError ht hl⟩
      · rename_i l hl
        refine ⟨_, _, rfl, ?_⟩
        cases hr : c.m.codec.liftErr l with
        | ok r => exact .error ht hl hr
        | err t => exact .badError ht hl hr
        | panic t => exact .errorPanic ht hl hr
    · rename_i ht
      exact ⟨_, _, rfl, .undeclared (by simpa using ht)⟩
  | other x => exact ⟨_, _, rfl, .other⟩

theorem inv_step {live : Bool} {c c' : ACall K E L R F} {a : CAct K E} (h : Inv (live = true) c) (hc : ∀ p, a = .go p → p = false)
    (hs : c.step live a = some c') : Inv (live = true) c' := by
  cases a with
  | poll =>
    simp only [ACall.step] at hs
    split at hs
    · cases hs; exact inv_poll h (by assumption)
    · cases hs
  | recv =>
    simp only [ACall.step] at hs
    split at hs
    · split at hs
      · cases hs; exact inv_recv_some h (by assumption) (by assumption)
      · cases hs; exact inv_recv_none h (by assumption) (by assumption)
    · cases hs
  | dropFuture =>
    simp only [ACall.step] at hs
    split at hs
    · cases hs; exact inv_drop h (by assumption)
    · cases hs
  | begin lift =>
    simp only [ACall.step] at hs
    split at hs
    · split at hs
      · split at hs
        · cases hs; exact inv_begin_ok h (by assumption)
        · cases hs; exact inv_begin_noArgs h (by assumption)
      · cases hs; exact inv_begin_noObject h (by assumption) (by assumption)
    · cases hs
  | finish e =>
    simp only [ACall.step] at hs
    split at hs
    · cases hs
      rename_i hr
      obtain ⟨v, last, e1, hb⟩ := finish_brings ({ c with how := some (.ends e) } : ACall K E L R F) e
      rw [e1]
      exact inv_finish h hr hb
    · cases hs
  | go p =>
    have hp := hc p rfl
    subst hp
    simp only [ACall.step] at hs
    split at hs
    · cases hs; exact inv_store h (by assumption)
    · cases hs; exact inv_wake h (by assumption)
    · cases hs; exact inv_dropSender h (by assumption)
    · cases hs; exact inv_back h (by assumption)
    · cases hs

theorem step_h {live : Bool} {c c' : ACall K E L R F} {a : CAct K E} (hs : c.step live a = some c') : c'.h = c.h := by
  cases a with
  | poll =>
    simp only [ACall.step] at hs
    split at hs
    · cases hs; rfl
    · cases hs
  | recv =>
    simp only [ACall.step, ACall.dropArc] at hs
    split at hs
    · split at hs
      · cases hs; split <;> rfl
      · cases hs; rfl
    · cases hs
  | dropFuture =>
    simp only [ACall.step, ACall.dropArc] at hs
    split at hs
    · cases hs; split <;> rfl
    · cases hs
  | begin lift =>
    simp only [ACall.step] at hs
    split at hs
    · split at hs
      · split at hs
        · cases hs; rfl
        · cases hs; rfl
      · cases hs; rfl
    · cases hs
  | finish e =>
    simp only [ACall.step] at hs
    split at hs
    · cases hs
      obtain ⟨v, last, e1, hb⟩ := finish_brings ({ c with how := some (.ends e) } : ACall K E L R F) e
      rw [e1]
      rfl
    · cases hs
  | go p =>
    simp only [ACall.step, ACall.dropArc] at hs
    split at hs
    · cases hs; rfl
    · cases hs; rfl
    · cases hs; split <;> rfl
    · cases hs; split <;> rfl
    · cases hs

/-- The invariant of all calls. -/
def AllInv (s : Sys K E L R F) : Prop := ∀ c ∈ s.calls, Inv (c.h ∈ s.live) c

theorem Inv.live_iff {p q : Prop} {c : ACall K E L R F} (h : Inv p c) (hpq : c.rust.open = true → p → q) : Inv q c :=
  { h with openLive := fun ho => hpq ho (h.openLive ho) }

theorem reach_inv {s : Sys K E L R F} (h : Reach s) : AllInv s := by
  induction h with
  | init => intro c hc; cases hc
  | step s s' a _ hcl hs ih =>
    cases a with
    | make =>
      cases hs
      exact fun c hc => (ih c hc).live_iff fun _ hm => List.mem_cons_of_mem _ hm
    | free h =>
      simp only [Sys.step] at hs
      split at hs
      · rename_i hg
        cases hs
        refine fun c hc => (ih c hc).live_iff fun ho hm => List.mem_filter.mpr ⟨hm, ?_⟩
        have : c.h ≠ h := fun he => by have := hg.2 c hc he; rw [ho] at this; cases this
        simpa using this
      · cases hs
    | start h m args launch =>
      simp only [Sys.step] at hs
      split at hs
      · rename_i hm
        cases hs
        intro c hc
        rcases List.mem_append.mp hc with hc | hc
        · exact ih c hc
        · rw [List.mem_singleton] at hc
          subst hc
          refine inv_start h m args launch ?_
          have : (startCall h m args launch).h = h := by
            unfold startCall
            split
            · rfl
            · rfl
            · split <;> rfl
          rw [this]
          exact hm
      · cases hs
    | call i a =>
      simp only [Sys.step] at hs
      split at hs
      · rename_i c hc
        cases hst : c.step (s.live.contains c.h) a with
        | none => rw [hst] at hs; cases hs
        | some c' =>
          rw [hst] at hs
          cases hs
          intro d hd
          rcases List.mem_or_eq_of_mem_set hd with hd | hd
          · exact ih d hd
          · subst hd
            have hi := ih c (List.mem_of_getElem? hc)
            have hi' : Inv (s.live.contains c.h = true) c := hi.live_iff fun _ hm => by simpa using hm
            have := inv_step hi' (fun p hp => by subst hp; simpa [Act.clean] using hcl) hst
            refine this.live_iff fun _ hm => ?_
            rw [step_h hst]
            simpa using hm
      · cases hs

end Verif.JniCallback
