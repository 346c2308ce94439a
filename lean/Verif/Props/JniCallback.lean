import Verif.Jni.CallbackSigLemmas
import Verif.Jni.CallbackLemmas
import Verif.Jni.CallbackAsyncLemmas
/-
C80: methods that Kotlin implements, called from Rust through JNI.
-/
namespace Verif.Props.JniCallback
open Verif.Jni Verif.JniCallback

/-! ### Finding the Kotlin function and passing arguments -/

/-- The signature that Rust looks for is the descriptor of the Kotlin function, and nothing else can
be read from it; what Rust passes for each parameter is what the JVM reads, unless a method borrows
bytes (which does not compile). -/
theorem C80_signature (m : Meth) : ∃ ps : List Jvm, m.ktParams.map compiled = ps.map some ∧
    Describes m.jniSignature ps (compiled m.ktReturn) ∧
    (∀ ps' r', Describes m.jniSignature ps' r' → ps' = ps ∧ r' = compiled m.ktReturn) ∧
    (ArgKind.bytesRef ∉ m.args → m.passes = ps.map reads) := by
  refine ⟨m.ktParams.filterMap compiled, ?_, describes_sig m, fun ps' r' h => describes_unique h (describes_sig m),
    fun h => passes_eq h⟩
  have hall : ∀ fs : List Ffi, (fs.map ktOf).map compiled = ((fs.map ktOf).filterMap compiled).map some := by
    intro fs
    rw [compiled_map]
    simp [compiled_ktOf]
  unfold Meth.ktParams
  cases m.isAsync <;> cases m.hasReturnPointer <;>
    simp only [Bool.false_eq_true, if_true, if_false, List.map_append, List.filterMap_append, hall] <;> rfl

/-- The Kotlin function gets a place for the result exactly if there is a result that it can not
return: an error, or a value for which its return type is empty. -/
theorem C80_place (m : Meth) : m.hasReturnPointer = true ↔
    m.isAsync = false ∧ (m.throws.isSome = true ∨ (m.ret.isSome = true ∧ compiled m.ktReturn = none)) := by
  obtain ⟨a, args, ret, throws⟩ := m
  cases a with
  | true => simp [Meth.hasReturnPointer]
  | false =>
    have one : ∀ f : Ffi, compiled (ktOf f) ≠ none := by intro f; cases f <;> simp [ktOf, compiled]
    match ret with
    | none => simp [Meth.hasReturnPointer]
    | some [] => simp [Meth.hasReturnPointer, Meth.ktReturn, Meth.returnFfi, compiled]
    | some [f] => simp [Meth.hasReturnPointer, Meth.ktReturn, Meth.returnFfi, one f]
    | some (f :: g :: l) => simp [Meth.hasReturnPointer, Meth.ktReturn, Meth.returnFfi, compiled]

/-- Methods that are not async are called with the function of the JNI for their return type, unless
they return a boolean. -/
theorem C80_call_function_partial (m : Meth) (hs : m.isAsync = false) (hb : m.ret ≠ some [.boolean]) :
    mayCall m.callName (compiled m.ktReturn) = true := callName_ok hs hb

/-- A method that returns a boolean is called with `CallStaticByteMethod`. -/
theorem C80_boolean_broken (args : List ArgKind) (throws : Option (List Ffi)) :
    mayCall (Meth.callName ⟨false, args, some [.boolean], throws⟩)
      (compiled (Meth.ktReturn ⟨false, args, some [.boolean], throws⟩)) = false := rfl

/-- An async method that returns a value of one FFI type is called with the function for that type,
although the Kotlin function returns nothing. -/
theorem C80_async_function_broken (args : List ArgKind) (f : Ffi) (throws : Option (List Ffi)) :
    mayCall (Meth.callName ⟨true, args, some [f], throws⟩)
      (compiled (Meth.ktReturn ⟨true, args, some [f], throws⟩)) = false := by
  cases f <;> rfl

/-- `fn f(&self, a: String, b: SomeRecord) -> Result<Vec<u8>, E>` -/
def demoMeth : Meth := ⟨false, [.standard [.string], .standard [.int32, .boolean]], some [.byteArray], some [.int64, .string]⟩

example : demoMeth.jniSignature = "(JJLjava/lang/String;IZ)[B".toList := rfl

example : demoMeth.passes = [.j, .j, .l, .i, .z] ∧ demoMeth.callName = .object ∧ ArgKind.bytesRef ∉ demoMeth.args ∧
    demoMeth.isAsync = false ∧ demoMeth.ret ≠ some [.boolean] := by decide

/-! ### Methods that are not async -/

section
variable {K E L R F : Type}

/-- Whatever the Kotlin code of a method does, calling Rust functions that call methods again
included, Rust sees what it should, and the variables for results of all calls that are in progress
keep their values. -/
theorem C80_result (c : Call K E L R F) (code : Code K E L R F) (s : Thread R F) (hs : s.pending = false) :
    ∃ b, Comes code b ∧ Gives c b (method c (run code) s).2 ∧
      ((method c (run code) s).2 ≠ .aborts → (method c (run code) s).1.slots = s.slots) := by
  obtain ⟨b, hc, hk, _⟩ := run_spec code
  have := method_spec (c := c) hk s hs
  exact ⟨b, hc, this.1, fun h => (this.2 h).1⟩

/-- There is only one thing that Rust can see. -/
theorem C80_result_unique (c : Call K E L R F) (code : Code K E L R F) (b b' : Body K E) (o o' : Out R F)
    (h : Comes code b) (hg : Gives c b o) (h' : Comes code b') (hg' : Gives c b' o') : o = o' := by
  cases comes_unique h h'
  exact gives_unique hg hg'

/-- The important cases in full. The method returns, and Rust gets the value. -/
theorem C80_value (c : Call K E L R F) (code : Code K E L R F) (s : Thread R F) (hs : s.pending = false) (k : K) (l : L) (r : R)
    (hcode : Comes code (.ends (.returns k))) (ha : c.lowerArgs = .ok ()) (hf : c.found = true) (hl : c.liftArgs = .ok ())
    (hv : c.ret ≠ .void) (h1 : c.codec.lowerRet k = .ok l) (h2 : c.codec.liftRet l = .ok r) :
    (method c (run code) s).2 = .value r := by
  obtain ⟨b, hc, hg, _⟩ := C80_result c code s hs
  exact C80_result_unique c code _ _ _ _ hc hg hcode (.value ⟨ha, hf, hl⟩ hv h1 h2)

/-- The method throws an error it declares, and Rust gets the error, never the default value that the
Kotlin function returns. -/
theorem C80_error (c : Call K E L R F) (code : Code K E L R F) (s : Thread R F) (hs : s.pending = false) (e : E) (l : L) (f : F)
    (hcode : Comes code (.ends (.declared e))) (ha : c.lowerArgs = .ok ()) (hf : c.found = true) (hl : c.liftArgs = .ok ())
    (ht : c.throws = true) (h1 : c.codec.lowerErr e = .ok l) (h2 : c.codec.liftErr l = .ok f) :
    (method c (run code) s).2 = .error f := by
  obtain ⟨b, hc, hg, _⟩ := C80_result c code s hs
  exact C80_result_unique c code _ _ _ _ hc hg hcode (.error ⟨ha, hf, hl⟩ ht h1 h2)

/-- The method throws something else: Rust gets an error made of the message, or panics with it. -/
theorem C80_unexpected (c : Call K E L R F) (code : Code K E L R F) (s : Thread R F) (hs : s.pending = false) (msg : String)
    (hcode : Comes code (.ends (.other (.message msg)))) (ha : c.lowerArgs = .ok ()) (hf : c.found = true)
    (hl : c.liftArgs = .ok ()) :
    (method c (run code) s).2 = if c.throws = true ∧ c.hasFrom = true then .error (c.codec.fromUnexpected msg)
      else .panics ("Error calling UniFFI callback method: " ++ msg) := by
  obtain ⟨b, hc, hg, _⟩ := C80_result c code s hs
  have hfail : Fails c (.ends (.other (.message msg))) msg := .thrown (.other ⟨ha, hf, hl⟩) (.message msg)
  split
  · rename_i h
    exact C80_result_unique c code _ _ _ _ hc hg hcode (.converted hfail h.1 h.2)
  · rename_i h
    refine C80_result_unique c code _ _ _ _ hc hg hcode (.panics hfail ?_)
    cases ht : c.throws with
    | false => exact .inl rfl
    | true => exact .inr (by cases hh : c.hasFrom with
      | false => rfl
      | true => exact absurd ⟨ht, hh⟩ h)

/-- No exception is left pending, unless the `getMessage` of the exception that arrives in Rust
throws. -/
theorem C80_pending_partial (c : Call K E L R F) (code : Code K E L R F) (s : Thread R F) (hs : s.pending = false)
    (hm : ∀ b, Comes code b → ¬Thrown c b .badMessage) (hn : (method c (run code) s).2 ≠ .aborts) :
    (method c (run code) s).1.pending = false := by
  obtain ⟨b, hc, hk, _⟩ := run_spec code
  have := ((method_spec (c := c) hk s hs).2 hn).2.1
  cases hp : (method c (run code) s).1.pending with
  | false => rfl
  | true => exact absurd (this.mp hp) (hm b hc)

/-- No local frame is left, unless user code that converts values panics. -/
theorem C80_frames_partial (c : Call K E L R F) (code : Code K E L R F) (s : Thread R F) (hs : s.pending = false)
    (hc : c.Calm) (hcode : code.Calm) (hn : (method c (run code) s).2 ≠ .aborts) :
    (method c (run code) s).1.frames = s.frames := by
  obtain ⟨b, _, hk, hf⟩ := run_spec code
  exact ((method_spec (c := c) hk s hs).2 hn).2.2.2 hc (hf hcode)

end

/-- Numbers as results, strings as errors. Kotlin can not lower 7, Rust can not lift 9 and panics at
13. -/
def demoCodec : Codec Nat String (Nat ⊕ String) Nat String where
  lowerRet n := if n = 7 then .error (.message "seven") else .ok (.inl n)
  lowerErr e := .ok (.inr e)
  liftRet
    | .inl 9 => .err "nine"
    | .inl 13 => .panic "thirteen"
    | .inl n => .ok n
    | .inr _ => .err "a string"
  liftErr
    | .inr e => .ok e
    | .inl _ => .err "a number"
  default := .inl 0
  unit := 0
  asExc e := .message e
  fromUnexpected m := "unexpected: " ++ m

def demoCall (ret : RetKind) (throws hasFrom : Bool) : Call Nat String (Nat ⊕ String) Nat String where
  ret := ret
  throws := throws
  hasFrom := hasFrom
  codec := demoCodec
  found := true
  lowerArgs := .ok ()
  liftArgs := .ok ()

/-- A method that ends like this, without calling Rust. -/
abbrev plain (e : Ends Nat String) : Code Nat String (Nat ⊕ String) Nat String := .ends e

/-- A method that calls Rust, which calls another method; what Rust sees of it decides the result. -/
def demoCode : Code Nat String (Nat ⊕ String) Nat String :=
  .calls (demoCall .deconstruct true true) (.ends (.declared "inner")) fun o _ =>
    match o with
    | .error "inner" => .calls (demoCall .primitive true false) (.ends (.returns 9)) fun o' _ =>
        match o' with
        | .panics m => .ends (.returns m.length)
        | _ => .ends (.other .noMessage)
    | _ => .ends (.other .noMessage)

example : run demoCode {} = ({}, .ends (.returns 42)) := rfl

example : (method (demoCall .deconstruct false false) (run demoCode) {}).2 = .value 42 := rfl

example : Comes demoCode (.ends (.returns 42)) := by
  obtain ⟨b, hc, hk, _⟩ := run_spec demoCode
  have : (run demoCode ({} : Thread Nat String)).2 = b := (hk _ rfl).1
  rw [show (run demoCode ({} : Thread Nat String)).2 = .ends (.returns 42) from rfl] at this
  rw [this]
  exact hc

example : (method (demoCall .primitive true true) (run (plain (.declared "bad"))) {}).2 = .error "bad" := rfl

example : (method (demoCall .primitive true true) (run (plain (.other (.message "oops")))) {}).2 = .error "unexpected: oops" := rfl

example : (method (demoCall .void true false) (run (plain (.other (.message "oops")))) {}).2 =
    .panics "Error calling UniFFI callback method: oops" := rfl

/-- A call without panics: for `C80_frames_partial`. -/
example : Call.Calm { demoCall .primitive true true with codec := { demoCodec with liftRet := fun _ => .ok 1 } } :=
  ⟨fun _ h => (by cases h), fun _ _ h => (by cases h)⟩

/-- An exception whose `getMessage` throws leaves that exception pending while Rust goes on. -/
theorem C80_pending_broken :
    (method (demoCall .void true true) (run (plain (.other .badMessage))) {}).2 = .error "unexpected: NULL" ∧
      (method (demoCall .void true true) (run (plain (.other .badMessage))) {}).1.pending = true := ⟨rfl, rfl⟩

/-- A panic of user code that converts a returned value leaves a local frame. -/
theorem C80_frames_broken :
    (method (demoCall .primitive true true) (run (plain (.returns 13))) {}).2 = .panics "thirteen" ∧
      (method (demoCall .primitive true true) (run (plain (.returns 13))) {}).1.frames = 1 := ⟨rfl, rfl⟩

/-- The same panic ends the process if the value has several FFI values. -/
theorem C80_abort_broken : (method (demoCall .deconstruct true true) (run (plain (.returns 13))) {}).2 = .aborts := rfl

/-! ### Async methods -/

section
variable {K E L R F : Type} {s : Sys K E L R F}

/-- What the Rust future gives is what the method did, found on its object. -/
theorem C80_async_result (h : Reach s) (c : ACall K E L R F) (hc : c ∈ s.calls) (v : Sent R F) (hv : c.rust = .got v) :
    ∃ how, c.how = some how ∧ how ≠ .noObject ∧ Brings c.m how v := by
  have hi := reach_inv h c hc
  have hsent : c.co.phase = .stored ∨ c.co.phase = .over := by
    cases hp : c.co.phase with
    | no =>
      have : c.co = .none := by cases hco : c.co <;> rw [hco] at hp <;> first | rfl | cases hp
      rcases (hi.no this).2.2.2.2 with ⟨m, hm⟩ | ⟨m, hm⟩ <;> rw [hv] at hm <;> cases hm
    | held =>
      rcases (hi.held hp).2.2.2.1 with ho | ho <;> rw [hv] at ho <;> cases ho
    | storing =>
      rcases (hi.storing hp).2.1 with ho | ho <;> rw [hv] at ho <;> cases ho
    | stored => exact .inl rfl
    | over => exact .inr rfl
  obtain ⟨_, _, how, h1, h2, _, w, hb, _, hw⟩ := hi.sent (.inr hsent)
  refine ⟨how, h1, ?_, ?_⟩
  · rcases h2 with h2 | h2
    · exact h2
    · rw [hv] at h2; cases h2
  · rw [(hw (by rcases hsent with h | h <;> rw [h] <;> intro h <;> cases h)).2 v hv]
    exact hb

/-- As long as the future is not over, its object is in the map. -/
theorem C80_async_object (h : Reach s) (c : ACall K E L R F) (hc : c ∈ s.calls) (ho : c.rust.open = true) : c.h ∈ s.live :=
  (reach_inv h c hc).openLive ho

/-- The method is called at most once, something is sent at most once, the channel is not used after
that, and it is released at most once. -/
theorem C80_async_once (h : Reach s) (c : ACall K E L R F) (hc : c ∈ s.calls) :
    c.runs ≤ 1 ∧ c.sends ≤ 1 ∧ c.released ≤ 1 ∧ c.ub = false := by
  have hi := reach_inv h c hc
  have hrel : c.released ≤ 1 := by rw [hi.releases]; split <;> omega
  cases hp : c.co.phase with
  | no =>
    have : c.co = .none := by cases hco : c.co <;> rw [hco] at hp <;> first | rfl | cases hp
    have := hi.no this
    exact ⟨by omega, by omega, hrel, hi.noUb⟩
  | held =>
    have := hi.held hp
    refine ⟨?_, by omega, hrel, hi.noUb⟩
    rw [this.2.2.2.2.1]
    split <;> omega
  | storing => have := hi.sent (.inl hp); exact ⟨this.2.1, by omega, hrel, hi.noUb⟩
  | stored => have := hi.sent (.inr (.inl hp)); exact ⟨this.2.1, by omega, hrel, hi.noUb⟩
  | over => have := hi.sent (.inr (.inr hp)); exact ⟨this.2.1, by omega, hrel, hi.noUb⟩

/-- When a coroutine has ended and its future waits, then the last poll of the future was woken, and
the next poll gives the result. -/
theorem C80_async_woken (h : Reach s) (c : ACall K E L R F) (hc : c ∈ s.calls) (he : c.co = .ended) (n : Nat)
    (hw : c.rust = .waiting n) (live : Bool) :
    n ∈ c.woken ∧ ∃ v c1 c2, c.step live .poll = some c1 ∧ c1.step live .recv = some c2 ∧ c2.rust = .got v := by
  have hi := reach_inv h c hc
  have hp : c.co.phase = .over := by rw [he]; rfl
  constructor
  · rcases hi.wakes (.inr hp) n hw with h | ⟨l, h⟩
    · exact h
    · rw [he] at h; cases h
  · obtain ⟨_, _, how, _, _, _, v, _, _, hv⟩ := hi.sent (.inr (.inr hp))
    have hval : c.value = some v := (hv (by rw [hp]; intro h; cases h)).1 (by rw [hw]; rfl)
    refine ⟨v, { c with rust := .recv (n + 1) }, _, by simp only [ACall.step, hw], by simp only [ACall.step, hval]; rfl, ?_⟩
    unfold ACall.dropArc
    split <;> rfl

/-- When both sides are done and the coroutine was launched, something was sent and the channel was
released. -/
theorem C80_async_released_partial (h : Reach s) (c : ACall K E L R F) (hc : c ∈ s.calls) (he : c.co = .ended)
    (hr : c.rust.open = false) : c.sends = 1 ∧ c.released = 1 := by
  have hi := reach_inv h c hc
  refine ⟨(hi.sent (.inr (.inr (by rw [he]; rfl)))).1, ?_⟩
  rw [hi.releases, if_pos]
  rw [(hi.started (by rw [he]; intro h; cases h)).2.2, he, hr]
  rfl

/-- Steps that are left for the coroutine after the method. -/
def left : CPc R F → Nat
  | .store _ _ => 4
  | .wake _ _ => 3
  | .drop _ => 2
  | .back _ => 1
  | _ => 0

/-- A coroutine never gets stuck in generated code: when the method has ended, in whatever way, at
most four steps of it are left, and nothing stops them. -/
theorem C80_async_ends (c : ACall K E L R F) (live : Bool) :
    (∀ e, c.co = .running → ∃ c', c.step live (.finish e) = some c' ∧ left c'.co = 4) ∧
    (∀ lift, c.co = .queued → ∃ c', c.step live (.begin lift) = some c' ∧ (c'.co = .running ∨ left c'.co = 4)) ∧
    (∀ n, left c.co = n + 1 → ∃ c', c.step live (.go false) = some c' ∧ left c'.co = n ∧ (n = 0 → c'.co = .ended)) := by
  refine ⟨fun e hr => ?_, fun lift hq => ?_, fun n hn => ?_⟩
  · obtain ⟨v, last, e1, _⟩ := finish_brings ({ c with co := .running, how := some (.ends e) } : ACall K E L R F) e
    refine ⟨_, by simp only [ACall.step, hr]; rfl, ?_⟩
    rw [e1]
    rfl
  · cases live with
    | false => exact ⟨_, by simp only [ACall.step, hq]; rfl, .inr rfl⟩
    | true =>
      cases lift with
      | ok u => exact ⟨_, by simp only [ACall.step, hq]; rfl, .inl rfl⟩
      | error x => exact ⟨_, by simp only [ACall.step, hq]; rfl, .inr rfl⟩
  · cases hco : c.co with
    | none => rw [hco] at hn; cases hn
    | queued => rw [hco] at hn; cases hn
    | running => rw [hco] at hn; cases hn
    | ended => rw [hco] at hn; cases hn
    | store v last =>
      rw [hco] at hn
      cases hn
      exact ⟨_, by simp only [ACall.step, hco]; rfl, rfl, fun h => by cases h⟩
    | wake w last =>
      rw [hco] at hn
      cases hn
      exact ⟨_, by simp only [ACall.step, hco]; rfl, rfl, fun h => by cases h⟩
    | drop last =>
      rw [hco] at hn
      cases hn
      refine ⟨_, by simp only [ACall.step, hco]; rfl, ?_, fun h => by cases h⟩
      unfold ACall.dropArc
      split <;> rfl
    | back last =>
      rw [hco] at hn
      cases hn
      exact ⟨_, by simp only [ACall.step, hco]; rfl, rfl, fun _ => rfl⟩

end

/-! ### Cases -/

def doAll {K E L R F : Type} : Sys K E L R F → List (Act K E L R F) → Option (Sys K E L R F)
  | s, [] => some s
  | s, a :: as => (s.step a).bind fun s' => doAll s' as

theorem reach_doAll {K E L R F : Type} : ∀ (as : List (Act K E L R F)) (s s' : Sys K E L R F), Reach s → as.all Act.clean = true →
    doAll s as = some s' → Reach s'
  | [], s, s', h, _, e => by cases e; exact h
  | a :: as, s, s', h, hc, e => by
    simp only [doAll] at e
    rw [List.all_cons, Bool.and_eq_true] at hc
    cases e1 : s.step a with
    | none => rw [e1] at e; cases e
    | some s1 =>
      rw [e1] at e
      exact reach_doAll as s1 s' (.step s s1 a h hc.1 e1) hc.2 e

def demoMethod : AMethod Nat String (Nat ⊕ String) Nat String := ⟨demoCodec, false, true, true⟩

/-- Two calls of one object at the same time; one throws, one returns. -/
def demoActs : List (Act Nat String (Nat ⊕ String) Nat String) :=
  [.make, .start 0 demoMethod (.ok ()) (.ok ()), .start 0 demoMethod (.ok ()) (.ok ()), .call 1 (.begin (.ok ())),
    .call 0 .recv, .call 0 (.begin (.ok ())), .call 1 (.finish (.declared "bad")), .call 1 (.go false), .call 1 .recv,
    .call 0 (.finish (.returns 5)), .call 0 (.go false), .call 0 (.go false), .call 1 (.go false), .call 1 (.go false),
    .call 1 (.go false), .call 0 (.go false), .call 0 (.go false)]

/-- Both coroutines ended; one future has its error, the other waits and was woken. -/
example : ∃ s, Reach s ∧ doAll {} demoActs = some s ∧ ∃ c d, s.calls = [c, d] ∧ c.co = .ended ∧ c.rust = .waiting 0 ∧
    c.woken = [0] ∧ c.value = some (.ok (.ok 5)) ∧ d.co = .ended ∧ d.rust = .got (.ok (.error "bad")) ∧ d.released = 1 ∧
    d.rust.open = false := by
  refine ⟨_, reach_doAll demoActs {} _ .init rfl rfl, rfl, _, _, rfl, rfl, rfl, rfl, rfl, rfl, rfl, rfl, rfl⟩

def pendingActs : List (Act Nat String (Nat ⊕ String) Nat String) :=
  [.make, .start 0 demoMethod (.ok ()) (.ok ()), .call 0 (.begin (.ok ())), .call 0 (.finish (.returns 5)),
    .call 0 (.go false), .call 0 (.go false), .call 0 (.go false), .call 0 (.go true)]

/-- A native function that returns with a pending exception makes the coroutine use the sender again,
although it was consumed. (One step here is not clean.) -/
theorem C80_async_pending_broken : ∃ s c, doAll {} pendingActs = some s ∧ s.calls = [c] ∧ c.sends = 2 ∧ c.ub = true :=
  ⟨_, _, rfl, rfl, rfl, rfl⟩

def launchActs : List (Act Nat String (Nat ⊕ String) Nat String) :=
  [.make, .start 0 demoMethod (.ok ()) (.error .noMessage)]

/-- If launching the coroutine throws, the channel and the arguments are never released. -/
theorem C80_async_launch_broken : ∃ s c, Reach s ∧ doAll {} launchActs = some s ∧ s.calls = [c] ∧ c.co.done = true ∧ c.rust.open = false ∧
      c.released = 0 ∧ c.args = true ∧ ∀ live a, c.step live a = none := by
  refine ⟨_, _, reach_doAll launchActs {} _ .init rfl rfl, rfl, rfl, rfl, rfl, rfl, rfl, fun live a => ?_⟩
  cases a <;> rfl

def cancelActs : List (Act Nat String (Nat ⊕ String) Nat String) :=
  [.make, .start 0 demoMethod (.ok ()) (.ok ()), .call 0 .recv, .call 0 .dropFuture, .call 0 (.begin (.ok ())),
    .call 0 (.finish (.returns 5))]

/-- The comment in the Kotlin code says that dropping the Rust future cancels the coroutine. The
method is called after it was dropped. -/
theorem C80_async_cancel_broken : ∃ s c, Reach s ∧ doAll {} cancelActs = some s ∧ s.calls = [c] ∧ c.rust = .dropped ∧ c.runs = 1 ∧
      c.how = some (.ends (.returns 5)) :=
  ⟨_, _, reach_doAll cancelActs {} _ .init rfl rfl, rfl, rfl, rfl, rfl, rfl⟩

def argsActs : List (Act Nat String (Nat ⊕ String) Nat String) :=
  [.make, .start 0 demoMethod (.ok ()) (.ok ()), .call 0 .recv, .call 0 .dropFuture, .free 0,
    .call 0 (.begin (.ok ())), .call 0 (.go false), .call 0 (.go false), .call 0 (.go false),
    .call 0 (.go false)]

/-- If the future and the object are dropped before the coroutine begins, the arguments are never
lifted, so what they hold is not released. -/
theorem C80_async_args_broken : ∃ s c, Reach s ∧ doAll {} argsActs = some s ∧ s.calls = [c] ∧ c.co = .ended ∧
      c.released = 1 ∧ c.args = true ∧ ∀ live a, c.step live a = none := by
  refine ⟨_, _, reach_doAll argsActs {} _ .init rfl rfl, rfl, rfl, rfl, rfl, rfl, fun live a => ?_⟩
  cases a <;> rfl

end Verif.Props.JniCallback
