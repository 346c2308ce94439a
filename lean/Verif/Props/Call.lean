import Verif.Call.Ffi
/-
C20-C23: calls in both directions report exactly what happened.
-/
namespace Verif.Props.Call
open Verif Verif.Wire Verif.Call

/-! ### C20 -/

/-- What the caller of `rust_call` is told, for each thing the called code can do. -/
inductive Report (α : Type) where
  | value (a : α)
  | error (buf : Bytes)
  | unexpected (msg : String)

/-- C20. The outcome of running some code, in words of the specification. -/
def reportOf {α : Type} : Eff (Except CallError α) → Option (Report α)
  | .ret (.ok v) => some (.value v)
  | .ret (.error (.error b)) => some (.error b)
  | .ret (.error (.internal m)) => some (.unexpected m)
  | .panic (.str s) => some (.unexpected s)
  | .panic (.string s) => some (.unexpected s)
  | .panic .other => some (.unexpected "Unknown panic!")
  | .ub => none

/-- C20. `rust_call` returns normally whatever the called code does (short of undefined
behaviour), and return value and status say exactly what happened. -/
theorem C20_rust_call {α : Type} (dflt : α) (st : Status) (callback : Eff (Except CallError α)) :
    rustCall lowerString dflt st callback =
      match reportOf callback with
      | some (.value v) => .ret (v, st)
      | some (.error b) => .ret (dflt, ⟨.error, b⟩)
      | some (.unexpected m) => .ret (dflt, ⟨.unexpected, utf8 m⟩)
      | none => .ub := by
  rcases callback with (((b | m) | v)) | (s | s | _) | _ <;>
    simp [rustCall, rustCallWithOutStatus, catchUnwind, Eff.bind, reportOf, lowerString,
      Payload.message]

/-- C20. The three outcomes cannot be confused: with a fresh status, success is reported exactly
for a returned value, `Error` exactly for a declared error, `UnexpectedError` exactly for an
internal error or a panic. -/
theorem C20_exclusive {α : Type} (dflt v : α) (st' : Status) (callback : Eff (Except CallError α))
    (h : rustCall lowerString dflt {} callback = .ret (v, st')) :
    (st'.code = .success ↔ callback = .ret (.ok v) ∧ st' = {}) ∧
    (st'.code = .error ↔ callback = .ret (.error (.error st'.buf)) ∧ v = dflt) ∧
    (st'.code = .unexpected ↔ (∃ m, callback = .ret (.error (.internal m)) ∧ st'.buf = utf8 m ∧ v = dflt)
      ∨ ∃ p, callback = .panic p ∧ st'.buf = utf8 p.message ∧ v = dflt) ∧
    st'.code ≠ .cancelled := by
  rw [C20_rust_call] at h
  rcases callback with (((b | m) | w)) | (s | s | _) | _ <;> simp [reportOf] at h <;>
    obtain ⟨rfl, rfl⟩ := h <;> simp [Payload.message]

/-- C20. If even making the panic message panics, the call still returns: unexpected error, and
the buffer the caller put in the status is left alone. -/
theorem C20_message_panic {α : Type} (lowerMsg : String → Eff Bytes) (hub : ∀ s, lowerMsg s ≠ .ub)
    (dflt : α) (st : Status) (p : Payload) :
    ∃ b, rustCall lowerMsg dflt st (.panic p : Eff (Except CallError α)) =
        .ret (dflt, ⟨.unexpected, b⟩) ∧
      (lowerMsg p.message = .ret b ∨ (∃ q, lowerMsg p.message = .panic q) ∧ b = st.buf) := by
  cases h : lowerMsg p.message with
  | ret b => exact ⟨b, by simp [rustCall, rustCallWithOutStatus, catchUnwind, Eff.bind, h], .inl rfl⟩
  | panic q =>
    exact ⟨st.buf, by simp [rustCall, rustCallWithOutStatus, catchUnwind, Eff.bind, h],
      .inr ⟨⟨q, rfl⟩, rfl⟩⟩
  | ub => exact absurd h (hub _)

/-- C20. The message of an internal error is made outside the guard: there a panic does escape. -/
theorem C20_internal_message_unguarded {α : Type} (lowerMsg : String → Eff Bytes) (dflt : α)
    (st : Status) (m : String) (q : Payload) (h : lowerMsg m = .panic q) :
    rustCall lowerMsg dflt st (.ret (.error (.internal m)) : Eff (Except CallError α)) = .panic q := by
  simp [rustCall, rustCallWithOutStatus, catchUnwind, Eff.bind, h]

/-- C20. `try_rust_call` keeps value and status apart. -/
theorem C20_try_rust_call {α : Type} (callback : Eff (Except CallError α)) :
    tryRustCall lowerString callback =
      match reportOf callback with
      | some (.value v) => .ret (.ok v)
      | some (.error b) => .ret (.error ⟨.error, b⟩)
      | some (.unexpected m) => .ret (.error ⟨.unexpected, utf8 m⟩)
      | none => .ub := by
  rcases callback with (((b | m) | v)) | (s | s | _) | _ <;>
    simp [tryRustCall, rustCallWithOutStatus, catchUnwind, Eff.bind, reportOf, lowerString,
      Payload.message]

example : rustCall lowerString 0 {} (.panic (.string "boom")) =
    .ret (0, ⟨.unexpected, [98, 111, 111, 109]⟩) := by decide +kernel
example : rustCall (fun _ => .panic .other) 0 {} (.panic (.string "boom")) =
    .ret (0, ⟨.unexpected, []⟩) := by decide +kernel

/-! ### C21 -/

/-- Three arguments; the second fails in one of the two lists. -/
def demoArgs (second : Eff (Except (AnyErr Nat) Nat)) : List (Arg Nat Nat) :=
  [⟨"a", .ret (.ok 1)⟩, ⟨"b", second⟩, ⟨"c", .ret (.ok 3)⟩]

def demoFn : Function Nat Nat Nat := ⟨true, fun vs => .ret (.ok vs.sum)⟩

section
variable {V E R W : Type} (lower : R → Eff W) (lowerError : E → Eff Bytes) (dflt : W)
  (f : Function V E R) (args : List (Arg V E)) (st : Status)

/-- C21. The exported function runs if and only if every argument lifts. -/
theorem C21_runs_iff_all_lift :
    (∃ vs, Event.call vs ∈ (scaffolding lower lowerError dflt f args st).1) ↔
      ∀ a ∈ args, ∃ v, a.lift = .ret (.ok v) := by
  constructor
  · rintro ⟨ws, h⟩
    rcases lifts_or_first args with ⟨vs, hs⟩ | ⟨pre, a, post, vs, rfl, h1, h2⟩
    · exact hs.mem
    · exfalso
      simp only [scaffolding, scaffoldingBody] at h
      cases hl : a.lift with
      | ret r =>
        cases r with
        | ok v => exact h2 v hl
        | error e => simp [liftArgs_fail a e post hl pre vs h1] at h
      | panic p => simp [liftArgs_panic a p post hl pre vs h1] at h
      | ub => simp [liftArgs_ub a post hl pre vs h1] at h
  · intro h
    rcases lifts_or_first args with ⟨vs, hs⟩ | ⟨pre, a, post, vs, rfl, h1, h2⟩
    · exact ⟨vs, by simp [scaffolding, scaffoldingBody, liftArgs_ok _ _ hs]⟩
    · obtain ⟨v, hv⟩ := h a (by simp)
      exact absurd hv (h2 v)

/-- C21. When all arguments lift they are lifted once each in declaration order, then the function
runs exactly once on exactly those values, and its outcome is what is reported. -/
theorem C21_all_lift (vs : List V) (h : Lifts args vs) :
    scaffolding lower lowerError dflt f args st =
      (args.map (fun a => Event.lift a.name) ++ [.call vs],
        rustCall lowerString dflt st ((f.run vs).bind (lowerReturn lower lowerError))) := by
  simp [scaffolding, scaffoldingBody, liftArgs_ok _ _ h]

/-- C21. When an argument fails, the arguments after it are not lifted, the function does not run,
and the report is about that argument: the function's own error if it has that type, otherwise an
internal error naming the argument. -/
theorem C21_first_failure (pre post : List (Arg V E)) (a : Arg V E) (vs : List V) (e : AnyErr E)
    (hpre : Lifts pre vs) (ha : a.lift = .ret (.error e)) :
    scaffolding lower lowerError dflt f (pre ++ a :: post) st =
      (pre.map (fun a => Event.lift a.name) ++ [.lift a.name],
        match f.throws, e.user with
        | true, some u => rustCall lowerString dflt st ((lowerError u).bind fun b =>
            .ret (.error (.error b)))
        | _, _ => .ret (dflt, ⟨.unexpected,
            utf8 ("Failed to convert arg '" ++ a.name ++ "':\n" ++ e.text)⟩)) := by
  rcases hu : f.throws with _ | _ <;> rcases hv : e.user with _ | u <;>
  simp [scaffolding, scaffoldingBody, liftArgs_fail a e post ha pre vs hpre, handleFailedLift,
    hu, hv, rustCall, rustCallWithOutStatus, catchUnwind, Eff.bind, internalLiftError, lowerString]

/-- C21. A panic while lifting is caught and reported, and the function does not run. -/
theorem C21_lift_panic (pre post : List (Arg V E)) (a : Arg V E) (vs : List V) (p : Payload)
    (hpre : Lifts pre vs) (ha : a.lift = .panic p) :
    scaffolding lower lowerError dflt f (pre ++ a :: post) st =
      (pre.map (fun a => Event.lift a.name) ++ [.lift a.name],
        .ret (dflt, ⟨.unexpected, utf8 p.message⟩)) := by
  simp [scaffolding, scaffoldingBody, liftArgs_panic a p post ha pre vs hpre, 
    rustCall, rustCallWithOutStatus, catchUnwind, Eff.bind, lowerString]

end

example : Lifts (demoArgs (.ret (.ok 2))) [1, 2, 3] := ⟨rfl, rfl, rfl, trivial⟩
example : scaffolding (fun n => .ret n) (fun n => .ret [UInt8.ofNat n]) 0 demoFn
    (demoArgs (.ret (.ok 2))) {} =
    ([.lift "a", .lift "b", .lift "c", .call [1, 2, 3]], .ret (6, {})) := by decide +kernel
example : scaffolding (fun n => .ret n) (fun n => .ret [UInt8.ofNat n]) 0 demoFn
    (demoArgs (.ret (.error ⟨some 7, "bad"⟩))) {} =
    ([.lift "a", .lift "b"], .ret (0, ⟨.error, [7]⟩)) := by decide +kernel

/-! ### C22 -/

/-- What the caller in the foreign language should observe, given what the Rust function did. -/
def expected (L : Lang) (m : Messages) (ret : Option Ty) : Eff (Except Val Val) → Seen
  | .ret (.ok r) => if ret.isSome then .value (repr L r) else .void
  | .ret (.error e) => .threw (repr L e)
  | .panic p => .internal (if p.message = "" then m.noMessage else p.message)
  | .ub => .fatal

/-- A value that can be passed at this type: well typed, within the limits of the language (`P`),
small enough to be serialized. -/
structure Passable (P : Ty → Val → Prop) (env : Env) (fuel : Nat) (t : Ty) (v : Val) : Prop where
  typed : HasTy env t v
  fits : Deep P env t v
  lowers : ∃ x, lower env fuel t v = .ret x
  depth : v.depth ≤ fuel

/-- As `Passable`, for an error, which is always serialized. -/
structure Throwable (P : Ty → Val → Prop) (env : Env) (fuel : Nat) (t : Ty) (v : Val) : Prop where
  typed : HasTy env t v
  fits : Deep P env t v
  lowers : ∃ bs, write env t v = some bs
  depth : v.depth ≤ fuel

/-- The arguments of a call are passable, and Rust can read their timestamps. -/
def ArgsOk (P : Ty → Val → Prop) (env : Env) (fuel : Nat) : List (String × Ty) → List Val → Prop
  | [], [] => True
  | a :: as, v :: vs => (Passable P env fuel a.2 v ∧ v.All TimeKept) ∧ ArgsOk P env fuel as vs
  | _, _ => False

/-- The outcome of the Rust function respects its signature. -/
def OutcomeOk (P : Ty → Val → Prop) (env : Env) (fuel : Nat) (sig : Sig) :
    Eff (Except Val Val) → Prop
  | .ret (.ok r) => ∀ t, sig.ret = some t → Passable P env fuel t r
  | .ret (.error e) => ∃ t, sig.throws = some t ∧ Throwable P env fuel t e
  | .panic _ => True
  | .ub => False

theorem args_lift {L : Lang} {env : Env} {P : Ty → Val → Prop} (hs : Scalars L)
    (hW : WritesLike L env P) (hc : CustomLawful env) (fuel : Nat) (user : ReadErr → Option Val)
    (text : ReadErr → String) : ∀ (args : List (String × Ty)) (vs : List Val),
    ArgsOk P env fuel args vs → ∃ xs, flowerAll L env fuel args (reprAll L vs) = some xs ∧
      Lifts (List.zipWith (rustArg env fuel user text) args xs) vs ∧ xs.length = args.length
  | [], [], _ => ⟨[], rfl, trivial, rfl⟩
  | a :: as, v :: vs, ⟨⟨h, hk⟩, h2⟩ => by
    obtain ⟨xs, e1, e2, e3⟩ := args_lift hs hW hc fuel user text as vs h2
    obtain ⟨x, hx⟩ := h.lowers
    refine ⟨x :: xs, ?_, ⟨?_, e2⟩, by simp [e3]⟩
    · simp [flowerAll, reprAll, flower_lower hs hW fuel _ _ _ h.typed h.fits hx h.depth, e1]
    · simp [rustArg, tryLift_lower env hc fuel _ _ _ h.typed hk hx h.depth, Eff.bind]
  | [], _ :: _, h => by cases h
  | _ :: _, [], h => by cases h

theorem utf8_eq_nil {s : String} : utf8 s = [] ↔ s = "" := by
  constructor
  · intro h
    have h1 := fromUtf8_utf8 s
    have h2 := fromUtf8_utf8 ""
    have h3 : utf8 "" = [] := by decide +kernel
    rw [h] at h1; rw [h3] at h2; rw [h1] at h2; exact Option.some.inj h2
  · rintro rfl; decide +kernel

theorem names_zip {env : Env} {fuel : Nat} {user : ReadErr → Option Val} {text : ReadErr → String} :
    ∀ (args : List (String × Ty)) (xs : List Ffi), xs.length = args.length →
    (List.zipWith (rustArg env fuel user text) args xs).map (fun a => a.name) = args.map Prod.fst
  | [], [], _ => rfl
  | a :: as, x :: xs, h => by
    simp only [List.zipWith_cons_cons, List.map_cons]
    rw [names_zip as xs (by simpa using h)]; rfl
  | [], _ :: _, h => by simp at h
  | _ :: _, [], h => by simp at h

/-- C22. End to end, for any language whose converters agree with Rust's: the Rust function is
called once, on exactly the values the caller passed, and the caller observes exactly its outcome:
its value, its error as the declared exception, or its panic as an internal error with the panic
message. -/
theorem C22_end_to_end (L : Lang) (m : Messages) (env : Env) (PW PR : Ty → Val → Prop)
    (hs : Scalars L) (hW : WritesLike L env PW) (hR : ReadsLike L env PR)
    (hc : CustomLawful env) (fuel : Nat) (user : ReadErr → Option Val) (text : ReadErr → String)
    (sig : Sig) (run : List Val → Eff (Except Val Val)) (vs : List Val)
    (ha : ArgsOk PW env fuel sig.args vs) (ho : OutcomeOk PR env fuel sig (run vs)) :
    callFrom L m env fuel user text sig run (reprAll L vs) =
      (sig.args.map (fun a => Event.lift a.1) ++ [.call vs], expected L m sig.ret (run vs)) := by
  obtain ⟨xs, e1, e2, e3⟩ := args_lift hs hW hc fuel user text sig.args vs ha
  unfold callFrom
  rw [e1]
  dsimp only
  rw [C21_all_lift _ _ _ _ _ _ vs e2]
  have hn : List.map (fun a => Event.lift a.name)
      (List.zipWith (rustArg env fuel user text) sig.args xs) =
      (sig.args.map (fun a => (Event.lift a.1 : Event Val))) := by
    have := congrArg (List.map (fun s => (Event.lift s : Event Val)))
      (names_zip (env := env) (fuel := fuel) (user := user) (text := text) sig.args xs e3)
    simpa [List.map_map, Function.comp_def] using this
  rw [hn]
  dsimp only
  cases hr : run vs with
  | ub => rw [hr] at ho; exact ho.elim
  | panic p =>
    rw [C20_rust_call]
    by_cases hp : p.message = ""
    · have hu : utf8 "" = [] := by decide +kernel
      rcases p with s | s | _ <;>
        simp_all [Eff.bind, reportOf, checkStatus, Code.toInt, expected, Payload.message]
    · have hu : utf8 p.message ≠ [] := fun h => hp (utf8_eq_nil.1 h)
      have hl : 0 < (utf8 p.message).length := List.length_pos_iff.2 hu
      rcases p with s | s | _ <;>
        simp_all [Eff.bind, reportOf, checkStatus, Code.toInt, expected, Payload.message,
          fromUtf8_utf8]
  | ret r =>
    rw [hr] at ho
    cases r with
    | ok r =>
      cases ht : sig.ret with
      | none =>
        have e : Eff.bind (.ret (.ok r)) (lowerReturn (lowerRet env fuel none)
            (lowerErr env sig.throws)) = .ret (.ok .unit) := by
          simp [Eff.bind, lowerReturn, lowerRet]
        rw [e, C20_rust_call]
        simp [reportOf, checkStatus, Code.toInt, expected]
      | some t =>
        have hp := ho t ht
        obtain ⟨x, hx⟩ := hp.lowers
        have e : Eff.bind (.ret (.ok r)) (lowerReturn (lowerRet env fuel (some t))
            (lowerErr env sig.throws)) = .ret (.ok x) := by
          simp [Eff.bind, lowerReturn, lowerRet, hx]
        rw [e, C20_rust_call]
        simp [reportOf, checkStatus, Code.toInt, expected,
          flift_lower hs hR fuel t r x hp.typed hp.fits hx hp.depth]
    | error e =>
      obtain ⟨t, ht, hp⟩ := ho
      obtain ⟨bs, hb⟩ := hp.lowers
      have hf : flift L env fuel t bs = .ok (repr L e) [] :=
        Props.Foreign.flift_of_fread (by
          simpa using fread_write hR e t bs [] fuel hp.typed hp.fits hb hp.depth)
      have e' : Eff.bind (.ret (.error e)) (lowerReturn (lowerRet env fuel sig.ret)
          (lowerErr env sig.throws)) = .ret (.error (.error bs)) := by
        simp [Eff.bind, lowerReturn, lowerErr, ht, hb]
      rw [e', C20_rust_call]
      simp [reportOf, checkStatus, Code.toInt, expected, ht, hf]

/-- C22. Reading `expected` backwards: each channel is used for exactly one kind of outcome. -/
theorem C22_channels (L : Lang) (m : Messages) (env : Env) (PW PR : Ty → Val → Prop)
    (hs : Scalars L) (hW : WritesLike L env PW) (hR : ReadsLike L env PR)
    (hc : CustomLawful env) (fuel : Nat) (user : ReadErr → Option Val) (text : ReadErr → String)
    (sig : Sig) (run : List Val → Eff (Except Val Val)) (vs : List Val)
    (ha : ArgsOk PW env fuel sig.args vs) (ho : OutcomeOk PR env fuel sig (run vs)) :
    let seen := (callFrom L m env fuel user text sig run (reprAll L vs)).2
    ((seen = .void ∨ ∃ v, seen = .value v) ↔ ∃ r, run vs = .ret (.ok r)) ∧
    ((∃ e, seen = .threw e) ↔ ∃ e, run vs = .ret (.error e)) ∧
    ((∃ msg, seen = .internal msg) ↔ ∃ p, run vs = .panic p) ∧
    seen ≠ .badValue ∧ seen ≠ .fatal := by
  rw [C22_end_to_end L m env PW PR hs hW hR hc fuel user text sig run vs ha ho]
  cases hr : run vs with
  | ub => rw [hr] at ho; exact ho.elim
  | panic p => simp [expected]
  | ret r =>
    cases r with
    | ok r => cases ht : sig.ret <;> simp [expected]
    | error e => simp [expected]

/-- C22. When the lifting of an argument fails on the Rust side (the user's conversion of a custom
type refused it), the function does not run. The caller sees the declared exception if the refusal
was one of the function's own errors, otherwise an internal error naming the argument. -/
theorem C22_bad_argument (L : Lang) (m : Messages) (env : Env) (PW PR : Ty → Val → Prop)
    (hs : Scalars L) (hW : WritesLike L env PW) (hR : ReadsLike L env PR)
    (hc : CustomLawful env) (fuel : Nat) (user : ReadErr → Option Val) (text : ReadErr → String)
    (sig : Sig) (run : List Val → Eff (Except Val Val)) (vs : List Val) (ps : List Val) (p : Val)
    (pre post : List (String × Ty)) (name : String) (t : Ty) (x : Ffi) (xs : List Ffi) (e : ReadErr)
    (hsig : sig.args = pre ++ (name, t) :: post)
    (hpre : ArgsOk PW env fuel pre vs) (hx : flower L env fuel t p = some x)
    (hpost : flowerAll L env fuel post ps = some xs)
    (hbad : tryLift env fuel t x = .ret (.error e))
    (hu : ∀ u, user e = some u → sig.throws.isSome →
      ∃ te, sig.throws = some te ∧ Throwable PR env fuel te u) :
    callFrom L m env fuel user text sig run (reprAll L vs ++ p :: ps) =
      (pre.map (fun a => Event.lift a.1) ++ [.lift name],
        match sig.throws, user e with
        | some _, some u => .threw (repr L u)
        | _, _ => .internal ("Failed to convert arg '" ++ name ++ "':\n" ++ text e)) := by
  obtain ⟨ys, e1, e2, e3⟩ := args_lift hs hW hc fuel user text pre vs hpre
  have hall : ∀ (pre : List (String × Ty)) (ws : List Val) (ys : List Ffi),
      flowerAll L env fuel pre ws = some ys →
      flowerAll L env fuel (pre ++ (name, t) :: post) (ws ++ p :: ps) = some (ys ++ x :: xs) := by
    intro pre
    induction pre with
    | nil =>
      intro ws ys h
      cases ws with
      | nil => simp [flowerAll] at h; subst h; simp [flowerAll, hx, hpost]
      | cons _ _ => simp [flowerAll] at h
    | cons a as ih =>
      intro ws ys h
      cases ws with
      | nil => simp [flowerAll] at h
      | cons w ws =>
        simp only [flowerAll, Option.bind_eq_some_iff, Option.map_eq_some_iff] at h
        obtain ⟨z, hz, zs, hzs, rfl⟩ := h
        simp [flowerAll, hz, ih ws zs hzs]
  have hzip : List.zipWith (rustArg env fuel user text) (pre ++ (name, t) :: post) (ys ++ x :: xs)
      = List.zipWith (rustArg env fuel user text) pre ys ++
        rustArg env fuel user text (name, t) x ::
          List.zipWith (rustArg env fuel user text) post xs := by
    rw [List.zipWith_append (by omega)]
    rfl
  have hn : List.map (fun a => Event.lift a.name)
      (List.zipWith (rustArg env fuel user text) pre ys) =
      (pre.map (fun a => (Event.lift a.1 : Event Val))) := by
    have := congrArg (List.map (fun s => (Event.lift s : Event Val)))
      (names_zip (env := env) (fuel := fuel) (user := user) (text := text) pre ys e3)
    simpa [List.map_map, Function.comp_def] using this
  have hl : (rustArg env fuel user text (name, t) x).lift =
      .ret (.error { user := user e, text := text e }) := by
    simp [rustArg, hbad, Eff.bind]
  unfold callFrom
  rw [hsig, hall pre _ _ e1]
  dsimp only
  rw [hzip, C21_first_failure _ _ _ _ _ _ _ _ vs _ e2 hl, hn]
  have key : ∀ msg : String, msg ≠ "" →
      ∀ k, checkStatus L m env fuel sig.throws (Code.toInt .unexpected) (utf8 msg) k =
        .internal msg := by
    intro msg h k
    have hl : 0 < (utf8 msg).length := List.length_pos_iff.2 (fun h2 => h (utf8_eq_nil.1 h2))
    simp [checkStatus, Code.toInt, hl, fromUtf8_utf8]
  have hmsg : "Failed to convert arg '" ++ name ++ "':\n" ++ text e ≠ "" := by
    intro h
    have := congrArg String.length h
    simp [String.length_append] at this
  cases hth : sig.throws with
  | none => 
    rw [hth] at key
    simp [rustArg, key _ hmsg]
  | some te =>
    cases hus : user e with
    | none =>
      rw [hth] at key
      simp [rustArg, key _ hmsg]
    | some u =>
      obtain ⟨te', h1, hp⟩ := hu u hus (by simp [hth])
      rw [hth] at h1; cases h1
      obtain ⟨bs, hb⟩ := hp.lowers
      have hf : flift L env fuel te bs = .ok (repr L u) [] :=
        Props.Foreign.flift_of_fread (by
          simpa using fread_write hR u te bs [] fuel hp.typed hp.fits hb hp.depth)
      have e' : Eff.bind (lowerErr env (some te) u) (fun b =>
          (.ret (.error (.error b)) : Eff (Except CallError Ffi))) = .ret (.error (.error bs)) := by
        simp [Eff.bind, lowerErr, hb]
      simp only [Option.isSome_some, e']
      rw [C20_rust_call]
      simp [rustArg, reportOf, checkStatus, Code.toInt, hf]

/-- What the status of a call means to the foreign caller, by its number. -/
inductive StatusMeaning (L : Lang) (m : Messages) (env : Env) (fuel : Nat) (throws : Option Ty)
    (buf : Bytes) (k : Seen) : Int → Seen → Prop
  | success : StatusMeaning L m env fuel throws buf k 0 k
  | declared (t : Ty) (e : Val) (rest : Bytes) : throws = some t →
    flift L env fuel t buf = .ok e rest → StatusMeaning L m env fuel throws buf k 1 (.threw e)
  | unreadable (t : Ty) : throws = some t → (∀ e rest, flift L env fuel t buf ≠ .ok e rest) →
    StatusMeaning L m env fuel throws buf k 1 .badValue
  | undeclared : throws = none → StatusMeaning L m env fuel throws buf k 1 (.internal m.noHandler)
  | panicked (s : String) : s ≠ "" → buf = utf8 s →
    StatusMeaning L m env fuel throws buf k 2 (.internal s)
  | silent : buf = [] → StatusMeaning L m env fuel throws buf k 2 (.internal m.noMessage)
  | garbled : (∀ s, buf ≠ utf8 s) → StatusMeaning L m env fuel throws buf k 2 .badValue
  | cancelled : StatusMeaning L m env fuel throws buf k 3
      (if m.cancelledFatal then .fatal else .internal m.badCode)
  | other (code : Int) : code < 0 ∨ 3 < code →
    StatusMeaning L m env fuel throws buf k code (.internal m.badCode)

/-- C22. The status check, for every status number and every error buffer: the result is used
exactly when the status says success; an error is the declared exception; everything else is an
internal error. In particular a cancelled call, an undeclared error and an unknown status are
never taken for success. -/
theorem C22_status (L : Lang) (m : Messages) (env : Env) (fuel : Nat) (throws : Option Ty)
    (code : Int) (buf : Bytes) (k : Seen) :
    StatusMeaning L m env fuel throws buf k code
      (checkStatus L m env fuel throws code buf k) := by
  unfold checkStatus
  split
  · subst code; exact .success
  split
  · subst code
    cases throws with
    | none => exact .undeclared rfl
    | some t =>
      dsimp only
      split
      · rename_i e rest h; exact .declared t e rest rfl h
      · rename_i h; exact .unreadable t rfl h
  split
  · subst code
    split
    · rename_i hb
      split
      · rename_i s hs
        have := utf8_of_fromUtf8 hs
        refine .panicked s (fun h => ?_) this.symm
        subst h
        rw [utf8_eq_nil.2 rfl] at this
        simp [← this] at hb
      · rename_i hs
        refine .garbled fun s h => ?_
        rw [h, fromUtf8_utf8] at hs; cases hs
    · rename_i hb
      exact .silent (List.eq_nil_of_length_eq_zero (by omega))
  split
  · rename_i h
    obtain ⟨rfl, h⟩ := h
    have := StatusMeaning.cancelled (L := L) (m := m) (env := env) (fuel := fuel)
      (throws := throws) (buf := buf) (k := k)
    rwa [if_pos h] at this
  · rename_i h0 h1 h2 h3
    by_cases h4 : code = 3
    · subst h4
      have := StatusMeaning.cancelled (L := L) (m := m) (env := env) (fuel := fuel)
        (throws := throws) (buf := buf) (k := k)
      rwa [if_neg (fun h => h3 ⟨rfl, h⟩)] at this
    · exact .other code (by omega)

/-- Each number has one meaning: `C22_status` leaves no choice. -/
theorem C22_status_unique (L : Lang) (m : Messages) (env : Env) (fuel : Nat) (throws : Option Ty)
    (code : Int) (buf : Bytes) (k s s' : Seen)
    (h : StatusMeaning L m env fuel throws buf k code s)
    (h' : StatusMeaning L m env fuel throws buf k code s') : s = s' := by
  have hu : utf8 "" = [] := utf8_eq_nil.2 rfl
  cases h with
  | success => cases h' with
    | success => rfl
    | other _ h => omega
  | declared t e rest ht he => cases h' with
    | declared t' e' rest' ht' he' =>
      rw [ht] at ht'; cases ht'; rw [he] at he'; cases he'; rfl
    | unreadable t' ht' he' => rw [ht] at ht'; cases ht'; exact absurd he (he' e rest)
    | undeclared ht' => rw [ht] at ht'; cases ht'
    | other _ h => omega
  | unreadable t ht he => cases h' with
    | declared t' e' rest' ht' he' => rw [ht] at ht'; cases ht'; exact absurd he' (he _ _)
    | unreadable t' ht' he' => rfl
    | undeclared ht' => rw [ht] at ht'; cases ht'
    | other _ h => omega
  | undeclared ht => cases h' with
    | declared t' e' rest' ht' he' => rw [ht] at ht'; cases ht'
    | unreadable t' ht' he' => rw [ht] at ht'; cases ht'
    | undeclared ht' => rfl
    | other _ h => omega
  | panicked s hs hb => cases h' with
    | panicked s' hs' hb' =>
      have := congrArg fromUtf8 (hb.symm.trans hb')
      rw [fromUtf8_utf8, fromUtf8_utf8] at this
      cases this; rfl
    | silent hb' => exact absurd (utf8_eq_nil.1 (hb.symm.trans hb')) hs
    | garbled hb' => exact absurd hb (hb' s)
    | other _ h => omega
  | silent hb => cases h' with
    | panicked s' hs' hb' => exact absurd (utf8_eq_nil.1 (hb'.symm.trans hb)) hs'
    | silent hb' => rfl
    | garbled hb' => exact absurd (hb.trans hu.symm) (hb' "")
    | other _ h => omega
  | garbled hb => cases h' with
    | panicked s' hs' hb' => exact absurd hb' (hb s')
    | silent hb' => exact absurd (hb'.trans hu.symm) (hb "")
    | garbled hb' => rfl
    | other _ h => omega
  | cancelled => cases h' with
    | cancelled => rfl
    | other _ h => omega
  | other _ h => cases h' with
    | other _ h => rfl
    | _ => omega

theorem python_scalars : Scalars Python.lang := ⟨fun _ => rfl, fun _ => rfl, fun _ => rfl, fun _ => rfl, fun _ => rfl⟩
theorem kotlin_scalars (lossy : Bytes → String) : Scalars (Kotlin.lang lossy) :=
  ⟨fun _ => rfl, fun _ => rfl, fun _ => rfl, fun _ => rfl, fun _ => rfl⟩
theorem swift_scalars (lossy : Bytes → String) : Scalars (Swift.lang lossy) :=
  ⟨fun _ => rfl, fun _ => rfl, fun _ => rfl, fun _ => rfl, fun _ => rfl⟩
theorem ruby_scalars : Scalars Ruby.lang := ⟨fun _ => rfl, fun _ => rfl, fun _ => rfl, fun _ => rfl, fun _ => rfl⟩

/-- Values a language can send, values it can receive (as in C12-C15). -/
def Sends (L : Lang) (exact : Ty → Val → Prop) (env : Env) : Ty → Val → Prop :=
  fun t v => exact t v ∧ Compound L env true t v
def Receives (L : Lang) (exact : Ty → Val → Prop) (env : Env) : Ty → Val → Prop :=
  fun t v => exact t v ∧ Compound L env false t v

section
variable (env : Env) (hc : CustomLawful env) (fuel : Nat) (user : ReadErr → Option Val)
  (text : ReadErr → String) (sig : Sig) (run : List Val → Eff (Except Val Val)) (vs : List Val)

include hc

/-- C22 for Python. -/
theorem C22_python (ha : ArgsOk (Sends Python.lang Python.Exact env) env fuel sig.args vs)
    (ho : OutcomeOk (Receives Python.lang Python.Exact env) env fuel sig (run vs)) :
    callFrom Python.lang pythonMessages env fuel user text sig run (reprAll Python.lang vs) =
      (sig.args.map (fun a => Event.lift a.1) ++ [.call vs],
        expected Python.lang pythonMessages sig.ret (run vs)) :=
  C22_end_to_end _ _ env _ _ python_scalars (Python.writesLike env) (Python.readsLike env false) hc
    fuel user text sig run vs ha ho

/-- C22 for Kotlin. -/
theorem C22_kotlin (lossy : Bytes → String)
    (ha : ArgsOk (Sends (Kotlin.lang lossy) Kotlin.Exact env) env fuel sig.args vs)
    (ho : OutcomeOk (Receives (Kotlin.lang lossy) Kotlin.Exact env) env fuel sig (run vs)) :
    callFrom (Kotlin.lang lossy) kotlinMessages env fuel user text sig run
        (reprAll (Kotlin.lang lossy) vs) =
      (sig.args.map (fun a => Event.lift a.1) ++ [.call vs],
        expected (Kotlin.lang lossy) kotlinMessages sig.ret (run vs)) :=
  C22_end_to_end _ _ env _ _ (kotlin_scalars lossy) (Kotlin.writesLike lossy env)
    (Kotlin.readsLike lossy env false) hc fuel user text sig run vs ha ho

/-- C22 for Swift, apart from times and durations (as in C14). -/
theorem C22_swift (lossy : Bytes → String)
    (ha : ArgsOk (Sends (Swift.lang lossy) Swift.Exact env) env fuel sig.args vs)
    (ho : OutcomeOk (Receives (Swift.lang lossy) Swift.Exact env) env fuel sig (run vs)) :
    callFrom (Swift.lang lossy) swiftMessages env fuel user text sig run
        (reprAll (Swift.lang lossy) vs) =
      (sig.args.map (fun a => Event.lift a.1) ++ [.call vs],
        expected (Swift.lang lossy) swiftMessages sig.ret (run vs)) :=
  C22_end_to_end _ _ env _ _ (swift_scalars lossy) (Swift.writesLike lossy env)
    (Swift.readsLike lossy env false) hc fuel user text sig run vs ha ho

/-- C22 for Ruby, apart from serialized `u8` above 127 and huge durations in results (as in
C15). -/
theorem C22_ruby (ha : ArgsOk (Compound Ruby.lang env true) env fuel sig.args vs)
    (ho : OutcomeOk (Receives Ruby.lang Ruby.Exact env) env fuel sig (run vs)) :
    callFrom Ruby.lang rubyMessages env fuel user text sig run (reprAll Ruby.lang vs) =
      (sig.args.map (fun a => Event.lift a.1) ++ [.call vs],
        expected Ruby.lang rubyMessages sig.ret (run vs)) :=
  C22_end_to_end _ _ env _ _ ruby_scalars (Ruby.writesLike env) (Ruby.readsLike env false) hc
    fuel user text sig run vs ha ho

end

/-- A function of two arguments that returns a tree or throws a pair. -/
def demoSig : Sig where
  args := [("p", .named "Pair"), ("s", .string)]
  ret := some (.named "Tree")
  throws := some (.named "Pair")

open Verif.Props.Wire Verif.Props.Foreign in
/-- The hypotheses of `C22_python` hold for it, for a returned value, an error and a panic. -/
example : ArgsOk (Sends Python.lang Python.Exact demoEnv) demoEnv 6 demoSig.args
      [demoPair, .str "é"] ∧
    OutcomeOk (Receives Python.lang Python.Exact demoEnv) demoEnv 6 demoSig (.ret (.ok demoTree)) ∧
    OutcomeOk (Receives Python.lang Python.Exact demoEnv) demoEnv 6 demoSig (.ret (.error demoPair)) ∧
    OutcomeOk (Receives Python.lang Python.Exact demoEnv) demoEnv 6 demoSig (.panic (.str "x")) ∧
    CustomLawful demoEnv := by
  have hh : Python.lang.hashable demoEnv .string = true := by decide +kernel
  have hp : ∀ w, Deep (fun t v => Python.Exact t v ∧ Compound Python.lang demoEnv w t v) demoEnv
      (.named "Pair") demoPair := by
    intro w
    refine demoPair_deep ?_ ?_ ?_ ?_ ?_ ?_ <;> intros <;>
      simp [Python.Exact, Compound, Wire.repr, reprPairs, reprAll, hh] <;> simp [Python.lang]
  have ht : ∀ w, Deep (fun t v => Python.Exact t v ∧ Compound Python.lang demoEnv w t v) demoEnv
      (.named "Tree") demoTree := by
    intro w
    refine demoTree_deep ?_ ?_ ?_ ?_ ?_ ?_ <;> intros <;>
      simp [Python.Exact, Compound, Wire.repr, reprPairs, reprAll] <;> simp [Python.lang]
  refine ⟨⟨⟨⟨demoPair_typed, hp true, ?_, by decide +kernel⟩, ?_⟩,
    ⟨⟨trivial, ?_, ⟨_, rfl⟩, by decide +kernel⟩, ?_⟩, trivial⟩, ?_, ?_, trivial, demo_lawful⟩
  · exact ⟨_, (show _ = Eff.ret (Ffi.buf _) from rfl)⟩
  · simp [demoPair, Val.All, Val.AllList, Val.AllPairs, TimeKept]
  · simp [Deep, Sends, Python.Exact, Compound]
  · simp [Val.All, TimeKept]
  · intro t e; cases e
    exact ⟨demoTree_typed, ht false, ⟨_, rfl⟩, by decide +kernel⟩
  · exact ⟨_, rfl, demoPair_typed, hp false, ⟨_, rfl⟩, by decide +kernel⟩

open Verif.Props.Wire in
/-- The same call, run. -/
example : callFrom Python.lang pythonMessages demoEnv 6 (fun _ => none) (fun _ => "")
    demoSig (fun vs => if vs = [demoPair, .str "é"] then .ret (.ok demoTree) else .panic .other)
    [demoPair, .str "é"] =
    ([.lift "p", .lift "s", .call [demoPair, .str "é"]], .value (repr Python.lang demoTree)) := by
  decide +kernel

/-! ### C23 -/

section
variable {X E R : Type} (l : LiftRet X E R) (x : X) (buf : Bytes)

/-- What an unexpected failure of a foreign implementation becomes: the error the library author
converts it to, a panic if there is no conversion or the method returns no `Result`. -/
theorem C23_unexpected (e : Unexpected) :
    (∀ u, l.throws = true → l.convert e = .ret (.ok u) → handleUnexpected l e = .ret (.error u)) ∧
    (∀ msg, l.throws = true → l.convert e = .ret (.error msg) →
      handleUnexpected l e = .panic (.string msg)) ∧
    (l.throws = false → ∃ msg, handleUnexpected l e = .panic (.string msg)) := by
  refine ⟨?_, ?_, ?_⟩ <;> intros <;> simp_all [handleUnexpected, Eff.bind]

/-- C23. The outcome for each status code a foreign implementation can report. -/
theorem C23_lift_foreign_return (code : Code) :
    (code = .success → ∀ r, l.liftOk x = .ret (.ok r) →
      liftForeignReturn l x code buf = .ret (.ok r)) ∧
    (code = .success → ∀ msg, l.liftOk x = .ret (.error msg) →
      liftForeignReturn l x code buf = handleUnexpected l ⟨msg⟩) ∧
    (code = .error → l.throws = true → ∀ e, l.liftErr buf = .ret (.ok e) →
      liftForeignReturn l x code buf = .ret (.error e)) ∧
    (code = .error → l.throws = true → ∀ msg, l.liftErr buf = .ret (.error msg) →
      liftForeignReturn l x code buf =
        handleUnexpected l ⟨"Error lifting from rust buffer: " ++ msg⟩) ∧
    (code = .error → l.throws = false → ∃ p, liftForeignReturn l x code buf = .panic p) ∧
    (code ≠ .success → code ≠ .error → ∀ s, fromUtf8 buf = some s →
      liftForeignReturn l x code buf = handleUnexpected l ⟨s⟩) := by
  refine ⟨?_, ?_, ?_, ?_, ?_, ?_⟩
  · rintro rfl r h; simp [liftForeignReturn, h, Eff.bind]
  · rintro rfl r h; simp [liftForeignReturn, h, Eff.bind]
  · rintro rfl ht r h; simp [liftForeignReturn, liftError, ht, h, Eff.bind]
  · rintro rfl ht r h; simp [liftForeignReturn, liftError, ht, h, Eff.bind]
  · rintro rfl ht; simp [liftForeignReturn, liftError, ht]
  · intro h1 h2 s hs
    cases code <;> simp_all [liftForeignReturn]

end

/-- C23. End to end: what Rust gets when it calls a method implemented in a foreign language. The
value it returned, the declared error it threw, or for any other exception what the library author
makes of it; in that last case a panic when there is no conversion or no `Result`. -/
theorem C23_end_to_end (L : Lang) (env : Env) (P : Ty → Val → Prop) (hs : Scalars L)
    (hW : WritesLike L env P) (hc : CustomLawful env) (fuel : Nat) (ret throws : Option Ty)
    (text : ReadErr → String) (convert : Option (Unexpected → Val)) (badText : String) (c : Bool)
    (dflt : Ffi) :
    (ret = none → ∀ v, callInto L env fuel ret throws text convert badText c dflt (.returns v) =
      .ret (.ok none)) ∧
    (∀ t v, ret = some t → Passable P env fuel t v → v.All TimeKept →
      callInto L env fuel ret throws text convert badText c dflt (.returns (repr L v)) =
        .ret (.ok (some v))) ∧
    (∀ t e, throws = some t → Throwable P env fuel t e → e.All TimeKept →
      callInto L env fuel ret throws text convert badText c dflt (.throws (repr L e)) =
        .ret (.error e)) ∧
    (∀ msg f, throws.isSome → convert = some f →
      callInto L env fuel ret throws text convert badText c dflt (.other msg) =
        .ret (.error (f ⟨msg⟩))) ∧
    (∀ msg, convert = none ∨ throws = none →
      ∃ p, callInto L env fuel ret throws text convert badText c dflt (.other msg) = .panic p) := by
  refine ⟨?_, ?_, ?_, ?_, ?_⟩
  · rintro rfl v
    simp [callInto, implCall, liftForeignReturn, liftRetOf, Eff.bind]
  · rintro t v rfl hp hk
    obtain ⟨x, hx⟩ := hp.lowers
    simp [callInto, implCall, flower_lower hs hW fuel t v x hp.typed hp.fits hx hp.depth,
      liftForeignReturn, liftRetOf, tryLift_lower env hc fuel t v x hp.typed hk hx hp.depth, Eff.bind]
  · rintro t e rfl hp hk
    obtain ⟨bs, hb⟩ := hp.lowers
    simp [callInto, implCall, fwrite_write hW e t bs fuel hp.typed hp.fits hb hp.depth,
      liftForeignReturn, liftError, liftRetOf, liftBuffer_write env hc hp.typed hk hb hp.depth,
      Eff.bind]
  · rintro msg f ht rfl
    simp [callInto, implCall, liftForeignReturn, fromUtf8_utf8, handleUnexpected, liftRetOf, ht,
      Eff.bind]
  · rintro msg (rfl | rfl)
    · cases ht : throws.isSome <;>
        simp [callInto, implCall, liftForeignReturn, fromUtf8_utf8, handleUnexpected, liftRetOf, ht,
          Eff.bind]
    · simp [callInto, implCall, liftForeignReturn, fromUtf8_utf8, handleUnexpected, liftRetOf]

/-- C23. A foreign implementation that breaks its contract - it returns something that is not of
the declared type, or throws a declared exception from a method that declares none - is treated
like any other unexpected exception: never as a value or as a declared error. -/
theorem C23_contract_broken (L : Lang) (env : Env) (fuel : Nat) (ret throws : Option Ty)
    (text : ReadErr → String) (convert : Option (Unexpected → Val)) (badText : String) (c : Bool)
    (dflt : Ffi) (i : Impl)
    (hbad : (∃ t v, i = .returns v ∧ ret = some t ∧ flower L env fuel t v = none) ∨
      (∃ e, i = .throws e ∧ throws = none) ∨
      (∃ t e, i = .throws e ∧ throws = some t ∧ fwrite L env fuel t e = none ∧ c = true)) :
    callInto L env fuel ret throws text convert badText c dflt i =
      callInto L env fuel ret throws text convert badText c dflt (.other badText) ∧
    (∀ f, throws.isSome → convert = some f →
      callInto L env fuel ret throws text convert badText c dflt i =
        .ret (.error (f ⟨badText⟩))) ∧
    (convert = none ∨ throws = none →
      ∃ p, callInto L env fuel ret throws text convert badText c dflt i = .panic p) := by
  have key : callInto L env fuel ret throws text convert badText c dflt i =
      callInto L env fuel ret throws text convert badText c dflt (.other badText) := by
    rcases hbad with ⟨t, v, rfl, rfl, h⟩ | ⟨e, rfl, rfl⟩ | ⟨t, e, rfl, rfl, h, rfl⟩
    · simp [callInto, implCall, h]
    · simp [callInto, implCall]
    · simp [callInto, implCall, h]
  refine ⟨key, ?_, ?_⟩
  · rintro f ht rfl
    rw [key]
    simp [callInto, implCall, liftForeignReturn, fromUtf8_utf8, handleUnexpected, liftRetOf, ht,
      Eff.bind]
  · intro h
    rw [key]
    rcases h with rfl | rfl
    · cases ht : throws.isSome <;>
        simp [callInto, implCall, liftForeignReturn, fromUtf8_utf8, handleUnexpected, liftRetOf, ht,
          Eff.bind]
    · simp [callInto, implCall, liftForeignReturn, fromUtf8_utf8, handleUnexpected, liftRetOf]

open Verif.Props.Wire in
/-- A Kotlin method that is declared to return a `u8` and returns 300 (from Java, say). -/
example : flower (Kotlin.lang fun _ => "") demoEnv 3 (.int .u8) (.int 300) = none ∧
    callInto (Kotlin.lang fun _ => "") demoEnv 3 (some (.int .u8)) (some .string) (fun _ => "")
      (some fun u => .str u.reason) "bad" false (.int 0) (.returns (.int 300)) =
      .ret (.error (.str "bad")) := by decide +kernel

open Verif.Props.Wire in
/-- A method implemented in Ruby: a value, the declared error, another exception. -/
example :
    callInto Ruby.lang demoEnv 6 (some (.named "Tree")) (some (.named "Pair")) (fun _ => "")
      (some fun u => .record [.int u.reason.length]) "?" false (.buf []) (.returns (repr Ruby.lang demoTree))
      = .ret (.ok (some demoTree)) ∧
    callInto Ruby.lang demoEnv 6 (some (.named "Tree")) (some (.named "Pair")) (fun _ => "")
      (some fun u => .record [.int u.reason.length]) "?" false (.buf []) (.throws (repr Ruby.lang demoPair))
      = .ret (.error demoPair) ∧
    callInto Ruby.lang demoEnv 6 (some (.named "Tree")) (some (.named "Pair")) (fun _ => "")
      (some fun u => .record [.int u.reason.length]) "?" false (.buf []) (.other "boom")
      = .ret (.error (.record [.int 4])) := by decide +kernel

end Verif.Props.Call
