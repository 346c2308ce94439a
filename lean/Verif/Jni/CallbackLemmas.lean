import Verif.Jni.CallbackSpec
/-
Lemmas for C80: calls of methods that are not async.
-/
namespace Verif.JniCallback

variable {K E L R F : Type}

theorem text_getMessage (x : Exc) : Text x (getMessage x).1 := by
  cases x
  · exact .message _
  · exact .none
  · exact .bad

theorem getMessage_pending (x : Exc) : (getMessage x).2 = true ↔ x = .badMessage := by
  cases x <;> simp [getMessage]

/-- The result of a method, given what the dispatching function returned. -/
def outOf (c : Call K E L R F) : Dispatched R F → Out R F
  | .ok (.ok r) => .value r
  | .ok (.error f) => .error f
  | .err m => if c.throws && c.hasFrom then .error (c.codec.fromUnexpected m)
      else .panics ("Error calling UniFFI callback method: " ++ m)
  | .panic m => .panics m
  | .aborts => .aborts

theorem method_eq (c : Call K E L R F) (body : Thread R F → Thread R F × Body K E) (s : Thread R F) :
    method c body s = ((rustDispatch c body s).1, outOf c (rustDispatch c body s).2) := by
  unfold method
  rcases rustDispatch c body s with ⟨s', d⟩
  cases d with
  | ok v => cases v <;> rfl
  | err m => rfl
  | panic m => rfl
  | aborts => rfl

theorem gives_fails {c : Call K E L R F} {b : Body K E} {m : String} (h : Fails c b m) : Gives c b (outOf c (.err m)) := by
  unfold outOf
  cases ht : c.throws with
  | false => exact .panics h (.inl ht)
  | true =>
    cases hf : c.hasFrom with
    | false => exact .panics h (.inr hf)
    | true => exact .converted h ht hf

/-- What a body does to the thread: nothing, if the process goes on, except for frames that panics
left. -/
def Keeps (body : Thread R F → Thread R F × Body K E) (b : Body K E) : Prop :=
  ∀ s, s.pending = false → (body s).2 = b ∧
    (b ≠ .aborts → (body s).1.slots = s.slots ∧ (body s).1.pending = false ∧ s.frames ≤ (body s).1.frames)

/-- ... and no frames are left either. -/
def KeepsFrames (body : Thread R F → Thread R F × Body K E) (b : Body K E) : Prop :=
  ∀ s, s.pending = false → b ≠ .aborts → (body s).1.frames = s.frames

/-- Which exception arrives, as a function. -/
def thrownFn (c : Call K E L R F) (b : Body K E) : Option Exc :=
  match c.lowerArgs with
  | .ok () =>
    if c.found then
      match c.liftArgs with
      | .error x => some x
      | .ok () =>
        match b with
        | .aborts => none
        | .ends (.other x) => some x
        | .ends (.declared e) =>
          if c.throws then
            match c.codec.lowerErr e with
            | .error x => some x
            | .ok l => match c.codec.liftErr l with
              | .err m => some (.message ("setCallbackReturn failed: " ++ m))
              | _ => none
          else some (c.codec.asExc e)
        | .ends (.returns k) =>
          if c.ret = .void then none
          else match c.codec.lowerRet k with
            | .error x => some x
            | .ok l =>
              if c.ret = .deconstruct then match c.codec.liftRet l with
                | .err m => some (.message ("setCallbackReturn failed: " ++ m))
                | _ => none
              else none
    else some (.message "HandleMap.get: Invalid handle")
  | _ => none

theorem thrown_fn {c : Call K E L R F} {b : Body K E} {x : Exc} : Thrown c b x ↔ thrownFn c b = some x := by
  constructor
  · intro h
    unfold thrownFn
    cases h with
    | noObject h1 h2 => simp [h1, h2]
    | args h1 h2 h3 => simp [h1, h2, h3]
    | other h => simp [h.1, h.2.1, h.2.2]
    | undeclared h h1 => simp [h.1, h.2.1, h.2.2, h1]
    | lowerError h h1 h2 => simp [h.1, h.2.1, h.2.2, h1, h2]
    | lowerValue h h1 h2 => simp [h.1, h.2.1, h.2.2, h1, h2]
    | liftError h h1 h2 h3 => simp [h.1, h.2.1, h.2.2, h1, h2, h3]
    | liftValue h h1 h2 h3 => simp [h.1, h.2.1, h.2.2, h1, h2, h3]
  · intro h
    unfold thrownFn at h
    split at h
    · rename_i h1
      split at h
      · rename_i h2
        split at h
        · rename_i x' h3
          cases h
          exact .args h1 h2 h3
        · rename_i h3
          have hc : c.Called := ⟨h1, h2, h3⟩
          split at h
          · cases h
          · cases h; exact .other hc
          · split at h
            · rename_i ht
              split at h
              · rename_i hl
                cases h
                exact .lowerError hc ht hl
              · rename_i hl
                split at h
                · rename_i hm
                  cases h
                  exact .liftError hc ht hl hm
                · cases h
            · rename_i ht
              cases h
              exact .undeclared hc (by simpa using ht)
          · split at h
            · cases h
            · rename_i hr
              split at h
              · rename_i hl
                cases h
                exact .lowerValue hc hr hl
              · rename_i hl
                split at h
                · rename_i hd
                  split at h
                  · rename_i hm
                    cases h
                    exact .liftValue hc hd hl hm
                  · cases h
                · cases h
      · rename_i h2
        cases h
        exact .noObject h1 (by simpa using h2)
    · cases h

/-- What is claimed about the end `q` of the Kotlin function. -/
def Concl (c : Call K E L R F) (body : Thread R F → Thread R F × Body K E) (b : Body K E) (s : Thread R F)
    (slots : List (Option (Except F R))) (q : Thread R F × KEnd L) : Prop :=
  Gives c b (outOf c (afterCall c slots.length q).2) ∧
    (outOf c (afterCall c slots.length q).2 ≠ .aborts →
      (afterCall c slots.length q).1.slots.take slots.length = slots ∧
      ((afterCall c slots.length q).1.pending = true ↔ Thrown c b .badMessage) ∧
      s.frames ≤ (afterCall c slots.length q).1.frames ∧
      (KeepsFrames body b → (afterCall c slots.length q).1.frames = s.frames))

theorem take_slots {c : Call K E L R F} {s : Thread R F} {slots : List (Option (Except F R))}
    (h : s.slots = if c.hasPointer then slots ++ [none] else slots) : s.slots.take slots.length = slots := by
  rw [h]
  split
  · exact List.take_left
  · exact List.take_length

theorem slot_none {c : Call K E L R F} {s : Thread R F} {slots : List (Option (Except F R))}
    (h : s.slots = if c.hasPointer then slots ++ [none] else slots) (hp : c.hasPointer = true) :
    s.slots[slots.length]? = some none := by
  rw [h, hp]
  simp

theorem concl_throws {c : Call K E L R F} {body : Thread R F → Thread R F × Body K E} {b : Body K E} {s s' : Thread R F}
    {slots : List (Option (Except F R))} {x : Exc}
    (hsl : s'.slots = if c.hasPointer then slots ++ [none] else slots) (hf : s.frames ≤ s'.frames)
    (hf' : KeepsFrames body b → s'.frames = s.frames) (hx : thrownFn c b = some x) : Concl c body b s slots (s', .throws x) := by
  have ht : Thrown c b x := thrown_fn.mpr hx
  refine ⟨gives_fails (.thrown ht (text_getMessage x)), fun _ => ⟨take_slots (s := { s' with pending := _ }) hsl, ?_, hf, hf'⟩⟩
  show (getMessage x).2 = true ↔ _
  rw [getMessage_pending, thrown_fn, hx]
  constructor
  · rintro rfl; rfl
  · intro h; cases h; rfl

theorem concl_returns {c : Call K E L R F} {body : Thread R F → Thread R F × Body K E} {b : Body K E} {s s' : Thread R F}
    {slots : List (Option (Except F R))} {l : L} (hsl : s'.slots.take slots.length = slots) (hp : s'.pending = false)
    (hf : s.frames ≤ s'.frames) (hf' : KeepsFrames body b → s'.frames = s.frames) (hx : thrownFn c b = none)
    (hg : Gives c b (outOf c (afterCall c slots.length (s', .returns l)).2)) : Concl c body b s slots (s', .returns l) := by
  refine ⟨hg, fun _ => ⟨hsl, ?_, hf, hf'⟩⟩
  show s'.pending = true ↔ _
  rw [hp, thrown_fn, hx]
  simp

theorem write_slot {c : Call K E L R F} {s : Thread R F} {slots : List (Option (Except F R))} (v : Except F R)
    (h : s.slots = if c.hasPointer then slots ++ [none] else slots) (hp : c.hasPointer = true) :
    (s.write slots.length v).slots = slots ++ [some v] := by
  show s.slots.set slots.length (some v) = _
  rw [h, hp]
  simp

/-- After the Kotlin function and what Rust makes of it. -/
theorem afterCall_spec {c : Call K E L R F} {body : Thread R F → Thread R F × Body K E} {b : Body K E} (hk : Keeps body b)
    (ha : c.lowerArgs = .ok ()) (s : Thread R F) (slots : List (Option (Except F R))) (hs : s.pending = false)
    (hsl : s.slots = if c.hasPointer then slots ++ [none] else slots) :
    Concl c body b s slots (kotlinDispatch c body slots.length s) := by
  unfold kotlinDispatch
  cases hfd : c.found with
  | false =>
    exact concl_throws hsl (Nat.le_refl _) (fun _ => rfl) (by simp [thrownFn, ha, hfd])
  | true =>
    simp only [if_true]
    cases hl : c.liftArgs with
    | error x => exact concl_throws hsl (Nat.le_refl _) (fun _ => rfl) (by simp [thrownFn, ha, hfd, hl])
    | ok u =>
      have hc : c.Called := ⟨ha, hfd, hl⟩
      obtain ⟨hb, hk⟩ := hk s hs
      have hkf : KeepsFrames body b → b ≠ .aborts → (body s).1.frames = s.frames := fun h hne => h s hs hne
      rcases hbs : body s with ⟨s', b'⟩
      rw [hbs] at hb hk hkf
      dsimp only at hb hk hkf ⊢
      subst hb
      cases b' with
      | aborts => exact ⟨.aborts hc, fun h => absurd rfl h⟩
      | ends e =>
        obtain ⟨hsl', hp', hf'⟩ := hk (by intro h; cases h)
        have hkf := fun h => hkf h (by intro h; cases h)
        have hsl2 : s'.slots = if c.hasPointer then slots ++ [none] else slots := by rw [hsl', hsl]
        cases e with
        | other x => exact concl_throws hsl2 hf' hkf (by simp [thrownFn, ha, hfd, hl])
        | declared e =>
          dsimp only
          cases ht : c.throws with
          | false =>
            simp only [Bool.false_eq_true, if_false]
            exact concl_throws hsl2 hf' hkf (by simp [thrownFn, ha, hfd, hl, ht])
          | true =>
            have hptr : c.hasPointer = true := by simp [Call.hasPointer, ht]
            simp only [if_true]
            cases hle : c.codec.lowerErr e with
            | error x => exact concl_throws hsl2 hf' hkf (by simp [thrownFn, ha, hfd, hl, ht, hle])
            | ok l =>
              dsimp only [setError]
              cases hli : c.codec.liftErr l with
              | err m => exact concl_throws hsl2 hf' hkf (by simp [thrownFn, ha, hfd, hl, ht, hle, hli])
              | panic m => exact ⟨.errorAborts hc ht hle hli, fun h => absurd rfl h⟩
              | ok f =>
                dsimp only
                refine concl_returns (s' := s'.write slots.length (.error f)) ?_ hp' hf' hkf
                  (by simp [thrownFn, ha, hfd, hl, ht, hle, hli]) ?_
                · rw [write_slot _ hsl2 hptr]; exact List.take_left
                · simp only [afterCall, hptr, if_true, write_slot _ hsl2 hptr]
                  simp only [List.getElem?_append_right (Nat.le_refl _), Nat.sub_self, List.getElem?_cons_zero]
                  exact .error hc ht hle hli
        | returns k =>
          dsimp only
          cases hr : c.ret with
          | void =>
            refine concl_returns (take_slots hsl2) hp' hf' hkf (by simp [thrownFn, ha, hfd, hl, hr]) ?_
            have : (afterCall c slots.length (s', KEnd.returns c.codec.default)).2 = .ok (.ok c.codec.unit) := by
              simp only [afterCall, hr]
              split
              · rename_i hptr
                rw [slot_none hsl2 hptr]
              · rfl
            rw [this]
            exact .nothing hc hr
          | primitive =>
            dsimp only
            cases hle : c.codec.lowerRet k with
            | error x => exact concl_throws hsl2 hf' hkf (by simp [thrownFn, ha, hfd, hl, hr, hle])
            | ok l =>
              refine concl_returns (take_slots hsl2) hp' hf' hkf (by simp [thrownFn, ha, hfd, hl, hr, hle]) ?_
              have : (afterCall c slots.length (s', KEnd.returns l)).2 = liftPrimitive c l := by
                simp only [afterCall, hr]
                split
                · rename_i hptr
                  rw [slot_none hsl2 hptr]
                · rfl
              rw [this]
              unfold liftPrimitive
              cases hli : c.codec.liftRet l with
              | ok r => exact .value hc (by rw [hr]; intro h; cases h) hle hli
              | err m => exact gives_fails (.value hc hr hle hli)
              | panic m => exact .valuePanic hc hr hle hli
          | deconstruct =>
            have hptr : c.hasPointer = true := by simp [Call.hasPointer, hr]
            dsimp only
            cases hle : c.codec.lowerRet k with
            | error x => exact concl_throws hsl2 hf' hkf (by simp [thrownFn, ha, hfd, hl, hr, hle])
            | ok l =>
              dsimp only [setReturn]
              cases hli : c.codec.liftRet l with
              | err m => exact concl_throws hsl2 hf' hkf (by simp [thrownFn, ha, hfd, hl, hr, hle, hli])
              | panic m => exact ⟨.valueAborts hc hr hle hli, fun h => absurd rfl h⟩
              | ok r =>
                dsimp only
                refine concl_returns (s' := s'.write slots.length (.ok r)) ?_ hp' hf' hkf
                  (by simp [thrownFn, ha, hfd, hl, hr, hle, hli]) ?_
                · rw [write_slot _ hsl2 hptr]; exact List.take_left
                · simp only [afterCall, hptr, if_true, write_slot _ hsl2 hptr]
                  simp only [List.getElem?_append_right (Nat.le_refl _), Nat.sub_self, List.getElem?_cons_zero]
                  exact .value hc (by rw [hr]; intro h; cases h) hle hli

/-- A call of a method. -/
theorem method_spec {c : Call K E L R F} {body : Thread R F → Thread R F × Body K E} {b : Body K E} (hk : Keeps body b)
    (s : Thread R F) (hs : s.pending = false) :
    Gives c b (method c body s).2 ∧ ((method c body s).2 ≠ .aborts →
      (method c body s).1.slots = s.slots ∧ ((method c body s).1.pending = true ↔ Thrown c b .badMessage) ∧
      s.frames ≤ (method c body s).1.frames ∧
      (c.Calm → KeepsFrames body b → (method c body s).1.frames = s.frames)) := by
  rw [method_eq]
  dsimp only
  have hx : ∀ {m : String} {x : Exc}, c.lowerArgs = .err m ∨ c.lowerArgs = .panic m → ¬Thrown c b x := by
    intro m x h ht
    rw [thrown_fn] at ht
    unfold thrownFn at ht
    cases h with
    | inl h => rw [h] at ht; cases ht
    | inr h => rw [h] at ht; cases ht
  have htake : (if c.hasPointer = true then s.slots ++ [none] else s.slots).take s.slots.length = s.slots := by
    split
    · exact List.take_left
    · exact List.take_length
  unfold rustDispatch
  cases ha : c.lowerArgs with
  | err m =>
    refine ⟨gives_fails (.args ha), fun _ => ⟨htake, ?_, ?_, fun _ _ => ?_⟩⟩
    · simpa [hs] using hx (.inl ha)
    · simp
    · simp
  | panic m =>
    refine ⟨.argsPanic ha, fun _ => ⟨htake, ?_, ?_, fun hcalm => absurd ha (hcalm.1 m)⟩⟩
    · simpa [hs] using hx (.inr ha)
    · simp
  | ok u =>
    dsimp only
    obtain ⟨hg, hrest⟩ := afterCall_spec (c := c) hk ha
      { slots := if c.hasPointer = true then s.slots ++ [none] else s.slots, frames := s.frames + 1, pending := s.pending }
      s.slots hs rfl
    generalize hq : afterCall c s.slots.length (kotlinDispatch c body s.slots.length
      { slots := if c.hasPointer = true then s.slots ++ [none] else s.slots, frames := s.frames + 1, pending := s.pending }) = q
      at hg hrest
    rcases q with ⟨s2, d⟩
    dsimp only at hg hrest ⊢
    cases d with
    | aborts => exact ⟨hg, fun h => absurd rfl h⟩
    | panic m =>
      obtain ⟨h1, h2, h3, h4⟩ := hrest (by intro h; cases h)
      refine ⟨hg, fun _ => ⟨h1, h2, Nat.le_of_succ_le h3, fun hcalm => ?_⟩⟩
      exfalso
      have hd : (afterCall c s.slots.length (kotlinDispatch c body s.slots.length
        { slots := if c.hasPointer = true then s.slots ++ [none] else s.slots, frames := s.frames + 1, pending := s.pending })).2
        = .panic m := by
        have := congrArg Prod.snd hq
        exact this
      revert hd
      generalize kotlinDispatch c body s.slots.length _ = kd
      rcases kd with ⟨s3, ke⟩
      cases ke with
      | aborts => intro h; cases h
      | throws x => intro h; cases h
      | returns l =>
        have hlp : liftPrimitive c l ≠ .panic m := by
          unfold liftPrimitive
          cases hli : c.codec.liftRet l with
          | ok r => intro h; cases h
          | err m => intro h; cases h
          | panic m' => exact absurd hli (hcalm.2 l m')
        dsimp only [afterCall]
        intro h
        split at h
        · split at h
          · cases h
          · split at h
            · cases h
            · exact hlp h
            · cases h
        · split at h
          · exact hlp h
          · cases h
    | err m =>
      obtain ⟨h1, h2, h3, h4⟩ := hrest (by dsimp only [outOf]; split <;> intro h <;> cases h)
      exact ⟨hg, fun _ => ⟨h1, h2, Nat.le_sub_one_of_lt h3, fun _ hkf => by rw [h4 hkf]; rfl⟩⟩
    | ok v =>
      obtain ⟨h1, h2, h3, h4⟩ := hrest (by cases v <;> intro h <;> cases h)
      exact ⟨hg, fun _ => ⟨h1, h2, Nat.le_sub_one_of_lt h3, fun _ hkf => by rw [h4 hkf]; rfl⟩⟩

theorem run_calls (c : Call K E L R F) (inner : Code K E L R F) (next : Out R F → Bool → Code K E L R F) (s : Thread R F) :
    run (.calls c inner next) s = (match method c (run inner) s with
    | (s, .aborts) => (s, .aborts)
    | (s, o) => run (next o s.pending) { s with pending := false }) := by
  rw [run]
  rfl

theorem run_calls' (c : Call K E L R F) (inner : Code K E L R F) (next : Out R F → Bool → Code K E L R F) (s s' : Thread R F)
    (o : Out R F) (h : method c (run inner) s = (s', o)) (ho : o ≠ .aborts) :
    run (.calls c inner next) s = run (next o s'.pending) { s' with pending := false } := by
  rw [run_calls, h]
  cases o with
  | aborts => exact absurd rfl ho
  | value r => rfl
  | error f => rfl
  | panics m => rfl

/-- The result, as a function. -/
def outFn (c : Call K E L R F) (b : Body K E) : Out R F :=
  match c.lowerArgs with
  | .panic m => .panics m
  | .err m => outOf c (.err m)
  | .ok () =>
    match thrownFn c b with
    | some x => outOf c (.err (getMessage x).1)
    | none =>
      match b with
      | .aborts => .aborts
      | .ends (.other _) => .aborts
      | .ends (.declared e) =>
        match c.codec.lowerErr e with
        | .error _ => .aborts
        | .ok l => match c.codec.liftErr l with
          | .ok f => .error f
          | _ => .aborts
      | .ends (.returns k) =>
        if c.ret = .void then .value c.codec.unit
        else match c.codec.lowerRet k with
          | .error _ => .aborts
          | .ok l => match c.codec.liftRet l with
            | .ok r => .value r
            | .err m => outOf c (.err m)
            | .panic m => if c.ret = .primitive then .panics m else .aborts

theorem text_unique {x : Exc} {m : String} (h : Text x m) : m = (getMessage x).1 := by cases h <;> rfl

theorem thrown_lower {c : Call K E L R F} {b : Body K E} {x : Exc} (h : Thrown c b x) : c.lowerArgs = .ok () := by
  cases h with
  | noObject h => exact h
  | args h => exact h
  | other h => exact h.1
  | undeclared h => exact h.1
  | lowerError h => exact h.1
  | lowerValue h => exact h.1
  | liftError h => exact h.1
  | liftValue h => exact h.1

theorem fails_fn {c : Call K E L R F} {b : Body K E} {m : String} (h : Fails c b m) : outFn c b = outOf c (.err m) := by
  cases h with
  | thrown ht htx =>
    have ha : c.lowerArgs = .ok () := thrown_lower ht
    unfold outFn
    rw [ha, thrown_fn.mp ht, text_unique htx]
  | args h => unfold outFn; rw [h]
  | value h h1 h2 h3 =>
    unfold outFn thrownFn
    simp [h.1, h.2.1, h.2.2, h1, h2, h3]

theorem gives_fn {c : Call K E L R F} {b : Body K E} {o : Out R F} (h : Gives c b o) : o = outFn c b := by
  cases h with
  | nothing h h1 => unfold outFn thrownFn; simp [h.1, h.2.1, h.2.2, h1]
  | value h h1 h2 h3 => unfold outFn thrownFn; simp [h.1, h.2.1, h.2.2, h1, h2, h3]
  | error h h1 h2 h3 => unfold outFn thrownFn; simp [h.1, h.2.1, h.2.2, h1, h2, h3]
  | converted h h1 h2 => rw [fails_fn h]; simp [outOf, h1, h2]
  | panics h h1 =>
    rw [fails_fn h]
    rcases h1 with h1 | h1 <;> simp [outOf, h1]
  | argsPanic h => unfold outFn; rw [h]
  | valuePanic h h1 h2 h3 => unfold outFn thrownFn; simp [h.1, h.2.1, h.2.2, h1, h2, h3]
  | valueAborts h h1 h2 h3 => unfold outFn thrownFn; simp [h.1, h.2.1, h.2.2, h1, h2, h3]
  | errorAborts h h1 h2 h3 => unfold outFn thrownFn; simp [h.1, h.2.1, h.2.2, h1, h2, h3]
  | aborts h => unfold outFn thrownFn; simp [h.1, h.2.1, h.2.2]

/-- There is one result. -/
theorem gives_unique {c : Call K E L R F} {b : Body K E} {o o' : Out R F} (h : Gives c b o) (h' : Gives c b o') : o = o' := by
  rw [gives_fn h, gives_fn h']

theorem thrown_unique {c : Call K E L R F} {b : Body K E} {x x' : Exc} (h : Thrown c b x) (h' : Thrown c b x') : x = x' := by
  rw [thrown_fn] at h h'
  rw [h] at h'
  cases h'
  rfl

theorem comes_unique {code : Code K E L R F} : ∀ {b b' : Body K E}, Comes code b → Comes code b' → b = b' := by
  induction code with
  | ends e => intro b b' h h'; cases h; cases h'; rfl
  | calls c inner next ih1 ih2 =>
    intro b b' h h'
    cases h with
    | calls hi hg ho hp hn =>
      cases h' with
      | calls hi' hg' ho' hp' hn' =>
        cases ih1 hi hi'
        cases gives_unique hg hg'
        have := Bool.eq_iff_iff.mpr (hp.trans hp'.symm)
        subst this
        exact ih2 _ _ hn hn'
      | aborts hi' hg' =>
        cases ih1 hi hi'
        exact absurd (gives_unique hg hg') ho
    | aborts hi hg =>
      cases h' with
      | calls hi' hg' ho' hp' hn' =>
        cases ih1 hi hi'
        exact absurd (gives_unique hg' hg) ho'
      | aborts hi' hg' => rfl

theorem run_spec (code : Code K E L R F) : ∃ b, Comes code b ∧ Keeps (run code) b ∧ (code.Calm → KeepsFrames (run code) b) := by
  induction code with
  | ends e =>
    exact ⟨.ends e, .ends e, fun s hs => ⟨by rw [run], fun _ => by rw [run]; exact ⟨rfl, hs, Nat.le_refl _⟩⟩,
      fun _ s _ _ => by rw [run]⟩
  | calls c inner next ih1 ih2 =>
    obtain ⟨bi, hci, hki, hfi⟩ := ih1
    have h0 := method_spec (c := c) hki ({} : Thread R F) rfl
    by_cases hab : outFn c bi = .aborts
    · have hg : Gives c bi .aborts := by have := h0.1; rwa [gives_fn this, hab] at this
      refine ⟨.aborts, .aborts hci hg, fun s hs => ⟨?_, fun h => absurd rfl h⟩, fun _ s _ h => absurd rfl h⟩
      have hm := (method_spec (c := c) hki s hs).1
      have := gives_unique hm hg
      rw [run_calls]
      rcases hms : method c (run inner) s with ⟨s', o⟩
      rw [hms] at this
      dsimp only at this
      subst this
      rfl
    · let pend : Bool := (method c (run inner) ({} : Thread R F)).1.pending
      have ho0 : (method c (run inner) ({} : Thread R F)).2 ≠ .aborts := by rw [gives_fn h0.1]; exact hab
      have hpend : pend = true ↔ Thrown c bi .badMessage := (h0.2 ho0).2.1
      obtain ⟨b, hcn, hkn, hfn⟩ := ih2 (outFn c bi) pend
      have hg : Gives c bi (outFn c bi) := by have := h0.1; rwa [gives_fn this] at this
      have hrun : ∀ s : Thread R F, s.pending = false → ∃ s' : Thread R F, s'.slots = s.slots ∧ s'.pending = false ∧
          s.frames ≤ s'.frames ∧ (c.Calm → KeepsFrames (run inner) bi → s'.frames = s.frames) ∧
          run (.calls c inner next) s = run (next (outFn c bi) pend) s' := by
        intro s hs
        have hm := method_spec (c := c) hki s hs
        rcases hms : method c (run inner) s with ⟨s', o⟩
        rw [hms] at hm
        dsimp only at hm
        have ho : o = outFn c bi := gives_fn hm.1
        subst ho
        obtain ⟨h1, h2, h3, h4⟩ := hm.2 hab
        have hpe : s'.pending = pend := Bool.eq_iff_iff.mpr (h2.trans hpend.symm)
        refine ⟨{ s' with pending := false }, h1, rfl, h3, h4, ?_⟩
        rw [run_calls' c inner next s s' _ hms hab, hpe]
      refine ⟨b, .calls hci hg hab hpend hcn, fun s hs => ?_, fun hcalm s hs hne => ?_⟩
      · obtain ⟨s', h1, h2, h3, _, h5⟩ := hrun s hs
        rw [h5]
        refine ⟨(hkn s' h2).1, fun hne => ?_⟩
        obtain ⟨k1, k2, k3⟩ := (hkn s' h2).2 hne
        exact ⟨k1.trans h1, k2, Nat.le_trans h3 k3⟩
      · obtain ⟨s', h1, h2, h3, h4, h5⟩ := hrun s hs
        rw [h5, hfn (hcalm.2.2 _ _) s' h2 hne]
        exact h4 hcalm.1 (hfi hcalm.2.1)

end Verif.JniCallback
