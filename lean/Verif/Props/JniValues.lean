import Verif.Jni.ValuesLemmas
/-
C73: values passed through JNI between Rust and Kotlin, as arguments and in buffers.
-/
namespace Verif.Props.JniValues
open Verif.Wire (IntTy Val)
open Verif.Jni Verif.Props.JniLayout

/-! ### What `Typed` says does not depend on the bound -/

theorem allOf_imp {α β : Type} {p q : α → β → Prop} (h : ∀ a b, p a b → q a b) : ∀ (as : List α) (bs : List β),
    AllOf p as bs → AllOf q as bs
  | [], [], _ => trivial
  | [], _ :: _, h' => h'.elim
  | _ :: _, [], h' => h'.elim
  | _ :: as, _ :: bs, h' => ⟨h _ _ h'.1, allOf_imp h as bs h'.2⟩

theorem typed_succ (w : World) : ∀ (n : Nat) (t : Ty) (v : Val), w.Typed n t v → w.Typed (n + 1) t v
  | 0, _, _, h => h.elim
  | n + 1, t, v, h => by
    have ih := typed_succ w n
    unfold World.Typed at h
    split at h
    all_goals first
      | exact h.elim
      | exact h
      | skip
    · exact ⟨h.1, h.2.1, ih _ _ h.2.2.1, h.2.2.2⟩
    · exact ⟨fun v hv => ih _ _ (h.1 v hv), h.2⟩
    · exact ⟨fun v hv => ih _ _ (h.1 v hv), h.2⟩
    · exact ⟨fun e he => ⟨ih _ _ (h.1 e he).1, ih _ _ (h.1 e he).2⟩, h.2⟩
    · exact ih _ _ h
    · obtain ⟨fields, h1, h2⟩ := h
      exact ⟨fields, h1, allOf_imp ih _ _ h2⟩
    · obtain ⟨h0, variants, fields, h1, h2, h3⟩ := h
      exact ⟨h0, variants, fields, h1, h2, allOf_imp ih _ _ h3⟩
    · exact ⟨h.1, ih _ _ h.2⟩

theorem typed_le {w : World} {n m : Nat} (hm : n ≤ m) {t : Ty} {v : Val} (h : w.Typed n t v) : w.Typed m t v := by
  induction hm with
  | refl => exact h
  | step _ ih => exact typed_succ w _ t v ih

/-! ### Values -/

/-- A value taken apart by one side has the FFI types of its type, and put together by either side it is the same value again. Memory
is then what it was before. The only thing that can stop this is a lack of memory. (`m` bounds the
recursion of the model; any bound above the nesting of the value will do. Left out: see `World.Typed`
and `World.FirstFields`.) -/
theorem C73_round_trip_partial (w : World) (hw : w.Good) (hf : w.FirstFields) (n m : Nat) (hm : n ≤ m) (t : Ty) (v : Val)
    (ht : w.Typed n t v) (sender receiver : Side) (h : Heap) :
    (w.fns m).lower sender t v h = .error .oom ∨
    ∃ args h1, (w.fns m).lower sender t v h = .ok (args, h1) ∧ w.ffi.get t = some (args.map FfiVal.ty) ∧
      ((w.fns m).lift receiver t args h1 = .error .oom ∨ (w.fns m).lift receiver t args h1 = .ok (v, h)) := by
  have hl := (passes hw hf m).2 sender t v h (typed_le hm ht)
  unfold Sat at hl
  cases e : (w.fns m).lower sender t v h with
  | error x =>
    rw [e] at hl
    cases x with
    | oom => exact Or.inl rfl
    | _ => exact hl.elim
  | ok r =>
    rw [e] at hl
    obtain ⟨args, h1⟩ := r
    obtain ⟨own, fr, ty, tk⟩ := hl
    refine Or.inr ⟨args, h1, rfl, ty, ?_⟩
    have hr := tk h1 (fun _ _ => rfl) receiver
    unfold Sat at hr
    simp only at hr
    cases e2 : (w.fns m).lift receiver t args h1 with
    | error x =>
      rw [e2] at hr
      cases x with
      | oom => exact Or.inl rfl
      | _ => exact hr.elim
    | ok r =>
      rw [e2] at hr
      obtain ⟨v', h2⟩ := r
      obtain ⟨rfl, rfl⟩ := hr
      rw [fr.drop]
      exact Or.inr rfl

/-- The same for all arguments of a call. -/
theorem C73_arguments_partial (w : World) (hw : w.Good) (hf : w.FirstFields) (n m : Nat) (hm : n ≤ m) (ts : List Ty)
    (vs : List Val) (ht : AllOf (w.Typed n) ts vs) (sender receiver : Side) (h : Heap) :
    lowerAll ((w.fns m).lower sender) ts vs h = .error .oom ∨
    ∃ args h1, lowerAll ((w.fns m).lower sender) ts vs h = .ok (args, h1) ∧
      ts.mapM w.ffi.get = some (args.map (·.map FfiVal.ty)) ∧
      (liftAll ((w.fns m).lift receiver) ts args h1 = .error .oom ∨
        liftAll ((w.fns m).lift receiver) ts args h1 = .ok (vs, h)) := by
  have hl := lowerAll_sat (passes hw hf m).2 sender ts vs h (allOf_imp (fun _ _ => typed_le hm) _ _ ht)
  unfold Sat at hl
  cases e : lowerAll ((w.fns m).lower sender) ts vs h with
  | error x =>
    rw [e] at hl
    cases x with
    | oom => exact Or.inl rfl
    | _ => exact hl.elim
  | ok r =>
    rw [e] at hl
    obtain ⟨args, h1⟩ := r
    obtain ⟨own, fr, ty, tk⟩ := hl
    refine Or.inr ⟨args, h1, rfl, ty, ?_⟩
    have hr := tk h1 (fun _ _ => rfl) receiver
    unfold Sat at hr
    simp only at hr
    cases e2 : liftAll ((w.fns m).lift receiver) ts args h1 with
    | error x =>
      rw [e2] at hr
      cases x with
      | oom => exact Or.inl rfl
      | _ => exact hr.elim
    | ok r =>
      rw [e2] at hr
      obtain ⟨v', h2⟩ := r
      obtain ⟨rfl, rfl⟩ := hr
      rw [fr.drop]
      exact Or.inr rfl

/-- A value written to a place of its size and alignment in a buffer changes no byte outside the place and
nothing else that was allocated. Read by either side, it is the same value again, and apart from the
buffer memory is what it was before. -/
theorem C73_buffer_partial (w : World) (hw : w.Good) (hf : w.FirstFields) (n m : Nat) (hm : n ≤ m) (t : Ty) (v : Val)
    (ht : w.Typed n t v) (l : Layout) (hl : w.layout.get t = some l) (b off size : Nat) (bytes : Nat → Option Nat)
    (h : Heap) (hb : h b = some (.buffer size bytes)) (hsz : off + l.size ≤ size) (ha : l.align ∣ off)
    (writer reader : Side) :
    (w.fns m).write writer t v b off h = .error .oom ∨
    ∃ h1 bytes', (w.fns m).write writer t v b off h = .ok ((), h1) ∧ h1 b = some (.buffer size bytes') ∧
      (∀ i, ¬ (off ≤ i ∧ i < off + l.size) → bytes' i = bytes i) ∧ (∀ a, a ≠ b → h a ≠ none → h1 a = h a) ∧
      ((w.fns m).read reader t b off h1 = .error .oom ∨
        ∃ h2, (w.fns m).read reader t b off h1 = .ok (v, h2) ∧ ∀ a, h2 a = if a = b then h1 b else h a) := by
  have hs := (passes hw hf m).1 writer t v l b off size bytes h (typed_le hm ht) hl ha hsz hb
  unfold Sat at hs
  cases e : (w.fns m).write writer t v b off h with
  | error x =>
    rw [e] at hs
    cases x with
    | oom => exact Or.inl rfl
    | _ => exact hs.elim
  | ok r =>
    rw [e] at hs
    obtain ⟨_, h1⟩ := r
    obtain ⟨own, g, _, rd⟩ := hs
    obtain ⟨s', b1, b2, e1, e2, e3⟩ := g.bytes
    rw [hb] at e1
    cases e1
    refine Or.inr ⟨h1, b2, rfl, e2, e3, ?_, ?_⟩
    · intro a hab hne
      exact g.rest a hab (fun hc => hne (g.new a hc))
    · have hr := rd h1 ⟨size, b2, b2, e2, e2, fun _ _ _ => rfl⟩ (fun _ _ => rfl) reader
      unfold Sat at hr
      simp only at hr
      cases e4 : (w.fns m).read reader t b off h1 with
      | error x =>
        rw [e4] at hr
        cases x with
        | oom => exact Or.inl rfl
        | _ => exact hr.elim
      | ok r =>
        rw [e4] at hr
        obtain ⟨v', h2⟩ := r
        obtain ⟨rfl, rfl⟩ := hr
        refine Or.inr ⟨_, rfl, ?_⟩
        intro a
        by_cases hab : a = b
        · subst hab
          rw [if_pos rfl, drop_of_not_mem g.notMem]
        · rw [if_neg hab]
          by_cases ho : a ∈ own
          · simp [Heap.drop, ho, g.new a ho]
          · rw [drop_of_not_mem ho, g.rest a hab ho]

/-! ### An interface -/

/-- A small record. -/
def item : Name := ⟨"demo", "Item"⟩
/-- An enum with a record in a variant. -/
def state : Name := ⟨"demo", "State"⟩
/-- A custom type for a number. -/
def stamp : Name := ⟨"demo", "Stamp"⟩
/-- A record that can hold another one like it in a box. -/
def node : Name := ⟨"demo", "Node"⟩

/-- An interface with these types. -/
def demoTypes : List (List TypeDef) :=
  [[.record item [.int .u8, .string], .enum state false [[], [.f64, .record item]], .optional (.enum state),
    .optional (.int .i32), .optional (.option (.int .i32)),
    .custom stamp (.int .i64), .optional (.box (.record node)),
    .record node [.seq (.record item), .map .string (.option (.enum state)), .option (.box (.record node)),
      .custom stamp (.int .i64), .bool]]]

/-- Memory with room for a hundred blocks. -/
def demoMachine : Machine where
  newAddr h := (List.range' 1 100).find? fun a => (h a).isNone
  strCap _ s := s.utf8ByteSize

theorem demoMachine_ok : demoMachine.Ok := by
  constructor
  · intro h a e
    have h1 := List.find?_some e
    have h2 := List.mem_of_find?_eq_some e
    rw [List.mem_range'_1] at h2
    refine ⟨?_, by omega, by omega⟩
    cases hx : h a with
    | none => rfl
    | some _ => simp [hx] at h1
  · intro h s hs
    exact ⟨Nat.le_refl _, hs⟩

/-- The interface on that machine. -/
def demo : World where
  nss := demoTypes
  layout := (layouts demoTypes).get (by decide +kernel)
  ffi := (ffiTypes demoTypes).get (by decide +kernel)
  machine := demoMachine

theorem demo_good : demo.Good where
  layout := by simp [demo]
  ffi := by simp [demo]
  names := by decide +kernel
  machine := demoMachine_ok

theorem demo_firstFields : demo.FirstFields := by
  have key : ∀ d ∈ demo.nss.flatten, (match d with
      | .record _ fields => (fields.mapM demo.ffi.get).all fun per => per.flatten.length != 1
      | _ => true) = true := by decide +kernel
  intro n fields hd per hp hl
  have := key _ hd
  simp only [hp, Option.all_some, hl] at this
  exact absurd this (by decide)

/-- A node with two items, a map with one entry that is there and one that is not, and another node. -/
def aNode : Val :=
  .record [
    .seq [.record [.int 7, .str "seven"], .record [.int 255, .str ""]],
    .map [(.str "a", .some (.variant 1 [.float 42, .record [.int 1, .str "x"]])), (.str "b", .none)],
    .some (.box (.record [.seq [], .map [], .none, .int 5, .bool false])),
    .int (-9), .bool true]

/-- It is passed from each side to each side, with as much memory in use as before. -/
example : ∀ a ∈ [Side.rust, .kotlin], ∀ b ∈ [Side.rust, .kotlin],
    (match (do
      let args ← (demo.fns 8).lower a (.record node) aNode
      (demo.fns 8).lift b (.record node) args : M Val) (fun _ => none) with
    | .ok (v, h) => decide (v = aNode) && (List.range 101).all fun a => (h a).isNone
    | .error _ => false) = true := by decide +kernel

theorem aNode_typed : demo.Typed 8 (.record node) aNode := by
  have f1 : demo.layout.itemSize (.record item) = some 32 := by decide +kernel
  have f2 : demo.layout.entry .string (.option (.enum state)) = some (24, 80) := by decide +kernel
  have m1 : TypeDef.record item [.int .u8, .string] ∈ demo.nss.flatten := by decide +kernel
  have m2 : TypeDef.enum state false [[], [.f64, .record item]] ∈ demo.nss.flatten := by decide +kernel
  have m3 : TypeDef.optional (.enum state) ∈ demo.nss.flatten := by decide +kernel
  have m4 : TypeDef.custom stamp (.int .i64) ∈ demo.nss.flatten := by decide +kernel
  have m5 : TypeDef.optional (.box (.record node)) ∈ demo.nss.flatten := by decide +kernel
  have m6 : TypeDef.record node [.seq (.record item), .map .string (.option (.enum state)), .option (.box (.record node)),
      .custom stamp (.int .i64), .bool] ∈ demo.nss.flatten := by decide +kernel
  have it : ∀ (n : Nat) (x : Int) (s : String), IntTy.InRange .u8 x → s.utf8ByteSize < 2 ^ 63 →
      demo.Typed (n + 2) (.record item) (.record [.int x, .str s]) :=
    fun n x s h1 h2 => ⟨_, m1, h1, h2, trivial⟩
  refine ⟨_, m6, ⟨?_, 32, f1, by decide, by decide⟩, ⟨?_, ⟨80, by rw [f2]; rfl, by decide, by decide⟩, by decide⟩,
    ⟨m5, by decide, ⟨_, m6, ⟨?_, 32, f1, by decide, by decide⟩, ⟨?_, ⟨80, by rw [f2]; rfl, by decide, by decide⟩, by decide⟩,
      ⟨m5, by decide, by simp⟩, ⟨m4, by show IntTy.InRange .i64 _; decide⟩, trivial, trivial⟩, rfl, ?_⟩, ⟨m4, by show IntTy.InRange .i64 _; decide⟩, trivial, trivial⟩
  · intro v hv
    simp only [List.mem_cons, List.not_mem_nil, or_false] at hv
    rcases hv with rfl | rfl
    · exact it 4 _ _ (by decide) (by decide)
    · exact it 4 _ _ (by decide) (by decide)
  · intro e he
    simp only [List.mem_cons, List.not_mem_nil, or_false] at he
    rcases he with rfl | rfl
    · exact ⟨by show String.utf8ByteSize _ < _; decide, m3, by decide,
        ⟨by decide, _, _, m2, rfl, by show (42 : Nat) < _; decide, it 2 _ _ (by decide) (by decide), trivial⟩, rfl,
        by simp [Reserved]⟩
    · exact ⟨by show String.utf8ByteSize _ < _; decide, m3, by decide, by simp⟩
  · simp
  · simp
  · simp [Reserved]

/-- The theorem applies to it. -/
example (a b : Side) (h : Heap) :=
  C73_round_trip_partial demo demo_good demo_firstFields 8 8 (Nat.le_refl _) _ _ aNode_typed a b h

/-! ### What is left out does not arrive -/

/-- The run ends with undefined behaviour, or before that for want of memory. -/
def Bad {α : Type} (c : M α) (h : Heap) : Prop := c h = .error .oom ∨ c h = .error .misuse

theorem Bad.now {α β : Type} {c : M α} {k : α → M β} {h : Heap} (hb : Bad c h) : Bad (c >>= k) h := by
  show Bad (M.bind c k) h
  unfold Bad M.bind at *
  rcases hb with hb | hb <;> rw [hb]
  · exact Or.inl rfl
  · exact Or.inr rfl

theorem Bad.later {α β : Type} {c : M α} {k : α → M β} {h : Heap} {Q : α → Heap → Prop} (hc : Sat c h Q)
    (hk : ∀ a h', Q a h' → Bad (k a) h') : Bad (c >>= k) h := by
  show Bad (M.bind c k) h
  unfold Bad Sat at *
  unfold M.bind
  cases e : c h with
  | error x =>
    rw [e] at hc
    cases x with
    | oom => exact Or.inl rfl
    | _ => exact hc.elim
  | ok r =>
    rw [e] at hc
    exact hk _ _ hc

/-- Kotlin counts the bytes of a list with 32 bits. A list of 178956971 strings needs 24 bytes for each, 2^32 + 8 in all;
the buffer gets the 8 bytes that are left of that, and the first string, which Rust writes without a check,
is written past its end. -/
theorem C73_big_list_broken (w : World) (hw : w.Good) (n : Nat) (first : String) (hfirst : first.utf8ByteSize < 2 ^ 63)
    (rest : List Val) (hr : rest.length = 178956970) (h : Heap) :
    Bad ((w.fns (n + 2)).lower .kotlin (.seq .string) (.seq (.str first :: rest))) h := by
  have hk := hw.machine
  have e1 : w.itemsOf (.seq .string) (.seq (.str first :: rest)) =
      some ((.string, 0, .str first) :: listSlots .string 24 24 rest, 4294967304) := by
    show some (listSlots .string 24 0 (.str first :: rest), (Val.str first :: rest).length * 24) = _
    rw [List.length_cons, hr]
    rfl
  show Bad (do
    let (a, cap) ← w.lowerBuf (w.fns (n + 1)) .kotlin (.seq .string) (.seq (.str first :: rest))
    pure [FfiVal.buf a cap]) h
  refine Bad.now ?_
  unfold World.lowerBuf
  rw [e1]
  show Bad (lowerItems .kotlin w.machine ((w.fns (n + 1)).write .kotlin) 4294967304
    ((.string, 0, .str first) :: listSlots .string 24 24 rest)) h
  unfold lowerItems
  have e2 : itemsAlloc .kotlin w.machine 4294967304 = itemsAlloc .kotlin w.machine 8 := by
    simp only [itemsAlloc, kotlinAlloc]
    rw [show castTo .i32 ((4294967304 : Nat) : Int) = castTo .i32 ((8 : Nat) : Int) by decide]
  rw [e2]
  refine Bad.later (itemsAlloc_sat hk .kotlin (by decide) h) ?_
  rintro ⟨a, cap⟩ h1 ⟨_, _, hcase⟩
  obtain ⟨_, bs, hb, _⟩ := hcase.resolve_left (by omega)
  simp only at hb ⊢
  refine Bad.now ?_
  simp only [writeSlots]
  refine Bad.now ?_
  show Bad (writeText w.machine a 0 first) h1
  unfold writeText
  have hnew : Sat (newText w.machine first) h1 fun r h2 => r.1 < 2 ^ 64 ∧ ∃ bs, h2 a = some (.buffer 8 bs) := by
    unfold Sat newText
    simp only
    by_cases hz : w.machine.strCap h1 first = 0
    · simp only [hz, if_true]
      exact ⟨by omega, bs, hb⟩
    · simp only [hz, if_false]
      cases ha : w.machine.newAddr h1 with
      | none => trivial
      | some x =>
        obtain ⟨f1, _, f3⟩ := hk.fresh _ _ ha
        have hxa : a ≠ x := by
          rintro rfl
          rw [hb] at f1
          exact nomatch f1
        exact ⟨f3, bs, by simp [Heap.set, hxa, hb]⟩
  refine Bad.later hnew ?_
  rintro ⟨x, len, c⟩ h2 ⟨hx, bs2, hb2⟩
  simp only at hx ⊢
  refine Bad.later (store_sat (by omega) hb2 (by omega) (by omega)) ?_
  rintro _ h3 ⟨_, g⟩
  obtain ⟨bs3, hb3⟩ := g.size hb2
  refine Bad.now (Or.inr ?_)
  unfold store
  rw [hb3]
  rfl

/-- Such a list exists, and a buffer of that size too. -/
example : ∃ rest : List Val, rest.length = 178956970 := ⟨List.replicate _ .none, List.length_replicate⟩

/-- A value there is that holds no value arrives in Kotlin as no value; Rust can tell the two apart. -/
theorem C73_nested_option_broken :
    (match (do
      let args ← (demo.fns 3).lower .rust (.option (.option (.int .i32))) (.some .none)
      (demo.fns 3).lift .kotlin (.option (.option (.int .i32))) args : M Val) (fun _ => none) with
    | .ok (v, _) => decide (v = .none)
    | .error _ => false) = true ∧
    (match (do
      let args ← (demo.fns 3).lower .rust (.option (.option (.int .i32))) (.some .none)
      (demo.fns 3).lift .rust (.option (.option (.int .i32))) args : M Val) (fun _ => none) with
    | .ok (v, _) => decide (v = .some .none)
    | .error _ => false) = true := by decide +kernel

/-- An object whose handle is negative as a signed number (on Android, pointers to the heap can have a tag in
their highest byte) arrives in Kotlin as null when it is passed as an option, and as itself when it is
passed as it is. -/
theorem C73_negative_handle_broken (w : World) (n : Nat) (name : Name) (x : Nat) (h1 : 2 ^ 63 ≤ x) (h2 : x < 2 ^ 64)
    (h : Heap) :
    (do
      let args ← (w.fns (n + 1)).lower .rust (.option (.iface name)) (.some (.handle x))
      (w.fns (n + 1)).lift .kotlin (.option (.iface name)) args : M Val) h = .ok (.none, h) ∧
    (do
      let args ← (w.fns (n + 1)).lower .rust (.iface name) (.handle x)
      (w.fns (n + 1)).lift .kotlin (.iface name) args : M Val) h = .ok (.handle x, h) := by
  have e : castTo .i64 (x : Int) = x - 18446744073709551616 := by
    simp only [castTo, IntTy.signed, IntTy.width, true_and, Nat.reduceMul, Nat.reduceSub, Int.reducePow]
    split <;> omega
  have hc := castTo_handle h2
  constructor
  · show (M.some! .failed (liftSmallOption .kotlin (.iface name) (.num .int64 (castTo .i64 x)))) h = _
    simp only [liftSmallOption]
    rw [if_neg (by omega)]
    rfl
  · show (M.pure (Val.handle (castTo .u64 (castTo .i64 (x : Int))).toNat)) h = _
    rw [hc]
    rfl

example : (2 ^ 63 : Nat) ≤ 0xB400_0000_0000_1000 ∧ 0xB400_0000_0000_1000 < 2 ^ 64 := by decide

end Verif.Props.JniValues
