import Verif.Abi.TableLemmas
/-
C50 and C52: both sides of the C interface agree on signatures and on the tables of callbacks.
-/
namespace Verif.Props.Abi
open Verif.Meta Verif.Abi

/-! ### C52: signatures -/

/-- What is read back from the metadata of a function. -/
theorem read_meaning {f : FnSrc} {bs rest : Bytes} {m : Metadata} (he : (Item.fn f).emit = some bs)
    (hr : readMetadata (bs ++ rest) = .ok m) :
    ∃ c0 c1 c2, (Item.fn f).meaning c0 c1 c2 = some m := by
  obtain ⟨c1, c2, h⟩ := Props.Metadata.C39_item_round_trip _ _ he
  have h := h rest
  rw [hr] at h
  refine ⟨fnv16 bs, c1, c2, ?_⟩
  split at h
  · rename_i m' e; simp only [Res.ok.injEq] at h; rw [e, h]
  · simp at h

theorem foreign_ne : Rust.foreignBytes ≠ Rust.rustBuffer := by
  simp [Rust.foreignBytes, Rust.rustBuffer]

theorem foreign_noSign_ne : Rust.foreignBytes.noSign ≠ Rust.rustBuffer.noSign := by
  simp [Rust.foreignBytes, Rust.rustBuffer, CTy.noSign, CTy.noSigns]

/-- Python: what is declared for an exported function, method or constructor is the signature the
scaffolding has, for every list of argument types, as long as no argument is a `&Vec<u8>`; with such
an argument it never is. -/
theorem C52_python_partial (ctx : Ctx) (recv : RTy) (f : FnSrc) (bs rest : Bytes) (m : Metadata)
    (hx : Exported recv f) (he : (Item.fn f).emit = some bs)
    (hr : readMetadata (bs ++ rest) = .ok m) :
    ∃ d, pipelineDecl ctx recv.toMeta m = some d ∧
      (Python.sig d = scaffoldSig recv f ↔ ∀ a ∈ f.args, ¬ RefToVec a) := by
  obtain ⟨c0, c1, c2, hm⟩ := read_meaning he hr
  obtain ⟨d, args, hd, hp⟩ := pipeline_parts ctx hx hm
  refine ⟨d, hd, ?_⟩
  have ha := arg_agrees (python_agrees ctx) rfl foreign_ne
  have h1 := parts_params (python_agrees ctx) ha hx hp (.ptr (some Python.rustCallStatus)) rfl
  have h2 := parts_ret (python_agrees ctx) rfl hx hp
  simp only [id_eq, Option.map_id_fun, List.map_id] at h1 h2
  rw [← h1]
  constructor
  · intro e; rw [← e]; simp [Python.sig, python_ctypes]
  · intro e
    have e2 : (Python.sig d).ret = (scaffoldSig recv f).ret := by
      rw [← h2]; simp [Python.sig, python_opt]
    have e1 : (Python.sig d).params = (scaffoldSig recv f).params := by
      rw [← e]; simp [Python.sig, python_ctypes]
    cases h : Python.sig d; cases h' : scaffoldSig recv f
    rw [h, h'] at e1 e2; simp_all

/-- Swift: the same. -/
theorem C52_swift_partial (recv : RTy) (f : FnSrc) (bs rest : Bytes) (m : Metadata)
    (hx : Exported recv f) (he : (Item.fn f).emit = some bs)
    (hr : readMetadata (bs ++ rest) = .ok m) :
    ∃ d, legacyDecl recv.toMeta m = some d ∧
      (Swift.sig d = scaffoldSig recv f ↔ ∀ a ∈ f.args, ¬ RefToVec a) := by
  obtain ⟨c0, c1, c2, hm⟩ := read_meaning he hr
  obtain ⟨d, args, hd, hp⟩ := legacy_parts hx hm
  refine ⟨d, hd, ?_⟩
  have ha := arg_agrees swift_agrees rfl foreign_ne
  have h1 := parts_params swift_agrees ha hx hp (.ptr (some Swift.rustCallStatus)) rfl
  have h2 := parts_ret swift_agrees rfl hx hp
  simp only [id_eq, Option.map_id_fun, List.map_id] at h1 h2
  rw [← h1]
  constructor
  · intro e; rw [← e]; simp [Swift.sig, swift_ctypes]
  · intro e
    have e2 : (Swift.sig d).ret = (scaffoldSig recv f).ret := by
      rw [← h2]; simp [Swift.sig, swift_opt]
    have e1 : (Swift.sig d).params = (scaffoldSig recv f).params := by
      rw [← e]; simp [Swift.sig, swift_ctypes]
    cases h : Swift.sig d; cases h' : scaffoldSig recv f
    rw [h, h'] at e1 e2; simp_all

/-- What Kotlin declares for a returned value. -/
theorem kotlin_direct (t : RTy) (h : NoSlice t) :
    (Kotlin.directReturn (legacyFfi t.toMeta)).noSign = widened (rustFfi t) := by
  induction t with
  | custom m n t ih =>
    have ih := ih h
    simp only [RTy.toMeta, legacyFfi, rustFfi] at ih ⊢
    split
    · rename_i e; rw [e] at ih; rw [← ih]; rfl
    · exact ih
  | box t ih => exact ih h
  | byteSlice => exact absurd h (by simp [NoSlice])
  | vec t ih =>
    rcases vec_cases t with e | ⟨u, e⟩ <;> rw [e] <;> rfl
  | _ => rfl

/-- Kotlin, which has no unsigned types: apart from signs all parameters agree with the scaffolding
exactly when no argument is a `&Vec<u8>`; the returned value agrees except that an unsigned byte or
short is read as a 32 bit integer. -/
theorem C52_kotlin_partial (recv : RTy) (f : FnSrc) (bs rest : Bytes) (m : Metadata)
    (hx : Exported recv f) (he : (Item.fn f).emit = some bs)
    (hr : readMetadata (bs ++ rest) = .ok m) :
    ∃ d, legacyDecl recv.toMeta m = some d ∧
      ((Kotlin.sig d).params.map CTy.noSign = (scaffoldSig recv f).params.map CTy.noSign ↔
        ∀ a ∈ f.args, ¬ RefToVec a) ∧
      (Kotlin.sig d).ret.map CTy.noSign = (scaffoldSig recv f).ret.map widened := by
  obtain ⟨c0, c1, c2, hm⟩ := read_meaning he hr
  obtain ⟨d, args, hd, hp⟩ := legacy_parts hx hm
  refine ⟨d, hd, ?_, ?_⟩
  · have ha := arg_agrees kotlin_agrees rfl foreign_noSign_ne
    have h1 := parts_params kotlin_agrees ha hx hp (.ptr (some Kotlin.rustCallStatus)) rfl
    rw [← h1]
    simp [Kotlin.sig, kotlin_ctypes]
  · simp only [Kotlin.sig, Option.map_map]
    cases ha : f.isAsync with
    | true => simp [hp.retAsync ha, scaffoldSig, ha]; rfl
    | false =>
      simp only [hp.ret ha, scaffoldSig, ha, Bool.false_eq_true, if_false]
      have hret := hx.ret
      cases h : f.ret with
      | plain t =>
        cases t with
        | none => rfl
        | some t =>
          rw [h] at hret
          simp [RetSrc.returns, rustReturn, kotlin_direct t (hret t rfl)]
      | result t e =>
        cases t with
        | none => rfl
        | some t =>
          rw [h] at hret
          simp [RetSrc.returns, rustReturn, kotlin_direct t (hret t rfl)]

/-- Ruby, which declares most pointers without what they point to: apart from that the signature
agrees with the scaffolding exactly when no argument borrows bytes, neither as `&[u8]` nor as
`&Vec<u8>`. -/
theorem C52_ruby_partial (recv : RTy) (f : FnSrc) (bs rest : Bytes) (m : Metadata)
    (hx : Exported recv f) (he : (Item.fn f).emit = some bs)
    (hr : readMetadata (bs ++ rest) = .ok m) :
    ∃ d, legacyDecl recv.toMeta m = some d ∧
      ((Ruby.sig d).map CTy.noPointee = (scaffoldSig recv f).map CTy.noPointee ↔
        ∀ a ∈ f.args, ¬ RefToBytes a) := by
  obtain ⟨c0, c1, c2, hm⟩ := read_meaning he hr
  obtain ⟨d, args, hd, hp⟩ := legacy_parts hx hm
  refine ⟨d, hd, ?_⟩
  have ha := arg_agrees_none ruby_agrees
    (by simp [Ruby.ctype, Rust.foreignBytes, CTy.noPointee])
    (by simp [Ruby.ctype, Rust.rustBuffer, CTy.noPointee])
  have h1 := parts_params ruby_agrees ha hx hp (.ptr (some Ruby.rustCallStatus)) rfl
  have h2 := parts_ret ruby_agrees rfl hx hp
  rw [← h1]
  constructor
  · intro e
    have := congrArg CSig.params e
    simpa [CSig.map, Ruby.sig, ruby_ctypes] using this
  · intro e
    simp only [CSig.map, Ruby.sig, Option.map_map, ruby_ctypes, e, ← h2]
    rfl

/-- The completion functions of a type. -/
theorem suffix_of {ffi : MTy → FTy} {r : RetSrc} (hr : RetOk r)
    (h : ∀ t, NoSlice t → ∃ s, futureSuffix (some (ffi t.toMeta)) = some s ∧
      completesAs s = some (some (rustFfi t))) :
    ∃ s, futureSuffix (r.returns.map ffi) = some s ∧ completesAs s = some (rustReturn r) := by
  cases r with
  | plain t =>
    cases t with
    | none => exact ⟨"void", rfl, rfl⟩
    | some t => exact h t (hr t rfl)
  | result t e =>
    cases t with
    | none => exact ⟨"void", rfl, rfl⟩
    | some t => exact h t (hr t rfl)

theorem pipeline_suffix (ctx : Ctx) (t : RTy) (h : NoSlice t) :
    ∃ s, futureSuffix (some (pipelineFfi ctx t.toMeta)) = some s ∧
      completesAs s = some (some (rustFfi t)) := by
  induction t with
  | custom m n t ih =>
    obtain ⟨s, h1, h2⟩ := ih h
    simp only [RTy.toMeta, pipelineFfi, rustFfi]
    split
    · rename_i e
      rw [e] at h1
      refine ⟨s, ?_, h2⟩
      rw [← h1]
      split <;> rfl
    · exact ⟨s, h1, h2⟩
  | box t ih => exact ih h
  | byteSlice => exact absurd h (by simp [NoSlice])
  | vec t ih => rcases vec_cases t with e | ⟨u, e⟩ <;> rw [e] <;> exact ⟨_, rfl, rfl⟩
  | _ => exact ⟨_, rfl, rfl⟩

theorem legacy_suffix (t : RTy) (h : NoSlice t) :
    ∃ s, futureSuffix (some (legacyFfi t.toMeta)) = some s ∧
      completesAs s = some (some (rustFfi t)) := by
  induction t with
  | custom m n t ih =>
    obtain ⟨s, h1, h2⟩ := ih h
    simp only [RTy.toMeta, legacyFfi, rustFfi]
    split
    · rename_i e
      rw [e] at h1
      exact ⟨s, h1 ▸ rfl, h2⟩
    · exact ⟨s, h1, h2⟩
  | box t ih => exact ih h
  | byteSlice => exact absurd h (by simp [NoSlice])
  | vec t ih => rcases vec_cases t with e | ⟨u, e⟩ <;> rw [e] <;> exact ⟨_, rfl, rfl⟩
  | _ => exact ⟨_, rfl, rfl⟩

theorem object_return {r : RetSrc} {m s : String} (h : r.returns = some (.object m s .struct)) :
    rustReturn r = some Rust.handle := by
  have key : ∀ t : RTy, t.toMeta = .object m s .struct → rustFfi t = Rust.handle := by
    intro t ht
    cases t with
    | object => rfl
    | traitObject => rfl
    | vec t => rcases vec_cases t with e | ⟨u, e⟩ <;> rw [e] at ht <;> simp at ht
    | _ => simp [RTy.toMeta] at ht
  cases r with
  | plain t => cases t <;> simp_all [RetSrc.returns, rustReturn]
  | result t e => cases t <;> simp_all [RetSrc.returns, rustReturn]

/-- Async functions: the completion function every generator uses takes the finished value for what
the scaffolding makes it. -/
theorem C52_completion (ctx : Ctx) (recv : RTy) (f : FnSrc) (bs rest : Bytes) (m : Metadata)
    (hx : Exported recv f) (he : (Item.fn f).emit = some bs)
    (hr : readMetadata (bs ++ rest) = .ok m) :
    (∃ s, pipelineFuture ctx recv.toMeta m = some s ∧ completesAs s = some (rustReturn f.ret)) ∧
      ∃ s, legacyFuture recv.toMeta m = some s ∧ completesAs s = some (rustReturn f.ret) := by
  obtain ⟨c0, c1, c2, h⟩ := read_meaning he hr
  have p := suffix_of hx.ret (pipeline_suffix ctx)
  have l := suffix_of hx.ret legacy_suffix
  simp only [Item.meaning] at h
  split at h
  · simp only [Option.map_eq_some_iff] at h
    obtain ⟨mf, hf, rfl⟩ := h
    simpa only [pipelineFuture, legacyFuture, (fn_parts hf).2.1] using ⟨p, l⟩
  · simp only [Option.map_eq_some_iff] at h
    obtain ⟨mf, hf, rfl⟩ := h
    simpa only [pipelineFuture, legacyFuture, (fn_parts hf).2.1] using ⟨p, l⟩
  · simp only [Option.map_eq_some_iff] at h
    obtain ⟨mf, hf, rfl⟩ := h
    simpa only [pipelineFuture, legacyFuture, (fn_parts hf).2.1] using ⟨p, l⟩
  · rename_i s k
    split at h
    · rename_i hc
      simp only [Option.map_eq_some_iff] at h
      obtain ⟨mf, hf, rfl⟩ := h
      obtain ⟨mo, hmo⟩ := hx.object s k
      obtain ⟨mo', hmo'⟩ := constructs_handle hc
      rw [object_return hmo', hmo]
      exact ⟨⟨"u64", rfl, rfl⟩, "u64", rfl, rfl⟩
    · simp at h

/-! Examples for C52. -/

theorem greet_exported : Exported (.object "my" "Greeter") Metadata.greet where
  args := by simp [Metadata.greet, ArgOk, NoSlice]
  ret := by intro x h; simp at h; subst h; simp [NoSlice]
  receiver := by simp [IsReceiver]
  object := by simp [Metadata.greet]

/-- A method: `fn put(&self, a: &[u8], b: Vec<u8>) -> u8`. -/
def put : FnSrc :=
  { kind := .method "Store", modulePath := "my", name := "put", origName := none, isAsync := false
    args := [{ name := "a", ty := .byteSlice, passBy := .ref, default := none },
             { name := "b", ty := .vec .u8, passBy := .value, default := none }]
    ret := .plain (some .u8), docstring := "" }

/-- The same with `a: &Vec<u8>`. -/
def putVec : FnSrc :=
  { put with args := [{ name := "a", ty := .vec .u8, passBy := .ref, default := none }] }

theorem put_exported : Exported (.object "my" "Store") put where
  args := by simp [put, ArgOk, NoSlice]
  ret := by intro x h; simp at h; subst h; simp [NoSlice]
  receiver := by simp [IsReceiver]
  object := by simp [put]

theorem putVec_exported : Exported (.object "my" "Store") putVec where
  args := by simp [putVec, ArgOk, NoSlice]
  ret := by intro x h; simp [putVec, put] at h; subst h; simp [NoSlice]
  receiver := by simp [IsReceiver]
  object := by simp [putVec, put]

theorem read_of_meaning {f : FnSrc} {bs : Bytes} (he : (Item.fn f).emit = some bs)
    (h : ∀ c c1 c2, ∃ m, (Item.fn f).meaning c c1 c2 = some m) :
    ∃ m, ∀ rest, readMetadata (bs ++ rest) = .ok m := by
  obtain ⟨c1, c2, hr⟩ := Props.Metadata.C39_item_round_trip _ _ he
  obtain ⟨m, hm⟩ := h (fnv16 bs) c1 c2
  exact ⟨m, fun rest => by rw [hr rest, hm]⟩

theorem put_compiles : ∃ bs m, (Item.fn put).emit = some bs ∧
    ∀ rest, readMetadata (bs ++ rest) = .ok m := by
  have he : (Item.fn put).emit = some [1, 2, 109, 121, 5, 83, 116, 111, 114, 101, 3, 112, 117, 116, 0,
      0, 2, 1, 97, 17, 0, 1, 0, 0, 1, 98, 17, 0, 0, 0, 0, 0, 0, 0] :=
    Metadata.emits (by decide +kernel)
  obtain ⟨m, hm⟩ := read_of_meaning he fun c c1 c2 => ⟨_, rfl⟩
  exact ⟨_, m, he, hm⟩

theorem putVec_compiles : ∃ bs m, (Item.fn putVec).emit = some bs ∧
    ∀ rest, readMetadata (bs ++ rest) = .ok m := by
  have he : (Item.fn putVec).emit = some [1, 2, 109, 121, 5, 83, 116, 111, 114, 101, 3, 112, 117, 116,
      0, 0, 1, 1, 97, 17, 0, 1, 0, 0, 0, 0, 0] :=
    Metadata.emits (by decide +kernel)
  obtain ⟨m, hm⟩ := read_of_meaning he fun c c1 c2 => ⟨_, rfl⟩
  exact ⟨_, m, he, hm⟩

/-- A method with `&[u8]`, `Vec<u8>` and a returned byte: Python and Swift declare exactly its
signature. -/
example : ∃ bs m d d', (Item.fn put).emit = some bs ∧ readMetadata bs = .ok m ∧
    pipelineDecl ⟨"my", id⟩ (RTy.object "my" "Store").toMeta m = some d ∧
    Python.sig d = scaffoldSig (.object "my" "Store") put ∧
    legacyDecl (RTy.object "my" "Store").toMeta m = some d' ∧
    Swift.sig d' = scaffoldSig (.object "my" "Store") put := by
  obtain ⟨bs, m, he, hr⟩ := put_compiles
  obtain ⟨d, h1, h2⟩ := C52_python_partial ⟨"my", id⟩ _ _ _ [] _ put_exported he (hr [])
  obtain ⟨d', h3, h4⟩ := C52_swift_partial _ _ _ [] _ put_exported he (hr [])
  have hn : ∀ a ∈ put.args, ¬ RefToVec a := by simp [put, RefToVec]
  have hr := hr []
  rw [List.append_nil] at hr
  exact ⟨bs, m, d, d', he, hr, h1, h2.2 hn, h3, h4.2 hn⟩

/-- C52: a function with a `&Vec<u8>` argument compiles, and no generator declares its signature:
the scaffolding expects a `RustBuffer`, 24 bytes, where the bindings pass a `ForeignBytes`. -/
theorem C52_vec_broken : ∃ bs m d d', (Item.fn putVec).emit = some bs ∧ readMetadata bs = .ok m ∧
    pipelineDecl ⟨"my", id⟩ (RTy.object "my" "Store").toMeta m = some d ∧
    Python.sig d ≠ scaffoldSig (.object "my" "Store") putVec ∧
    legacyDecl (RTy.object "my" "Store").toMeta m = some d' ∧
    Swift.sig d' ≠ scaffoldSig (.object "my" "Store") putVec ∧
    (Kotlin.sig d').params.map CTy.noSign ≠
      (scaffoldSig (.object "my" "Store") putVec).params.map CTy.noSign := by
  obtain ⟨bs, m, he, hr⟩ := putVec_compiles
  obtain ⟨d, h1, h2⟩ := C52_python_partial ⟨"my", id⟩ _ _ _ [] _ putVec_exported he (hr [])
  obtain ⟨d', h3, h4⟩ := C52_swift_partial _ _ _ [] _ putVec_exported he (hr [])
  obtain ⟨d'', h5, h6, -⟩ := C52_kotlin_partial _ _ _ [] _ putVec_exported he (hr [])
  rw [h3] at h5
  simp only [Option.some.injEq] at h5
  subst h5
  have hn : ¬ ∀ a ∈ putVec.args, ¬ RefToVec a := by simp [putVec, RefToVec]
  have hr := hr []
  rw [List.append_nil] at hr
  exact ⟨bs, m, d, d', he, hr, h1, fun e => hn (h2.1 e), h3, fun e => hn (h4.1 e),
    fun e => hn (h6.1 e)⟩

/-- C52: in Ruby a `&[u8]` argument is declared as a pointer. -/
theorem C52_ruby_slice_broken : ∃ bs m d, (Item.fn put).emit = some bs ∧ readMetadata bs = .ok m ∧
    legacyDecl (RTy.object "my" "Store").toMeta m = some d ∧
    (Ruby.sig d).map CTy.noPointee ≠
      (scaffoldSig (.object "my" "Store") put).map CTy.noPointee := by
  obtain ⟨bs, m, he, hr⟩ := put_compiles
  obtain ⟨d, h1, h2⟩ := C52_ruby_partial _ _ _ [] _ put_exported he (hr [])
  have hn : ¬ ∀ a ∈ put.args, ¬ RefToBytes a := by simp [put, RefToBytes]
  have hr := hr []
  rw [List.append_nil] at hr
  exact ⟨bs, m, d, he, hr, h1, fun e => hn (h2.1 e)⟩

/-- `greet` is async and returns bytes. -/
example : ∃ m s, readMetadata Metadata.greetBytes = .ok m ∧
    legacyFuture (RTy.object "my" "Greeter").toMeta m = some s ∧
    completesAs s = some (some Rust.rustBuffer) := by
  obtain ⟨m, hm⟩ := read_of_meaning Metadata.greet_emits fun c c1 c2 => ⟨_, rfl⟩
  obtain ⟨-, s, h1, h2⟩ :=
    C52_completion ⟨"my", id⟩ _ _ _ [] _ greet_exported Metadata.greet_emits (hm [])
  have hr := hm []
  rw [List.append_nil] at hr
  exact ⟨m, s, hr, h1, h2⟩

/-! ### C50: tables of callbacks -/

theorem get_source {ms : List FnSrc} {fs : List MFn} (h : ms.map source = fs.map some) {i : Nat}
    {f : FnSrc} (hi : ms[i]? = some f) : ∃ g, fs[i]? = some g ∧ source f = some g := by
  have := congrArg (fun l => l[i]?) h
  simp only [List.getElem?_map, hi, Option.map_some] at this
  cases hg : fs[i]? with
  | none => simp [hg] at this
  | some g => simp [hg] at this; exact ⟨g, rfl, this⟩

theorem names_eq {ms : List FnSrc} {fs : List MFn} (h : ms.map source = fs.map some) :
    fs.map (·.name) = ms.map (·.name) := by
  have hl : ms.length = fs.length := by simpa using congrArg List.length h
  apply List.ext_getElem (by simp [hl])
  intro i h1 h2
  simp only [List.length_map] at h1 h2
  obtain ⟨g, hg, hs⟩ := get_source h (List.getElem?_eq_getElem h2)
  obtain ⟨c, hm⟩ := source_meaning hs
  simp only [List.getElem_map]
  rw [(List.getElem?_eq_some_iff.1 hg).2, (fn_parts hm).2.2.2.1]

/-- C50: Python puts the methods in source order, whatever the order of the items in the library and
even with repetitions; two methods of one name are rejected. -/
theorem C50_order_python (crate tr : String) (ms : List FnSrc) (items : List Metadata)
    (L : Library crate tr ms items) :
    ∃ fs, ms.map source = fs.map some ∧ pipelineMethods crate tr items =
      if (ms.map (·.name)).Nodup then some fs else none := by
  obtain ⟨fs, h1, h2, h3, h4⟩ := library_sources L
  refine ⟨fs, h1, ?_⟩
  rw [pipeline_eq h2 h3, names_eq h1]

/-- C50: the other generators put the methods in source order, whatever the order of the items. The
check of the positions never fails. -/
theorem C50_order_legacy (tie : MFn → MFn → Bool) (callback : Bool) (crate tr : String)
    (ms : List FnSrc) (items : List Metadata) (L : Library crate tr ms items) :
    ∃ fs, ms.map source = fs.map some ∧
      legacyMethods tie callback tr (itemsOf crate items) = some fs := by
  obtain ⟨fs, h1, h2, h3, h4⟩ := library_sources L
  exact ⟨fs, h1, legacy_eq h2 h4⟩

theorem python_status : Python.rustCallStatus = Rust.rustCallStatus := rfl

theorem swift_status : Swift.rustCallStatus = Rust.rustCallStatus := rfl

theorem kotlin_status : Kotlin.rustCallStatus.noSign = Rust.rustCallStatus.noSign := rfl

theorem ruby_status : Ruby.rustCallStatus.noPointee = Rust.rustCallStatus.noPointee := rfl

/-- One field in Python. -/
theorem python_field (ctx : Ctx) {f : FnSrc} {g : MFn} {c : UInt16} (hc : Callable f)
    (hm : f.meaning c = some g) :
    Python.ctype (pipelineVtableField ctx g).field = rustVtableField f := by
  obtain ⟨h1, h2, h3, -, -⟩ := fn_parts hm
  have ha := (field_args (python_agrees ctx) f.args g.inputs hc.args h1).1
  have hr := returns_ffi (python_agrees ctx) hc.ret
  simp only [id_eq, Option.map_id_fun] at ha hr
  cases hx : f.isAsync with
  | true =>
    simp only [pipelineVtableField, h3, hx, if_true, rustVtableField, Decl.field, Python.ctype,
      python_ctypes, List.map_cons, List.map_append, List.map_map, h2, List.map_nil, futureComplete,
      droppedStruct, Rust.foreignFutureCallback, Rust.droppedCallbackStruct,
      Rust.foreignFutureResult, ← ha, ← hr, Python.optCtype, Function.comp_def]
    cases f.ret.returns <;> simp [python_status]
  | false =>
    simp only [pipelineVtableField, h3, hx, rustVtableField, Decl.field, Python.ctype,
      python_ctypes, List.map_append, List.map_cons, List.map_map, h2, List.map_nil, ← ha, ← hr,
      Python.optCtype, Bool.false_eq_true, if_false, if_true, Function.comp_def]
    cases f.ret.returns <;> simp [Python.ctype, python_status]

/-- One field in Swift. -/
theorem swift_field {f : FnSrc} {g : MFn} {c : UInt16} (hc : Callable f)
    (hm : f.meaning c = some g) :
    Swift.ctype (legacyVtableField g).field = rustVtableField f := by
  obtain ⟨h1, h2, h3, -, -⟩ := fn_parts hm
  have ha := field_args swift_agrees f.args g.inputs hc.args h1
  have hr := returns_ffi swift_agrees hc.ret
  simp only [id_eq, Option.map_id_fun] at ha hr
  cases hx : f.isAsync with
  | true =>
    simp only [legacyVtableField, h3, hx, if_true, rustVtableField, Decl.field, Swift.ctype,
      swift_ctypes, ha.2, List.map_cons, List.map_append, List.map_map, h2, List.map_nil,
      futureComplete, droppedStruct, Rust.foreignFutureCallback, Rust.droppedCallbackStruct,
      Rust.foreignFutureResult, ← ha.1, ← hr, Swift.optCtype, Function.comp_def]
    cases f.ret.returns <;> simp [swift_status]
  | false =>
    simp only [legacyVtableField, h3, hx, rustVtableField, Decl.field, Swift.ctype,
      swift_ctypes, ha.2, List.map_append, List.map_cons, List.map_map, h2, List.map_nil, ← ha.1,
      ← hr, Swift.optCtype, Bool.false_eq_true, if_false, if_true, Function.comp_def]
    cases f.ret.returns <;> simp [Swift.ctype, swift_status]

/-- One field in Kotlin. -/
theorem kotlin_field {f : FnSrc} {g : MFn} {c : UInt16} (hc : Callable f)
    (hm : f.meaning c = some g) :
    (Kotlin.ctype (legacyVtableField g).field).noSign = (rustVtableField f).noSign := by
  obtain ⟨h1, h2, h3, -, -⟩ := fn_parts hm
  have ha := field_args kotlin_agrees f.args g.inputs hc.args h1
  have hr := returns_ffi kotlin_agrees hc.ret
  cases hx : f.isAsync with
  | true =>
    simp only [legacyVtableField, h3, hx, if_true, rustVtableField, Decl.field, Kotlin.ctype,
      kotlin_ctypes, ha.2, List.map_cons, List.map_append, List.map_map, h2, List.map_nil,
      futureComplete, droppedStruct, Rust.foreignFutureCallback, Rust.droppedCallbackStruct,
      Rust.foreignFutureResult, Kotlin.optCtype, Function.comp_def, CTy.noSign, noSigns_map,
      noSignOpt_map]
    rw [← ha.1]
    cases hrr : f.ret.returns with
    | none =>
      rw [hrr] at hr
      cases hq : rustReturn f.ret with
      | none => simp [CTy.noSign, CTy.noSignOpt, noSigns_map, kotlin_status, Kotlin.ctype]
      | some q => rw [hq] at hr; simp at hr
    | some t =>
      rw [hrr] at hr
      cases hq : rustReturn f.ret with
      | none => rw [hq] at hr; simp at hr
      | some q =>
        rw [hq] at hr
        simp only [Option.map_some, Option.some.injEq] at hr
        simp [hr, CTy.noSign, CTy.noSignOpt, noSigns_map, kotlin_status]
  | false =>
    simp only [legacyVtableField, h3, hx, rustVtableField, Decl.field, Kotlin.ctype,
      kotlin_ctypes, ha.2, List.map_append, List.map_cons, List.map_map, h2, List.map_nil,
      Kotlin.optCtype, Bool.false_eq_true, if_false, if_true, Function.comp_def, CTy.noSign,
      noSigns_map, noSignOpt_map]
    rw [← ha.1]
    cases hrr : f.ret.returns with
    | none =>
      rw [hrr] at hr
      cases hq : rustReturn f.ret with
      | none => simp [CTy.noSign, CTy.noSignOpt, noSigns_map, kotlin_status, Kotlin.ctype]
      | some q => rw [hq] at hr; simp at hr
    | some t =>
      rw [hrr] at hr
      cases hq : rustReturn f.ret with
      | none => rw [hq] at hr; simp at hr
      | some q =>
        rw [hq] at hr
        simp only [Option.map_some, Option.some.injEq] at hr
        simp [Kotlin.ctype, CTy.noSign, CTy.noSignOpt, hr, kotlin_status]

/-- One field in Ruby. -/
theorem ruby_field {f : FnSrc} {g : MFn} {c : UInt16} (hc : Callable f)
    (hm : f.meaning c = some g) :
    (Ruby.ctype (legacyVtableField g).field).noPointee = (rustVtableField f).noPointee := by
  obtain ⟨h1, h2, h3, -, -⟩ := fn_parts hm
  have ha := field_args ruby_agrees f.args g.inputs hc.args h1
  have hr := returns_ffi ruby_agrees hc.ret
  cases hx : f.isAsync with
  | true =>
    simp only [legacyVtableField, h3, hx, if_true, rustVtableField, Decl.field, Ruby.ctype,
      ruby_ctypes, ha.2, List.map_cons, List.map_append, List.map_map, h2, List.map_nil,
      futureComplete, droppedStruct, Rust.foreignFutureCallback, Rust.droppedCallbackStruct,
      Rust.foreignFutureResult, Ruby.optCtype, Function.comp_def, CTy.noPointee, noPointees_map,
      noPointeeOpt_map]
    rw [← ha.1]
    cases hrr : f.ret.returns with
    | none =>
      rw [hrr] at hr
      cases hq : rustReturn f.ret with
      | none => simp [CTy.noPointee, CTy.noPointeeOpt, noPointees_map, ruby_status, Ruby.ctype]
      | some q => rw [hq] at hr; simp at hr
    | some t =>
      rw [hrr] at hr
      cases hq : rustReturn f.ret with
      | none => rw [hq] at hr; simp at hr
      | some q =>
        rw [hq] at hr
        simp only [Option.map_some, Option.some.injEq] at hr
        simp [hr, CTy.noPointee, CTy.noPointeeOpt, noPointees_map, ruby_status]
  | false =>
    simp only [legacyVtableField, h3, hx, rustVtableField, Decl.field, Ruby.ctype,
      ruby_ctypes, ha.2, List.map_append, List.map_cons, List.map_map, h2, List.map_nil,
      Ruby.optCtype, Bool.false_eq_true, if_false, if_true, Function.comp_def, CTy.noPointee,
      noPointees_map, noPointeeOpt_map]
    rw [← ha.1]
    cases hrr : f.ret.returns with
    | none => simp [CTy.noPointee, Ruby.ctype]
    | some t =>
      have : ∀ x : FTy, (Ruby.ctype (.mutReference x)).noPointee = .ptr none := by
        intro x; cases x <;> rfl
      simp [this, CTy.noPointee]

/-- All fields of a table. -/
theorem fields_eq {w : CTy → CTy} {field : MFn → CTy} {ms : List FnSrc} {fs : List MFn}
    (hfs : ms.map source = fs.map some) (hc : ∀ f ∈ ms, Callable f)
    (h : ∀ f g c, Callable f → f.meaning c = some g → w (field g) = w (rustVtableField f)) :
    fs.map (fun g => w (field g)) = ms.map fun f => w (rustVtableField f) := by
  have hl : ms.length = fs.length := by simpa using congrArg List.length hfs
  apply List.ext_getElem (by simp [hl])
  intro i h1 h2
  simp only [List.length_map] at h1 h2
  obtain ⟨g, hg, hs⟩ := get_source hfs (List.getElem?_eq_getElem h2)
  obtain ⟨c, hm⟩ := source_meaning hs
  simp only [List.getElem_map]
  rw [(List.getElem?_eq_some_iff.1 hg).2]
  exact h _ _ c (hc _ (List.getElem_mem _)) hm

/-- C50, Rust: the implementation of method `i` calls the function in slot `i + 2`. -/
theorem C50_rust (ms : List FnSrc) (hd : ("uniffi_free" :: "uniffi_clone" :: ms.map rustIdent).Nodup)
    (i : Nat) (f : FnSrc) (h : ms[i]? = some f) : rustSlot ms f = some (i + 2) := by
  obtain ⟨hi, hf⟩ := List.getElem?_eq_some_iff.1 h
  unfold rustSlot
  rw [List.findIdx?_eq_some_iff_getElem]
  refine ⟨by simpa using hi, by simp [hf], ?_⟩
  intro j hj
  rw [List.nodup_iff_pairwise_ne, List.pairwise_iff_getElem] at hd
  have := hd j (i + 2) (by simp; omega) (by simpa using hi) hj
  simpa [hf] using this

/-- C50, Python: for every callback interface or trait with foreign implementations, with any number
of methods, the table Python declares has the fields of the table Rust declares, in the same order
and with the same signatures; and it is filled so that the function in slot `i + 2` calls method
`i`. `nm` is how method names are written in Python. -/
theorem C50_python (ctx : Ctx) (nm : String → String) (crate tr : String) (ms : List FnSrc)
    (items : List Metadata) (L : Library crate tr ms items) (hc : ∀ f ∈ ms, Callable f)
    (hd : (ms.map (·.name)).Nodup)
    (hn : ("_uniffi_free" :: "_uniffi_clone" :: ms.map (nm ·.name)).Nodup) :
    ∃ fs, pipelineMethods crate tr items = some fs ∧ fs.map (·.name) = ms.map (·.name) ∧
      (pipelineVtable ctx fs).map (fun e => Python.ctype e.2) = rustVtable ms ∧
      pythonTable (fs.map (nm ·.name)) = some (table ms.length) := by
  obtain ⟨fs, hfs, ho⟩ := C50_order_python crate tr ms items L
  rw [if_pos hd] at ho
  have hnm := names_eq hfs
  have hnn : fs.map (nm ·.name) = ms.map (nm ·.name) := by
    have := congrArg (List.map nm) hnm
    simpa [Function.comp_def] using this
  refine ⟨fs, ho, hnm, ?_, ?_⟩
  · have h := fields_eq (w := id) (field := fun g => Python.ctype (pipelineVtableField ctx g).field)
      hfs hc fun f g c h1 h2 => python_field ctx h1 h2
    simp only [id_eq] at h
    simp only [pipelineVtable, List.map_cons, List.map_map, Function.comp_def, rustVtable]
    rw [h]
    rfl
  · rw [hnn]
    simp only [List.nodup_cons, List.mem_cons, not_or] at hn
    have := table_methods_first hn.2.2 hn.1.1 hn.1.2 hn.2.1
    simpa [pythonTable] using this

/-- C50, Swift. -/
theorem C50_swift (tie : MFn → MFn → Bool) (callback : Bool) (crate tr : String) (ms : List FnSrc)
    (items : List Metadata) (L : Library crate tr ms items) (hc : ∀ f ∈ ms, Callable f) :
    ∃ fs, legacyMethods tie callback tr (itemsOf crate items) = some fs ∧
      fs.map (·.name) = ms.map (·.name) ∧
      (legacyVtable fs).map (fun e => Swift.ctype e.2) = rustVtable ms ∧
      swiftTable (fs.map (·.name)) = table ms.length := by
  obtain ⟨fs, hfs, ho⟩ := C50_order_legacy tie callback crate tr ms items L
  have hnm := names_eq hfs
  refine ⟨fs, ho, hnm, ?_, ?_⟩
  · have h := fields_eq (w := id) (field := fun g => Swift.ctype (legacyVtableField g).field)
      hfs hc fun f g c h1 h2 => swift_field h1 h2
    simp only [id_eq] at h
    simp only [legacyVtable, List.map_cons, List.map_map, Function.comp_def, rustVtable]
    rw [h]
    rfl
  · rw [hnm]; simp [swiftTable, table]

/-- C50, Kotlin: the fields agree except for signs, which Kotlin does not have. `nm` is how method
names are written in Kotlin. -/
theorem C50_kotlin (tie : MFn → MFn → Bool) (callback : Bool) (nm : String → String)
    (crate tr : String) (ms : List FnSrc) (items : List Metadata) (L : Library crate tr ms items)
    (hc : ∀ f ∈ ms, Callable f)
    (hn : ("uniffiFree" :: "uniffiClone" :: ms.map (nm ·.name)).Nodup) :
    ∃ fs, legacyMethods tie callback tr (itemsOf crate items) = some fs ∧
      fs.map (·.name) = ms.map (·.name) ∧
      (legacyVtable fs).map (fun e => (Kotlin.ctype e.2).noSign) = (rustVtable ms).map CTy.noSign ∧
      kotlinTable (fs.map (nm ·.name)) = some (table ms.length) := by
  obtain ⟨fs, hfs, ho⟩ := C50_order_legacy tie callback crate tr ms items L
  have hnm := names_eq hfs
  have hnn : fs.map (nm ·.name) = ms.map (nm ·.name) := by
    have := congrArg (List.map nm) hnm
    simpa [Function.comp_def] using this
  refine ⟨fs, ho, hnm, ?_, ?_⟩
  · have h := fields_eq (w := CTy.noSign)
      (field := fun g => Kotlin.ctype (legacyVtableField g).field)
      hfs hc fun f g c h1 h2 => kotlin_field h1 h2
    simp only [legacyVtable, List.map_cons, List.map_map, Function.comp_def, rustVtable]
    rw [h]
    rfl
  · rw [hnn]
    simp only [List.nodup_cons, List.mem_cons, not_or] at hn
    have := table_methods_first hn.2.2 hn.1.1 hn.1.2 hn.2.1
    simpa [kotlinTable] using this

/-- C50, Ruby: the fields agree except for what pointers point to. -/
theorem C50_ruby (tie : MFn → MFn → Bool) (callback : Bool) (crate tr : String) (ms : List FnSrc)
    (items : List Metadata) (L : Library crate tr ms items) (hc : ∀ f ∈ ms, Callable f)
    (hn : ("uniffi_free" :: "uniffi_clone" :: ms.map (·.name)).Nodup) :
    ∃ fs, legacyMethods tie callback tr (itemsOf crate items) = some fs ∧
      fs.map (·.name) = ms.map (·.name) ∧
      (legacyVtable fs).map (fun e => (Ruby.ctype e.2).noPointee) =
        (rustVtable ms).map CTy.noPointee ∧
      rubyTable (fs.map (·.name)) = some (table ms.length) := by
  obtain ⟨fs, hfs, ho⟩ := C50_order_legacy tie callback crate tr ms items L
  have hnm := names_eq hfs
  refine ⟨fs, ho, hnm, ?_, ?_⟩
  · have h := fields_eq (w := CTy.noPointee)
      (field := fun g => Ruby.ctype (legacyVtableField g).field)
      hfs hc fun f g c h1 h2 => ruby_field h1 h2
    simp only [legacyVtable, List.map_cons, List.map_map, Function.comp_def, rustVtable]
    rw [h]
    rfl
  · rw [hnm]
    simp only [List.nodup_cons, List.mem_cons, not_or] at hn
    have := table_methods_last hn.2.2 hn.1.1 hn.1.2 hn.2.1
    simpa [rubyTable] using this

/-- C50: the arguments arrive in the declared order: the foreign function, whose parameters are the
handle, the arguments and what follows, passes on to the method exactly the values Rust lowered. -/
theorem C50_arguments {α : Type} (handle : String) (argNames tailNames : List String) (h : α)
    (args tail : List α) (hl : args.length = argNames.length)
    (hd : (foreignParams handle argNames tailNames).Nodup) :
    passedOn (foreignParams handle argNames tailNames) (rustFrame h args tail) argNames =
      some args :=
  passedOn_eq handle argNames tailNames h args tail hl hd

example : passedOn (foreignParams "uniffi_handle" ["a", "b"] ["uniffi_out_return", "status"])
    (rustFrame 7 [1, 2] [8, 9]) ["a", "b"] = some [1, 2] :=
  C50_arguments "uniffi_handle" ["a", "b"] ["uniffi_out_return", "status"] 7 [1, 2] [8, 9] rfl
    (by decide)

/-- C50: without the hypothesis on names it does not hold: in a trait with a method called
`_uniffi_free` the Python slot of that method frees the object. -/
theorem C50_python_names_broken :
    pythonTable ["a", "_uniffi_free"] = some [.free, .clone, .method 0, .free] := by decide

/-! An example: a trait with two methods, the second one async, found in reverse order and twice. -/

/-- `fn get(&self, key: String, n: u8) -> Result<u64, Oops>`. -/
def get : FnSrc :=
  { kind := .traitMethod "Tr" 0, modulePath := "my::a", name := "get", origName := none
    isAsync := false
    args := [{ name := "key", ty := .string, passBy := .value, default := none },
             { name := "n", ty := .u8, passBy := .value, default := none }]
    ret := .result (some .u64) (some (.enum "my" "Oops")), docstring := "" }

/-- `async fn wait(&self) -> Vec<u8>`. -/
def wait : FnSrc :=
  { kind := .traitMethod "Tr" 1, modulePath := "my::a", name := "wait", origName := none
    isAsync := true, args := [], ret := .plain (some (.vec .u8)), docstring := "" }

theorem get_callable : Callable get where
  args := by simp [get, NoSlice]
  ret := by intro x h; simp at h; subst h; simp [NoSlice]

theorem wait_callable : Callable wait where
  args := by simp [wait]
  ret := by intro x h; simp at h; subst h; simp [NoSlice]

theorem get_source_some : ∃ g, source get = some g := by
  have he : (Item.fn get).emit = some [10, 5, 109, 121, 58, 58, 97, 2, 84, 114, 0, 0, 0, 0, 3, 103,
      101, 116, 0, 0, 2, 3, 107, 101, 121, 11, 0, 0, 0, 1, 110, 0, 0, 0, 0, 23, 3, 14, 2, 109, 121, 4,
      79, 111, 112, 115, 0, 0] := Metadata.emits (by decide +kernel)
  exact ⟨_, by simp only [source, he, Option.bind_some]; rfl⟩

theorem wait_source_some : ∃ g, source wait = some g := by
  have he : (Item.fn wait).emit = some [10, 5, 109, 121, 58, 58, 97, 2, 84, 114, 1, 0, 0, 0, 4, 119,
      97, 105, 116, 0, 1, 0, 17, 0, 0, 0] := Metadata.emits (by decide +kernel)
  exact ⟨_, by simp only [source, he, Option.bind_some]; rfl⟩

/-- A library with these two methods, found in reverse order and the second one twice, and with an
unrelated item. -/
theorem example_library : ∃ items, Library "my" "Tr" [get, wait] items ∧ items.length = 4 := by
  obtain ⟨g, hg⟩ := get_source_some
  obtain ⟨w, hw⟩ := wait_source_some
  obtain ⟨cg, hgm⟩ := source_meaning hg
  obtain ⟨cw, hwm⟩ := source_meaning hw
  obtain ⟨bg, heg, hrg⟩ := source_read (tr := "Tr") (i := 0) rfl hg
  obtain ⟨bw, hew, hrw⟩ := source_read (tr := "Tr") (i := 1) rfl hw
  have hcg : crateName g.modulePath = "my" := by
    rw [(fn_parts hgm).2.2.2.2]; decide +kernel
  have hcw : crateName w.modulePath = "my" := by
    rw [(fn_parts hwm).2.2.2.2]; decide +kernel
  refine ⟨[.traitMethod "Tr" 1 w, .namespace_ "my" "my", .traitMethod "Tr" 0 g,
    .traitMethod "Tr" 1 w], ⟨by simp, ?_, ?_, ?_, ?_⟩, rfl⟩
  · intro i f h
    match i, h with
    | 0, h => simp at h; subst h; rfl
    | 1, h => simp at h; subst h; rfl
  · intro f hf
    simp only [List.mem_cons, List.not_mem_nil, or_false] at hf
    rcases hf with hf | hf <;> rw [hf] <;> decide +kernel
  · intro f hf
    simp only [List.mem_cons, List.not_mem_nil, or_false] at hf
    rcases hf with hf | hf <;> rw [hf]
    · exact ⟨_, _, heg, hrg⟩
    · exact ⟨_, _, hew, hrw⟩
  · intro x
    constructor
    · rintro ⟨h1, h2, i, y, h3⟩
      simp only [List.mem_cons, List.not_mem_nil, or_false] at h1
      rcases h1 with e | e | e | e
      · exact ⟨wait, by simp, bw, hew, e ▸ hrw⟩
      · rw [e] at h3; simp at h3
      · exact ⟨get, by simp, bg, heg, e ▸ hrg⟩
      · exact ⟨wait, by simp, bw, hew, e ▸ hrw⟩
    · rintro ⟨f, hf, bs, he, hr⟩
      simp only [List.mem_cons, List.not_mem_nil, or_false] at hf
      rcases hf with hf | hf <;> rw [hf] at he
      · rw [he] at heg
        simp only [Option.some.injEq] at heg
        rw [heg, hrg] at hr
        simp only [Res.ok.injEq] at hr
        subst hr
        exact ⟨by simp, by simp [crateOf, Metadata.modulePath, hcg], 0, g, rfl⟩
      · rw [he] at hew
        simp only [Option.some.injEq] at hew
        rw [hew, hrw] at hr
        simp only [Res.ok.injEq] at hr
        subst hr
        exact ⟨by simp, by simp [crateOf, Metadata.modulePath, hcw], 1, w, rfl⟩

/-- Its table has four slots. -/
example : ∃ items fs, pipelineMethods "my" "Tr" items = some fs ∧
    (pipelineVtable ⟨"my", id⟩ fs).map (fun e => Python.ctype e.2) = rustVtable [get, wait] ∧
    pythonTable (fs.map (id ·.name)) = some [.free, .clone, .method 0, .method 1] ∧
    rustSlot [get, wait] wait = some 3 := by
  obtain ⟨items, L, -⟩ := example_library
  obtain ⟨fs, h1, -, h2, h3⟩ := C50_python ⟨"my", id⟩ id "my" "Tr" _ items L
    (by simp [get_callable, wait_callable]) (by decide) (by decide)
  exact ⟨items, fs, h1, h2, h3, C50_rust _ (by decide) 1 wait rfl⟩

end Verif.Props.Abi
