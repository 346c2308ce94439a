import Verif.Abi.Spec
namespace Verif.Abi
open Verif.Meta

/-! ### Types -/

theorem pipeline_not_foreign (c : Ctx) (t : MTy) : pipelineFfi c t ≠ .foreignBytes := by
  induction t with
  | custom m n t ih =>
    simp only [pipelineFfi]
    split
    · split <;> simp
    · exact ih
  | box t ih => simpa [pipelineFfi] using ih
  | _ => simp [pipelineFfi]

theorem legacy_not_foreign (t : MTy) : legacyFfi t ≠ .foreignBytes := by
  induction t with
  | custom m n t ih =>
    simp only [legacyFfi]
    split
    · simp
    · exact ih
  | box t ih => simpa [legacyFfi] using ih
  | _ => simp [legacyFfi]

/-- What a generator writes down for the type of a value agrees with the scaffolding, `w` standing
for the details kept. -/
def Agrees (conv : FTy → CTy) (ffi : MTy → FTy) (w : CTy → CTy) : Prop :=
  ∀ t, NoSlice t → w (conv (ffi t.toMeta)) = w (rustFfi t)

theorem vec_cases (t : RTy) :
    (RTy.vec t).toMeta = .bytes ∨ ∃ u, (RTy.vec t).toMeta = .sequence u := by
  cases t <;> simp [RTy.toMeta]

theorem python_agrees (c : Ctx) : Agrees Python.ctype (pipelineFfi c) id := by
  intro t
  induction t with
  | custom m n t ih =>
    intro h
    have ih := ih h
    simp only [id, RTy.toMeta, pipelineFfi, rustFfi] at ih ⊢
    split
    · rename_i e; rw [e] at ih; split <;> simpa [Python.ctype] using ih
    · exact ih
  | box t ih => intro h; exact ih h
  | byteSlice => intro h; exact absurd h (by simp [NoSlice])
  | vec t ih =>
    intro _
    rcases vec_cases t with e | ⟨u, e⟩ <;> simp [e, pipelineFfi, Python.ctype, rustFfi,
      Python.rustBuffer, Rust.rustBuffer]
  | _ => intro _; simp [RTy.toMeta, pipelineFfi, Python.ctype, rustFfi, Python.rustBuffer,
      Rust.rustBuffer, Rust.handle]

theorem legacy_agrees (conv : FTy → CTy) (w : CTy → CTy)
    (hb : ∀ n, w (conv (.rustBuffer n)) = w Rust.rustBuffer)
    (hu8 : w (conv .uint8) = w (.int 8 false)) (hi8 : w (conv .int8) = w (.int 8 true))
    (hu16 : w (conv .uint16) = w (.int 16 false)) (hi16 : w (conv .int16) = w (.int 16 true))
    (hu32 : w (conv .uint32) = w (.int 32 false)) (hi32 : w (conv .int32) = w (.int 32 true))
    (hu64 : w (conv .uint64) = w (.int 64 false)) (hi64 : w (conv .int64) = w (.int 64 true))
    (hf : w (conv .float32) = w .float) (hd : w (conv .float64) = w .double)
    (hh : w (conv .handle) = w (.int 64 false)) :
    Agrees conv legacyFfi w := by
  intro t
  induction t with
  | custom m n t ih =>
    intro h
    have ih := ih h
    simp only [RTy.toMeta, legacyFfi, rustFfi] at ih ⊢
    split
    · rename_i e; rw [e] at ih; rw [hb] at ih ⊢; exact ih
    · exact ih
  | box t ih => intro h; exact ih h
  | byteSlice => intro h; exact absurd h (by simp [NoSlice])
  | vec t ih =>
    intro _
    rcases vec_cases t with e | ⟨u, e⟩ <;> simp only [e, legacyFfi, rustFfi, hb]
  | _ => intro _; simp only [RTy.toMeta, legacyFfi, rustFfi, Rust.handle, *]

theorem swift_agrees : Agrees Swift.ctype legacyFfi id := by
  apply legacy_agrees <;> first | intro _; rfl | rfl

theorem kotlin_agrees : Agrees Kotlin.ctype legacyFfi CTy.noSign := by
  apply legacy_agrees <;> first | intro _; rfl | rfl

theorem ruby_agrees : Agrees Ruby.ctype legacyFfi CTy.noPointee := by
  apply legacy_agrees <;> first | intro _; rfl | rfl

/-! ### Arguments -/

theorem bytes_iff (t : RTy) : t.toMeta = .bytes ↔ t = .vec .u8 ∨ t = .byteSlice := by
  cases t with
  | vec t => cases t <;> simp [RTy.toMeta]
  | _ => simp [RTy.toMeta]

theorem meaning_parts {a : ArgSrc} {m : MArg} (h : a.meaning = some m) :
    m.ty = a.ty.toMeta ∧ m.passBy = a.passBy := by
  simp only [ArgSrc.meaning, Option.map_eq_some_iff] at h
  obtain ⟨d, _, rfl⟩ := h
  exact ⟨rfl, rfl⟩

theorem borrowed_iff {a : ArgSrc} {m : MArg} (h : a.meaning = some m) :
    isBorrowedBytes m = true ↔ a.passBy ≠ .value ∧ (a.ty = .vec .u8 ∨ a.ty = .byteSlice) := by
  obtain ⟨h1, h2⟩ := meaning_parts h
  simp [isBorrowedBytes, h1, h2, bytes_iff]

/-- The arguments agree exactly when `Bad` does not hold. -/
def ArgAgrees (φ : MArg → CTy) (w : CTy → CTy) (Bad : ArgSrc → Prop) : Prop :=
  ∀ a m, ArgOk a → a.meaning = some m → (w (φ m) = w (rustFfi a.ty) ↔ ¬ Bad a)

theorem arg_agrees {conv : FTy → CTy} {ffi : MTy → FTy} {w : CTy → CTy}
    (h : Agrees conv ffi w)
    (hfb : w (conv .foreignBytes) = w Rust.foreignBytes)
    (hne : w Rust.foreignBytes ≠ w Rust.rustBuffer) :
    ArgAgrees (fun m => conv (if isBorrowedBytes m then .foreignBytes else ffi m.ty)) w
      RefToVec := by
  intro a m ho hm
  have hb := borrowed_iff hm
  have ht := (meaning_parts hm).1
  by_cases hbb : isBorrowedBytes m = true
  · have hb' := hb.1 hbb
    simp only [hbb, if_true, hfb]
    rcases hb'.2 with e | e
    · simp [RefToVec, e, hb'.1, rustFfi, hne]
    · simp [RefToVec, e, rustFfi]
  · have hn : NoSlice a.ty := by
      rcases ho with ho | ho
      · exact ho
      · exact absurd (hb.2 ⟨ho.2, .inr ho.1⟩) hbb
    simp only [hbb]
    simp only [Bool.false_eq_true, if_false, ht, h a.ty hn, true_iff]
    intro hr
    exact hbb (hb.2 ⟨hr.2, .inl hr.1⟩)

theorem arg_agrees_none {conv : FTy → CTy} {ffi : MTy → FTy} {w : CTy → CTy}
    (h : Agrees conv ffi w)
    (hne : w (conv .foreignBytes) ≠ w Rust.foreignBytes)
    (hnb : w (conv .foreignBytes) ≠ w Rust.rustBuffer) :
    ArgAgrees (fun m => conv (if isBorrowedBytes m then .foreignBytes else ffi m.ty)) w
      RefToBytes := by
  intro a m ho hm
  have hb := borrowed_iff hm
  have ht := (meaning_parts hm).1
  by_cases hbb : isBorrowedBytes m = true
  · have hb' := hb.1 hbb
    simp only [hbb, if_true]
    rcases hb'.2 with e | e
    · simp [RefToBytes, RefToVec, e, hb'.1, rustFfi, hnb]
    · simp [RefToBytes, e, rustFfi, hne]
  · have hn : NoSlice a.ty := by
      rcases ho with ho | ho
      · exact ho
      · exact absurd (hb.2 ⟨ho.2, .inr ho.1⟩) hbb
    simp only [hbb]
    simp only [Bool.false_eq_true, if_false, ht, h a.ty hn, true_iff]
    rintro (hr | hr)
    · exact hbb (hb.2 ⟨hr.2, .inl hr.1⟩)
    · rw [hr] at hn; exact hn

theorem args_agree {φ : MArg → CTy} {w : CTy → CTy} {Bad : ArgSrc → Prop}
    (h : ArgAgrees φ w Bad) : ∀ (as : List ArgSrc) (ms : List MArg), (∀ a ∈ as, ArgOk a) →
    listMeaning ArgSrc.meaning as = some ms →
    (ms.map (fun m => w (φ m)) = as.map (fun a => w (rustFfi a.ty)) ↔ ∀ a ∈ as, ¬ Bad a)
  | [], ms, _, hm => by
    simp only [listMeaning, Option.some.injEq] at hm
    subst hm; simp
  | a :: as, ms, ho, hm => by
    simp only [listMeaning, Option.bind_eq_some_iff, Option.map_eq_some_iff] at hm
    obtain ⟨m, hm1, ms', hm2, rfl⟩ := hm
    have ih := args_agree h as ms' (fun a ha => ho a (by simp [ha])) hm2
    have h1 := h a m (ho a (by simp)) hm1
    simp only [List.map_cons, List.cons.injEq, List.mem_cons, forall_eq_or_imp, ih, h1]

theorem args_length : ∀ (as : List ArgSrc) (ms : List MArg),
    listMeaning ArgSrc.meaning as = some ms → ms.length = as.length
  | [], ms, hm => by
    simp only [listMeaning, Option.some.injEq] at hm
    subst hm; rfl
  | a :: as, ms, hm => by
    simp only [listMeaning, Option.bind_eq_some_iff, Option.map_eq_some_iff] at hm
    obtain ⟨m, hm1, ms', hm2, rfl⟩ := hm
    simp [args_length as ms' hm2]

/-! ### Lists -/

theorem python_ctypes (l : List FTy) : Python.ctypes l = l.map Python.ctype := by
  induction l with
  | nil => rfl
  | cons a l ih => simp [Python.ctypes, ih]

theorem python_opt (o : Option FTy) : Python.optCtype o = o.map Python.ctype := by
  cases o <;> rfl

theorem swift_ctypes (l : List FTy) : Swift.ctypes l = l.map Swift.ctype := by
  induction l with
  | nil => rfl
  | cons a l ih => simp [Swift.ctypes, ih]

theorem swift_opt (o : Option FTy) : Swift.optCtype o = o.map Swift.ctype := by
  cases o <;> rfl

theorem kotlin_ctypes (l : List FTy) : Kotlin.ctypes l = l.map Kotlin.ctype := by
  induction l with
  | nil => rfl
  | cons a l ih => simp [Kotlin.ctypes, ih]

theorem kotlin_opt (o : Option FTy) : Kotlin.optCtype o = o.map Kotlin.ctype := by
  cases o <;> rfl

theorem ruby_opt (o : Option FTy) : Ruby.optCtype o = o.map Ruby.ctype := by
  cases o <;> rfl

theorem noSigns_map (l : List CTy) : CTy.noSigns l = l.map CTy.noSign := by
  induction l with
  | nil => rfl
  | cons a l ih => simp [CTy.noSigns, ih]

theorem noSignOpt_map (o : Option CTy) : CTy.noSignOpt o = o.map CTy.noSign := by
  cases o <;> rfl

theorem noPointees_map (l : List CTy) : CTy.noPointees l = l.map CTy.noPointee := by
  induction l with
  | nil => rfl
  | cons a l ih => simp [CTy.noPointees, ih]

theorem noPointeeOpt_map (o : Option CTy) : CTy.noPointeeOpt o = o.map CTy.noPointee := by
  cases o <;> rfl

theorem ruby_ctypes (l : List FTy) : Ruby.ctypes l = l.map Ruby.ctype := by
  induction l with
  | nil => rfl
  | cons a l ih => simp [Ruby.ctypes, ih]

/-! ### What is declared for a callable -/

/-- The parts of a declaration, whatever the generator. -/
structure Parts (recv : RTy) (f : FnSrc) (args : List MArg) (d : Decl) (ffi : MTy → FTy) : Prop where
  meaning : listMeaning ArgSrc.meaning f.args = some args
  args : d.args = (if hasReceiver f.kind then [ffi recv.toMeta] else []) ++
    args.map fun m => if isBorrowedBytes m then .foreignBytes else ffi m.ty
  status : d.status = !f.isAsync
  retAsync : f.isAsync = true → d.ret = some .handle
  ret : f.isAsync = false → d.ret = f.ret.returns.map ffi

theorem recv_not_borrowed {recv : RTy} (h : IsReceiver recv) :
    isBorrowedBytes (selfArg recv.toMeta) = false := by
  cases recv <;> simp_all [IsReceiver, isBorrowedBytes, selfArg, RTy.toMeta]

theorem fn_parts {f : FnSrc} {c : UInt16} {m : MFn} (h : f.meaning c = some m) :
    listMeaning ArgSrc.meaning f.args = some m.inputs ∧ m.returnType = f.ret.returns ∧
      m.isAsync = f.isAsync ∧ m.name = f.name ∧ m.modulePath = f.modulePath := by
  simp only [FnSrc.meaning, Option.map_eq_some_iff] at h
  obtain ⟨a, ha, rfl⟩ := h
  exact ⟨ha, rfl, rfl, rfl, rfl⟩

theorem constructs_handle {s : String} {r : RetSrc} (h : constructs s r.returns) :
    ∃ m, r.returns = some (.object m s .struct) := by
  unfold constructs at h
  split at h
  · rename_i m n e; subst h; exact ⟨m, e⟩
  · exact h.elim

theorem pipeline_parts (c : Ctx) {recv : RTy} {f : FnSrc} {c0 c1 c2 : UInt16} {m : Metadata}
    (hx : Exported recv f) (h : (Item.fn f).meaning c0 c1 c2 = some m) :
    ∃ d args, pipelineDecl c recv.toMeta m = some d ∧ Parts recv f args d (pipelineFfi c) := by
  have hr := recv_not_borrowed hx.receiver
  simp only [Item.meaning] at h
  split at h
  · rename_i k
    simp only [Option.map_eq_some_iff] at h
    obtain ⟨mf, hf, rfl⟩ := h
    obtain ⟨h1, h2, h3, -, -⟩ := fn_parts hf
    refine ⟨_, mf.inputs, rfl, h1, ?_, ?_, ?_, ?_⟩ <;>
      cases ha : f.isAsync <;>
      simp [pipelineDef, h3, ha, k, hasReceiver, h2] <;> intros <;> rfl
  · rename_i s k
    simp only [Option.map_eq_some_iff] at h
    obtain ⟨mf, hf, rfl⟩ := h
    obtain ⟨h1, h2, h3, -, -⟩ := fn_parts hf
    refine ⟨_, mf.inputs, rfl, h1, ?_, ?_, ?_, ?_⟩ <;>
      cases ha : f.isAsync <;>
      simp [pipelineDef, h3, ha, k, hasReceiver, h2, pipelineArg, hr] <;> first | rfl | (intros; rfl)
  · rename_i s i k
    simp only [Option.map_eq_some_iff] at h
    obtain ⟨mf, hf, rfl⟩ := h
    obtain ⟨h1, h2, h3, -, -⟩ := fn_parts hf
    refine ⟨_, mf.inputs, rfl, h1, ?_, ?_, ?_, ?_⟩ <;>
      cases ha : f.isAsync <;>
      simp [pipelineDef, h3, ha, k, hasReceiver, h2, pipelineArg, hr] <;> first | rfl | (intros; rfl)
  · rename_i s k
    split at h
    · rename_i hc
      simp only [Option.map_eq_some_iff] at h
      obtain ⟨mf, hf, rfl⟩ := h
      obtain ⟨h1, h2, h3, -, -⟩ := fn_parts hf
      obtain ⟨mo, hmo⟩ := hx.object s k
      obtain ⟨mo', hmo'⟩ := constructs_handle hc
      refine ⟨_, mf.inputs, rfl, h1, ?_, ?_, ?_, ?_⟩ <;>
        cases ha : f.isAsync <;>
        simp [pipelineDef, h3, ha, k, hasReceiver, pipelineArg, hmo, hmo', RTy.toMeta,
          pipelineFfi]
    · simp at h

theorem legacy_parts {recv : RTy} {f : FnSrc} {c0 c1 c2 : UInt16} {m : Metadata}
    (hx : Exported recv f) (h : (Item.fn f).meaning c0 c1 c2 = some m) :
    ∃ d args, legacyDecl recv.toMeta m = some d ∧ Parts recv f args d legacyFfi := by
  have hr := recv_not_borrowed hx.receiver
  simp only [Item.meaning] at h
  split at h
  · rename_i k
    simp only [Option.map_eq_some_iff] at h
    obtain ⟨mf, hf, rfl⟩ := h
    obtain ⟨h1, h2, h3, -, -⟩ := fn_parts hf
    refine ⟨_, mf.inputs, rfl, h1, ?_, ?_, ?_, ?_⟩ <;>
      cases ha : f.isAsync <;>
      simp [legacyDef, h3, ha, k, hasReceiver, h2] <;> intros <;> rfl
  · rename_i s k
    simp only [Option.map_eq_some_iff] at h
    obtain ⟨mf, hf, rfl⟩ := h
    obtain ⟨h1, h2, h3, -, -⟩ := fn_parts hf
    refine ⟨_, mf.inputs, rfl, h1, ?_, ?_, ?_, ?_⟩ <;>
      cases ha : f.isAsync <;>
      simp [legacyDef, h3, ha, k, hasReceiver, h2, legacyArg, hr] <;> first | rfl | (intros; rfl)
  · rename_i s i k
    simp only [Option.map_eq_some_iff] at h
    obtain ⟨mf, hf, rfl⟩ := h
    obtain ⟨h1, h2, h3, -, -⟩ := fn_parts hf
    refine ⟨_, mf.inputs, rfl, h1, ?_, ?_, ?_, ?_⟩ <;>
      cases ha : f.isAsync <;>
      simp [legacyDef, h3, ha, k, hasReceiver, h2, legacyArg, hr] <;> first | rfl | (intros; rfl)
  · rename_i s k
    split at h
    · rename_i hc
      simp only [Option.map_eq_some_iff] at h
      obtain ⟨mf, hf, rfl⟩ := h
      obtain ⟨h1, h2, h3, -, -⟩ := fn_parts hf
      obtain ⟨mo, hmo⟩ := hx.object s k
      obtain ⟨mo', hmo'⟩ := constructs_handle hc
      refine ⟨_, mf.inputs, rfl, h1, ?_, ?_, ?_, ?_⟩ <;>
        cases ha : f.isAsync <;>
        simp [legacyDef, h3, ha, k, hasReceiver, legacyArg, hmo, hmo', RTy.toMeta,
          legacyFfi]
    · simp at h

theorem returns_ffi {conv : FTy → CTy} {ffi : MTy → FTy} {w : CTy → CTy}
    (h : Agrees conv ffi w) {r : RetSrc} (hr : RetOk r) :
    (r.returns.map ffi).map (fun t => w (conv t)) = (rustReturn r).map w := by
  cases r with
  | plain t =>
    cases t with
    | none => rfl
    | some t => simp [RetSrc.returns, rustReturn, h t (hr t rfl)]
  | result t e =>
    cases t with
    | none => rfl
    | some t => simp [RetSrc.returns, rustReturn, h t (hr t rfl)]

theorem recv_noSlice {recv : RTy} (h : IsReceiver recv) : NoSlice recv := by
  cases recv <;> simp_all [IsReceiver, NoSlice]

/-- Parameters and return type against the scaffolding. -/
theorem parts_params {conv : FTy → CTy} {ffi : MTy → FTy} {w : CTy → CTy} {Bad : ArgSrc → Prop}
    (h : Agrees conv ffi w)
    (hb : ArgAgrees (fun m => conv (if isBorrowedBytes m then .foreignBytes else ffi m.ty)) w Bad)
    {recv : RTy} {f : FnSrc} {args : List MArg} {d : Decl} (hx : Exported recv f)
    (hp : Parts recv f args d ffi) (st : CTy) (hst : w st = w (.ptr (some Rust.rustCallStatus))) :
    (d.args.map conv ++ if d.status then [st] else []).map w = (scaffoldSig recv f).params.map w ↔
      ∀ a ∈ f.args, ¬ Bad a := by
  have hl := args_length _ _ hp.meaning
  rw [← args_agree hb f.args args hx.args hp.meaning, hp.args, hp.status]
  simp only [scaffoldSig, List.map_append, List.map_map]
  have e1 : List.map w (List.map conv (if hasReceiver f.kind = true then [ffi recv.toMeta] else [])) =
      List.map w (if hasReceiver f.kind = true then [rustFfi recv] else []) := by
    split
    · simp [h recv (recv_noSlice hx.receiver)]
    · rfl
  have e2 : List.map w (if (!f.isAsync) = true then [st] else []) =
      List.map w (if f.isAsync = true then [] else [.ptr (some Rust.rustCallStatus)]) := by
    cases f.isAsync <;> simp [hst]
  simp only [List.map_map] at e1
  rw [e1, e2, List.append_assoc, List.append_assoc]
  constructor
  · intro e
    have e := List.append_cancel_left e
    have := List.append_cancel_right e
    simpa [Function.comp_def] using this
  · intro e
    congr 2

theorem parts_ret {conv : FTy → CTy} {ffi : MTy → FTy} {w : CTy → CTy}
    (h : Agrees conv ffi w) (hh : w (conv .handle) = w Rust.handle)
    {recv : RTy} {f : FnSrc} {args : List MArg} {d : Decl} (hx : Exported recv f)
    (hp : Parts recv f args d ffi) :
    d.ret.map (fun t => w (conv t)) = (scaffoldSig recv f).ret.map w := by
  cases ha : f.isAsync with
  | true => simp [hp.retAsync ha, scaffoldSig, ha, hh]
  | false => simp only [hp.ret ha, scaffoldSig, ha]; exact returns_ffi h hx.ret

end Verif.Abi
