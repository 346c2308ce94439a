import Verif.Udl.ScaffoldSpec
import Verif.Abi.TableLemmas
/-
Both sides agree on one callable and on one table of callbacks.
-/
namespace Verif.Udl.File
open Verif Verif.Meta Verif.Udl Verif.Abi

/-! ### Types -/

/-- The two sides agree on every type. -/
def TyAgrees (conv : FTy → CTy) (ffi : MTy → FTy) (w wr : CTy → CTy) : Prop :=
  ∀ t : MTy, w (conv (ffi t)) = wr (rustFfi (typeRs t))

theorem object_rs (m n : String) (i : Impl) : rustFfi (typeRs (.object m n i)) = Rust.handle := by
  cases i <;> rfl

theorem python_ty (c : Ctx) : TyAgrees Python.ctype (pipelineFfi c) id id := by
  intro t
  induction t with
  | custom m n t ih =>
    simp only [pipelineFfi, typeRs, rustFfi] at ih ⊢
    split
    · rename_i e
      rw [e] at ih
      rw [← ih]
      split <;> rfl
    · exact ih
  | box t ih => exact ih
  | object m n i => cases i <;> rfl
  | enum m n => simp only [pipelineFfi, typeRs]; split <;> rfl
  | record m n => simp only [pipelineFfi, typeRs]; split <;> rfl
  | _ => rfl

theorem legacy_ty (conv : FTy → CTy) (w wr : CTy → CTy)
    (hb : ∀ a b, w (conv (.rustBuffer a)) = w (conv (.rustBuffer b)))
    (hp : ∀ t : MTy, (∀ m n b, t ≠ .custom m n b) → (∀ b, t ≠ .box b) →
      w (conv (legacyFfi t)) = wr (rustFfi (typeRs t))) :
    TyAgrees conv legacyFfi w wr := by
  intro t
  induction t with
  | custom m n t ih =>
    simp only [legacyFfi, typeRs, rustFfi] at ih ⊢
    split
    · rename_i e
      rw [e] at ih
      rw [← ih]
      exact hb _ _
    · exact ih
  | box t ih => exact ih
  | _ => exact hp _ nofun nofun

theorem swift_ty : TyAgrees Swift.ctype legacyFfi id id := by
  refine legacy_ty _ _ _ (fun _ _ => rfl) ?_
  intro t h1 h2
  cases t with
  | custom m n b => exact absurd rfl (h1 m n b)
  | box b => exact absurd rfl (h2 b)
  | object m n i => cases i <;> rfl
  | _ => rfl

theorem kotlin_ty : TyAgrees Kotlin.ctype legacyFfi CTy.noSign CTy.noSign := by
  refine legacy_ty _ _ _ (fun _ _ => rfl) ?_
  intro t h1 h2
  cases t with
  | custom m n b => exact absurd rfl (h1 m n b)
  | box b => exact absurd rfl (h2 b)
  | object m n i => cases i <;> rfl
  | _ => rfl

theorem kotlin_ret : TyAgrees Kotlin.directReturn legacyFfi CTy.noSign widened := by
  refine legacy_ty _ _ _ (fun _ _ => rfl) ?_
  intro t h1 h2
  cases t with
  | custom m n b => exact absurd rfl (h1 m n b)
  | box b => exact absurd rfl (h2 b)
  | object m n i => cases i <;> rfl
  | _ => rfl

theorem ruby_ty : TyAgrees Ruby.ctype legacyFfi CTy.noPointee CTy.noPointee := by
  refine legacy_ty _ _ _ (fun _ _ => rfl) ?_
  intro t h1 h2
  cases t with
  | custom m n b => exact absurd rfl (h1 m n b)
  | box b => exact absurd rfl (h2 b)
  | object m n i => cases i <;> rfl
  | _ => rfl

/-! ### Callables -/

/-- What both ways of declaring a callable come to. -/
def gdef (ffi : MTy → FTy) (args : List MArg) (ret : Option FTy) (isAsync : Bool) : Decl :=
  if isAsync then
    { args := args.map (fun a => if isBorrowedBytes a then .foreignBytes else ffi a.ty)
      status := false, ret := some .handle }
  else
    { args := args.map (fun a => if isBorrowedBytes a then .foreignBytes else ffi a.ty)
      status := true, ret := ret }

/-- What is needed of a generator; `Ok` are the arguments it can pass. -/
structure GenSound (G : Gen) (crate : String) (w wr : CTy → CTy) (Ok : UArg → Prop) : Prop where
  lib : G.lib crate = crate
  handle : G.handle = .handle
  body : ∃ (ffi : MTy → FTy) (rtype : FTy → CTy) (status : CTy),
    (∀ r f, G.decl r (.func f) = some (gdef ffi f.inputs (f.returnType.map ffi) f.isAsync)) ∧
    (∀ r m, G.decl r (.method m) =
      some (gdef ffi (selfArg r :: m.fn.inputs) (m.fn.returnType.map ffi) m.fn.isAsync)) ∧
    (∀ mo n i k, G.decl (.object mo n i) (.constructor k) =
      some (gdef ffi k.inputs (some (ffi (.object mo n i))) k.isAsync)) ∧
    (∀ d, (G.sig d).params = d.args.map G.ctype ++ if d.status then [status] else []) ∧
    (∀ d, (G.sig d).ret = d.ret.map rtype) ∧
    w status = w (.ptr (some Rust.rustCallStatus)) ∧
    TyAgrees G.ctype ffi w w ∧ TyAgrees rtype ffi w wr ∧
    w (G.ctype .handle) = w Rust.handle ∧ w (rtype .handle) = wr Rust.handle ∧
    (∀ a, Ok a → BorrowedBytes a → w (G.ctype .foreignBytes) = w Rust.foreignBytes)

theorem python_sound (ctx : Ctx) (crate : String) :
    GenSound (python ctx crate) crate id id (fun _ => True) :=
  ⟨rfl, rfl, pipelineFfi ctx, Python.ctype, .ptr (some Python.rustCallStatus), fun _ _ => rfl,
    fun _ _ => rfl, fun _ _ _ _ => rfl,
    fun d => by simp [python, Python.sig, python_ctypes], fun d => by simp [python, Python.sig, python_opt],
    rfl, python_ty ctx, python_ty ctx, rfl, rfl, fun _ _ _ => rfl⟩

theorem swift_sound (crate : String) : GenSound swift crate id id (fun _ => True) :=
  ⟨rfl, rfl, legacyFfi, Swift.ctype, .ptr (some Swift.rustCallStatus), fun _ _ => rfl,
    fun _ _ => rfl, fun _ _ _ _ => rfl,
    fun d => by simp [swift, Swift.sig, swift_ctypes], fun d => by simp [swift, Swift.sig, swift_opt],
    rfl, swift_ty, swift_ty, rfl, rfl, fun _ _ _ => rfl⟩

theorem kotlin_sound (crate : String) : GenSound kotlin crate CTy.noSign widened (fun _ => True) :=
  ⟨rfl, rfl, legacyFfi, Kotlin.directReturn, .ptr (some Kotlin.rustCallStatus), fun _ _ => rfl,
    fun _ _ => rfl, fun _ _ _ _ => rfl,
    fun d => by simp [kotlin, Kotlin.sig, kotlin_ctypes], fun d => by simp [kotlin, Kotlin.sig],
    rfl, kotlin_ty, kotlin_ret, rfl, rfl, fun _ _ _ => rfl⟩

theorem ruby_sound (crate : String) :
    GenSound ruby crate CTy.noPointee CTy.noPointee (fun a => ¬BorrowedBytes a) :=
  ⟨rfl, rfl, legacyFfi, Ruby.ctype, .ptr (some Ruby.rustCallStatus), fun _ _ => rfl,
    fun _ _ => rfl, fun _ _ _ _ => rfl,
    fun d => by simp [ruby, Ruby.sig, ruby_ctypes], fun d => by simp [ruby, Ruby.sig],
    rfl, ruby_ty, ruby_ty, rfl, rfl, fun _ h h' => absurd h' h⟩

theorem borrowed_toM (a : UArg) : isBorrowedBytes a.toM = true ↔ BorrowedBytes a := by
  simp only [isBorrowedBytes, UArg.toM, BorrowedBytes, Bool.and_eq_true]
  exact and_congr (decide_eq_true_iff) (decide_eq_true_iff)

theorem argRs_borrowed {a : UArg} (h : BorrowedBytes a) : rustFfi (argRs a).ty = Rust.foreignBytes := by
  obtain ⟨h1, h2⟩ := h
  obtain ⟨n, t, p, o, d⟩ := a
  dsimp only at h1 h2
  subst h2
  cases p <;> first | rfl | simp at h1

theorem argRs_plain {a : UArg} (h : ¬BorrowedBytes a) : (argRs a).ty = typeRs a.ty := by
  obtain ⟨n, t, p, o, d⟩ := a
  simp only [BorrowedBytes, not_and] at h
  unfold argRs
  split <;> simp_all

section
variable {conv : FTy → CTy} {ffi : MTy → FTy} {w : CTy → CTy} {Ok : UArg → Prop}

theorem args_like (ht : TyAgrees conv ffi w w)
    (hb : ∀ a, Ok a → BorrowedBytes a → w (conv .foreignBytes) = w Rust.foreignBytes)
    (l : List UArg) (hl : ∀ a ∈ l, Ok a) :
    (l.map UArg.toM).map (fun a => w (conv (if isBorrowedBytes a then .foreignBytes else ffi a.ty))) =
      (l.map argRs).map (fun a => w (rustFfi a.ty)) := by
  simp only [List.map_map, List.map_inj_left, Function.comp]
  intro a ha
  by_cases h : BorrowedBytes a
  · rw [if_pos ((borrowed_toM a).2 h), argRs_borrowed h]
    exact hb a (hl a ha) h
  · rw [if_neg (fun e => h ((borrowed_toM a).1 e)), argRs_plain h]
    exact ht a.ty
end

theorem retRs_ret (ret throws : Option MTy) :
    rustReturn (retRs ret throws) = ret.map (fun t => rustFfi (typeRs t)) := by
  cases throws <;> cases ret <;> rfl

/-- One callable. `pre` is the receiver, if there is one. -/
theorem like_core {G : Gen} {w wr : CTy → CTy} {Ok : UArg → Prop}
    {ffi : MTy → FTy} {rtype : FTy → CTy} {status : CTy}
    (hp : ∀ d, (G.sig d).params = d.args.map G.ctype ++ if d.status then [status] else [])
    (hr : ∀ d, (G.sig d).ret = d.ret.map rtype)
    (hs : w status = w (.ptr (some Rust.rustCallStatus)))
    (ht : TyAgrees G.ctype ffi w w) (htr : TyAgrees rtype ffi w wr)
    (hh : w (rtype .handle) = wr Rust.handle)
    (hb : ∀ a, Ok a → BorrowedBytes a → w (G.ctype .foreignBytes) = w Rust.foreignBytes)
    (pre : Option MTy) (hpre : ∀ t, pre = some t → t ≠ .bytes)
    (args : List UArg) (hargs : ∀ a ∈ args, Ok a) (ret throws : Option MTy) (isAsync : Bool)
    (src : FnSrc) (recv : RTy)
    (hk : hasReceiver src.kind = pre.isSome) (hrecv : ∀ t, pre = some t → recv = typeRs t)
    (ha : src.args = args.map argRs) (hret : src.ret = retRs ret throws)
    (hasy : src.isAsync = isAsync) :
    Like w wr
      (G.sig (gdef ffi ((pre.toList.map selfArg) ++ args.map UArg.toM) (ret.map ffi) isAsync))
      (scaffoldSig recv src) := by
  have hself : ∀ t, pre = some t → isBorrowedBytes (selfArg t) = false := by
    intro t e
    simp [isBorrowedBytes, selfArg, hpre t e]
  have hargs' := args_like ht hb args hargs
  simp only [List.map_map, Function.comp_def] at hargs'
  constructor
  · rw [hp]
    simp only [scaffoldSig, hk, ha, hasy, gdef]
    cases isAsync <;> cases pre <;>
      simp_all [TyAgrees, Function.comp_def, selfArg]
  · rw [hr]
    simp only [scaffoldSig, hasy, gdef, hret, retRs_ret]
    cases isAsync
    · cases ret <;> simp [htr _]
    · simp [hh]

end Verif.Udl.File
