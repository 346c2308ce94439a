import Verif.Errors.Spec
import Verif.Wire.ForeignSound2
import Verif.Wire.Lemmas2
/-
Lemmas for C69: which template and which derive a declaration gets, and how the readers and writers
relate to those of `Verif.Wire`.
-/
namespace Verif.ErrorFormat
open Verif Verif.Wire

/-- The values a language can hold exactly. -/
def Language.Exact : Language → Ty → Val → Prop
  | .python => Python.Exact
  | .kotlin => Kotlin.Exact
  | .swift => Swift.Exact
  | .ruby => Ruby.Exact

theorem Language.readsLike (l : Language) (lossy : Bytes → String) (env : Env) (w : Bool) :
    ReadsLike (l.lang lossy) env
      (fun t v => l.Exact t v ∧ Compound (l.lang lossy) env w t v) := by
  cases l
  · exact Python.readsLike env w
  · exact Kotlin.readsLike lossy env w
  · exact Swift.readsLike lossy env w
  · exact Ruby.readsLike env w

theorem Language.exact_str (l : Language) (s : String) : l.Exact .string (.str s) := by
  cases l <;> simp [Language.Exact, Python.Exact, Kotlin.Exact, Swift.Exact, Ruby.Exact]

theorem Language.writesLike (l : Language) (lossy : Bytes → String) (env : Env) :
    WritesLike (l.lang lossy) env
      (fun t v => l.Exact t v ∧ Compound (l.lang lossy) env true t v) := by
  cases l
  · exact Python.writesLike env
  · exact Kotlin.writesLike lossy env
  · exact Swift.writesLike lossy env
  · have h := Ruby.writesLike env
    exact ⟨fun t v bs a b c => h.leaf t v bs a b c.2, h.count, h.variant, h.none,
      fun t v c => h.some t v c.2⟩

/-! ### Which derive, which template -/

theorem metaVariants_get (d : Decl) (i : Nat) :
    (d.metaVariants[i]?).isSome = (d.variants[i]?).isSome := by
  unfold Decl.metaVariants
  split
  · simp
  · rfl

theorem isFlat_enum {d : Decl} (h : d.shape = .enum) :
    d.isFlat = true ↔ d.Fieldless := by
  simp [Decl.isFlat, h, Decl.metaVariants, Decl.Fieldless]

theorem mem_errors {c : Crate} {n : String} : n ∈ c.errors ↔ c.HasError n := by
  simp only [Crate.errors, Crate.HasError, List.mem_append, List.mem_map, List.mem_filter,
    or_assoc]
  refine or_congr Iff.rfl (or_congr Iff.rfl ?_)
  constructor
  · rintro ⟨d, ⟨hd, hs⟩, rfl⟩
    refine ⟨d, hd, rfl, ?_, ?_⟩ <;> intro h <;> simp [Decl.shape, h] at hs
  · rintro ⟨d, hd, rfl, h1, h2⟩
    refine ⟨d, ⟨hd, ?_⟩, rfl⟩
    unfold Decl.shape
    split <;> simp_all

theorem usedAsError_iff {l : Language} {p : Program} {c : Crate} {n : String} :
    usedAsError l p c n = true ↔
      c.HasError n ∨ (l ≠ .python ∧ ∃ c' ∈ p, c'.HasError n) := by
  cases l <;> simp [usedAsError, mem_errors]

theorem eq_of_name {c : Crate} (hu : (c.decls.map (·.name)).Nodup) {d e : Decl} (hd : d ∈ c.decls)
    (he : e ∈ c.decls) (h : e.name = d.name) : e = d := by
  generalize c.decls = ds at hu hd he
  induction ds with
  | nil => simp at hd
  | cons a ds ih =>
    simp only [List.map_cons, List.nodup_cons, List.mem_map, not_exists, not_and] at hu
    rcases List.mem_cons.1 hd with h1 | h1 <;> rcases List.mem_cons.1 he with h2 | h2
    · rw [h1, h2]
    · exact absurd (h.trans (by rw [h1])) (hu.1 e h2)
    · exact absurd (h.symm.trans (by rw [h2])) (hu.1 d h1)
    · exact ih hu.2 h1 h2

theorem mem_udlErrors {c : Crate} (hu : (c.decls.map (·.name)).Nodup) {d : Decl} (hd : d ∈ c.decls) :
    d.name ∈ c.udlErrors ↔ d.name ∈ c.udlThrows ∨ ∃ k, d.source = .udl k ∧ k ≠ .enum := by
  simp only [Crate.udlErrors, List.mem_append, List.mem_map, List.mem_filter]
  refine or_congr Iff.rfl ?_
  constructor
  · rintro ⟨e, ⟨he, hs⟩, hn⟩
    have := eq_of_name hu hd he hn
    subst this
    split at hs
    · rename_i k hk
      exact ⟨k, hk, by simpa using hs⟩
    · simp at hs
  · rintro ⟨k, hk, hne⟩
    exact ⟨d, ⟨hd, by simp [hk, hne]⟩, rfl⟩

theorem ordinary_iff {c : Crate} (hu : (c.decls.map (·.name)).Nodup) {d : Decl} (hd : d ∈ c.decls) :
    c.deriveOf d = .enum ↔ d.OrdinaryIn c := by
  unfold Decl.OrdinaryIn
  cases hs : d.source with
  | macros m => simp [Crate.deriveOf, hs]
  | udl k =>
    have hder : c.deriveOf d = if d.name ∈ c.udlErrors then
      if d.isFlat then .flatError (decide (d.name ∈ c.udlCallbackThrows)) else .error
      else .enum := by simp [Crate.deriveOf, hs]
    have hm := mem_udlErrors hu hd
    rw [hs] at hm
    have h1 : (∃ k', Source.udl k = .udl k' ∧ k' ≠ UdlKind.enum) ↔ k ≠ .enum :=
      ⟨by rintro ⟨k', h, hn⟩; cases h; exact hn, fun h => ⟨k, rfl, h⟩⟩
    rw [h1] at hm
    rw [hder]
    by_cases hin : d.name ∈ c.udlErrors
    · rw [if_pos hin]
      have h2 := hm.1 hin
      by_cases hf : d.isFlat = true <;> simp [hf] <;> intro h3 <;>
        exact h2.resolve_right (by simp [h3])
    · rw [if_neg hin]
      have h2 : d.name ∉ c.udlThrows ∧ k = .enum :=
        ⟨fun h => hin (hm.2 (.inl h)), Classical.byContradiction fun h => hin (hm.2 (.inr h))⟩
      simp [h2]

/-- Rust sends a flat error exactly if the bindings expect one, but for the misread ones. -/
theorem template_flat_iff {l : Language} {p : Program} {c : Crate}
    (hu : (c.decls.map (·.name)).Nodup) {d : Decl} (hd : d ∈ c.decls) :
    templateOf l p c d = .flatError ↔
      (∃ r, c.deriveOf d = .flatError r) ∨ Misread l p c d := by
  have ht : templateOf l p c d = .flatError ↔ usedAsError l p c d.name = true ∧ d.isFlat = true := by
    unfold templateOf; split <;> simp_all
  rw [ht, usedAsError_iff]
  unfold Misread
  rw [← ordinary_iff hu hd]
  cases hs : d.source with
  | macros m =>
    have hder : c.deriveOf d = m := by simp [Crate.deriveOf, hs]
    rw [hder]
    cases m with
    | enum =>
      have : d.shape = .enum := by simp [Decl.shape, hs]
      rw [isFlat_enum this]
      simp [and_comm]
    | error => simp [Decl.isFlat, Decl.shape, hs]
    | flatError r =>
      have : c.HasError d.name := .inr (.inr ⟨d, hd, rfl, by simp [hs], by simp [hs]⟩)
      simp [Decl.isFlat, Decl.shape, hs, this]
  | udl k =>
    have hder : c.deriveOf d = if d.name ∈ c.udlErrors then
      if d.isFlat then .flatError (decide (d.name ∈ c.udlCallbackThrows)) else .error
      else .enum := by simp [Crate.deriveOf, hs]
    have hm := mem_udlErrors hu hd
    by_cases hin : d.name ∈ c.udlErrors
    · have herr : c.HasError d.name := by
        rcases hm.1 hin with h | ⟨k', hk', hne⟩
        · exact .inr (.inl h)
        · exact .inr (.inr ⟨d, hd, rfl, by simp [hk'], by simp [hk', hne]⟩)
      rw [if_pos hin] at hder
      by_cases hf : d.isFlat = true
      · simp [hf] at hder; simp [hder, herr, hf]
      · simp [hf] at hder; simp [hder, hf]
    · rw [if_neg hin] at hder
      have hk : k = .enum := by
        apply Classical.byContradiction
        intro hne
        exact hin (hm.2 (.inr ⟨k, hs, hne⟩))
      have : d.shape = .enum := by simp [Decl.shape, hs, hk]
      rw [isFlat_enum this, hder]
      simp [and_comm]

/-- A flat derive and an ordinary one exclude each other. -/
theorem not_misread_of_flat {l : Language} {p : Program} {c : Crate}
    (hu : (c.decls.map (·.name)).Nodup) {d : Decl} (hd : d ∈ c.decls) {r : Bool}
    (h : c.deriveOf d = .flatError r) : ¬ Misread l p c d := by
  rintro ⟨_, ho, _⟩
  rw [(ordinary_iff hu hd).2 ho] at h
  cases h

/-- Unless the derive is flat, the metadata has the fields of the type. -/
theorem metaVariants_rich {c : Crate} (hu : (c.decls.map (·.name)).Nodup) {d : Decl}
    (hd : d ∈ c.decls) (h : ∀ r, c.deriveOf d ≠ .flatError r) : d.metaVariants = d.variants := by
  unfold Decl.metaVariants
  rw [if_neg]
  intro hs
  cases hb : d.source with
  | macros m =>
    cases m with
    | flatError b => exact h b (by simp [Crate.deriveOf, hb])
    | enum | error => simp [Decl.shape, hb] at hs
  | udl k =>
    have hk : k = .errorEnum := by cases k <;> simp [Decl.shape, hb] at hs <;> rfl
    subst hk
    have hin : d.name ∈ c.udlErrors := (mem_udlErrors hu hd).2 (.inr ⟨_, hb, by simp⟩)
    apply h (decide (d.name ∈ c.udlCallbackThrows))
    simp [Crate.deriveOf, hb, hin, Decl.isFlat, Decl.shape]

/-! ### Reading and writing -/

theorem rustWrite_rich {env : Env} {name : String} {vs : List (List Ty)}
    (he : env name = some (.enum vs)) {msg : Nat → List Val → String} {d : Derive}
    (h : ∀ r, d ≠ .flatError r) (i : Nat) (fs : List Val) :
    rustWrite env vs msg d i fs = write env (.named name) (.variant i fs) := by
  cases d with
  | flatError r => exact absurd rfl (h r)
  | enum | error =>
    simp only [rustWrite, write, he]
    split <;> simp_all

theorem rustRead_rich {env : Env} {name : String} {vs : List (List Ty)}
    (he : env name = some (.enum vs)) {d : Derive} (h : ∀ r, d ≠ .flatError r) (fuel : Nat)
    (bs : Bytes) : rustRead env vs d fuel bs = read env (fuel + 1) (.named name) bs := by
  cases d with
  | flatError r => exact absurd rfl (h r)
  | enum | error => simp only [rustRead, Wire.read, he]; rfl

theorem foreignRead_rich {L : Lang} {env : Env} {name : String} {vs : List (List Ty)}
    (he : env name = some (.enum vs)) {t : Template} (h : t ≠ .flatError) (fuel : Nat)
    (bs : Bytes) : foreignRead L env vs t fuel bs = fread L env (fuel + 1) (.named name) bs := by
  unfold foreignRead fread
  simp only [Ty.isLeaf, he, Bool.false_eq_true, if_false]
  congr 1
  funext z rest
  split
  · rfl
  · cases vs[(z - 1).toNat]? with
    | none => rfl
    | some ts => cases t <;> first | rfl | exact absurd rfl h

theorem foreignWrite_rich {L : Lang} {env : Env} {name : String} {vs : List (List Ty)}
    (he : env name = some (.enum vs)) {t : Template} (h : t ≠ .flatError) (fuel : Nat) (i : Nat)
    (fs : List Val) :
    foreignWrite L env vs t fuel i fs = fwrite L env (fuel + 1) (.named name) (.variant i fs) := by
  unfold foreignWrite fwrite
  simp only [Ty.isLeaf, he, Bool.false_eq_true, if_false]
  cases vs[i]? with
  | none => rfl
  | some ts => cases t <;> first | rfl | exact absurd rfl h

theorem foreignRead_flat {l : Language} {lossy : Bytes → String} {env : Env}
    {ms vs : List (List Ty)} {msg : Nat → List Val → String} {r : Bool} {i : Nat} {fs : List Val}
    {bs : Bytes} (hm : (ms[i]?).isSome = (vs[i]?).isSome)
    (hw : rustWrite env vs msg (.flatError r) i fs = some bs) (fuel : Nat) (rest : Bytes) :
    foreignRead (l.lang lossy) env ms .flatError fuel (bs ++ rest) =
      .ok (.variant i [(l.lang lossy).leaf (.str (msg i fs))]) rest := by
  unfold rustWrite at hw
  split at hw
  · cases hw
  · rename_i ts hts
    simp only [Option.bind_eq_some_iff, Option.map_eq_some_iff] at hw
    obtain ⟨p, hp, q, hq, rfl⟩ := hw
    have hL := l.readsLike lossy (fun _ => none) false
    rw [hts] at hm
    obtain ⟨us, hus⟩ := Option.isSome_iff_exists.1 (hm.trans rfl)
    unfold foreignRead
    rw [List.append_assoc, hL.variant i p _ hp]
    simp only [Res.bind_ok]
    rw [if_neg (by omega)]
    have hi : (((i + 1 : Nat) : Int) - 1).toNat = i := by omega
    simp only [hi, hus]
    rw [hL.leaf .string (.str (msg i fs)) q rest rfl trivial
      ⟨l.exact_str _, by simp [Compound]⟩ (by simpa [write] using hq)]
    simp [Wire.repr]

end Verif.ErrorFormat
