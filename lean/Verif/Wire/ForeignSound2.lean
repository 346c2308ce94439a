import Verif.Wire.ForeignSound
/-
The four languages only write encodings.
-/
namespace Verif.Wire
open Verif

theorem mapM_byteOf_eq {vs : List Val} {b : Bytes} (h : vs.mapM byteOf = some b) :
    vs = bytesVal b := by
  induction vs generalizing b with
  | nil => simp at h; subst h; rfl
  | cons v vs ih =>
    simp only [List.mapM_cons, Option.bind_eq_bind, Option.bind_eq_some_iff, Option.pure_def,
      Option.some.injEq] at h
    obtain ⟨x, hx, c, hc, rfl⟩ := h
    have := ih hc
    subst this
    cases v <;> simp [byteOf] at hx
    rename_i z
    obtain ⟨⟨h1, h2⟩, rfl⟩ := hx
    have e : (UInt8.ofNat z.toNat).toNat = z.toNat := by simp; omega
    simp only [bytesVal, List.map_cons, e]
    congr 2
    omega

theorem bytes_typed (env : Env) (b : Bytes) : HasTyAll env (.int .u8) (bytesVal b) := by
  induction b with
  | nil => simp [bytesVal, HasTyAll]
  | cons x b ih =>
    have := x.toNat_lt
    simp only [bytesVal, List.map_cons, HasTyAll]
    refine ⟨?_, ih⟩
    simp [HasTy, IntTy.InRange, IntTy.signed, IntTy.width]; omega

theorem bytes_written (env : Env) (b : Bytes) : writeAll env (.int .u8) (bytesVal b) = some b := by
  induction b with
  | nil => simp [bytesVal, writeAll]
  | cons x b ih =>
    simp only [bytesVal, List.map_cons, writeAll, write, writeInt_u8] at ih ⊢
    simp [ih]

theorem bytes_depth (b : Bytes) : Val.depthList (bytesVal b) ≤ 1 := by
  induction b with
  | nil => simp [bytesVal, Val.depthList]
  | cons x b ih => simp only [bytesVal, List.map_cons, Val.depthList, Val.depth] at ih ⊢; omega

theorem bytes_kept (b : Bytes) : (Val.seq (bytesVal b)).All TimeKept := by
  simp only [Val.All, TimeKept, true_and]
  induction b with
  | nil => simp [bytesVal, Val.AllList]
  | cons x b ih =>
    simp only [bytesVal, List.map_cons, Val.AllList, Val.All, TimeKept, true_and] at ih ⊢; exact ih

/-- A byte array that was written is one Rust knows. -/
theorem fwriteBytes_sound {L : Lang} {env : Env} (hL : ∀ z, L.leaf (.int z) = .int z)
    {count : Nat → Option Bytes} {p : Val} {bs : Bytes} (h : fwriteBytes count p = some bs)
    (hc : ∀ vs c, p = .seq vs → count vs.length = some c → writeLen vs.length = some c) :
    ∃ v, HasTy env (.seq (.int .u8)) v ∧ repr L v = p ∧ write env (.seq (.int .u8)) v = some bs ∧
      v.depth ≤ 2 ∧
      v.All TimeKept := by
  cases p <;> simp only [fwriteBytes, Option.bind_eq_some_iff, Option.map_eq_some_iff] at h <;>
    try cases h
  rename_i vs b hb
  obtain ⟨hb, c, hc', rfl⟩ := hb
  have := mapM_byteOf_eq hb
  subst this
  have hlen := hc _ c rfl (by simpa [bytesVal] using hc')
  refine ⟨.seq (bytesVal b), by simp only [HasTy]; exact bytes_typed env b, ?_, ?_, ?_, ?_⟩
  · simp only [repr, reprAll_bytesVal hL]
  · simp [write, hlen, bytes_written]
  · have := bytes_depth b; simp only [Val.depth]; omega
  · exact bytes_kept b

theorem fwriteInt_eq_some {t : IntTy} {p : Val} {bs : Bytes} (h : fwriteInt t p = some bs) :
    ∃ z, p = .int z ∧ t.InRange z ∧ bs = writeInt t z := by
  cases p <;> simp [fwriteInt] at h
  rename_i z
  exact ⟨z, rfl, h.1, h.2.symm⟩

theorem fwriteCount_sound {n : Nat} {c : Bytes} (h : fwriteCount n = some c) :
    writeLen n = some c := by
  obtain ⟨z, hz, hr, rfl⟩ := fwriteInt_eq_some h
  cases hz
  have h31 : n < 2 ^ 31 := by
    simp [IntTy.InRange, IntTy.signed, IntTy.width] at hr; omega
  rw [writeInt_i32_natCast h31]
  exact writeLen_eq_some.2 ⟨h31, rfl⟩

/-- Map keys and set elements are distinct in the foreign collection. -/
def Distinct : Val → Prop
  | .map es => (es.map Prod.fst).Nodup
  | .set vs => vs.Nodup
  | _ => True

/-! ### Python -/
namespace Python

/-- A value that exists in Python: datetimes and timedeltas are whole microseconds in the range of
the types, handles and all, and dict keys and set elements are distinct. -/
def Exists : Val → Prop
  | .time ns => ns % 1000 = 0 ∧ dateMin * 1000 ≤ ns ∧ ns ≤ dateMax * 1000 ∧
      ¬(-1000000000 < ns ∧ ns < 0)
  | .dur s n => n % 1000 = 0 ∧ n < 1000000000 ∧ s < 86400 * 1000000000
  | v => Distinct v

theorem writeLeaf_sound {env : Env} {t : Ty} {p : Val} {bs : Bytes} (hl : t.isLeaf = true)
    (hq : Exists p) (h : writeLeaf t p = some bs) :
    ∃ v, HasTy env t v ∧ repr lang v = p ∧ write env t v = some bs ∧ v.depth ≤ 2 ∧
      v.All TimeKept := by
  cases t <;> simp only [writeLeaf] at h <;> try cases h
  case int t =>
    obtain ⟨z, rfl, hr, rfl⟩ := fwriteInt_eq_some h
    exact ⟨.int z, by simpa [HasTy] using hr, rfl, by simp [write], by simp [Val.depth],
      by simp [Val.All, TimeKept]⟩
  case f32 =>
    cases p <;> simp [fwriteBits] at h
    rename_i b
    exact ⟨.float b, by simpa [HasTy] using h.1, rfl, by simp [write, h.2], by simp [Val.depth],
      by simp [Val.All, TimeKept]⟩
  case f64 =>
    cases p <;> simp [fwriteBits] at h
    rename_i b
    exact ⟨.float b, by simpa [HasTy] using h.1, rfl, by simp [write, h.2], by simp [Val.depth],
      by simp [Val.All, TimeKept]⟩
  case bool =>
    cases p <;> simp only [writeBool] at h <;> try cases h
    rename_i b
    obtain ⟨z, hz, _, rfl⟩ := fwriteInt_eq_some h
    cases hz
    exact ⟨.bool b, by simp [HasTy], rfl, by cases b <;> simp [write] <;> rfl,
      by simp [Val.depth],
      by simp [Val.All, TimeKept]⟩
  case string =>
    cases p <;> simp only [writeStr, Option.map_eq_some_iff] at h <;> try cases h
    rename_i s c hc
    obtain ⟨hc, rfl⟩ := hc
    exact ⟨.str s, by simp [HasTy], rfl,
      by simp [write, Wire.writeStr, fwriteCount_sound hc], by simp [Val.depth],
      by simp [Val.All, TimeKept]⟩
  case timestamp =>
    cases p <;> try (simp [writeTime] at h; done)
    rename_i ns
    simp only [Exists] at hq
    obtain ⟨q1, q2, q3, qk⟩ := hq
    have hty : HasTy env .timestamp (.time ns) := by
      simp only [HasTy]; unfold timeMin timeEnd; unfold dateMin dateMax at *; omega
    have hb : ∃ c, Wire.writeTime ns = some c :=
      ⟨_, writeTime_eq_some.2 ⟨by unfold dateMin dateMax at *; omega, rfl⟩⟩
    obtain ⟨c, hc⟩ := hb
    have := writeTime_ok hc q1
    rw [this] at h
    cases h
    exact ⟨.time ns, hty, rfl, by simp only [write]; exact hc, by simp [Val.depth],
      by simp only [Val.All, TimeKept]; exact qk⟩
  case duration =>
    cases p <;> try (simp [writeDur] at h; done)
    rename_i s n
    simp only [Exists] at hq
    obtain ⟨q1, q2, q3⟩ := hq
    have hty : HasTy env .duration (.dur s n) := by simp only [HasTy]; omega
    have := writeDur_ok (s := s) q2 (by simp only [Exact]; omega)
    rw [this] at h
    cases h
    exact ⟨.dur s n, hty, rfl, by simp only [write], by simp [Val.depth],
      by simp [Val.All, TimeKept]⟩
  case handle =>
    cases p <;> simp [fwriteHandle] at h
    rename_i b
    exact ⟨.handle b, by simpa [HasTy] using h.1, rfl, by simp [write, h.2], by simp [Val.depth],
      by simp [Val.All, TimeKept]⟩
  case seq t =>
    simp [Ty.isLeaf] at hl
    subst hl
    exact fwriteBytes_sound (fun _ => rfl) h (fun vs c _ hc => by exact fwriteCount_sound hc)

theorem writesSound (env : Env) : WritesSound lang env Exists := by
  refine ⟨fun t p bs hl hq h => writeLeaf_sound hl hq h, ?_, ?_, ?_, ?_, rfl, ?_, ?_⟩
  · intro vs p _ h; simp only [lang] at h; exact fwriteCount_sound h
  · intro vs p _ h; simp only [lang] at h; exact fwriteCount_sound h
  · intro vs p _ h; simp only [lang] at h; exact fwriteCount_sound h
  · intro vs p _ _ h; simp only [lang] at h; exact fwriteCount_sound h
  · intro es h; simpa only [Exists, Distinct] using h
  · intro es h; simpa only [Exists, Distinct] using h

end Python

/-! ### Kotlin -/
namespace Kotlin

/-- A value that exists in Kotlin: instants in the range of `Instant`, durations normalised. -/
def Exists : Val → Prop
  | .time ns => instantMin ≤ ns ∧ ns < instantEnd ∧ ¬(-1000000000 < ns ∧ ns < 0)
  | .dur _ n => n < 1000000000
  | v => Distinct v

theorem writeCount_sound {n : Nat} {c : Bytes} (h : writeCount n = some c) :
    writeLen n = some c := by
  unfold writeCount at h
  split at h
  · rename_i h31
    rw [writeInt_i32_natCast h31] at h
    cases h
    exact writeLen_eq_some.2 ⟨h31, rfl⟩
  · cases h

theorem writeLeaf_sound {lossy : Bytes → String} {env : Env} {t : Ty} {p : Val} {bs : Bytes}
    (hl : t.isLeaf = true) (hq : Exists p) (h : writeLeaf t p = some bs) :
    ∃ v, HasTy env t v ∧ repr (lang lossy) v = p ∧ write env t v = some bs ∧ v.depth ≤ 2 ∧
      v.All TimeKept := by
  cases t <;> simp only [writeLeaf] at h <;> try cases h
  case int t =>
    cases p <;> simp [writeIntV] at h
    rename_i z
    exact ⟨.int z, by simpa [HasTy] using h.1, rfl, by simp [write, writeInt, h.2],
      by simp [Val.depth],
      by simp [Val.All, TimeKept]⟩
  case f32 =>
    cases p <;> simp [fwriteBits] at h
    rename_i b
    exact ⟨.float b, by simpa [HasTy] using h.1, rfl, by simp [write, h.2], by simp [Val.depth],
      by simp [Val.All, TimeKept]⟩
  case f64 =>
    cases p <;> simp [fwriteBits] at h
    rename_i b
    exact ⟨.float b, by simpa [HasTy] using h.1, rfl, by simp [write, h.2], by simp [Val.depth],
      by simp [Val.All, TimeKept]⟩
  case bool =>
    cases p <;> simp only [writeBool] at h <;> try cases h
    rename_i b
    exact ⟨.bool b, by simp [HasTy], rfl, by cases b <;> simp [write] <;> rfl,
      by simp [Val.depth],
      by simp [Val.All, TimeKept]⟩
  case string =>
    cases p <;> simp only [writeStr, Option.map_eq_some_iff] at h <;> try cases h
    rename_i s c hc
    obtain ⟨hc, rfl⟩ := hc
    exact ⟨.str s, by simp [HasTy], rfl,
      by simp [write, Wire.writeStr, writeCount_sound hc], by simp [Val.depth],
      by simp [Val.All, TimeKept]⟩
  case timestamp =>
    cases p <;> try (simp [writeTime] at h; done)
    rename_i ns
    simp only [Exists] at hq
    obtain ⟨q2, q3, qk⟩ := hq
    have hty : HasTy env .timestamp (.time ns) := by
      simp only [HasTy]; unfold timeMin timeEnd; unfold instantMin instantEnd at *; omega
    have hb : ∃ c, Wire.writeTime ns = some c :=
      ⟨_, writeTime_eq_some.2 ⟨by unfold instantMin instantEnd at *; omega, rfl⟩⟩
    obtain ⟨c, hc⟩ := hb
    have := writeTime_ok hc
    rw [this] at h
    cases h
    exact ⟨.time ns, hty, rfl, by simp only [write]; exact hc, by simp [Val.depth],
      by simp only [Val.All, TimeKept]; exact qk⟩
  case duration =>
    cases p <;> try (simp [writeDur] at h; done)
    rename_i s n
    simp only [Exists] at hq
    have hs : s < 2 ^ 63 := by
      refine Decidable.byContradiction fun hs => ?_
      simp [writeDur, if_neg hs] at h
    have hty : HasTy env .duration (.dur s n) := by simp only [HasTy]; omega
    have := writeDur_ok (s := s) (n := n) (by simp only [Exact]; exact hs)
    rw [this] at h
    cases h
    exact ⟨.dur s n, hty, rfl, by simp only [write], by simp [Val.depth],
      by simp [Val.All, TimeKept]⟩
  case handle =>
    cases p <;> simp [fwriteHandle] at h
    rename_i b
    exact ⟨.handle b, by simpa [HasTy] using h.1, rfl, by simp [write, h.2], by simp [Val.depth],
      by simp [Val.All, TimeKept]⟩
  case seq t =>
    simp [Ty.isLeaf] at hl
    subst hl
    exact fwriteBytes_sound (fun _ => rfl) h (fun _ _ _ => writeCount_sound)

theorem writesSound (lossy : Bytes → String) (env : Env) :
    WritesSound (lang lossy) env Exists := by
  refine ⟨fun t p bs hl hq h => writeLeaf_sound hl hq h, ?_, ?_, ?_, ?_, rfl, ?_, ?_⟩
  · intro vs p _ h; simp only [lang] at h; exact writeCount_sound h
  · intro vs p _ h; simp only [lang] at h; exact writeCount_sound h
  · intro vs p _ h; simp only [lang] at h; exact writeCount_sound h
  · intro vs p _ _ h; simp only [lang] at h; exact writeCount_sound h
  · intro es h; simpa only [Exists, Distinct] using h
  · intro es h; simpa only [Exists, Distinct] using h

end Kotlin

/-! ### Swift -/
namespace Swift

theorem writeCount_sound {n : Nat} {c : Bytes} (h : writeCount n = some c) :
    writeLen n = some c := by
  unfold writeCount at h
  split at h
  · rename_i h31
    rw [writeInt_i32_natCast h31] at h
    cases h
    exact writeLen_eq_some.2 ⟨h31, rfl⟩
  · cases h

theorem writeLeaf_sound {lossy : Bytes → String} {env : Env} {t : Ty} {p : Val} {bs : Bytes}
    (hl : t.isLeaf = true) (h : writeLeaf t p = some bs) :
    ∃ v, HasTy env t v ∧ repr (lang lossy) v = p ∧ write env t v = some bs ∧ v.depth ≤ 2 ∧
      v.All TimeKept := by
  cases t <;> simp only [writeLeaf] at h <;> try cases h
  case int t =>
    obtain ⟨z, rfl, hr, rfl⟩ := fwriteInt_eq_some h
    exact ⟨.int z, by simpa [HasTy] using hr, rfl, by simp [write], by simp [Val.depth],
      by simp [Val.All, TimeKept]⟩
  case f32 =>
    cases p <;> simp [fwriteBits] at h
    rename_i b
    exact ⟨.float b, by simpa [HasTy] using h.1, rfl, by simp [write, h.2], by simp [Val.depth],
      by simp [Val.All, TimeKept]⟩
  case f64 =>
    cases p <;> simp [fwriteBits] at h
    rename_i b
    exact ⟨.float b, by simpa [HasTy] using h.1, rfl, by simp [write, h.2], by simp [Val.depth],
      by simp [Val.All, TimeKept]⟩
  case bool =>
    cases p <;> simp only [writeBool] at h <;> try cases h
    rename_i b
    exact ⟨.bool b, by simp [HasTy], rfl, by cases b <;> simp [write] <;> rfl,
      by simp [Val.depth],
      by simp [Val.All, TimeKept]⟩
  case string =>
    cases p <;> simp only [writeStr, Option.map_eq_some_iff] at h <;> try cases h
    rename_i s c hc
    obtain ⟨hc, rfl⟩ := hc
    exact ⟨.str s, by simp [HasTy], rfl,
      by simp [write, Wire.writeStr, writeCount_sound hc], by simp [Val.depth],
      by simp [Val.All, TimeKept]⟩
  case handle =>
    cases p <;> simp [fwriteHandle] at h
    rename_i b
    exact ⟨.handle b, by simpa [HasTy] using h.1, rfl, by simp [write, h.2], by simp [Val.depth],
      by simp [Val.All, TimeKept]⟩
  case seq t =>
    simp [Ty.isLeaf] at hl
    subst hl
    exact fwriteBytes_sound (fun _ => rfl) h (fun _ _ _ => writeCount_sound)

theorem writesSound (lossy : Bytes → String) (env : Env) :
    WritesSound (lang lossy) env Distinct := by
  refine ⟨fun t p bs hl _ h => writeLeaf_sound hl h, ?_, ?_, ?_, ?_, rfl, ?_, ?_⟩
  · intro vs p _ h; simp only [lang] at h; exact writeCount_sound h
  · intro vs p _ h; simp only [lang] at h; exact writeCount_sound h
  · intro vs p _ h; simp only [lang] at h; exact writeCount_sound h
  · intro vs p _ _ h; simp only [lang] at h; exact writeCount_sound h
  · intro es h; simpa only [Distinct] using h
  · intro es h; simpa only [Distinct] using h

end Swift

/-! ### Ruby -/
namespace Ruby

/-- A Ruby value whose sizes fit the 32-bit counts, which the Ruby code does not check, and whose
times are whole nanoseconds Rust can hold. -/
def Exists : Val → Prop
  | .time ns => -(2 ^ 63 * 1000000000) < ns ∧ ns < 2 ^ 64 * 1000000000 ∧
      ¬(-1000000000 < ns ∧ ns < 0)
  | .str s => (utf8 s).length < 2 ^ 31
  | .seq vs => vs.length < 2 ^ 31
  | .map es => es.length < 2 ^ 31 ∧ (es.map Prod.fst).Nodup
  | .set vs => vs.length < 2 ^ 31 ∧ vs.Nodup
  | .variant i _ => i + 1 < 2 ^ 31
  | _ => True

theorem writeCount_sound {n : Nat} {c : Bytes} (h31 : n < 2 ^ 31) (h : writeCount n = some c) :
    writeLen n = some c := by
  unfold writeCount at h
  cases h
  exact writeLen_eq_some.2 ⟨h31, rfl⟩

theorem writeLeaf_sound {env : Env} {t : Ty} {p : Val} {bs : Bytes}
    (hl : t.isLeaf = true) (hq : Exists p) (h : writeLeaf t p = some bs) :
    ∃ v, HasTy env t v ∧ repr lang v = p ∧ write env t v = some bs ∧ v.depth ≤ 2 ∧
      v.All TimeKept := by
  cases t <;> simp only [writeLeaf] at h <;> try cases h
  case int t =>
    obtain ⟨z, rfl, hr, rfl⟩ := fwriteInt_eq_some h
    exact ⟨.int z, by simpa [HasTy] using hr, rfl, by simp [write], by simp [Val.depth],
      by simp [Val.All, TimeKept]⟩
  case f32 =>
    cases p <;> simp [fwriteBits] at h
    rename_i b
    exact ⟨.float b, by simpa [HasTy] using h.1, rfl, by simp [write, h.2], by simp [Val.depth],
      by simp [Val.All, TimeKept]⟩
  case f64 =>
    cases p <;> simp [fwriteBits] at h
    rename_i b
    exact ⟨.float b, by simpa [HasTy] using h.1, rfl, by simp [write, h.2], by simp [Val.depth],
      by simp [Val.All, TimeKept]⟩
  case bool =>
    cases p <;> simp only [writeBool] at h <;> try cases h
    rename_i b
    exact ⟨.bool b, by simp [HasTy], rfl, by cases b <;> simp [write] <;> rfl,
      by simp [Val.depth],
      by simp [Val.All, TimeKept]⟩
  case string =>
    cases p <;> simp only [writeStr, Option.map_eq_some_iff] at h <;> try cases h
    rename_i s c hc
    obtain ⟨hc, rfl⟩ := hc
    simp only [Exists] at hq
    exact ⟨.str s, by simp [HasTy], rfl,
      by simp [write, Wire.writeStr, writeCount_sound hq hc], by simp [Val.depth],
      by simp [Val.All, TimeKept]⟩
  case timestamp =>
    cases p <;> try (simp [writeTime] at h; done)
    rename_i ns
    simp only [Exists] at hq
    obtain ⟨q2, q3, qk⟩ := hq
    have q4 : ns < timeEnd := by
      refine Decidable.byContradiction fun hn => ?_
      unfold timeEnd at hn
      simp only [writeTime] at h
      rw [if_neg (by omega)] at h
      simp only [Option.bind_eq_some_iff] at h
      obtain ⟨a, ha, _⟩ := h
      obtain ⟨z, hz, hr, _⟩ := fwriteInt_eq_some ha
      cases hz
      simp [IntTy.InRange, IntTy.signed, IntTy.width] at hr
      omega
    have hty : HasTy env .timestamp (.time ns) := by
      simp only [HasTy]; unfold timeMin; unfold timeEnd at *; omega
    have hb : ∃ c, Wire.writeTime ns = some c :=
      ⟨_, writeTime_eq_some.2 ⟨by unfold timeEnd at *; omega, rfl⟩⟩
    obtain ⟨c, hc⟩ := hb
    have := writeTime_ok hc
    rw [this] at h
    cases h
    exact ⟨.time ns, hty, rfl, by simp only [write]; exact hc, by simp [Val.depth],
      by simp only [Val.All, TimeKept]; exact qk⟩
  case duration =>
    cases p <;> try (simp [writeDur] at h; done)
    rename_i ns
    simp only [Exists] at hq
    have h0 : 0 ≤ ns / 1000000000 := by
      simp only [writeDur] at h
      split at h
      · cases h
      · omega
    have e : ns = ((ns.toNat / 1000000000 : Nat) : Int) * 1000000000
        + ((ns.toNat % 1000000000 : Nat) : Int) := by omega
    have hs : ns.toNat / 1000000000 < 2 ^ 64 := by omega
    have hn : ns.toNat % 1000000000 < 1000000000 := by omega
    have := writeDur_ok hs hn
    rw [← e] at this
    rw [this] at h
    cases h
    refine ⟨.dur (ns.toNat / 1000000000) (ns.toNat % 1000000000), ?_, ?_, by simp only [write],
      by simp [Val.depth],
      by simp [Val.All, TimeKept]⟩
    · simp only [HasTy]; exact ⟨hs, hn⟩
    · simp only [repr, lang]; rw [← e]
  case handle =>
    cases p <;> simp [fwriteHandle] at h
    rename_i b
    exact ⟨.handle b, by simpa [HasTy] using h.1, rfl, by simp [write, h.2], by simp [Val.depth],
      by simp [Val.All, TimeKept]⟩
  case seq t =>
    simp [Ty.isLeaf] at hl
    subst hl
    refine fwriteBytes_sound (fun _ => rfl) h (fun vs c e hc => ?_)
    subst e
    exact writeCount_sound hq hc

theorem writesSound (env : Env) : WritesSound lang env Exists := by
  refine ⟨fun t p bs hl hq h => writeLeaf_sound hl hq h, ?_, ?_, ?_, ?_, rfl, ?_, ?_⟩
  · intro vs p hq h; simp only [lang] at h; exact writeCount_sound hq h
  · intro vs p hq h
    simp only [lang] at h; simp only [Exists] at hq; exact writeCount_sound hq.1 h
  · intro vs p hq h
    simp only [lang] at h; simp only [Exists] at hq; exact writeCount_sound hq.1 h
  · intro i fs p hq h
    simp only [lang] at h; simp only [Exists] at hq; exact writeCount_sound hq h
  · intro es h; simp only [Exists] at h; exact h.2
  · intro es h; simp only [Exists] at h; exact h.2

end Ruby
end Verif.Wire
