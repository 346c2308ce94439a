import Verif.Wire.Lemmas4
/-
Properties C01 - C11: the Rust side of the wire format.

Vocabulary (all from `Verif.Wire.Types`): `HasTy env t v` says `v` is a value of type `t`;
`Val.All p v` says `p` holds of `v` and everything nested in it; `v.depth` is the nesting depth.
`write env t v = some bs` means writing succeeded and appended `bs`; `read env fuel t bs` is the
reader with `fuel` levels of stack.
-/
namespace Verif.Props.Wire
open Verif Verif.Wire

/-! ### A concrete interface used in the examples -/

/-- `enum Tree { Leaf, Node { left: Box<Tree>, label: i32, note: Option<String>, .. } }`,
`record Pair { u8, map<string, seq<i64>> }`, and a custom type of counters over `seq<bool>`. -/
def demoEnv : Env
  | "Tree" => some (.enum [[], [.box (.named "Tree"), .int .i32, .option .string]])
  | "Pair" => some (.record [.int .u8, .map .string (.seq (.int .i64))])
  | "Id" => some (.custom (.seq .bool) (fun n => .seq (List.replicate n (.bool true))) fun
      | .seq vs => if vs = List.replicate vs.length (.bool true) then some vs.length else none
      | _ => none)
  | _ => none

/-- A nested recursive value. -/
def demoTree : Val :=
  .variant 1 [.box (.variant 1 [.box (.variant 0 []), .int (-5), .none]), .int 7, .some (.str "é")]

def demoPair : Val := .record [.int 200, .map [(.str "a", .seq [.int (-1), .int 3]), (.str "", .seq [])]]

theorem demoTree_typed : HasTy demoEnv (.named "Tree") demoTree := by
  simp [demoTree, demoEnv, HasTy, HasTyFields]
  decide

theorem demoPair_typed : HasTy demoEnv (.named "Pair") demoPair := by
  simp [demoPair, demoEnv, HasTy, HasTyFields, HasTyPairs, HasTyAll]
  decide

theorem demo_lawful : CustomLawful demoEnv := by
  intro n t lo li h id
  unfold demoEnv at h
  split at h <;> cases h
  simp

theorem demo_custom_typed : CustomTyped demoEnv := by
  intro n t lo li h id
  unfold demoEnv at h
  split at h <;> cases h
  exact hasTyAll_iff.2 (by intro v hv; rw [List.mem_replicate] at hv; rw [hv.2]; exact trivial)

/-! ### C01 -/

/-- C01. Writing any value of any type and reading it back yields the same value and leaves exactly
the bytes that followed, whatever they are. Recursive types are covered through `env`. Instants in
the second before the epoch are excluded (see C05); custom types must convert back faithfully. -/
theorem C01_round_trip (env : Env) (hc : CustomLawful env) (t : Ty) (v : Val) (bs rest : Bytes)
    (fuel : Nat) (ht : HasTy env t v) (hk : v.All TimeKept) (hw : write env t v = some bs)
    (hf : v.depth ≤ fuel) : read env fuel t (bs ++ rest) = .ok v rest :=
  read_write env hc v t bs rest fuel ht hk hw hf

/-- C01 for the environment without custom types, stated as existence of the encoding: a value
that respects the size limits is written and comes back. -/
theorem C01_round_trip_total (env : Env) (hc : CustomLawful env) (t : Ty) (v : Val)
    (ht : HasTy env t v) (hk : v.All TimeKept) (hfit : v.All Fits) :
    ∃ bs, write env t v = some bs ∧
      ∀ rest fuel, v.depth ≤ fuel → read env fuel t (bs ++ rest) = .ok v rest := by
  obtain ⟨bs, hb⟩ := (write_defined env v t ht).2 hfit
  exact ⟨bs, hb, fun rest fuel hf => read_write env hc v t bs rest fuel ht hk hb hf⟩

/-- The hypotheses are met by a recursive value with a string and options. -/
example : CustomLawful demoEnv ∧ HasTy demoEnv (.named "Tree") demoTree ∧
    demoTree.All TimeKept ∧ demoTree.All Fits := by
  refine ⟨demo_lawful, demoTree_typed, ?_, ?_⟩
  · simp [demoTree, Val.All, Val.AllList, TimeKept]
  · simp [demoTree, Val.All, Val.AllList, Fits]; decide

/-! ### C02 -/

/-- C02. A successful read consumed a prefix of the input and produced a well-formed value. -/
theorem C02_reader_sound (env : Env) (hc : CustomTyped env) (fuel : Nat) (t : Ty) (bs : Bytes)
    (v : Val) (rest : Bytes) (h : read env fuel t bs = .ok v rest) :
    HasTy env t v ∧ ∃ consumed, bs = consumed ++ rest :=
  ⟨read_typed env hc fuel t bs v rest h, (prefixed_read env fuel t).suffix _ _ _ h⟩

/-- C02. Reading never panics, on any bytes, when no timestamp or duration is involved (for those
see C05 and C06). -/
theorem C02_reader_no_panic (env : Env) (he : EnvAll NoTimeTy env) (t : Ty) (ht : t.All NoTimeTy)
    (fuel : Nat) (bs : Bytes) : read env fuel t bs ≠ .panic :=
  noPanic_read env he fuel t ht bs

/-- C02. The stack bound plays no role in what is read: with more of it the answer stays. -/
theorem C02_stack_irrelevant (env : Env) (t : Ty) (bs : Bytes) (fuel more : Nat)
    (h : read env fuel t bs ≠ .deep) (hle : fuel ≤ more) :
    read env more t bs = read env fuel t bs :=
  read_fuel_mono h hle

/-- A hostile input that decodes: repeated map key, trailing bytes. -/
example : ∃ v rest, read demoEnv 5 (.map (.int .u8) .bool) [0, 0, 0, 2, 9, 0, 9, 1, 77] = .ok v rest :=
  ⟨.map [(.int 9, .bool true)], [77], by decide +kernel⟩
example : (Ty.named "Tree").All NoTimeTy ∧ EnvAll NoTimeTy demoEnv := by
  refine ⟨trivial, ?_⟩
  intro n d h
  unfold demoEnv at h
  split at h <;> cases h <;> simp [Def.All, Ty.All, NoTimeTy]

/-! ### C03 -/

/-- C03. No strict prefix of an encoding decodes as that type, with any amount of stack. -/
theorem C03_strict_prefix_fails (env : Env) (hc : CustomLawful env) (t : Ty) (v : Val)
    (p q : Bytes) (ht : HasTy env t v) (hk : v.All TimeKept)
    (hw : write env t v = some (p ++ q)) (hq : q ≠ []) (fuel : Nat) (v' : Val) (rest : Bytes) :
    read env fuel t p ≠ .ok v' rest := by
  intro h
  have h1 := (prefixed_read env fuel t).loc _ _ _ q h
  have h2 := read_write env hc v t (p ++ q) [] (max fuel v.depth) ht hk hw (Nat.le_max_right ..)
  have h3 := read_fuel_mono (fuel' := max fuel v.depth) (by rw [h1]; simp) (Nat.le_max_left ..)
  simp only [List.append_nil] at h2
  rw [h3, h1] at h2
  injection h2 with _ h2
  exact hq (List.append_eq_nil_iff.1 h2).2

/-- C03. Bytes after the part that decodes never change what is decoded. -/
theorem C03_suffix_irrelevant (env : Env) (fuel : Nat) (t : Ty) (bs tail : Bytes) (v : Val)
    (rest : Bytes) (h : read env fuel t bs = .ok v rest) :
    read env fuel t (bs ++ tail) = .ok v (rest ++ tail) :=
  (prefixed_read env fuel t).loc _ _ _ tail h

example : ∃ p q, write demoEnv (.named "Tree") demoTree = some (p ++ q) ∧ q ≠ [] := by
  exact ⟨[0, 0, 0, 2], [0, 0, 0, 2, 0, 0, 0, 1, 255, 255, 255, 251, 0, 0, 0, 0, 7, 1, 0, 0, 0, 2,
    195, 169], by decide +kernel, by decide⟩

/-! ### C04 -/

/-- C04. Lifting a buffer succeeds exactly when the reader consumes all of it. -/
theorem C04_lift_iff_whole_buffer (env : Env) (fuel : Nat) (t : Ty) (bs : Bytes) (v : Val)
    (r : Bytes) :
    liftBuffer env fuel t bs = .ok v r ↔ r = [] ∧ read env fuel t bs = .ok v [] := by
  unfold liftBuffer
  rw [Res.bind_eq_ok]
  constructor
  · rintro ⟨a, mid, h1, h2⟩
    split at h2
    · rename_i hm
      cases h2
      rw [List.isEmpty_iff] at hm; subst hm
      exact ⟨rfl, h1⟩
    · cases h2
  · rintro ⟨rfl, h⟩
    exact ⟨v, [], h, by simp⟩

/-- C04. What lowering produced lifts to the same value. -/
theorem C04_lift_lower (env : Env) (hc : CustomLawful env) (t : Ty) (v : Val) (bs : Bytes)
    (fuel : Nat) (ht : HasTy env t v) (hk : v.All TimeKept) (hw : lowerBuffer env t v = some bs)
    (hf : v.depth ≤ fuel) : liftBuffer env fuel t bs = .ok v [] := by
  rw [C04_lift_iff_whole_buffer]
  have := read_write env hc v t bs [] fuel ht hk hw hf
  exact ⟨rfl, by simpa using this⟩

/-- C04. Junk after what lowering produced is an error. -/
theorem C04_junk_rejected (env : Env) (hc : CustomLawful env) (t : Ty) (v : Val) (bs junk : Bytes)
    (fuel : Nat) (ht : HasTy env t v) (hk : v.All TimeKept) (hw : lowerBuffer env t v = some bs)
    (hf : v.depth ≤ fuel) (hj : junk ≠ []) : liftBuffer env fuel t (bs ++ junk) = .err .junk := by
  unfold liftBuffer
  rw [read_write env hc v t bs junk fuel ht hk hw hf]
  cases junk with
  | nil => exact absurd rfl hj
  | cons a l => simp

example : lowerBuffer demoEnv (.named "Pair") demoPair ≠ none := by decide +kernel

/-! ### C05 -/

/-- C05, the exact behaviour: a written instant is read back as itself or, when it lies strictly
between one second before the epoch and the epoch, as its mirror image after the epoch. -/
theorem C05_system_time_exact (env : Env) (ns : Int) (bs rest : Bytes) (fuel : Nat)
    (hw : write env .timestamp (.time ns) = some bs) :
    read env (fuel + 1) .timestamp (bs ++ rest) =
      .ok (.time (if -1000000000 < ns ∧ ns < 0 then -ns else ns)) rest :=
  readTime_writeTime hw rest

/-- C05, partial: round trip for every instant outside the second before the epoch. Missing: the
instants inside it, where the code is wrong (`C05_system_time_broken`). -/
theorem C05_system_time_round_trip_partial (env : Env) (ns : Int) (bs rest : Bytes) (fuel : Nat)
    (hw : write env .timestamp (.time ns) = some bs) :
    read env (fuel + 1) .timestamp (bs ++ rest) = .ok (.time ns) rest ↔
      ¬(-1000000000 < ns ∧ ns < 0) := by
  rw [C05_system_time_exact env ns bs rest fuel hw]
  constructor
  · intro h hn
    rw [if_pos hn] at h
    injection h with h _
    injection h with h
    omega
  · intro hn; rw [if_neg hn]

/-- C05 is false for the code as it is: an instant half a second before the epoch is read back
half a second after it. -/
theorem C05_system_time_broken :
    ∃ ns bs, HasTy demoEnv .timestamp (.time ns) ∧
      write demoEnv .timestamp (.time ns) = some bs ∧
      read demoEnv 1 .timestamp bs = .ok (.time 500000000) [] ∧ ns = -500000000 :=
  ⟨-500000000, [0, 0, 0, 0, 0, 0, 0, 0, 29, 205, 101, 0], by
    simp only [HasTy]; decide, by decide +kernel, by decide +kernel, rfl⟩

/-- C05. Writing panics for exactly one representable instant, the earliest one. -/
theorem C05_system_time_write_panics_iff (env : Env) (ns : Int)
    (ht : HasTy env .timestamp (.time ns)) :
    write env .timestamp (.time ns) = none ↔ ns = timeMin := by
  have hd := write_defined env (.time ns) .timestamp ht
  simp only [HasTy, timeMin, timeEnd] at ht
  simp only [Val.All, Fits] at hd
  rw [← Option.not_isSome_iff_eq_none, Option.isSome_iff_exists, hd]
  unfold timeMin
  omega

example : HasTy demoEnv .timestamp (.time 1700000000123456789) ∧
    (∃ bs, write demoEnv .timestamp (.time (-1500000000)) = some bs) := by
  refine ⟨by simp only [HasTy]; decide, ?_⟩
  exact ⟨[255, 255, 255, 255, 255, 255, 255, 255, 29, 205, 101, 0], by decide +kernel⟩

/-! ### C06 -/

/-- C06. Every duration is read back unchanged. -/
theorem C06_duration_round_trip (env : Env) (s n : Nat) (rest : Bytes) (fuel : Nat)
    (ht : HasTy env .duration (.dur s n)) :
    ∃ bs, write env .duration (.dur s n) = some bs ∧ bs.length = 12 ∧
      read env (fuel + 1) .duration (bs ++ rest) = .ok (.dur s n) rest :=
  ⟨writeDur s n, rfl, by simp [writeDur, writeInt, IntTy.width], readDur_writeDur ht.1 ht.2 rest⟩

/-- C06. Reading any 12 bytes gives seconds plus nanoseconds with carry, and panics exactly when
the seconds overflow 64 bits. -/
theorem C06_duration_hostile (env : Env) (secs nanos : Bytes) (rest : Bytes) (fuel : Nat)
    (h8 : secs.length = 8) (h4 : nanos.length = 4) :
    read env (fuel + 1) .duration (secs ++ nanos ++ rest) =
      if beNat secs + beNat nanos / 1000000000 < 2 ^ 64 then
        .ok (.dur (beNat secs + beNat nanos / 1000000000) (beNat nanos % 1000000000)) rest
      else .panic := by
  show readDur _ = _
  unfold readDur
  rw [takeN_append' (by simp [h8, h4])]
  simp only [Res.bind_ok, List.take_left' h8, List.drop_left' h8]
  unfold durationNew nsPerSec
  dsimp only
  by_cases h : beNat secs + beNat nanos / 1000000000 < 2 ^ 64
  · rw [if_pos h, if_pos h]
  · rw [if_neg h, if_neg h]

example : HasTy demoEnv .duration (.dur 18446744073709551615 999999999) := by
  simp only [HasTy]; decide
/-- Both branches occur. -/
example : read demoEnv 1 .duration [0, 0, 0, 0, 0, 0, 0, 5, 255, 255, 255, 255]
      = .ok (.dur 9 294967295) [] ∧
    read demoEnv 1 .duration [255, 255, 255, 255, 255, 255, 255, 255, 255, 255, 255, 255] = .panic := by
  decide +kernel

/-! ### C07 -/

/-- A single byte read as `i8`. -/
theorem readInt_i8_cons (b : UInt8) (rest : Bytes) :
    readInt .i8 (b :: rest) = .ok (decodeInt .i8 [b]) rest := by
  have h : takeN 1 (b :: rest) = .ok [b] rest := takeN_append' (b := [b]) rfl rest
  show (takeN 1 (b :: rest)).map _ = _
  rw [h]; rfl

theorem decodeInt_i8_ne (b : UInt8) : (b ≠ 0 → decodeInt .i8 [b] ≠ 0) ∧
    (b ≠ 1 → decodeInt .i8 [b] ≠ 1) := by
  have h := writeInt_decodeInt (t := .i8) (b := [b]) rfl
  constructor
  · intro hb e
    rw [e] at h
    have : writeInt .i8 0 = [0] := by decide
    rw [this] at h; injection h with h; exact hb h.symm
  · intro hb e
    rw [e] at h
    have : writeInt .i8 1 = [1] := by decide
    rw [this] at h; injection h with h; exact hb h.symm

/-- C07. A boolean byte other than 0 and 1 is an error. -/
theorem C07_bad_bool (env : Env) (fuel : Nat) (b : UInt8) (rest : Bytes) (h0 : b ≠ 0)
    (h1 : b ≠ 1) : read env (fuel + 1) .bool (b :: rest) = .err .badBool := by
  show readBool _ = _
  unfold readBool
  rw [readInt_i8_cons]
  simp [(decodeInt_i8_ne b).1 h0, (decodeInt_i8_ne b).2 h1]

/-- C07. An option tag other than 0 and 1 is an error. -/
theorem C07_bad_option (env : Env) (fuel : Nat) (t : Ty) (b : UInt8) (rest : Bytes) (h0 : b ≠ 0)
    (h1 : b ≠ 1) : read env (fuel + 1) (.option t) (b :: rest) = .err .badOption := by
  simp only [Verif.Wire.read]
  rw [readInt_i8_cons]
  simp [(decodeInt_i8_ne b).1 h0, (decodeInt_i8_ne b).2 h1]

/-- C07. An enum variant number (as the 32-bit number spelled by the bytes) outside `1..n` is an
error. -/
theorem C07_bad_variant (env : Env) (fuel : Nat) (name : String) (variants : List (List Ty))
    (he : env name = some (.enum variants)) (tag rest : Bytes) (hl : tag.length = 4)
    (hb : beNat tag = 0 ∨ variants.length < beNat tag) :
    read env (fuel + 1) (.named name) (tag ++ rest) = .err .badVariant := by
  rw [read_named, he]
  have hr : readInt .i32 (tag ++ rest) = .ok (decodeInt .i32 tag) rest := by
    show (takeN 4 (tag ++ rest)).map _ = _
    rw [takeN_append' hl]; rfl
  simp only [hr, Res.bind_ok]
  have hlt := beNat_lt tag
  rw [hl] at hlt
  have hd : decodeInt .i32 tag = toSigned 4 (beNat tag) := rfl
  unfold toSigned at hd
  by_cases hz : decodeInt .i32 tag < 1
  · rw [if_pos hz]
  · rw [if_neg hz]
    split at hd
    · rw [hd] at hz ⊢
      have : variants[((beNat tag : Int) - 1).toNat]? = none := by
        rw [List.getElem?_eq_none_iff]; omega
      rw [this]
    · omega

/-- C07. A negative length of a string, sequence, set or map (top bit of the 32-bit count set) is
an error. -/
theorem C07_negative_length (env : Env) (fuel : Nat) (t u : Ty) (len rest : Bytes)
    (hl : len.length = 4) (hneg : 2 ^ 31 ≤ beNat len) :
    read env (fuel + 1) .string (len ++ rest) = .err .negLen ∧
    read env (fuel + 1) (.seq t) (len ++ rest) = .err .negLen ∧
    read env (fuel + 1) (.set t) (len ++ rest) = .err .negLen ∧
    read env (fuel + 1) (.map t u) (len ++ rest) = .err .negLen := by
  have hr : readLen (len ++ rest) = .err .negLen := by
    unfold readLen
    have hr : readInt .i32 (len ++ rest) = .ok (decodeInt .i32 len) rest := by
      show (takeN 4 (len ++ rest)).map _ = _
      rw [takeN_append' hl]; rfl
    have hlt := beNat_lt len
    rw [hl] at hlt
    have hd : decodeInt .i32 len = toSigned 4 (beNat len) := rfl
    unfold toSigned at hd
    rw [if_neg (by omega)] at hd
    rw [hr, Res.bind_ok, if_pos (by omega)]
  refine ⟨?_, ?_, ?_, ?_⟩
  · show readStr _ = _; unfold readStr; rw [hr]; rfl
  · simp [Verif.Wire.read, hr]
  · simp [Verif.Wire.read, hr]
  · simp [Verif.Wire.read, hr]

/-- C07. An error in any field, after correctly encoded earlier fields, is the result of reading
the whole record. -/
theorem C07_error_in_field (env : Env) (hc : CustomLawful env) (fuel : Nat) (name : String)
    (before after : List Ty) (t : Ty) (vs : List Val) (good bad : Bytes) (e : ReadErr)
    (he : env name = some (.record (before ++ t :: after)))
    (ht : HasTyFields env before vs) (hk : Val.AllList TimeKept vs)
    (hw : writeFields env before vs = some good) (hf : Val.depthList vs ≤ fuel)
    (hbad : read env fuel t bad = .err e) :
    read env (fuel + 1) (.named name) (good ++ bad) = .err e := by
  rw [read_named, he]
  dsimp only
  have key : ∀ (ts : List Ty) (vs : List Val) (good : Bytes), HasTyFields env ts vs →
      Val.AllList TimeKept vs → writeFields env ts vs = some good → Val.depthList vs ≤ fuel →
      readFields (read env fuel) (ts ++ t :: after) (good ++ bad) = .err e := by
    intro ts
    induction ts with
    | nil =>
      intro vs good ht hk hw hf
      cases vs with
      | nil => simp [writeFields] at hw; subst hw; simp [readFields, hbad]
      | cons v vs => simp [HasTyFields] at ht
    | cons t' ts ih =>
      intro vs good ht hk hw hf
      cases vs with
      | nil => simp [HasTyFields] at ht
      | cons v vs =>
        simp only [writeFields, Option.bind_eq_some_iff, Option.map_eq_some_iff] at hw
        obtain ⟨a, ha, b, hb, rfl⟩ := hw
        simp only [HasTyFields] at ht
        simp only [Val.AllList] at hk
        simp only [Val.depthList, Nat.max_le] at hf
        simp only [readFields, List.cons_append, List.append_assoc]
        rw [read_write env hc v t' a _ fuel ht.1 hk.1 ha hf.1]
        simp [ih vs b ht.2 hk.2 hb hf.2]
  rw [key before vs good ht hk hw hf]
  rfl

/-- C07. An error in any element of a sequence, after correctly encoded earlier elements, is the
result of reading the whole sequence. -/
theorem C07_error_in_element (env : Env) (hc : CustomLawful env) (fuel : Nat)
    (t : Ty) (vs : List Val) (good bad : Bytes) (e : ReadErr) (n : Nat)
    (hn : vs.length < n) (hsmall : n < 2 ^ 31)
    (ht : HasTyAll env t vs) (hk : Val.AllList TimeKept vs)
    (hw : writeAll env t vs = some good) (hf : Val.depthList vs ≤ fuel)
    (hbad : read env fuel t bad = .err e) :
    read env (fuel + 1) (.seq t) (beBytes 4 n ++ good ++ bad) = .err e := by
  have key : ∀ (vs : List Val) (good : Bytes) (n : Nat), vs.length < n → HasTyAll env t vs →
      Val.AllList TimeKept vs → writeAll env t vs = some good → Val.depthList vs ≤ fuel →
      readSeq (read env fuel t) n (good ++ bad) = .err e := by
    intro vs
    induction vs with
    | nil =>
      intro good n hn ht hk hw hf
      obtain ⟨n, rfl⟩ : ∃ m, n = m + 1 := ⟨n - 1, by simp at hn; omega⟩
      simp [writeAll] at hw; subst hw; simp [readSeq, hbad]
    | cons v vs ih =>
      intro good n hn ht hk hw hf
      obtain ⟨n, rfl⟩ : ∃ m, n = m + 1 := ⟨n - 1, by simp at hn; omega⟩
      simp only [writeAll, Option.bind_eq_some_iff, Option.map_eq_some_iff] at hw
      obtain ⟨a, ha, b, hb, rfl⟩ := hw
      simp only [HasTyAll] at ht
      simp only [Val.AllList] at hk
      simp only [Val.depthList, Nat.max_le] at hf
      simp only [readSeq, List.append_assoc]
      rw [read_write env hc v t a _ fuel ht.1 hk.1 ha hf.1]
      simp [ih b n (by simpa using hn) ht.2 hk.2 hb hf.2]
  simp only [Verif.Wire.read, List.append_assoc]
  rw [readLen_eq_ok.2 ⟨rfl, hsmall⟩]
  simp [key vs good n hn ht hk hw hf]

example : demoEnv "Tree" = some (.enum [[], [.box (.named "Tree"), .int .i32, .option .string]]) ∧
    beNat [0, 0, 0, 3] = 3 ∧ 2 ^ 31 ≤ beNat [255, 255, 255, 255] := ⟨rfl, by decide, by decide⟩

/-! ### C08 -/

/-- C08. Whatever entries are written for a map, in whatever order and with repeated keys, the
reader builds a map without repeated keys in which each key has the value of its last entry. -/
theorem C08_map_last_wins (env : Env) (hc : CustomLawful env) (t u : Ty) (es : List (Val × Val))
    (bs rest : Bytes) (fuel : Nat) (ht : HasTyPairs env t u es) (hk : Val.AllPairs TimeKept es)
    (hw : write env (.map t u) (.map es) = some bs) (hf : (Val.map es).depth ≤ fuel) :
    ∃ m, read env fuel (.map t u) (bs ++ rest) = .ok (.map m) rest ∧
      (m.map Prod.fst).Nodup ∧ ∀ key, m.lookup key = es.reverse.lookup key := by
  obtain ⟨fuel, rfl⟩ : ∃ f, fuel = f + 1 := ⟨fuel - 1, by simp [Val.depth] at hf; omega⟩
  simp only [Val.depth, Nat.add_le_add_iff_right] at hf
  simp only [write, Option.bind_eq_some_iff, Option.map_eq_some_iff] at hw
  obtain ⟨p, hp, b, hb, rfl⟩ := hw
  refine ⟨_, ?_, nodup_fold_mapInsert es [] (by simp), fun key => ?_⟩
  · simp only [Verif.Wire.read, List.append_assoc]
    rw [readLen_writeLen hp]
    simp only [Res.bind_ok]
    rw [readMap_writePairs_any env hc es t u [] b rest fuel ht hk hb hf]
    rfl
  · rw [lookup_fold_mapInsert]; simp

/-- C08. Two iteration orders of the same map read back as the same finite map. -/
theorem C08_map_order_independent (env : Env) (hc : CustomLawful env) (t u : Ty)
    (es es' : List (Val × Val)) (bs bs' : Bytes) (fuel : Nat)
    (hperm : es.Perm es') (hn : (es.map Prod.fst).Nodup)
    (ht : HasTyPairs env t u es) (hk : Val.AllPairs TimeKept es)
    (ht' : HasTyPairs env t u es') (hk' : Val.AllPairs TimeKept es')
    (hw : write env (.map t u) (.map es) = some bs)
    (hw' : write env (.map t u) (.map es') = some bs')
    (hf : (Val.map es).depth ≤ fuel) (hf' : (Val.map es').depth ≤ fuel) :
    ∃ m m', read env fuel (.map t u) bs = .ok (.map m) [] ∧
      read env fuel (.map t u) bs' = .ok (.map m') [] ∧ ∀ key, m.lookup key = m'.lookup key := by
  obtain ⟨m, h1, _, h3⟩ := C08_map_last_wins env hc t u es bs [] fuel ht hk hw hf
  obtain ⟨m', h1', _, h3'⟩ := C08_map_last_wins env hc t u es' bs' [] fuel ht' hk' hw' hf'
  refine ⟨m, m', by simpa using h1, by simpa using h1', fun key => ?_⟩
  rw [h3, h3']
  have hn' : (es'.map Prod.fst).Nodup := (hperm.map Prod.fst).nodup_iff.1 hn
  have hr : (es.reverse.map Prod.fst).Nodup := by
    exact ((List.reverse_perm es).map Prod.fst).nodup_iff.2 hn
  have hr' : (es'.reverse.map Prod.fst).Nodup := by
    exact ((List.reverse_perm es').map Prod.fst).nodup_iff.2 hn'
  apply Option.ext
  intro v
  rw [lookup_eq_some_of_nodup hr, lookup_eq_some_of_nodup hr',
    List.mem_reverse, List.mem_reverse]
  exact hperm.mem_iff

/-- C08. A set read back holds exactly the elements written, each once, whatever the order and
repetitions. -/
theorem C08_set_elements (env : Env) (hc : CustomLawful env) (t : Ty) (vs : List Val)
    (bs rest : Bytes) (fuel : Nat) (ht : HasTyAll env t vs) (hk : Val.AllList TimeKept vs)
    (hw : write env (.set t) (.set vs) = some bs) (hf : (Val.set vs).depth ≤ fuel) :
    ∃ s, read env fuel (.set t) (bs ++ rest) = .ok (.set s) rest ∧ s.Nodup ∧
      ∀ x, x ∈ s ↔ x ∈ vs := by
  obtain ⟨fuel, rfl⟩ : ∃ f, fuel = f + 1 := ⟨fuel - 1, by simp [Val.depth] at hf; omega⟩
  simp only [Val.depth, Nat.add_le_add_iff_right] at hf
  simp only [write, Option.bind_eq_some_iff, Option.map_eq_some_iff] at hw
  obtain ⟨p, hp, b, hb, rfl⟩ := hw
  obtain ⟨h1, h2⟩ := fold_setInsert vs [] (by simp)
  refine ⟨_, ?_, h1, fun x => by rw [h2]; simp⟩
  simp only [Verif.Wire.read, List.append_assoc]
  rw [readLen_writeLen hp]
  simp only [Res.bind_ok]
  rw [readSet_writeAll_any env hc vs t [] b rest fuel ht hk hb hf]
  rfl

example : HasTyPairs demoEnv (.int .u8) .bool [(.int 1, .bool true), (.int 2, .bool false), (.int 1, .bool false)] ∧
    (∃ bs, write demoEnv (.map (.int .u8) .bool)
      (.map [(.int 1, .bool true), (.int 2, .bool false), (.int 1, .bool false)]) = some bs) := by
  refine ⟨by simp [HasTyPairs, HasTy]; decide, ?_⟩
  exact ⟨[0, 0, 0, 3, 1, 1, 2, 0, 1, 0], by decide +kernel⟩

/-! ### C09 -/

/-- C09. Encodings are uniquely decodable and prefix free: if an encoding of `v` followed by
anything equals an encoding of `w` followed by anything, then `v = w` and the rests agree. -/
theorem C09_prefix_free (env : Env) (hc : CustomLawful env) (t : Ty) (v w : Val)
    (a b r s : Bytes) (hv : HasTy env t v) (hw : HasTy env t w) (hkv : v.All TimeKept)
    (hkw : w.All TimeKept) (ha : write env t v = some a) (hb : write env t w = some b)
    (h : a ++ r = b ++ s) : v = w ∧ r = s := by
  have h1 := read_write env hc v t a r (max v.depth w.depth) hv hkv ha (Nat.le_max_left ..)
  have h2 := read_write env hc w t b s (max v.depth w.depth) hw hkw hb (Nat.le_max_right ..)
  rw [h, h2] at h1
  injection h1 with h1 h3
  exact ⟨h1.symm, h3.symm⟩

/-- C09. Two different values never have the same encoding. -/
theorem C09_injective (env : Env) (hc : CustomLawful env) (t : Ty) (v w : Val)
    (a : Bytes) (hv : HasTy env t v) (hw : HasTy env t w) (hkv : v.All TimeKept)
    (hkw : w.All TimeKept) (ha : write env t v = some a) (hb : write env t w = some a) : v = w :=
  (C09_prefix_free env hc t v w a a [] [] hv hw hkv hkw ha hb rfl).1

/-- C09. A concatenation of encoded arguments is unambiguous. -/
theorem C09_argument_list (env : Env) (hc : CustomLawful env) (ts : List Ty) (vs ws : List Val)
    (a b r s : Bytes) (hv : HasTyFields env ts vs) (hw : HasTyFields env ts ws)
    (hkv : Val.AllList TimeKept vs) (hkw : Val.AllList TimeKept ws)
    (ha : writeFields env ts vs = some a) (hb : writeFields env ts ws = some b)
    (h : a ++ r = b ++ s) : vs = ws ∧ r = s := by
  have h1 := readFields_writeFields env hc vs ts a r (max (Val.depthList vs) (Val.depthList ws))
    hv hkv ha (Nat.le_max_left ..)
  have h2 := readFields_writeFields env hc ws ts b s (max (Val.depthList vs) (Val.depthList ws))
    hw hkw hb (Nat.le_max_right ..)
  rw [h, h2] at h1
  injection h1 with h1 h3
  exact ⟨h1.symm, h3.symm⟩

example : HasTyFields demoEnv [.named "Tree", .named "Pair"] [demoTree, demoPair] ∧
    (writeFields demoEnv [.named "Tree", .named "Pair"] [demoTree, demoPair]).isSome := by
  refine ⟨⟨demoTree_typed, demoPair_typed, trivial⟩, by decide +kernel⟩

/-! ### C10 -/

/-- C10. If bytes decode to a value then re-encoding the value gives back exactly the consumed
bytes, for types without maps, sets, timestamps and durations. -/
theorem C10_canonical (env : Env) (he : EnvAll CanonTy env) (hx : CustomExact env) (fuel : Nat)
    (t : Ty) (ht : t.All CanonTy) (bs : Bytes) (v : Val) (rest : Bytes)
    (h : read env fuel t bs = .ok v rest) :
    ∃ consumed, bs = consumed ++ rest ∧ write env t v = some consumed := by
  obtain ⟨c, h1, h2⟩ := write_read env he hx fuel t ht bs v rest h
  exact ⟨c, h2, h1⟩

def demoCanonEnv : Env
  | "Tree" => some (.enum [[], [.box (.named "Tree"), .int .i32, .option .string]])
  | _ => none

example : EnvAll CanonTy demoCanonEnv ∧ CustomExact demoCanonEnv ∧
    (∃ v rest, read demoCanonEnv 5 (.named "Tree")
      [0, 0, 0, 2, 0, 0, 0, 1, 255, 255, 255, 251, 0, 9, 9] = .ok v rest) := by
  refine ⟨?_, ?_, .variant 1 [.box (.variant 0 []), .int (-5), .none], [9, 9], by decide +kernel⟩
  · intro n d h
    unfold demoCanonEnv at h
    split at h <;> cases h
    simp [Def.All, Ty.All, CanonTy]
  · intro n t lo li h
    unfold demoCanonEnv at h
    split at h <;> cases h

/-! ### C11 -/

/-- C11. Writing a value of a type panics exactly when some string, sequence, map or set in it has
more than `i32::MAX` bytes/elements, an enum variant number does not fit, or an instant is 2^63
seconds away from the epoch. -/
theorem C11_write_panics_iff (env : Env) (t : Ty) (v : Val) (ht : HasTy env t v) :
    write env t v = none ↔ ¬ v.All Fits := by
  rw [← write_defined env v t ht, ← Option.isSome_iff_exists, ← Option.not_isSome_iff_eq_none]

/-- C11. Lengths are never truncated: the four bytes in front of an encoded sequence spell its
number of elements. -/
theorem C11_length_exact (env : Env) (t : Ty) (vs : List Val) (bs : Bytes)
    (h : write env (.seq t) (.seq vs) = some bs) :
    beNat (bs.take 4) = vs.length ∧ vs.length < 2 ^ 31 := by
  simp only [write, Option.bind_eq_some_iff, Option.map_eq_some_iff] at h
  obtain ⟨p, hp, b, hb, rfl⟩ := h
  obtain ⟨h1, rfl⟩ := writeLen_eq_some.1 hp
  rw [List.take_left' (length_beBytes ..), beNat_beBytes_of_lt (by omega)]
  exact ⟨rfl, h1⟩

/-- Both sides occur: an ordinary value fits, a sequence of 2^31 elements does not. -/
example : demoPair.All Fits := by
  simp [demoPair, Val.All, Val.AllList, Val.AllPairs, Fits]; decide
example : HasTy demoEnv (.seq .bool) (.seq (List.replicate (2 ^ 31) (.bool true))) ∧
    ¬ (Val.seq (List.replicate (2 ^ 31) (.bool true))).All Fits := by
  constructor
  · exact hasTyAll_iff.2 (by intro v hv; rw [List.mem_replicate] at hv; rw [hv.2]; exact trivial)
  · rintro ⟨h, _⟩
    simp only [Fits, List.length_replicate] at h
    omega

end Verif.Props.Wire
