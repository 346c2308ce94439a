import Verif.Wire.Lemmas
/-
Round trip, locality, soundness and canonicity of the Rust reader.
-/
namespace Verif.Wire
open Verif

/-! ### Timestamps and durations -/

theorem beNat_writeInt {t : IntTy} {k : Nat} (hk : t.InRange k) (hs : t.signed = false) :
    beNat (writeInt t (k : Int)) = k := by
  have := decodeInt_writeInt hk
  unfold decodeInt at this
  rw [hs] at this
  simp only [Bool.false_eq_true, if_false] at this
  exact Int.ofNat.inj this

theorem writeTime_eq_some {ns : Int} {p : Bytes} :
    writeTime ns = some p ↔ ns.natAbs < 2 ^ 63 * 1000000000 ∧
      p = writeInt .i64 ((if 0 ≤ ns then 1 else -1) * ((ns.natAbs / 1000000000 : Nat) : Int))
        ++ writeInt .u32 ((ns.natAbs % 1000000000 : Nat) : Int) := by
  unfold writeTime nsPerSec
  have h : ns.natAbs / 1000000000 < 2 ^ 63 ↔ ns.natAbs < 2 ^ 63 * 1000000000 := by omega
  simp only [h]
  split <;> simp_all [eq_comm] <;> omega

theorem length_writeTime {ns : Int} {p : Bytes} (h : writeTime ns = some p) : p.length = 12 := by
  obtain ⟨_, rfl⟩ := writeTime_eq_some.1 h
  simp [writeInt, IntTy.width]

/-- What a written instant reads back as. -/
theorem readTime_writeTime {ns : Int} {p : Bytes} (h : writeTime ns = some p) (rest : Bytes) :
    readTime (p ++ rest) =
      .ok (.time (if -1000000000 < ns ∧ ns < 0 then -ns else ns)) rest := by
  have hl := length_writeTime h
  obtain ⟨hb, hp⟩ := writeTime_eq_some.1 h
  unfold readTime
  rw [takeN_append' hl]
  simp only [Res.bind_ok]
  generalize hsec : (if 0 ≤ ns then (1 : Int) else -1) * ((ns.natAbs / 1000000000 : Nat) : Int)
    = sec at hp
  have hw : (writeInt .i64 sec).length = 8 := length_writeInt _ _
  have ht : p.take 8 = writeInt .i64 sec := by rw [hp]; exact List.take_left' hw
  have hd : p.drop 8 = writeInt .u32 ((ns.natAbs % 1000000000 : Nat) : Int) := by
    rw [hp]; exact List.drop_left' hw
  have hr : IntTy.InRange .i64 sec := by
    simp [IntTy.InRange, IntTy.signed, IntTy.width]
    split at hsec <;> omega
  have hr2 : IntTy.InRange .u32 ((ns.natAbs % 1000000000 : Nat) : Int) := by
    simp [IntTy.InRange, IntTy.signed, IntTy.width]; omega
  have hn : beNat (p.drop 8) = ns.natAbs % 1000000000 := by
    rw [hd]; exact beNat_writeInt hr2 rfl
  rw [ht, hn, decodeInt_writeInt hr]
  have habs : sec.natAbs = ns.natAbs / 1000000000 := by
    split at hsec <;> omega
  unfold durationNew nsPerSec
  have e1 : ns.natAbs % 1000000000 / 1000000000 = 0 := by omega
  simp only [habs, e1, Nat.add_zero]
  rw [if_pos (by omega)]
  dsimp only
  have e2 : (↑(ns.natAbs / 1000000000 * 1000000000 + ns.natAbs % 1000000000 % 1000000000 : Nat) : Int)
      = (ns.natAbs : Int) := by omega
  rw [e2]
  have e3 : (if 0 ≤ sec then (ns.natAbs : Int) else -(ns.natAbs : Int)) =
      (if -1000000000 < ns ∧ ns < 0 then -ns else ns) := by
    split at hsec <;> split <;> split <;> omega
  rw [e3]
  have e4 : timeMin ≤ (if -1000000000 < ns ∧ ns < 0 then -ns else ns) ∧
      (if -1000000000 < ns ∧ ns < 0 then -ns else ns) < timeEnd := by
    unfold timeMin timeEnd
    split <;> constructor <;> omega
  rw [if_pos e4]

theorem readDur_writeDur {s n : Nat} (hs : s < 2 ^ 64) (hn : n < 1000000000) (rest : Bytes) :
    readDur (writeDur s n ++ rest) = .ok (.dur s n) rest := by
  unfold readDur
  have h8 : (writeInt .u64 (s : Int)).length = 8 := length_writeInt _ _
  have h4 : (writeInt .u32 (n : Int)).length = 4 := length_writeInt _ _
  rw [takeN_append' (by simp [writeDur, h8, h4])]
  have e1 : (writeDur s n).take 8 = writeInt .u64 s := List.take_left' h8
  have e2 : (writeDur s n).drop 8 = writeInt .u32 n := List.drop_left' h8
  simp only [Res.bind_ok, e1, e2]
  rw [beNat_writeInt (t := .u64) (by simp [IntTy.InRange, IntTy.signed, IntTy.width]; omega) rfl,
    beNat_writeInt (t := .u32) (by simp [IntTy.InRange, IntTy.signed, IntTy.width]; omega) rfl]
  unfold durationNew nsPerSec
  have e : n / 1000000000 = 0 := by omega
  simp only [e, Nat.add_zero, if_pos hs]
  have e : n % 1000000000 = n := by omega
  simp [e]

/-! ### Inserting fresh keys appends -/

theorem mapInsert_fresh {k v : Val} {m : List (Val × Val)} (h : k ∉ m.map Prod.fst) :
    mapInsert k v m = m ++ [(k, v)] := by
  induction m with
  | nil => rfl
  | cons e m ih =>
    obtain ⟨k', v'⟩ := e
    simp only [List.map_cons, List.mem_cons, not_or] at h
    simp [mapInsert, h.1, ih h.2]

theorem setInsert_fresh {v : Val} {vs : List Val} (h : v ∉ vs) : setInsert v vs = vs ++ [v] := by
  simp [setInsert, h]

/-! ### Round trip -/

/-- An instant the wire format keeps: not strictly between one second before the epoch and the
epoch. -/
def TimeKept : Val → Prop
  | .time ns => ¬(-1000000000 < ns ∧ ns < 0)
  | _ => True

/-- The user's custom conversions undo each other: `try_lift(lower(x)) = Ok(x)`. -/
def CustomLawful (env : Env) : Prop :=
  ∀ n t lo li, env n = some (.custom t lo li) → ∀ id, li (lo id) = some id

mutual
theorem read_write (env : Env) (hc : CustomLawful env) :
    ∀ (v : Val) (t : Ty) (bs rest : Bytes) (fuel : Nat), HasTy env t v → v.All TimeKept →
      write env t v = some bs → v.depth ≤ fuel → read env fuel t (bs ++ rest) = .ok v rest
  | v, t, bs, rest, 0, _, _, _, hf => by cases v <;> simp [Val.depth] at hf
  | .int z, t, bs, rest, fuel + 1, ht, hk, hw, hf => by
    cases t <;> simp [HasTy] at ht
    simp [write] at hw; subst hw
    simp [read, readInt_writeInt ht]
  | .float b, t, bs, rest, fuel + 1, ht, hk, hw, hf => by
    cases t <;> simp [HasTy] at ht
    · simp [write] at hw; subst hw
      simp [read, readNat_beBytes (n := 4) (v := b) (by omega)]
    · simp [write] at hw; subst hw
      simp [read, readNat_beBytes (n := 8) (v := b) (by omega)]
  | .bool b, t, bs, rest, fuel + 1, ht, hk, hw, hf => by
    cases t <;> simp [HasTy] at ht
    simp [write] at hw; subst hw
    simp [read, readBool_eq_ok]
  | .str s, t, bs, rest, fuel + 1, ht, hk, hw, hf => by
    cases t <;> simp [HasTy] at ht
    simp [write] at hw
    simp [read, readStr_eq_ok, hw]
  | .time ns, t, bs, rest, fuel + 1, ht, hk, hw, hf => by
    cases t <;> simp [HasTy] at ht
    simp only [write] at hw
    simp only [Val.All, TimeKept] at hk
    simp only [read]
    rw [readTime_writeTime hw, if_neg hk]
  | .dur s n, t, bs, rest, fuel + 1, ht, hk, hw, hf => by
    cases t <;> simp [HasTy] at ht
    simp [write] at hw; subst hw
    simp only [read]
    exact readDur_writeDur (by omega) ht.2 rest
  | .handle h, t, bs, rest, fuel + 1, ht, hk, hw, hf => by
    cases t <;> simp [HasTy] at ht
    simp [write] at hw; subst hw
    simp [read, readNat_beBytes (n := 8) (v := h) (by omega)]
  | .none, t, bs, rest, fuel + 1, ht, hk, hw, hf => by
    cases t <;> simp [HasTy] at ht
    simp [write] at hw; subst hw
    have e : beBytes 1 0 = writeInt .i8 0 := by decide
    simp only [read, e]
    rw [readInt_writeInt (by decide)]
    simp
  | .some v, t, bs, rest, fuel + 1, ht, hk, hw, hf => by
    cases t <;> simp [HasTy] at ht
    simp only [write, Option.map_eq_some_iff] at hw
    obtain ⟨b, hb, rfl⟩ := hw
    have e : beBytes 1 1 = writeInt .i8 1 := by decide
    simp only [read, e, List.append_assoc]
    rw [readInt_writeInt (by decide)]
    simp only [Val.All] at hk
    simp only [Val.depth, Nat.add_le_add_iff_right] at hf
    simp [read_write env hc v _ b rest fuel ht hk.2 hb hf]
  | .seq vs, t, bs, rest, fuel + 1, ht, hk, hw, hf => by
    cases t <;> simp [HasTy] at ht
    simp only [write, Option.bind_eq_some_iff, Option.map_eq_some_iff] at hw
    obtain ⟨p, hp, b, hb, rfl⟩ := hw
    simp only [Val.All] at hk
    simp only [Val.depth, Nat.add_le_add_iff_right] at hf
    simp only [read, List.append_assoc]
    rw [readLen_writeLen hp]
    simp [readSeq_writeAll env hc vs _ b rest fuel ht hk.2 hb hf]
  | .set vs, t, bs, rest, fuel + 1, ht, hk, hw, hf => by
    cases t <;> simp [HasTy] at ht
    simp only [write, Option.bind_eq_some_iff, Option.map_eq_some_iff] at hw
    obtain ⟨p, hp, b, hb, rfl⟩ := hw
    simp only [Val.All] at hk
    simp only [Val.depth, Nat.add_le_add_iff_right] at hf
    simp only [read, List.append_assoc]
    rw [readLen_writeLen hp]
    simp [readSet_writeAll env hc vs _ [] b rest fuel ht.1 (by simpa using ht.2) hk.2 hb hf]
  | .map es, t, bs, rest, fuel + 1, ht, hk, hw, hf => by
    cases t <;> simp [HasTy] at ht
    simp only [write, Option.bind_eq_some_iff, Option.map_eq_some_iff] at hw
    obtain ⟨p, hp, b, hb, rfl⟩ := hw
    simp only [Val.All] at hk
    simp only [Val.depth, Nat.add_le_add_iff_right] at hf
    simp only [read, List.append_assoc]
    rw [readLen_writeLen hp]
    simp [readMap_writePairs env hc es _ _ [] b rest fuel ht.1 (by simpa using ht.2) hk.2 hb hf]
  | .box v, t, bs, rest, fuel + 1, ht, hk, hw, hf => by
    cases t <;> simp [HasTy] at ht
    simp only [write] at hw
    simp only [Val.All] at hk
    simp only [Val.depth, Nat.add_le_add_iff_right] at hf
    simp [read, read_write env hc v _ bs rest fuel ht hk.2 hw hf]
  | .record fs, t, bs, rest, fuel + 1, ht, hk, hw, hf => by
    cases t <;> simp [HasTy] at ht
    obtain ⟨ts, he, ht⟩ := ht
    simp only [write, he] at hw
    simp only [Val.All] at hk
    simp only [Val.depth, Nat.add_le_add_iff_right] at hf
    simp [read, he, readFields_writeFields env hc fs ts bs rest fuel ht hk.2 hw hf]
  | .variant i fs, t, bs, rest, fuel + 1, ht, hk, hw, hf => by
    cases t <;> simp [HasTy] at ht
    obtain ⟨vs, he, ts, hi, ht⟩ := ht
    simp only [write, he, hi, Option.bind_eq_some_iff, Option.map_eq_some_iff] at hw
    obtain ⟨p, hp, b, hb, rfl⟩ := hw
    simp only [Val.All] at hk
    simp only [Val.depth, Nat.add_le_add_iff_right] at hf
    simp only [read, he, List.append_assoc]
    rw [readVariantNumber hp]
    have e : ((i : Int) + 1 - 1).toNat = i := by omega
    simp only [Res.bind_ok, e, hi]
    rw [if_neg (by omega)]
    simp [readFields_writeFields env hc fs ts b rest fuel ht hk.2 hb hf]
  | .custom i low, t, bs, rest, fuel + 1, ht, hk, hw, hf => by
    cases t <;> simp [HasTy] at ht
    obtain ⟨bt, lo, ⟨li, he⟩, hlo, ht⟩ := ht
    simp only [write, he] at hw
    simp only [Val.All] at hk
    simp only [Val.depth, Nat.add_le_add_iff_right] at hf
    have hl : li low = some i := by rw [← hlo]; exact hc _ _ _ _ he i
    simp [read, he, read_write env hc low _ bs rest fuel ht hk.2 hw hf, hl, hlo]
theorem readSeq_writeAll (env : Env) (hc : CustomLawful env) :
    ∀ (vs : List Val) (t : Ty) (bs rest : Bytes) (fuel : Nat), HasTyAll env t vs →
      Val.AllList TimeKept vs → writeAll env t vs = some bs → Val.depthList vs ≤ fuel →
      readSeq (read env fuel t) vs.length (bs ++ rest) = .ok vs rest
  | [], t, bs, rest, fuel, ht, hk, hw, hf => by
    simp [writeAll] at hw; subst hw; simp [readSeq]
  | v :: vs, t, bs, rest, fuel, ht, hk, hw, hf => by
    simp only [writeAll, Option.bind_eq_some_iff, Option.map_eq_some_iff] at hw
    obtain ⟨a, ha, b, hb, rfl⟩ := hw
    simp only [HasTyAll] at ht
    simp only [Val.AllList] at hk
    simp only [Val.depthList, Nat.max_le] at hf
    simp [readSeq, read_write env hc v t a _ fuel ht.1 hk.1 ha hf.1,
      readSeq_writeAll env hc vs t b rest fuel ht.2 hk.2 hb hf.2]
theorem readSet_writeAll (env : Env) (hc : CustomLawful env) :
    ∀ (vs : List Val) (t : Ty) (acc : List Val) (bs rest : Bytes) (fuel : Nat),
      HasTyAll env t vs → (acc ++ vs).Nodup →
      Val.AllList TimeKept vs → writeAll env t vs = some bs → Val.depthList vs ≤ fuel →
      readSet (read env fuel t) vs.length acc (bs ++ rest) = .ok (acc ++ vs) rest
  | [], t, acc, bs, rest, fuel, ht, hn, hk, hw, hf => by
    simp [writeAll] at hw; subst hw; simp [readSet]
  | v :: vs, t, acc, bs, rest, fuel, ht, hn, hk, hw, hf => by
    simp only [writeAll, Option.bind_eq_some_iff, Option.map_eq_some_iff] at hw
    obtain ⟨a, ha, b, hb, rfl⟩ := hw
    simp only [HasTyAll] at ht
    simp only [Val.AllList] at hk
    simp only [Val.depthList, Nat.max_le] at hf
    have hfresh : v ∉ acc := by
      intro hm
      rw [List.nodup_append] at hn
      exact hn.2.2 v hm v (by simp) rfl
    simp only [readSet, List.length_cons, List.append_assoc]
    rw [read_write env hc v t a _ fuel ht.1 hk.1 ha hf.1]
    simp only [Res.bind_ok, setInsert_fresh hfresh]
    rw [readSet_writeAll env hc vs t (acc ++ [v]) b rest fuel ht.2 (by simpa using hn) hk.2 hb hf.2]
    simp
theorem readMap_writePairs (env : Env) (hc : CustomLawful env) :
    ∀ (es : List (Val × Val)) (t u : Ty) (acc : List (Val × Val)) (bs rest : Bytes) (fuel : Nat),
      HasTyPairs env t u es → ((acc ++ es).map Prod.fst).Nodup →
      Val.AllPairs TimeKept es → writePairs env t u es = some bs → Val.depthPairs es ≤ fuel →
      readMap (read env fuel t) (read env fuel u) es.length acc (bs ++ rest) = .ok (acc ++ es) rest
  | [], t, u, acc, bs, rest, fuel, ht, hn, hk, hw, hf => by
    simp [writePairs] at hw; subst hw; simp [readMap]
  | (k, v) :: es, t, u, acc, bs, rest, fuel, ht, hn, hk, hw, hf => by
    simp only [writePairs, Option.bind_eq_some_iff, Option.map_eq_some_iff] at hw
    obtain ⟨a, ha, b, hb, c, hc', rfl⟩ := hw
    simp only [HasTyPairs] at ht
    simp only [Val.AllPairs] at hk
    simp only [Val.depthPairs, Nat.max_le] at hf
    have hfresh : k ∉ acc.map Prod.fst := by
      intro hm
      rw [List.map_append, List.nodup_append] at hn
      exact hn.2.2 k hm k (by simp) rfl
    simp only [readMap, List.length_cons, List.append_assoc]
    rw [read_write env hc k t a _ fuel ht.1 hk.1 ha hf.1.1]
    simp only [Res.bind_ok]
    rw [read_write env hc v u b _ fuel ht.2.1 hk.2.1 hb hf.1.2]
    simp only [Res.bind_ok, mapInsert_fresh hfresh]
    rw [readMap_writePairs env hc es t u (acc ++ [(k, v)]) c rest fuel ht.2.2 (by simpa using hn)
      hk.2.2 hc' hf.2]
    simp
theorem readFields_writeFields (env : Env) (hc : CustomLawful env) :
    ∀ (vs : List Val) (ts : List Ty) (bs rest : Bytes) (fuel : Nat), HasTyFields env ts vs →
      Val.AllList TimeKept vs → writeFields env ts vs = some bs → Val.depthList vs ≤ fuel →
      readFields (read env fuel) ts (bs ++ rest) = .ok vs rest
  | [], ts, bs, rest, fuel, ht, hk, hw, hf => by
    cases ts <;> simp [HasTyFields] at ht
    simp [writeFields] at hw; subst hw; simp [readFields]
  | v :: vs, ts, bs, rest, fuel, ht, hk, hw, hf => by
    cases ts with
    | nil => simp [HasTyFields] at ht
    | cons t ts =>
      simp only [writeFields, Option.bind_eq_some_iff, Option.map_eq_some_iff] at hw
      obtain ⟨a, ha, b, hb, rfl⟩ := hw
      simp only [HasTyFields] at ht
      simp only [Val.AllList] at hk
      simp only [Val.depthList, Nat.max_le] at hf
      simp [readFields, read_write env hc v t a _ fuel ht.1 hk.1 ha hf.1,
        readFields_writeFields env hc vs ts b rest fuel ht.2 hk.2 hb hf.2]
end

end Verif.Wire
