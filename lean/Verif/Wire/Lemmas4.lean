import Verif.Wire.Lemmas3
/-
Canonicity, absence of panics, writer limits and map semantics.
-/
namespace Verif.Wire
open Verif

/-- `t.All p`: `p` holds of `t` and of every type nested in it (not looking through names). -/
def Ty.All (p : Ty → Prop) : Ty → Prop
  | .option t => p (.option t) ∧ t.All p
  | .seq t => p (.seq t) ∧ t.All p
  | .map k v => p (.map k v) ∧ k.All p ∧ v.All p
  | .set t => p (.set t) ∧ t.All p
  | .box t => p (.box t) ∧ t.All p
  | t => p t

/-- Every type occurring in a definition satisfies `p`. -/
def Def.All (p : Ty → Prop) : Def → Prop
  | .record ts => ∀ t ∈ ts, t.All p
  | .enum vs => ∀ ts ∈ vs, ∀ t ∈ ts, t.All p
  | .custom t _ _ => t.All p

/-- Every type occurring in the environment satisfies `p`. -/
def EnvAll (p : Ty → Prop) (env : Env) : Prop := ∀ n d, env n = some d → d.All p

/-! ### Canonicity -/

/-- Types whose encodings are canonical at the top: no map, set, timestamp or duration. -/
def CanonTy : Ty → Prop
  | .map _ _ => False
  | .set _ => False
  | .timestamp => False
  | .duration => False
  | _ => True

/-- Custom conversions that undo each other the other way: `lower(try_lift(v)?) = v`. -/
def CustomExact (env : Env) : Prop :=
  ∀ n t lo li, env n = some (.custom t lo li) → ∀ v id, li v = some id → lo id = v

theorem readSeq_canon {env : Env} {t : Ty} {f : Bytes → Res Val}
    (hf : ∀ bs v rest, f bs = .ok v rest → ∃ c, write env t v = some c ∧ bs = c ++ rest) :
    ∀ n bs vs rest, readSeq f n bs = .ok vs rest →
      vs.length = n ∧ ∃ c, writeAll env t vs = some c ∧ bs = c ++ rest
  | 0, bs, vs, rest, h => by
    simp [readSeq] at h; obtain ⟨rfl, rfl⟩ := h; simp [writeAll]
  | n + 1, bs, vs, rest, h => by
    simp only [readSeq, Res.bind_eq_ok, Res.map_eq_ok] at h
    obtain ⟨v, mid, h1, vs', h2, rfl⟩ := h
    obtain ⟨hl, d, hd, rfl⟩ := readSeq_canon hf n mid vs' rest h2
    obtain ⟨c, hc, rfl⟩ := hf _ _ _ h1
    exact ⟨by simp [hl], c ++ d, by simp [writeAll, hc, hd], by simp⟩

theorem readFields_canon {env : Env} {f : Ty → Bytes → Res Val} {P : Ty → Prop}
    (hf : ∀ t, P t → ∀ bs v rest, f t bs = .ok v rest →
      ∃ c, write env t v = some c ∧ bs = c ++ rest) :
    ∀ ts bs vs rest, (∀ t ∈ ts, P t) → readFields f ts bs = .ok vs rest →
      ∃ c, writeFields env ts vs = some c ∧ bs = c ++ rest
  | [], bs, vs, rest, _, h => by
    simp [readFields] at h; obtain ⟨rfl, rfl⟩ := h; simp [writeFields]
  | t :: ts, bs, vs, rest, hp, h => by
    simp only [readFields, Res.bind_eq_ok, Res.map_eq_ok] at h
    obtain ⟨v, mid, h1, vs', h2, rfl⟩ := h
    obtain ⟨d, hd, rfl⟩ := readFields_canon hf ts mid vs' rest (fun t h => hp t (by simp [h])) h2
    obtain ⟨c, hc, rfl⟩ := hf t (hp t (by simp)) _ _ _ h1
    exact ⟨c ++ d, by simp [writeFields, hc, hd], by simp⟩

theorem write_read (env : Env) (he : EnvAll CanonTy env) (hx : CustomExact env) :
    ∀ fuel t, t.All CanonTy → ∀ bs v rest, read env fuel t bs = .ok v rest →
      ∃ c, write env t v = some c ∧ bs = c ++ rest
  | 0, t, _, bs, v, rest, h => by simp [read] at h
  | fuel + 1, t, ht, bs, v, rest, h => by
    have ih := write_read env he hx fuel
    cases t with
    | int t =>
      obtain ⟨z, hz, rfl⟩ := Res.map_eq_ok.1 h
      exact ⟨_, rfl, (readInt_eq_ok.1 hz).1⟩
    | f32 =>
      obtain ⟨z, hz, rfl⟩ := Res.map_eq_ok.1 h
      exact ⟨_, rfl, (readNat_eq_ok.1 hz).1⟩
    | f64 =>
      obtain ⟨z, hz, rfl⟩ := Res.map_eq_ok.1 h
      exact ⟨_, rfl, (readNat_eq_ok.1 hz).1⟩
    | bool =>
      obtain ⟨b, rfl, hb⟩ := readBool_eq_ok.1 h
      exact ⟨_, rfl, hb⟩
    | string =>
      obtain ⟨s, rfl, p, hp, rfl⟩ := readStr_eq_ok.1 h
      exact ⟨p, by simp [write, hp], rfl⟩
    | timestamp => exact absurd ht id
    | duration => exact absurd ht id
    | handle =>
      obtain ⟨z, hz, rfl⟩ := Res.map_eq_ok.1 h
      exact ⟨_, rfl, (readNat_eq_ok.1 hz).1⟩
    | option t =>
      obtain ⟨z, mid, hz, h'⟩ := Res.bind_eq_ok.1 h
      obtain ⟨rfl, hr⟩ := readInt_eq_ok.1 hz
      split at h'
      · rename_i hz0; cases h'; subst hz0
        exact ⟨_, rfl, rfl⟩
      · split at h'
        · rename_i hz1; subst hz1
          obtain ⟨w, hw, rfl⟩ := Res.map_eq_ok.1 h'
          obtain ⟨c, hc, rfl⟩ := ih t ht.2 _ _ _ hw
          refine ⟨beBytes 1 1 ++ c, by simp [write, hc], ?_⟩
          have : writeInt .i8 1 = beBytes 1 1 := by decide
          simp [this]
        · cases h'
    | seq t =>
      obtain ⟨n, mid, hn, h'⟩ := Res.bind_eq_ok.1 h
      obtain ⟨vs, hvs, rfl⟩ := Res.map_eq_ok.1 h'
      obtain ⟨rfl, hn'⟩ := readLen_eq_ok.1 hn
      obtain ⟨hl, c, hc, rfl⟩ := readSeq_canon (ih t ht.2) _ _ _ _ hvs
      subst hl
      refine ⟨beBytes 4 vs.length ++ c, ?_, by simp⟩
      simp [write, writeLen_eq_some.2 ⟨hn', rfl⟩, hc]
    | set t => exact absurd ht.1 id
    | map k u => exact absurd ht.1 id
    | box t =>
      obtain ⟨w, hw, rfl⟩ := Res.map_eq_ok.1 h
      obtain ⟨c, hc, rfl⟩ := ih t ht.2 _ _ _ hw
      exact ⟨c, by simp [write, hc], rfl⟩
    | named n =>
      rw [read_named] at h
      split at h
      · rename_i ts hd
        obtain ⟨w, hw, rfl⟩ := Res.map_eq_ok.1 h
        obtain ⟨c, hc, rfl⟩ := readFields_canon ih _ _ _ _ (he _ _ hd) hw
        exact ⟨c, by simp [write, hd, hc], rfl⟩
      · rename_i vs hd
        obtain ⟨z, mid, hz, h'⟩ := Res.bind_eq_ok.1 h
        obtain ⟨rfl, hr⟩ := readInt_eq_ok.1 hz
        split at h'
        · cases h'
        · rename_i hz1
          split at h'
          · rename_i ts hts
            obtain ⟨w, hw, rfl⟩ := Res.map_eq_ok.1 h'
            have hmem : ts ∈ vs := List.mem_of_getElem? hts
            obtain ⟨c, hc, rfl⟩ := readFields_canon ih _ _ _ _ (he _ _ hd ts hmem) hw
            have hb : (z - 1).toNat + 1 < 2 ^ 31 := by
              simp [IntTy.InRange, IntTy.signed, IntTy.width] at hr; omega
            have hz' : z = (((z - 1).toNat + 1 : Nat) : Int) := by omega
            refine ⟨beBytes 4 ((z - 1).toNat + 1) ++ c, ?_, ?_⟩
            · simp only [write, hd, hts, writeLen_eq_some.2 ⟨hb, rfl⟩, hc, Option.bind_some,
                Option.map_some]
            · rw [← writeInt_i32_natCast hb, ← hz']; simp
          · cases h'
      · rename_i t lo li hd
        obtain ⟨w, mid, hw, h'⟩ := Res.bind_eq_ok.1 h
        split at h'
        · rename_i id hid
          cases h'
          obtain ⟨c, hc, rfl⟩ := ih t (he _ _ hd) _ _ _ hw
          exact ⟨c, by simp [write, hd, hx _ _ _ _ hd _ _ hid, hc], rfl⟩
        · cases h'
      · cases h

/-! ### No panics without time types -/

/-- No timestamp and no duration. -/
def NoTimeTy : Ty → Prop
  | .timestamp => False
  | .duration => False
  | _ => True

def NoPanic {α : Type} (f : Bytes → Res α) : Prop := ∀ bs, f bs ≠ .panic

theorem NoPanic.bind {α β : Type} {f : Bytes → Res α} {g : α → Bytes → Res β}
    (hf : NoPanic f) (hg : ∀ a, NoPanic (g a)) : NoPanic (fun bs => (f bs).bind g) := by
  intro bs h
  rcases Res.bind_eq_panic.1 h with h | ⟨a, mid, _, h⟩
  · exact hf _ h
  · exact hg _ _ h
theorem NoPanic.map {α β : Type} {f : Bytes → Res α} (hf : NoPanic f) (g : α → β) :
    NoPanic (fun bs => (f bs).map g) := fun bs h => hf bs (Res.map_eq_panic.1 h)
theorem noPanic_ok {α : Type} (a : α) : NoPanic (fun bs => Res.ok a bs) := by intro _ h; cases h
theorem noPanic_err {α : Type} (e) : NoPanic (fun _ => (Res.err e : Res α)) := by
  intro _ h; cases h
theorem NoPanic.ite {α : Type} {c : Prop} [Decidable c] {f g : Bytes → Res α}
    (hf : NoPanic f) (hg : NoPanic g) : NoPanic (fun bs => if c then f bs else g bs) := by
  by_cases h : c
  · simpa only [if_pos h] using hf
  · simpa only [if_neg h] using hg
theorem noPanic_readSeq {f : Bytes → Res Val} (hf : NoPanic f) : ∀ n, NoPanic (readSeq f n)
  | 0 => noPanic_ok _
  | n + 1 => hf.bind fun _ => (noPanic_readSeq hf n).map _
theorem noPanic_readSet {f : Bytes → Res Val} (hf : NoPanic f) :
    ∀ n acc, NoPanic (readSet f n acc)
  | 0, _ => noPanic_ok _
  | n + 1, _ => hf.bind fun _ => noPanic_readSet hf n _
theorem noPanic_readMap {f g : Bytes → Res Val} (hf : NoPanic f) (hg : NoPanic g) :
    ∀ n acc, NoPanic (readMap f g n acc)
  | 0, _ => noPanic_ok _
  | n + 1, _ => hf.bind fun _ => hg.bind fun _ => noPanic_readMap hf hg n _
theorem noPanic_readFields {f : Ty → Bytes → Res Val} :
    ∀ ts, (∀ t ∈ ts, NoPanic (f t)) → NoPanic (readFields f ts)
  | [], _ => noPanic_ok _
  | t :: ts, h => (h t (by simp)).bind fun _ =>
      (noPanic_readFields ts fun t ht => h t (by simp [ht])).map _

theorem noPanic_read (env : Env) (he : EnvAll NoTimeTy env) :
    ∀ fuel t, t.All NoTimeTy → NoPanic (read env fuel t)
  | 0, t, _ => by intro _ h; cases h
  | fuel + 1, t, ht => by
    have ih := noPanic_read env he fuel
    show NoPanic (fun bs => read env (fuel + 1) t bs)
    cases t with
    | int t => exact NoPanic.map (readInt_ne_panic t) _
    | f32 => exact NoPanic.map (readNat_ne_panic 4) _
    | f64 => exact NoPanic.map (readNat_ne_panic 8) _
    | bool => exact readBool_ne_panic
    | string => exact readStr_ne_panic
    | timestamp => exact absurd ht id
    | duration => exact absurd ht id
    | handle => exact NoPanic.map (readNat_ne_panic 8) _
    | option t =>
      exact NoPanic.bind (readInt_ne_panic _) fun _ => (noPanic_ok _).ite
        (((ih t ht.2).map _).ite (noPanic_err _))
    | seq t => exact NoPanic.bind readLen_ne_panic fun n => (noPanic_readSeq (ih t ht.2) n).map _
    | set t => exact NoPanic.bind readLen_ne_panic fun n => (noPanic_readSet (ih t ht.2) n []).map _
    | map k v =>
      exact NoPanic.bind readLen_ne_panic fun n =>
        (noPanic_readMap (ih k ht.2.1) (ih v ht.2.2) n []).map _
    | box t => exact (ih t ht.2).map _
    | named n =>
      simp only [read_named]
      cases hd : env n with
      | none => exact noPanic_err _
      | some d =>
        cases d with
        | record ts => exact (noPanic_readFields ts fun t h => ih t (he _ _ hd t h)).map _
        | enum vs =>
          refine NoPanic.bind (readInt_ne_panic _) fun z => (noPanic_err _).ite ?_
          cases hv : vs[(z - 1).toNat]? with
          | none => exact noPanic_err _
          | some ts =>
            exact (noPanic_readFields ts fun t h =>
              ih t (he _ _ hd ts (List.mem_of_getElem? hv) t h)).map _
        | custom t lo li =>
          refine (ih t (he _ _ hd)).bind fun v => ?_
          cases li v with
          | none => exact noPanic_err _
          | some i => exact noPanic_ok _

/-! ### When writing is possible -/

/-- What the writer needs of each part of a value. -/
def Fits : Val → Prop
  | .str s => s.utf8ByteSize < 2 ^ 31
  | .seq vs => vs.length < 2 ^ 31
  | .map es => es.length < 2 ^ 31
  | .set vs => vs.length < 2 ^ 31
  | .time ns => ns.natAbs < 2 ^ 63 * 1000000000
  | .variant i _ => i + 1 < 2 ^ 31
  | _ => True

theorem length_utf8 (s : String) : (utf8 s).length = s.utf8ByteSize := by
  show s.toUTF8.data.toList.length = s.toUTF8.size
  simp

theorem exists_writeLen {n : Nat} : (∃ b, writeLen n = some b) ↔ n < 2 ^ 31 := by
  simp [writeLen_eq_some]

mutual
theorem write_defined (env : Env) : ∀ (v : Val) (t : Ty), HasTy env t v →
    ((∃ b, write env t v = some b) ↔ v.All Fits)
  | .int z, t, ht => by cases t <;> simp [HasTy] at ht; simp [write, Val.All, Fits]
  | .float z, t, ht => by cases t <;> simp [HasTy] at ht <;> simp [write, Val.All, Fits]
  | .bool z, t, ht => by cases t <;> simp [HasTy] at ht; simp [write, Val.All, Fits]
  | .handle z, t, ht => by cases t <;> simp [HasTy] at ht; simp [write, Val.All, Fits]
  | .dur s n, t, ht => by cases t <;> simp [HasTy] at ht; simp [write, Val.All, Fits]
  | .none, t, ht => by cases t <;> simp [HasTy] at ht; simp [write, Val.All, Fits]
  | .str s, t, ht => by
    cases t <;> simp [HasTy] at ht
    simp only [write, writeStr, Val.All, Fits, Option.map_eq_some_iff, writeLen_eq_some,
      length_utf8]
    constructor
    · rintro ⟨b, a, h, _⟩; exact h.1
    · intro h; exact ⟨_, _, ⟨h, rfl⟩, rfl⟩
  | .time ns, t, ht => by
    cases t <;> simp [HasTy] at ht
    simp only [write, Val.All, Fits, writeTime_eq_some]
    constructor
    · rintro ⟨b, h, _⟩; exact h
    · intro h; exact ⟨_, h, rfl⟩
  | .some v, t, ht => by
    cases t <;> simp [HasTy] at ht
    rw [Val.All, ← write_defined env v _ ht]
    simp only [write, Fits, Option.map_eq_some_iff, true_and]
    constructor
    · rintro ⟨_, b, h, _⟩; exact ⟨b, h⟩
    · rintro ⟨b, h⟩; exact ⟨_, b, h, rfl⟩
  | .box v, t, ht => by
    cases t <;> simp [HasTy] at ht
    rw [Val.All, ← write_defined env v _ ht]
    simp [write, Fits]
  | .seq vs, t, ht => by
    cases t <;> simp [HasTy] at ht
    rw [Val.All, ← writeAll_defined env vs _ ht, Fits, ← exists_writeLen]
    simp only [write, Option.bind_eq_some_iff, Option.map_eq_some_iff]
    constructor
    · rintro ⟨b, a, h, c, h', _⟩; exact ⟨⟨_, h⟩, _, h'⟩
    · rintro ⟨⟨_, h⟩, _, h'⟩; exact ⟨_, _, h, _, h', rfl⟩
  | .set vs, t, ht => by
    cases t <;> simp [HasTy] at ht
    rw [Val.All, ← writeAll_defined env vs _ ht.1, Fits, ← exists_writeLen]
    simp only [write, Option.bind_eq_some_iff, Option.map_eq_some_iff]
    constructor
    · rintro ⟨b, a, h, c, h', _⟩; exact ⟨⟨_, h⟩, _, h'⟩
    · rintro ⟨⟨_, h⟩, _, h'⟩; exact ⟨_, _, h, _, h', rfl⟩
  | .map es, t, ht => by
    cases t <;> simp [HasTy] at ht
    rw [Val.All, ← writePairs_defined env es _ _ ht.1, Fits, ← exists_writeLen]
    simp only [write, Option.bind_eq_some_iff, Option.map_eq_some_iff]
    constructor
    · rintro ⟨b, a, h, c, h', _⟩; exact ⟨⟨_, h⟩, _, h'⟩
    · rintro ⟨⟨_, h⟩, _, h'⟩; exact ⟨_, _, h, _, h', rfl⟩
  | .record fs, t, ht => by
    cases t <;> simp [HasTy] at ht
    obtain ⟨ts, he, ht⟩ := ht
    rw [Val.All, ← writeFields_defined env fs _ ht]
    simp [write, he, Fits]
  | .variant i fs, t, ht => by
    cases t <;> simp [HasTy] at ht
    obtain ⟨vs, he, ts, hi, ht⟩ := ht
    rw [Val.All, ← writeFields_defined env fs _ ht, Fits, ← exists_writeLen]
    simp only [write, he, hi, Option.bind_eq_some_iff, Option.map_eq_some_iff]
    constructor
    · rintro ⟨b, a, h, c, h', _⟩; exact ⟨⟨_, h⟩, _, h'⟩
    · rintro ⟨⟨_, h⟩, _, h'⟩; exact ⟨_, _, h, _, h', rfl⟩
  | .custom i low, t, ht => by
    cases t <;> simp [HasTy] at ht
    obtain ⟨bt, lo, ⟨li, he⟩, hlo, ht⟩ := ht
    rw [Val.All, ← write_defined env low _ ht]
    simp [write, he, Fits]
theorem writeAll_defined (env : Env) : ∀ (vs : List Val) (t : Ty), HasTyAll env t vs →
    ((∃ b, writeAll env t vs = some b) ↔ Val.AllList Fits vs)
  | [], t, ht => by simp [writeAll, Val.AllList]
  | v :: vs, t, ht => by
    simp only [HasTyAll] at ht
    rw [Val.AllList, ← write_defined env v t ht.1, ← writeAll_defined env vs t ht.2]
    simp only [writeAll, Option.bind_eq_some_iff, Option.map_eq_some_iff]
    constructor
    · rintro ⟨b, a, h, c, h', _⟩; exact ⟨⟨_, h⟩, _, h'⟩
    · rintro ⟨⟨_, h⟩, _, h'⟩; exact ⟨_, _, h, _, h', rfl⟩
theorem writePairs_defined (env : Env) : ∀ (es : List (Val × Val)) (t u : Ty),
    HasTyPairs env t u es → ((∃ b, writePairs env t u es = some b) ↔ Val.AllPairs Fits es)
  | [], t, u, ht => by simp [writePairs, Val.AllPairs]
  | (k, v) :: es, t, u, ht => by
    simp only [HasTyPairs] at ht
    rw [Val.AllPairs, ← write_defined env k t ht.1, ← write_defined env v u ht.2.1,
      ← writePairs_defined env es t u ht.2.2]
    simp only [writePairs, Option.bind_eq_some_iff, Option.map_eq_some_iff]
    constructor
    · rintro ⟨b, a, h, c, h', d, h'', _⟩; exact ⟨⟨_, h⟩, ⟨_, h'⟩, _, h''⟩
    · rintro ⟨⟨_, h⟩, ⟨_, h'⟩, _, h''⟩; exact ⟨_, _, h, _, h', _, h'', rfl⟩
theorem writeFields_defined (env : Env) : ∀ (vs : List Val) (ts : List Ty),
    HasTyFields env ts vs → ((∃ b, writeFields env ts vs = some b) ↔ Val.AllList Fits vs)
  | [], ts, ht => by
    cases ts <;> simp [HasTyFields] at ht
    simp [writeFields, Val.AllList]
  | v :: vs, ts, ht => by
    cases ts with
    | nil => simp [HasTyFields] at ht
    | cons t ts =>
      simp only [HasTyFields] at ht
      rw [Val.AllList, ← write_defined env v t ht.1, ← writeFields_defined env vs ts ht.2]
      simp only [writeFields, Option.bind_eq_some_iff, Option.map_eq_some_iff]
      constructor
      · rintro ⟨b, a, h, c, h', _⟩; exact ⟨⟨_, h⟩, _, h'⟩
      · rintro ⟨⟨_, h⟩, _, h'⟩; exact ⟨_, _, h, _, h', rfl⟩
end

/-! ### Maps and sets -/

theorem lookup_mapInsert (k v key : Val) (m : List (Val × Val)) :
    (mapInsert k v m).lookup key = if key = k then some v else m.lookup key := by
  induction m with
  | nil =>
    by_cases h : key = k
    · subst h; simp [mapInsert]
    · simp [mapInsert, List.lookup, h]
  | cons e m ih =>
    obtain ⟨k', v'⟩ := e
    simp only [mapInsert]
    split
    · rename_i hk; subst hk
      by_cases h : key = k
      · subst h; simp
      · have hb : (key == k) = false := by simpa using h
        simp [List.lookup, h, hb]
    · rename_i hk
      by_cases h : key = k'
      · subst h
        have : ¬ key = k := fun e => hk e.symm
        simp [List.lookup, this]
      · have hb : (key == k') = false := by simpa using h
        simp only [List.lookup, hb, ih]

/-- Reading back the written entries, repeated keys allowed. -/
theorem readMap_writePairs_any (env : Env) (hc : CustomLawful env) :
    ∀ (es : List (Val × Val)) (t u : Ty) (acc : List (Val × Val)) (bs rest : Bytes) (fuel : Nat),
      HasTyPairs env t u es →
      Val.AllPairs TimeKept es → writePairs env t u es = some bs → Val.depthPairs es ≤ fuel →
      readMap (read env fuel t) (read env fuel u) es.length acc (bs ++ rest)
        = .ok (es.foldl (fun m e => mapInsert e.1 e.2 m) acc) rest
  | [], t, u, acc, bs, rest, fuel, ht, hk, hw, hf => by
    simp [writePairs] at hw; subst hw; simp [readMap]
  | (k, v) :: es, t, u, acc, bs, rest, fuel, ht, hk, hw, hf => by
    simp only [writePairs, Option.bind_eq_some_iff, Option.map_eq_some_iff] at hw
    obtain ⟨a, ha, b, hb, c, hc', rfl⟩ := hw
    simp only [HasTyPairs] at ht
    simp only [Val.AllPairs] at hk
    simp only [Val.depthPairs, Nat.max_le] at hf
    simp only [readMap, List.length_cons, List.append_assoc]
    rw [read_write env hc k t a _ fuel ht.1 hk.1 ha hf.1.1]
    simp only [Res.bind_ok]
    rw [read_write env hc v u b _ fuel ht.2.1 hk.2.1 hb hf.1.2]
    simp only [Res.bind_ok]
    rw [readMap_writePairs_any env hc es t u _ c rest fuel ht.2.2 hk.2.2 hc' hf.2]
    rfl

theorem readSet_writeAll_any (env : Env) (hc : CustomLawful env) :
    ∀ (vs : List Val) (t : Ty) (acc : List Val) (bs rest : Bytes) (fuel : Nat),
      HasTyAll env t vs →
      Val.AllList TimeKept vs → writeAll env t vs = some bs → Val.depthList vs ≤ fuel →
      readSet (read env fuel t) vs.length acc (bs ++ rest)
        = .ok (vs.foldl (fun s v => setInsert v s) acc) rest
  | [], t, acc, bs, rest, fuel, ht, hk, hw, hf => by
    simp [writeAll] at hw; subst hw; simp [readSet]
  | v :: vs, t, acc, bs, rest, fuel, ht, hk, hw, hf => by
    simp only [writeAll, Option.bind_eq_some_iff, Option.map_eq_some_iff] at hw
    obtain ⟨a, ha, b, hb, rfl⟩ := hw
    simp only [HasTyAll] at ht
    simp only [Val.AllList] at hk
    simp only [Val.depthList, Nat.max_le] at hf
    simp only [readSet, List.length_cons, List.append_assoc]
    rw [read_write env hc v t a _ fuel ht.1 hk.1 ha hf.1]
    simp only [Res.bind_ok]
    rw [readSet_writeAll_any env hc vs t _ b rest fuel ht.2 hk.2 hb hf.2]
    rfl

theorem lookup_append (l₁ l₂ : List (Val × Val)) (k : Val) :
    (l₁ ++ l₂).lookup k = (l₁.lookup k).or (l₂.lookup k) := by
  induction l₁ with
  | nil => simp
  | cons e l ih =>
    obtain ⟨a, b⟩ := e
    by_cases h : k = a
    · subst h; simp
    · have hb : (k == a) = false := by simpa using h
      simp only [List.cons_append, List.lookup, hb, ih]

theorem lookup_fold_mapInsert (es acc : List (Val × Val)) (key : Val) :
    (es.foldl (fun m e => mapInsert e.1 e.2 m) acc).lookup key
      = (es.reverse.lookup key).or (acc.lookup key) := by
  induction es generalizing acc with
  | nil => simp
  | cons e es ih =>
    obtain ⟨k, v⟩ := e
    simp only [List.foldl_cons, ih, lookup_mapInsert, List.reverse_cons, lookup_append]
    by_cases h : key = k
    · subst h; simp [List.lookup]
    · have hb : (key == k) = false := by simpa using h
      simp [List.lookup, h, hb]

theorem nodup_fold_mapInsert (es acc : List (Val × Val)) (h : (acc.map Prod.fst).Nodup) :
    ((es.foldl (fun m e => mapInsert e.1 e.2 m) acc).map Prod.fst).Nodup := by
  induction es generalizing acc with
  | nil => exact h
  | cons e es ih => exact ih _ (nodup_keys_mapInsert h)

theorem fold_setInsert (vs acc : List Val) (h : acc.Nodup) :
    (vs.foldl (fun s v => setInsert v s) acc).Nodup ∧
      ∀ x, x ∈ vs.foldl (fun s v => setInsert v s) acc ↔ x ∈ acc ∨ x ∈ vs := by
  induction vs generalizing acc with
  | nil => simp [h]
  | cons v vs ih =>
    obtain ⟨h1, h2⟩ := ih (setInsert v acc) (nodup_setInsert h)
    refine ⟨h1, fun x => ?_⟩
    simp only [List.foldl_cons, h2, mem_setInsert, List.mem_cons, or_assoc]

/-- In a map without repeated keys, looking up is membership. -/
theorem lookup_eq_some_of_nodup {es : List (Val × Val)} (h : (es.map Prod.fst).Nodup)
    (k v : Val) : es.lookup k = some v ↔ (k, v) ∈ es := by
  induction es with
  | nil => simp
  | cons e es ih =>
    obtain ⟨a, b⟩ := e
    simp only [List.map_cons, List.nodup_cons] at h
    by_cases hk : k = a
    · subst hk
      simp only [List.lookup, beq_self_eq_true, List.mem_cons, Prod.mk.injEq, true_and,
        Option.some.injEq]
      constructor
      · intro e; exact Or.inl e.symm
      · rintro (e | hm)
        · exact e.symm
        · exact absurd (List.mem_map_of_mem (f := Prod.fst) hm) h.1
    · have hb : (k == a) = false := by simpa using hk
      simp only [List.lookup, hb, ih h.2, List.mem_cons, Prod.mk.injEq, hk, false_and, false_or]

end Verif.Wire
