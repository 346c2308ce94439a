import Verif.Wire.Foreign
import Verif.Wire.Lemmas2
/-
Generic agreement between a foreign language's converters and the Rust ones.
-/
namespace Verif.Wire
open Verif

mutual
/-- `Deep P env t v`: `P` holds of `v` at type `t`, and of every value inside `v` at its own type.
The bytes of a byte array are not visited one by one. -/
def Deep (P : Ty → Val → Prop) (env : Env) : Ty → Val → Prop
  | t, .some v => P t (.some v) ∧ ∀ u, t = .option u → Deep P env u v
  | t, .seq vs => P t (.seq vs) ∧ ∀ u, t = .seq u → u ≠ .int .u8 → DeepAll P env u vs
  | t, .map es => P t (.map es) ∧ ∀ k u, t = .map k u → DeepPairs P env k u es
  | t, .set vs => P t (.set vs) ∧ ∀ u, t = .set u → DeepAll P env u vs
  | t, .box v => P t (.box v) ∧ ∀ u, t = .box u → Deep P env u v
  | t, .record fs => P t (.record fs) ∧
      ∀ n ts, t = .named n → env n = some (.record ts) → DeepFields P env ts fs
  | t, .variant i fs => P t (.variant i fs) ∧
      ∀ n vs ts, t = .named n → env n = some (.enum vs) → vs[i]? = some ts →
        DeepFields P env ts fs
  | t, .custom i low => P t (.custom i low) ∧
      ∀ n u lo li, t = .named n → env n = some (.custom u lo li) → Deep P env u low
  | t, v => P t v
def DeepAll (P : Ty → Val → Prop) (env : Env) : Ty → List Val → Prop
  | _, [] => True
  | t, v :: vs => Deep P env t v ∧ DeepAll P env t vs
def DeepPairs (P : Ty → Val → Prop) (env : Env) : Ty → Ty → List (Val × Val) → Prop
  | _, _, [] => True
  | t, u, (k, v) :: es => Deep P env t k ∧ Deep P env u v ∧ DeepPairs P env t u es
def DeepFields (P : Ty → Val → Prop) (env : Env) : List Ty → List Val → Prop
  | t :: ts, v :: vs => Deep P env t v ∧ DeepFields P env ts vs
  | _, _ => True
end

/-- What the pieces of a language must do for its readers to understand Rust's writers. -/
structure ReadsLike (L : Lang) (env : Env) (P : Ty → Val → Prop) : Prop where
  leaf : ∀ t v bs rest, t.isLeaf = true → HasTy env t v → P t v → write env t v = some bs →
    L.readLeaf t (bs ++ rest) = .ok (repr L v) rest
  tag0 : ∀ rest, L.readTag (beBytes 1 0 ++ rest) = .ok false rest
  tag1 : ∀ rest, L.readTag (beBytes 1 1 ++ rest) = .ok true rest
  count : ∀ n p rest, writeLen n = some p → L.readCount (p ++ rest) = .ok n rest
  variant : ∀ n p rest, writeLen (n + 1) = some p →
    L.readVariant (p ++ rest) = .ok (((n + 1 : Nat) : Int)) rest
  none : L.leaf .none = .none
  keys : ∀ k u es, P (.map k u) (.map es) →
    ((reprPairs L es).map Prod.fst).Nodup ∧ (es ≠ [] → L.hashable env k = true)
  elems : ∀ u vs, P (.set u) (.set vs) →
    (reprAll L vs).Nodup ∧ (vs ≠ [] → L.hashable env u = true)

/-- What the pieces of a language must do for its writers to produce what Rust's writers do. -/
structure WritesLike (L : Lang) (env : Env) (P : Ty → Val → Prop) : Prop where
  leaf : ∀ t v bs, t.isLeaf = true → HasTy env t v → P t v → write env t v = some bs →
    L.writeLeaf t (repr L v) = some bs
  count : ∀ n p, writeLen n = some p → L.writeCount n = some p
  variant : ∀ n p, writeLen (n + 1) = some p → L.writeVariant (n + 1) = some p
  none : L.leaf .none = .none
  some : ∀ t v, P (.option t) (.some v) → L.nullable = true → repr L v ≠ .none

theorem length_reprAll (L : Lang) (vs : List Val) : (reprAll L vs).length = vs.length := by
  induction vs with
  | nil => rfl
  | cons v vs ih => simp [reprAll, ih]

theorem length_reprPairs (L : Lang) (es : List (Val × Val)) :
    (reprPairs L es).length = es.length := by
  induction es with
  | nil => rfl
  | cons e es ih => obtain ⟨k, v⟩ := e; simp [reprPairs, ih]

theorem isLeaf_seq {t : Ty} (h : t ≠ .int .u8) : (Ty.seq t).isLeaf = false := by simp [Ty.isLeaf, h]

section
variable {L : Lang} {env : Env} {P : Ty → Val → Prop}

mutual
theorem fread_write (hL : ReadsLike L env P) :
    ∀ (v : Val) (t : Ty) (bs rest : Bytes) (fuel : Nat), HasTy env t v → Deep P env t v →
      write env t v = some bs → v.depth ≤ fuel → fread L env fuel t (bs ++ rest) = .ok (repr L v) rest
  | v, t, bs, rest, 0, _, _, _, hf => by cases v <;> simp [Val.depth] at hf
  | .int z, t, bs, rest, fuel + 1, ht, hk, hw, hf => by
    have hl : t.isLeaf = true := by cases t <;> simp [HasTy] at ht; rfl
    simp only [fread, hl, if_true]
    exact hL.leaf t _ bs rest hl ht (by simpa [Deep] using hk) hw
  | .float z, t, bs, rest, fuel + 1, ht, hk, hw, hf => by
    have hl : t.isLeaf = true := by cases t <;> simp [HasTy] at ht <;> rfl
    simp only [fread, hl, if_true]
    exact hL.leaf t _ bs rest hl ht (by simpa [Deep] using hk) hw
  | .bool z, t, bs, rest, fuel + 1, ht, hk, hw, hf => by
    have hl : t.isLeaf = true := by cases t <;> simp [HasTy] at ht <;> rfl
    simp only [fread, hl, if_true]
    exact hL.leaf t _ bs rest hl ht (by simpa [Deep] using hk) hw
  | .str z, t, bs, rest, fuel + 1, ht, hk, hw, hf => by
    have hl : t.isLeaf = true := by cases t <;> simp [HasTy] at ht <;> rfl
    simp only [fread, hl, if_true]
    exact hL.leaf t _ bs rest hl ht (by simpa [Deep] using hk) hw
  | .time z, t, bs, rest, fuel + 1, ht, hk, hw, hf => by
    have hl : t.isLeaf = true := by cases t <;> simp [HasTy] at ht <;> rfl
    simp only [fread, hl, if_true]
    exact hL.leaf t _ bs rest hl ht (by simpa [Deep] using hk) hw
  | .dur z z', t, bs, rest, fuel + 1, ht, hk, hw, hf => by
    have hl : t.isLeaf = true := by cases t <;> simp [HasTy] at ht <;> rfl
    simp only [fread, hl, if_true]
    exact hL.leaf t _ bs rest hl ht (by simpa [Deep] using hk) hw
  | .handle z, t, bs, rest, fuel + 1, ht, hk, hw, hf => by
    have hl : t.isLeaf = true := by cases t <;> simp [HasTy] at ht <;> rfl
    simp only [fread, hl, if_true]
    exact hL.leaf t _ bs rest hl ht (by simpa [Deep] using hk) hw
  | .none, t, bs, rest, fuel + 1, ht, hk, hw, hf => by
    cases t <;> simp [HasTy] at ht
    simp [write] at hw; subst hw
    simp [fread, Ty.isLeaf, hL.tag0, repr, hL.none]
  | .some v, t, bs, rest, fuel + 1, ht, hk, hw, hf => by
    cases t <;> simp [HasTy] at ht
    simp only [write, Option.map_eq_some_iff] at hw
    obtain ⟨b, hb, rfl⟩ := hw
    simp only [Deep] at hk
    simp only [Val.depth, Nat.add_le_add_iff_right] at hf
    simp [fread, Ty.isLeaf, hL.tag1, repr,
      fread_write hL v _ b rest fuel ht (hk.2 _ rfl) hb hf]
  | .seq vs, t, bs, rest, fuel + 1, ht, hk, hw, hf => by
    cases t <;> simp [HasTy] at ht
    rename_i u
    by_cases hu : u = .int .u8
    · have hl : (Ty.seq u).isLeaf = true := by simp [Ty.isLeaf, hu]
      simp only [fread, hl, if_true]
      exact hL.leaf _ _ bs rest hl (by simpa only [HasTy] using ht)
        (by simp only [Deep] at hk; exact hk.1) hw
    simp only [write, Option.bind_eq_some_iff, Option.map_eq_some_iff] at hw
    obtain ⟨p, hp, b, hb, rfl⟩ := hw
    simp only [Deep] at hk
    simp only [Val.depth, Nat.add_le_add_iff_right] at hf
    simp only [fread, isLeaf_seq hu, List.append_assoc, hL.count _ _ _ hp]
    simp [freadSeq_writeAll hL vs _ b rest fuel ht (hk.2 _ rfl hu) hb hf, repr]
  | .set vs, t, bs, rest, fuel + 1, ht, hk, hw, hf => by
    cases t <;> simp [HasTy] at ht
    rename_i kt
    simp only [write, Option.bind_eq_some_iff, Option.map_eq_some_iff] at hw
    obtain ⟨p, hp, b, hb, rfl⟩ := hw
    simp only [Deep] at hk
    simp only [Val.depth, Nat.add_le_add_iff_right] at hf
    simp only [fread, Ty.isLeaf, List.append_assoc, hL.count _ _ _ hp]
    have hel := hL.elems _ _ hk.1
    have hh : ¬(vs.length ≠ 0 ∧ L.hashable env kt = false) := by
      rintro ⟨h1, h2⟩
      rw [hel.2 (by intro h; simp [h] at h1)] at h2
      cases h2
    simp only [Bool.false_eq_true, if_false, Res.bind_ok]
    rw [if_neg hh]
    simp [freadSet_writeAll hL vs _ [] b rest fuel ht.1 (by simpa using hel.1) (hk.2 _ rfl) hb hf,
      repr]
  | .map es, t, bs, rest, fuel + 1, ht, hk, hw, hf => by
    cases t <;> simp [HasTy] at ht
    rename_i kt vt
    simp only [write, Option.bind_eq_some_iff, Option.map_eq_some_iff] at hw
    obtain ⟨p, hp, b, hb, rfl⟩ := hw
    simp only [Deep] at hk
    simp only [Val.depth, Nat.add_le_add_iff_right] at hf
    simp only [fread, Ty.isLeaf, List.append_assoc, hL.count _ _ _ hp]
    have hel := hL.keys _ _ _ hk.1
    have hh : ¬(es.length ≠ 0 ∧ L.hashable env kt = false) := by
      rintro ⟨h1, h2⟩
      rw [hel.2 (by intro h; simp [h] at h1)] at h2
      cases h2
    simp only [Bool.false_eq_true, if_false, Res.bind_ok]
    rw [if_neg hh]
    simp [freadMap_writePairs hL es _ _ [] b rest fuel ht.1 (by simpa using hel.1)
      (hk.2 _ _ rfl) hb hf, repr]
  | .box v, t, bs, rest, fuel + 1, ht, hk, hw, hf => by
    cases t <;> simp [HasTy] at ht
    simp only [write] at hw
    simp only [Deep] at hk
    simp only [Val.depth, Nat.add_le_add_iff_right] at hf
    simp [fread, Ty.isLeaf, repr, fread_write hL v _ bs rest fuel ht (hk.2 _ rfl) hw hf]
  | .record fs, t, bs, rest, fuel + 1, ht, hk, hw, hf => by
    cases t <;> simp [HasTy] at ht
    obtain ⟨ts, he, ht⟩ := ht
    simp only [write, he] at hw
    simp only [Deep] at hk
    simp only [Val.depth, Nat.add_le_add_iff_right] at hf
    simp [fread, Ty.isLeaf, repr, he,
      freadFields_writeFields hL fs ts bs rest fuel ht (hk.2 _ _ rfl he) hw hf]
  | .variant i fs, t, bs, rest, fuel + 1, ht, hk, hw, hf => by
    cases t <;> simp [HasTy] at ht
    obtain ⟨vs, he, ts, hi, ht⟩ := ht
    simp only [write, he, hi, Option.bind_eq_some_iff, Option.map_eq_some_iff] at hw
    obtain ⟨p, hp, b, hb, rfl⟩ := hw
    simp only [Deep] at hk
    simp only [Val.depth, Nat.add_le_add_iff_right] at hf
    simp only [fread, Ty.isLeaf, he, List.append_assoc, hL.variant _ _ _ hp]
    have e : (((i + 1 : Nat) : Int) - 1).toNat = i := by omega
    simp only [Res.bind_ok, e, hi]
    rw [if_neg (by simp), if_neg (by omega)]
    simp [freadFields_writeFields hL fs ts b rest fuel ht (hk.2 _ _ _ rfl he hi) hb hf, repr]
  | .custom i low, t, bs, rest, fuel + 1, ht, hk, hw, hf => by
    cases t <;> simp [HasTy] at ht
    obtain ⟨bt, lo, ⟨li, he⟩, hlo, ht⟩ := ht
    simp only [write, he] at hw
    simp only [Deep] at hk
    simp only [Val.depth, Nat.add_le_add_iff_right] at hf
    simp [fread, Ty.isLeaf, repr, he,
      fread_write hL low _ bs rest fuel ht (hk.2 _ _ _ _ rfl he) hw hf]
theorem freadSeq_writeAll (hL : ReadsLike L env P) :
    ∀ (vs : List Val) (t : Ty) (bs rest : Bytes) (fuel : Nat), HasTyAll env t vs →
      DeepAll P env t vs → writeAll env t vs = some bs → Val.depthList vs ≤ fuel →
      readSeq (fread L env fuel t) vs.length (bs ++ rest) = .ok (reprAll L vs) rest
  | [], t, bs, rest, fuel, ht, hk, hw, hf => by
    simp [writeAll] at hw; subst hw; simp [readSeq, reprAll]
  | v :: vs, t, bs, rest, fuel, ht, hk, hw, hf => by
    simp only [writeAll, Option.bind_eq_some_iff, Option.map_eq_some_iff] at hw
    obtain ⟨a, ha, b, hb, rfl⟩ := hw
    simp only [HasTyAll] at ht
    simp only [DeepAll] at hk
    simp only [Val.depthList, Nat.max_le] at hf
    simp [readSeq, reprAll, fread_write hL v t a _ fuel ht.1 hk.1 ha hf.1,
      freadSeq_writeAll hL vs t b rest fuel ht.2 hk.2 hb hf.2]
theorem freadSet_writeAll (hL : ReadsLike L env P) :
    ∀ (vs : List Val) (t : Ty) (acc : List Val) (bs rest : Bytes) (fuel : Nat),
      HasTyAll env t vs → (acc ++ reprAll L vs).Nodup →
      DeepAll P env t vs → writeAll env t vs = some bs → Val.depthList vs ≤ fuel →
      readSet (fread L env fuel t) vs.length acc (bs ++ rest) = .ok (acc ++ reprAll L vs) rest
  | [], t, acc, bs, rest, fuel, ht, hn, hk, hw, hf => by
    simp [writeAll] at hw; subst hw; simp [readSet, reprAll]
  | v :: vs, t, acc, bs, rest, fuel, ht, hn, hk, hw, hf => by
    simp only [writeAll, Option.bind_eq_some_iff, Option.map_eq_some_iff] at hw
    obtain ⟨a, ha, b, hb, rfl⟩ := hw
    simp only [HasTyAll] at ht
    simp only [DeepAll] at hk
    simp only [Val.depthList, Nat.max_le] at hf
    simp only [reprAll] at hn ⊢
    have hfresh : repr L v ∉ acc := by
      intro hm
      rw [List.nodup_append] at hn
      exact hn.2.2 _ hm _ (by simp) rfl
    simp only [readSet, List.length_cons, List.append_assoc]
    rw [fread_write hL v t a _ fuel ht.1 hk.1 ha hf.1]
    simp only [Res.bind_ok, setInsert_fresh hfresh]
    rw [freadSet_writeAll hL vs t (acc ++ [repr L v]) b rest fuel ht.2 (by simpa using hn) hk.2
      hb hf.2]
    simp
theorem freadMap_writePairs (hL : ReadsLike L env P) :
    ∀ (es : List (Val × Val)) (t u : Ty) (acc : List (Val × Val)) (bs rest : Bytes) (fuel : Nat),
      HasTyPairs env t u es → ((acc ++ reprPairs L es).map Prod.fst).Nodup →
      DeepPairs P env t u es → writePairs env t u es = some bs → Val.depthPairs es ≤ fuel →
      readMap (fread L env fuel t) (fread L env fuel u) es.length acc (bs ++ rest) =
        .ok (acc ++ reprPairs L es) rest
  | [], t, u, acc, bs, rest, fuel, ht, hn, hk, hw, hf => by
    simp [writePairs] at hw; subst hw; simp [readMap, reprPairs]
  | (k, v) :: es, t, u, acc, bs, rest, fuel, ht, hn, hk, hw, hf => by
    simp only [writePairs, Option.bind_eq_some_iff, Option.map_eq_some_iff] at hw
    obtain ⟨a, ha, b, hb, c, hc', rfl⟩ := hw
    simp only [HasTyPairs] at ht
    simp only [DeepPairs] at hk
    simp only [Val.depthPairs, Nat.max_le] at hf
    simp only [reprPairs] at hn ⊢
    have hfresh : repr L k ∉ acc.map Prod.fst := by
      intro hm
      rw [List.map_append, List.nodup_append] at hn
      exact hn.2.2 _ hm _ (by simp) rfl
    simp only [readMap, List.length_cons, List.append_assoc]
    rw [fread_write hL k t a _ fuel ht.1 hk.1 ha hf.1.1]
    simp only [Res.bind_ok]
    rw [fread_write hL v u b _ fuel ht.2.1 hk.2.1 hb hf.1.2]
    simp only [Res.bind_ok, mapInsert_fresh hfresh]
    rw [freadMap_writePairs hL es t u (acc ++ [(repr L k, repr L v)]) c rest fuel ht.2.2
      (by simpa using hn) hk.2.2 hc' hf.2]
    simp
theorem freadFields_writeFields (hL : ReadsLike L env P) :
    ∀ (vs : List Val) (ts : List Ty) (bs rest : Bytes) (fuel : Nat), HasTyFields env ts vs →
      DeepFields P env ts vs → writeFields env ts vs = some bs → Val.depthList vs ≤ fuel →
      readFields (fread L env fuel) ts (bs ++ rest) = .ok (reprAll L vs) rest
  | [], ts, bs, rest, fuel, ht, hk, hw, hf => by
    cases ts <;> simp [HasTyFields] at ht
    simp [writeFields] at hw; subst hw; simp [readFields, reprAll]
  | v :: vs, ts, bs, rest, fuel, ht, hk, hw, hf => by
    cases ts with
    | nil => simp [HasTyFields] at ht
    | cons t ts =>
      simp only [writeFields, Option.bind_eq_some_iff, Option.map_eq_some_iff] at hw
      obtain ⟨a, ha, b, hb, rfl⟩ := hw
      simp only [HasTyFields] at ht
      simp only [DeepFields] at hk
      simp only [Val.depthList, Nat.max_le] at hf
      simp [readFields, reprAll, fread_write hL v t a _ fuel ht.1 hk.1 ha hf.1,
        freadFields_writeFields hL vs ts b rest fuel ht.2 hk.2 hb hf.2]
end

mutual
theorem fwrite_write (hL : WritesLike L env P) :
    ∀ (v : Val) (t : Ty) (bs : Bytes) (fuel : Nat), HasTy env t v → Deep P env t v →
      write env t v = some bs → v.depth ≤ fuel → fwrite L env fuel t (repr L v) = some bs
  | v, t, bs, 0, _, _, _, hf => by cases v <;> simp [Val.depth] at hf
  | .int z, t, bs, fuel + 1, ht, hk, hw, hf => by
    have hl : t.isLeaf = true := by cases t <;> simp [HasTy] at ht; rfl
    simp only [fwrite, hl, if_true]
    exact hL.leaf t _ bs hl ht (by simpa [Deep] using hk) hw
  | .float z, t, bs, fuel + 1, ht, hk, hw, hf => by
    have hl : t.isLeaf = true := by cases t <;> simp [HasTy] at ht <;> rfl
    simp only [fwrite, hl, if_true]
    exact hL.leaf t _ bs hl ht (by simpa [Deep] using hk) hw
  | .bool z, t, bs, fuel + 1, ht, hk, hw, hf => by
    have hl : t.isLeaf = true := by cases t <;> simp [HasTy] at ht <;> rfl
    simp only [fwrite, hl, if_true]
    exact hL.leaf t _ bs hl ht (by simpa [Deep] using hk) hw
  | .str z, t, bs, fuel + 1, ht, hk, hw, hf => by
    have hl : t.isLeaf = true := by cases t <;> simp [HasTy] at ht <;> rfl
    simp only [fwrite, hl, if_true]
    exact hL.leaf t _ bs hl ht (by simpa [Deep] using hk) hw
  | .time z, t, bs, fuel + 1, ht, hk, hw, hf => by
    have hl : t.isLeaf = true := by cases t <;> simp [HasTy] at ht <;> rfl
    simp only [fwrite, hl, if_true]
    exact hL.leaf t _ bs hl ht (by simpa [Deep] using hk) hw
  | .dur z z', t, bs, fuel + 1, ht, hk, hw, hf => by
    have hl : t.isLeaf = true := by cases t <;> simp [HasTy] at ht <;> rfl
    simp only [fwrite, hl, if_true]
    exact hL.leaf t _ bs hl ht (by simpa [Deep] using hk) hw
  | .handle z, t, bs, fuel + 1, ht, hk, hw, hf => by
    have hl : t.isLeaf = true := by cases t <;> simp [HasTy] at ht <;> rfl
    simp only [fwrite, hl, if_true]
    exact hL.leaf t _ bs hl ht (by simpa [Deep] using hk) hw
  | .none, t, bs, fuel + 1, ht, hk, hw, hf => by
    cases t <;> simp [HasTy] at ht
    simp [write] at hw; subst hw
    simp [fwrite, Ty.isLeaf, repr, hL.none]
  | .some v, t, bs, fuel + 1, ht, hk, hw, hf => by
    cases t <;> simp [HasTy] at ht
    simp only [write, Option.map_eq_some_iff] at hw
    obtain ⟨b, hb, rfl⟩ := hw
    simp only [Deep] at hk
    simp only [Val.depth, Nat.add_le_add_iff_right] at hf
    have ih := fwrite_write hL v _ b fuel ht (hk.2 _ rfl) hb hf
    by_cases hn : L.nullable = true
    · have := hL.some _ _ hk.1 hn
      simp [fwrite, Ty.isLeaf, repr, hn, this, ih]
    · simp [fwrite, Ty.isLeaf, repr, hn, ih]
  | .seq vs, t, bs, fuel + 1, ht, hk, hw, hf => by
    cases t <;> simp [HasTy] at ht
    rename_i u
    by_cases hu : u = .int .u8
    · have hl : (Ty.seq u).isLeaf = true := by simp [Ty.isLeaf, hu]
      simp only [fwrite, hl, if_true]
      exact hL.leaf _ _ bs hl (by simpa only [HasTy] using ht)
        (by simp only [Deep] at hk; exact hk.1) hw
    simp only [write, Option.bind_eq_some_iff, Option.map_eq_some_iff] at hw
    obtain ⟨p, hp, b, hb, rfl⟩ := hw
    simp only [Deep] at hk
    simp only [Val.depth, Nat.add_le_add_iff_right] at hf
    simp only [fwrite, isLeaf_seq hu, repr, length_reprAll, hL.count _ _ hp]
    simp [fwriteAll_writeAll hL vs _ b fuel ht (hk.2 _ rfl hu) hb hf]
  | .set vs, t, bs, fuel + 1, ht, hk, hw, hf => by
    cases t <;> simp [HasTy] at ht
    simp only [write, Option.bind_eq_some_iff, Option.map_eq_some_iff] at hw
    obtain ⟨p, hp, b, hb, rfl⟩ := hw
    simp only [Deep] at hk
    simp only [Val.depth, Nat.add_le_add_iff_right] at hf
    simp only [fwrite, Ty.isLeaf, repr, length_reprAll, hL.count _ _ hp]
    simp [fwriteAll_writeAll hL vs _ b fuel ht.1 (hk.2 _ rfl) hb hf]
  | .map es, t, bs, fuel + 1, ht, hk, hw, hf => by
    cases t <;> simp [HasTy] at ht
    simp only [write, Option.bind_eq_some_iff, Option.map_eq_some_iff] at hw
    obtain ⟨p, hp, b, hb, rfl⟩ := hw
    simp only [Deep] at hk
    simp only [Val.depth, Nat.add_le_add_iff_right] at hf
    simp only [fwrite, Ty.isLeaf, repr, length_reprPairs, hL.count _ _ hp]
    simp [fwritePairs_writePairs hL es _ _ b fuel ht.1 (hk.2 _ _ rfl) hb hf]
  | .box v, t, bs, fuel + 1, ht, hk, hw, hf => by
    cases t <;> simp [HasTy] at ht
    simp only [write] at hw
    simp only [Deep] at hk
    simp only [Val.depth, Nat.add_le_add_iff_right] at hf
    simp [fwrite, Ty.isLeaf, repr, fwrite_write hL v _ bs fuel ht (hk.2 _ rfl) hw hf]
  | .record fs, t, bs, fuel + 1, ht, hk, hw, hf => by
    cases t <;> simp [HasTy] at ht
    obtain ⟨ts, he, ht⟩ := ht
    simp only [write, he] at hw
    simp only [Deep] at hk
    simp only [Val.depth, Nat.add_le_add_iff_right] at hf
    simp [fwrite, Ty.isLeaf, repr, he,
      fwriteFields_writeFields hL fs ts bs fuel ht (hk.2 _ _ rfl he) hw hf]
  | .variant i fs, t, bs, fuel + 1, ht, hk, hw, hf => by
    cases t <;> simp [HasTy] at ht
    obtain ⟨vs, he, ts, hi, ht⟩ := ht
    simp only [write, he, hi, Option.bind_eq_some_iff, Option.map_eq_some_iff] at hw
    obtain ⟨p, hp, b, hb, rfl⟩ := hw
    simp only [Deep] at hk
    simp only [Val.depth, Nat.add_le_add_iff_right] at hf
    simp [fwrite, Ty.isLeaf, repr, he, hi, hL.variant _ _ hp,
      fwriteFields_writeFields hL fs ts b fuel ht (hk.2 _ _ _ rfl he hi) hb hf]
  | .custom i low, t, bs, fuel + 1, ht, hk, hw, hf => by
    cases t <;> simp [HasTy] at ht
    obtain ⟨bt, lo, ⟨li, he⟩, hlo, ht⟩ := ht
    simp only [write, he] at hw
    simp only [Deep] at hk
    simp only [Val.depth, Nat.add_le_add_iff_right] at hf
    simp [fwrite, Ty.isLeaf, repr, he,
      fwrite_write hL low _ bs fuel ht (hk.2 _ _ _ _ rfl he) hw hf]
theorem fwriteAll_writeAll (hL : WritesLike L env P) :
    ∀ (vs : List Val) (t : Ty) (bs : Bytes) (fuel : Nat), HasTyAll env t vs →
      DeepAll P env t vs → writeAll env t vs = some bs → Val.depthList vs ≤ fuel →
      fwriteAll (fwrite L env fuel t) (reprAll L vs) = some bs
  | [], t, bs, fuel, ht, hk, hw, hf => by
    simp [writeAll] at hw; subst hw; simp [fwriteAll, reprAll]
  | v :: vs, t, bs, fuel, ht, hk, hw, hf => by
    simp only [writeAll, Option.bind_eq_some_iff, Option.map_eq_some_iff] at hw
    obtain ⟨a, ha, b, hb, rfl⟩ := hw
    simp only [HasTyAll] at ht
    simp only [DeepAll] at hk
    simp only [Val.depthList, Nat.max_le] at hf
    simp [fwriteAll, reprAll, fwrite_write hL v t a fuel ht.1 hk.1 ha hf.1,
      fwriteAll_writeAll hL vs t b fuel ht.2 hk.2 hb hf.2]
theorem fwritePairs_writePairs (hL : WritesLike L env P) :
    ∀ (es : List (Val × Val)) (t u : Ty) (bs : Bytes) (fuel : Nat),
      HasTyPairs env t u es → DeepPairs P env t u es → writePairs env t u es = some bs →
      Val.depthPairs es ≤ fuel →
      fwritePairs (fwrite L env fuel t) (fwrite L env fuel u) (reprPairs L es) = some bs
  | [], t, u, bs, fuel, ht, hk, hw, hf => by
    simp [writePairs] at hw; subst hw; simp [fwritePairs, reprPairs]
  | (k, v) :: es, t, u, bs, fuel, ht, hk, hw, hf => by
    simp only [writePairs, Option.bind_eq_some_iff, Option.map_eq_some_iff] at hw
    obtain ⟨a, ha, b, hb, c, hc', rfl⟩ := hw
    simp only [HasTyPairs] at ht
    simp only [DeepPairs] at hk
    simp only [Val.depthPairs, Nat.max_le] at hf
    simp [fwritePairs, reprPairs, fwrite_write hL k t a fuel ht.1 hk.1 ha hf.1.1,
      fwrite_write hL v u b fuel ht.2.1 hk.2.1 hb hf.1.2,
      fwritePairs_writePairs hL es t u c fuel ht.2.2 hk.2.2 hc' hf.2]
theorem fwriteFields_writeFields (hL : WritesLike L env P) :
    ∀ (vs : List Val) (ts : List Ty) (bs : Bytes) (fuel : Nat), HasTyFields env ts vs →
      DeepFields P env ts vs → writeFields env ts vs = some bs → Val.depthList vs ≤ fuel →
      fwriteFields (fwrite L env fuel) ts (reprAll L vs) = some bs
  | [], ts, bs, fuel, ht, hk, hw, hf => by
    cases ts <;> simp [HasTyFields] at ht
    simp [writeFields] at hw; subst hw; simp [fwriteFields, reprAll]
  | v :: vs, ts, bs, fuel, ht, hk, hw, hf => by
    cases ts with
    | nil => simp [HasTyFields] at ht
    | cons t ts =>
      simp only [writeFields, Option.bind_eq_some_iff, Option.map_eq_some_iff] at hw
      obtain ⟨a, ha, b, hb, rfl⟩ := hw
      simp only [HasTyFields] at ht
      simp only [DeepFields] at hk
      simp only [Val.depthList, Nat.max_le] at hf
      simp [fwriteFields, reprAll, fwrite_write hL v t a fuel ht.1 hk.1 ha hf.1,
        fwriteFields_writeFields hL vs ts b fuel ht.2 hk.2 hb hf.2]
end
end

end Verif.Wire
