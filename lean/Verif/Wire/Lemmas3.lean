import Verif.Wire.Lemmas2
/-
Facts about reading arbitrary bytes: the reader consumes a prefix, ignores what follows, yields
well-typed values, and does not depend on the fuel once it has enough.
-/
namespace Verif.Wire
open Verif

/-- Induction principle for the reader as used below: a property of `read env fuel` follows from
the same property at smaller fuel. -/
def Suffix {α : Type} (f : Bytes → Res α) : Prop :=
  ∀ bs v rest, f bs = .ok v rest → ∃ c, bs = c ++ rest

def Local {α : Type} (f : Bytes → Res α) : Prop :=
  ∀ bs v rest tail, f bs = .ok v rest → f (bs ++ tail) = .ok v (rest ++ tail)

/-! ### Local readers also consume a prefix: both facts from one description -/

/-- `f` succeeds exactly by removing a prefix it accepts. -/
structure Prefixed {α : Type} (f : Bytes → Res α) : Prop where
  suffix : Suffix f
  loc : Local f

theorem prefixed_takeN (n : Nat) : Prefixed (takeN n) where
  suffix := by intro bs v rest h; exact ⟨v, (takeN_eq_ok.1 h).1⟩
  loc := by
    intro bs v rest tail h
    obtain ⟨rfl, hl⟩ := takeN_eq_ok.1 h
    exact takeN_eq_ok.2 ⟨by simp, hl⟩

theorem Prefixed.bind {α β : Type} {f : Bytes → Res α} {g : α → Bytes → Res β}
    (hf : Prefixed f) (hg : ∀ a, Prefixed (g a)) : Prefixed (fun bs => (f bs).bind g) where
  suffix := by
    intro bs v rest h
    obtain ⟨a, mid, h1, h2⟩ := Res.bind_eq_ok.1 h
    obtain ⟨c, rfl⟩ := hf.suffix _ _ _ h1
    obtain ⟨d, rfl⟩ := (hg a).suffix _ _ _ h2
    exact ⟨c ++ d, by simp⟩
  loc := by
    intro bs v rest tail h
    obtain ⟨a, mid, h1, h2⟩ := Res.bind_eq_ok.1 h
    simp only
    rw [hf.loc _ _ _ tail h1]
    exact (hg a).loc _ _ _ tail h2

theorem Prefixed.map {α β : Type} {f : Bytes → Res α} (hf : Prefixed f) (g : α → β) :
    Prefixed (fun bs => (f bs).map g) where
  suffix := by
    intro bs v rest h
    obtain ⟨a, h1, _⟩ := Res.map_eq_ok.1 h
    exact hf.suffix _ _ _ h1
  loc := by
    intro bs v rest tail h
    obtain ⟨a, h1, rfl⟩ := Res.map_eq_ok.1 h
    simp only
    rw [hf.loc _ _ _ tail h1]; rfl

theorem prefixed_ok {α : Type} (a : α) : Prefixed (fun bs => Res.ok a bs) where
  suffix := by intro bs v rest h; cases h; exact ⟨[], rfl⟩
  loc := by intro bs v rest tail h; cases h; rfl

theorem prefixed_err {α : Type} (e : ReadErr) : Prefixed (fun _ => (Res.err e : Res α)) where
  suffix := by intro bs v rest h; cases h
  loc := by intro bs v rest tail h; cases h

theorem prefixed_panic {α : Type} : Prefixed (fun _ => (Res.panic : Res α)) where
  suffix := by intro bs v rest h; cases h
  loc := by intro bs v rest tail h; cases h

theorem prefixed_deep {α : Type} : Prefixed (fun _ => (Res.deep : Res α)) where
  suffix := by intro bs v rest h; cases h
  loc := by intro bs v rest tail h; cases h

theorem prefixed_ite {α : Type} {c : Prop} [Decidable c] {f g : Bytes → Res α}
    (hf : Prefixed f) (hg : Prefixed g) : Prefixed (fun bs => if c then f bs else g bs) := by
  by_cases h : c
  · simpa only [if_pos h] using hf
  · simpa only [if_neg h] using hg

theorem prefixed_readInt (t) : Prefixed (readInt t) := (prefixed_takeN _).map _
theorem prefixed_readNat (n) : Prefixed (readNat n) := (prefixed_takeN _).map _
theorem prefixed_readLen : Prefixed readLen :=
  (prefixed_readInt _).bind fun _ => prefixed_ite (prefixed_err _) (prefixed_ok _)
theorem prefixed_readBool : Prefixed readBool :=
  (prefixed_readInt _).bind fun _ => prefixed_ite (prefixed_ok _)
    (prefixed_ite (prefixed_ok _) (prefixed_err _))
theorem prefixed_readStr : Prefixed readStr := by
  refine prefixed_readLen.bind fun n => (prefixed_takeN n).bind fun b => ?_
  cases fromUtf8 b with
  | none => exact prefixed_err _
  | some s => exact prefixed_ok _
theorem prefixed_readTime : Prefixed readTime := by
  refine (prefixed_takeN 12).bind fun b => ?_
  dsimp only
  cases durationNew (decodeInt .i64 (b.take 8)).natAbs (beNat (b.drop 8)) with
  | none => exact prefixed_panic
  | some p =>
    obtain ⟨s, n⟩ := p
    exact prefixed_ite (prefixed_ok _) prefixed_panic
theorem prefixed_readDur : Prefixed readDur := by
  refine (prefixed_takeN 12).bind fun b => ?_
  cases durationNew (beNat (b.take 8)) (beNat (b.drop 8)) with
  | none => exact prefixed_panic
  | some p => exact prefixed_ok _

theorem prefixed_readSeq {f : Bytes → Res Val} (hf : Prefixed f) : ∀ n, Prefixed (readSeq f n)
  | 0 => prefixed_ok _
  | n + 1 => hf.bind fun _ => (prefixed_readSeq hf n).map _
theorem prefixed_readSet {f : Bytes → Res Val} (hf : Prefixed f) :
    ∀ n acc, Prefixed (readSet f n acc)
  | 0, _ => prefixed_ok _
  | n + 1, _ => hf.bind fun _ => prefixed_readSet hf n _
theorem prefixed_readMap {f g : Bytes → Res Val} (hf : Prefixed f) (hg : Prefixed g) :
    ∀ n acc, Prefixed (readMap f g n acc)
  | 0, _ => prefixed_ok _
  | n + 1, _ => hf.bind fun _ => hg.bind fun _ => prefixed_readMap hf hg n _
theorem prefixed_readFields {f : Ty → Bytes → Res Val} (hf : ∀ t, Prefixed (f t)) :
    ∀ ts, Prefixed (readFields f ts)
  | [] => prefixed_ok _
  | t :: ts => (hf t).bind fun _ => (prefixed_readFields hf ts).map _

theorem prefixed_read (env : Env) : ∀ fuel t, Prefixed (read env fuel t)
  | 0, t => prefixed_deep
  | fuel + 1, t => by
    have ih := prefixed_read env fuel
    show Prefixed (fun bs => read env (fuel + 1) t bs)
    cases t with
    | int t => exact (prefixed_readInt t).map _
    | f32 => exact (prefixed_readNat 4).map _
    | f64 => exact (prefixed_readNat 8).map _
    | bool => exact prefixed_readBool
    | string => exact prefixed_readStr
    | timestamp => exact prefixed_readTime
    | duration => exact prefixed_readDur
    | handle => exact (prefixed_readNat 8).map _
    | option t =>
      exact (prefixed_readInt _).bind fun _ => prefixed_ite (prefixed_ok _)
        (prefixed_ite ((ih t).map _) (prefixed_err _))
    | seq t => exact prefixed_readLen.bind fun n => (prefixed_readSeq (ih t) n).map _
    | set t => exact prefixed_readLen.bind fun n => (prefixed_readSet (ih t) n []).map _
    | map k v => exact prefixed_readLen.bind fun n => (prefixed_readMap (ih k) (ih v) n []).map _
    | box t => exact (ih t).map _
    | named n =>
      simp only [read]
      cases env n with
      | none => exact prefixed_err _
      | some d =>
        cases d with
        | record ts => exact (prefixed_readFields ih ts).map _
        | enum vs =>
          refine (prefixed_readInt _).bind fun z => prefixed_ite (prefixed_err _) ?_
          cases vs[(z - 1).toNat]? with
          | none => exact prefixed_err _
          | some ts => exact (prefixed_readFields ih ts).map _
        | custom t lo li =>
          refine (ih t).bind fun v => ?_
          cases li v with
          | none => exact prefixed_err _
          | some i => exact prefixed_ok _

/-! ### Well-typedness -/

/-- The user's `lower` gives values of the declared builtin type. -/
def CustomTyped (env : Env) : Prop :=
  ∀ n t lo li, env n = some (.custom t lo li) → ∀ id, HasTy env t (lo id)

theorem hasTyAll_iff {env : Env} {t : Ty} {vs : List Val} :
    HasTyAll env t vs ↔ ∀ v ∈ vs, HasTy env t v := by
  induction vs with
  | nil => simp [HasTyAll]
  | cons v vs ih => simp [HasTyAll, ih]

theorem hasTyPairs_iff {env : Env} {t u : Ty} {es : List (Val × Val)} :
    HasTyPairs env t u es ↔ ∀ e ∈ es, HasTy env t e.1 ∧ HasTy env u e.2 := by
  induction es with
  | nil => simp [HasTyPairs]
  | cons e es ih => obtain ⟨k, v⟩ := e; simp [HasTyPairs, ih, and_assoc]

theorem mem_mapInsert {k v : Val} {m : List (Val × Val)} {e : Val × Val}
    (h : e ∈ mapInsert k v m) : e ∈ m ∨ e = (k, v) := by
  induction m with
  | nil => simpa [mapInsert] using h
  | cons p m ih =>
    obtain ⟨k', v'⟩ := p
    simp only [mapInsert] at h
    split at h
    · rename_i hk
      subst hk
      rcases List.mem_cons.1 h with h | h
      · exact Or.inr h
      · exact Or.inl (List.mem_cons_of_mem _ h)
    · rcases List.mem_cons.1 h with h | h
      · subst h; exact Or.inl (List.mem_cons_self ..)
      · rcases ih h with h | h
        · exact Or.inl (List.mem_cons_of_mem _ h)
        · exact Or.inr h

theorem keys_mapInsert (k v : Val) (m : List (Val × Val)) :
    (mapInsert k v m).map Prod.fst =
      if k ∈ m.map Prod.fst then m.map Prod.fst else m.map Prod.fst ++ [k] := by
  induction m with
  | nil => simp [mapInsert]
  | cons e m ih =>
    obtain ⟨k', v'⟩ := e
    simp only [mapInsert]
    split
    · rename_i h; subst h; simp
    · rename_i h
      simp only [List.map_cons, ih, List.mem_cons]
      have : (k = k' ∨ k ∈ m.map Prod.fst) ↔ k ∈ m.map Prod.fst := by simp [h]
      simp only [this]
      split <;> simp

theorem nodup_keys_mapInsert {k v : Val} {m : List (Val × Val)} (h : (m.map Prod.fst).Nodup) :
    ((mapInsert k v m).map Prod.fst).Nodup := by
  rw [keys_mapInsert]
  split
  · exact h
  · rename_i hk
    rw [List.nodup_append]
    refine ⟨h, by simp, ?_⟩
    intro a ha b hb
    simp at hb; subst hb
    rintro rfl; exact hk ha

theorem nodup_setInsert {v : Val} {vs : List Val} (h : vs.Nodup) : (setInsert v vs).Nodup := by
  unfold setInsert
  split
  · exact h
  · rename_i hk
    rw [List.nodup_append]
    refine ⟨h, by simp, ?_⟩
    intro a ha b hb
    simp at hb; subst hb
    rintro rfl; exact hk ha

theorem mem_setInsert {v w : Val} {vs : List Val} : w ∈ setInsert v vs ↔ w ∈ vs ∨ w = v := by
  unfold setInsert
  split
  · rename_i h
    constructor
    · exact Or.inl
    · rintro (h' | rfl); exact h'; exact h
  · simp

theorem readSeq_forall {f : Bytes → Res Val} {P : Val → Prop}
    (hf : ∀ bs v rest, f bs = .ok v rest → P v) :
    ∀ n bs vs rest, readSeq f n bs = .ok vs rest → vs.length = n ∧ ∀ v ∈ vs, P v
  | 0, bs, vs, rest, h => by
    simp [readSeq] at h; obtain ⟨rfl, rfl⟩ := h; simp
  | n + 1, bs, vs, rest, h => by
    simp only [readSeq, Res.bind_eq_ok, Res.map_eq_ok] at h
    obtain ⟨v, mid, h1, vs', h2, rfl⟩ := h
    obtain ⟨hl, ha⟩ := readSeq_forall hf n mid vs' rest h2
    refine ⟨by simp [hl], ?_⟩
    simpa using ⟨hf _ _ _ h1, ha⟩

theorem readSet_forall {f : Bytes → Res Val} {P : Val → Prop}
    (hf : ∀ bs v rest, f bs = .ok v rest → P v) :
    ∀ n acc bs vs rest, acc.Nodup → (∀ v ∈ acc, P v) → readSet f n acc bs = .ok vs rest →
      vs.Nodup ∧ ∀ v ∈ vs, P v
  | 0, acc, bs, vs, rest, hn, ha, h => by
    simp [readSet] at h; obtain ⟨rfl, _⟩ := h; exact ⟨hn, ha⟩
  | n + 1, acc, bs, vs, rest, hn, ha, h => by
    simp only [readSet, Res.bind_eq_ok] at h
    obtain ⟨v, mid, h1, h2⟩ := h
    refine readSet_forall hf n _ mid vs rest (nodup_setInsert hn) ?_ h2
    intro w hw
    rcases mem_setInsert.1 hw with hw | rfl
    · exact ha w hw
    · exact hf _ _ _ h1

theorem readMap_forall {f g : Bytes → Res Val} {P Q : Val → Prop}
    (hf : ∀ bs v rest, f bs = .ok v rest → P v) (hg : ∀ bs v rest, g bs = .ok v rest → Q v) :
    ∀ n acc bs es rest, (acc.map Prod.fst).Nodup → (∀ e ∈ acc, P e.1 ∧ Q e.2) →
      readMap f g n acc bs = .ok es rest →
      (es.map Prod.fst).Nodup ∧ ∀ e ∈ es, P e.1 ∧ Q e.2
  | 0, acc, bs, es, rest, hn, ha, h => by
    simp [readMap] at h; obtain ⟨rfl, _⟩ := h; exact ⟨hn, ha⟩
  | n + 1, acc, bs, es, rest, hn, ha, h => by
    simp only [readMap, Res.bind_eq_ok] at h
    obtain ⟨k, mid, h1, v, mid', h2, h3⟩ := h
    refine readMap_forall hf hg n _ mid' es rest (nodup_keys_mapInsert hn) ?_ h3
    intro e he
    rcases mem_mapInsert he with he | rfl
    · exact ha e he
    · exact ⟨hf _ _ _ h1, hg _ _ _ h2⟩

theorem readFields_typed {env : Env} {f : Ty → Bytes → Res Val}
    (hf : ∀ t bs v rest, f t bs = .ok v rest → HasTy env t v) :
    ∀ ts bs vs rest, readFields f ts bs = .ok vs rest → HasTyFields env ts vs
  | [], bs, vs, rest, h => by
    simp [readFields] at h; obtain ⟨rfl, rfl⟩ := h; simp [HasTyFields]
  | t :: ts, bs, vs, rest, h => by
    simp only [readFields, Res.bind_eq_ok, Res.map_eq_ok] at h
    obtain ⟨v, mid, h1, vs', h2, rfl⟩ := h
    exact ⟨hf _ _ _ _ h1, readFields_typed hf ts mid vs' rest h2⟩

theorem readTime_typed {bs v rest} (h : readTime bs = .ok v rest) (env : Env) :
    HasTy env .timestamp v := by
  unfold readTime at h
  obtain ⟨b, mid, _, h⟩ := Res.bind_eq_ok.1 h
  dsimp only at h
  cases hd : durationNew (decodeInt .i64 (b.take 8)).natAbs (beNat (b.drop 8)) with
  | none => rw [hd] at h; cases h
  | some p =>
    obtain ⟨s, n⟩ := p
    rw [hd] at h
    dsimp only at h
    generalize (if 0 ≤ decodeInt .i64 (b.take 8) then ((s * nsPerSec + n : Nat) : Int)
      else -((s * nsPerSec + n : Nat) : Int)) = t at h
    by_cases hr : timeMin ≤ t ∧ t < timeEnd
    · rw [if_pos hr] at h; cases h; exact hr
    · rw [if_neg hr] at h; cases h

theorem durationNew_eq_some {a b s n : Nat} :
    durationNew a b = some (s, n) ↔
      s = a + b / 1000000000 ∧ n = b % 1000000000 ∧ s < 2 ^ 64 := by
  unfold durationNew nsPerSec
  dsimp only
  split
  · simp only [Option.some.injEq, Prod.mk.injEq]
    constructor
    · rintro ⟨rfl, rfl⟩; simp_all
    · rintro ⟨rfl, rfl, _⟩; simp
  · simp only [reduceCtorEq, false_iff]
    rintro ⟨rfl, rfl, h⟩
    contradiction

theorem readDur_typed {bs v rest} (h : readDur bs = .ok v rest) (env : Env) :
    HasTy env .duration v := by
  unfold readDur at h
  obtain ⟨b, mid, _, h⟩ := Res.bind_eq_ok.1 h
  split at h
  · cases h
  · rename_i s n hd
    cases h
    obtain ⟨_, rfl, hs⟩ := durationNew_eq_some.1 hd
    exact ⟨hs, Nat.mod_lt _ (by decide)⟩

theorem read_typed (env : Env) (hc : CustomTyped env) :
    ∀ fuel t bs v rest, read env fuel t bs = .ok v rest → HasTy env t v
  | 0, t, bs, v, rest, h => by simp [read] at h
  | fuel + 1, t, bs, v, rest, h => by
    have ih := read_typed env hc fuel
    cases t with
    | int t =>
      obtain ⟨z, hz, rfl⟩ := Res.map_eq_ok.1 h
      exact (readInt_eq_ok.1 hz).2
    | f32 =>
      obtain ⟨z, hz, rfl⟩ := Res.map_eq_ok.1 h
      exact (readNat_eq_ok.1 hz).2
    | f64 =>
      obtain ⟨z, hz, rfl⟩ := Res.map_eq_ok.1 h
      exact (readNat_eq_ok.1 hz).2
    | bool =>
      obtain ⟨b, rfl, _⟩ := readBool_eq_ok.1 h
      exact trivial
    | string =>
      obtain ⟨b, rfl, _⟩ := readStr_eq_ok.1 h
      exact trivial
    | timestamp => exact readTime_typed h env
    | duration => exact readDur_typed h env
    | handle =>
      obtain ⟨z, hz, rfl⟩ := Res.map_eq_ok.1 h
      exact (readNat_eq_ok.1 hz).2
    | option t =>
      obtain ⟨z, mid, _, h⟩ := Res.bind_eq_ok.1 h
      split at h
      · cases h; exact trivial
      · split at h
        · obtain ⟨w, hw, rfl⟩ := Res.map_eq_ok.1 h
          exact ih t _ w _ hw
        · cases h
    | seq t =>
      obtain ⟨n, mid, _, h⟩ := Res.bind_eq_ok.1 h
      obtain ⟨vs, hvs, rfl⟩ := Res.map_eq_ok.1 h
      exact hasTyAll_iff.2 (readSeq_forall (ih t) _ _ _ _ hvs).2
    | set t =>
      obtain ⟨n, mid, _, h⟩ := Res.bind_eq_ok.1 h
      obtain ⟨vs, hvs, rfl⟩ := Res.map_eq_ok.1 h
      have := readSet_forall (ih t) _ _ _ _ _ (by simp) (by simp) hvs
      exact ⟨hasTyAll_iff.2 this.2, this.1⟩
    | map k u =>
      obtain ⟨n, mid, _, h⟩ := Res.bind_eq_ok.1 h
      obtain ⟨vs, hvs, rfl⟩ := Res.map_eq_ok.1 h
      have := readMap_forall (ih k) (ih u) _ _ _ _ _ (by simp) (by simp) hvs
      exact ⟨hasTyPairs_iff.2 this.2, this.1⟩
    | box t =>
      obtain ⟨w, hw, rfl⟩ := Res.map_eq_ok.1 h
      exact ih t _ w _ hw
    | named n =>
      simp only [read] at h
      split at h
      · rename_i ts he
        obtain ⟨w, hw, rfl⟩ := Res.map_eq_ok.1 h
        exact ⟨ts, he, readFields_typed ih _ _ _ _ hw⟩
      · rename_i vs he
        obtain ⟨z, mid, hz, h⟩ := Res.bind_eq_ok.1 h
        split at h
        · cases h
        · split at h
          · rename_i ts hts
            obtain ⟨w, hw, rfl⟩ := Res.map_eq_ok.1 h
            exact ⟨vs, ts, he, hts, readFields_typed ih _ _ _ _ hw⟩
          · cases h
      · rename_i t lo li he
        obtain ⟨w, mid, hw, h⟩ := Res.bind_eq_ok.1 h
        split at h
        · rename_i id hid
          cases h
          exact ⟨t, lo, li, he, rfl, hc _ _ _ _ he id⟩
        · cases h
      · cases h

/-! ### Fuel -/

/-- A result other than running out of stack does not change when more stack is available. -/
def Stable {α : Type} (f g : Bytes → Res α) : Prop := ∀ bs, f bs ≠ .deep → g bs = f bs

theorem Stable.bind {α β : Type} {f g : Bytes → Res α} {h k : α → Bytes → Res β}
    (h1 : Stable f g) (h2 : ∀ a, Stable (h a) (k a)) :
    Stable (fun bs => (f bs).bind h) (fun bs => (g bs).bind k) := by
  intro bs hd
  dsimp only at hd ⊢
  have hf : f bs ≠ .deep := by intro e; rw [e] at hd; exact hd rfl
  rw [h1 bs hf]
  cases hfb : f bs with
  | ok a r => rw [hfb] at hd; exact h2 a r hd
  | err e => rfl
  | panic => rfl
  | deep => exact absurd hfb hf

theorem Stable.map {α β : Type} {f g : Bytes → Res α} (h1 : Stable f g) (k : α → β) :
    Stable (fun bs => (f bs).map k) (fun bs => (g bs).map k) := by
  intro bs hd
  dsimp only at hd ⊢
  have hf : f bs ≠ .deep := by intro e; rw [e] at hd; exact hd rfl
  rw [h1 bs hf]

theorem Stable.refl {α : Type} (f : Bytes → Res α) : Stable f f := fun _ _ => rfl

theorem Stable.ite {α : Type} {c : Prop} [Decidable c] {f g f' g' : Bytes → Res α}
    (h1 : Stable f f') (h2 : Stable g g') :
    Stable (fun bs => if c then f bs else g bs) (fun bs => if c then f' bs else g' bs) := by
  by_cases h : c
  · simpa only [if_pos h] using h1
  · simpa only [if_neg h] using h2

theorem Stable.readSeq {f g : Bytes → Res Val} (h : Stable f g) :
    ∀ n, Stable (readSeq f n) (readSeq g n)
  | 0 => Stable.refl _
  | n + 1 => h.bind fun _ => (Stable.readSeq h n).map _
theorem Stable.readSet {f g : Bytes → Res Val} (h : Stable f g) :
    ∀ n acc, Stable (readSet f n acc) (readSet g n acc)
  | 0, _ => Stable.refl _
  | n + 1, _ => h.bind fun _ => Stable.readSet h n _
theorem Stable.readMap {f g f' g' : Bytes → Res Val} (h : Stable f f') (h' : Stable g g') :
    ∀ n acc, Stable (readMap f g n acc) (readMap f' g' n acc)
  | 0, _ => Stable.refl _
  | n + 1, _ => h.bind fun _ => h'.bind fun _ => Stable.readMap h h' n _
theorem Stable.readFields {f g : Ty → Bytes → Res Val} (h : ∀ t, Stable (f t) (g t)) :
    ∀ ts, Stable (readFields f ts) (readFields g ts)
  | [] => Stable.refl _
  | t :: ts => (h t).bind fun _ => (Stable.readFields h ts).map _

theorem read_named (env : Env) (fuel : Nat) (name : String) (bs : Bytes) :
    read env (fuel + 1) (.named name) bs =
      match env name with
      | some (.record ts) => (readFields (read env fuel) ts bs).map .record
      | some (.enum vs) =>
          (readInt .i32 bs).bind fun z rest =>
            if z < 1 then .err .badVariant
            else match vs[(z - 1).toNat]? with
              | some ts => (readFields (read env fuel) ts rest).map (.variant (z - 1).toNat)
              | none => .err .badVariant
      | some (.custom t lower lift) =>
          (read env fuel t bs).bind fun v rest =>
            match lift v with
            | some id => .ok (.custom id (lower id)) rest
            | none => .err .badCustom
      | none => .err .noType := rfl

theorem stable_read (env : Env) :
    ∀ fuel t, Stable (read env fuel t) (read env (fuel + 1) t)
  | 0, t => by intro bs h; exact absurd rfl h
  | fuel + 1, t => by
    have ih := stable_read env fuel
    show Stable (fun bs => read env (fuel + 1) t bs) (fun bs => read env (fuel + 1 + 1) t bs)
    cases t with
    | int t => exact .refl _
    | f32 => exact .refl _
    | f64 => exact .refl _
    | bool => exact .refl _
    | string => exact .refl _
    | timestamp => exact .refl _
    | duration => exact .refl _
    | handle => exact .refl _
    | option t =>
      exact (Stable.refl _).bind fun _ => (Stable.refl _).ite (((ih t).map _).ite (.refl _))
    | seq t => exact (Stable.refl _).bind fun n => ((ih t).readSeq n).map _
    | set t => exact (Stable.refl _).bind fun n => ((ih t).readSet n []).map _
    | map k v => exact (Stable.refl _).bind fun n => ((ih k).readMap (ih v) n []).map _
    | box t => exact (ih t).map _
    | named n =>
      simp only [read_named]
      cases env n with
      | none => exact .refl _
      | some d =>
        cases d with
        | record ts => exact (Stable.readFields ih ts).map _
        | enum vs =>
          refine (Stable.refl _).bind fun z => (Stable.refl _).ite ?_
          cases vs[(z - 1).toNat]? with
          | none => exact .refl _
          | some ts => exact (Stable.readFields ih ts).map _
        | custom t lo li => exact (ih t).bind fun v => .refl _

theorem read_fuel_mono {env : Env} {fuel fuel' : Nat} {t : Ty} {bs : Bytes}
    (h : read env fuel t bs ≠ .deep) (hle : fuel ≤ fuel') :
    read env fuel' t bs = read env fuel t bs := by
  induction hle with
  | refl => rfl
  | step _ ih => rw [← ih]; exact stable_read env _ t bs (by rw [ih]; exact h)

end Verif.Wire
