import Verif.Dyn.Lemmas

/-!
# What Ruby writes is what the value means
-/

namespace Verif.Dyn.Ruby

open Verif Verif.Wire Verif.Dyn

theorem writeLen_count {n : Nat} (h : n < 2 ^ 31) : writeLen n = some (count n) := by simp [writeLen, h, count]

theorem writeFlat_none {z : Int} {ds : List Int} (h : z ∉ ds) (k : Nat) : writeFlat (.int z) k ds = [] := by
  induction ds generalizing k with
  | nil => rfl
  | cons d ds ih =>
    simp only [List.mem_cons, not_or] at h
    simp [writeFlat, h.1, ih h.2]

theorem writeFlat_some {z : Int} {ds : List Int} (hd : ds.Nodup) (h : z ∈ ds) (k : Nat) :
    ∃ i, ds[i]? = some z ∧ writeFlat (.int z) k ds = count (k + i) := by
  induction ds generalizing k with
  | nil => simp at h
  | cons d ds ih =>
    simp only [List.nodup_cons] at hd
    by_cases e : z = d
    · subst e
      exact ⟨0, rfl, by simp [writeFlat, writeFlat_none hd.1]⟩
    · have hz : z ∈ ds := by simpa [e] using h
      obtain ⟨i, hi, hw⟩ := ih hd.2 hz (k + 1)
      refine ⟨i + 1, by simpa using hi, ?_⟩
      simp only [writeFlat, e, if_false, List.nil_append, hw]
      congr 1; omega

theorem ok_write {F : Floats} {Γ : Env} (hΓ : Γ.Good) : ∀ {n : Nat} {ty : Ty} {v : Dyn} {bs : Bytes},
    write F Γ n ty v = some bs → Everywhere (RubyFine Γ) items Γ n ty v → Ok (ruby F) Γ ty v bs := by
  intro n
  induction n with
  | zero => intro ty v bs h; simp [write] at h
  | succ n ih =>
    intro ty v bs hw hE
    cases ty with
    | int t =>
      simp only [write, inRange, Option.map_eq_some_iff, Option.bind_eq_some_iff] at hw
      obtain ⟨z', ⟨z, hz, hw⟩, rfl⟩ := hw
      split at hw
      · rename_i hr
        simp at hw; subst hw
        cases v <;> simp [toInt] at hz
        · subst hz
          exact ⟨.int _, ⟨rfl, hr⟩, by simp [Wire.write]⟩
        · exact absurd rfl (hE.1 _)
      · simp at hw
    | f32 =>
      simp only [write, Option.bind_eq_some_iff, Option.map_eq_some_iff] at hw
      obtain ⟨b, hb, c, hc, rfl⟩ := hw
      exact ⟨.float c, ⟨b, hb, hc⟩, by simp [Wire.write]⟩
    | f64 =>
      simp only [write, Option.map_eq_some_iff] at hw
      obtain ⟨b, hb, rfl⟩ := hw
      exact ⟨.float b, hb, by simp [Wire.write]⟩
    | bool =>
      simp only [write] at hw
      exact ⟨.bool (truthy v), rfl, by simpa [Wire.write] using hw⟩
    | string =>
      simp only [write] at hw
      split at hw
      · rename_i s
        simp at hw; subst hw
        exact ⟨.str s, rfl, by simp [Wire.write, writeStr, writeLen_count (hE.1 s rfl)]⟩
      · simp at hw
    | timestamp => simp [write] at hw
    | duration => simp [write] at hw
    | handle => simp [write] at hw
    | option t =>
      simp only [write] at hw
      split at hw
      · simp at hw; subst hw
        exact ⟨.none, rfl, by simp [Wire.write]⟩
      · rename_i hne
        have hne : v ≠ .nil := fun e => hne e
        simp only [Option.map_eq_some_iff] at hw
        obtain ⟨b, hb, rfl⟩ := hw
        obtain ⟨w, hm, hw⟩ := ih hb (hE.2 hne)
        exact ⟨.some w, ⟨hne, hm⟩, by simp [Wire.write, hw]⟩
    | seq t =>
      by_cases ht : t = .int .u8
      · subst ht
        simp only [write, if_true] at hw
        split at hw
        · simp at hw; subst hw
          exact ok_bytes (L := ruby F) rfl (hE.1.1 _ rfl)
        · simp at hw; subst hw
          exact ok_bytes (L := ruby F) rfl (hE.1.2.1 _ rfl)
        · simp at hw
      · simp only [write, if_neg ht, Option.bind_eq_some_iff, Option.map_eq_some_iff] at hw
        obtain ⟨vs, hvs, b, hb, rfl⟩ := hw
        obtain ⟨ws, hm, hl, hws⟩ := concat_all (L := ruby F) (Γ := Γ) (t := t)
          (fun u hu bs hbs => ih hbs (hE.2 ht vs hvs u hu)) hb
        refine ⟨.seq ws, ?_, by simp [Wire.write, hl, writeLen_count (hE.1.2.2 vs hvs), hws]⟩
        simp only [Means, if_neg ht]
        exact ⟨vs, hvs, hm⟩
    | set t =>
      simp only [write, Option.bind_eq_some_iff, Option.map_eq_some_iff] at hw
      obtain ⟨vs, hvs, b, hb, rfl⟩ := hw
      obtain ⟨ws, hm, hl, hws⟩ := concat_all (L := ruby F) (Γ := Γ) (t := t)
        (fun u hu bs hbs => ih hbs (hE.2 vs hvs u hu)) hb
      exact ⟨.set ws, ⟨vs, hvs, hm⟩, by simp [Wire.write, hl, writeLen_count (hE.1.1 vs hvs), hws]⟩
    | map k u =>
      simp only [write] at hw
      split at hw
      · rename_i es
        simp only [Option.map_eq_some_iff] at hw
        obtain ⟨b, hb, rfl⟩ := hw
        obtain ⟨ws, hm, hl, hws⟩ := concat_pairs (L := ruby F) (Γ := Γ) (k := k) (u := u)
          (f := write F Γ n k) (g := write F Γ n u)
          (fun e he bs hbs => ih hbs (hE.2 es rfl e he).1)
          (fun e he bs hbs => ih hbs (hE.2 es rfl e he).2) hb
        exact ⟨.map ws, ⟨es, rfl, hm⟩, by simp [Wire.write, hl, writeLen_count (hE.1.1 es rfl), hws]⟩
      · simp at hw
    | box t =>
      obtain ⟨w, hm, hw⟩ := ih (by simpa [write] using hw) hE.2
      exact ⟨.box w, hm, by simpa [Wire.write] using hw⟩
    | named name =>
      have hg := hΓ name
      have hE2 := hE.2
      have hP := hE.1
      simp only [write] at hw
      simp only at hE2
      simp only [RubyFine] at hP
      split at hw
      · rename_i fs hd
        simp only [hd] at hE2
        obtain ⟨ws, hm, hws⟩ := concat_fields (L := ruby F) (Γ := Γ) (f := write F Γ n)
          (fun p hp u hu bs hbs => ih hbs (hE2 p hp u hu)) hw
        exact ⟨.record ws, ⟨fs, hd, hm⟩, by simp [Wire.write, wire_record hd, hws]⟩
      · rename_i ds hd
        simp only [hd] at hg
        simp at hw; subst hw
        obtain ⟨z, hz, rfl⟩ := hP.1 ds hd
        obtain ⟨i, hi, hwf⟩ := writeFlat_some hg.1 hz 1
        have hil : i < ds.length := (List.getElem?_eq_some_iff.1 hi).1
        refine ⟨.variant i [], Or.inl ⟨ds, hd, hil, ⟨z, rfl, hi⟩, rfl⟩, ?_⟩
        rw [write_flat hd hil, hwf, writeLen_count (by omega), Nat.add_comm]
      · rename_i vs hd
        simp only [hd] at hg hE2
        obtain ⟨i, x, fs, hi, hx, hcc⟩ := variants_some (v := v)
          (W := fun k vs => writeVariants (write F Γ n) v k vs)
          (c := fun k fs => (concat (fun p => (v.attr p.1).bind (write F Γ n p.2)) fs).map (count k ++ ·))
          (fun k => rfl) (fun k x fs vs => rfl) hg.1 hw (hP.2 vs hd)
        have hmem : (x, fs) ∈ vs := List.mem_of_getElem? hi
        simp only [Option.map_eq_some_iff] at hcc
        obtain ⟨b, hb, rfl⟩ := hcc
        obtain ⟨ws, hm, hws⟩ := concat_fields (L := ruby F) (Γ := Γ) (f := write F Γ n)
          (fun p hp u hu bs hbs => ih hbs (hE2 _ hmem p hp u hu)) hb
        have hil : i < vs.length := (List.getElem?_eq_some_iff.1 hi).1
        refine ⟨.variant i ws, Or.inr ⟨vs, x, fs, hd, hi, hx, hm⟩, ?_⟩
        rw [write_enum hd hi (by omega) hws, Nat.add_comm]
        rfl
      · simp at hw

/-! ## Coercion -/

theorem coerce_trivial {t : Ty} (h : trivial t = true) (v : Dyn) : coerce t v = some v := by
  induction t generalizing v with
  | seq t ih =>
    simp only [trivial] at h
    split at h
    · simp at h
    · rename_i ht
      simp [coerce, ht, h]
  | set t ih => simp only [trivial] at h; simp [coerce, h]
  | map k u => simp only [trivial] at h; simp only [coerce, h, if_true]
  | box t ih => simp only [trivial] at h; simp [coerce, ih h]
  | _ => simp [trivial] at h <;> simp [coerce]

theorem coerce_truthy {t : Ty} {v v' : Dyn} (h : coerce t v = some v') (hv : truthy v = true) : truthy v' = true := by
  induction t generalizing v v' with
  | int t =>
    simp only [coerce, Option.map_eq_some_iff] at h
    obtain ⟨z, _, rfl⟩ := h
    rfl
  | bool => simp [coerce] at h; subst h; simpa [truthy] using hv
  | string =>
    simp only [coerce] at h
    split at h <;> simp at h
    subst h; rfl
  | option t ih => simp only [coerce, hv, if_true] at h; exact ih h hv
  | seq t =>
    simp only [coerce] at h
    split at h
    · split at h <;> simp at h <;> subst h <;> rfl
    · split at h
      · simp at h; subst h; exact hv
      · simp only [Option.bind_eq_some_iff, Option.map_eq_some_iff] at h
        obtain ⟨_, _, _, _, rfl⟩ := h
        rfl
  | set t =>
    simp only [coerce] at h
    split at h
    · simp at h; subst h; exact hv
    · simp only [Option.bind_eq_some_iff, Option.map_eq_some_iff] at h
      obtain ⟨_, _, _, _, rfl⟩ := h
      rfl
  | map k u =>
    simp only [coerce] at h
    split at h
    · simp at h; subst h; exact hv
    · split at h
      · simp only [Option.map_eq_some_iff] at h
        obtain ⟨_, _, rfl⟩ := h
        rfl
      · simp at h
  | box t ih => simp only [coerce] at h; exact ih h hv
  | _ => simp [coerce] at h; subst h; exact hv

theorem concat_mapAll {f : Dyn → Option Dyn} {g : Dyn → Option Bytes} {vs vs' : List Dyn} {bs : Bytes}
    (h : mapAll f vs = some vs') (hc : concat g vs' = some bs) :
    concat (fun v => (f v).bind g) vs = some bs ∧ vs'.length = vs.length := by
  induction vs generalizing vs' bs with
  | nil => simp [mapAll] at h; subst h; simpa [concat] using hc
  | cons v vs ih =>
    simp only [mapAll, Option.bind_eq_some_iff, Option.map_eq_some_iff] at h
    obtain ⟨a, ha, as, has, rfl⟩ := h
    obtain ⟨b, c, hb, hcc, rfl⟩ := concat_cons.1 hc
    obtain ⟨h1, h2⟩ := ih has hcc
    exact ⟨concat_cons.2 ⟨b, c, by simp [ha, hb], h1, rfl⟩, by simp [h2]⟩

theorem concat_mapPairs {f g : Dyn → Option Dyn} {k u : Dyn → Option Bytes} {es es' : List (Dyn × Dyn)} {bs : Bytes}
    (h : mapPairs f g es = some es')
    (hc : concat (fun e : Dyn × Dyn => (k e.1).bind fun a => (u e.2).map (a ++ ·)) es' = some bs) :
    concat (fun e : Dyn × Dyn => ((f e.1).bind k).bind fun a => ((g e.2).bind u).map (a ++ ·)) es = some bs ∧
      es'.length = es.length := by
  induction es generalizing es' bs with
  | nil => simp [mapPairs] at h; subst h; simpa [concat] using hc
  | cons e es ih =>
    obtain ⟨e1, e2⟩ := e
    simp only [mapPairs, Option.bind_eq_some_iff, Option.map_eq_some_iff] at h
    obtain ⟨a, ha, a2, ha2, as, has, rfl⟩ := h
    obtain ⟨b, c, hb, hcc, rfl⟩ := concat_cons.1 hc
    obtain ⟨h1, h2⟩ := ih has hcc
    exact ⟨concat_cons.2 ⟨b, c, by simpa [ha, ha2] using hb, h1, rfl⟩, by simp [h2]⟩

theorem ok_coerced {F : Floats} {Γ : Env} (hΓ : Γ.Good) : ∀ {ty : Ty} {n : Nat} {v v' : Dyn} {bs : Bytes},
    coerce ty v = some v' → write F Γ n ty v' = some bs → Everywhere (RubyFine Γ) items Γ n ty v →
    Ok (ruby F) Γ ty v bs := by
  intro ty
  induction ty with
  | int t =>
    intro n v v' bs hc hw hE
    simp only [coerce, Option.map_eq_some_iff] at hc
    obtain ⟨z, hz, rfl⟩ := hc
    cases n with
    | zero => simp [write] at hw
    | succ n =>
      cases v with
      | int y =>
        have : z = y := by
          simp only [inRange, toInt, Option.bind_some] at hz
          split at hz <;> simp at hz
          exact hz.symm
        subst this
        exact ok_write hΓ hw hE
      | float b => exact absurd rfl (hE.1 b)
      | _ => simp [inRange, toInt] at hz
  | bool =>
    intro n v v' bs hc hw hE
    simp [coerce] at hc; subst hc
    cases n with
    | zero => simp [write] at hw
    | succ n =>
      refine ⟨.bool (truthy v), rfl, ?_⟩
      rw [Wire.write, ← hw]
      rfl
  | string =>
    intro n v v' bs hc hw hE
    simp only [coerce] at hc
    split at hc <;> simp at hc
    subst hc
    exact ok_write hΓ hw hE
  | option t ih =>
    intro n v v' bs hc hw hE
    cases n with
    | zero => simp [write] at hw
    | succ n =>
      simp only [coerce] at hc
      split at hc
      · rename_i hv
        have hv' := coerce_truthy hc hv
        have hne : v ≠ .nil := by rintro rfl; simp [truthy] at hv
        have hw2 : (write F Γ n t v').map (beBytes 1 1 ++ ·) = some bs := by
          cases v' <;> simp [truthy] at hv' <;> simpa [write] using hw
        simp only [Option.map_eq_some_iff] at hw2
        obtain ⟨b, hb, rfl⟩ := hw2
        obtain ⟨w, hm, hw⟩ := ih hc hb (hE.2 hne)
        exact ⟨.some w, ⟨hne, hm⟩, by simp [Wire.write, hw]⟩
      · rename_i hv
        have : v = .nil := by
          cases v <;> simp [truthy] at hv
          · rfl
          · subst hv; exact absurd rfl hE.1
        subst this
        simp at hc; subst hc
        exact ok_write hΓ hw hE
  | seq t ih =>
    intro n v v' bs hc hw hE
    simp only [coerce] at hc
    split at hc
    · split at hc <;> simp at hc <;> subst hc <;> exact ok_write hΓ hw hE
    · rename_i ht
      split at hc
      · simp at hc; subst hc; exact ok_write hΓ hw hE
      · simp only [Option.bind_eq_some_iff, Option.map_eq_some_iff] at hc
        obtain ⟨vs, hvs, vs', hvs', rfl⟩ := hc
        cases n with
        | zero => simp [write] at hw
        | succ n =>
          simp only [write, if_neg ht, items, Option.bind_some, Option.map_eq_some_iff] at hw
          obtain ⟨b, hb, rfl⟩ := hw
          obtain ⟨hb, hl'⟩ := concat_mapAll hvs' hb
          obtain ⟨ws, hm, hl, hws⟩ := concat_all (L := ruby F) (Γ := Γ) (t := t) (fun u hu bs hbs => by
            simp only [Option.bind_eq_some_iff] at hbs
            obtain ⟨u', hu', hbs⟩ := hbs
            exact ih hu' hbs (hE.2 ht vs hvs u hu)) hb
          refine ⟨.seq ws, ?_, by simp [Wire.write, hl, hl', writeLen_count (hE.1.2.2 vs hvs), hws]⟩
          simp only [Means, if_neg ht]
          exact ⟨vs, hvs, hm⟩
  | set t ih =>
    intro n v v' bs hc hw hE
    simp only [coerce] at hc
    split at hc
    · simp at hc; subst hc; exact ok_write hΓ hw hE
    · simp only [Option.bind_eq_some_iff, Option.map_eq_some_iff] at hc
      obtain ⟨vs, hvs, vs', hvs', rfl⟩ := hc
      cases n with
      | zero => simp [write] at hw
      | succ n =>
        simp only [write, items, Option.bind_some, Option.map_eq_some_iff] at hw
        obtain ⟨b, hb, rfl⟩ := hw
        obtain ⟨hb, hl'⟩ := concat_mapAll hvs' hb
        obtain ⟨ws, hm, hl, hws⟩ := concat_all (L := ruby F) (Γ := Γ) (t := t) (fun u hu bs hbs => by
          simp only [Option.bind_eq_some_iff] at hbs
          obtain ⟨u', hu', hbs⟩ := hbs
          exact ih hu' hbs (hE.2 vs hvs u hu)) hb
        exact ⟨.set ws, ⟨vs, hvs, hm⟩, by simp [Wire.write, hl, hl', writeLen_count (hE.1.1 vs hvs), hws]⟩
  | map k u ihk ihu =>
    intro n v v' bs hc hw hE
    simp only [coerce] at hc
    split at hc
    · simp at hc; subst hc; exact ok_write hΓ hw hE
    · split at hc
      · rename_i es
        simp only [Option.map_eq_some_iff] at hc
        obtain ⟨es', hes', rfl⟩ := hc
        cases n with
        | zero => simp [write] at hw
        | succ n =>
          simp only [write, Option.map_eq_some_iff] at hw
          obtain ⟨b, hb, rfl⟩ := hw
          obtain ⟨hb, hl'⟩ := concat_mapPairs hes' hb
          obtain ⟨ws, hm, hl, hws⟩ := concat_pairs (L := ruby F) (Γ := Γ) (k := k) (u := u)
            (f := fun e => (coerce k e).bind (write F Γ n k)) (g := fun e => (coerce u e).bind (write F Γ n u))
            (fun e he bs hbs => by
              simp only [Option.bind_eq_some_iff] at hbs
              obtain ⟨u', hu', hbs⟩ := hbs
              exact ihk hu' hbs (hE.2 es rfl e he).1)
            (fun e he bs hbs => by
              simp only [Option.bind_eq_some_iff] at hbs
              obtain ⟨u', hu', hbs⟩ := hbs
              exact ihu hu' hbs (hE.2 es rfl e he).2) hb
          exact ⟨.map ws, ⟨es, rfl, hm⟩, by simp [Wire.write, hl, hl', writeLen_count (hE.1.1 es rfl), hws]⟩
      · simp at hc
  | box t ih =>
    intro n v v' bs hc hw hE
    cases n with
    | zero => simp [write] at hw
    | succ n =>
      obtain ⟨w, hm, hw⟩ := ih (by simpa [coerce] using hc) (by simpa [write] using hw) hE.2
      exact ⟨.box w, hm, by simpa [Wire.write] using hw⟩
  | _ =>
    intro n v v' bs hc hw hE
    simp [coerce] at hc; subst hc
    exact ok_write hΓ hw hE

theorem fine_box {Γ : Env} {t : Ty} {v : Dyn} (h : Fine (RubyFine Γ) items Γ (.box t) v) : Fine (RubyFine Γ) items Γ t v :=
  fun n => (h (n + 1)).2

theorem arg_means {F : Floats} {Γ : Env} (hΓ : Γ.Good) {n : Nat} {ty : Ty} {v : Dyn} {l : Lowered}
    (hf : Fine (RubyFine Γ) items Γ ty v) (h : arg F Γ n ty v = some l) :
    ∃ w, Means (ruby F) Γ ty v w ∧ Carries Γ ty w l := by
  simp only [arg, Option.bind_eq_some_iff] at h
  obtain ⟨v', hc, h⟩ := h
  induction ty generalizing v v' l with
  | int t =>
    have hE := (hf 1).1
    simp only [coerce, Option.map_eq_some_iff] at hc
    obtain ⟨z, hz, rfl⟩ := hc
    simp [lower] at h
    subst h
    cases v with
    | int y =>
      simp only [inRange, toInt, Option.bind_some] at hz
      split at hz
      · rename_i hr
        simp at hz; subst hz
        exact ⟨.int y, ⟨rfl, hr⟩, .int⟩
      · simp at hz
    | float b => exact absurd rfl (hE b)
    | _ => simp [inRange, toInt] at hz
  | f32 =>
    simp [coerce] at hc; subst hc
    simp only [lower, Option.bind_eq_some_iff, Option.map_eq_some_iff] at h
    obtain ⟨b, hb, c, hc, rfl⟩ := h
    exact ⟨.float c, ⟨b, hb, hc⟩, .f32⟩
  | f64 =>
    simp [coerce] at hc; subst hc
    simp only [lower, Option.map_eq_some_iff] at h
    obtain ⟨b, hb, rfl⟩ := h
    exact ⟨.float b, hb, .f64⟩
  | bool =>
    simp [coerce] at hc; subst hc
    simp [lower, truthy] at h
    subst h
    exact ⟨.bool (truthy v), rfl, .bool⟩
  | string =>
    simp only [coerce] at hc
    split at hc <;> simp at hc
    subst hc
    simp [lower] at h
    subst h
    exact ⟨.str _, rfl, .string⟩
  | box t ih =>
    obtain ⟨w, hm, hw⟩ := ih (fine_box hf) v' (by simpa [coerce] using hc) (by simpa [lower] using h)
    exact ⟨.box w, hm, .box hw⟩
  | option t =>
    simp only [lower, Option.map_eq_some_iff] at h
    obtain ⟨bs, hbs, rfl⟩ := h
    obtain ⟨w, hm, hw⟩ := ok_coerced hΓ hc hbs (hf n)
    exact ⟨w, hm, .option hw⟩
  | seq t =>
    simp only [lower, Option.map_eq_some_iff] at h
    obtain ⟨bs, hbs, rfl⟩ := h
    obtain ⟨w, hm, hw⟩ := ok_coerced hΓ hc hbs (hf n)
    exact ⟨w, hm, .seq hw⟩
  | set t =>
    simp only [lower, Option.map_eq_some_iff] at h
    obtain ⟨bs, hbs, rfl⟩ := h
    obtain ⟨w, hm, hw⟩ := ok_coerced hΓ hc hbs (hf n)
    exact ⟨w, hm, .set hw⟩
  | map k u =>
    simp only [lower, Option.map_eq_some_iff] at h
    obtain ⟨bs, hbs, rfl⟩ := h
    obtain ⟨w, hm, hw⟩ := ok_coerced hΓ hc hbs (hf n)
    exact ⟨w, hm, .map hw⟩
  | named m =>
    simp only [lower, Option.map_eq_some_iff] at h
    obtain ⟨bs, hbs, rfl⟩ := h
    obtain ⟨w, hm, hw⟩ := ok_coerced hΓ hc hbs (hf n)
    exact ⟨w, hm, .named hw⟩
  | _ =>
    simp only [lower, Option.map_eq_some_iff] at h
    obtain ⟨bs, hbs, rfl⟩ := h
    cases n <;> simp [write] at hbs

end Verif.Dyn.Ruby
