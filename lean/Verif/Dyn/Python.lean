import Verif.Dyn.Lemmas

/-!
# What Python writes is what the value means
-/

namespace Verif.Dyn.Python

open Verif Verif.Wire Verif.Dyn

theorem check_variants {f : Ty → Dyn → Bool} {v : Dyn} {vs : List (String × List (String × Ty))}
    (h : checkVariants f v vs = true) (hd : (vs.map Prod.fst).Nodup) :
    (∃ p ∈ vs, v.isVariant p.1 = some true) ∧
    ∀ p ∈ vs, v.isVariant p.1 = some true → ∀ q ∈ p.2, ∃ u, v.attr q.1 = some u ∧ f q.2 u = true := by
  induction vs with
  | nil => simp [checkVariants] at h
  | cons p vs ih =>
    obtain ⟨x, fs⟩ := p
    simp only [List.map_cons, List.nodup_cons] at hd
    simp only [checkVariants] at h
    split at h
    · simp at h
    · rename_i hx
      refine ⟨⟨(x, fs), by simp, hx⟩, ?_⟩
      intro p hp hp' q hq
      rcases List.mem_cons.1 hp with rfl | hp
      · have := List.all_eq_true.1 h q hq
        split at this
        · rename_i u hu; exact ⟨u, hu, this⟩
        · simp at this
      · exact absurd (List.mem_map_of_mem (f := Prod.fst) hp) (isVariant_unique hx hp' ▸ hd.1)
    · rename_i hx
      obtain ⟨⟨p, hp, hp'⟩, h2⟩ := ih h hd.2
      refine ⟨⟨p, by simp [hp], hp'⟩, ?_⟩
      intro p hp hp'
      rcases List.mem_cons.1 hp with rfl | hp
      · rw [hx] at hp'; simp at hp'
      · exact h2 p hp hp'

theorem ok_write {F : Floats} {Γ : Env} (hΓ : Γ.Good) : ∀ {n : Nat} {ty : Ty} {v : Dyn} {bs : Bytes},
    check F Γ n ty v = true → write F Γ n ty v = some bs → Everywhere PythonFine items Γ n ty v →
    Ok (python F) Γ ty v bs := by
  intro n
  induction n with
  | zero => intro ty v bs h; simp [check] at h
  | succ n ih =>
    intro ty v bs hc hw hE
    cases ty with
    | int t =>
      simp only [write, Option.bind_eq_some_iff] at hw
      obtain ⟨z, hz, hw⟩ := hw
      split at hw
      · rename_i hr
        simp at hw; subst hw
        exact ⟨.int z, ⟨hz, hr⟩, by simp [Wire.write]⟩
      · simp at hw
    | f32 =>
      simp only [write, Option.bind_eq_some_iff, Option.map_eq_some_iff] at hw
      obtain ⟨b, hb, c, hc, rfl⟩ := hw
      exact ⟨.float c, ⟨b, hb, hc⟩, by simp [Wire.write]⟩
    | f64 =>
      simp only [write, Option.map_eq_some_iff] at hw
      obtain ⟨b, hb, rfl⟩ := hw
      exact ⟨.float b, hb, by simp [Wire.write]⟩
    | bool =>
      simp only [write, Option.bind_eq_some_iff] at hw
      obtain ⟨z, hz, hw⟩ := hw
      split at hw
      · simp at hw; subst hw
        have hz1 : z = if truthy v then 1 else 0 := by
          cases v <;> simp [int] at hz
          · subst hz; simp only [truthy]; split <;> simp_all
          · subst hz
            rcases hE.1 rfl _ rfl with rfl | rfl <;> simp [truthy]
        refine ⟨.bool (truthy v), rfl, ?_⟩
        rw [hz1]
        cases truthy v <;> rfl
      · simp at hw
    | string =>
      simp only [write] at hw
      split at hw
      · rename_i s
        exact ⟨.str s, rfl, by simpa [Wire.write] using hw⟩
      · simp at hw
    | timestamp => simp [write] at hw
    | duration => simp [write] at hw
    | handle => simp [write] at hw
    | option t =>
      simp only [write] at hw
      split at hw
      · simp at hw; subst hw
        exact ⟨.none, rfl, by simp [Wire.write]⟩
      · rename_i hne
        have hne : v ≠ .nil := fun e => hne e
        simp only [Option.map_eq_some_iff] at hw
        obtain ⟨b, hb, rfl⟩ := hw
        have hc' : check F Γ n t v = true := by
          cases v <;> simp [check] at hc hne ⊢ <;> exact hc
        obtain ⟨w, hm, hw⟩ := ih hc' hb (hE.2 hne)
        exact ⟨.some w, ⟨hne, hm⟩, by simp [Wire.write, hw]⟩
    | seq t =>
      by_cases ht : t = .int .u8
      · subst ht
        simp only [write, if_true] at hw
        split at hw
        · rename_i b
          simp only [Option.map_eq_some_iff] at hw
          obtain ⟨c, hcc, rfl⟩ := hw
          obtain ⟨hl, rfl⟩ := writeLen_eq_some.1 hcc
          exact ok_bytes (L := python F) rfl hl
        · simp at hw
      · simp only [write, if_neg ht, Option.bind_eq_some_iff, Option.map_eq_some_iff] at hw
        obtain ⟨vs, hvs, c, hcc, b, hb, rfl⟩ := hw
        simp only [check, if_neg ht, hvs] at hc
        obtain ⟨ws, hm, hl, hws⟩ := concat_all (L := python F) (Γ := Γ) (t := t)
          (fun u hu bs hbs => ih (List.all_eq_true.1 hc u hu) hbs (hE.2 ht vs hvs u hu)) hb
        refine ⟨.seq ws, ?_, by simp [Wire.write, hl, hcc, hws]⟩
        simp only [Means, if_neg ht]
        exact ⟨vs, hvs, hm⟩
    | set t =>
      simp only [write, Option.bind_eq_some_iff, Option.map_eq_some_iff] at hw
      obtain ⟨vs, hvs, c, hcc, b, hb, rfl⟩ := hw
      simp only [check, hvs] at hc
      obtain ⟨ws, hm, hl, hws⟩ := concat_all (L := python F) (Γ := Γ) (t := t)
        (fun u hu bs hbs => ih (List.all_eq_true.1 hc u hu) hbs (hE.2 vs hvs u hu)) hb
      exact ⟨.set ws, ⟨vs, hvs, hm⟩, by simp [Wire.write, hl, hcc, hws]⟩
    | map k u =>
      simp only [write] at hw
      split at hw
      · rename_i es
        simp only [Option.bind_eq_some_iff, Option.map_eq_some_iff] at hw
        obtain ⟨c, hcc, b, hb, rfl⟩ := hw
        simp only [check, List.all_eq_true, Bool.and_eq_true] at hc
        obtain ⟨ws, hm, hl, hws⟩ := concat_pairs (L := python F) (Γ := Γ) (k := k) (u := u)
          (f := write F Γ n k) (g := write F Γ n u)
          (fun e he bs hbs => ih (hc e he).1 hbs (hE.2 es rfl e he).1)
          (fun e he bs hbs => ih (hc e he).2 hbs (hE.2 es rfl e he).2) hb
        exact ⟨.map ws, ⟨es, rfl, hm⟩, by simp [Wire.write, hl, hcc, hws]⟩
      · simp at hw
    | box t =>
      obtain ⟨w, hm, hw⟩ := ih (by simpa [check] using hc) (by simpa [write] using hw) hE.2
      exact ⟨.box w, hm, by simpa [Wire.write] using hw⟩
    | named name =>
      have hg := hΓ name
      have hE2 := hE.2
      simp only [write] at hw
      simp only [check] at hc
      simp only at hE2
      split at hw
      · rename_i fs hd
        simp only [hd] at hc hE2
        have hf : ∀ p ∈ fs, ∀ u, v.attr p.1 = some u → ∀ bs, write F Γ n p.2 u = some bs → Ok (python F) Γ p.2 u bs := by
          intro p hp u hu bs hbs
          have := List.all_eq_true.1 hc p hp
          simp only [hu] at this
          exact ih this hbs (hE2 p hp u hu)
        obtain ⟨ws, hm, hws⟩ := concat_fields hf hw
        exact ⟨.record ws, ⟨fs, hd, hm⟩, by simp [Wire.write, wire_record hd, hws]⟩
      · rename_i ds hd
        simp only [hd] at hc hg
        have hne : ds.isEmpty = false := by
          cases ds
          · exact absurd rfl hg.2.1
          · rfl
        simp only [hne, Bool.false_or] at hc
        split at hc
        · rename_i e i
          simp only [Bool.and_eq_true, decide_eq_true_eq] at hc
          simp only [hc.1, hc.2, and_self, if_true] at hw
          refine ⟨.variant i [], Or.inl ⟨ds, hd, hc.2, ?_, rfl⟩, ?_⟩
          · simp [python, hc.1]
          · rw [write_flat hd hc.2, hw]
        · simp at hc
      · rename_i vs hd
        simp only [hd] at hc hg hE2
        have hne : vs.isEmpty = false := by
          cases vs
          · exact absurd rfl hg.2.1
          · rfl
        simp only [hne, Bool.false_or] at hc
        obtain ⟨hex, hall⟩ := check_variants hc hg.1
        obtain ⟨i, x, fs, hi, hx, hcc⟩ := variants_some (v := v)
          (W := fun k vs => writeVariants (write F Γ n) v k vs)
          (c := fun k fs => (writeLen k).bind fun tag =>
            (concat (fun p => (v.attr p.1).bind (write F Γ n p.2)) fs).map (tag ++ ·))
          (fun k => rfl) (fun k x fs vs => rfl) hg.1 hw hex
        have hmem : (x, fs) ∈ vs := List.mem_of_getElem? hi
        simp only [Option.bind_eq_some_iff, Option.map_eq_some_iff] at hcc
        obtain ⟨tag, htag, b, hb, rfl⟩ := hcc
        have hf : ∀ p ∈ fs, ∀ u, v.attr p.1 = some u → ∀ bs, write F Γ n p.2 u = some bs → Ok (python F) Γ p.2 u bs := by
          intro p hp u hu bs hbs
          obtain ⟨u', hu', hcu⟩ := hall _ hmem hx p hp
          rw [hu] at hu'
          cases hu'
          exact ih hcu hbs (hE2 _ hmem p hp u hu)
        obtain ⟨ws, hm, hws⟩ := concat_fields hf hb
        obtain ⟨hl, rfl⟩ := writeLen_eq_some.1 htag
        rw [Nat.add_comm] at hl
        refine ⟨.variant i ws, Or.inr ⟨vs, x, fs, hd, hi, hx, hm⟩, ?_⟩
        rw [write_enum hd hi hl hws, Nat.add_comm]
      · simp at hw

theorem truncate_inRange {t : IntTy} {z : Int} (h : t.InRange z) : truncate t z = z := by
  cases t <;> simp [IntTy.InRange, IntTy.signed, IntTy.width] at h <;>
    simp [truncate, IntTy.signed, IntTy.width] <;> omega

theorem carries_of_write {F : Floats} {Γ : Env} : ∀ {t : Ty} {v : Dyn} {w : Val} {bs : Bytes}, leaf t = false →
    boxedLeaf t = false → Means (python F) Γ t v w → Wire.write Γ.wire t w = some bs → Carries Γ t w (.buffer bs)
  | .int _, _, _, _, h, _, _, _ | .f32, _, _, _, h, _, _, _ | .f64, _, _, _, h, _, _, _ | .bool, _, _, _, h, _, _, _
  | .string, _, _, _, h, _, _, _ => by simp [leaf] at h
  | .timestamp, _, w, _, _, _, hm, _ => by cases w <;> simp [Means] at hm
  | .duration, _, w, _, _, _, hm, _ => by cases w <;> simp [Means] at hm
  | .handle, _, w, _, _, _, hm, _ => by cases w <;> simp [Means] at hm
  | .option _, _, _, _, _, _, _, hw => .option hw
  | .seq _, _, _, _, _, _, _, hw => .seq hw
  | .set _, _, _, _, _, _, _, hw => .set hw
  | .map _ _, _, _, _, _, _, _, hw => .map hw
  | .named _, _, _, _, _, _, _, hw => .named hw
  | .box t, v, w, bs, _, hb, hm, hw => by
    simp only [boxedLeaf, Bool.or_eq_false_iff] at hb
    cases w <;> simp [Means] at hm
    rename_i w
    exact .box (carries_of_write hb.1 hb.2 hm (by simpa [Wire.write] using hw))

theorem arg_means {F : Floats} {Γ : Env} (hΓ : Γ.Good) {n : Nat} {ty : Ty} {v : Dyn} {l : Lowered}
    (hb : boxedLeaf ty = false) (hf : Fine PythonFine items Γ ty v) (h : arg F Γ n ty v = some l) :
    ∃ w, Means (python F) Γ ty v w ∧ Carries Γ ty w l := by
  simp only [arg] at h
  split at h
  · rename_i hc
    by_cases hl : leaf ty = true
    · cases n with
      | zero => simp [check] at hc
      | succ n =>
      cases ty <;> simp [leaf] at hl
      · rename_i t
        simp only [lower, Option.map_eq_some_iff] at h
        obtain ⟨z, hz, rfl⟩ := h
        simp [check, hz] at hc
        rw [truncate_inRange hc]
        exact ⟨.int z, ⟨hz, hc⟩, .int⟩
      · simp only [lower, Option.bind_eq_some_iff, Option.map_eq_some_iff] at h
        obtain ⟨b, hb, c, hc, rfl⟩ := h
        exact ⟨.float c, ⟨b, hb, hc⟩, .f32⟩
      · simp only [lower, Option.map_eq_some_iff] at h
        obtain ⟨b, hb, rfl⟩ := h
        exact ⟨.float b, hb, .f64⟩
      · simp [lower] at h
        subst h
        exact ⟨.bool (truthy v), rfl, .bool⟩
      · simp only [lower] at h
        split at h
        · rename_i s
          simp at h; subst h
          exact ⟨.str s, rfl, .string⟩
        · simp at h
    · have hl : leaf ty = false := by simpa using hl
      have hw : ∃ bs, write F Γ n ty v = some bs ∧ l = .buffer bs := by
        cases ty <;> simp [leaf] at hl <;> simp only [lower, Option.map_eq_some_iff] at h <;>
          (obtain ⟨bs, h1, h2⟩ := h; exact ⟨bs, h1, h2.symm⟩)
      obtain ⟨bs, hbs, rfl⟩ := hw
      obtain ⟨w, hm, hw⟩ := ok_write hΓ hc hbs (hf n)
      exact ⟨w, hm, carries_of_write hl hb hm hw⟩
  · simp at h

end Verif.Dyn.Python
