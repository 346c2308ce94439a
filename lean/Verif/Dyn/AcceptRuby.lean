import Verif.Dyn.Accept
import Verif.Dyn.Ruby

/-!
# Values that mean something are accepted by Ruby
-/

namespace Verif.Dyn.Ruby

open Verif Verif.Wire Verif.Dyn

abbrev Acc (F : Floats) (Γ : Env) (t : Ty) (v : Dyn) (bs : Bytes) : Prop :=
  Ever fun n => write F Γ n t v = some bs

theorem len_eq {n : Nat} {c : Bytes} (h : writeLen n = some c) : c = count n := (writeLen_eq_some.1 h).2

mutual
theorem accept {F : Floats} {Γ : Env} (hΓ : Γ.Good) : ∀ (w : Val) {t : Ty} {v : Dyn} {bs : Bytes},
    Means (ruby F) Γ t v w → Wire.write Γ.wire t w = some bs → Fine (RubyTidy Γ) items Γ t v →
    Acc F Γ t v bs := by
  intro w t v bs hm hw hf
  cases w with
  | int z =>
    cases t <;> simp only [Means] at hm
    simp [Wire.write] at hw
    have hz : v = .int z := by
      have := hm.1
      cases v <;> simp [ruby] at this
      rw [this]
    subst hz
    exact .of fun n => by simp [write, inRange, toInt, hm.2, hw]
  | float b =>
    cases t <;> simp only [Means] at hm
    · obtain ⟨d, hd, hb⟩ := hm
      have hd : double F v = some d := hd
      have hb : F.single d = some b := hb
      simp [Wire.write] at hw
      exact .of fun n => by simp [write, hd, hb, hw]
    · have hb : double F v = some b := hm
      simp [Wire.write] at hw
      exact .of fun n => by simp [write, hb, hw]
  | bool b =>
    cases t <;> simp only [Means] at hm
    subst hm
    exact .of fun n => hw
  | str s =>
    cases t <;> simp only [Means] at hm
    subst hm
    simp only [Wire.write, writeStr, Option.map_eq_some_iff] at hw
    obtain ⟨c, hc, rfl⟩ := hw
    rw [len_eq hc]
    exact .of fun n => rfl
  | time _ => cases t <;> simp only [Means] at hm
  | dur _ _ => cases t <;> simp only [Means] at hm
  | handle _ => cases t <;> simp only [Means] at hm
  | custom _ _ => cases t <;> simp only [Means] at hm
  | none =>
    cases t <;> simp only [Means] at hm
    subst hm
    simp [Wire.write] at hw
    exact .of fun n => by simp [write, hw]
  | some w =>
    cases t <;> simp only [Means] at hm
    rename_i t
    simp only [Wire.write, Option.map_eq_some_iff] at hw
    obtain ⟨b, hb, rfl⟩ := hw
    refine (accept hΓ w hm.2 hb (hf.option hm.1)).succ fun n hn => ?_
    have := hm.1
    cases v <;> simp [write, hn] at this ⊢
  | seq ws =>
    cases t <;> simp only [Means] at hm
    rename_i t
    simp only [Wire.write, Option.bind_eq_some_iff, Option.map_eq_some_iff] at hw
    obtain ⟨c, hc, b, hb, rfl⟩ := hw
    by_cases ht : t = .int .u8
    · subst ht
      simp only [if_true] at hm
      obtain ⟨bs, hbs, rfl⟩ := hm
      rw [writeAll_bytes] at hb
      simp at hb; subst hb
      simp only [List.length_map] at hc
      rw [len_eq hc]
      cases v <;> simp [ruby] at hbs <;> subst hbs <;> exact .of fun n => rfl
    · simp only [if_neg ht] at hm
      obtain ⟨vs, hvs, hm⟩ := hm
      have hvs : items v = some vs := hvs
      obtain ⟨hl, h⟩ := acceptAll hΓ ws hm hb (fun u hu => hf.seq ht hvs hu)
      refine h.succ fun n hn => ?_
      rw [len_eq hc, hl]
      simp [write, ht, hvs, hn]
  | set ws =>
    cases t <;> simp only [Means] at hm
    rename_i t
    simp only [Wire.write, Option.bind_eq_some_iff, Option.map_eq_some_iff] at hw
    obtain ⟨c, hc, b, hb, rfl⟩ := hw
    obtain ⟨vs, hvs, hm⟩ := hm
    have hvs : items v = some vs := hvs
    obtain ⟨hl, h⟩ := acceptAll hΓ ws hm hb (fun u hu => hf.set hvs hu)
    refine h.succ fun n hn => ?_
    rw [len_eq hc, hl]
    simp [write, hvs, hn]
  | map ws =>
    cases t <;> simp only [Means] at hm
    rename_i k t
    simp only [Wire.write, Option.bind_eq_some_iff, Option.map_eq_some_iff] at hw
    obtain ⟨c, hc, b, hb, rfl⟩ := hw
    obtain ⟨es, rfl, hm⟩ := hm
    obtain ⟨hl, h⟩ := acceptPairs hΓ ws hm hb (fun e he => hf.map he)
    refine h.succ fun n hn => ?_
    rw [len_eq hc, hl]
    simp [write, hn]
  | box w =>
    cases t <;> simp only [Means] at hm
    simp only [Wire.write] at hw
    exact (accept hΓ w hm hw hf.box).succ fun n hn => by simpa [write] using hn
  | record ws =>
    cases t <;> simp only [Means] at hm
    obtain ⟨fs, hd, hm⟩ := hm
    simp only [Wire.write, wire_record hd] at hw
    refine (acceptFields hΓ ws hm hw (fun p hp u hu => hf.record hd hp hu)).succ fun n hn => ?_
    simp only [write, hd, hn]
  | variant i ws =>
    cases t <;> simp only [Means] at hm
    rename_i name
    rcases hm with ⟨ds, hd, hi, hv, rfl⟩ | ⟨vs, x, fs, hd, hi, hx, hm⟩
    · rw [write_flat hd hi] at hw
      obtain ⟨z, rfl, hz⟩ := hv
      have hg := hΓ name
      simp only [hd] at hg
      obtain ⟨j, hj, hwf⟩ := writeFlat_some hg.1 (List.mem_of_getElem? hz) 1
      have hij : i = j := (List.getElem?_inj hi hg.1).1 (hz.trans hj.symm)
      subst hij
      rw [len_eq hw]
      exact .of fun n => by simp [write, hd, hwf, Nat.add_comm]
    · simp only [Wire.write, wire_enum hd, List.getElem?_map, hi, Option.map_some, Option.bind_eq_some_iff,
        Option.map_eq_some_iff] at hw
      obtain ⟨tag, htag, b, hb, rfl⟩ := hw
      have hg := hΓ name
      simp only [hd] at hg
      have hmem := List.mem_of_getElem? hi
      obtain ⟨j, fields, hv⟩ := hf.here.2 name rfl vs hd
      have hnames : ∀ p ∈ vs, v.isVariant p.1 = some (decide (x = p.1)) := fun p hp => by
        rw [hv] at hx ⊢
        exact isVariant_names hi hx (y := p.1) (gs := p.2) hp
      refine (acceptFields hΓ ws hm hb (fun p hp u hu => hf.enum hd hmem hp hu)).succ fun n hn => ?_
      · simp only [write, hd]
        refine (variants_write (v := v)
          (W := fun k vs => writeVariants (write F Γ n) v k vs)
          (c := fun k fs => (concat (fun p => (v.attr p.1).bind (write F Γ n p.2)) fs).map (count k ++ ·))
          (fun k => rfl) (fun k x fs vs => rfl) hnames).2 hg.1 i hi ?_
        rw [len_eq htag, Nat.add_comm 1 i]
        simp [hn]
theorem acceptAll {F : Floats} {Γ : Env} (hΓ : Γ.Good) : ∀ (ws : List Val) {t : Ty} {vs : List Dyn} {bs : Bytes},
    MeansAll (ruby F) Γ t vs ws → writeAll Γ.wire t ws = some bs → (∀ u ∈ vs, Fine (RubyTidy Γ) items Γ t u) →
    ws.length = vs.length ∧
    Ever fun n => concat (write F Γ n t) vs = some bs := by
  intro ws t vs bs hm hw hf
  cases ws with
  | nil =>
    cases vs <;> simp only [MeansAll] at hm
    simp [writeAll] at hw; subst hw
    exact ⟨rfl, ⟨0, fun _ _ => rfl⟩⟩
  | cons w ws =>
    cases vs <;> simp only [MeansAll] at hm
    simp only [writeAll, Option.bind_eq_some_iff, Option.map_eq_some_iff] at hw
    obtain ⟨b, hb, c, hc, rfl⟩ := hw
    have h1 := accept hΓ w hm.1 hb (hf _ (by simp))
    obtain ⟨hl, h2⟩ := acceptAll hΓ ws hm.2 hc (fun u hu => hf u (by simp [hu]))
    refine ⟨by simp [hl], (h1.and h2).mono fun n hn => ?_⟩
    simp [concat, hn.1, hn.2]
theorem acceptPairs {F : Floats} {Γ : Env} (hΓ : Γ.Good) : ∀ (ws : List (Val × Val)) {k t : Ty}
    {es : List (Dyn × Dyn)} {bs : Bytes},
    MeansPairs (ruby F) Γ k t es ws → writePairs Γ.wire k t ws = some bs →
    (∀ e ∈ es, Fine (RubyTidy Γ) items Γ k e.1 ∧ Fine (RubyTidy Γ) items Γ t e.2) →
    ws.length = es.length ∧
    Ever fun n => concat (fun e => (write F Γ n k e.1).bind fun a => (write F Γ n t e.2).map (a ++ ·)) es = some bs := by
  intro ws k t es bs hm hw hf
  cases ws with
  | nil =>
    cases es <;> simp only [MeansPairs] at hm
    simp [writePairs] at hw; subst hw
    exact ⟨rfl, ⟨0, fun _ _ => rfl⟩⟩
  | cons w ws =>
    obtain ⟨w1, w2⟩ := w
    cases es <;> simp only [MeansPairs] at hm
    simp only [writePairs, Option.bind_eq_some_iff, Option.map_eq_some_iff] at hw
    obtain ⟨a, ha, b, hb, c, hc, rfl⟩ := hw
    have h1 := accept hΓ w1 hm.1 ha (hf _ (by simp)).1
    have h2 := accept hΓ w2 hm.2.1 hb (hf _ (by simp)).2
    obtain ⟨hl, h3⟩ := acceptPairs hΓ ws hm.2.2 hc (fun u hu => hf u (by simp [hu]))
    refine ⟨by simp [hl], (h1.and (h2.and h3)).mono fun n hn => ?_⟩
    have := hn.2.2
    simp only [concat, hn.1, hn.2.1, this, Option.bind_some, Option.map_some, List.append_assoc]
theorem acceptFields {F : Floats} {Γ : Env} (hΓ : Γ.Good) : ∀ (ws : List Val) {fs : List (String × Ty)} {v : Dyn}
    {bs : Bytes}, MeansFields (ruby F) Γ fs v ws → writeFields Γ.wire (fs.map Prod.snd) ws = some bs →
    (∀ p ∈ fs, ∀ u, v.attr p.1 = some u → Fine (RubyTidy Γ) items Γ p.2 u) →
    Ever fun n => concat (fun p => (v.attr p.1).bind (write F Γ n p.2)) fs = some bs := by
  intro ws fs v bs hm hw hf
  cases ws with
  | nil =>
    cases fs <;> simp only [MeansFields] at hm
    simp [writeFields] at hw; subst hw
    exact ⟨0, fun _ _ => rfl⟩
  | cons w ws =>
    cases fs <;> simp only [MeansFields] at hm
    rename_i p fs
    obtain ⟨⟨u, hu, hm1⟩, hm2⟩ := hm
    simp only [List.map_cons, writeFields, Option.bind_eq_some_iff, Option.map_eq_some_iff] at hw
    obtain ⟨b, hb, c, hc, rfl⟩ := hw
    have h1 := accept hΓ w hm1 hb (hf p (by simp) u hu)
    have h2 := acceptFields hΓ ws hm2 hc (fun u hu => hf u (by simp [hu]))
    refine (h1.and h2).mono fun n hn => ?_
    have := hn.2
    simp [concat, hu, hn.1, this]
end


/-! ## Coercion -/

theorem mapAll_ok {L : Lang} {Γ : Env} {t : Ty} {Q : Dyn → Prop} {vs : List Dyn} {ws : List Val}
    (hm : MeansAll L Γ t vs ws)
    (h : ∀ v ∈ vs, ∀ w, Means L Γ t v w → ∃ v', coerce t v = some v' ∧ Means L Γ t v' w ∧ Q v') :
    ∃ vs', mapAll (coerce t) vs = some vs' ∧ MeansAll L Γ t vs' ws ∧ vs'.length = vs.length ∧ ∀ v ∈ vs', Q v := by
  induction vs generalizing ws with
  | nil => cases ws <;> simp only [MeansAll] at hm; exact ⟨[], rfl, by simp [MeansAll], rfl, by simp⟩
  | cons v vs ih =>
    cases ws <;> simp only [MeansAll] at hm
    obtain ⟨v', h1, h2, h3⟩ := h v (by simp) _ hm.1
    obtain ⟨vs', h4, h5, h6, h7⟩ := ih hm.2 (fun v hv => h v (by simp [hv]))
    exact ⟨v' :: vs', by simp [mapAll, h1, h4], by simp [MeansAll, h2, h5], by simp [h6], by simpa using ⟨h3, h7⟩⟩

theorem mapPairs_ok {L : Lang} {Γ : Env} {k t : Ty} {Q R : Dyn → Prop} {es : List (Dyn × Dyn)} {ws : List (Val × Val)}
    (hm : MeansPairs L Γ k t es ws)
    (hk : ∀ e ∈ es, ∀ w, Means L Γ k e.1 w → ∃ v', coerce k e.1 = some v' ∧ Means L Γ k v' w ∧ Q v')
    (ht : ∀ e ∈ es, ∀ w, Means L Γ t e.2 w → ∃ v', coerce t e.2 = some v' ∧ Means L Γ t v' w ∧ R v') :
    ∃ es', mapPairs (coerce k) (coerce t) es = some es' ∧ MeansPairs L Γ k t es' ws ∧ es'.length = es.length ∧
      ∀ e ∈ es', Q e.1 ∧ R e.2 := by
  induction es generalizing ws with
  | nil => cases ws <;> simp only [MeansPairs] at hm; exact ⟨[], rfl, by simp [MeansPairs], rfl, by simp⟩
  | cons e es ih =>
    cases ws <;> simp only [MeansPairs] at hm
    obtain ⟨a, h1, h2, h3⟩ := hk e (by simp) _ hm.1
    obtain ⟨b, g1, g2, g3⟩ := ht e (by simp) _ hm.2.1
    obtain ⟨es', h4, h5, h6, h7⟩ := ih hm.2.2 (fun v hv => hk v (by simp [hv])) (fun v hv => ht v (by simp [hv]))
    refine ⟨(a, b) :: es', by simp [mapPairs, h1, g1, h4], by simp [MeansPairs, h2, g2, h5], by simp [h6], ?_⟩
    intro e he
    rcases List.mem_cons.1 he with rfl | he
    · exact ⟨h3, g3⟩
    · exact h7 e he

theorem coerce_ok {F : Floats} {Γ : Env} : ∀ {t : Ty} {v : Dyn} {w : Val}, Means (ruby F) Γ t v w →
    Fine (RubyTidy Γ) items Γ t v →
    ∃ v', coerce t v = some v' ∧ Means (ruby F) Γ t v' w ∧ Fine (RubyTidy Γ) items Γ t v' := by
  intro t
  induction t with
  | int t =>
    intro v w hm hf
    cases w <;> simp only [Means] at hm
    have := hm.1
    cases v <;> simp [ruby] at this
    subst this
    exact ⟨_, by simp [coerce, inRange, toInt, hm.2], hm, hf⟩
  | bool =>
    intro v w hm hf
    refine ⟨.bool (truthy v), rfl, ?_, ?_⟩
    · cases w <;> simp only [Means] at hm
      subst hm; rfl
    · intro n
      cases n
      · trivial
      · exact ⟨⟨True.intro, by simp⟩, True.intro⟩
  | string =>
    intro v w hm hf
    have hm' := hm
    cases w <;> simp only [Means] at hm
    subst hm
    exact ⟨_, rfl, hm', hf⟩
  | option t ih =>
    intro v w hm hf
    have hm' := hm
    cases w <;> simp only [Means] at hm
    · subst hm
      exact ⟨.nil, rfl, hm', hf⟩
    · have hfalse := hf.here.1
      have hv : truthy v = true := by
        cases v <;> simp [RubyFine] at hfalse hm <;> simp [truthy]
        exact hfalse
      obtain ⟨v', h1, h2, h3⟩ := ih hm.2 (hf.option hm.1)
      have hv' := coerce_truthy h1 hv
      refine ⟨v', by simp [coerce, hv, h1], ⟨?_, h2⟩, ?_⟩
      · rintro rfl; simp [truthy] at hv'
      · intro n
        cases n
        · trivial
        · refine ⟨⟨?_, by simp⟩, fun _ => h3 _⟩
          rintro rfl; simp [truthy] at hv'
  | seq t ih =>
    intro v w hm hf
    have hm' := hm
    cases w <;> simp only [Means] at hm
    split at hm
    · rename_i ht
      subst ht
      obtain ⟨bs, hbs, _⟩ := hm
      cases v <;> simp [ruby] at hbs <;> exact ⟨_, rfl, hm', hf⟩
    · rename_i ht
      by_cases htr : trivial t = true
      · exact ⟨v, by simp [coerce, ht, htr], hm', hf⟩
      · obtain ⟨vs, hvs, hm⟩ := hm
        have hvs : items v = some vs := hvs
        obtain ⟨vs', h1, h2, h3, h4⟩ := mapAll_ok hm (fun u hu w hw => ih hw (hf.seq ht hvs hu))
        refine ⟨.list vs', by simp [coerce, ht, htr, hvs, h1], ?_, ?_⟩
        · simp only [Means, if_neg ht]
          exact ⟨vs', rfl, h2⟩
        · intro n
          cases n
          · trivial
          · refine ⟨⟨⟨by simp, by simp, ?_⟩, by simp⟩, ?_⟩
            · intro xs hxs
              simp [items] at hxs; subst hxs
              rw [h3]; exact hf.here.1.2.2 vs hvs
            · intro _ xs hxs u hu
              simp [items] at hxs; subst hxs
              exact h4 u hu _
  | set t ih =>
    intro v w hm hf
    have hm' := hm
    cases w <;> simp only [Means] at hm
    by_cases htr : trivial t = true
    · exact ⟨v, by simp [coerce, htr], hm', hf⟩
    · obtain ⟨vs, hvs, hm⟩ := hm
      have hvs : items v = some vs := hvs
      obtain ⟨vs', h1, h2, h3, h4⟩ := mapAll_ok hm (fun u hu w hw => ih hw (hf.set hvs hu))
      refine ⟨.set vs', by simp [coerce, htr, hvs, h1], ⟨vs', rfl, h2⟩, ?_⟩
      intro n
      cases n
      · trivial
      · refine ⟨⟨⟨?_, hf.here.1.2⟩, by simp⟩, ?_⟩
        · intro xs hxs
          simp [items] at hxs; subst hxs
          rw [h3]; exact hf.here.1.1 vs hvs
        · intro xs hxs u hu
          simp [items] at hxs; subst hxs
          exact h4 u hu _
  | map k t ihk iht =>
    intro v w hm hf
    have hm' := hm
    cases w <;> simp only [Means] at hm
    by_cases htr : (trivial k && trivial t) = true
    · exact ⟨v, by simp only [coerce, htr, if_true], hm', hf⟩
    · obtain ⟨es, rfl, hm⟩ := hm
      obtain ⟨es', h1, h2, h3, h4⟩ := mapPairs_ok hm (fun e he w hw => ihk hw (hf.map he).1)
        (fun e he w hw => iht hw (hf.map he).2)
      refine ⟨.dict es', by simp only [coerce, htr, h1, Option.map_some]; simp, ⟨es', rfl, h2⟩, ?_⟩
      intro n
      cases n
      · trivial
      · refine ⟨⟨⟨?_, hf.here.1.2⟩, by simp⟩, ?_⟩
        · intro xs hxs
          simp at hxs; subst hxs
          rw [h3]; exact hf.here.1.1 es rfl
        · intro xs hxs u hu
          simp at hxs; subst hxs
          exact ⟨(h4 u hu).1 _, (h4 u hu).2 _⟩
  | box t ih =>
    intro v w hm hf
    cases w <;> simp only [Means] at hm
    obtain ⟨v', h1, h2, h3⟩ := ih hm hf.box
    refine ⟨v', by simp [coerce, h1], h2, ?_⟩
    intro n
    cases n
    · trivial
    · exact ⟨⟨True.intro, by simp⟩, h3 _⟩
  | _ => intro v w hm hf; exact ⟨v, rfl, hm, hf⟩

theorem arg_accept {F : Floats} {Γ : Env} (hΓ : Γ.Good) {t : Ty} {v : Dyn} {w : Val} {l : Lowered}
    (hm : Means (ruby F) Γ t v w) (hc : Carries Γ t w l) (hf : Fine (RubyTidy Γ) items Γ t v) :
    Ever fun n => arg F Γ n t v = some l := by
  obtain ⟨v', h1, hm', hf'⟩ := coerce_ok hm hf
  clear hm hf
  have hm := hm'
  have hf := hf'
  clear hm' hf'
  suffices h : Ever fun n => lower F Γ n v' t = some l by
    exact h.mono fun n hn => by simp [arg, h1, hn]
  clear h1
  induction hc with
  | int =>
    have := hm.1
    cases v' <;> simp [ruby] at this
    subst this
    exact ⟨0, fun _ _ => rfl⟩
  | f32 =>
    obtain ⟨d, hd, hs⟩ := hm
    have hd : double F v' = some d := hd
    have hs : F.single d = _ := hs
    exact ⟨0, fun _ _ => by simp [lower, hd, hs]⟩
  | f64 =>
    have hd : double F v' = _ := hm
    exact ⟨0, fun _ _ => by simp [lower, hd]⟩
  | bool =>
    simp only [Means] at hm
    subst hm
    exact ⟨0, fun _ _ => rfl⟩
  | string =>
    simp only [Means] at hm
    subst hm
    exact ⟨0, fun _ _ => rfl⟩
  | box _ ih =>
    exact (ih hm hf.box).mono fun n hn => by simpa [lower] using hn
  | option hw => exact (accept hΓ _ hm hw hf).mono fun n hn => by simp [lower, hn]
  | seq hw => exact (accept hΓ _ hm hw hf).mono fun n hn => by simp [lower, hn]
  | set hw => exact (accept hΓ _ hm hw hf).mono fun n hn => by simp [lower, hn]
  | map hw => exact (accept hΓ _ hm hw hf).mono fun n hn => by simp [lower, hn]
  | named hw => exact (accept hΓ _ hm hw hf).mono fun n hn => by simp [lower, hn]

end Verif.Dyn.Ruby
