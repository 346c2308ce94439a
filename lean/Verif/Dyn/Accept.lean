import Verif.Dyn.Python

/-!
# Values that mean something are accepted
-/

namespace Verif.Dyn

open Verif Verif.Wire

/-- From some fuel on. -/
def Ever (p : Nat → Prop) : Prop := ∃ N, ∀ n, N ≤ n → p n

theorem Ever.of {p : Nat → Prop} (h : ∀ n, p (n + 1)) : Ever p := ⟨1, fun n hn => by
  obtain ⟨m, rfl⟩ : ∃ m, n = m + 1 := ⟨n - 1, by omega⟩
  exact h m⟩

theorem Ever.mono {p q : Nat → Prop} (h : Ever p) (hpq : ∀ n, p n → q n) : Ever q :=
  let ⟨N, hN⟩ := h; ⟨N, fun n hn => hpq n (hN n hn)⟩

theorem Ever.and {p q : Nat → Prop} (h : Ever p) (h' : Ever q) : Ever fun n => p n ∧ q n :=
  let ⟨N, hN⟩ := h; let ⟨M, hM⟩ := h'; ⟨max N M, fun n hn => ⟨hN n (by omega), hM n (by omega)⟩⟩

theorem Ever.succ {p q : Nat → Prop} (h : Ever p) (hpq : ∀ n, p n → q (n + 1)) : Ever q :=
  let ⟨N, hN⟩ := h; ⟨N + 1, fun n hn => by
    obtain ⟨m, rfl⟩ : ∃ m, n = m + 1 := ⟨n - 1, by omega⟩
    exact hpq m (hN m (by omega))⟩

/-! ## Fine values have fine parts -/

section parts
variable {P : Ty → Dyn → Prop} {items : Dyn → Option (List Dyn)} {Γ : Env}

theorem Fine.here {t v} (h : Fine P items Γ t v) : P t v := (h 1).1
theorem Fine.option {t v} (h : Fine P items Γ (.option t) v) (hv : v ≠ .nil) : Fine P items Γ t v :=
  fun n => (h (n + 1)).2 hv
theorem Fine.seq {t v vs u} (h : Fine P items Γ (.seq t) v) (ht : t ≠ .int .u8) (hvs : items v = some vs)
    (hu : u ∈ vs) : Fine P items Γ t u := fun n => (h (n + 1)).2 ht vs hvs u hu
theorem Fine.set {t v vs u} (h : Fine P items Γ (.set t) v) (hvs : items v = some vs)
    (hu : u ∈ vs) : Fine P items Γ t u := fun n => (h (n + 1)).2 vs hvs u hu
theorem Fine.map {k t es e} (h : Fine P items Γ (.map k t) (.dict es)) (he : e ∈ es) :
    Fine P items Γ k e.1 ∧ Fine P items Γ t e.2 :=
  ⟨fun n => ((h (n + 1)).2 es rfl e he).1, fun n => ((h (n + 1)).2 es rfl e he).2⟩
theorem Fine.box {t v} (h : Fine P items Γ (.box t) v) : Fine P items Γ t v := fun n => (h (n + 1)).2
theorem Fine.record {m v fs p u} (h : Fine P items Γ (.named m) v) (hm : Γ m = some (.record fs)) (hp : p ∈ fs)
    (hu : v.attr p.1 = some u) : Fine P items Γ p.2 u := fun n => by
  have := (h (n + 1)).2
  simp only [hm] at this
  exact this p hp u hu
theorem Fine.enum {m v vs x p u} (h : Fine P items Γ (.named m) v) (hm : Γ m = some (.enum vs)) (hx : x ∈ vs)
    (hp : p ∈ x.2) (hu : v.attr p.1 = some u) : Fine P items Γ p.2 u := fun n => by
  have := (h (n + 1)).2
  simp only [hm] at this
  exact this x hx p hp u hu

theorem Fine.mk_leaf {t v} (hl : leaf t = true) (h : P t v) : Fine P items Γ t v := fun n => by
  cases n with
  | zero => trivial
  | succ n => cases t <;> simp [leaf] at hl <;> exact ⟨h, trivial⟩
theorem Fine.mk_option {t v} (h : P (.option t) v) (hv : v ≠ .nil → Fine P items Γ t v) :
    Fine P items Γ (.option t) v := fun n => by
  cases n with
  | zero => trivial
  | succ n => exact ⟨h, fun e => hv e n⟩
theorem Fine.mk_seq {t v vs} (h : P (.seq t) v) (hv : items v = some vs) (hvs : ∀ u ∈ vs, Fine P items Γ t u) :
    Fine P items Γ (.seq t) v := fun n => by
  cases n with
  | zero => trivial
  | succ n =>
    refine ⟨h, fun _ xs hx u hu => ?_⟩
    rw [hv] at hx
    cases hx
    exact hvs u hu n
theorem Fine.mk_record {m v fs} (h : P (.named m) v) (hm : Γ m = some (.record fs))
    (hfs : ∀ p ∈ fs, ∀ u, v.attr p.1 = some u → Fine P items Γ p.2 u) : Fine P items Γ (.named m) v := fun n => by
  cases n with
  | zero => trivial
  | succ n =>
    refine ⟨h, ?_⟩
    simp only [hm]
    exact fun p hp u hu => hfs p hp u hu n
theorem Fine.mk_enum {m v vs} (h : P (.named m) v) (hm : Γ m = some (.enum vs))
    (hfs : ∀ x ∈ vs, ∀ p ∈ x.2, ∀ u, v.attr p.1 = some u → Fine P items Γ p.2 u) :
    Fine P items Γ (.named m) v := fun n => by
  cases n with
  | zero => trivial
  | succ n =>
    refine ⟨h, ?_⟩
    simp only [hm]
    exact fun x hx p hp u hu => hfs x hx p hp u hu n
theorem Fine.mk_flat {m v ds} (h : P (.named m) v) (hm : Γ m = some (.flat ds)) :
    Fine P items Γ (.named m) v := fun n => by
  cases n with
  | zero => trivial
  | succ n =>
    refine ⟨h, ?_⟩
    simp only [hm]
end parts

theorem isVariant_names {vs : List (String × List (String × Ty))} {i j : Nat} {fields x fs y gs}
    (hi : vs[i]? = some (x, fs)) (hx : (Dyn.variant (vs.map Prod.fst) j fields).isVariant x = some true)
    (hy : (y, gs) ∈ vs) :
    (Dyn.variant (vs.map Prod.fst) j fields).isVariant y = some (decide (x = y)) := by
  have hmem : y ∈ vs.map Prod.fst := List.mem_map_of_mem (f := Prod.fst) hy
  have hmx : x ∈ vs.map Prod.fst := List.mem_map_of_mem (f := Prod.fst) (List.mem_of_getElem? hi)
  simp only [Dyn.isVariant, hmem, if_true, hmx] at hx ⊢
  have hx : (vs.map Prod.fst)[j]? = some x := by simpa using hx
  rw [hx]
  simp

/-- The `if`s of the writers, for a value that is a certain variant. -/
theorem variants_write {W : Nat → List (String × List (String × Ty)) → Option Bytes}
    {v : Dyn} {c : Nat → List (String × Ty) → Option Bytes} {x : String} {fs : List (String × Ty)} {b : Bytes}
    (h0 : ∀ k, W k [] = some [])
    (h1 : ∀ k x fs vs, W k ((x, fs) :: vs) = (v.isVariant x).bind fun is =>
      (if is then c k fs else some []).bind fun b => (W (k + 1) vs).map (b ++ ·)) :
    ∀ {vs : List (String × List (String × Ty))} {k : Nat},
    (∀ p ∈ vs, v.isVariant p.1 = some (decide (x = p.1))) →
    (x ∉ vs.map Prod.fst → W k vs = some []) ∧
    ((vs.map Prod.fst).Nodup → ∀ i, vs[i]? = some (x, fs) → c (k + i) fs = some b → W k vs = some b) := by
  intro vs
  induction vs with
  | nil => intro k _; exact ⟨fun _ => h0 k, fun _ i hi => by simp at hi⟩
  | cons p vs ih =>
    intro k hv
    obtain ⟨y, gs⟩ := p
    have ih := ih (k := k + 1) (fun p hp => hv p (by simp [hp]))
    have hy := hv (y, gs) (by simp)
    simp only at hy
    rw [h1, hy]
    simp only [Option.bind_some]
    constructor
    · intro hx
      simp only [List.map_cons, List.mem_cons, not_or] at hx
      simp [hx.1, ih.1 hx.2]
    · intro hd i hi hc
      simp only [List.map_cons, List.nodup_cons] at hd
      cases i with
      | zero =>
        simp at hi
        obtain ⟨rfl, rfl⟩ := hi
        simp only [Nat.add_zero] at hc
        simp [hc, ih.1 hd.1]
      | succ i =>
        simp at hi
        have hne : x ≠ y := by
          rintro rfl
          exact hd.1 (List.mem_map_of_mem (f := Prod.fst) (List.mem_of_getElem? hi))
        have := ih.2 hd.2 i hi (by rw [← hc]; congr 1; omega)
        simp [hne, this]

end Verif.Dyn

namespace Verif.Dyn.Python

open Verif Verif.Wire Verif.Dyn

theorem checkVariants_ok {f : Ty → Dyn → Bool} {v : Dyn} {x : String} {fs : List (String × Ty)} :
    ∀ {vs : List (String × List (String × Ty))}, (∀ p ∈ vs, v.isVariant p.1 = some (decide (x = p.1))) →
    (vs.map Prod.fst).Nodup → (x, fs) ∈ vs →
    (∀ p ∈ fs, ∃ u, v.attr p.1 = some u ∧ f p.2 u = true) → checkVariants f v vs = true := by
  intro vs
  induction vs with
  | nil => intro _ _ h; simp at h
  | cons p vs ih =>
    intro hv hd hm hf
    obtain ⟨y, gs⟩ := p
    simp only [List.map_cons, List.nodup_cons] at hd
    have hy := hv (y, gs) (by simp)
    simp only at hy
    simp only [checkVariants, hy]
    by_cases e : x = y
    · subst e
      have : (x, fs) = (x, gs) := by
        rcases List.mem_cons.1 hm with h | h
        · exact h
        · exact absurd (List.mem_map_of_mem (f := Prod.fst) h) hd.1
      simp only [Prod.mk.injEq, true_and] at this
      subst this
      simp only [decide_true, List.all_eq_true]
      intro p hp
      obtain ⟨u, hu, hfu⟩ := hf p hp
      simp [hu, hfu]
    · simp only [e, decide_false]
      refine ih (fun p hp => hv p (by simp [hp])) hd.2 ?_ hf
      rcases List.mem_cons.1 hm with h | h
      · simp at h; exact absurd h.1 e
      · exact h

abbrev Acc (F : Floats) (Γ : Env) (t : Ty) (v : Dyn) (bs : Bytes) : Prop :=
  Ever fun n => check F Γ n t v = true ∧ write F Γ n t v = some bs

mutual
theorem accept {F : Floats} {Γ : Env} (hΓ : Γ.Good) : ∀ (w : Val) {t : Ty} {v : Dyn} {bs : Bytes},
    Means (python F) Γ t v w → Wire.write Γ.wire t w = some bs → Fine (PythonTidy Γ) items Γ t v →
    Acc F Γ t v bs := by
  intro w t v bs hm hw hf
  cases w with
  | int z =>
    cases t <;> simp only [Means] at hm
    simp [Wire.write] at hw
    refine .of fun n => ?_
    have hz : int v = some z := hm.1
    simp [check, write, hz, hm.2, hw]
  | float b =>
    cases t <;> simp only [Means] at hm
    · obtain ⟨d, hd, hb⟩ := hm
      have hd : double F v = some d := hd
      have hb : F.single d = some b := hb
      simp [Wire.write] at hw
      exact .of fun n => by simp [check, write, hd, hb, hw]
    · have hb : double F v = some b := hm
      simp [Wire.write] at hw
      exact .of fun n => by simp [check, write, hb, hw]
  | bool b =>
    cases t <;> simp only [Means] at hm
    obtain ⟨c, rfl⟩ := hf.here.1 rfl
    have : b = c := hm
    subst this
    simp [Wire.write] at hw
    refine .of fun n => ⟨rfl, ?_⟩
    rw [← hw]
    cases b <;> rfl
  | str s =>
    cases t <;> simp only [Means] at hm
    subst hm
    simp [Wire.write] at hw
    exact .of fun n => by simp [check, write, hw]
  | time _ => cases t <;> simp only [Means] at hm
  | dur _ _ => cases t <;> simp only [Means] at hm
  | handle _ => cases t <;> simp only [Means] at hm
  | custom _ _ => cases t <;> simp only [Means] at hm
  | none =>
    cases t <;> simp only [Means] at hm
    subst hm
    simp [Wire.write] at hw
    exact .of fun n => by simp [check, write, hw]
  | some w =>
    cases t <;> simp only [Means] at hm
    rename_i t
    simp only [Wire.write, Option.map_eq_some_iff] at hw
    obtain ⟨b, hb, rfl⟩ := hw
    refine (accept hΓ w hm.2 hb (hf.option hm.1)).succ fun n hn => ?_
    have := hm.1
    cases v <;> simp [check, write, hn] at this ⊢
  | seq ws =>
    cases t <;> simp only [Means] at hm
    rename_i t
    simp only [Wire.write, Option.bind_eq_some_iff, Option.map_eq_some_iff] at hw
    obtain ⟨c, hc, b, hb, rfl⟩ := hw
    by_cases ht : t = .int .u8
    · subst ht
      simp only [if_true] at hm
      obtain ⟨bs, hbs, rfl⟩ := hm
      cases v <;> simp [python] at hbs
      subst hbs
      rw [writeAll_bytes] at hb
      simp at hb; subst hb
      simp only [List.length_map] at hc
      exact .of fun n => by simp [check, write, hc]
    · simp only [if_neg ht] at hm
      obtain ⟨vs, hvs, hm⟩ := hm
      have hvs : items v = some vs := hvs
      obtain ⟨hl, h⟩ := acceptAll hΓ ws hm hb (fun u hu => hf.seq ht hvs hu)
      refine h.succ fun n hn => ?_
      simp [check, write, ht, hvs, hn.2, ← hl, hc]
      exact hn.1
  | set ws =>
    cases t <;> simp only [Means] at hm
    rename_i t
    simp only [Wire.write, Option.bind_eq_some_iff, Option.map_eq_some_iff] at hw
    obtain ⟨c, hc, b, hb, rfl⟩ := hw
    obtain ⟨vs, hvs, hm⟩ := hm
    have hvs : items v = some vs := hvs
    obtain ⟨hl, h⟩ := acceptAll hΓ ws hm hb (fun u hu => hf.set hvs hu)
    refine h.succ fun n hn => ?_
    simp [check, write, hvs, hn.2, ← hl, hc]
    exact hn.1
  | map ws =>
    cases t <;> simp only [Means] at hm
    rename_i k t
    simp only [Wire.write, Option.bind_eq_some_iff, Option.map_eq_some_iff] at hw
    obtain ⟨c, hc, b, hb, rfl⟩ := hw
    obtain ⟨es, rfl, hm⟩ := hm
    obtain ⟨hl, h⟩ := acceptPairs hΓ ws hm hb (fun e he => hf.map he)
    refine h.succ fun n hn => ?_
    refine ⟨?_, by simp [write, hn.2, ← hl, hc]⟩
    simp only [check, List.all_eq_true, Bool.and_eq_true]
    exact hn.1
  | box w =>
    cases t <;> simp only [Means] at hm
    simp only [Wire.write] at hw
    exact (accept hΓ w hm hw hf.box).succ fun n hn => by simpa [check, write] using hn
  | record ws =>
    cases t <;> simp only [Means] at hm
    obtain ⟨fs, hd, hm⟩ := hm
    simp only [Wire.write, wire_record hd] at hw
    refine (acceptFields hΓ ws hm hw (fun p hp u hu => hf.record hd hp hu)).succ fun n hn => ?_
    simp only [check, write, hd, hn.2, and_true, List.all_eq_true]
    intro p hp
    obtain ⟨u, hu, hc⟩ := hn.1 p hp
    simp [hu, hc]
  | variant i ws =>
    cases t <;> simp only [Means] at hm
    rename_i name
    rcases hm with ⟨ds, hd, hi, hv, rfl⟩ | ⟨vs, x, fs, hd, hi, hx, hm⟩
    · rw [write_flat hd hi] at hw
      have hv : v = .member name i := hv
      subst hv
      exact .of fun n => by simp [check, write, hd, hi, hw]
    · simp only [Wire.write, wire_enum hd, List.getElem?_map, hi, Option.map_some, Option.bind_eq_some_iff,
        Option.map_eq_some_iff] at hw
      obtain ⟨tag, htag, b, hb, rfl⟩ := hw
      have hg := hΓ name
      simp only [hd] at hg
      have hmem := List.mem_of_getElem? hi
      obtain ⟨j, fields, hv⟩ := hf.here.2 name rfl vs hd
      have hnames : ∀ p ∈ vs, v.isVariant p.1 = some (decide (x = p.1)) := fun p hp => by
        rw [hv] at hx ⊢
        exact isVariant_names hi hx (y := p.1) (gs := p.2) hp
      refine (acceptFields hΓ ws hm hb (fun p hp u hu => hf.enum hd hmem hp hu)).succ fun n hn => ?_
      refine ⟨?_, ?_⟩
      · simp only [check, hd, Bool.or_eq_true]
        exact Or.inr (checkVariants_ok hnames hg.1 hmem hn.1)
      · simp only [write, hd]
        refine (variants_write (v := v)
          (W := fun k vs => writeVariants (write F Γ n) v k vs)
          (c := fun k fs => (writeLen k).bind fun tag =>
            (concat (fun p => (v.attr p.1).bind (write F Γ n p.2)) fs).map (tag ++ ·))
          (fun k => rfl) (fun k x fs vs => rfl) hnames).2 hg.1 i hi ?_
        rw [Nat.add_comm, htag]
        simp [hn.2]
theorem acceptAll {F : Floats} {Γ : Env} (hΓ : Γ.Good) : ∀ (ws : List Val) {t : Ty} {vs : List Dyn} {bs : Bytes},
    MeansAll (python F) Γ t vs ws → writeAll Γ.wire t ws = some bs → (∀ u ∈ vs, Fine (PythonTidy Γ) items Γ t u) →
    ws.length = vs.length ∧
    Ever fun n => (∀ u ∈ vs, check F Γ n t u = true) ∧ concat (write F Γ n t) vs = some bs := by
  intro ws t vs bs hm hw hf
  cases ws with
  | nil =>
    cases vs <;> simp only [MeansAll] at hm
    simp [writeAll] at hw; subst hw
    exact ⟨rfl, ⟨0, fun _ _ => ⟨by simp, rfl⟩⟩⟩
  | cons w ws =>
    cases vs <;> simp only [MeansAll] at hm
    simp only [writeAll, Option.bind_eq_some_iff, Option.map_eq_some_iff] at hw
    obtain ⟨b, hb, c, hc, rfl⟩ := hw
    have h1 := accept hΓ w hm.1 hb (hf _ (by simp))
    obtain ⟨hl, h2⟩ := acceptAll hΓ ws hm.2 hc (fun u hu => hf u (by simp [hu]))
    refine ⟨by simp [hl], (h1.and h2).mono fun n hn => ⟨?_, ?_⟩⟩
    · intro u hu
      rcases List.mem_cons.1 hu with rfl | hu
      · exact hn.1.1
      · exact hn.2.1 u hu
    · simp [concat, hn.1.2, hn.2.2]
theorem acceptPairs {F : Floats} {Γ : Env} (hΓ : Γ.Good) : ∀ (ws : List (Val × Val)) {k t : Ty}
    {es : List (Dyn × Dyn)} {bs : Bytes},
    MeansPairs (python F) Γ k t es ws → writePairs Γ.wire k t ws = some bs →
    (∀ e ∈ es, Fine (PythonTidy Γ) items Γ k e.1 ∧ Fine (PythonTidy Γ) items Γ t e.2) →
    ws.length = es.length ∧
    Ever fun n => (∀ e ∈ es, check F Γ n k e.1 = true ∧ check F Γ n t e.2 = true) ∧
      concat (fun e => (write F Γ n k e.1).bind fun a => (write F Γ n t e.2).map (a ++ ·)) es = some bs := by
  intro ws k t es bs hm hw hf
  cases ws with
  | nil =>
    cases es <;> simp only [MeansPairs] at hm
    simp [writePairs] at hw; subst hw
    exact ⟨rfl, ⟨0, fun _ _ => ⟨by simp, rfl⟩⟩⟩
  | cons w ws =>
    obtain ⟨w1, w2⟩ := w
    cases es <;> simp only [MeansPairs] at hm
    simp only [writePairs, Option.bind_eq_some_iff, Option.map_eq_some_iff] at hw
    obtain ⟨a, ha, b, hb, c, hc, rfl⟩ := hw
    have h1 := accept hΓ w1 hm.1 ha (hf _ (by simp)).1
    have h2 := accept hΓ w2 hm.2.1 hb (hf _ (by simp)).2
    obtain ⟨hl, h3⟩ := acceptPairs hΓ ws hm.2.2 hc (fun u hu => hf u (by simp [hu]))
    refine ⟨by simp [hl], (h1.and (h2.and h3)).mono fun n hn => ⟨?_, ?_⟩⟩
    · intro u hu
      rcases List.mem_cons.1 hu with rfl | hu
      · exact ⟨hn.1.1, hn.2.1.1⟩
      · exact hn.2.2.1 u hu
    · have := hn.2.2.2
      simp only [concat, hn.1.2, hn.2.1.2, this, Option.bind_some, Option.map_some, List.append_assoc]
theorem acceptFields {F : Floats} {Γ : Env} (hΓ : Γ.Good) : ∀ (ws : List Val) {fs : List (String × Ty)} {v : Dyn}
    {bs : Bytes}, MeansFields (python F) Γ fs v ws → writeFields Γ.wire (fs.map Prod.snd) ws = some bs →
    (∀ p ∈ fs, ∀ u, v.attr p.1 = some u → Fine (PythonTidy Γ) items Γ p.2 u) →
    Ever fun n => (∀ p ∈ fs, ∃ u, v.attr p.1 = some u ∧ check F Γ n p.2 u = true) ∧
      concat (fun p => (v.attr p.1).bind (write F Γ n p.2)) fs = some bs := by
  intro ws fs v bs hm hw hf
  cases ws with
  | nil =>
    cases fs <;> simp only [MeansFields] at hm
    simp [writeFields] at hw; subst hw
    exact ⟨0, fun _ _ => ⟨by simp, rfl⟩⟩
  | cons w ws =>
    cases fs <;> simp only [MeansFields] at hm
    rename_i p fs
    obtain ⟨⟨u, hu, hm1⟩, hm2⟩ := hm
    simp only [List.map_cons, writeFields, Option.bind_eq_some_iff, Option.map_eq_some_iff] at hw
    obtain ⟨b, hb, c, hc, rfl⟩ := hw
    have h1 := accept hΓ w hm1 hb (hf p (by simp) u hu)
    have h2 := acceptFields hΓ ws hm2 hc (fun u hu => hf u (by simp [hu]))
    refine (h1.and h2).mono fun n hn => ⟨?_, ?_⟩
    · intro q hq
      rcases List.mem_cons.1 hq with rfl | hq
      · exact ⟨u, hu, hn.1.1⟩
      · exact hn.2.1 q hq
    · have := hn.2.2
      simp [concat, hu, hn.1.2, this]
end

theorem write_of_carries {Γ : Env} {t : Ty} {w : Val} {l : Lowered} (h : Carries Γ t w l) (hl : leaf t = false)
    (hb : boxedLeaf t = false) : ∃ bs, l = .buffer bs ∧ Wire.write Γ.wire t w = some bs := by
  induction h with
  | box _ ih =>
    simp only [boxedLeaf, Bool.or_eq_false_iff] at hb
    obtain ⟨bs, h1, h2⟩ := ih hb.1 hb.2
    exact ⟨bs, h1, by simpa [Wire.write] using h2⟩
  | option h => exact ⟨_, rfl, h⟩
  | seq h => exact ⟨_, rfl, h⟩
  | set h => exact ⟨_, rfl, h⟩
  | map h => exact ⟨_, rfl, h⟩
  | named h => exact ⟨_, rfl, h⟩
  | _ => simp [leaf] at hl

theorem arg_accept {F : Floats} {Γ : Env} (hΓ : Γ.Good) {t : Ty} {v : Dyn} {w : Val} {l : Lowered}
    (hb : boxedLeaf t = false) (hm : Means (python F) Γ t v w) (hc : Carries Γ t w l)
    (hf : Fine (PythonTidy Γ) items Γ t v) : Ever fun n => arg F Γ n t v = some l := by
  by_cases hl : leaf t = true
  · cases hc <;> simp [leaf] at hl
    · have hz : int v = _ := hm.1
      exact .of fun n => by simp [arg, check, lower, hz, hm.2, truncate_inRange hm.2]
    · obtain ⟨d, hd, hs⟩ := hm
      have hd : double F v = some d := hd
      have hs : F.single d = _ := hs
      exact .of fun n => by simp [arg, check, lower, hd, hs]
    · have hd : double F v = _ := hm
      exact .of fun n => by simp [arg, check, lower, hd]
    · simp only [Means] at hm
      subst hm
      exact .of fun n => rfl
    · simp only [Means] at hm
      subst hm
      exact .of fun n => rfl
  · have hl : leaf t = false := by simpa using hl
    obtain ⟨bs, rfl, hw⟩ := write_of_carries hc hl hb
    refine (accept hΓ w hm hw hf).mono fun n hn => ?_
    simp only [arg, hn.1, if_true]
    cases t <;> simp [leaf] at hl <;> simp [lower, hn.2]

end Verif.Dyn.Python
