import Verif.Dyn.Spec
import Verif.Wire.Lemmas
import Verif.Wire.ForeignLeaf

/-!
# Lemmas on writing values of Python and Ruby
-/

namespace Verif.Dyn

open Verif Verif.Wire

/-- What is to be shown of a writer. -/
def Ok (L : Lang) (Γ : Env) (t : Ty) (v : Dyn) (bs : Bytes) : Prop :=
  ∃ w, Means L Γ t v w ∧ Wire.write Γ.wire t w = some bs

theorem concat_cons {α} {f : α → Option Bytes} {a : α} {as : List α} {bs : Bytes} :
    concat f (a :: as) = some bs ↔ ∃ b c, f a = some b ∧ concat f as = some c ∧ bs = b ++ c := by
  simp only [concat, Option.bind_eq_some_iff, Option.map_eq_some_iff]
  constructor
  · rintro ⟨b, h, c, h', rfl⟩; exact ⟨b, c, h, h', rfl⟩
  · rintro ⟨b, c, h, h', rfl⟩; exact ⟨b, h, c, h', rfl⟩

theorem concat_all {L : Lang} {Γ : Env} {t : Ty} {f : Dyn → Option Bytes} {vs : List Dyn} {bs : Bytes}
    (hf : ∀ v ∈ vs, ∀ bs, f v = some bs → Ok L Γ t v bs) (h : concat f vs = some bs) :
    ∃ ws, MeansAll L Γ t vs ws ∧ ws.length = vs.length ∧ writeAll Γ.wire t ws = some bs := by
  induction vs generalizing bs with
  | nil => simp [concat] at h; subst h; exact ⟨[], by simp [MeansAll, writeAll]⟩
  | cons v vs ih =>
    obtain ⟨b, c, hb, hc, rfl⟩ := concat_cons.1 h
    obtain ⟨w, hm, hw⟩ := hf v (by simp) b hb
    obtain ⟨ws, hms, hl, hws⟩ := ih (fun v hv => hf v (by simp [hv])) hc
    exact ⟨w :: ws, by simp [MeansAll, hm, hms], by simp [hl], by simp [writeAll, hw, hws]⟩

theorem concat_pairs {L : Lang} {Γ : Env} {k u : Ty} {f g : Dyn → Option Bytes} {es : List (Dyn × Dyn)} {bs : Bytes}
    (hf : ∀ e ∈ es, ∀ bs, f e.1 = some bs → Ok L Γ k e.1 bs) (hg : ∀ e ∈ es, ∀ bs, g e.2 = some bs → Ok L Γ u e.2 bs)
    (h : concat (fun e : Dyn × Dyn => (f e.1).bind fun a => (g e.2).map (a ++ ·)) es = some bs) :
    ∃ ws, MeansPairs L Γ k u es ws ∧ ws.length = es.length ∧ writePairs Γ.wire k u ws = some bs := by
  induction es generalizing bs with
  | nil => simp [concat] at h; subst h; exact ⟨[], by simp [MeansPairs, writePairs]⟩
  | cons e es ih =>
    obtain ⟨b, c, hb, hc, rfl⟩ := concat_cons.1 h
    simp only [Option.bind_eq_some_iff, Option.map_eq_some_iff] at hb
    obtain ⟨b1, hb1, b2, hb2, rfl⟩ := hb
    obtain ⟨w1, hm1, hw1⟩ := hf e (by simp) b1 hb1
    obtain ⟨w2, hm2, hw2⟩ := hg e (by simp) b2 hb2
    obtain ⟨ws, hms, hl, hws⟩ := ih (fun v hv => hf v (by simp [hv])) (fun v hv => hg v (by simp [hv])) hc
    exact ⟨(w1, w2) :: ws, by simp [MeansPairs, hm1, hm2, hms], by simp [hl], by simp [writePairs, hw1, hw2, hws]⟩

theorem concat_fields {L : Lang} {Γ : Env} {v : Dyn} {f : Ty → Dyn → Option Bytes} {fs : List (String × Ty)} {bs : Bytes}
    (hf : ∀ p ∈ fs, ∀ u, v.attr p.1 = some u → ∀ bs, f p.2 u = some bs → Ok L Γ p.2 u bs)
    (h : concat (fun p : String × Ty => (v.attr p.1).bind (f p.2)) fs = some bs) :
    ∃ ws, MeansFields L Γ fs v ws ∧ writeFields Γ.wire (fs.map Prod.snd) ws = some bs := by
  induction fs generalizing bs with
  | nil => simp [concat] at h; subst h; exact ⟨[], by simp [MeansFields, writeFields]⟩
  | cons p fs ih =>
    obtain ⟨b, c, hb, hc, rfl⟩ := concat_cons.1 h
    simp only [Option.bind_eq_some_iff] at hb
    obtain ⟨u, hu, hb⟩ := hb
    obtain ⟨w, hm, hw⟩ := hf p (by simp) u hu b hb
    obtain ⟨ws, hms, hws⟩ := ih (fun v hv => hf v (by simp [hv])) hc
    exact ⟨w :: ws, by simp [MeansFields, hm, hms, hu], by simp [writeFields, hw, hws]⟩

theorem writeAll_bytes (env : Wire.Env) (bs : Bytes) :
    writeAll env (.int .u8) (bs.map fun b => .int b.toNat) = some bs := by
  induction bs with
  | nil => simp [writeAll]
  | cons b bs ih =>
    simp only [List.map_cons, writeAll, Wire.write, writeInt_u8, ih]
    rfl

theorem ok_bytes {L : Lang} {Γ : Env} {v : Dyn} {b : Bytes} (hv : L.bytes v = some b) (hl : b.length < 2 ^ 31) :
    Ok L Γ (.seq (.int .u8)) v (beBytes 4 b.length ++ b) := by
  refine ⟨.seq (b.map fun b => .int b.toNat), ?_, ?_⟩
  · simp only [Means, if_pos]; exact ⟨b, hv, rfl⟩
  · have : writeLen b.length = some (beBytes 4 b.length) := by simp [writeLen, hl]
    simp only [Wire.write, List.length_map, this, writeAll_bytes, Option.bind_some, Option.map_some]

/-- `is_X()` holds for at most one name. -/
theorem isVariant_unique {v : Dyn} {x y : String} (hx : v.isVariant x = some true) (hy : v.isVariant y = some true) :
    x = y := by
  cases v <;> simp [Dyn.isVariant] at hx hy
  have := hx.2.symm.trans hy.2
  simpa using this

theorem wire_record {Γ : Env} {n : String} {fs} (h : Γ n = some (.record fs)) :
    Γ.wire n = some (.record (fs.map Prod.snd)) := by simp [Env.wire, h, Def.wire]
theorem wire_flat {Γ : Env} {n : String} {ds} (h : Γ n = some (.flat ds)) :
    Γ.wire n = some (.enum (ds.map fun _ => [])) := by simp [Env.wire, h, Def.wire]
theorem wire_enum {Γ : Env} {n : String} {vs} (h : Γ n = some (.enum vs)) :
    Γ.wire n = some (.enum (vs.map fun v => v.2.map Prod.snd)) := by simp [Env.wire, h, Def.wire]

theorem write_flat {Γ : Env} {n : String} {ds : List Int} {i : Nat} (h : Γ n = some (.flat ds)) (hi : i < ds.length) :
    Wire.write Γ.wire (.named n) (.variant i []) = writeLen (i + 1) := by
  simp only [Wire.write, wire_flat h, List.getElem?_map, List.getElem?_eq_getElem hi, Option.map_some, writeFields,
    List.append_nil, Option.bind_some, Option.map_id']
  cases writeLen (i + 1) <;> rfl

theorem write_enum {Γ : Env} {n : String} {vs : List (String × List (String × Ty))} {i : Nat} {x fs ws b}
    (h : Γ n = some (.enum vs)) (hi : vs[i]? = some (x, fs)) (hl : i + 1 < 2 ^ 31)
    (hw : writeFields Γ.wire (fs.map Prod.snd) ws = some b) :
    Wire.write Γ.wire (.named n) (.variant i ws) = some (beBytes 4 (i + 1) ++ b) := by
  simp [Wire.write, wire_enum h, List.getElem?_map, hi, writeLen, hl, hw]

/-- The general form of the `if`s for the variants: one piece per variant, of which only that of the variant the
value is can be written. -/
theorem variants_none {vs : List (String × List (String × Ty))} {W : Nat → List (String × List (String × Ty)) → Option Bytes}
    {v : Dyn} {c : Nat → List (String × Ty) → Option Bytes}
    (h0 : ∀ k, W k [] = some [])
    (h1 : ∀ k x fs vs, W k ((x, fs) :: vs) = (v.isVariant x).bind fun is =>
      (if is then c k fs else some []).bind fun b => (W (k + 1) vs).map (b ++ ·))
    {k : Nat} {bs : Bytes} (h : W k vs = some bs) (hno : ∀ p ∈ vs, v.isVariant p.1 ≠ some true) : bs = [] := by
  induction vs generalizing k bs with
  | nil => rw [h0] at h; simpa using h.symm
  | cons p vs ih =>
    obtain ⟨x, fs⟩ := p
    rw [h1] at h
    simp only [Option.bind_eq_some_iff, Option.map_eq_some_iff] at h
    obtain ⟨is, hi, b, hb, d, hd, rfl⟩ := h
    have : is = false := by
      cases is
      · rfl
      · exact absurd hi (hno (x, fs) (by simp))
    subst this
    simp at hb
    subst hb
    simpa using ih hd (fun p hp => hno p (by simp [hp]))

theorem variants_some {vs : List (String × List (String × Ty))} {W : Nat → List (String × List (String × Ty)) → Option Bytes}
    {v : Dyn} {c : Nat → List (String × Ty) → Option Bytes}
    (h0 : ∀ k, W k [] = some [])
    (h1 : ∀ k x fs vs, W k ((x, fs) :: vs) = (v.isVariant x).bind fun is =>
      (if is then c k fs else some []).bind fun b => (W (k + 1) vs).map (b ++ ·))
    (hd : (vs.map Prod.fst).Nodup) {k : Nat} {bs : Bytes} (h : W k vs = some bs)
    (hyes : ∃ p ∈ vs, v.isVariant p.1 = some true) :
    ∃ i x fs, vs[i]? = some (x, fs) ∧ v.isVariant x = some true ∧ c (k + i) fs = some bs := by
  induction vs generalizing k bs with
  | nil => simp at hyes
  | cons p vs ih =>
    obtain ⟨x, fs⟩ := p
    have hW := h
    rw [h1] at h
    simp only [Option.bind_eq_some_iff, Option.map_eq_some_iff] at h
    obtain ⟨is, hi, b, hb, d, hdd, rfl⟩ := h
    simp only [List.map_cons, List.nodup_cons] at hd
    cases is with
    | true =>
      have hn := variants_none h0 h1 hdd (fun q hq hq' => hd.1 (by
        rw [isVariant_unique hi hq']; exact List.mem_map_of_mem hq))
      subst hn
      refine ⟨0, x, fs, rfl, hi, ?_⟩
      simpa using hb
    | false =>
      simp at hb
      subst hb
      obtain ⟨q, hq, hq'⟩ := hyes
      have hq2 : q ∈ vs := by
        rcases List.mem_cons.1 hq with rfl | h
        · rw [hq'] at hi; simp at hi
        · exact h
      obtain ⟨i, y, gs, h3, h4, h5⟩ := ih hd.2 hdd ⟨q, hq2, hq'⟩
      refine ⟨i + 1, y, gs, by simpa using h3, h4, ?_⟩
      have : k + (i + 1) = k + 1 + i := by omega
      rw [this]
      simpa using h5

end Verif.Dyn
