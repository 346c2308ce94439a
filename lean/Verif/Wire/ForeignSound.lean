import Verif.Wire.ForeignLeaf2
/-
Whatever the foreign code manages to write is the encoding of the Rust value it stands for.
-/
namespace Verif.Wire
open Verif

/-- Every builtin value is the lowered form of some custom value (so that the foreign side cannot
make up a custom value that Rust does not know). Numbers whose lowered form is not of the builtin
type stand for nothing (`HasTy`), so finite builtin types can be covered too. -/
def CustomOnto (env : Env) : Prop :=
  ∀ n t lo li, env n = some (.custom t lo li) → ∀ low, HasTy env t low → ∃ id, lo id = low

/-- What the pieces of a language must satisfy for its writers to send only encodings. -/
structure WritesSound (L : Lang) (env : Env) (Q : Val → Prop) : Prop where
  leaf : ∀ t p bs, t.isLeaf = true → Q p → L.writeLeaf t p = some bs →
    ∃ v, HasTy env t v ∧ repr L v = p ∧ write env t v = some bs ∧ v.depth ≤ 2 ∧ v.All TimeKept
  seq : ∀ vs p, Q (.seq vs) → L.writeCount vs.length = some p → writeLen vs.length = some p
  set : ∀ vs p, Q (.set vs) → L.writeCount vs.length = some p → writeLen vs.length = some p
  map : ∀ es p, Q (.map es) → L.writeCount es.length = some p → writeLen es.length = some p
  variant : ∀ i fs p, Q (.variant i fs) → L.writeVariant (i + 1) = some p →
    writeLen (i + 1) = some p
  none : L.leaf .none = .none
  keys : ∀ es, Q (.map es) → (es.map Prod.fst).Nodup
  elems : ∀ vs, Q (.set vs) → vs.Nodup

theorem reprAll_eq_map (L : Lang) (vs : List Val) : reprAll L vs = vs.map (repr L) := by
  induction vs with
  | nil => rfl
  | cons v vs ih => simp [reprAll, ih]

theorem reprPairs_fst (L : Lang) (es : List (Val × Val)) :
    (reprPairs L es).map Prod.fst = (es.map Prod.fst).map (repr L) := by
  induction es with
  | nil => rfl
  | cons e es ih => obtain ⟨k, v⟩ := e; simp [reprPairs, ih]

section
variable {L : Lang} {env : Env} {Q : Val → Prop}

theorem fwriteAll_sound {f : Val → Option Bytes} {t : Ty} {d : Nat}
    (hf : ∀ p bs, p.All Q → f p = some bs →
      ∃ v, HasTy env t v ∧ repr L v = p ∧ write env t v = some bs ∧ v.depth ≤ d ∧
        v.All TimeKept) :
    ∀ (ps : List Val) (bs : Bytes), Val.AllList Q ps → fwriteAll f ps = some bs →
      ∃ vs, HasTyAll env t vs ∧ reprAll L vs = ps ∧ writeAll env t vs = some bs ∧
        Val.depthList vs ≤ d ∧ Val.AllList TimeKept vs
  | [], bs, _, h => by
    simp [fwriteAll] at h; subst h
    exact ⟨[], by simp [HasTyAll], rfl, by simp [writeAll], by simp [Val.depthList],
      by simp [Val.AllList]⟩
  | p :: ps, bs, hq, h => by
    simp only [fwriteAll, Option.bind_eq_some_iff, Option.map_eq_some_iff] at h
    obtain ⟨a, ha, b, hb, rfl⟩ := h
    simp only [Val.AllList] at hq
    obtain ⟨v, h1, h2, h3, h4, h5⟩ := hf p a hq.1 ha
    obtain ⟨vs, g1, g2, g3, g4, g5⟩ := fwriteAll_sound hf ps b hq.2 hb
    exact ⟨v :: vs, by simp [HasTyAll, h1, g1], by simp [reprAll, h2, g2],
      by simp [writeAll, h3, g3], by simp only [Val.depthList]; omega,
      by simp [Val.AllList, h5, g5]⟩

theorem fwritePairs_sound {f g : Val → Option Bytes} {t u : Ty} {d : Nat}
    (hf : ∀ p bs, p.All Q → f p = some bs →
      ∃ v, HasTy env t v ∧ repr L v = p ∧ write env t v = some bs ∧ v.depth ≤ d ∧
        v.All TimeKept)
    (hg : ∀ p bs, p.All Q → g p = some bs →
      ∃ v, HasTy env u v ∧ repr L v = p ∧ write env u v = some bs ∧ v.depth ≤ d ∧
        v.All TimeKept) :
    ∀ (ps : List (Val × Val)) (bs : Bytes), Val.AllPairs Q ps → fwritePairs f g ps = some bs →
      ∃ es, HasTyPairs env t u es ∧ reprPairs L es = ps ∧ writePairs env t u es = some bs ∧
        Val.depthPairs es ≤ d ∧ Val.AllPairs TimeKept es
  | [], bs, _, h => by
    simp [fwritePairs] at h; subst h
    exact ⟨[], by simp [HasTyPairs], rfl, by simp [writePairs], by simp [Val.depthPairs],
      by simp [Val.AllPairs]⟩
  | (k, p) :: ps, bs, hq, h => by
    simp only [fwritePairs, Option.bind_eq_some_iff, Option.map_eq_some_iff] at h
    obtain ⟨a, ha, b, hb, c, hc, rfl⟩ := h
    simp only [Val.AllPairs] at hq
    obtain ⟨w, i1, i2, i3, i4, i5⟩ := hf k a hq.1 ha
    obtain ⟨v, h1, h2, h3, h4, h5⟩ := hg p b hq.2.1 hb
    obtain ⟨vs, g1, g2, g3, g4, g5⟩ := fwritePairs_sound hf hg ps c hq.2.2 hc
    exact ⟨(w, v) :: vs, by simp [HasTyPairs, h1, g1, i1], by simp [reprPairs, h2, g2, i2],
      by simp [writePairs, h3, g3, i3], by simp only [Val.depthPairs]; omega,
      by simp [Val.AllPairs, h5, g5, i5]⟩

theorem fwriteFields_sound {f : Ty → Val → Option Bytes} {d : Nat}
    (hf : ∀ t p bs, p.All Q → f t p = some bs →
      ∃ v, HasTy env t v ∧ repr L v = p ∧ write env t v = some bs ∧ v.depth ≤ d ∧
        v.All TimeKept) :
    ∀ (ts : List Ty) (ps : List Val) (bs : Bytes), Val.AllList Q ps →
      fwriteFields f ts ps = some bs →
      ∃ vs, HasTyFields env ts vs ∧ reprAll L vs = ps ∧ writeFields env ts vs = some bs ∧
        Val.depthList vs ≤ d ∧ Val.AllList TimeKept vs
  | [], [], bs, _, h => by
    simp [fwriteFields] at h; subst h
    exact ⟨[], by simp [HasTyFields], rfl, by simp [writeFields], by simp [Val.depthList],
      by simp [Val.AllList]⟩
  | [], _ :: _, bs, _, h => by simp [fwriteFields] at h
  | _ :: _, [], bs, _, h => by simp [fwriteFields] at h
  | t :: ts, p :: ps, bs, hq, h => by
    simp only [fwriteFields, Option.bind_eq_some_iff, Option.map_eq_some_iff] at h
    obtain ⟨a, ha, b, hb, rfl⟩ := h
    simp only [Val.AllList] at hq
    obtain ⟨v, h1, h2, h3, h4, h5⟩ := hf t p a hq.1 ha
    obtain ⟨vs, g1, g2, g3, g4, g5⟩ := fwriteFields_sound hf ts ps b hq.2 hb
    exact ⟨v :: vs, by simp [HasTyFields, h1, g1], by simp [reprAll, h2, g2],
      by simp [writeFields, h3, g3], by simp only [Val.depthList]; omega,
      by simp [Val.AllList, h5, g5]⟩

theorem Val.All.here {q : Val → Prop} {v : Val} (h : v.All q) : q v := by
  cases v <;> simp only [Val.All] at h <;> first | exact h | exact h.1

theorem fwrite_sound (hL : WritesSound L env Q) (hc : CustomOnto env) :
    ∀ (fuel : Nat) (t : Ty) (p : Val) (bs : Bytes), p.All Q → fwrite L env fuel t p = some bs →
      ∃ v, HasTy env t v ∧ repr L v = p ∧ write env t v = some bs ∧ v.depth ≤ fuel + 1 ∧
        v.All TimeKept
  | 0, t, p, bs, _, h => by simp [fwrite] at h
  | fuel + 1, t, p, bs, hq, h => by
    have ih := fwrite_sound hL hc fuel
    unfold fwrite at h
    by_cases hl : t.isLeaf = true
    · rw [if_pos hl] at h
      obtain ⟨v, h1, h2, h3, h4, h5⟩ := hL.leaf t p bs hl hq.here h
      exact ⟨v, h1, h2, h3, by omega, h5⟩
    rw [if_neg hl] at h
    cases t with
    | int | f32 | f64 | bool | string | timestamp | duration | handle => simp [Ty.isLeaf] at hl
    | option t =>
      simp only at h
      by_cases hp : p = .none
      · rw [if_pos hp] at h
        subst hp
        simp only [Option.some.injEq] at h
        exact ⟨.none, by simp [HasTy], by simp [repr, hL.none], by simp [write, h],
          by simp [Val.depth], by simp [Val.All, TimeKept]⟩
      rw [if_neg hp] at h
      by_cases hn : L.nullable = true
      · rw [if_pos hn, Option.map_eq_some_iff] at h
        obtain ⟨b, hb, rfl⟩ := h
        obtain ⟨v, h1, h2, h3, h4, h5⟩ := ih t p b hq hb
        exact ⟨.some v, by simp [HasTy, h1], by simp [repr, hn, h2], by simp [write, h3],
          by simp [Val.depth, h4],
          by simp [Val.All, TimeKept, h5]⟩
      · rw [if_neg hn] at h
        cases p <;> simp only [Option.map_eq_some_iff] at h <;> try cases h
        rename_i w b hb
        obtain ⟨hb, rfl⟩ := hb
        simp only [Val.All] at hq
        obtain ⟨v, h1, h2, h3, h4, h5⟩ := ih t w b hq.2 hb
        exact ⟨.some v, by simp [HasTy, h1], by simp [repr, hn, h2], by simp [write, h3],
          by simp [Val.depth, h4],
          by simp [Val.All, TimeKept, h5]⟩
    | seq t =>
      cases p <;> simp only [Option.bind_eq_some_iff, Option.map_eq_some_iff] at h <;> try cases h
      rename_i vs c hcd
      obtain ⟨hc1, b, hb, rfl⟩ := hcd
      have hq' := hq
      simp only [Val.All] at hq'
      obtain ⟨us, h1, h2, h3, h4, h5⟩ := fwriteAll_sound (ih t) vs b hq'.2 hb
      have hlen := hL.seq _ _ hq.here hc1
      refine ⟨.seq us, by simp [HasTy, h1], by simp [repr, h2], ?_, by simp [Val.depth, h4],
          by simp [Val.All, TimeKept, h5]⟩
      rw [← h2, length_reprAll] at hlen
      simp [write, h3, hlen]
    | set t =>
      cases p <;> simp only [Option.bind_eq_some_iff, Option.map_eq_some_iff] at h <;> try cases h
      rename_i vs c hcd
      obtain ⟨hc1, b, hb, rfl⟩ := hcd
      have hq' := hq
      simp only [Val.All] at hq'
      obtain ⟨us, h1, h2, h3, h4, h5⟩ := fwriteAll_sound (ih t) vs b hq'.2 hb
      have hlen := hL.set _ _ hq.here hc1
      have hnd := hL.elems _ hq.here
      rw [← h2, reprAll_eq_map] at hnd
      refine ⟨.set us, ?_, by simp [repr, h2], ?_, by simp [Val.depth, h4],
          by simp [Val.All, TimeKept, h5]⟩
      · simp only [HasTy]; exact ⟨h1, List.Pairwise.of_map _ (fun a b h e => h (by rw [e])) hnd⟩
      · rw [← h2, length_reprAll] at hlen
        simp [write, h3, hlen]
    | map t u =>
      cases p <;> simp only [Option.bind_eq_some_iff, Option.map_eq_some_iff] at h <;> try cases h
      rename_i vs c hcd
      obtain ⟨hc1, b, hb, rfl⟩ := hcd
      have hq' := hq
      simp only [Val.All] at hq'
      obtain ⟨us, h1, h2, h3, h4, h5⟩ := fwritePairs_sound (ih t) (ih u) vs b hq'.2 hb
      have hlen := hL.map _ _ hq.here hc1
      have hnd := hL.keys _ hq.here
      rw [← h2, reprPairs_fst] at hnd
      refine ⟨.map us, ?_, by simp [repr, h2], ?_, by simp [Val.depth, h4],
          by simp [Val.All, TimeKept, h5]⟩
      · simp only [HasTy]; exact ⟨h1, List.Pairwise.of_map _ (fun a b h e => h (by rw [e])) hnd⟩
      · rw [← h2, length_reprPairs] at hlen
        simp [write, h3, hlen]
    | box t =>
      simp only at h
      obtain ⟨v, h1, h2, h3, h4, h5⟩ := ih t p bs hq h
      exact ⟨.box v, by simp [HasTy, h1], by simp [repr, h2], by simp [write, h3],
        by simp [Val.depth, h4],
          by simp [Val.All, TimeKept, h5]⟩
    | named n =>
      simp only at h
      cases he : env n with
      | none => simp [he] at h
      | some d =>
        cases d with
        | custom t lo li =>
          simp only [he] at h
          obtain ⟨v, h1, h2, h3, h4, h5⟩ := ih t p bs hq h
          obtain ⟨id, hid⟩ := hc n t lo li he v h1
          refine ⟨.custom id v, ?_, by simp [repr, h2], by simp [write, he, h3],
            by simp [Val.depth, h4],
          by simp [Val.All, TimeKept, h5]⟩
          simp only [HasTy]
          exact ⟨t, lo, li, he, hid, h1⟩
        | record ts =>
          cases p <;> simp only [he] at h <;> try cases h
          rename_i fs
          simp only [Val.All] at hq
          obtain ⟨us, h1, h2, h3, h4, h5⟩ := fwriteFields_sound ih ts fs bs hq.2 h
          refine ⟨.record us, ?_, by simp [repr, h2], by simp [write, he, h3],
            by simp [Val.depth, h4],
          by simp [Val.All, TimeKept, h5]⟩
          simp only [HasTy]
          exact ⟨ts, he, h1⟩
        | enum vs =>
          cases p <;> simp only [he] at h <;> try cases h
          rename_i i fs
          cases hi : vs[i]? with
          | none => simp [hi] at h
          | some ts =>
            simp only [hi, Option.bind_eq_some_iff, Option.map_eq_some_iff] at h
            obtain ⟨c, hc1, b, hb, rfl⟩ := h
            have hlen := hL.variant _ _ _ hq.here hc1
            simp only [Val.All] at hq
            obtain ⟨us, h1, h2, h3, h4, h5⟩ := fwriteFields_sound ih ts fs b hq.2 hb
            refine ⟨.variant i us, ?_, by simp [repr, h2], by simp [write, he, hi, h3, hlen],
              by simp [Val.depth, h4],
          by simp [Val.All, TimeKept, h5]⟩
            simp only [HasTy]
            exact ⟨vs, ts, he, hi, h1⟩
end
end Verif.Wire
