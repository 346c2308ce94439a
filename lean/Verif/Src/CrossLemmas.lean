import Verif.Src.CrossSpec
namespace Verif.Src
open Verif.Meta

variable {self : Option RTy}

theorem crosses_meta (hs : self ≠ some .u8) {t r} (h : Crosses self t r) :
    t.toMeta (self.map RTy.toMeta) = .ok r.toMeta := by
  induction h with
  | self h => subst h; rfl
  | arcSelf h => subst h; rfl
  | option _ ih => simp only [STy.toMeta, ih, RTy.toMeta]; rfl
  | @vec t r h ih =>
    by_cases ht : t = .uint8
    · subst ht; cases h; rfl
    · have hr : r ≠ .u8 := by
        rintro rfl
        cases h with
        | u8 => exact ht rfl
        | self h => exact hs h
        | arcSelf h => exact hs h
      have h1 : (STy.vec t).toMeta (self.map RTy.toMeta) = (do .ok (.sequence (← t.toMeta (self.map RTy.toMeta)))) := by
        cases t <;> first | rfl | exact absurd rfl ht
      have h2 : (RTy.vec r).toMeta = .sequence r.toMeta := by
        cases r <;> first | rfl | exact absurd rfl hr
      rw [h1, h2, ih]; rfl
  | @box t r h ih =>
    have h1 : (STy.box t).toMeta (self.map RTy.toMeta) = (do .ok (.box (← t.toMeta (self.map RTy.toMeta)))) := by
      cases h <;> rfl
    rw [h1, ih]; rfl
  | hashMap _ _ ih1 ih2 => simp only [STy.toMeta, ih1, ih2, RTy.toMeta]; rfl
  | hashSet _ ih => simp only [STy.toMeta, ih, RTy.toMeta]; rfl
  | custom _ ih => simp only [STy.toMeta, ih, RTy.toMeta]; rfl
  | _ => rfl

theorem bind_ok {α β : Type} {r : Res α} {f : α → Res β} {b} (h : (r >>= f) = .ok b) : ∃ a, r = .ok a ∧ f a = .ok b := by
  cases r with
  | ok a => exact ⟨a, rfl, h⟩
  | error e => exact nomatch h

theorem selfMeta_ok {m} (h : selfMeta (self.map RTy.toMeta) = .ok m) : ∃ r, self = some r ∧ m = r.toMeta := by
  cases self with
  | none => exact nomatch h
  | some r => cases h; exact ⟨r, rfl, rfl⟩

theorem meta_crosses (t : STy) : t.noUdl = true → ∀ {m}, t.toMeta (self.map RTy.toMeta) = .ok m → ∃ r, Crosses self t r := by
  induction t with
  | option t ih | hashSet t ih | custom _ _ t ih =>
    intro hn m h
    simp only [STy.toMeta] at h
    obtain ⟨a, ha, _⟩ := bind_ok h
    obtain ⟨r, hr⟩ := ih hn ha
    exact ⟨_, by constructor; exact hr⟩
  | vec t ih =>
    intro hn m h
    by_cases ht : t = .uint8
    · subst ht; exact ⟨_, .vec .u8⟩
    · have h1 : (STy.vec t).toMeta (self.map RTy.toMeta) = (do .ok (.sequence (← t.toMeta (self.map RTy.toMeta)))) := by
        cases t <;> first | rfl | exact absurd rfl ht
      rw [h1] at h
      obtain ⟨a, ha, _⟩ := bind_ok h
      obtain ⟨r, hr⟩ := ih hn ha
      exact ⟨_, .vec hr⟩
  | hashMap k v ih1 ih2 =>
    intro hn m h
    rw [STy.noUdl, Bool.and_eq_true] at hn
    simp only [STy.toMeta] at h
    obtain ⟨a, ha, h⟩ := bind_ok h
    obtain ⟨b, hb, _⟩ := bind_ok h
    obtain ⟨r, hr⟩ := ih1 hn.1 ha
    obtain ⟨s, hs⟩ := ih2 hn.2 hb
    exact ⟨_, .hashMap hr hs⟩
  | arc t _ =>
    intro hn m h
    cases t with
    | object m n => exact ⟨_, .arcObject⟩
    | trait m n e =>
      cases e with
      | traitInterface => exact ⟨_, .arcTrait⟩
      | callbackInterface => exact nomatch h
    | selfTy =>
      obtain ⟨r, hr, _⟩ := selfMeta_ok h
      exact ⟨r, .arcSelf hr⟩
    | udl => exact nomatch hn
    | _ => exact nomatch h
  | box t ih =>
    intro hn m h
    by_cases ht : ∃ m n, t = .trait m n .callbackInterface
    · obtain ⟨m, n, rfl⟩ := ht; exact ⟨_, .boxTrait⟩
    · have h1 : (STy.box t).toMeta (self.map RTy.toMeta) = (do .ok (.box (← t.toMeta (self.map RTy.toMeta)))) := by
        cases t with
        | trait m n e => cases e <;> first | rfl | exact absurd ⟨m, n, rfl⟩ ht
        | udl => exact nomatch hn
        | _ => rfl
      rw [h1] at h
      obtain ⟨a, ha, _⟩ := bind_ok h
      obtain ⟨r, hr⟩ := ih hn ha
      exact ⟨_, .box hr⟩
  | selfTy =>
    intro _ m h
    obtain ⟨r, hr, _⟩ := selfMeta_ok h
    exact ⟨r, .self hr⟩
  | udl => intro hn; exact nomatch hn
  | unit | str | trait | slice | result | ref | unexpectedCallbackError => intro _ m h; exact nomatch h
  | _ => intros; exact ⟨_, by constructor⟩

theorem vec_meta (hs : self ≠ some .u8) {t r} (h : Crosses self t r) (ht : t ≠ .uint8) :
    (STy.vec t).toMeta (self.map RTy.toMeta) = .ok (RTy.vec r).toMeta ∧ ((RTy.vec r).toMeta == .bytes) = false := by
  refine ⟨crosses_meta hs (.vec h), ?_⟩
  have hr : r ≠ .u8 := by
    rintro rfl
    cases h with
    | u8 => exact ht rfl
    | self h => exact hs h
    | arcSelf h => exact hs h
  cases r <;> first | rfl | exact absurd rfl hr

theorem crosses_not_ref {t r} (h : Crosses self t r) : ∀ mu u, t ≠ .ref mu u := by
  rintro mu u rfl; cases h

theorem arg_meta (hs : self ≠ some .u8) {t r by'} (h : ArgCrosses self t r by') :
    argMeta (self.map RTy.toMeta) t = .ok (r.toMeta, by') := by
  cases h with
  | value h =>
    have := crosses_meta hs h
    have h1 : argMeta (self.map RTy.toMeta) t = (do .ok (← t.toMeta (self.map RTy.toMeta), .value)) := by
      cases h <;> rfl
    rw [h1, this]; rfl
  | @ref mu t _ h =>
    have := crosses_meta hs h
    have h1 : argMeta (self.map RTy.toMeta) (.ref mu t) = (do .ok (← t.toMeta (self.map RTy.toMeta), .ref)) := by
      cases h <;> rfl
    rw [h1, this]; rfl
  | @slice mu t r ht h =>
    obtain ⟨h1, h2⟩ := vec_meta hs h ht
    rw [argMeta, h1]
    simp only [bind, Except.bind, h2, Bool.and_false]
    rfl
  | _ => rfl

theorem meta_arg {t : STy} (hn : t.noUdl = true) {m by'} (h : argMeta (self.map RTy.toMeta) t = .ok (m, by')) :
    ∃ r by'', ArgCrosses self t r by'' := by
  by_cases hr : ∃ mu u, t = .ref mu u
  · obtain ⟨mu, u, rfl⟩ := hr
    have main : ∀ {u : STy}, u.noUdl = true →
        (do .ok ((← u.toMeta (self.map RTy.toMeta)), PassBy.ref) : Res (MTy × PassBy)) = .ok (m, by') →
        ∃ r by'', ArgCrosses self (.ref mu u) r by'' := by
      intro u hn h
      obtain ⟨a, ha, _⟩ := bind_ok h
      obtain ⟨r, hr⟩ := meta_crosses u hn ha
      exact ⟨_, _, .ref hr⟩
    cases u with
    | str => exact ⟨_, _, .str⟩
    | trait m n e =>
      cases e with
      | traitInterface => exact ⟨_, _, .trait⟩
      | callbackInterface => exact ⟨_, _, .callback⟩
    | slice t =>
      by_cases ht : t = .uint8
      · subst ht
        cases mu
        · exact ⟨_, _, .bytes⟩
        · exact ⟨_, _, .mutBytes⟩
      · rw [argMeta] at h
        obtain ⟨a, ha, _⟩ := bind_ok h
        obtain ⟨r, hr⟩ := meta_crosses (STy.vec t) hn ha
        cases hr with
        | vec hr => exact ⟨_, _, .slice ht hr⟩
    | _ => exact main hn h
  · have h1 : argMeta (self.map RTy.toMeta) t = (do .ok (← t.toMeta (self.map RTy.toMeta), .value)) := by
      cases t <;> first | rfl | exact absurd ⟨_, _, rfl⟩ hr
    rw [h1] at h
    obtain ⟨a, ha, _⟩ := bind_ok h
    obtain ⟨r, hr⟩ := meta_crosses t hn ha
    exact ⟨_, _, .value hr⟩

theorem return_meta (hs : self ≠ some .u8) {t r} (h : RetCrosses self t r) :
    returnMeta (self.map RTy.toMeta) t = .ok (r.returns, r.throws) := by
  cases h with
  | unit => rfl
  | value h =>
    have := crosses_meta hs h
    have h1 : returnMeta (self.map RTy.toMeta) t = (do .ok (some (← t.toMeta (self.map RTy.toMeta)), none)) := by
      cases h <;> rfl
    rw [h1, this]; rfl
  | resultUnit h => simp only [returnMeta, crosses_meta hs h]; rfl
  | @result t r e re h1 h2 =>
    have h3 : returnMeta (self.map RTy.toMeta) (.result t e) =
        (do let ok ← t.toMeta (self.map RTy.toMeta); .ok (some ok, some (← e.toMeta (self.map RTy.toMeta)))) := by
      cases h1 <;> rfl
    rw [h3, crosses_meta hs h1, crosses_meta hs h2]; rfl

theorem meta_return {t : STy} (hn : t.noUdl = true) {m} (h : returnMeta (self.map RTy.toMeta) t = .ok m) :
    ∃ r, RetCrosses self t r := by
  cases t with
  | unit => exact ⟨_, .unit⟩
  | ref => exact nomatch h
  | result t e =>
    rw [STy.noUdl, Bool.and_eq_true] at hn
    by_cases ht : t = .unit
    · subst ht
      rw [returnMeta] at h
      obtain ⟨a, ha, _⟩ := bind_ok h
      obtain ⟨r, hr⟩ := meta_crosses e hn.2 ha
      exact ⟨_, .resultUnit hr⟩
    · have h3 : returnMeta (self.map RTy.toMeta) (.result t e) =
          (do let ok ← t.toMeta (self.map RTy.toMeta); .ok (some ok, some (← e.toMeta (self.map RTy.toMeta)))) := by
        cases t <;> first | rfl | exact absurd rfl ht
      rw [h3] at h
      obtain ⟨a, ha, h⟩ := bind_ok h
      obtain ⟨b, hb, _⟩ := bind_ok h
      obtain ⟨r, hr⟩ := meta_crosses t hn.1 ha
      obtain ⟨s, hs⟩ := meta_crosses e hn.2 hb
      exact ⟨_, .result hr hs⟩
  | _ =>
    rw [returnMeta] at h
    · obtain ⟨a, ha, _⟩ := bind_ok h
      obtain ⟨r, hr⟩ := meta_crosses _ hn ha
      exact ⟨_, .value hr⟩
    all_goals nofun

end Verif.Src
