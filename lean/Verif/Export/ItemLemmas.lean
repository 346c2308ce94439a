import Verif.Export.FnLemmas

/-!
# Attributes, signatures and items: lemmas
-/

namespace Verif.Export

open Spec

/-! ### Attributes of a method -/

theorem bodyArgs_eq (m : Meta) : bodyArgs m.body = FnArgs.parse (argumentsOf m) := by
  unfold bodyArgs argumentsOf
  cases m.body <;> rfl

theorem foldlM_append {α β : Type} {f : β → α → Except Err β} {b : β} {l m : List α} :
    (l ++ m).foldlM f b = l.foldlM f b >>= fun b' => m.foldlM f b' := by
  rw [List.foldlM_append]

theorem processPath_other {this : FnAttributes} {m : Meta} (h : m.path.head? ≠ some "uniffi") :
    processPath this m = .ok this := by
  unfold processPath
  rw [if_neg h]

theorem fold_filter (l : List Meta) (this : FnAttributes) :
    l.foldlM processPath this =
      (l.filter (fun m => m.path.head? = some "uniffi")).foldlM processPath this := by
  induction l generalizing this with
  | nil => rfl
  | cons m l ih =>
    by_cases h : m.path.head? = some "uniffi"
    · rw [List.filter_cons_of_pos (by simpa using h), List.foldlM_cons, List.foldlM_cons]
      congr 1
      funext b
      exact ih b
    · rw [List.filter_cons_of_neg (by simpa using h), List.foldlM_cons, processPath_other h]
      exact ih this

theorem processAttribute_plain (this : FnAttributes) (m : Meta) :
    processAttribute this (.plain m) = processPath this m := by
  unfold processAttribute
  dsimp only
  split
  · rfl
  · rename_i h
    exact (processPath_other h).symm

theorem parse_flat (l : List Attribute) (this : FnAttributes) :
    l.foldlM processAttribute this = (lookedAt l).foldlM processPath this := by
  induction l generalizing this with
  | nil => rfl
  | cons a l ih =>
    rw [List.foldlM_cons]
    cases a with
    | plain m =>
      rw [processAttribute_plain, lookedAt, List.foldlM_cons]
      congr 1
      funext b
      exact ih b
    | cfgAttr n =>
      cases n with
      | none => exact ih this
      | some ms =>
        rw [lookedAt, foldlM_append]
        simp only [processAttribute]
        congr 1
        funext b
        exact ih b

theorem FnAttributes.parse_eq (l : List Attribute) :
    FnAttributes.parse l = (uniffiOnes l).foldlM processPath {} := by
  unfold FnAttributes.parse uniffiOnes
  rw [parse_flat, fold_filter]

theorem processPath_ok {this r : FnAttributes} {m : Meta} (h : m.path.head? = some "uniffi") :
    processPath this m = .ok r ↔ this.constructor_ = false ∧
      ((m.path = ["uniffi", "constructor"] ∧ r.constructor_ = true) ∨
        (m.path = ["uniffi", "method"] ∧ r.constructor_ = false)) ∧
      FnArgs.parse (argumentsOf m) = .ok r.args := by
  unfold processPath
  rw [if_pos h, bodyArgs_eq, bind_ok]
  obtain ⟨rc, ra⟩ := r
  obtain ⟨tc, ta⟩ := this
  obtain ⟨path, body⟩ := m
  simp only at h ⊢
  match path, h with
  | [], h => simp at h
  | [x], _ => simp
  | [x, y], h =>
    simp only [List.head?_cons, Option.some.injEq] at h
    subst h
    simp only [List.cons.injEq, and_true, true_and]
    by_cases h1 : y = "constructor"
    · subst h1
      cases tc
      · simp
        constructor
        · rintro ⟨ha, rfl⟩; exact ⟨rfl, ha⟩
        · rintro ⟨rfl, ha⟩; exact ⟨ha, rfl⟩
      · simp
    · by_cases h2 : y = "method"
      · subst h2
        cases tc
        · simp
          constructor
          · rintro ⟨ha, rfl⟩; exact ⟨rfl, ha⟩
          · rintro ⟨rfl, ha⟩; exact ⟨ha, rfl⟩
        · simp
      · simp [h1, h2]
  | x :: y :: z :: t, _ => simp

theorem fold_attrs {ms : List Meta} {this r : FnAttributes} (hu : ∀ m ∈ ms, m.path.head? = some "uniffi")
    (hne : ms ≠ []) : ms.foldlM processPath this = .ok r ↔
      this.constructor_ = false ∧
      (∀ m ∈ ms, m.path = ["uniffi", "method"] ∨ m.path = ["uniffi", "constructor"]) ∧
      (∀ m ∈ ms, FnArguments (argumentsOf m)) ∧
      (∀ m ∈ ms.dropLast, m.path = ["uniffi", "method"]) ∧
      (r.constructor_ = true ↔ ∃ m ∈ ms, m.path = ["uniffi", "constructor"]) ∧
      FnArgs.parse (argumentsOf (ms.getLast hne)) = .ok r.args := by
  have hne' : (["uniffi", "method"] : List String) ≠ ["uniffi", "constructor"] := by decide
  induction ms generalizing this with
  | nil => exact absurd rfl hne
  | cons m ms ih =>
    rw [foldlM_cons_ok]
    cases ms with
    | nil =>
      simp only [foldlM_nil_ok]
      constructor
      · rintro ⟨b, hb, rfl⟩
        rw [processPath_ok (hu m (by simp))] at hb
        obtain ⟨h1, h2, h3⟩ := hb
        refine ⟨h1, ?_, ?_, by simp, ?_, by simpa using h3⟩
        · simp; rcases h2 with h2 | h2
          · exact .inr h2.1
          · exact .inl h2.1
        · simp; exact FnArgs.parse_accepts.1 ⟨_, h3⟩
        · simp; rcases h2 with h2 | h2
          · simp [h2.1, h2.2]
          · simp [h2.1, h2.2]
      · rintro ⟨h1, h2, h3, _, h5, h6⟩
        refine ⟨r, (processPath_ok (hu m (by simp))).2 ⟨h1, ?_, by simpa using h6⟩, rfl⟩
        simp at h2 h5
        rcases h2 with h2 | h2
        · right; refine ⟨h2, ?_⟩
          rw [h2] at h5; simpa using h5
        · left; exact ⟨h2, h5.2 h2⟩
    | cons m2 ms =>
      have ih' := fun this => ih (this := this) (fun x hx => hu x (by simp [hx])) (by simp)
      have hlast : (m :: m2 :: ms).getLast hne = (m2 :: ms).getLast (by simp) := by simp
      rw [hlast]
      constructor
      · rintro ⟨b, hb, hr⟩
        rw [processPath_ok (hu m (by simp))] at hb
        have hr := (ih' _).1 hr
        obtain ⟨h1, h2, h3⟩ := hb
        obtain ⟨g1, g2, g3, g4, g5, g6⟩ := hr
        have hm : m.path = ["uniffi", "method"] := by
          rcases h2 with h2 | h2
          · rw [h2.2] at g1; cases g1
          · exact h2.1
        refine ⟨h1, ?_, ?_, ?_, ?_, g6⟩
        · intro x hx
          rcases List.mem_cons.1 hx with rfl | hx
          · exact .inl hm
          · exact g2 x hx
        · intro x hx
          rcases List.mem_cons.1 hx with rfl | hx
          · exact FnArgs.parse_accepts.1 ⟨_, h3⟩
          · exact g3 x hx
        · intro x hx
          rw [List.dropLast_cons_of_ne_nil (by simp)] at hx
          rcases List.mem_cons.1 hx with rfl | hx
          · exact hm
          · exact g4 x hx
        · rw [g5]
          constructor
          · rintro ⟨x, hx, hp⟩; exact ⟨x, by simp [hx], hp⟩
          · rintro ⟨x, hx, hp⟩
            rcases List.mem_cons.1 hx with rfl | hx
            · rw [hm] at hp; exact absurd hp hne'
            · exact ⟨x, hx, hp⟩
      · rintro ⟨h1, h2, h3, h4, h5, h6⟩
        rw [List.dropLast_cons_of_ne_nil (by simp)] at h4
        have hm := h4 m (by simp)
        obtain ⟨a, ha⟩ := FnArgs.parse_accepts.2 (h3 m (by simp))
        refine ⟨⟨false, a⟩, (processPath_ok (hu m (by simp))).2 ⟨h1, .inr ⟨hm, rfl⟩, ha⟩, ?_⟩
        refine (ih' _).2 ?_
        refine ⟨rfl, fun x hx => h2 x (by simp [hx]), fun x hx => h3 x (by simp [hx]),
          fun x hx => h4 x (by simp [hx]), ?_, h6⟩
        rw [h5]
        constructor
        · rintro ⟨x, hx, hp⟩
          rcases List.mem_cons.1 hx with rfl | hx
          · rw [hm] at hp; exact absurd hp hne'
          · exact ⟨x, hx, hp⟩
        · rintro ⟨x, hx, hp⟩; exact ⟨x, by simp [hx], hp⟩

theorem parse_nil : FnArgs.parse [] = .ok {} := rfl

theorem FnAttributes.parse_ok {l : List Attribute} {r : FnAttributes} :
    FnAttributes.parse l = .ok r ↔ AttributesOk l ∧ (r.constructor_ = true ↔ SaysConstructor l) ∧
      FnArgs.parse (lastArguments l) = .ok r.args := by
  rw [FnAttributes.parse_eq]
  have hu : ∀ m ∈ uniffiOnes l, m.path.head? = some "uniffi" := by
    intro m hm
    simpa using (List.mem_filter.1 hm).2
  by_cases h : uniffiOnes l = []
  · have hl : lastArguments l = [] := by simp [lastArguments, h]
    rw [hl, h, foldlM_nil_ok, parse_nil]
    constructor
    · rintro rfl
      exact ⟨⟨by simp [h], by simp [h], by simp [h]⟩, by simp [SaysConstructor, h], rfl⟩
    · rintro ⟨_, h2, h3⟩
      obtain ⟨rc, ra⟩ := r
      cases h3
      simp [SaysConstructor, h] at h2
      simp [h2]
  · have hl : lastArguments l = argumentsOf ((uniffiOnes l).getLast h) := by
      unfold lastArguments
      rw [List.getLast?_eq_some_getLast h]
    rw [hl, fold_attrs hu h]
    constructor
    · rintro ⟨_, h2, h3, h4, h5, h6⟩
      exact ⟨⟨h2, h3, h4⟩, h5, h6⟩
    · rintro ⟨⟨h2, h3, h4⟩, h5, h6⟩
      exact ⟨rfl, h2, h3, h4, h5, h6⟩

theorem lastArguments_ok {l : List Attribute} (h : AttributesOk l) : FnArguments (lastArguments l) := by
  unfold lastArguments
  cases hl : (uniffiOnes l).getLast? with
  | none => exact FnRep.nil.args
  | some m => exact h.arguments m (List.mem_of_getLast? hl)

/-! ### Signatures -/

/-- What an argument becomes with a map of default values. -/
def toArg (m : List (String × Value)) (n : String) (ty : Ty) : NamedArg := ⟨n, ty, passBy ty, look m n⟩

theorem namedArgs_ok {m left : List (String × Value)} {l : List Input} {args : List NamedArg}
    (hn : (argNames l).Nodup) :
    namedArgs m l = .ok (args, left) ↔
      List.Forall₂ (fun i a => ∃ n ty, i = .named n ty ∧ a = toArg m n ty) l args ∧
      left = m.filter (fun x => x.1 ∉ argNames l) := by
  induction l generalizing m args left with
  | nil =>
    simp only [namedArgs, Except.ok.injEq, Prod.mk.injEq, List.forall₂_nil_left_iff, argNames]
    constructor
    · rintro ⟨rfl, rfl⟩; simp
    · rintro ⟨rfl, rfl⟩; simp
  | cons i l ih =>
    cases i with
    | receiver ty =>
      simp only [namedArgs]
      constructor
      · intro h; cases h
      · rintro ⟨h, _⟩; cases h with | cons h _ => obtain ⟨_, _, h, _⟩ := h; cases h
    | pattern ty =>
      simp only [namedArgs]
      constructor
      · intro h; cases h
      · rintro ⟨h, _⟩; cases h with | cons h _ => obtain ⟨_, _, h, _⟩ := h; cases h
    | named n ty =>
      simp only [argNames, List.nodup_cons] at hn
      simp only [namedArgs, remove, bind_ok]
      have hcong : ∀ n' ty', n' ∈ argNames l → toArg (m.filter (fun x => x.1 ≠ n)) n' ty' = toArg m n' ty' := by
        intro n' ty' h'
        unfold toArg
        have hne : n' ≠ n := by
          rintro rfl
          exact hn.1 h'
        rw [look_filter_ne hne]
      have hf : ∀ {as}, List.Forall₂ (fun i a => ∃ n' ty', i = .named n' ty' ∧
          a = toArg (m.filter (fun x => x.1 ≠ n)) n' ty') l as ↔
          List.Forall₂ (fun i a => ∃ n' ty', i = .named n' ty' ∧ a = toArg m n' ty') l as := by
        intro as
        have : ∀ (k : List Input), (∀ x ∈ argNames k, x ∈ argNames l) → ∀ as,
            (List.Forall₂ (fun i a => ∃ n' ty', i = .named n' ty' ∧
              a = toArg (m.filter (fun x => x.1 ≠ n)) n' ty') k as ↔
            List.Forall₂ (fun i a => ∃ n' ty', i = .named n' ty' ∧ a = toArg m n' ty') k as) := by
          intro k hk as
          induction k generalizing as with
          | nil => simp
          | cons j k ihk =>
            have hk' : ∀ x ∈ argNames k, x ∈ argNames l := by
              intro x hx
              apply hk
              cases j <;> simp [argNames, hx]
            cases as with
            | nil => simp
            | cons a as =>
              rw [List.forall₂_cons, List.forall₂_cons, ihk hk']
              apply and_congr_left
              intro _
              constructor
              · rintro ⟨n', ty', rfl, rfl⟩
                exact ⟨n', ty', rfl, hcong n' ty' (hk n' (by simp [argNames]))⟩
              · rintro ⟨n', ty', rfl, rfl⟩
                exact ⟨n', ty', rfl, (hcong n' ty' (hk n' (by simp [argNames]))).symm⟩
        exact this l (fun _ h => h) as
      have hleft : (m.filter (fun x => x.1 ≠ n)).filter (fun x => x.1 ∉ argNames l) =
          m.filter (fun x => x.1 ∉ argNames (.named n ty :: l)) := by
        rw [List.filter_filter]
        apply List.filter_congr
        intro x _
        simp only [argNames, List.mem_cons, not_or]
        by_cases h1 : x.1 = n <;> by_cases h2 : x.1 ∈ argNames l <;> simp [h1, h2]
      constructor
      · rintro ⟨⟨as, l'⟩, h, he⟩
        cases he
        rw [ih hn.2, hf, hleft] at h
        exact ⟨.cons ⟨n, ty, rfl, rfl⟩ h.1, h.2⟩
      · rintro ⟨h, rfl⟩
        cases h with
        | cons h1 h2 =>
          obtain ⟨n', ty', he, rfl⟩ := h1
          cases he
          refine ⟨(_, _), (ih hn.2).2 ⟨hf.2 h2, rfl⟩, ?_⟩
          rw [hleft]
          rfl

theorem splitReceiver_snd (l : List Input) : (splitReceiver l).2 = afterReceiver l := by
  cases l with
  | nil => rfl
  | cons i l => cases i <;> rfl

theorem lastSegment_arc (t : Ty) : t.lastSegment = some "Arc" ↔ WrittenArc t := by
  induction t <;> simp_all [Ty.lastSegment, WrittenArc]

theorem splitReceiver_arc (s : Sig) :
    (splitReceiver s.inputs).1 = some .arc ↔ ∃ ty rest, s.inputs = .receiver ty :: rest ∧ WrittenArc ty := by
  unfold splitReceiver
  split
  · rename_i ty rest he
    simp only [he, Option.some.injEq, List.cons.injEq, Input.receiver.injEq, receiverOf]
    constructor
    · intro h
      refine ⟨ty, rest, ⟨rfl, rfl⟩, ?_⟩
      rw [← lastSegment_arc]
      by_contra hc
      rw [if_neg hc] at h
      cases h
    · rintro ⟨_, _, ⟨rfl, rfl⟩, h⟩
      rw [if_pos ((lastSegment_arc _).2 h)]
  · rename_i hno
    constructor
    · intro h; cases h
    · rintro ⟨ty, rest, he, _⟩
      exact absurd he (hno ty rest)

theorem splitReceiver_fst (s : Sig) : (splitReceiver s.inputs).1.isSome ↔ HasReceiver s := by
  unfold splitReceiver HasReceiver
  split
  · rename_i ty rest h
    simp [h]
  · rename_i h
    simp only [Option.isSome_none, Bool.false_eq_true, false_iff, not_exists]
    intro ty rest h'
    exact h ty rest h'

theorem argNames_after (l : List Input) : argNames (afterReceiver l) = argNames l := by
  unfold afterReceiver
  split <;> rfl

theorem passBy_ref (t : Ty) : (∃ m u, t = .ref m u) ↔ passBy t ≠ .value := by
  unfold passBy
  split
  · simp
  · simp
  · rename_i h1 h2
    simp only [ne_eq, not_true_eq_false, iff_false, not_exists]
    intro m u h
    exact h2 m u h

theorem passBy_mut (t : Ty) : t = mutBytes ↔ passBy t = .mutRef := by
  unfold passBy mutBytes
  split
  · simp
  · rename_i h
    simp only [reduceCtorEq, iff_false]
    intro e
    simp only [Ty.ref.injEq] at e
    exact h e.1 e.2
  · rename_i h1 h2
    simp only [reduceCtorEq, iff_false]
    exact fun e => h2 _ _ e

end Verif.Export
