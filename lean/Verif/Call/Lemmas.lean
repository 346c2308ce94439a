import Verif.Call.Model
import Verif.Wire.ForeignSound2
import Verif.Props.Foreign
/-
Lemmas about calls.
-/
namespace Verif.Call
open Verif Verif.Wire

/-- Every argument of `args` lifts, to the values `vs` in order. -/
def Lifts {V E : Type} : List (Arg V E) → List V → Prop
  | [], [] => True
  | a :: as, v :: vs => a.lift = .ret (.ok v) ∧ Lifts as vs
  | _, _ => False

theorem liftArgs_ok {V E : Type} : ∀ (args : List (Arg V E)) (vs : List V), Lifts args vs →
    liftArgs args = (args.map (fun a => .lift a.name), .ret (.ok vs))
  | [], [], _ => rfl
  | a :: as, v :: vs, h => by
    obtain ⟨h1, h2⟩ := h
    simp [liftArgs, h1, liftArgs_ok as vs h2, Eff.bind]
  | [], _ :: _, h => by cases h
  | _ :: _, [], h => by cases h

/-- The arguments before `a` lift and `a` does not. -/
theorem liftArgs_fail {V E : Type} (a : Arg V E) (e : AnyErr E) (post : List (Arg V E))
    (h : a.lift = .ret (.error e)) : ∀ (pre : List (Arg V E)) (vs : List V), Lifts pre vs →
    liftArgs (pre ++ a :: post) =
      (pre.map (fun a => .lift a.name) ++ [.lift a.name], .ret (.error (a.name, e)))
  | [], [], _ => by simp [liftArgs, h]
  | b :: as, v :: vs, hl => by
    obtain ⟨h1, h2⟩ := hl
    simp [liftArgs, h1, liftArgs_fail a e post h as vs h2, Eff.bind]
  | [], _ :: _, h => by cases h
  | _ :: _, [], h => by cases h

theorem liftArgs_panic {V E : Type} (a : Arg V E) (p : Payload) (post : List (Arg V E))
    (h : a.lift = .panic p) : ∀ (pre : List (Arg V E)) (vs : List V), Lifts pre vs →
    liftArgs (pre ++ a :: post) =
      (pre.map (fun a => .lift a.name) ++ [.lift a.name], .panic p)
  | [], [], _ => by simp [liftArgs, h]
  | b :: as, v :: vs, hl => by
    obtain ⟨h1, h2⟩ := hl
    simp [liftArgs, h1, liftArgs_panic a p post h as vs h2, Eff.bind]
  | [], _ :: _, h => by cases h
  | _ :: _, [], h => by cases h

theorem liftArgs_ub {V E : Type} (a : Arg V E) (post : List (Arg V E))
    (h : a.lift = .ub) : ∀ (pre : List (Arg V E)) (vs : List V), Lifts pre vs →
    liftArgs (pre ++ a :: post) =
      (pre.map (fun a => .lift a.name) ++ [.lift a.name], .ub)
  | [], [], _ => by simp [liftArgs, h]
  | b :: as, v :: vs, hl => by
    obtain ⟨h1, h2⟩ := hl
    simp [liftArgs, h1, liftArgs_ub a post h as vs h2, Eff.bind]
  | [], _ :: _, h => by cases h
  | _ :: _, [], h => by cases h

/-- Either all arguments lift, or there is a first one that does not. -/
theorem lifts_or_first {V E : Type} : ∀ (args : List (Arg V E)),
    (∃ vs, Lifts args vs) ∨ ∃ pre a post vs, args = pre ++ a :: post ∧ Lifts pre vs ∧
      ∀ v, a.lift ≠ .ret (.ok v)
  | [] => .inl ⟨[], trivial⟩
  | a :: as => by
    by_cases h : ∃ v, a.lift = .ret (.ok v)
    · obtain ⟨v, hv⟩ := h
      rcases lifts_or_first as with ⟨vs, hs⟩ | ⟨pre, b, post, vs, rfl, h1, h2⟩
      · exact .inl ⟨v :: vs, hv, hs⟩
      · exact .inr ⟨a :: pre, b, post, v :: vs, rfl, ⟨hv, h1⟩, h2⟩
    · exact .inr ⟨[], a, as, [], rfl, trivial, fun v hv => h ⟨v, hv⟩⟩

theorem Lifts.unique {V E : Type} : ∀ {args : List (Arg V E)} {vs ws : List V}, Lifts args vs →
    Lifts args ws → vs = ws
  | [], [], [], _, _ => rfl
  | _ :: _, _ :: _, _ :: _, ⟨h1, h2⟩, ⟨h3, h4⟩ => by
    rw [h1] at h3; cases h3; rw [Lifts.unique h2 h4]

theorem Lifts.mem {V E : Type} : ∀ {args : List (Arg V E)} {vs : List V}, Lifts args vs →
    ∀ a ∈ args, ∃ v, a.lift = .ret (.ok v)
  | [], [], _, a, h => by cases h
  | b :: as, v :: vs, ⟨h1, h2⟩, a, h => by
    rcases List.mem_cons.1 h with rfl | h
    · exact ⟨v, h1⟩
    · exact Lifts.mem h2 a h

end Verif.Call
