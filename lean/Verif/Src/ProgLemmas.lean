import Verif.Src.PathsSpec
namespace Verif.Src

variable {α β σ : Type}

/-- Whatever the answers are, as long as they satisfy `G`: the program only asks what `A` allows and ends
with `Q`. -/
def Prog.wp (A : RPath → Ident → Ns → Prop) (G : RPath → Ident → Ns → Res RPath → Prop) (Q : α → Prop) :
    Prog α → Prop
  | .ret a => Q a
  | .ask p i ns k => A p i ns ∧ ∀ r, G p i ns r → (k r).wp A G Q

theorem wp_mono {A G} {Q Q' : α → Prop} (h : ∀ a, Q a → Q' a) : ∀ {m : Prog α}, m.wp A G Q → m.wp A G Q'
  | .ret _, hm => h _ hm
  | .ask _ _ _ _, hm => ⟨hm.1, fun r hr => wp_mono h (hm.2 r hr)⟩

theorem wp_bind {A G} {Q : β → Prop} {f : α → Prog β} :
    ∀ {m : Prog α}, m.wp A G (fun a => (f a).wp A G Q) → (m.bind f).wp A G Q
  | .ret _, hm => hm
  | .ask _ _ _ _, hm => ⟨hm.1, fun r hr => wp_bind (hm.2 r hr)⟩

theorem wp_run {A G} {Q : α → Prop} {I : σ → Prop} {ch : RPath → Ident → Ns → σ → Res RPath × σ}
    (hc : ∀ p i ns s, A p i ns → I s → G p i ns (ch p i ns s).1 ∧ I (ch p i ns s).2) :
    ∀ {m : Prog α} {s : σ}, m.wp A G Q → I s → Q (m.run ch s).1 ∧ I (m.run ch s).2
  | .ret _, _, hm, hs => ⟨hm, hs⟩
  | .ask p i ns k, s, hm, hs => by
    have := hc p i ns s hm.1 hs
    exact wp_run (m := k _) hc (hm.2 _ this.1) this.2

theorem wp_eval {A G} {Q : α → Prop} {ch : RPath → Ident → Ns → Res RPath}
    (hc : ∀ p i ns, A p i ns → G p i ns (ch p i ns)) :
    ∀ {m : Prog α}, m.wp A G Q → Q (m.eval ch)
  | .ret _, hm => hm
  | .ask p i ns k, hm => wp_eval (m := k _) hc (hm.2 _ (hc p i ns hm.1))

theorem eval_bind {f : α → Prog β} {ch} : ∀ {m : Prog α}, (m.bind f).eval ch = (f (m.eval ch)).eval ch
  | .ret _ => rfl
  | .ask _ _ _ k => eval_bind (m := k _)

theorem run_bind {f : α → Prog β} {ch : RPath → Ident → Ns → σ → Res RPath × σ} :
    ∀ {m : Prog α} {s}, (m.bind f).run ch s = (f (m.run ch s).1).run ch (m.run ch s).2
  | .ret _, _ => rfl
  | .ask _ _ _ k, _ => run_bind (m := k _)

/-- The program stops at once when an answer is out of fuel. -/
def Prog.Strict : Prog (Res α) → Prop
  | .ret _ => True
  | .ask _ _ _ k => k (.error .fuel) = .ret (.error .fuel) ∧ ∀ r, (k r).Strict

theorem strict_bind {f : Res α → Prog (Res β)} : ∀ {m : Prog (Res α)}, m.Strict →
    (∀ a, (f a).Strict) → f (.error .fuel) = .ret (.error .fuel) → (m.bind f).Strict
  | .ret _, _, hs, _ => hs _
  | .ask _ _ _ k, hm, hs, hf =>
    ⟨by show (k _).bind f = _; rw [hm.1]; exact hf, fun r => strict_bind (hm.2 r) hs hf⟩

theorem strict_lookup {p i ns} : (lookup p i ns).Strict := ⟨rfl, fun _ => trivial⟩

/-- A strict program that does not run out of fuel gives the same result with better answers. -/
theorem strict_mono {ch ch' : RPath → Ident → Ns → Res RPath}
    (hc : ∀ p i ns, ch p i ns ≠ .error .fuel → ch' p i ns = ch p i ns) :
    ∀ {m : Prog (Res α)}, m.Strict → m.eval ch ≠ .error .fuel → m.eval ch' = m.eval ch
  | .ret _, _, _ => rfl
  | .ask p i ns k, hm, hne => by
    have h : ch p i ns ≠ .error .fuel := by
      intro h
      simp only [Prog.eval, h, hm.1] at hne
      exact hne rfl
    simp only [Prog.eval] at hne ⊢
    rw [hc _ _ _ h]
    exact strict_mono hc (hm.2 _) hne

/-- The same for a run with a state. -/
theorem strict_run {A G} {Q : Res α → Prop} {I : σ → Prop} {ch : RPath → Ident → Ns → σ → Res RPath × σ}
    {ref : RPath → Ident → Ns → Res RPath}
    (hc : ∀ p i ns s, A p i ns → I s → ref p i ns ≠ .error .fuel →
      G p i ns (ch p i ns s).1 ∧ I (ch p i ns s).2 ∧ (ch p i ns s).1 = ref p i ns) :
    ∀ {m : Prog (Res α)} {s : σ}, m.Strict → m.wp A G Q → I s → m.eval ref ≠ .error .fuel →
      Q (m.run ch s).1 ∧ I (m.run ch s).2 ∧ (m.run ch s).1 = m.eval ref
  | .ret _, _, _, hm, hs, _ => ⟨hm, hs, rfl⟩
  | .ask p i ns k, s, hst, hm, hs, hne => by
    have h : ref p i ns ≠ .error .fuel := by
      intro h
      simp only [Prog.eval, h, hst.1] at hne
      exact hne rfl
    have h3 := hc p i ns s hm.1 hs h
    simp only [Prog.eval, Prog.run] at hne ⊢
    rw [← h3.2.2] at hne ⊢
    exact strict_run hc (hst.2 _) (hm.2 _ h3.1) h3.2.1 hne

end Verif.Src
