import Verif.Src.PathsMain
namespace Verif.Src

variable {ir : Ir}

theorem run_inv {α σ : Type} {I : σ → Prop} {ch : RPath → Ident → Ns → σ → Res RPath × σ}
    (hc : ∀ p i ns s, I s → I (ch p i ns s).2) : ∀ {m : Prog α} {s : σ}, I s → I (m.run ch s).2
  | .ret _, _, hs => hs
  | .ask p i ns k, s, hs => run_inv hc (m := k _) (hc p i ns s hs)

theorem child_resolving : ∀ {n p ident ns c}, (child ir n p ident ns c).2.resolving = c.resolving := by
  intro n
  induction n with
  | zero => intros; rfl
  | succ n ih =>
    intro p ident ns c
    rw [child]
    split
    · rfl
    · split
      · rfl
      · split
        · rfl
        · rename_i id items _ _ _ _
          have := run_inv (I := fun s : Cache => s.resolving = (id, ident, ns) :: c.resolving) (ch := child ir n)
            (fun p i ns s hs => ih.trans hs) (m := childBody ir p items ident ns)
            (s := { c with resolving := (id, ident, ns) :: c.resolving }) rfl
          dsimp only
          rw [this, List.erase_cons_head]

/-- Nothing in the cache is changed. -/
def Cache.le (c c' : Cache) : Prop := ∀ k r, c.get k = some r → c'.get k = some r

theorem child_le : ∀ {n p ident ns c}, Cache.le c (child ir n p ident ns c).2 := by
  intro n
  induction n with
  | zero => intros; intro k r h; exact h
  | succ n ih =>
    intro p ident ns c
    rw [child]
    split
    · intro k r h; exact h
    · split
      · intro k r h; exact h
      · split
        · intro k r h; exact h
        · rename_i id items _ _ _ hget
          have := run_inv (I := fun s : Cache => Cache.le c s) (ch := child ir n)
            (fun p i ns s hs k r h => ih k r (hs k r h)) (m := childBody ir p items ident ns)
            (s := { c with resolving := (id, ident, ns) :: c.resolving }) (fun k r h => h)
          intro k r h
          dsimp only
          rw [get_cons (res' := []), if_neg (by rintro rfl; rw [hget] at h; exact nomatch h)]
          exact this k r h

theorem child_again {n p ident ns c} (hr : c.resolving = []) {c'} (hr' : c'.resolving = [])
    (hle : Cache.le (child ir (n + 1) p ident ns c).2 c') :
    child ir (n + 1) p ident ns c' = ((child ir (n + 1) p ident ns c).1, c') := by
  rw [child, child]
  rw [child] at hle
  cases hst : childStart p ident with
  | inl r => rfl
  | inr m =>
    obtain ⟨id, items⟩ := m
    simp only [hst, hr, List.not_mem_nil, if_false] at hle
    simp only [hr, hr', List.not_mem_nil, if_false]
    cases hget : c.get (id, ident, ns) with
    | some r =>
      rw [hget] at hle
      rw [hle _ _ hget]
    | none =>
      rw [hget] at hle
      have := hle (id, ident, ns) _ (by dsimp only; rw [get_cons (res' := []), if_pos rfl])
      rw [this]

theorem run_again {α : Type} {ch : RPath → Ident → Ns → Cache → Res RPath × Cache}
    (h1 : ∀ p i ns s, (ch p i ns s).2.resolving = s.resolving) (h2 : ∀ p i ns s, Cache.le s (ch p i ns s).2)
    (h3 : ∀ p i ns s, s.resolving = [] → ∀ s', s'.resolving = [] → Cache.le (ch p i ns s).2 s' →
      ch p i ns s' = ((ch p i ns s).1, s')) :
    ∀ {m : Prog α} {s : Cache}, s.resolving = [] → ∀ {s' : Cache}, s'.resolving = [] →
      Cache.le (m.run ch s).2 s' → m.run ch s' = ((m.run ch s).1, s')
  | .ret _, _, _, _, _, _ => rfl
  | .ask p i ns k, s, hs, s', hs', hle => by
    have hrun : Cache.le (ch p i ns s).2 ((k (ch p i ns s).1).run ch (ch p i ns s).2).2 :=
      run_inv (I := fun x => Cache.le (ch p i ns s).2 x) (fun p i ns x hx k r h => h2 p i ns x k r (hx k r h))
        (fun k r h => h)
    have := h3 p i ns s hs s' hs' (fun k r h => hle k r (hrun k r h))
    simp only [Prog.run]
    rw [this]
    exact run_again h1 h2 h3 (m := k _) ((h1 p i ns s).trans hs) hs' hle

/-- The caches after more calls of `child`. -/
inductive Later (ir : Ir) (c : Cache) : Cache → Prop
  | refl : Later ir c c
  | child {c' p} (ident : Ident) (ns : Ns) : Later ir c c' → Later ir c (child ir ir.fuel p ident ns c').2

theorem later_run {α : Type} {m : Prog α} {c c' : Cache} (h : Later ir c c') :
    Later ir c (m.run (child ir ir.fuel) c').2 :=
  run_inv (I := Later ir c) (fun _ i ns _ h => .child i ns h) h

theorem later_le {c c'} (h : Later ir c c') : Cache.le c c' ∧ (c.resolving = [] → c'.resolving = []) := by
  induction h with
  | refl => exact ⟨fun k r h => h, fun h => h⟩
  | child ident ns _ ih =>
    exact ⟨fun k r h => child_le k r (ih.1 k r h), fun h => child_resolving.trans (ih.2 h)⟩

theorem resolve_again {p path ns c c'} (hr : c.resolving = []) (h : Later ir (resolveTop ir p path ns c).2 c') :
    resolveTop ir p path ns c' = ((resolveTop ir p path ns c).1, c') := by
  refine run_again (ch := child ir ir.fuel) (fun _ _ _ _ => child_resolving) (fun _ _ _ _ => child_le)
    (fun p i ns s hs s' hs' hle => child_again hs hs' hle) hr ?_ (later_le h).1
  refine (later_le h).2 ?_
  exact run_inv (I := fun x : Cache => x.resolving = []) (fun p i ns x hx => child_resolving.trans hx) hr

end Verif.Src
