import Verif.Handles.KotlinObject
/- The invariant of a Kotlin object. -/
namespace Verif.KotlinObject

theorem countP_set {p : Pc → Bool} {l : List Pc} {i : Nat} {q r : Pc} (h : l[i]? = some q) :
    (l.set i r).countP p + (if p q then 1 else 0) = l.countP p + (if p r then 1 else 0) := by
  induction l generalizing i with
  | nil => simp at h
  | cons x l ih =>
    cases i with
    | zero =>
      simp only [List.getElem?_cons_zero, Option.some.injEq] at h
      subst h
      simp only [List.set_cons_zero, List.countP_cons]; omega
    | succ i =>
      simp only [List.getElem?_cons_succ] at h
      have := ih h
      simp only [List.set_cons_succ, List.countP_cons]; omega

/-- Threads that count in `callCounter`. -/
def isIn : Pc → Bool
  | .counted | .running | .leaving => true
  | _ => false

def isDes : Pc → Bool
  | .destroyed => true
  | _ => false

def isClean : Pc → Bool
  | .cleaning => true
  | _ => false

def St.inCall (s : St) : Nat := s.threads.countP isIn
def St.des (s : St) : Nat := s.threads.countP isDes
def St.cl (s : St) : Nat := s.threads.countP isClean

/-- The reference that `destroy` gives up is still counted. -/
def St.own (s : St) : Nat := if s.flag then s.des else 1

structure Inv (s : St) : Prop where
  count : s.counter = s.inCall + s.own
  des : s.flag = false → s.des = 0
  des1 : s.des ≤ 1
  clean : 0 < s.cl → s.counter = 0
  /-- Freed while threads work only at counter zero. -/
  cleaned : s.cleaned = true → s.counter = 0 ∨ (s.gone = true ∧ s.inCall = 0)
  gone : s.gone = true → ∀ p ∈ s.threads, p = .idle
  done : s.counter = 0 → s.cleaned = true ∨ 0 < s.cl
  bound : s.counter ≤ longMax
  freed : s.log.count .freed = if s.cleaned then 1 else 0
  flag : s.flag = true → ∃ i, Ev.destroy i ∈ s.log
  dest : ∀ i : Nat, s.threads[i]? = some Pc.destroying → ∃ i, Ev.destroy i ∈ s.log
  lost : s.gone = true → .unreachable ∈ s.log
  use : ∀ pre post i, s.log = pre ++ .cloned i :: post → .freed ∉ pre

theorem cloned_append {l : List Ev} {e : Ev} (hne : ∀ i, e = .cloned i → .freed ∉ l)
    (h : ∀ pre post i, l = pre ++ .cloned i :: post → .freed ∉ pre) :
    ∀ pre post i, l ++ [e] = pre ++ .cloned i :: post → .freed ∉ pre := by
  intro pre post i hl
  rcases List.eq_nil_or_concat post with rfl | ⟨q, x, rfl⟩
  · have := List.append_inj' (t₁ := [e]) (t₂ := [.cloned i]) hl rfl
    obtain ⟨rfl, e2⟩ := this
    simp only [List.cons.injEq, and_true] at e2
    exact hne i e2
  · rw [List.concat_eq_append, ← List.cons_append, ← List.append_assoc] at hl
    have := List.append_inj' hl rfl
    exact h _ _ _ this.1

theorem mem_getElem? {l : List Pc} {p : Pc} (h : p ∈ l) : ∃ i : Nat, l[i]? = some p :=
  List.mem_iff_getElem?.1 h

theorem getElem?_set {l : List Pc} {i j : Nat} {p q : Pc} (h : (l.set i p)[j]? = some q) :
    (j = i ∧ q = p) ∨ l[j]? = some q := by
  rw [List.getElem?_set] at h
  split at h
  · split at h
    · simp only [Option.some.injEq] at h; rename_i h1 _; exact .inl ⟨h1.symm, h.symm⟩
    · cases h
  · exact .inr h

theorem not_gone {s : St} (j : Inv s) {i : Nat} {q : Pc} (h : s.threads[i]? = some q)
    (hq : q ≠ .idle) : s.gone = false := by
  cases hg : s.gone with
  | false => rfl
  | true => exact absurd (j.gone hg q (List.mem_of_getElem? h)) hq

/-- A step of one thread that changes neither counter, flag nor cleaner, and neither enters nor
leaves the counted part. -/
theorem Inv.move {s : St} (j : Inv s) {i : Nat} {q r : Pc} (h : s.threads[i]? = some q)
    (hg : s.gone = false) (h1 : isIn r = isIn q) (h2 : isDes r = isDes q)
    (h3 : isClean r = isClean q) (h4 : r ≠ .destroying) : Inv (s.at_ i r) := by
  have c1 := countP_set (p := isIn) (r := r) h
  have c2 := countP_set (p := isDes) (r := r) h
  have c3 := countP_set (p := isClean) (r := r) h
  rw [h1] at c1; rw [h2] at c2; rw [h3] at c3
  have e1 : (s.at_ i r).inCall = s.inCall := by simp only [St.inCall, St.at_]; omega
  have e2 : (s.at_ i r).des = s.des := by simp only [St.des, St.at_]; omega
  have e3 : (s.at_ i r).cl = s.cl := by simp only [St.cl, St.at_]; omega
  have e4 : (s.at_ i r).own = s.own := by unfold St.own; rw [e2]; rfl
  exact {
    count := by rw [e1, e4]; exact j.count
    des := by rw [e2]; exact j.des
    des1 := by rw [e2]; exact j.des1
    clean := by rw [e3]; exact j.clean
    cleaned := by rw [e1]; exact j.cleaned
    gone := fun g => by rw [show (s.at_ i r).gone = s.gone from rfl, hg] at g; cases g
    done := by rw [e3]; exact j.done
    bound := j.bound
    freed := j.freed
    flag := j.flag
    dest := fun k hk => by
      rcases getElem?_set hk with ⟨_, e⟩ | hk
      · exact absurd e.symm h4
      · exact j.dest k hk
    lost := j.lost
    use := j.use }

theorem Inv.addEv {s : St} (j : Inv s) {e : Ev} (hf : e ≠ .freed)
    (hc : ∀ i, e = .cloned i → .freed ∉ s.log) : Inv (s.add e) := by
  refine { j with
    freed := ?_, flag := fun h => ?_, dest := fun i h => ?_, lost := fun h => ?_, use := ?_ }
  · simp only [St.add, List.count_append, List.count_singleton, beq_eq_false_iff_ne.2 hf]
    have := j.freed
    grind
  · obtain ⟨i, hi⟩ := j.flag h; exact ⟨i, List.mem_append_left _ hi⟩
  · obtain ⟨i, hi⟩ := j.dest i h; exact ⟨i, List.mem_append_left _ hi⟩
  · exact List.mem_append_left _ (j.lost h)
  · exact cloned_append hc j.use

theorem Inv.cleanStep {s : St} (j : Inv s) (h : s.counter = 0 ∨ (s.gone = true ∧ s.inCall = 0)) :
    Inv s.clean ∧ s.clean.cleaned = true := by
  unfold St.clean
  split
  · rename_i h'; exact ⟨j, h'⟩
  · rename_i hcl
    have hfr := j.freed
    rw [if_neg hcl] at hfr
    refine ⟨{ j with
      cleaned := fun _ => h, done := fun _ => .inl rfl
      freed := ?_, flag := fun h => ?_, dest := fun i h => ?_, lost := fun h => ?_, use := ?_ }, rfl⟩
    · simp only [St.add, List.count_append, List.count_singleton, hfr]; simp
    · obtain ⟨i, hi⟩ := j.flag h; exact ⟨i, List.mem_append_left _ hi⟩
    · obtain ⟨i, hi⟩ := j.dest i h; exact ⟨i, List.mem_append_left _ hi⟩
    · exact List.mem_append_left _ (j.lost h)
    · exact cloned_append (fun i h => by cases h) j.use

theorem countP_idle {f : Pc → Bool} (hf : f .idle = false) {l : List Pc}
    (h : ∀ p ∈ l, p = .idle) : l.countP f = 0 := by
  rw [List.countP_eq_zero]
  intro a ha; rw [h a ha, hf]; simp

theorem Inv.init (n : Nat) : Inv { threads := List.replicate n .idle } := by
  have hall : ∀ p ∈ List.replicate n Pc.idle, p = .idle := fun p hp => (List.mem_replicate.1 hp).2
  exact {
    count := by
      simp only [St.inCall, St.own, countP_idle (f := isIn) rfl hall, Bool.false_eq_true, if_false]
    des := fun _ => countP_idle rfl hall
    des1 := by simp only [St.des, countP_idle (f := isDes) rfl hall]; omega
    clean := fun h => by simp only [St.cl, countP_idle (f := isClean) rfl hall] at h; omega
    cleaned := fun h => by cases h
    gone := fun h => by cases h
    done := fun h => by cases h
    bound := by simp only [longMax]; omega
    freed := rfl
    flag := fun h => by cases h
    dest := fun i h => by
      have := hall _ (List.mem_of_getElem? h); cases this
    lost := fun h => by cases h
    use := fun pre post i h => by simp at h }

theorem Inv.step {s s' : St} (j : Inv s) (hs : Step s s') : Inv s' := by
  cases hs with
  | call i h hg => exact j.move h hg rfl rfl rfl (by simp)
  | get i h => exact j.move h (not_gone j h (by simp)) rfl rfl rfl (by simp)
  | refuse i c h hc =>
    refine (j.move (r := .idle) h (not_gone j h (by simp)) rfl rfl rfl (by simp)).addEv ?_ ?_ <;> simp
  | full i c h hc hm =>
    refine (j.move (r := .idle) h (not_gone j h (by simp)) rfl rfl rfl (by simp)).addEv ?_ ?_ <;> simp
  | enter i c h hc hm he =>
    have hg := not_gone j h (by simp)
    have c1 := countP_set (p := isIn) (r := .counted) h
    have c2 := countP_set (p := isDes) (r := .counted) h
    have c3 := countP_set (p := isClean) (r := .counted) h
    simp only [isIn, isDes, isClean, if_true, if_false, Bool.false_eq_true] at c1 c2 c3
    have := j.count; have := j.bound
    have hcl := j.cleaned
    have hcl2 := j.clean
    refine { j with
      count := ?_, des := fun hf => ?_, des1 := ?_, clean := fun hp => ?_, cleaned := fun hx => ?_
      gone := fun g => ?_, done := fun hx => ?_, bound := ?_, dest := fun k hk => ?_ }
    · grind [St.inCall, St.own, St.des, St.at_]
    · have := j.des hf; simp only [St.des, St.at_] at *; omega
    · have := j.des1; simp only [St.des, St.at_] at *; omega
    · have := hcl2 (by simp only [St.cl, St.at_] at *; omega); omega
    · rcases hcl hx with h0 | ⟨h0, _⟩
      · omega
      · rw [hg] at h0; cases h0
    · rw [show s.gone = true from g] at hg; cases hg
    · simp at hx
    · simp only; omega
    · rcases getElem?_set hk with ⟨_, e⟩ | hk
      · cases e
      · exact j.dest k hk
  | retry i c h hc hm he => exact j.move h (not_gone j h (by simp)) rfl rfl rfl (by simp)
  | clone i h =>
    have hg := not_gone j h (by simp)
    refine (j.move (r := .running) h hg rfl rfl rfl (by simp)).addEv (e := .cloned i) (by simp) (fun _ _ => ?_)
    have hpos : 0 < s.inCall := List.countP_pos_iff.2 ⟨_, List.mem_of_getElem? h, rfl⟩
    have := j.count
    have hcl : s.cleaned = false := by
      cases hc : s.cleaned with
      | false => rfl
      | true => rcases j.cleaned hc with h0 | ⟨h0, _⟩
                · omega
                · rw [hg] at h0; cases h0
    have hfr := j.freed
    rw [hcl] at hfr
    exact List.count_eq_zero.1 hfr
  | cloneFails i h => exact j.move h (not_gone j h (by simp)) rfl rfl rfl (by simp)
  | ret i h =>
    refine (j.move (r := .leaving) h (not_gone j h (by simp)) rfl rfl rfl (by simp)).addEv ?_ ?_ <;> simp
  | leave i h =>
    have hg := not_gone j h (by simp)
    have hpos : 0 < s.inCall := List.countP_pos_iff.2 ⟨_, List.mem_of_getElem? h, rfl⟩
    have hc := j.count; have := j.bound
    have hncl : s.cleaned = false := by
      cases hc : s.cleaned with
      | false => rfl
      | true => rcases j.cleaned hc with h0 | ⟨h0, _⟩
                · omega
                · rw [hg] at h0; cases h0
    have hcl0 : s.cl = 0 := Nat.eq_zero_of_not_pos fun hp => by have := j.clean hp; omega
    generalize hr : (if s.counter - 1 = 0 then Pc.cleaning else Pc.idle) = r
    have hri : isIn r = false ∧ isDes r = false ∧ r ≠ .destroying := by
      subst hr; split <;> simp [isIn, isDes]
    have hrc : (isClean r = true ∧ s.counter - 1 = 0) ∨
        (isClean r = false ∧ s.counter - 1 ≠ 0) := by
      subst hr; split
      · exact .inl ⟨rfl, by assumption⟩
      · exact .inr ⟨rfl, by assumption⟩
    have c1 := countP_set (p := isIn) (r := r) h
    have c2 := countP_set (p := isDes) (r := r) h
    have c3 := countP_set (p := isClean) (r := r) h
    simp only [hri.1, hri.2.1] at c1 c2
    simp only [show isIn .leaving = true from rfl, show isDes .leaving = false from rfl,
      show isClean .leaving = false from rfl, if_true, if_false, Bool.false_eq_true] at c1 c2 c3
    refine { j with
      count := ?_, des := fun hf => ?_, des1 := ?_, clean := fun hp => ?_, cleaned := fun hx => ?_
      gone := fun g => ?_, done := fun hx => ?_, bound := ?_, dest := fun k hk => ?_ }
    · grind [St.inCall, St.own, St.des, St.at_]
    · have := j.des hf; simp only [St.des, St.at_] at *; omega
    · have := j.des1; simp only [St.des, St.at_] at *; omega
    · rcases hrc with ⟨hr1, hr2⟩ | ⟨hr1, hr2⟩
      · exact hr2
      · rw [hr1] at c3; simp only [St.cl, St.at_, Bool.false_eq_true, if_false] at *; omega
    · rw [show s.cleaned = true from hx] at hncl; cases hncl
    · rw [show s.gone = true from g] at hg; cases hg
    · rcases hrc with ⟨hr1, hr2⟩ | ⟨hr1, hr2⟩
      · rw [hr1] at c3; right; simp only [St.cl, St.at_, if_true] at *; omega
      · exact absurd hx hr2
    · simp only; omega
    · rcases getElem?_set hk with ⟨_, e⟩ | hk
      · exact absurd e.symm hri.2.2
      · exact j.dest k hk
  | clean i h =>
    have hg := not_gone j h (by simp)
    have hpos : 0 < s.cl := List.countP_pos_iff.2 ⟨_, List.mem_of_getElem? h, rfl⟩
    have h0 := j.clean hpos
    obtain ⟨j1, hx⟩ := j.cleanStep (.inl h0)
    have ht : s.clean.threads = s.threads := by unfold St.clean St.add; split <;> rfl
    have hc0 : s.clean.counter = 0 := by unfold St.clean St.add; split <;> exact h0
    have hg1 : s.clean.gone = false := by unfold St.clean St.add; split <;> exact hg
    generalize s.clean = t at *
    have h : t.threads[i]? = some .cleaning := ht ▸ h
    have c1 := countP_set (p := isIn) (r := .idle) h
    have c2 := countP_set (p := isDes) (r := .idle) h
    have c3 := countP_set (p := isClean) (r := .idle) h
    simp only [isIn, isDes, isClean, if_true, if_false, Bool.false_eq_true] at c1 c2 c3
    have hc := j1.count
    refine { j1 with
      count := ?_, des := fun hf => ?_, des1 := ?_, clean := fun hp => hc0, cleaned := fun hx => ?_
      gone := fun g => ?_, done := fun _ => .inl hx, dest := fun k hk => ?_ }
    · grind [St.inCall, St.own, St.des, St.at_]
    · have := j1.des hf; simp only [St.des, St.at_] at *; omega
    · have := j1.des1; simp only [St.des, St.at_] at *; omega
    · exact .inl hc0
    · rw [show t.gone = true from g] at hg1; cases hg1
    · rcases getElem?_set hk with ⟨_, e⟩ | hk
      · cases e
      · exact j1.dest k hk
  | destroy i h hg =>
    have j1 : Inv (s.add (.destroy i)) := j.addEv (by simp) (by simp)
    have c1 := countP_set (p := isIn) (r := .destroying) h
    have c2 := countP_set (p := isDes) (r := .destroying) h
    have c3 := countP_set (p := isClean) (r := .destroying) h
    simp only [isIn, isDes, isClean, if_false, Bool.false_eq_true] at c1 c2 c3
    have hc := j.count
    refine { j1 with
      count := ?_, des := fun hf => ?_, des1 := ?_, clean := fun hp => ?_, cleaned := fun hx => ?_
      gone := fun g => ?_, done := fun hx => ?_, dest := fun k hk => ?_ }
    · grind [St.inCall, St.own, St.des, St.at_, St.add]
    · have := j.des hf; simp only [St.des, St.at_, St.add] at *; omega
    · have := j.des1; simp only [St.des, St.at_, St.add] at *; omega
    · exact j.clean (by simp only [St.cl, St.at_, St.add] at *; omega)
    · rcases j.cleaned hx with h0 | ⟨h0, _⟩
      · exact .inl h0
      · rw [hg] at h0; cases h0
    · rw [show s.gone = true from g] at hg; cases hg
    · refine (j.done hx).imp id fun h => ?_
      simp only [St.cl, St.at_, St.add] at *; omega
    · exact ⟨i, by simp [St.add, St.at_]⟩
  | set i h =>
    have hg := not_gone j h (by simp)
    have hd := j.dest i h
    cases hf : s.flag with
    | true =>
      simp only [if_true]
      have := j.move h hg (r := .idle) rfl rfl rfl (by simp)
      have e : ({ s.at_ i .idle with flag := true } : St) = s.at_ i .idle := by
        simp only [St.at_, ← hf]
      rw [e]; exact this
    | false =>
      simp only [Bool.false_eq_true, if_false]
      have c1 := countP_set (p := isIn) (r := .destroyed) h
      have c2 := countP_set (p := isDes) (r := .destroyed) h
      have c3 := countP_set (p := isClean) (r := .destroyed) h
      simp only [isIn, isDes, isClean, if_true, if_false, Bool.false_eq_true] at c1 c2 c3
      have hc := j.count
      have hd0 := j.des hf
      refine { j with
        count := ?_, des := fun hf => ?_, des1 := ?_, clean := fun hp => ?_, cleaned := fun hx => ?_
        gone := fun g => ?_, done := fun hx => ?_, dest := fun k hk => ?_, flag := fun _ => hd }
      · simp only [St.inCall, St.own, St.des, St.at_, hf, if_true, if_false, Bool.false_eq_true] at *
        omega
      · cases hf
      · simp only [St.des, St.at_] at *; omega
      · exact j.clean (by simp only [St.cl, St.at_] at *; omega)
      · rcases j.cleaned hx with h0 | ⟨h0, _⟩
        · exact .inl h0
        · rw [hg] at h0; cases h0
      · rw [show s.gone = true from g] at hg; cases hg
      · refine (j.done hx).imp id fun h => ?_
        simp only [St.cl, St.at_] at *; omega
      · rcases getElem?_set hk with ⟨_, e⟩ | hk
        · cases e
        · exact j.dest k hk
  | drop i h =>
    have hg := not_gone j h (by simp)
    have hpos : 0 < s.des := List.countP_pos_iff.2 ⟨_, List.mem_of_getElem? h, rfl⟩
    have hf : s.flag = true := by
      cases hf : s.flag with
      | true => rfl
      | false => have := j.des hf; omega
    have hc := j.count; have := j.bound
    simp only [St.own, hf, if_true] at hc
    have hncl : s.cleaned = false := by
      cases hc : s.cleaned with
      | false => rfl
      | true => rcases j.cleaned hc with h0 | ⟨h0, _⟩
                · omega
                · rw [hg] at h0; cases h0
    have hcl0 : s.cl = 0 := Nat.eq_zero_of_not_pos fun hp => by have := j.clean hp; omega
    generalize hr : (if s.counter - 1 = 0 then Pc.cleaning else Pc.idle) = r
    have hri : isIn r = false ∧ isDes r = false ∧ r ≠ .destroying := by
      subst hr; split <;> simp [isIn, isDes]
    have hrc : (isClean r = true ∧ s.counter - 1 = 0) ∨
        (isClean r = false ∧ s.counter - 1 ≠ 0) := by
      subst hr; split
      · exact .inl ⟨rfl, by assumption⟩
      · exact .inr ⟨rfl, by assumption⟩
    have c1 := countP_set (p := isIn) (r := r) h
    have c2 := countP_set (p := isDes) (r := r) h
    have c3 := countP_set (p := isClean) (r := r) h
    simp only [hri.1, hri.2.1] at c1 c2
    simp only [show isIn .destroyed = false from rfl, show isDes .destroyed = true from rfl,
      show isClean .destroyed = false from rfl, if_true, if_false, Bool.false_eq_true] at c1 c2 c3
    refine { j with
      count := ?_, des := fun hf' => ?_, des1 := ?_, clean := fun hp => ?_, cleaned := fun hx => ?_
      gone := fun g => ?_, done := fun hx => ?_, bound := ?_, dest := fun k hk => ?_ }
    · simp only [St.inCall, St.own, St.des, St.at_, hf, if_true] at *; omega
    · rw [show s.flag = false from hf'] at hf; cases hf
    · have := j.des1; simp only [St.des, St.at_] at *; omega
    · rcases hrc with ⟨hr1, hr2⟩ | ⟨hr1, hr2⟩
      · exact hr2
      · rw [hr1] at c3; simp only [St.cl, St.at_, Bool.false_eq_true, if_false] at *; omega
    · rw [show s.cleaned = true from hx] at hncl; cases hncl
    · rw [show s.gone = true from g] at hg; cases hg
    · rcases hrc with ⟨hr1, hr2⟩ | ⟨hr1, hr2⟩
      · rw [hr1] at c3; right; simp only [St.cl, St.at_, if_true] at *; omega
      · exact absurd hx hr2
    · simp only; omega
    · rcases getElem?_set hk with ⟨_, e⟩ | hk
      · exact absurd e.symm hri.2.2
      · exact j.dest k hk
  | pass i h hg => exact j.move h hg rfl rfl rfl (by simp)
  | lower i h =>
    refine (j.move (r := .idle) h (not_gone j h (by simp)) rfl rfl rfl (by simp)).addEv ?_ ?_ <;> simp
  | lose hg h =>
    have j1 : Inv (s.add .unreachable) := j.addEv (by simp) (by simp)
    refine { j1 with cleaned := fun hx => ?_, gone := fun _ => h, lost := fun _ => ?_ }
    · rcases j.cleaned hx with h0 | ⟨h0, _⟩
      · exact .inl h0
      · rw [hg] at h0; cases h0
    · simp [St.add]
  | collect hg =>
    exact (j.cleanStep (.inr ⟨hg, countP_idle rfl (j.gone hg)⟩)).1

theorem Reach.inv {s : St} (h : Reach s) : Inv s := by
  induction h with
  | init n => exact Inv.init n
  | step s s' _ hs ih => exact ih.step hs

/-- A call of `destroy` sets the flag. -/
theorem Reach.req {s : St} (h : Reach s) (hd : ∃ i, Ev.destroy i ∈ s.log) :
    s.flag = true ∨ ∃ k : Nat, s.threads[k]? = some Pc.destroying := by
  have other : ∀ {s : St} {i : Nat} {q r : Pc}, s.threads[i]? = some q → q ≠ .destroying →
      (s.flag = true ∨ ∃ k : Nat, s.threads[k]? = some Pc.destroying) →
      s.flag = true ∨ ∃ k : Nat, (s.threads.set i r)[k]? = some Pc.destroying := by
    intro s i q r hi hq hh
    refine hh.imp id fun ⟨k, hk⟩ => ⟨k, ?_⟩
    have : i ≠ k := fun e => by subst e; rw [hi] at hk; cases hk; exact hq rfl
    rw [List.getElem?_set_ne this]; exact hk
  have hclean : ∀ {s : St}, (∃ i, Ev.destroy i ∈ s.clean.log) → ∃ i, Ev.destroy i ∈ s.log := by
    intro s ⟨i, hi⟩
    unfold St.clean at hi
    split at hi
    · exact ⟨i, hi⟩
    · simp only [St.add, List.mem_append, List.mem_singleton, reduceCtorEq, or_false] at hi
      exact ⟨i, hi⟩
  induction h with
  | init n => simp at hd
  | step s s' _ hs ih =>
    cases hs with
    | call i h hg => exact other h (by simp) (ih hd)
    | get i h => exact other h (by simp) (ih hd)
    | refuse i c h hc => exact other h (by simp) (ih (by simpa [St.add, St.at_] using hd))
    | full i c h hc hm => exact other h (by simp) (ih (by simpa [St.add, St.at_] using hd))
    | enter i c h hc hm he => exact other h (by simp) (ih hd)
    | retry i c h hc hm he => exact other h (by simp) (ih hd)
    | clone i h => exact other h (by simp) (ih (by simpa [St.add, St.at_] using hd))
    | cloneFails i h => exact other h (by simp) (ih hd)
    | ret i h => exact other h (by simp) (ih (by simpa [St.add, St.at_] using hd))
    | leave i h => exact other h (by simp) (ih hd)
    | clean i h =>
      have ht : s.clean.threads = s.threads := by unfold St.clean St.add; split <;> rfl
      have hf : s.clean.flag = s.flag := by unfold St.clean St.add; split <;> rfl
      have := ih (hclean hd)
      rw [← ht, ← hf] at this
      exact other (s := s.clean) (ht ▸ h) (by simp) this
    | destroy i h hg =>
      refine .inr ⟨i, ?_⟩
      have hl : i < s.threads.length := (List.getElem?_eq_some_iff.1 h).1
      simp [St.add, St.at_, hl]
    | set i h => exact .inl rfl
    | drop i h => exact other h (by simp) (ih hd)
    | pass i h hg => exact other h (by simp) (ih hd)
    | lower i h => exact other h (by simp) (ih (by simpa [St.add, St.at_] using hd))
    | lose hg h => exact ih (by simpa [St.add] using hd)
    | collect hg =>
      have ht : s.clean.threads = s.threads := by unfold St.clean St.add; split <;> rfl
      have hf : s.clean.flag = s.flag := by unfold St.clean St.add; split <;> rfl
      rw [ht, hf]; exact ih (hclean hd)

end Verif.KotlinObject
