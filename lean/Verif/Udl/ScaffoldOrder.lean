import Verif.Udl.ScaffoldItems
/-
The order of the methods of a callback interface.
-/
namespace Verif.Udl.File
open Verif Verif.Meta Verif.Udl Verif.Abi

theorem strict_unique {α : Type} : ∀ {l k : List (Nat × α)}, l.Pairwise (·.1 < ·.1) →
    k.Pairwise (·.1 < ·.1) → (∀ x, x ∈ l ↔ x ∈ k) → l = k
  | [], [], _, _, _ => rfl
  | [], b :: k, _, _, h => absurd ((h b).2 (List.mem_cons_self ..)) (by simp)
  | a :: l, [], _, _, h => absurd ((h a).1 (List.mem_cons_self ..)) (by simp)
  | a :: l, b :: k, hl, hk, h => by
    rw [List.pairwise_cons] at hl hk
    have hab : a = b := by
      rcases List.mem_cons.1 ((h a).1 (List.mem_cons_self ..)) with e | ha
      · exact e
      · rcases List.mem_cons.1 ((h b).2 (List.mem_cons_self ..)) with e | hb
        · exact e.symm
        · have := hl.1 b hb
          have := hk.1 a ha
          omega
    subst hab
    rw [strict_unique hl.2 hk.2]
    intro x
    constructor
    · intro hx
      rcases List.mem_cons.1 ((h x).1 (List.mem_cons_of_mem _ hx)) with rfl | hx'
      · exact absurd (hl.1 _ hx) (by omega)
      · exact hx'
    · intro hx
      rcases List.mem_cons.1 ((h x).2 (List.mem_cons_of_mem _ hx)) with rfl | hx'
      · exact absurd (hk.1 _ hx) (by omega)
      · exact hx'

theorem insertSorted_pairwise (x : Nat × UFn) (l : List (Nat × UFn))
    (hl : l.Pairwise (·.1 < ·.1)) (hx : ∀ y ∈ l, y.1 ≠ x.1) :
    (insertSorted indexLe x l).Pairwise (·.1 < ·.1) := by
  induction l with
  | nil => simp [insertSorted]
  | cons y l ih =>
    have hy := hx y (List.mem_cons_self ..)
    rw [List.pairwise_cons] at hl
    simp only [insertSorted, indexLe, decide_eq_true_eq]
    split
    · rw [List.pairwise_cons, List.pairwise_cons]
      refine ⟨?_, hl⟩
      intro z hz
      rcases List.mem_cons.1 hz with rfl | hz
      · omega
      · have := hl.1 z hz; omega
    · rw [List.pairwise_cons]
      refine ⟨?_, ih hl.2 fun z hz => hx z (List.mem_cons_of_mem _ hz)⟩
      intro z hz
      rcases (mem_insertSorted ..).1 hz with rfl | hz
      · omega
      · exact hl.1 z hz

theorem sorted_pairwise : ∀ (l : List (Nat × UFn)), l.Pairwise (·.1 ≠ ·.1) →
    (sorted indexLe l).Pairwise (·.1 < ·.1)
  | [], _ => by simp [sorted]
  | x :: l, h => by
    rw [List.pairwise_cons] at h
    have : sorted indexLe (x :: l) = insertSorted indexLe x (sorted indexLe l) := rfl
    rw [this]
    refine insertSorted_pairwise _ _ (sorted_pairwise l h.2) ?_
    intro y hy
    exact (h.1 y ((mem_sorted ..).1 hy)).symm

/-- Each method of a callback interface at its position. -/
def positions (methods : List UItem) : List (Nat × UFn) :=
  methods.filterMap fun
    | .traitMethod _ i f => some (i, f)
    | _ => none

theorem mem_positions {crate n : String} {file : List Def} {k : Nat} {ms : List WMember}
    {methods : List UItem} (h : Each (CallbackIs crate file n) (ms.zipIdx k) methods)
    {i : Nat} {f : UFn} : (i, f) ∈ positions methods ↔ .traitMethod n i f ∈ methods := by
  induction ms generalizing k methods with
  | nil => cases h; simp [positions]
  | cons m ms ih =>
    cases h with
    | cons h1 h2 =>
      cases h1
      have := ih h2
      simp only [positions, List.filterMap_cons, List.mem_cons, Prod.mk.injEq, UItem.traitMethod.injEq,
        true_and] at this ⊢
      rw [this]

theorem positions_pairwise {crate n : String} {file : List Def} {k : Nat} {ms : List WMember}
    {methods : List UItem} (h : Each (CallbackIs crate file n) (ms.zipIdx k) methods) :
    (positions methods).Pairwise (·.1 < ·.1) ∧ ∀ x ∈ positions methods, k ≤ x.1 := by
  induction ms generalizing k methods with
  | nil => cases h; simp [positions]
  | cons m ms ih =>
    cases h with
    | cons h1 h2 =>
      cases h1
      obtain ⟨ih1, ih2⟩ := ih h2
      simp only [positions, List.filterMap_cons] at ih1 ih2 ⊢
      refine ⟨List.pairwise_cons.2 ⟨fun x hx => ?_, ih1⟩, ?_⟩
      · have := ih2 x hx; simp only; omega
      · intro x hx
        rcases List.mem_cons.1 hx with rfl | hx
        · simp
        · have := ih2 x hx; omega

theorem positions_each {crate n : String} {file : List Def} {k : Nat} {ms : List WMember}
    {methods : List UItem} (h : Each (CallbackIs crate file n) (ms.zipIdx k) methods) :
    Each (fun m f => ∃ o, m = WMember.op o ∧ MethodIs crate file o f) ms
      ((positions methods).map (·.2)) := by
  induction ms generalizing k methods with
  | nil => cases h; simp [positions]; exact .nil
  | cons m ms ih =>
    cases h with
    | cons h1 h2 =>
      cases h1 with
      | mk h1 => exact .cons ⟨_, rfl, h1⟩ (ih h2)

theorem callbacksOf_pairwise {items : List UItem} (n : String) (hn : items.Nodup)
    (hu : ∀ i f f', .traitMethod n i f ∈ items → .traitMethod n i f' ∈ items → f = f') :
    (callbacksOf items n).Pairwise (·.1 ≠ ·.1) := by
  induction items with
  | nil => simp [callbacksOf]
  | cons x items ih =>
    rw [List.nodup_cons] at hn
    have ih := ih hn.2 fun i f f' h h' => hu i f f' (List.mem_cons_of_mem _ h) (List.mem_cons_of_mem _ h')
    simp only [callbacksOf, List.filterMap_cons] at ih ⊢
    split
    · exact ih
    · rename_i y hy
      refine List.pairwise_cons.2 ⟨?_, ih⟩
      intro z hz
      split at hy
      · split at hy
        · rename_i self i f hs
          subst hs
          simp only [Option.some.injEq] at hy
          subst hy
          intro e
          obtain ⟨w, hw, hz⟩ := List.mem_filterMap.1 hz
          split at hz
          · split at hz
            · rename_i self i f' hs
              simp only [Option.some.injEq] at hz
              subst hz
              subst hs
              simp only at e
              subst e
              have := hu _ _ _ (List.mem_cons_self ..) (List.mem_cons_of_mem _ hw)
              subst this
              exact hn.1 hw
            · simp at hz
          · simp at hz
        · simp at hy
      · simp at hy

end Verif.Udl.File
