import Verif.Export.ItemLemmas

/-!
# Signatures and the members of `impl` blocks and traits: lemmas
-/

namespace Verif.Export

open Spec

theorem forall₂_left {α β : Type} {R : α → β → Prop} {l : List α} {r : List β} (h : List.Forall₂ R l r)
    {x : α} (hx : x ∈ l) : ∃ y ∈ r, R x y := by
  induction h with
  | nil => cases hx
  | cons h1 _ ih =>
    rcases List.mem_cons.1 hx with rfl | hx
    · exact ⟨_, by simp, h1⟩
    · obtain ⟨y, hy, hr⟩ := ih hx
      exact ⟨y, by simp [hy], hr⟩

theorem forall₂_right {α β : Type} {R : α → β → Prop} {l : List α} {r : List β} (h : List.Forall₂ R l r)
    {y : β} (hy : y ∈ r) : ∃ x ∈ l, R x y := by
  induction h with
  | nil => cases hy
  | cons h1 _ ih =>
    rcases List.mem_cons.1 hy with rfl | hy
    · exact ⟨_, by simp, h1⟩
    · obtain ⟨x, hx, hr⟩ := ih hy
      exact ⟨x, by simp [hx], hr⟩

theorem mem_writtenNames {l : List Argument} {n : String} :
    n ∈ writtenNames l ↔ .assign "name" n ∈ l := by
  induction l with
  | nil => simp [writtenNames]
  | cons x l ih =>
    cases x with
    | assign k v =>
      simp only [writtenNames]
      split
      · rename_i h; subst h; simp [ih]
      · rename_i h; simp [ih, Ne.symm h]
    | word w => simp [writtenNames, ih]
    | defaults es t => simp [writtenNames, ih]

theorem mem_writtenRuntimes {l : List Argument} {n : String} :
    n ∈ writtenRuntimes l ↔ .assign "async_runtime" n ∈ l := by
  induction l with
  | nil => simp [writtenRuntimes]
  | cons x l ih =>
    cases x with
    | assign k v =>
      simp only [writtenRuntimes]
      split
      · rename_i h; subst h; simp [ih]
      · rename_i h; simp [ih, Ne.symm h]
    | word w => simp [writtenRuntimes, ih]
    | defaults es t => simp [writtenRuntimes, ih]

theorem FnRep.runtime_iff {l : List Argument} {a : FnArgs} (h : FnRep l a) :
    a.asyncRuntime.isSome ↔ .assign "async_runtime" "tokio" ∈ l := by
  rw [h.asyncRuntime, Option.isSome_map, ← mem_writtenRuntimes]
  constructor
  · intro hs
    cases hw : writtenRuntimes l with
    | nil => simp [hw] at hs
    | cons r rs =>
      have : r ∈ writtenRuntimes l := by simp [hw]
      have := h.args.known _ (mem_writtenRuntimes.1 this)
      rcases this with h' | ⟨n, h'⟩ | ⟨es, t, h', _⟩
      · cases h'; simp
      · simp at h'
      · cases h'
  · intro hm
    cases hw : writtenRuntimes l with
    | nil => simp [hw] at hm
    | cons r rs => simp

theorem FnRep.name_of {l : List Argument} {a : FnArgs} (h : FnRep l a) (d : String) :
    (∀ n, .assign "name" n ∈ l → a.name.getD d = n) ∧
      ((∀ n, .assign "name" n ∉ l) → a.name.getD d = d) := by
  rw [h.name]
  have h1 := h.args.oneName
  simp only [← mem_writtenNames]
  cases hw : writtenNames l with
  | nil => simp
  | cons r rs =>
    rw [hw] at h1
    have : rs = [] := by cases rs with | nil => rfl | cons _ _ => simp at h1
    subst this
    constructor
    · intro n hn; simp at hn; simp [hn]
    · intro hn; exact absurd (by simp) (hn r)

theorem FnRep.keys_iff {l : List Argument} {a : FnArgs} (h : FnRep l a) {k : String} :
    k ∈ a.defaults.map Prod.fst ↔ k ∈ (written l).map Prod.fst := by
  rw [← lastFor_isSome (ps := written l), ← h.defaults k]
  unfold look
  rw [Option.isSome_map, List.find?_isSome, List.mem_map]
  simp

theorem SignatureSays.of_new {kind : FnKind} {sig : Sig} {l : List Argument} {a : FnArgs} {s : FnSignature}
    (ha : FnRep l a) (hn : (argNames sig.inputs).Nodup) (h : FnSignature.new kind sig a = .ok s) :
    SignatureOk sig l ∧ SignatureSays kind sig l s := by
  unfold FnSignature.new at h
  obtain ⟨⟨args, left⟩, h1, h2⟩ := bind_ok.1 h
  rw [splitReceiver_snd, namedArgs_ok (by rw [argNames_after]; exact hn), argNames_after] at h1
  obtain ⟨h1, rfl⟩ := h1
  dsimp only at h2
  split at h2
  · cases h2
  split at h2
  · cases h2
  split at h2
  · cases h2
  rename_i g1 g2 g3
  cases h2
  refine ⟨⟨?_, ?_, ?_, ?_⟩, ⟨rfl, rfl, (ha.name_of _).1, (ha.name_of _).2, rfl, ha.runtime_iff, splitReceiver_fst sig,
    splitReceiver_arc sig, ?_, ?_, ?_⟩⟩
  · intro i hi
    obtain ⟨b, _, n, ty, h, _⟩ := forall₂_left h1 hi
    exact ⟨n, ty, h⟩
  · intro p hp
    have hk := ha.keys_iff.2 (List.mem_map.2 ⟨p, hp, rfl⟩)
    obtain ⟨q, hq, hqp⟩ := List.mem_map.1 hk
    have g1' : a.defaults.filter (fun x => x.1 ∉ argNames sig.inputs) = [] := by simpa using g1
    rw [List.filter_eq_nil_iff] at g1'
    have := g1' q hq
    rw [hqp] at this
    simpa using this
  · intro hasync n hmem
    apply g2
    simp only [hasync, Bool.true_and, List.any_eq_true, decide_eq_true_eq]
    have hmem' : .named n mutBytes ∈ afterReceiver sig.inputs := by
      unfold afterReceiver
      split
      · rename_i ty rest he
        rw [he] at hmem
        simpa using hmem
      · exact hmem
    obtain ⟨b, hb, n', ty', he, rfl⟩ := forall₂_left h1 hmem'
    cases he
    exact ⟨_, hb, (passBy_mut _).1 rfl⟩
  · intro hm
    have := ha.runtime_iff.2 hm
    cases hb : sig.isAsync with
    | true => rfl
    | false => exact absurd (by simp [hb, this]) g3
  · clear g1 g2 g3
    dsimp only
    refine h1.imp ?_
    rintro i b ⟨n, ty, rfl, rfl⟩
    exact ⟨rfl, passBy_ref ty, passBy_mut ty, ha.defaults n⟩
  · intro t ht; simp [ht]
  · intro ht; simp [ht]

theorem SignatureOk.new {sig : Sig} {l : List Argument} {a : FnArgs} (kind : FnKind)
    (ha : FnRep l a) (hn : (argNames sig.inputs).Nodup) (h : SignatureOk sig l) :
    ∃ s, FnSignature.new kind sig a = .ok s := by
  obtain ⟨args, hargs⟩ := forall₂_exists (l := afterReceiver sig.inputs)
    (R := fun i b => ∃ n ty, i = .named n ty ∧ b = toArg a.defaults n ty)
    (by
      intro i hi
      obtain ⟨n, ty, rfl⟩ := h.inputs i hi
      exact ⟨_, n, ty, rfl, rfl⟩)
  have hnamed := (namedArgs_ok (m := a.defaults) (l := afterReceiver sig.inputs)
    (by rw [argNames_after]; exact hn)).2 ⟨hargs, rfl⟩
  have g1 : a.defaults.filter (fun x => x.1 ∉ argNames (afterReceiver sig.inputs)) = [] := by
    rw [List.filter_eq_nil_iff, argNames_after]
    intro x hx
    have : x.1 ∈ (written l).map Prod.fst := ha.keys_iff.1 (List.mem_map.2 ⟨x, hx, rfl⟩)
    obtain ⟨p, hp, hpx⟩ := List.mem_map.1 this
    have := h.defaults p hp
    rw [hpx] at this
    simpa using this
  have g2 : ¬ (sig.isAsync && args.any (fun x => x.passBy = .mutRef)) = true := by
    rw [Bool.and_eq_true]
    rintro ⟨hb, hany⟩
    rw [List.any_eq_true] at hany
    obtain ⟨x, hx, hp⟩ := hany
    have : ∃ n, .named n mutBytes ∈ afterReceiver sig.inputs := by
      obtain ⟨i, hi, n, ty, rfl, rfl⟩ := forall₂_right hargs hx
      have : ty = mutBytes := (passBy_mut ty).2 (by rw [decide_eq_true_eq] at hp; exact hp)
      exact ⟨n, this ▸ hi⟩
    obtain ⟨n, hmem⟩ := this
    apply h.bytes hb n
    unfold afterReceiver at hmem
    split at hmem
    · rename_i ty rest he
      rw [he]
      simp [hmem]
    · exact hmem
  have g3 : ¬ (!sig.isAsync && a.asyncRuntime.isSome) = true := by
    rw [Bool.and_eq_true]
    rintro ⟨h1, h2⟩
    have := h.runtime (ha.runtime_iff.1 h2)
    simp [this] at h1
  unfold FnSignature.new
  rw [splitReceiver_snd, hnamed]
  simp only [bind, Except.bind]
  rw [if_neg (by simpa using g1), if_neg g2, if_neg g3]
  exact ⟨_, rfl⟩

theorem new_ok {sig : Sig} {l : List Argument} {a : FnArgs} (kind : FnKind)
    (ha : FnRep l a) (hn : (argNames sig.inputs).Nodup) :
    (∃ s, FnSignature.new kind sig a = .ok s) ↔ SignatureOk sig l :=
  ⟨fun ⟨_, h⟩ => (SignatureSays.of_new ha hn h).1, fun h => SignatureOk.new kind ha hn h⟩

/-! ### Members -/

/-- The signature made of a member of an `impl` block. -/
theorem implItem_ok {self fs : String} {attrs : List Attribute} {sig : Sig} {b : Bool} {s : FnSignature}
    (hn : (argNames sig.inputs).Nodup) (h : implItem self fs (.fn attrs sig b) = .ok s) :
    AttributesOk attrs ∧ SignatureOk sig (lastArguments attrs) ∧
      (SaysConstructor attrs → SignatureSays (.constructor_ self fs) sig (lastArguments attrs) s) ∧
      (¬ SaysConstructor attrs → SignatureSays (.method self fs) sig (lastArguments attrs) s) := by
  simp only [implItem] at h
  obtain ⟨at_, h1, h2⟩ := bind_ok.1 h
  obtain ⟨ho, hc, ha⟩ := FnAttributes.parse_ok.1 h1
  have := SignatureSays.of_new (FnArgs.parse_rep ha) hn h2
  refine ⟨ho, this.1, fun hs => ?_, fun hs => ?_⟩
  · have := this.2
    rwa [if_pos (hc.2 hs)] at this
  · have := this.2
    rwa [if_neg (fun e => hs (hc.1 e))] at this

theorem implItem_exists {self fs : String} {attrs : List Attribute} {sig : Sig} {b : Bool}
    (hn : (argNames sig.inputs).Nodup) (ho : AttributesOk attrs) (hs : SignatureOk sig (lastArguments attrs)) :
    ∃ s, implItem self fs (.fn attrs sig b) = .ok s := by
  obtain ⟨a, ha⟩ := FnArgs.parse_accepts.2 (lastArguments_ok ho)
  classical
  have h1 : FnAttributes.parse attrs = .ok ⟨decide (SaysConstructor attrs), a⟩ :=
    FnAttributes.parse_ok.2 ⟨ho, by simp, ha⟩
  obtain ⟨s, h⟩ := SignatureOk.new (if decide (SaysConstructor attrs) then .constructor_ self fs else .method self fs)
    (FnArgs.parse_rep ha) hn hs
  refine ⟨s, ?_⟩
  simp only [implItem]
  exact bind_ok.2 ⟨_, h1, h⟩

theorem traitItem_ok {self : String} {i : Nat} {attrs : List Attribute} {sig : Sig} {b : Bool} {s : FnSignature}
    (hn : (argNames sig.inputs).Nodup) (h : traitItem self i (.fn attrs sig b) = .ok s) :
    b = false ∧ AttributesOk attrs ∧ SignatureOk sig (lastArguments attrs) ∧ ¬ SaysConstructor attrs ∧
      SignatureSays (.traitMethod self i) sig (lastArguments attrs) s := by
  simp only [traitItem] at h
  split at h
  · cases h
  obtain ⟨at_, h1, h2⟩ := bind_ok.1 h
  obtain ⟨ho, hc, ha⟩ := FnAttributes.parse_ok.1 h1
  split at h2
  · cases h2
  rename_i hb hcf
  have := SignatureSays.of_new (FnArgs.parse_rep ha) hn h2
  exact ⟨by simpa using hb, ho, this.1, fun e => hcf (hc.2 e), this.2⟩

theorem traitItem_exists {self : String} {i : Nat} {attrs : List Attribute} {sig : Sig}
    (hn : (argNames sig.inputs).Nodup) (ho : AttributesOk attrs) (hs : SignatureOk sig (lastArguments attrs))
    (hc : ¬ SaysConstructor attrs) : ∃ s, traitItem self i (.fn attrs sig false) = .ok s := by
  obtain ⟨a, ha⟩ := FnArgs.parse_accepts.2 (lastArguments_ok ho)
  have h1 : FnAttributes.parse attrs = .ok ⟨false, a⟩ :=
    FnAttributes.parse_ok.2 ⟨ho, by simp [hc], ha⟩
  obtain ⟨s, h⟩ := SignatureOk.new (.traitMethod self i) (FnArgs.parse_rep ha) hn hs
  refine ⟨s, ?_⟩
  simp only [traitItem]
  exact bind_ok.2 ⟨_, h1, h⟩

theorem callable_wrapped {s : FnSignature} {ar : Option Runtime} :
    Wrapped (callable s ar) ↔ s.isAsync = true ∧ ar.isSome := by
  unfold Wrapped callable
  cases s.isAsync
  · simp
  · cases ar with
    | none => simp
    | some r => cases r; simp

theorem implScaffolding_ok {br : Option Runtime} {s : FnSignature} {c : Callable} :
    implScaffolding br s = .ok c ↔ c = callable s (s.asyncRuntime.or br) ∧
      ((∃ a b, s.kind = .constructor_ a b) ↔ ¬ s.receiver.isSome = true) := by
  unfold implScaffolding
  dsimp only
  split
  · rename_i a b hk
    simp only [hk]
    split
    · rename_i hr
      simp [hr]
    · rename_i hr
      simp [hr, eq_comm]
  · rename_i hk
    have : ¬ ∃ a b, s.kind = .constructor_ a b := by
      rintro ⟨a, b, h⟩
      exact hk a b h
    split
    · rename_i hr
      simp [hr, eq_comm]
      intro _ a b h
      exact hk a b h
    · rename_i hr
      simp only [reduceCtorEq, false_iff, not_and]
      intro _ h
      exact this (h.2 hr)

end Verif.Export
