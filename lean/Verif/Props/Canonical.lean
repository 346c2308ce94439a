import Verif.Gen.CanonicalLemmas
import Verif.Props.TypeWalk
/-
C56: different types have different converters.
-/
namespace Verif.Props.Canonical
open Verif Verif.Meta Verif.Gen Verif.Gen.Canonical

theorem converter_inj (a b : Text) : converter a = converter b ↔ a = b :=
  ⟨fun h => List.append_cancel_left h, fun h => by rw [h]⟩

/-- Kotlin: two types, of any nesting, have the same converter exactly when they are alike but for the
place where the named types in them are declared. Map keys must not contain user-defined types. -/
theorem C56_kotlin_partial (t u : MTy) (ht : (kotlinShape t).plainKeys) (hu : (kotlinShape u).plainKeys) :
    converter (kotlin t) = converter (kotlin u) ↔ kotlinShape t = kotlinShape u := by
  rw [converter_inj, kotlin_render, kotlin_render]
  exact ⟨render_inj kotlin_distinct ht hu, fun h => by rw [h]⟩

/-- The same for Swift. -/
theorem C56_swift_partial (cls : String → String) (t u : MTy) (ht : (swiftShape cls t).plainKeys)
    (hu : (swiftShape cls u).plainKeys) :
    converter (swift cls t) = converter (swift cls u) ↔ swiftShape cls t = swiftShape cls u := by
  rw [converter_inj, swift_render, swift_render]
  exact ⟨render_inj swift_distinct ht hu, fun h => by rw [h]⟩

/-- The same for Python, where types of one module are compared. -/
theorem C56_python_partial (package : Option String) (t u : MTy) (ht : (pythonShape t).plainKeys)
    (hu : (pythonShape u).plainKeys) :
    pythonConverter package (pipeline t) = pythonConverter package (pipeline u) ↔
      pythonShape t = pythonShape u := by
  have : pythonConverter package (pipeline t) = pythonConverter package (pipeline u) ↔
      pipeline t = pipeline u := by
    cases package <;> exact ⟨fun h => List.append_cancel_left h, fun h => by rw [h]⟩
  rw [this, pipeline_render, pipeline_render]
  exact ⟨render_inj pipeline_distinct ht hu, fun h => by rw [h]⟩

/-- A map from numbers to lists of optional records meets the condition. -/
example : (kotlinShape (.map .uint8 (.sequence (.optional (.record "m" "Foo"))))).plainKeys := by decide

example : kotlin (.map .int8 (.sequence (.record "m" "Foo"))) = "MapByteSequenceTypeFoo".toList ∧
    kotlin (.map .bytes (.record "m" "Foo")) = "MapByteArrayTypeFoo".toList := by decide +kernel

/-- With user-defined types as keys, two different types have one converter, in every language. -/
theorem C56_keys_broken :
    let t : MTy := .map (.record "m" "Foo") (.record "m" "TypeBar")
    let u : MTy := .map (.record "m" "FooType") (.record "m" "Bar")
    kotlinShape t ≠ kotlinShape u ∧ kotlin t = kotlin u ∧ swift id t = swift id u ∧
      pipeline t = pipeline u := by decide +kernel

/-- In Python, `Option<a::Foo>` and `Option<b::Foo>` have one converter: only a type that is itself
declared in another module is told apart by its module. -/
theorem C56_modules_broken :
    pythonConverter none (pipeline (.optional (.record "a" "Foo"))) =
      pythonConverter none (pipeline (.optional (.record "b" "Foo"))) := by decide +kernel

/-! In an interface that loads, a name stands for one type, so that the converter stands for one type
too. -/

theorem inside_trans {a s t : MTy} (h : Inside a s) (h' : Inside s t) : Inside a t := by
  induction h' with
  | refl => exact h
  | part hp _ ih => exact .part hp ih

theorem parts_normalize {s p : MTy} (hb : boxFree s) (hp : p ∈ parts (normalize s)) :
    ∃ q ∈ parts s, p = normalize q := by
  cases s <;> simp_all [normalize, parts, boxFree]

theorem boxFree_parts {s q : MTy} (hb : boxFree s) (hq : q ∈ parts s) : boxFree q := by
  cases s <;> simp_all [parts, boxFree]
  rcases hq with rfl | rfl
  · exact hb.1
  · exact hb.2

theorem inside_normalize {a x : MTy} (h : Inside a x) :
    ∀ s, boxFree s → x = normalize s → ∃ a', Inside a' s ∧ a = normalize a' := by
  induction h with
  | refl => intro s _ e; exact ⟨s, .refl, e⟩
  | @part p x hp _ ih =>
    intro s hb e
    subst e
    obtain ⟨q, hq, e⟩ := parts_normalize hb hp
    obtain ⟨a', ha, e'⟩ := ih q (boxFree_parts hb hq) e
    exact ⟨a', .part hq ha, e'⟩

theorem boxFree_normalize (s : MTy) (hb : boxFree s) : boxFree (normalize s) := by
  induction s <;> simp_all [normalize, boxFree]

theorem boxFree_inside {a t : MTy} (h : Inside a t) : boxFree t → boxFree a := by
  induction h with
  | refl => exact id
  | part hp _ ih => exact fun hb => ih (boxFree_parts hb hp)

/-- Types that are alike and in which a name stands for one type are the same. -/
theorem same_of_shape {x : MTy} : ∀ {y : MTy},
    (∀ a, Inside a x → ∀ b, Inside b y → ∀ n, tyName a = some n → tyName b = some n → a = b) →
    boxFree x → boxFree y → kotlinShape x = kotlinShape y → x = y := by
  induction x with
  | optional t ih | sequence t ih | set t ih =>
    intro y hn hx hy h
    cases y <;> simp [kotlinShape, shape, boxFree] at h hy hx
    rw [ih (fun a ha b hb => hn a (.part (List.mem_singleton.2 rfl) ha) b
      (.part (List.mem_singleton.2 rfl) hb)) hx hy h]
  | map k v ihk ihv =>
    intro y hn hx hy h
    cases y <;> simp [kotlinShape, shape, boxFree] at h hy hx
    rw [ihk (fun a ha b hb => hn a (.part (by simp [parts]) ha) b (.part (by simp [parts]) hb))
        hx.1 hy.1 h.1,
      ihv (fun a ha b hb => hn a (.part (by simp [parts]) ha) b (.part (by simp [parts]) hb))
        hx.2 hy.2 h.2]
  | box t ih => intro y hn hx; simp [boxFree] at hx
  | object m n i | record m n | enum m n | callbackInterface m n | custom m n t =>
    intro y hn hx hy h
    refine hn _ .refl y .refl n rfl ?_
    cases y <;> simp [kotlinShape, shape, boxFree] at h hy hx
    all_goals rw [h]; rfl
  | _ =>
    intro y hn hx hy h
    cases y <;> simp [kotlinShape, shape, boxFree] at h hy hx
    rfl

/-- Whatever an interface contains: if it loads, two of the types that the Kotlin bindings know have
the same converter only if they are the same type. -/
theorem C56_interface_partial (ts : List MTy) (u : Universe)
    (h : addKnownTypes { known := [], defs := [] } ts = some u) (hb : ∀ t ∈ ts, boxFree t)
    (x y : MTy) (hx : x ∈ u.known) (hy : y ∈ u.known) (kx : (kotlinShape x).plainKeys)
    (ky : (kotlinShape y).plainKeys) (e : converter (kotlin x) = converter (kotlin y)) : x = y := by
  have hs := (C56_kotlin_partial x y kx ky).1 e
  obtain ⟨t, ht, s, hst, rfl⟩ := (TypeWalk.C54_known_partial ts u h hb x).1 hx
  obtain ⟨t', ht', s', hst', rfl⟩ := (TypeWalk.C54_known_partial ts u h hb y).1 hy
  have bs := boxFree_inside hst (hb t ht)
  have bs' := boxFree_inside hst' (hb t' ht')
  refine same_of_shape ?_ (boxFree_normalize s bs) (boxFree_normalize s' bs') hs
  intro a ha b hb' n hna hnb
  obtain ⟨a', ha', rfl⟩ := inside_normalize ha s bs rfl
  obtain ⟨b', hb'', rfl⟩ := inside_normalize hb' s' bs' rfl
  have ba := boxFree_inside ha' bs
  have bb := boxFree_inside hb'' bs'
  refine TypeWalk.C54_one_definition ts u h t ht t' ht' a'
    (iterTypes_complete (inside_trans ha' hst) (hb t ht)) b'
    (iterTypes_complete (inside_trans hb'' hst') (hb t' ht')) n ?_ ?_
  · cases a' <;> simp_all [normalize, tyName, boxFree]
  · cases b' <;> simp_all [normalize, tyName, boxFree]

end Verif.Props.Canonical
