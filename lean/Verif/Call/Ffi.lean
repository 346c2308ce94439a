import Verif.Call.Lemmas
/-
Lemmas: lowering on one side and lifting on the other.
-/
namespace Verif.Call
open Verif Verif.Wire

theorem liftBuffer_write (env : Env) (hc : CustomLawful env) {t : Ty} {v : Val} {bs : Bytes}
    {fuel : Nat} (ht : HasTy env t v) (hk : v.All TimeKept) (hw : write env t v = some bs)
    (hf : v.depth ≤ fuel) : ofRes (liftBuffer env fuel t bs) = .ret (.ok v) := by
  rw [Props.Wire.C04_lift_lower env hc t v bs fuel ht hk hw hf]; rfl

/-- Rust lifts what Rust lowered. -/
theorem tryLift_lower (env : Env) (hc : CustomLawful env) : ∀ (fuel : Nat) (t : Ty) (v : Val)
    (x : Ffi), HasTy env t v → v.All TimeKept → lower env fuel t v = .ret x → v.depth ≤ fuel →
    tryLift env fuel t x = .ret (.ok v)
  | 0, t, v, x, ht, hk, h, hf => by simp [lower] at h
  | fuel + 1, t, v, x, ht, hk, h, hf => by
    cases v with
    | int z => cases t <;> simp [HasTy] at ht; simp [lower] at h; subst h; rfl
    | float z => cases t <;> simp [HasTy] at ht <;> simp [lower] at h <;> subst h <;> rfl
    | bool z =>
      cases t <;> simp [HasTy] at ht; simp [lower] at h; subst h; cases z <;> rfl
    | str z =>
      cases t <;> simp [HasTy] at ht; simp [lower] at h; subst h
      simp [tryLift, fromUtf8_utf8]
    | handle z => cases t <;> simp [HasTy] at ht; simp [lower] at h; subst h; rfl
    | box v =>
      cases t <;> simp [HasTy] at ht
      simp only [lower] at h
      have := tryLift_lower env hc fuel _ v x ht (by simpa [Val.All] using hk.2) h
        (by simp [Val.depth] at hf; omega)
      simp [tryLift, this, Eff.bind]
    | custom id low =>
      cases t <;> simp [HasTy] at ht
      obtain ⟨u, lo, ⟨li, he⟩, hl, hu⟩ := ht
      simp only [lower, he] at h
      rw [if_pos hl] at h
      have := tryLift_lower env hc fuel u low x hu (by simpa [Val.All] using hk.2) h
        (by simp [Val.depth] at hf; omega)
      have h2 := hc _ _ _ _ he id
      rw [hl] at h2
      simp [tryLift, he, this, Eff.bind, h2]
    | record fs =>
      cases t <;> try (simp [HasTy] at ht; done)
      rename_i n
      have ht2 := ht
      simp [HasTy] at ht
      obtain ⟨ts, he, ht⟩ := ht
      simp only [lower] at h
      cases hw : write env (.named n) (.record fs) with
      | none => rw [hw] at h; simp at h
      | some bs =>
        rw [hw] at h; simp at h; subst h
        simp only [tryLift, he]
        exact liftBuffer_write env hc ht2 hk hw hf
    | variant i fs =>
      cases t <;> try (simp [HasTy] at ht; done)
      rename_i n
      have ht2 := ht
      simp [HasTy] at ht
      obtain ⟨ts, he, ht⟩ := ht
      simp only [lower] at h
      cases hw : write env (.named n) (.variant i fs) with
      | none => rw [hw] at h; simp at h
      | some bs =>
        rw [hw] at h; simp at h; subst h
        simp only [tryLift, he]
        exact liftBuffer_write env hc ht2 hk hw hf
    | _ =>
      cases t <;> try (simp [HasTy] at ht; done)
      all_goals
        simp only [lower] at h
        split at h
        · rename_i bs hw
          simp at h; subst h
          simp only [tryLift]
          exact liftBuffer_write env hc ht hk hw hf
        · simp at h

/-- Values that cross without being serialized look the same on both sides. -/
def Scalars (L : Lang) : Prop :=
  (∀ z, L.leaf (.int z) = .int z) ∧ (∀ z, L.leaf (.float z) = .float z) ∧
  (∀ z, L.leaf (.bool z) = .bool z) ∧ (∀ z, L.leaf (.str z) = .str z) ∧
  (∀ z, L.leaf (.handle z) = .handle z)

theorem deep_box {P : Ty → Val → Prop} {env : Env} {t : Ty} {v : Val}
    (h : Deep P env (.box t) (.box v)) : Deep P env t v := by
  simp only [Deep] at h; exact h.2 _ rfl

theorem deep_custom {P : Ty → Val → Prop} {env : Env} {n : String} {t : Ty} {lo : Nat → Val}
    {li : Val → Option Nat} {i : Nat} {low : Val} (he : env n = some (.custom t lo li))
    (h : Deep P env (.named n) (.custom i low)) : Deep P env t low := by
  simp only [Deep] at h; exact h.2 _ _ _ _ rfl he

section
variable {L : Lang} {env : Env} {P : Ty → Val → Prop}

/-- The foreign language lowers to exactly what Rust would. -/
theorem flower_lower (hs : Scalars L) (hL : WritesLike L env P) : ∀ (fuel : Nat) (t : Ty) (v : Val)
    (x : Ffi), HasTy env t v → Deep P env t v → lower env fuel t v = .ret x → v.depth ≤ fuel →
    flower L env fuel t (repr L v) = some x
  | 0, t, v, x, ht, hk, h, hf => by simp [lower] at h
  | fuel + 1, t, v, x, ht, hk, h, hf => by
    obtain ⟨s1, s2, s3, s4, s5⟩ := hs
    cases v with
    | int z =>
      cases t <;> simp [HasTy] at ht; simp [lower] at h; subst h; simp [Wire.repr, s1, flower, ht]
    | float z =>
      cases t <;> simp [HasTy] at ht <;> simp [lower] at h <;> subst h <;>
        simp [Wire.repr, s2, flower]
    | bool z =>
      cases t <;> simp [HasTy] at ht; simp [lower] at h; subst h; simp [Wire.repr, s3, flower]
    | str z =>
      cases t <;> simp [HasTy] at ht; simp [lower] at h; subst h; simp [Wire.repr, s4, flower]
    | handle z =>
      cases t <;> simp [HasTy] at ht; simp [lower] at h; subst h; simp [Wire.repr, s5, flower]
    | box v =>
      cases t <;> simp [HasTy] at ht
      simp only [lower] at h
      simp only [Wire.repr, flower]
      exact flower_lower ⟨s1, s2, s3, s4, s5⟩ hL fuel _ v x ht (deep_box hk) h
        (by simp [Val.depth] at hf; omega)
    | custom id low =>
      cases t <;> simp [HasTy] at ht
      obtain ⟨u, lo, ⟨li, he⟩, hl, hu⟩ := ht
      simp only [lower, he] at h
      rw [if_pos hl] at h
      simp only [Wire.repr, flower, he]
      exact flower_lower ⟨s1, s2, s3, s4, s5⟩ hL fuel u low x hu (deep_custom he hk) h
        (by simp [Val.depth] at hf; omega)
    | record fs =>
      cases t <;> try (simp [HasTy] at ht; done)
      rename_i n
      have ht2 := ht
      simp [HasTy] at ht
      obtain ⟨ts, he, ht⟩ := ht
      simp only [lower] at h
      cases hw : write env (.named n) (.record fs) with
      | none => rw [hw] at h; simp at h
      | some bs =>
        rw [hw] at h; simp at h; subst h
        simp only [flower, he, fwrite_write hL _ _ _ _ ht2 hk hw hf, Option.map_some]
    | variant i fs =>
      cases t <;> try (simp [HasTy] at ht; done)
      rename_i n
      have ht2 := ht
      simp [HasTy] at ht
      obtain ⟨ts, he, ht⟩ := ht
      simp only [lower] at h
      cases hw : write env (.named n) (.variant i fs) with
      | none => rw [hw] at h; simp at h
      | some bs =>
        rw [hw] at h; simp at h; subst h
        simp only [flower, he, fwrite_write hL _ _ _ _ ht2 hk hw hf, Option.map_some]
    | _ =>
      cases t <;> try (simp [HasTy] at ht; done)
      all_goals
        simp only [lower] at h
        split at h
        · rename_i bs hw
          simp at h; subst h
          simp only [flower, fwrite_write hL _ _ _ _ ht hk hw hf, Option.map_some]
        · simp at h

/-- The foreign language lifts what Rust lowered. -/
theorem flift_lower (hs : Scalars L) (hL : ReadsLike L env P) : ∀ (fuel : Nat) (t : Ty) (v : Val)
    (x : Ffi), HasTy env t v → Deep P env t v → lower env fuel t v = .ret x → v.depth ≤ fuel →
    fliftFfi L env fuel t x = some (repr L v)
  | 0, t, v, x, ht, hk, h, hf => by simp [lower] at h
  | fuel + 1, t, v, x, ht, hk, h, hf => by
    have key : ∀ t v bs, HasTy env t v → Deep P env t v → write env t v = some bs →
        v.depth ≤ fuel + 1 → flift L env (fuel + 1) t bs = .ok (repr L v) [] := by
      intro t v bs ht hk hw hf
      have := fread_write hL v t bs [] (fuel + 1) ht hk hw hf
      exact Props.Foreign.flift_of_fread (by simpa using this)
    obtain ⟨s1, s2, s3, s4, s5⟩ := hs
    cases v with
    | int z =>
      cases t <;> simp [HasTy] at ht; simp [lower] at h; subst h; simp [Wire.repr, s1, fliftFfi]
    | float z =>
      cases t <;> simp [HasTy] at ht <;> simp [lower] at h <;> subst h <;>
        simp [Wire.repr, s2, fliftFfi]
    | bool z =>
      cases t <;> simp [HasTy] at ht; simp [lower] at h; subst h
      cases z <;> simp [Wire.repr, s3, fliftFfi]
    | str z =>
      cases t <;> simp [HasTy] at ht; simp [lower] at h; subst h
      simp [Wire.repr, s4, fliftFfi, fromUtf8_utf8]
    | handle z =>
      cases t <;> simp [HasTy] at ht; simp [lower] at h; subst h; simp [Wire.repr, s5, fliftFfi]
    | box v =>
      cases t <;> simp [HasTy] at ht
      simp only [lower] at h
      simp only [Wire.repr, fliftFfi]
      exact flift_lower ⟨s1, s2, s3, s4, s5⟩ hL fuel _ v x ht (deep_box hk) h
        (by simp [Val.depth] at hf; omega)
    | custom id low =>
      cases t <;> simp [HasTy] at ht
      obtain ⟨u, lo, ⟨li, he⟩, hl, hu⟩ := ht
      simp only [lower, he] at h
      rw [if_pos hl] at h
      simp only [Wire.repr, fliftFfi, he]
      exact flift_lower ⟨s1, s2, s3, s4, s5⟩ hL fuel u low x hu (deep_custom he hk) h
        (by simp [Val.depth] at hf; omega)
    | record fs =>
      cases t <;> try (simp [HasTy] at ht; done)
      rename_i n
      have ht2 := ht
      simp [HasTy] at ht
      obtain ⟨ts, he, ht⟩ := ht
      simp only [lower] at h
      cases hw : write env (.named n) (.record fs) with
      | none => rw [hw] at h; simp at h
      | some bs =>
        rw [hw] at h; simp at h; subst h
        simp only [fliftFfi, he, key _ _ _ ht2 hk hw hf]
    | variant i fs =>
      cases t <;> try (simp [HasTy] at ht; done)
      rename_i n
      have ht2 := ht
      simp [HasTy] at ht
      obtain ⟨ts, he, ht⟩ := ht
      simp only [lower] at h
      cases hw : write env (.named n) (.variant i fs) with
      | none => rw [hw] at h; simp at h
      | some bs =>
        rw [hw] at h; simp at h; subst h
        simp only [fliftFfi, he, key _ _ _ ht2 hk hw hf]
    | _ =>
      cases t <;> try (simp [HasTy] at ht; done)
      all_goals
        simp only [lower] at h
        split at h
        · rename_i bs hw
          simp at h; subst h
          simp only [fliftFfi, key _ _ _ ht hk hw hf]
        · simp at h

end
end Verif.Call
