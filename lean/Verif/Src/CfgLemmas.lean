import Verif.Src.CfgSpec
/-
Lemmas for Verif.Props.Cfg.
-/
namespace Verif.Src
open Verif.Meta

theorem beqd {α : Type} [BEq α] [LawfulBEq α] [DecidableEq α] (a b : α) : (a == b) = decide (a = b) := by
  by_cases h : a = b <;> simp [h]

theorem word_isIdent (s t : String) : (word s).isIdent t = (s == t) := by
  simp only [word, Path.isIdent, beqd, Path.mk.injEq, List.cons.injEq, Ident.mk.injEq, and_true, true_and]

theorem check_option {e : CompileEnv} {o : Options} (he : Describes e o) (n : String) (v : Option String)
    (h : (Pred.option n v).Known o) : e.check (Pred.option n v).written = .ok (o n v) := by
  simp only [Pred.Known] at h
  rcases h with ⟨hn, hv⟩ | ⟨hn, hw, ho⟩
  · cases v with
    | none => exact absurd rfl hv
    | some v =>
      simp only [targetNames, List.mem_cons, List.not_mem_nil, or_false] at hn
      rcases hn with rfl | rfl | rfl | rfl | rfl | rfl | rfl <;>
        simp only [Pred.written, CompileEnv.check, word_isIdent, List.any_cons, List.any_nil, parseMetaStr]
      · rw [he.feature]; simp [bind, Except.bind]
      · rw [he.arch]; simp [bind, Except.bind, beqd, eq_comm]
      · rw [he.os]; simp [bind, Except.bind, beqd, eq_comm]
      · rw [he.env]; simp [bind, Except.bind, beqd, eq_comm]
      · rw [he.vendor]; simp [bind, Except.bind, beqd, eq_comm]
      · rw [he.endian]; rcases e.endian with _ | _ | _ <;> simp [bind, Except.bind, beqd]
      · rw [he.pointerWidth]; cases e.pointerWidth <;> simp [bind, Except.bind, beqd, eq_comm]
  · rw [ho]
    simp only [targetNames, List.mem_cons, List.not_mem_nil, or_false, not_or] at hn hw
    obtain ⟨h1, h2, h3, h4, h5, h6, h7⟩ := hn
    obtain ⟨w1, w2, w3⟩ := hw
    cases v <;> simp [Pred.written, CompileEnv.check, word_isIdent, h1, h2, h3, h4, h5, h6, h7, w1, w2, w3]

mutual
theorem check_written {e : CompileEnv} {o : Options} (he : Describes e o) :
    ∀ p : Pred, p.Known o → e.check p.written = .ok (p.holds o)
  | .all ps, h => by
    simp only [Pred.Known] at h
    simp only [Pred.written, CompileEnv.check, word_isIdent, Pred.holds]
    exact (check_writtenAll he ps h).1
  | .any ps, h => by
    simp only [Pred.Known] at h
    simp only [Pred.written, CompileEnv.check, word_isIdent, Pred.holds]
    exact (check_writtenAll he ps h).2
  | .not p, h => by
    simp only [Pred.Known] at h
    simp [Pred.written, CompileEnv.check, word_isIdent, Pred.holds, check_written he p h, bind, Except.bind]
  | .option n v, h => by rw [check_option he n v h]; simp only [Pred.holds]
theorem check_writtenAll {e : CompileEnv} {o : Options} (he : Describes e o) :
    ∀ ps : List Pred, PredsKnown o ps →
      e.checkAll (writtenAll ps) = .ok (allHold o ps) ∧ e.checkAny (writtenAll ps) = .ok (anyHolds o ps)
  | [], _ => ⟨by simp only [writtenAll, CompileEnv.checkAll, allHold], by simp only [writtenAll, CompileEnv.checkAny, anyHolds]⟩
  | p :: ps, h => by
    simp only [PredsKnown] at h
    have h1 := check_written he p h.1
    have h2 := check_writtenAll he ps h.2
    constructor
    · simp only [writtenAll, CompileEnv.checkAll, allHold, h1, h2.1, bind, Except.bind]
      cases p.holds o <;> rfl
    · simp only [writtenAll, CompileEnv.checkAny, anyHolds, h1, h2.2, bind, Except.bind]
      cases p.holds o <;> rfl
end

theorem plain_expand {o : Options} : ∀ as : List Attr,
    (∀ a ∈ as, ∃ m, a = .plain m ∧ ¬ m.pathOf.isIdent "cfg" ∧ ¬ m.pathOf.isIdent "cfg_attr") →
      attrsActive o as = true ∧ attrsExpand o as = attrsWritten as
  | [], _ => ⟨by simp only [attrsActive], by simp only [attrsExpand, attrsWritten]⟩
  | a :: as, h => by
    obtain ⟨m, rfl, -, -⟩ := h a (.head _)
    obtain ⟨h1, h2⟩ := plain_expand (o := o) as fun b hb => h b (.tail _ hb)
    exact ⟨by simp only [attrsActive, Attr.active, h1, Bool.and_self], by
      simp only [attrsExpand, Attr.expand, attrsWritten, Attr.written, h2, List.cons_append, List.nil_append]⟩

theorem parse_attrs {e : CompileEnv} {o : Options} (he : Describes e o) :
    ∀ as : List Attr, (∀ a ∈ as, a.Known o) → e.parseAttrs (attrsWritten as) = .ok (configured o as)
  | [], _ => by simp only [attrsWritten, CompileEnv.parseAttrs, configured, attrsActive, attrsExpand, ite_true]
  | a :: as, h => by
    have ha := h a (.head _)
    have hs := parse_attrs he as fun b hb => h b (.tail _ hb)
    cases a with
    | cfg p =>
      simp only [Attr.Known] at ha
      simp only [attrsWritten, Attr.written, CompileEnv.parseAttrs, Meta.pathOf, word_isIdent, beq_self_eq_true, if_true,
        Meta.arg, bind, Except.bind, check_written he p ha, hs, configured, attrsActive, Attr.active, attrsExpand,
        Attr.expand, List.nil_append]
      by_cases hp : p.holds o = true
      · simp [hp]
      · simp [Bool.eq_false_iff.2 hp]
    | cfgAttr p bs =>
      simp only [Attr.Known] at ha
      obtain ⟨h1, h2⟩ := plain_expand (o := o) bs ha.2
      simp only [attrsWritten, Attr.written, CompileEnv.parseAttrs, Meta.pathOf, word_isIdent, Meta.args, bind,
        Except.bind, check_written he p ha.1, hs, configured, attrsActive, Attr.active, attrsExpand, Attr.expand, h1, h2]
      cases p.holds o <;> cases attrsActive o as <;> simp
    | plain m =>
      simp only [Attr.Known, Bool.not_eq_true] at ha
      simp only [attrsWritten, Attr.written, CompileEnv.parseAttrs, ha.1, ha.2, bind, Except.bind, hs, configured,
        attrsActive, Attr.active, attrsExpand, Attr.expand, Bool.true_and]
      cases attrsActive o as <;> simp

end Verif.Src
