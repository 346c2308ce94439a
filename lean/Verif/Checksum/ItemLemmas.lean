import Verif.Checksum.Items
import Verif.Checksum.Lemmas
/- Lemmas for Verif.Props.Checksum: each item is determined by the visible part of its values. -/
set_option linter.unusedSimpArgs false
set_option linter.unusedVariables false

namespace Verif.Checksum.Item
open Verif Verif.Checksum
open Verif.Meta (MTy Impl TraitKind PassBy Radix)

theorem kind_ok (k : TraitKind) : Typed interface (.named .traitKind) (ofKind k) ∧
    visible interface (.named .traitKind) (ofKind k) = ofKind k := by
  cases k <;> simp [Typed, visible, interface, ofKind, unit, Flds.hashed, TypedFields, visibleFields]

theorem impl_ok (i : Impl) : Typed interface (.named .objectImpl) (ofImpl i) ∧
    visible interface (.named .objectImpl) (ofImpl i) = ofImpl i := by
  cases i with
  | struct =>
    simp [Typed, visible, interface, ofImpl, unit, tuple, Flds.hashed, TypedFields, visibleFields]
  | trait k =>
    have := kind_ok k
    simp [Typed, visible, interface, ofImpl, unit, tuple, use, Flds.hashed, TypedFields,
      visibleFields, this]

theorem type_ok (t : MTy) : Typed interface (.named .type) (ofType t) ∧
    visible interface (.named .type) (ofType t) = ofType t := by
  induction t with
  | object m n i =>
    have := impl_ok i
    simp [Typed, visible, interface, ofType, unit, named, use, Flds.hashed, TypedFields,
      visibleFields, this]
  | _ =>
    simp_all [Typed, visible, interface, ofType, unit, named, use, Flds.hashed, TypedFields,
      visibleFields]

theorem ofKind_inj {k l : TraitKind} (h : ofKind k = ofKind l) : k = l := by
  cases k <;> cases l <;> first | rfl | (simp [ofKind] at h)

theorem ofImpl_inj {k l : Impl} (h : ofImpl k = ofImpl l) : k = l := by
  cases k <;> cases l <;> simp [ofImpl] at h
  · rfl
  · rw [ofKind_inj h]

theorem ofType_inj {t u : MTy} (h : ofType t = ofType u) : t = u := by
  induction t generalizing u with
  | object m n i =>
    cases u <;> simp [ofType] at h
    rw [h.1, h.2.1, ofImpl_inj h.2.2]
  | map k v ihk ihv =>
    cases u <;> simp [ofType] at h
    rw [ihk h.1, ihv h.2]
  | custom m n t ih =>
    cases u <;> simp [ofType] at h
    rw [h.1, h.2.1, ih h.2.2]
  | optional t ih | box t ih | sequence t ih | set t ih =>
    cases u <;> simp [ofType] at h
    rw [ih h]
  | _ => cases u <;> simp_all [ofType]


variable {α : Type}

/-- Values that describe items are of type `t`, and their visible part determines the item. -/
structure Faithful (t : Ty Name) (R : α → V → Prop) : Prop where
  typed : ∀ a v, R a v → Typed interface t v
  canon : ∃ c : α → V, (∀ a b, c a = c b → a = b) ∧ ∀ a v, R a v → visible interface t v = c a

theorem Faithful.iff {t : Ty Name} {R : α → V → Prop} (h : Faithful t R) (hd : Distinct interface)
    {a b : α} {v w : V} (ha : R a v) (hb : R b w) :
    enc interface t v = enc interface t w ↔ a = b := by
  obtain ⟨c, hi, hc⟩ := h.canon
  constructor
  · intro e
    have := (enc_inj hd t v w [] [] (h.typed a v ha) (h.typed b w hb) (by rw [e])).1
    rw [hc a v ha, hc b w hb] at this
    exact hi a b this
  · rintro rfl
    rw [← enc_visible t v, hc a v ha, ← hc a w hb, enc_visible]

theorem faithful_of {t : Ty Name} (f : α → V) (hi : ∀ a b, f a = f b → a = b)
    (h : ∀ a, Typed interface t (f a) ∧ visible interface t (f a) = f a) :
    Faithful t (fun a v => v = f a) :=
  ⟨fun a v e => e ▸ (h a).1, f, hi, fun a v e => e ▸ (h a).2⟩

theorem faithful_type : Faithful (.named .type) isType :=
  faithful_of ofType (fun _ _ => ofType_inj) type_ok

theorem faithful_opt {t : Ty Name} {R : α → V → Prop} (h : Faithful t R) :
    Faithful (.option t) (isOpt R) := by
  obtain ⟨c, hi, hc⟩ := h.canon
  refine ⟨?_, fun o => match o with | none => .optNone | some a => .optSome (c a), ?_, ?_⟩
  · rintro (_ | a) v hv
    · cases hv; simp [Typed]
    · obtain ⟨w, rfl, hw⟩ := hv
      simpa [Typed] using h.typed a w hw
  · rintro (_ | a) (_ | b) e <;> simp at e
    · rfl
    · rw [hi a b e]
  · rintro (_ | a) v hv
    · cases hv; simp [visible]
    · obtain ⟨w, rfl, hw⟩ := hv
      simp [visible, hc a w hw]

theorem map_inj {c : α → V} (hi : ∀ a b, c a = c b → a = b) :
    ∀ as bs : List α, as.map c = bs.map c → as = bs
  | [], [], _ => rfl
  | [], _ :: _, e => by simp at e
  | _ :: _, [], e => by simp at e
  | a :: as, b :: bs, e => by
    simp only [List.map_cons, List.cons.injEq] at e
    rw [hi a b e.1, map_inj hi as bs e.2]

theorem faithful_seq {t : Ty Name} {R : α → V → Prop} (h : Faithful t R) :
    Faithful (.seq t) (isSeq R) := by
  obtain ⟨c, hi, hc⟩ := h.canon
  have key : ∀ as ws, isList R as ws →
      TypedSeq interface t ws ∧ visibleSeq interface t ws = as.map c := by
    intro as
    induction as with
    | nil => rintro ws rfl; simp [TypedSeq, visibleSeq]
    | cons a as ih =>
      rintro ws ⟨w, ws, rfl, hw, hws⟩
      simp [TypedSeq, visibleSeq, ih ws hws, h.typed a w hw, hc a w hw]
  refine ⟨?_, fun as => .seq (as.map c), ?_, ?_⟩
  · rintro as v ⟨ws, rfl, hl, hw⟩
    exact ⟨hl, (key as ws hw).1⟩
  · intro as bs e
    simp only [V.seq.injEq] at e
    exact map_inj hi as bs e
  · rintro as v ⟨ws, rfl, hl, hw⟩
    simp [visible, (key as ws hw).2]

theorem radix_ok (r : Radix) : Typed interface (.named .radix) (ofRadix r) ∧
    visible interface (.named .radix) (ofRadix r) = ofRadix r := by
  cases r <;> simp [Typed, visible, interface, ofRadix, Flds.hashed, TypedFields, visibleFields]

theorem passBy_ok (r : PassBy) : Typed interface (.named .passBy) (ofPassBy r) ∧
    visible interface (.named .passBy) (ofPassBy r) = ofPassBy r := by
  cases r <;> simp [Typed, visible, interface, ofPassBy, unit, Flds.hashed, TypedFields, visibleFields]

theorem shape_ok (r : Shape) : Typed interface (.named .enumShape) (ofShape r) ∧
    visible interface (.named .enumShape) (ofShape r) = ofShape r := by
  cases r <;> simp [Typed, visible, interface, ofShape, unit, named, use, Flds.hashed, TypedFields,
    visibleFields]

theorem ofRadix_inj {a b : Radix} (h : ofRadix a = ofRadix b) : a = b := by
  cases a <;> cases b <;> first | rfl | (simp [ofRadix] at h)

theorem ofPassBy_inj {a b : PassBy} (h : ofPassBy a = ofPassBy b) : a = b := by
  cases a <;> cases b <;> first | rfl | (simp [ofPassBy] at h)

theorem ofShape_inj {a b : Shape} (h : ofShape a = ofShape b) : a = b := by
  cases a <;> cases b <;> simp [ofShape] at h
  · rfl
  · rw [h]

mutual
  theorem lit_ok : (l : Lit) → (l.Fits → Typed interface (.named .literal) (ofLit l)) ∧
      visible interface (.named .literal) (ofLit l) = ofLit l
    | .some d => by
      have := dflt_ok d
      simp [Typed, visible, interface, ofLit, unit, named, tuple, use, Flds.hashed, TypedFields,
        visibleFields, Lit.Fits, this.2]
      exact this.1
    | .uint n r t | .int n r t => by
      have h1 := radix_ok r
      have h2 := type_ok t
      simp [Typed, visible, interface, ofLit, unit, named, tuple, use, Flds.hashed, TypedFields,
        visibleFields, Lit.Fits, h1, h2]
    | .float n t | .enum n t => by
      have h2 := type_ok t
      simp [Typed, visible, interface, ofLit, unit, named, tuple, use, Flds.hashed, TypedFields,
        visibleFields, Lit.Fits, h2]
    | .boolean _ | .string _ | .emptySequence | .emptyMap | .emptySet | .none => by
      simp [Typed, visible, interface, ofLit, unit, named, tuple, use, Flds.hashed, TypedFields,
        visibleFields, Lit.Fits]
  theorem dflt_ok : (d : Dflt) → (d.Fits → Typed interface (.named .defaultValue) (ofDflt d)) ∧
      visible interface (.named .defaultValue) (ofDflt d) = ofDflt d
    | .default => by
      simp [Typed, visible, interface, ofDflt, unit, tuple, Flds.hashed, TypedFields, visibleFields]
    | .literal l => by
      have := lit_ok l
      simp [Typed, visible, interface, ofDflt, unit, tuple, use, Flds.hashed, TypedFields,
        visibleFields, Dflt.Fits, this.2]
      exact this.1
end

mutual
  theorem ofLit_inj : (a b : Lit) → ofLit a = ofLit b → a = b
    | .some d, b, h => by
      cases b <;> simp [ofLit] at h
      rw [ofDflt_inj d _ h]
    | .uint n r t, b, h | .int n r t, b, h => by
      cases b <;> simp [ofLit] at h
      rw [h.1, ofRadix_inj h.2.1, ofType_inj h.2.2]
    | .float n t, b, h | .enum n t, b, h => by
      cases b <;> simp [ofLit] at h
      rw [h.1, ofType_inj h.2]
    | .boolean _, b, h | .string _, b, h => by
      cases b <;> simp [ofLit] at h
      rw [h]
    | .emptySequence, b, h | .emptyMap, b, h | .emptySet, b, h | .none, b, h => by
      cases b <;> simp [ofLit] at h
      rfl
  theorem ofDflt_inj : (a b : Dflt) → ofDflt a = ofDflt b → a = b
    | .default, b, h => by
      cases b <;> simp [ofDflt] at h
      rfl
    | .literal l, b, h => by
      cases b <;> simp [ofDflt] at h
      rw [ofLit_inj l _ h]
end

theorem faithful_lit : Faithful (.named .literal) isLit :=
  ⟨fun a v h => h.1 ▸ (lit_ok a).1 h.2, ofLit, ofLit_inj, fun a v h => h.1 ▸ (lit_ok a).2⟩

theorem faithful_dflt : Faithful (.named .defaultValue) isDflt :=
  ⟨fun a v h => h.1 ▸ (dflt_ok a).1 h.2, ofDflt, ofDflt_inj, fun a v h => h.1 ▸ (dflt_ok a).2⟩

theorem faithful_arg : Faithful (.named .argument) isArg := by
  have fd := faithful_opt faithful_dflt
  obtain ⟨c, hi, hc⟩ := fd.canon
  refine ⟨?_, fun a => .struct [.str a.name, ofType a.ty, ofPassBy a.passBy, .bool a.optional,
    c a.default], ?_, ?_⟩
  · rintro a v ⟨d, hd, rfl⟩
    simp [Typed, interface, use, TypedFields, type_ok, passBy_ok]
    exact fd.typed _ _ hd
  · rintro ⟨⟩ ⟨⟩ e
    simp at e
    obtain ⟨rfl, e2, e3, rfl, e5⟩ := e
    rw [ofType_inj e2, ofPassBy_inj e3, hi _ _ e5]
  · rintro a v ⟨d, hd, rfl⟩
    simp [visible, interface, use, visibleFields, type_ok, passBy_ok, hc _ _ hd]

theorem faithful_fn : Faithful (.named .function) isFn := by
  have fa := faithful_seq faithful_arg
  have fo := faithful_opt faithful_type
  obtain ⟨ca, ia, ha⟩ := fa.canon
  obtain ⟨co, io, ho⟩ := fo.canon
  refine ⟨?_, fun a => .struct [.str a.name, .str a.modulePath, .bool a.isAsync, ca a.args, co a.ret,
    .struct [], .struct [], co a.throws, .str a.checksumFn, .struct []], ?_, ?_⟩
  · rintro a v ⟨args, ret, throws, ffi, doc, checksum, h1, h2, h3, rfl⟩
    have t1 := fa.typed _ _ h1
    have t2 := fo.typed _ _ h2
    have t3 := fo.typed _ _ h3
    simp [Typed.eq_10, interface, use, skip, TypedFields, t1, t2, t3]
    simp [Typed]
  · rintro ⟨⟩ ⟨⟩ e
    simp at e
    obtain ⟨rfl, rfl, rfl, e4, e5, e6, rfl⟩ := e
    rw [ia _ _ e4, io _ _ e5, io _ _ e6]
  · rintro a v ⟨args, ret, throws, ffi, doc, checksum, h1, h2, h3, rfl⟩
    simp [visible, interface, use, skip, visibleFields, ha _ _ h1, ho _ _ h2, ho _ _ h3]

theorem faithful_ctor : Faithful (.named .constructor) isCtor := by
  have f0 := faithful_seq faithful_arg
  have f1 := faithful_opt faithful_type
  obtain ⟨c0, i0, k0⟩ := f0.canon
  obtain ⟨c1, i1, k1⟩ := f1.canon
  refine ⟨?_, fun a => .struct [.str a.name, .str a.objectName, .str a.objectModulePath, .bool a.isAsync,
    c0 a.args, .struct [], .struct [], c1 a.throws, .str a.checksumFn, .struct [],
    ofType a.selfType], ?_, ?_⟩
  · rintro a v ⟨args, throws, ffi, doc, checksum, h0, h1, rfl⟩
    have t0 := f0.typed _ _ h0
    have t1 := f1.typed _ _ h1
    simp [Typed.eq_10, interface, use, skip, TypedFields, type_ok, impl_ok, shape_ok, t0, t1]
    try simp [Typed.eq_1, Typed.eq_4]
  · rintro ⟨⟩ ⟨⟩ e
    simp at e
    obtain ⟨rfl, rfl, rfl, rfl, e1, e2, rfl, e3⟩ := e
    rw [i0 _ _ e1, i1 _ _ e2, ofType_inj e3]
  · rintro a v ⟨args, throws, ffi, doc, checksum, h0, h1, rfl⟩
    simp [visible, interface, use, skip, visibleFields, type_ok, impl_ok, shape_ok, k0 _ _ h0, k1 _ _ h1]

theorem faithful_meth : Faithful (.named .method) isMeth := by
  have f0 := faithful_seq faithful_arg
  have f1 := faithful_opt faithful_type
  obtain ⟨c0, i0, k0⟩ := f0.canon
  obtain ⟨c1, i1, k1⟩ := f1.canon
  refine ⟨?_, fun a => .struct [.str a.name, .bool a.isAsync, .struct [], c0 a.args, c1 a.ret, .struct [],
    .struct [], c1 a.throws, .bool a.selfByArc, .str a.checksumFn, .struct []], ?_, ?_⟩
  · rintro a v ⟨st, args, ret, throws, ffi, doc, checksum, h0, h1, h2, rfl⟩
    have t0 := f0.typed _ _ h0
    have t1 := f1.typed _ _ h1
    have t2 := f1.typed _ _ h2
    simp [Typed.eq_10, interface, use, skip, TypedFields, type_ok, impl_ok, shape_ok, t0, t1, t2]
    try simp [Typed.eq_1, Typed.eq_4]
  · rintro ⟨⟩ ⟨⟩ e
    simp at e
    obtain ⟨rfl, rfl, e1, e2, e3, rfl, rfl⟩ := e
    rw [i0 _ _ e1, i1 _ _ e2, i1 _ _ e3]
  · rintro a v ⟨st, args, ret, throws, ffi, doc, checksum, h0, h1, h2, rfl⟩
    simp [visible, interface, use, skip, visibleFields, type_ok, impl_ok, shape_ok, k0 _ _ h0, k1 _ _ h1, k1 _ _ h2]

theorem faithful_utrait : Faithful (.named .uniffiTrait) isUTrait := by
  have f0 := faithful_meth
  obtain ⟨c, i, k⟩ := f0.canon
  refine ⟨?_, fun a => match a with
    | .debug m => .variant 0 [c m]
    | .display m => .variant 1 [c m]
    | .eq m n => .variant 2 [c m, c n]
    | .hash m => .variant 3 [c m]
    | .ord m => .variant 4 [c m], ?_, ?_⟩
  · intro a v h
    cases a with
    | eq m n =>
      obtain ⟨w, x, h1, h2, rfl⟩ := h
      have t1 := f0.typed _ _ h1
      have t2 := f0.typed _ _ h2
      simp [Typed.eq_11, interface, named, use, Flds.hashed, TypedFields, t1, t2]
    | _ =>
      obtain ⟨w, h1, rfl⟩ := h
      have t1 := f0.typed _ _ h1
      simp [Typed.eq_11, interface, named, use, Flds.hashed, TypedFields, t1]
  · intro a b e
    cases a <;> cases b <;> simp at e
    case eq.eq => rw [i _ _ e.1, i _ _ e.2]
    all_goals rw [i _ _ e]
  · intro a v h
    cases a with
    | eq m n =>
      obtain ⟨w, x, h1, h2, rfl⟩ := h
      simp [visible, interface, named, use, Flds.hashed, visibleFields, k _ _ h1, k _ _ h2]
    | _ =>
      obtain ⟨w, h1, rfl⟩ := h
      simp [visible, interface, named, use, Flds.hashed, visibleFields, k _ _ h1]

theorem faithful_field : Faithful (.named .field) isField := by
  have f0 := faithful_opt faithful_dflt
  obtain ⟨c0, i0, k0⟩ := f0.canon
  refine ⟨?_, fun a => .struct [.str a.name, ofType a.ty, c0 a.default, .struct []], ?_, ?_⟩
  · rintro a v ⟨d, doc, h0, rfl⟩
    have t0 := f0.typed _ _ h0
    simp [Typed.eq_10, interface, use, skip, TypedFields, type_ok, impl_ok, shape_ok, t0]
    try simp [Typed.eq_1, Typed.eq_4]
  · rintro ⟨⟩ ⟨⟩ e
    simp at e
    obtain ⟨rfl, e1, e2⟩ := e
    rw [ofType_inj e1, i0 _ _ e2]
  · rintro a v ⟨d, doc, h0, rfl⟩
    simp [visible, interface, use, skip, visibleFields, type_ok, impl_ok, shape_ok, k0 _ _ h0]

theorem faithful_rec : Faithful (.named .record) isRec := by
  have f0 := faithful_seq faithful_field
  have f1 := faithful_seq faithful_ctor
  have f2 := faithful_seq faithful_meth
  have f3 := faithful_seq faithful_utrait
  obtain ⟨c0, i0, k0⟩ := f0.canon
  obtain ⟨c1, i1, k1⟩ := f1.canon
  obtain ⟨c2, i2, k2⟩ := f2.canon
  obtain ⟨c3, i3, k3⟩ := f3.canon
  refine ⟨?_, fun a => .struct [.str a.name, .str a.modulePath, .bool a.remote, c0 a.fields, c1 a.ctors,
    c2 a.methods, c3 a.traits, .struct []], ?_, ?_⟩
  · rintro a v ⟨fields, ctors, methods, traits, doc, h0, h1, h2, h3, rfl⟩
    have t0 := f0.typed _ _ h0
    have t1 := f1.typed _ _ h1
    have t2 := f2.typed _ _ h2
    have t3 := f3.typed _ _ h3
    simp [Typed.eq_10, interface, use, skip, TypedFields, type_ok, impl_ok, shape_ok, t0, t1, t2, t3]
    try simp [Typed.eq_1, Typed.eq_4]
  · rintro ⟨⟩ ⟨⟩ e
    simp at e
    obtain ⟨rfl, rfl, rfl, e1, e2, e3, e4⟩ := e
    rw [i0 _ _ e1, i1 _ _ e2, i2 _ _ e3, i3 _ _ e4]
  · rintro a v ⟨fields, ctors, methods, traits, doc, h0, h1, h2, h3, rfl⟩
    simp [visible, interface, use, skip, visibleFields, type_ok, impl_ok, shape_ok, k0 _ _ h0, k1 _ _ h1, k2 _ _ h2, k3 _ _ h3]

theorem faithful_variant : Faithful (.named .variant) isVariant := by
  have f0 := faithful_opt faithful_lit
  have f1 := faithful_seq faithful_field
  obtain ⟨c0, i0, k0⟩ := f0.canon
  obtain ⟨c1, i1, k1⟩ := f1.canon
  refine ⟨?_, fun a => .struct [.str a.name, c0 a.discr, c1 a.fields, .struct []], ?_, ?_⟩
  · rintro a v ⟨d, fields, doc, h0, h1, rfl⟩
    have t0 := f0.typed _ _ h0
    have t1 := f1.typed _ _ h1
    simp [Typed.eq_10, interface, use, skip, TypedFields, type_ok, impl_ok, shape_ok, t0, t1]
    try simp [Typed.eq_1, Typed.eq_4]
  · rintro ⟨⟩ ⟨⟩ e
    simp at e
    obtain ⟨rfl, e1, e2⟩ := e
    rw [i0 _ _ e1, i1 _ _ e2]
  · rintro a v ⟨d, fields, doc, h0, h1, rfl⟩
    simp [visible, interface, use, skip, visibleFields, type_ok, impl_ok, shape_ok, k0 _ _ h0, k1 _ _ h1]

theorem faithful_enum : Faithful (.named .enum) isEnum := by
  have f0 := faithful_opt faithful_type
  have f1 := faithful_seq faithful_variant
  have f2 := faithful_seq faithful_ctor
  have f3 := faithful_seq faithful_meth
  have f4 := faithful_seq faithful_utrait
  obtain ⟨c0, i0, k0⟩ := f0.canon
  obtain ⟨c1, i1, k1⟩ := f1.canon
  obtain ⟨c2, i2, k2⟩ := f2.canon
  obtain ⟨c3, i3, k3⟩ := f3.canon
  obtain ⟨c4, i4, k4⟩ := f4.canon
  refine ⟨?_, fun a => .struct [.str a.name, .str a.modulePath, .bool a.remote, c0 a.discrType,
    c1 a.variants, ofShape a.shape, .bool a.nonExhaustive, c2 a.ctors, c3 a.methods, c4 a.traits,
    .struct []], ?_, ?_⟩
  · rintro a v ⟨discr, variants, ctors, methods, traits, doc, h0, h1, h2, h3, h4, rfl⟩
    have t0 := f0.typed _ _ h0
    have t1 := f1.typed _ _ h1
    have t2 := f2.typed _ _ h2
    have t3 := f3.typed _ _ h3
    have t4 := f4.typed _ _ h4
    simp [Typed.eq_10, interface, use, skip, TypedFields, type_ok, impl_ok, shape_ok, t0, t1, t2, t3, t4]
    try simp [Typed.eq_1, Typed.eq_4]
  · rintro ⟨⟩ ⟨⟩ e
    simp at e
    obtain ⟨rfl, rfl, rfl, e1, e2, e3, rfl, e4, e5, e6⟩ := e
    rw [i0 _ _ e1, i1 _ _ e2, ofShape_inj e3, i2 _ _ e4, i3 _ _ e5, i4 _ _ e6]
  · rintro a v ⟨discr, variants, ctors, methods, traits, doc, h0, h1, h2, h3, h4, rfl⟩
    simp [visible, interface, use, skip, visibleFields, type_ok, impl_ok, shape_ok, k0 _ _ h0, k1 _ _ h1, k2 _ _ h2, k3 _ _ h3, k4 _ _ h4]

theorem faithful_traitImpl : Faithful (.named .traitImpl) isTraitImpl := by
  refine ⟨?_, fun a => .struct [ofType a.ty, ofType a.trait_], ?_, ?_⟩
  · rintro a v rfl
    simp [Typed.eq_10, interface, use, TypedFields, type_ok]
  · rintro ⟨⟩ ⟨⟩ e
    simp at e
    rw [ofType_inj e.1, ofType_inj e.2]
  · rintro a v rfl
    simp [visible, interface, use, visibleFields, type_ok]

theorem faithful_obj : Faithful (.named .object) isObj := by
  have f0 := faithful_seq faithful_ctor
  have f1 := faithful_seq faithful_meth
  have f2 := faithful_seq faithful_utrait
  have f3 := faithful_seq faithful_traitImpl
  obtain ⟨c0, i0, k0⟩ := f0.canon
  obtain ⟨c1, i1, k1⟩ := f1.canon
  obtain ⟨c2, i2, k2⟩ := f2.canon
  obtain ⟨c3, i3, k3⟩ := f3.canon
  refine ⟨?_, fun a => .struct [.str a.name, ofImpl a.imp, .str a.modulePath, .bool a.remote, c0 a.ctors,
    c1 a.methods, c2 a.traits, c3 a.traitImpls, .struct [], .struct [], .struct [], .struct []], ?_, ?_⟩
  · rintro a v ⟨ctors, methods, traits, impls, clone, free, init, doc, h0, h1, h2, h3, rfl⟩
    have t0 := f0.typed _ _ h0
    have t1 := f1.typed _ _ h1
    have t2 := f2.typed _ _ h2
    have t3 := f3.typed _ _ h3
    simp [Typed.eq_10, interface, use, skip, TypedFields, type_ok, impl_ok, shape_ok, t0, t1, t2, t3]
    try simp [Typed.eq_1, Typed.eq_4]
  · rintro ⟨⟩ ⟨⟩ e
    simp at e
    obtain ⟨rfl, e1, rfl, rfl, e2, e3, e4, e5⟩ := e
    rw [ofImpl_inj e1, i0 _ _ e2, i1 _ _ e3, i2 _ _ e4, i3 _ _ e5]
  · rintro a v ⟨ctors, methods, traits, impls, clone, free, init, doc, h0, h1, h2, h3, rfl⟩
    simp [visible, interface, use, skip, visibleFields, type_ok, impl_ok, shape_ok, k0 _ _ h0, k1 _ _ h1, k2 _ _ h2, k3 _ _ h3]

theorem faithful_callback : Faithful (.named .callbackInterface) isCallback := by
  have f0 := faithful_seq faithful_meth
  obtain ⟨c0, i0, k0⟩ := f0.canon
  refine ⟨?_, fun a => .struct [.str a.name, .str a.modulePath, c0 a.methods, .struct [], .struct []], ?_, ?_⟩
  · rintro a v ⟨methods, init, doc, h0, rfl⟩
    have t0 := f0.typed _ _ h0
    simp [Typed.eq_10, interface, use, skip, TypedFields, type_ok, impl_ok, shape_ok, t0]
    try simp [Typed.eq_1, Typed.eq_4]
  · rintro ⟨⟩ ⟨⟩ e
    simp at e
    obtain ⟨rfl, rfl, e1⟩ := e
    rw [i0 _ _ e1]
  · rintro a v ⟨methods, init, doc, h0, rfl⟩
    simp [visible, interface, use, skip, visibleFields, type_ok, impl_ok, shape_ok, k0 _ _ h0]

theorem faithful_custom : Faithful (.named .customType) isCustom := by
  refine ⟨?_, fun a => .struct [.str a.name, .str a.modulePath, ofType a.builtin, .struct []], ?_, ?_⟩
  · rintro a v ⟨doc, rfl⟩
    simp [Typed.eq_10, interface, use, skip, TypedFields, type_ok, impl_ok, shape_ok]
    try simp [Typed.eq_1, Typed.eq_4]
  · rintro ⟨⟩ ⟨⟩ e
    simp at e
    obtain ⟨rfl, rfl, e1⟩ := e
    rw [ofType_inj e1]
  · rintro a v ⟨doc, rfl⟩
    simp [visible, interface, use, skip, visibleFields, type_ok, impl_ok, shape_ok]

end Verif.Checksum.Item
