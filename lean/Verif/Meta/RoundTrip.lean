import Verif.Meta.ItemLemmas
/- Whole items. -/
namespace Verif.Meta
open Verif
open Reads (str u8 orig bool docs)
open Out (cons seq appendMap counted append input field)

/-- The bytes of a list of calls, flattened. -/
macro "bytes_eq" : tactic => `(tactic|
  simp only [bytesAll, bytesAll_append, List.append_assoc, List.append_nil, List.nil_append,
    List.cons_append, Op.bytes])

theorem func_out {f : FnSrc} {n : UInt8} {args : List Op} (hn : lenValue f.args.length = some n)
    (ha : callsOf ArgSrc.calls f.args = some args) (pre : Bytes) {ops : List Op} {c : UInt16}
    (ho : ops = .str f.modulePath :: .str f.name :: (origCalls f.origName ++ .bool f.isAsync ::
      .value n :: (args ++ [.buf f.ret.typeId, .longStr f.docstring])))
    (hc : c = cks (pre ++ bytesAll ops)) : Out Rd.func pre ops (f.meaning c) := by
  subst ho
  refine cons (str _ _) (cons (str _ _) (seq (orig _ _) (cons (bool _ _) ?_)))
  refine appendMap (x := .value n :: args) (counted input hn ha _) fun a => ?_
  refine Reads.cons (Reads.returnType _ _).buf (Reads.cons (docs _ _) ?_)
  refine Reads.skip (Reads.checksum _ (c := c) ?_) (Reads.pure _ _)
  rw [hc]; bytes_eq

theorem method_out {f : FnSrc} {s : String} {n : UInt8} {args : List Op}
    (hn : lenValue f.args.length = some n)
    (ha : callsOf ArgSrc.calls f.args = some args) (pre : Bytes) {ops : List Op} {c : UInt16}
    (ho : ops = .str f.modulePath :: .str s :: .str f.name :: (origCalls f.origName ++
      .bool f.isAsync :: .value n :: (args ++ [.buf f.ret.typeId, .longStr f.docstring])))
    (hc : c = cks (pre ++ bytesAll ops)) :
    Out Rd.method pre ops ((f.meaning c).map fun m => { selfName := s, fn := m }) := by
  subst ho
  refine cons (str _ _) (cons (str _ _) (cons (str _ _) (seq (orig _ _) (cons (bool _ _) ?_))))
  simp only [FnSrc.meaning, Option.map_map]
  refine appendMap (x := .value n :: args) (counted input hn ha _) fun a => ?_
  refine Reads.cons (Reads.returnType _ _).buf (Reads.cons (docs _ _) ?_)
  refine Reads.skip (Reads.checksum _ (c := c) ?_) (Reads.pure _ _)
  rw [hc]; bytes_eq

theorem traitMethod_out {f : FnSrc} {s : String} {i : UInt32} {n : UInt8} {args : List Op}
    (hn : lenValue f.args.length = some n)
    (ha : callsOf ArgSrc.calls f.args = some args) (pre : Bytes) {ops : List Op} {c : UInt16}
    (ho : ops = .str f.modulePath :: .str s :: .u32 i :: .str f.name :: (origCalls f.origName ++
      .bool f.isAsync :: .value n :: (args ++ [.buf f.ret.typeId, .longStr f.docstring])))
    (hc : c = cks (pre ++ bytesAll ops)) :
    Out Rd.traitMethod pre ops ((f.meaning c).map (.traitMethod s i)) := by
  subst ho
  refine cons (str _ _) (cons (str _ _) (cons (Reads.u32 _ _) (cons (str _ _) (seq (orig _ _)
    (cons (bool _ _) ?_)))))
  simp only [FnSrc.meaning, Option.map_map]
  refine appendMap (x := .value n :: args) (counted input hn ha _) fun a => ?_
  refine Reads.cons (Reads.returnType _ _).buf (Reads.cons (docs _ _) ?_)
  refine Reads.skip (Reads.checksum _ (c := c) ?_) (Reads.pure _ _)
  rw [hc]; bytes_eq

theorem constructorReturns_iff (s : String) (t : Option MTy) :
    Rd.constructorReturns s t = true ↔ constructs s t := by
  unfold Rd.constructorReturns constructs
  split <;> simp

theorem constructor_out {f : FnSrc} {s : String} {n : UInt8} {args : List Op}
    (hn : lenValue f.args.length = some n)
    (ha : callsOf ArgSrc.calls f.args = some args) (pre : Bytes) {ops : List Op} {c : UInt16}
    (ho : ops = .str f.modulePath :: .str s :: .str f.name :: (origCalls f.origName ++
      .bool f.isAsync :: .value n :: (args ++ [.buf f.ret.typeId, .longStr f.docstring])))
    (hc : c = cks (pre ++ bytesAll ops)) :
    Out Rd.constructor pre ops (if constructs s f.ret.returns then
        (f.meaning c).map fun m =>
          { modulePath := m.modulePath, selfName := s, name := m.name, origName := m.origName,
            isAsync := m.isAsync, inputs := m.inputs, throws := m.throws, checksum := m.checksum,
            docstring := m.docstring }
      else none) := by
  subst ho
  refine cons (str _ _) (cons (str _ _) (cons (str _ _) (seq (orig _ _) (cons (bool _ _) ?_))))
  by_cases h : constructs s f.ret.returns
  · rw [if_pos h]
    simp only [FnSrc.meaning, Option.map_map]
    refine appendMap (x := .value n :: args) (counted input hn ha _) fun a => ?_
    refine Reads.cons (Reads.returnType _ _).buf (Reads.cons (docs _ _) ?_)
    rw [if_pos ((constructorReturns_iff _ _).2 h)]
    refine Reads.skip (Reads.checksum _ (c := c) ?_) (Reads.pure _ _)
    rw [hc]; bytes_eq
  · rw [if_neg h]
    have := append (x := .value n :: args)
      (y := [.buf f.ret.typeId, .longStr f.docstring]) (g := fun _ => (none : Option MCons))
      (f := fun inputs => do
        let (returnType, throws) ← Rd.returnType
        let docstring ← Rd.optLongString
        if Rd.constructorReturns s returnType then
          let checksum ← Rd.checksum
          return { modulePath := f.modulePath, selfName := s, name := f.name, origName := f.origName, isAsync := f.isAsync, inputs := inputs, throws := throws, docstring := docstring, checksum := checksum }
        else Rd.fail)
      (counted input hn ha (pre ++ (Op.str f.modulePath).bytes ++ (Op.str s).bytes ++
        (Op.str f.name).bytes ++ bytesAll (origCalls f.origName) ++ (Op.bool f.isAsync).bytes))
      (fun a _ => by
        refine cons (Reads.returnType _ _).buf (cons (docs _ _) ?_)
        rw [if_neg (fun h' => h ((constructorReturns_iff _ _).1 h'))]
        exact Out.fail _ _)
    have e : (listMeaning ArgSrc.meaning f.args).bind (fun _ => (none : Option MCons)) = none := by
      cases listMeaning ArgSrc.meaning f.args <;> rfl
    rw [e] at this
    exact this

theorem Out.mapEq {α β : Type} {p : Rd α} {f : α → β} {pre : Bytes} {x : List Op} {o : Option α}
    {o' : Option β} (h : Out p pre x o) (e : o.map f = o') :
    Out (p >>= fun a => Pure.pure (f a)) pre x o' := e ▸ h.map

/-- A function of any kind: its metadata, when it comes first. -/
theorem fn_out (f : FnSrc) (c1 c2 : UInt16) {ops : List Op} (h : f.calls = some ops) :
    Out Rd.metadata [] ops ((Item.fn f).meaning (cks (bytesAll ops)) c1 c2) := by
  simp only [FnSrc.calls, Option.bind_eq_some_iff, Option.map_eq_some_iff] at h
  obtain ⟨n, hn, args, ha, h⟩ := h
  simp only [Item.meaning]
  cases hk : f.kind with
  | function =>
    simp only [hk, List.append_assoc, List.cons_append, List.nil_append] at h
    subst h
    refine cons (u8 _ _) ?_
    pick
    exact (func_out hn ha _ rfl (by bytes_eq)).map
  | method s =>
    simp only [hk, List.append_assoc, List.cons_append, List.nil_append] at h
    subst h
    refine cons (u8 _ _) ?_
    pick
    refine (method_out hn ha _ rfl rfl).mapEq ?_
    rw [Option.map_map]; bytes_eq; rfl
  | traitMethod s i =>
    simp only [hk, List.append_assoc, List.cons_append, List.nil_append] at h
    subst h
    refine cons (u8 _ _) ?_
    pick
    exact traitMethod_out hn ha _ rfl (by bytes_eq)
  | constructor s =>
    simp only [hk, List.append_assoc, List.cons_append, List.nil_append] at h
    subst h
    refine cons (u8 _ _) ?_
    pick
    refine (constructor_out hn ha _ rfl rfl).mapEq ?_
    split
    · rw [Option.map_map]; bytes_eq; rfl
    · rfl

/-- The method of a built-in trait. -/
theorem codedMethod_out (f : FnSrc) (pre : Bytes) {ops : List Op} (h : f.calls = some ops) :
    Out Rd.codedMethod pre [.buf ops] (f.methodMeaning (cks (pre ++ bytesAll ops))) := by
  simp only [FnSrc.calls, Option.bind_eq_some_iff, Option.map_eq_some_iff] at h
  obtain ⟨n, hn, args, ha, h⟩ := h
  apply Out.buf
  simp only [FnSrc.methodMeaning]
  cases hk : f.kind with
  | method s =>
    simp only [hk, List.append_assoc, List.cons_append, List.nil_append] at h
    subst h
    refine cons (u8 _ _) ?_
    pick
    exact method_out hn ha _ rfl (by bytes_eq)
  | _ =>
    simp only [hk, List.append_assoc, List.cons_append, List.nil_append] at h
    subst h
    refine cons (u8 _ _) ?_
    pick
    exact Out.fail _ _

theorem record_out (m n : String) (o : Option String) (fs : List FieldSrc) (d : String)
    (c c1 c2 : UInt16) {ops : List Op} (h : (Item.record m n o fs d).calls = some ops) :
    Out Rd.metadata [] ops ((Item.record m n o fs d).meaning c c1 c2) := by
  simp only [Item.calls, Option.bind_eq_some_iff, Option.map_eq_some_iff] at h
  obtain ⟨len, hn, fc, hf, rfl⟩ := h
  flat
  refine cons (u8 _ _) ?_
  pick
  refine cons (str _ _) (cons (str _ _) (seq (orig _ _) ?_))
  exact appendMap (x := .value len :: fc) (counted field hn hf _) fun a => (docs _ _).map

theorem enum_out (m n : String) (o : Option String) (dt : Option RTy) (vs : List VariantSrc)
    (ne : Bool) (d : String) (c c1 c2 : UInt16) {ops : List Op}
    (h : (Item.enum m n o dt vs ne d).calls = some ops) :
    Out Rd.metadata [] ops ((Item.enum m n o dt vs ne d).meaning c c1 c2) := by
  simp only [Item.calls, Option.map_eq_some_iff] at h
  obtain ⟨vc, hv, rfl⟩ := h
  flat
  refine cons (u8 _ _) ?_
  pick
  refine cons (str _ _) (cons (str _ _) (seq (orig _ _) (cons (Reads.shape _ _)
    (seq (Reads.discrType _ _) ?_))))
  exact appendMap (Out.variants hv _) fun a => Reads.cons (bool _ _) (docs _ _).map

theorem error_out (m n : String) (o : Option String) (flat : Bool) (vs : List VariantSrc)
    (ne : Bool) (d : String) (c c1 c2 : UInt16) {ops : List Op}
    (h : (Item.error m n o flat vs ne d).calls = some ops) :
    Out Rd.metadata [] ops ((Item.error m n o flat vs ne d).meaning c c1 c2) := by
  simp only [Item.calls, Option.map_eq_some_iff] at h
  obtain ⟨vc, hv, rfl⟩ := h
  flat
  cases flat with
  | false =>
    refine cons (u8 _ _) ?_
    pick
    refine cons (str _ _) (cons (str _ _) (seq (orig _ _) (cons (Reads.shape _ _) ?_)))
    refine cons (Reads.discrType _ none) ?_
    exact appendMap (Out.variants hv _) fun a => Reads.cons (bool _ _) (docs _ _).map
  | true =>
    refine cons (u8 _ _) ?_
    pick
    refine cons (str _ _) (cons (str _ _) (seq (orig _ _) (cons (Reads.shape _ _) ?_)))
    refine cons (Reads.discrType _ none) ?_
    exact appendMap (Out.flatVariants hv _) fun a => Reads.cons (bool _ _) (docs _ _).map

theorem object_out (m n : String) (o : Option String) (imp : Impl) (d : String)
    (c c1 c2 : UInt16) {ops : List Op} (h : (Item.object m n o imp d).calls = some ops) :
    Out Rd.metadata [] ops ((Item.object m n o imp d).meaning c c1 c2) := by
  cases imp with
  | struct =>
    cases h
    flat
    refine cons (u8 _ _) ?_
    pick
    exact (Reads.cons (str _ _) (Reads.cons (str _ _) (Reads.append (orig _ _)
      (docs _ _).map))).out
  | trait k =>
    cases h
    flat
    refine cons (u8 _ _) ?_
    pick
    refine (Reads.cons (str _ _) (Reads.cons (str _ _) (Reads.append (orig _ _)
      (Reads.cons (docs _ _) ?_)))).out
    refine Reads.map (f := fun k => Metadata.object m n o (.trait k) (docOf d)) ?_
    cases k <;> exact Reads.cons (u8 _ _) (Reads.pure _ _)

/-- The checksums the reader computes for the methods inside of a built-in trait. -/
theorem uniffiTrait_out (t : UTraitSrc) {ops : List Op} (h : (Item.uniffiTrait t).calls = some ops) :
    ∃ c1 c2, ∀ c, Out Rd.metadata [] ops ((Item.uniffiTrait t).meaning c c1 c2) := by
  simp only [Item.calls, Option.map_eq_some_iff] at h
  obtain ⟨mc, hm, rfl⟩ := h
  flat
  have one : ∀ f : FnSrc, callsOf (fun f => f.calls.map fun c => [Op.buf c]) [f] = some mc →
      ∃ x, f.calls = some x ∧ mc = [.buf x] := by
    intro f h
    simp only [callsOf, Option.bind_eq_some_iff, Option.map_eq_some_iff] at h
    obtain ⟨_, ⟨x, hx, rfl⟩, y, hy, rfl⟩ := h
    exact ⟨x, hx, by cases hy; rfl⟩
  cases t with
  | debug f =>
    obtain ⟨x, hx, rfl⟩ := one f hm
    refine ⟨cks ([Core.uniffiTrait, UTraitSrc.code (.debug f)] ++ bytesAll x), 0, fun c => ?_⟩
    refine cons (u8 _ _) ?_
    pick
    refine cons (u8 _ _) ?_
    exact (codedMethod_out f _ hx).map
  | display f =>
    obtain ⟨x, hx, rfl⟩ := one f hm
    refine ⟨cks ([Core.uniffiTrait, UTraitSrc.code (.display f)] ++ bytesAll x), 0, fun c => ?_⟩
    refine cons (u8 _ _) ?_
    pick
    refine cons (u8 _ _) ?_
    exact (codedMethod_out f _ hx).map
  | hash f =>
    obtain ⟨x, hx, rfl⟩ := one f hm
    refine ⟨cks ([Core.uniffiTrait, UTraitSrc.code (.hash f)] ++ bytesAll x), 0, fun c => ?_⟩
    refine cons (u8 _ _) ?_
    pick
    refine cons (u8 _ _) ?_
    exact (codedMethod_out f _ hx).map
  | ord f =>
    obtain ⟨x, hx, rfl⟩ := one f hm
    refine ⟨cks ([Core.uniffiTrait, UTraitSrc.code (.ord f)] ++ bytesAll x), 0, fun c => ?_⟩
    refine cons (u8 _ _) ?_
    pick
    refine cons (u8 _ _) ?_
    exact (codedMethod_out f _ hx).map
  | eq e n =>
    simp only [UTraitSrc.methods, callsOf, Option.bind_eq_some_iff, Option.map_eq_some_iff] at hm
    obtain ⟨_, ⟨x, hx, rfl⟩, _, ⟨_, ⟨y, hy, rfl⟩, _, hz, rfl⟩, rfl⟩ := hm
    cases hz
    refine ⟨cks ([Core.uniffiTrait, UTraitSrc.code (.eq e n)] ++ bytesAll x),
      cks ([Core.uniffiTrait, UTraitSrc.code (.eq e n)] ++ bytesAll x ++ bytesAll y), fun c => ?_⟩
    refine cons (u8 _ _) ?_
    pick
    refine cons (u8 _ _) ?_
    refine append (codedMethod_out e _ hx) fun e' _ => ?_
    have := (codedMethod_out n ([Core.uniffiTrait, UTraitSrc.code (.eq e n)] ++ bytesAll [Op.buf x]) hy).map
      (f := fun n => Metadata.uniffiTrait (.eq e' n))
    simpa [bytesAll, Op.bytes] using this

/-- Any item. -/
theorem item_out (i : Item) {ops : List Op} (h : i.calls = some ops) :
    ∃ c1 c2, Out Rd.metadata [] ops (i.meaning (cks (bytesAll ops)) c1 c2) := by
  cases i with
  | namespace_ k n =>
    cases h
    exact ⟨0, 0, cons (u8 _ _) (cons (str _ _) (str _ _).map.out)⟩
  | udlFile m n s =>
    cases h
    exact ⟨0, 0, cons (u8 _ _) (cons (str _ _) (cons (str _ _) (str _ _).map.out))⟩
  | fn f => exact ⟨0, 0, fn_out f 0 0 h⟩
  | record m n o fs d => exact ⟨0, 0, record_out m n o fs d _ 0 0 h⟩
  | enum m n o dt vs ne d => exact ⟨0, 0, enum_out m n o dt vs ne d _ 0 0 h⟩
  | error m n o f vs ne d => exact ⟨0, 0, error_out m n o f vs ne d _ 0 0 h⟩
  | object m n o imp d => exact ⟨0, 0, object_out m n o imp d _ 0 0 h⟩
  | callbackInterface m n d =>
    cases h
    exact ⟨0, 0, cons (u8 _ _) (cons (str _ _) (cons (str _ _) (docs _ _).map.out))⟩
  | uniffiTrait t =>
    obtain ⟨c1, c2, h⟩ := uniffiTrait_out t h
    exact ⟨c1, c2, h _⟩
  | objectTraitImpl m n t =>
    cases h
    refine ⟨0, 0, cons (u8 _ _) ?_⟩
    pick
    have : Reads Rd.type [Core.objectTraitImpl] ([.buf [.value Core.tInterface], .str m, .str n])
        (.object m n .struct) := by
      have := Reads.type [Core.objectTraitImpl] (.object m n)
      intro ok rest
      exact this ⟨trivial, ok.2⟩ rest
    exact seq this (Reads.type _ t).buf.map.out
  | custom m n t d =>
    cases h
    refine ⟨0, 0, cons (u8 _ _) ?_⟩
    pick
    exact cons (str _ _) (cons (str _ _) (cons (Reads.type _ _).buf (docs _ _).map.out))

end Verif.Meta
