import Verif.Gen.Canonical
import Verif.Gen.CanonicalSpec
/- Lemmas for Verif.Props.Canonical. -/
namespace Verif.Gen.Canonical
open Verif.Meta

/-- The words of which canonical names are made. -/
inductive Word where
  | builtin (b : Builtin)
  | named | callback | optional | sequence | set | map | box
  deriving DecidableEq, Repr

def Builtin.all : List Builtin :=
  [.uint8, .int8, .uint16, .int16, .uint32, .int32, .uint64, .int64, .float32, .float64,
   .boolean, .string, .bytes, .timestamp, .duration]

def Word.all : List Word :=
  [.named, .callback, .optional, .sequence, .set, .map, .box] ++ Builtin.all.map .builtin

theorem Word.mem_all (w : Word) : w ∈ Word.all := by
  cases w with
  | builtin b => cases b <;> decide
  | _ => decide

/-- A word after which any text may follow. -/
def Word.open : Word → Bool
  | .named | .callback => true
  | _ => false

/-- One is a prefix of the other. -/
def comparable : Text → Text → Bool
  | [], _ => true
  | _, [] => true
  | a :: as, b :: bs => a == b && comparable as bs

theorem comparable_of_append : ∀ {a b x y : Text}, a ++ x = b ++ y → comparable a b = true
  | [], _, _, _, _ => by simp [comparable]
  | _ :: _, [], _, _, _ => by simp [comparable]
  | a :: as, b :: bs, x, y, h => by
    simp only [List.cons_append, List.cons.injEq] at h
    simp [comparable, h.1, comparable_of_append h.2]

/-- Words can be told apart: none is a prefix of another, except when what the longer one adds can
begin no word. -/
def distinct (text : Word → Text) : Bool :=
  Word.all.all fun a => Word.all.all fun b =>
    a == b || !comparable (text a) (text b) ||
      (!a.open && !b.open &&
        (text a).length != (text b).length &&
        Word.all.all fun c =>
          !comparable ((text b).drop (text a).length ++ (text a).drop (text b).length) (text c))

/-- The canonical name with the given words. -/
def render (text : Word → Text) : Shape → Text
  | .builtin b => text (.builtin b)
  | .named n => text .named ++ n.toList
  | .callback n => text .callback ++ n.toList
  | .optional t => text .optional ++ render text t
  | .sequence t => text .sequence ++ render text t
  | .set t => text .set ++ render text t
  | .map k v => text .map ++ (render text k ++ render text v)
  | .box t => text .box ++ render text t

/-- The text is empty or begins with a word. -/
def Starts (text : Word → Text) (r : Text) : Prop := r = [] ∨ ∃ w x, r = text w ++ x

theorem starts_render (text : Word → Text) (t : Shape) (r : Text) :
    Starts text (render text t ++ r) := by
  right
  cases t <;> simp only [render, List.append_assoc] <;> exact ⟨_, _, rfl⟩

theorem longer {text : Word → Text} {a b : Word} {x y : Text} (h : text a ++ x = text b ++ y)
    (hl : (text a).length < (text b).length) : x = (text b).drop (text a).length ++ y := by
  have := congrArg (List.drop (text a).length) h
  rw [List.drop_left, List.drop_append_of_le_length (by omega)] at this
  exact this

/-- The first word of a text is determined. -/
theorem word_inj {text : Word → Text} (hd : distinct text = true) {a b : Word} {x y : Text}
    (h : text a ++ x = text b ++ y) (hx : a.open = true ∨ Starts text x)
    (hy : b.open = true ∨ Starts text y) : a = b ∧ x = y := by
  by_cases hab : a = b
  · subst hab
    exact ⟨rfl, List.append_cancel_left h⟩
  · exfalso
    simp only [distinct, List.all_eq_true] at hd
    have := hd a (Word.mem_all a) b (Word.mem_all b)
    simp only [beq_eq_false_iff_ne.2 hab, comparable_of_append h, Bool.not_true, Bool.or_false,
      Bool.false_or, Bool.and_eq_true, Bool.not_eq_true', bne_iff_ne, ne_eq, List.all_eq_true] at this
    obtain ⟨⟨⟨ha, hb⟩, hl⟩, hc⟩ := this
    simp only [ha, hb, Bool.false_eq_true, false_or] at hx hy
    rcases Nat.lt_or_gt_of_ne hl with hl | hl
    · have e := longer h hl
      rcases hx with rfl | ⟨w, z, rfl⟩
      · have := congrArg List.length e
        simp at this
        omega
      · have := hc w (Word.mem_all w)
        rw [List.drop_eq_nil_of_le (as := text a) (by omega), List.append_nil,
          comparable_of_append e.symm] at this
        cases this
    · have e := longer h.symm hl
      rcases hy with rfl | ⟨w, z, rfl⟩
      · have := congrArg List.length e
        simp at this
        omega
      · have := hc w (Word.mem_all w)
        rw [List.drop_eq_nil_of_le (as := text b) (by omega), List.nil_append,
          comparable_of_append e.symm] at this
        cases this

/-- The word a shape begins with, and what follows. -/
def head : Shape → Word
  | .builtin b => .builtin b
  | .named _ => .named
  | .callback _ => .callback
  | .optional _ => .optional
  | .sequence _ => .sequence
  | .set _ => .set
  | .map _ _ => .map
  | .box _ => .box

def body (text : Word → Text) : Shape → Text
  | .builtin _ => []
  | .named n | .callback n => n.toList
  | .optional t | .sequence t | .set t | .box t => render text t
  | .map k v => render text k ++ render text v

theorem render_head (text : Word → Text) (t : Shape) :
    render text t = text (head t) ++ body text t := by
  cases t <;> simp [render, head, body]

theorem starts_body (text : Word → Text) (t : Shape) {r : Text} (hr : Starts text r) :
    (head t).open = true ∨ Starts text (body text t ++ r) := by
  cases t with
  | builtin b => exact .inr hr
  | named _ | callback _ => exact .inl rfl
  | map k v => right; simp only [body, List.append_assoc]; exact starts_render text k _
  | optional t | sequence t | set t | box t => exact .inr (starts_render text t r)

/-- A plain shape is determined by any text that begins with its name. -/
theorem render_plain {text : Word → Text} (hd : distinct text = true) {t : Shape} :
    ∀ {u : Shape} {r s : Text}, t.plain = true → u.plain = true → Starts text r → Starts text s →
      render text t ++ r = render text u ++ s → t = u ∧ r = s := by
  induction t with
  | named | callback => intro u r s h; cases h
  | builtin b =>
    intro u r s _ hu hr hs h
    rw [render_head, render_head text u, List.append_assoc, List.append_assoc] at h
    obtain ⟨e, h⟩ := word_inj hd h (starts_body text _ hr) (starts_body text _ hs)
    cases u <;> simp only [head, reduceCtorEq, Word.builtin.injEq] at e
    subst e
    exact ⟨rfl, h⟩
  | optional t ih | sequence t ih | set t ih | box t ih =>
    intro u r s ht hu hr hs h
    rw [render_head, render_head text u, List.append_assoc, List.append_assoc] at h
    obtain ⟨e, h⟩ := word_inj hd h (starts_body text _ hr) (starts_body text _ hs)
    cases u <;> simp only [head, reduceCtorEq] at e
    simp only [Shape.plain] at ht hu
    simp only [body] at h
    obtain ⟨e, h⟩ := ih ht hu hr hs h
    exact ⟨by rw [e], h⟩
  | map k v ihk ihv =>
    intro u r s ht hu hr hs h
    rw [render_head, render_head text u, List.append_assoc, List.append_assoc] at h
    obtain ⟨e, h⟩ := word_inj hd h (starts_body text _ hr) (starts_body text _ hs)
    cases u <;> simp only [head, reduceCtorEq] at e
    simp only [Shape.plain, Bool.and_eq_true] at ht hu
    simp only [body, List.append_assoc] at h
    obtain ⟨e1, h⟩ := ihk ht.1 hu.1 (starts_render text v r) (starts_render text _ s) h
    obtain ⟨e2, h⟩ := ihv ht.2 hu.2 hr hs h
    exact ⟨by rw [e1, e2], h⟩

theorem render_inj {text : Word → Text} (hd : distinct text = true) {t : Shape} :
    ∀ {u : Shape}, t.plainKeys = true → u.plainKeys = true → render text t = render text u → t = u := by
  have nil : Starts text [] := .inl rfl
  induction t with
  | builtin b | named n | callback n =>
    intro u _ hu h
    rw [render_head, render_head text u, ← List.append_nil (body text _),
      ← List.append_nil (body text u)] at h
    obtain ⟨e, h⟩ := word_inj hd h (starts_body text _ nil) (starts_body text _ nil)
    cases u <;> simp only [head, reduceCtorEq, Word.builtin.injEq] at e
    first
    | rw [e]
    | rw [List.append_nil, List.append_nil] at h
      rw [String.toList_inj.1 h]
  | optional t ih | sequence t ih | set t ih | box t ih =>
    intro u ht hu h
    rw [render_head, render_head text u, ← List.append_nil (body text _),
      ← List.append_nil (body text u)] at h
    obtain ⟨e, h⟩ := word_inj hd h (starts_body text _ nil) (starts_body text _ nil)
    cases u <;> simp only [head, reduceCtorEq] at e
    rw [List.append_nil, List.append_nil] at h
    simp only [Shape.plainKeys] at ht hu
    simp only [body] at h
    rw [ih ht hu h]
  | map k v ihk ihv =>
    intro u ht hu h
    rw [render_head, render_head text u, ← List.append_nil (body text _),
      ← List.append_nil (body text u)] at h
    obtain ⟨e, h⟩ := word_inj hd h (starts_body text _ nil) (starts_body text _ nil)
    cases u <;> simp only [head, reduceCtorEq] at e
    simp only [Shape.plainKeys, Bool.and_eq_true] at ht hu
    simp only [body, List.append_assoc, List.append_nil] at h
    have st : ∀ v, Starts text (render text v) := fun v => by
      have := starts_render text v []
      rwa [List.append_nil] at this
    obtain ⟨e1, h⟩ := render_plain hd ht.1 hu.1 (st _) (st _) h
    rw [e1, ihv ht.2 hu.2 h]

/-! The words of the three languages -/

def pipelineWord : Word → Text
  | .builtin .uint8 => "UInt8".toList
  | .builtin .int8 => "Int8".toList
  | .builtin .uint16 => "UInt16".toList
  | .builtin .int16 => "Int16".toList
  | .builtin .uint32 => "UInt32".toList
  | .builtin .int32 => "Int32".toList
  | .builtin .uint64 => "UInt64".toList
  | .builtin .int64 => "Int64".toList
  | .builtin .float32 => "Float32".toList
  | .builtin .float64 => "Float64".toList
  | .builtin .boolean => "Boolean".toList
  | .builtin .string => "String".toList
  | .builtin .bytes => "Bytes".toList
  | .builtin .timestamp => "Timestamp".toList
  | .builtin .duration => "Duration".toList
  | .named => "Type".toList
  | .callback => "CallbackInterface".toList
  | .optional => "Optional".toList
  | .sequence => "Sequence".toList
  | .set => "Set".toList
  | .map => "Map".toList
  | .box => "Box".toList

def kotlinWord : Word → Text
  | .builtin .uint8 => "UByte".toList
  | .builtin .int8 => "Byte".toList
  | .builtin .uint16 => "UShort".toList
  | .builtin .int16 => "Short".toList
  | .builtin .uint32 => "UInt".toList
  | .builtin .int32 => "Int".toList
  | .builtin .uint64 => "ULong".toList
  | .builtin .int64 => "Long".toList
  | .builtin .float32 => "Float".toList
  | .builtin .float64 => "Double".toList
  | .builtin .bytes => "ByteArray".toList
  | w => pipelineWord w

def swiftWord : Word → Text
  | .builtin .float32 => "Float".toList
  | .builtin .float64 => "Double".toList
  | .builtin .boolean => "Bool".toList
  | .builtin .bytes => "Data".toList
  | .optional => "Option".toList
  | .map => "Dictionary".toList
  | w => pipelineWord w

theorem pipeline_distinct : distinct pipelineWord = true := by decide +kernel
theorem kotlin_distinct : distinct kotlinWord = true := by decide +kernel
theorem swift_distinct : distinct swiftWord = true := by decide +kernel

theorem append_congr {a b c d : Text} (w : Text) (h : a = b) (h' : c = d) :
    w ++ (a ++ c) = w ++ (b ++ d) := by rw [h, h']

theorem pipeline_render (t : MTy) : pipeline t = render pipelineWord (pythonShape t) := by
  induction t with
  | optional t ih | sequence t ih | set t ih | box t ih => exact congrArg (_ ++ ·) ih
  | map k v ihk ihv => exact append_congr _ ihk ihv
  | _ => rfl

theorem kotlin_render (t : MTy) : kotlin t = render kotlinWord (kotlinShape t) := by
  induction t with
  | optional t ih | sequence t ih | set t ih => exact congrArg (_ ++ ·) ih
  | box t ih => exact ih
  | map k v ihk ihv => exact append_congr _ ihk ihv
  | _ => rfl

theorem swift_render (cls : String → String) (t : MTy) :
    swift cls t = render swiftWord (swiftShape cls t) := by
  induction t with
  | optional t ih | sequence t ih | set t ih => exact congrArg (_ ++ ·) ih
  | box t ih => exact ih
  | map k v ihk ihv => exact append_congr _ ihk ihv
  | _ => rfl

end Verif.Gen.Canonical
