import Verif.Props.Types
import Verif.Spec.Invoke
/-
C06: what is recorded about a type, completely.
-/
set_option autoImplicit false
namespace Rtti.Props
open Rtti Spec Rtti.Val

/-- the kind of the type at the bottom -/
def Bottom (t : CType) (k : Kind) : Prop := ∃ b, Over t b ∧ b.kind = k

/-- the type at the bottom has the trait -/
def BottomIs (t : CType) (f : Traits → Bool) : Prop := ∃ b, Over t b ∧ f b.traits = true

/-- the meaning of the flags, in the order of their bits, /repo/include/rtti/metatype.h:39-69 -/
def FlagMeanings (T : RType) : List Prop := [
  IsConst T.t,
  ∃ q t, T.t = .ptr q t,
  ∃ b q, T.t = .base b q ∧ b.kind = .memberPtr,
  T.ref = .lref,
  T.ref = .rref,
  (∃ n t, T.t = .arr n t) ∨ ∃ q n t, T.t = .ptr q (.arr n t),
  Bottom T.t .void, Bottom T.t .integral, Bottom T.t .floating, Bottom T.t .enum, Bottom T.t .func, Bottom T.t .union, Bottom T.t .cls,
  BottomIs T.t (·.standardLayout), BottomIs T.t (·.trivial), BottomIs T.t (·.abstract), BottomIs T.t (·.polymorphic),
  BottomIs T.t (·.defaultC), BottomIs T.t (·.copyC), BottomIs T.t (·.copyA), BottomIs T.t (·.moveC), BottomIs T.t (·.moveA),
  BottomIs T.t (·.destructible),
  ∀ b q, T.t = .base b q → b.traits.eq = true]

/-- `sizeof` -/
inductive Size : CType → Nat → Prop
  | base (b : Base) (q : CV) : Size (.base b q) b.size
  | ptr (q : CV) (t : CType) : Size (.ptr q t) 8
  | arr (n : Nat) {t : CType} {s : Nat} : Size t s → Size (.arr n t) (n * s)

private theorem over_iff (t : CType) (b : Base) : Over t b ↔ t.baseType = b := by
  constructor
  · intro h; induction h with
    | base => rfl
    | ptr _ _ ih => exact ih
    | arr _ _ ih => exact ih
  · rintro rfl
    induction t with
    | base b q => exact .base b q
    | ptr q t ih => exact .ptr q ih
    | arr n t ih => exact .arr n ih

private theorem bottom (t : CType) (k : Kind) : Bottom t k ↔ t.baseType.kind = k := by
  simp [Bottom, over_iff]

private theorem bottomIs (t : CType) (f : Traits → Bool) : BottomIs t f ↔ f t.baseType.traits = true := by
  simp [BottomIs, over_iff]

private theorem testBit_flagIf (b : Bool) (i k : Nat) : (flagIf b (1 <<< i)).testBit k = (b && decide (i = k)) := by
  cases b <;> simp [flagIf, Nat.one_shiftLeft, Nat.testBit_two_pow]

private theorem bits (T : RType) (k : Nat) : (describe T).flags.testBit k =
    ([T.t.isConst, T.t.isPointer, (match T.t with | .base b _ => decide (b.kind = .memberPtr) | _ => false), decide (T.ref = .lref), decide (T.ref = .rref),
      T.t.removePointer.isArray, decide (T.t.baseType.kind = .void), decide (T.t.baseType.kind = .integral), decide (T.t.baseType.kind = .floating),
      decide (T.t.baseType.kind = .enum), decide (T.t.baseType.kind = .func), decide (T.t.baseType.kind = .union), decide (T.t.baseType.kind = .cls),
      T.t.baseType.traits.standardLayout, T.t.baseType.traits.trivial, T.t.baseType.traits.abstract, T.t.baseType.traits.polymorphic,
      T.t.baseType.traits.defaultC, T.t.baseType.traits.copyC, T.t.baseType.traits.copyA, T.t.baseType.traits.moveC, T.t.baseType.traits.moveA,
      T.t.baseType.traits.destructible, T.t.hasEq] : List Bool)[k]?.getD false := by
  have e : (describe T).flags = typeFlags T := rfl
  rw [e]
  unfold typeFlags
  simp only [Flag.Const, Flag.Pointer, Flag.MemberPointer, Flag.LvalueReference, Flag.RvalueReference, Flag.Array, Flag.Void, Flag.Integral,
    Flag.FloatPoint, Flag.Enum, Flag.Function, Flag.Union, Flag.Class, Flag.StandardLayout, Flag.Trivial, Flag.Abstract, Flag.Polymorphic,
    Flag.DefaultConstructible, Flag.CopyConstructible, Flag.CopyAssignable, Flag.MoveConstructible, Flag.MoveAssignable, Flag.Destructible,
    Flag.EQ_Comparable, Nat.testBit_or, testBit_flagIf]
  match k with
  | 0 => simp
  | 1 => simp
  | 2 => simp; cases T.t <;> rfl
  | 3 => simp
  | 4 => simp
  | 5 => simp
  | 6 => simp
  | 7 => simp
  | 8 => simp
  | 9 => simp
  | 10 => simp
  | 11 => simp
  | 12 => simp
  | 13 => simp
  | 14 => simp
  | 15 => simp
  | 16 => simp
  | 17 => simp
  | 18 => simp
  | 19 => simp
  | 20 => simp
  | 21 => simp
  | 22 => simp
  | 23 => simp
  | k + 24 => simp

/-- C06: every flag says what its name says, of the type without reference or of the type at its bottom; no other bit is set. -/
theorem C06_flags (T : RType) : (FlagMeanings T).length = 24 ∧
    (∀ k p, (FlagMeanings T)[k]? = some p → ((describe T).flags.testBit k = true ↔ p)) ∧
    (∀ k, 24 ≤ k → (describe T).flags.testBit k = false) := by
  refine ⟨rfl, fun k p h => ?_, fun k h => ?_⟩
  · rw [bits]
    match k, h with
    | 0, h => cases h; simpa using (isConst_iff T.t)
    | 1, h => cases h; cases T.t <;> simp [CType.isPointer]
    | 2, h => cases h; cases T.t <;> simp
    | 3, h => cases h; simp
    | 4, h => cases h; simp
    | 5, h =>
      cases h
      cases ht : T.t with
      | base => simp [CType.removePointer, CType.isArray]
      | arr => simp [CType.removePointer, CType.isArray]
      | ptr q t => cases t <;> simp [CType.removePointer, CType.isArray]
    | 6, h => cases h; simp [bottom]
    | 7, h => cases h; simp [bottom]
    | 8, h => cases h; simp [bottom]
    | 9, h => cases h; simp [bottom]
    | 10, h => cases h; simp [bottom]
    | 11, h => cases h; simp [bottom]
    | 12, h => cases h; simp [bottom]
    | 13, h => cases h; simp [bottomIs]
    | 14, h => cases h; simp [bottomIs]
    | 15, h => cases h; simp [bottomIs]
    | 16, h => cases h; simp [bottomIs]
    | 17, h => cases h; simp [bottomIs]
    | 18, h => cases h; simp [bottomIs]
    | 19, h => cases h; simp [bottomIs]
    | 20, h => cases h; simp [bottomIs]
    | 21, h => cases h; simp [bottomIs]
    | 22, h => cases h; simp [bottomIs]
    | 23, h => cases h; cases T.t <;> simp [CType.hasEq]
    | k + 24, h => cases h
  · rw [bits, List.getElem?_eq_none (by simpa using h)]; rfl

/-- C06: the size is `sizeof`, of the type referred to for a reference. -/
theorem C06_size (T : RType) (n : Nat) : (describe T).size = n ↔ Size T.t n := by
  change T.t.sizeOf = n ↔ _
  generalize T.t = t
  induction t generalizing n with
  | base b q => exact ⟨fun h => h ▸ .base b q, fun h => by cases h; rfl⟩
  | ptr q t => exact ⟨fun h => h ▸ .ptr q t, fun h => by cases h; rfl⟩
  | arr k t ih =>
    refine ⟨fun h => h ▸ .arr k ((ih _).1 rfl), fun h => ?_⟩
    cases h with | arr _ h => rw [CType.sizeOf, (ih _).2 h]

/-- C06: the predicates on pointers: to a class, to a function (exactly one level), to `void` (at the bottom of any number of levels). -/
theorem C06_pointers (T : RType) (h : T.t.pointerArity < 65536) :
    ((describe T).isClassPtr = true ↔ ∃ q t, T.t = .ptr q t ∧ Depth t 0 ∧ Bottom t .cls) ∧
    ((describe T).isFunctionPtr = true ↔ ∃ q t, T.t = .ptr q t ∧ Depth t 0 ∧ Bottom t .func) ∧
    ((describe T).isVoidPtr = true ↔ ∃ q t, T.t = .ptr q t ∧ Bottom t .void) := by
  unfold Desc.isClassPtr Desc.isFunctionPtr Desc.isVoidPtr
  rw [show (describe T).has Flag.Pointer = (describe T).isPointer from rfl, describe_isPointer, describe_hasClass, describe_hasFunc, describe_hasVoid,
    show (describe T).arity = T.t.pointerArity % 65536 from rfl, Nat.mod_eq_of_lt h]
  cases T.t with
  | base => simp [CType.isPointer]
  | arr => simp [CType.isPointer]
  | ptr q t =>
    simp only [CType.isPointer, CType.pointerArity, CType.baseType, Bool.and_true, Bool.and_eq_true, beq_iff_eq, CType.ptr.injEq,
      depth_iff, bottom, Nat.add_eq_right]
    refine ⟨⟨fun h => ⟨q, t, ⟨rfl, rfl⟩, h.1.symm, of_decide_eq_true h.2⟩, ?_⟩, ⟨fun h => ⟨q, t, ⟨rfl, rfl⟩, h.1.symm, of_decide_eq_true h.2⟩, ?_⟩, ⟨fun h => ⟨q, t, ⟨rfl, rfl⟩, of_decide_eq_true h⟩, ?_⟩⟩
    · rintro ⟨q', t', ⟨rfl, rfl⟩, h1, h2⟩; exact ⟨h1.symm, decide_eq_true h2⟩
    · rintro ⟨q', t', ⟨rfl, rfl⟩, h1, h2⟩; exact ⟨h1.symm, decide_eq_true h2⟩
    · rintro ⟨q', t', ⟨rfl, rfl⟩, h2⟩; exact decide_eq_true h2

/-- `int const *[3]` is an array of pointers, `int (*)[3]` a pointer to an array -/
example : (describe ⟨.lref, .arr 3 (.ptr ⟨false, false⟩ (.base Ex.intB ⟨true, false⟩))⟩).flags.testBit 5 = true ∧
    (describe ⟨.lref, .arr 3 (.ptr ⟨false, false⟩ (.base Ex.intB ⟨true, false⟩))⟩).flags.testBit 1 = false ∧
    (describe ⟨.none, .ptr ⟨false, false⟩ (.arr 3 Ex.int)⟩).flags.testBit 1 = true ∧
    (describe ⟨.none, .ptr ⟨false, false⟩ (.arr 3 Ex.int)⟩).flags.testBit 5 = true ∧
    (describe ⟨.lref, .arr 3 (.ptr ⟨false, false⟩ (.base Ex.intB ⟨true, false⟩))⟩).size = 24 := by decide

end Rtti.Props
