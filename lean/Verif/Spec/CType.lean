import Verif.Model.CType
/-
Independent descriptions of C++ types: equality up to qualifiers, levels, qualification conversion,
reference binding, constness along an access path. Only the constructors of `CType` are used.
-/
set_option autoImplicit false
namespace Rtti.Spec
open Rtti

/-- equal after erasing const and volatile at every level -/
inductive SameModCv : CType → CType → Prop
  | base (b : Base) (q q' : CV) : SameModCv (.base b q) (.base b q')
  | ptr (q q' : CV) {s t : CType} : SameModCv s t → SameModCv (.ptr q s) (.ptr q' t)
  | arr (n : Nat) {s t : CType} : SameModCv s t → SameModCv (.arr n s) (.arr n t)

/-- equal after erasing const at every level -/
inductive SameModConst : CType → CType → Prop
  | base (b : Base) (c c' v : Bool) : SameModConst (.base b ⟨c, v⟩) (.base b ⟨c', v⟩)
  | ptr (c c' v : Bool) {s t : CType} : SameModConst s t → SameModConst (.ptr ⟨c, v⟩ s) (.ptr ⟨c', v⟩ t)
  | arr (n : Nat) {s t : CType} : SameModConst s t → SameModConst (.arr n s) (.arr n t)

/-- `s` used as a value is a pointer to `e`: pointers, arrays (array-to-pointer conversion), functions -/
inductive PointsTo : CType → CType → Prop
  | ptr (q : CV) (e : CType) : PointsTo (.ptr q e) e
  | arr (n : Nat) (e : CType) : PointsTo (.arr n e) e
  | func (b : Base) (q : CV) : b.kind = .func → PointsTo (.base b q) (.base b q)

/-- the same type once used as a value and cv erased at every level -/
def SameDecay (s t : CType) : Prop :=
  (∃ e e', PointsTo s e ∧ PointsTo t e' ∧ SameModCv e e') ∨
  (∃ b q q', b.kind ≠ .func ∧ s = .base b q ∧ t = .base b q')

/-- number of outer pointers -/
inductive Depth : CType → Nat → Prop
  | base (b : Base) (q : CV) : Depth (.base b q) 0
  | arr (n : Nat) (t : CType) : Depth (.arr n t) 0
  | ptr (q : CV) {t : CType} {d : Nat} : Depth t d → Depth (.ptr q t) (d + 1)

/-- the type all pointers and arrays are made of -/
inductive Innermost : CType → Base → Prop
  | base (b : Base) (q : CV) : Innermost (.base b q) b
  | ptr (q : CV) {t : CType} {b : Base} : Innermost t b → Innermost (.ptr q t) b
  | arr (n : Nat) {t : CType} {b : Base} : Innermost t b → Innermost (.arr n t) b

/-- `s` is what remains of `t` when outer pointers are removed until `k` are left -/
inductive AtLevel : CType → Nat → CType → Prop
  | here {t : CType} {d : Nat} : Depth t d → AtLevel t d t
  | under (q : CV) {t s : CType} {k : Nat} : AtLevel t k s → AtLevel (.ptr q t) k s

/-- the type is const (arrays: their elements are) -/
inductive IsConst : CType → Prop
  | base (b : Base) (v : Bool) : IsConst (.base b ⟨true, v⟩)
  | ptr (v : Bool) (t : CType) : IsConst (.ptr ⟨true, v⟩ t)
  | arr (n : Nat) {t : CType} : IsConst t → IsConst (.arr n t)

/-- the type is volatile (arrays: their elements are) -/
inductive IsVolatile : CType → Prop
  | base (b : Base) (c : Bool) : IsVolatile (.base b ⟨c, true⟩)
  | ptr (c : Bool) (t : CType) : IsVolatile (.ptr ⟨c, true⟩ t)
  | arr (n : Nat) {t : CType} : IsVolatile t → IsVolatile (.arr n t)

/-- no arrays anywhere -/
inductive ArrayFree : CType → Prop
  | base (b : Base) (q : CV) : ArrayFree (.base b q)
  | ptr (q : CV) {t : CType} : ArrayFree t → ArrayFree (.ptr q t)

/-- [conv.qual] read from the outside in, for types equal up to const: const is not dropped, and is added
    only where every level outside (down from where we started) is const in the target.
    `k`: all target levels passed so far are const. -/
inductive Lvl : Bool → CType → CType → Prop
  | base {k : Bool} (b : Base) (q q' : CV) : (q.c = true → q'.c = true) → (q.c ≠ q'.c → k = true) →
      Lvl k (.base b q) (.base b q')
  | ptr {k : Bool} (q q' : CV) {s t : CType} : (q.c = true → q'.c = true) → (q.c ≠ q'.c → k = true) →
      Lvl (k && q'.c) s t → Lvl k (.ptr q s) (.ptr q' t)

/-- a value of type `s` initialises an object of type `t` (equal up to const): the top level is copied -/
inductive ValueInit : CType → CType → Prop
  | base (b : Base) (q q' : CV) : ValueInit (.base b q) (.base b q')
  | ptr (q q' : CV) {s t : CType} : Lvl true s t → ValueInit (.ptr q s) (.ptr q' t)

/-- An expression of type `S` (an lvalue exactly if `S` is an lvalue reference) may initialise a
    parameter of type `T`, where the types are equal up to const. [dcl.init.ref], [conv.qual] -/
def MayInit (S T : RType) : Prop :=
  match T.ref with
  | .none => ValueInit S.t T.t
  | .lref => Lvl true S.t T.t ∧ (S.ref = .lref ∨ (IsConst T.t ∧ ¬ IsVolatile T.t))
  | .rref => Lvl true S.t T.t ∧ S.ref ≠ .lref

/-- the object reached by `k` dereferences or subscripts -/
inductive Reach : CType → Nat → CType → Prop
  | here (t : CType) : Reach t 0 t
  | ptr (q : CV) {t s : CType} {k : Nat} : Reach t k s → Reach (.ptr q t) (k + 1) s
  | arr (n : Nat) {t s : CType} {k : Nat} : Reach t k s → Reach (.arr n t) (k + 1) s

/-- Nothing that is const through `S` is writable through `T`, except the top level when `T` is a value
    (it is a copy). -/
def KeepsConst (S T : RType) : Prop :=
  ∀ k s t, Reach S.t k s → Reach T.t k t → (k = 0 → T.ref ≠ .none) → IsConst s → IsConst t

/-- (arrays of)* a base type -/
inductive Arrs : CType → Prop
  | base (b : Base) (q : CV) : Arrs (.base b q)
  | arr (n : Nat) {t : CType} : Arrs t → Arrs (.arr n t)

/-- pointers occur only outside arrays -/
inductive NoPtrInArray : CType → Prop
  | ptr (q : CV) {t : CType} : NoPtrInArray t → NoPtrInArray (.ptr q t)
  | arrs {t : CType} : Arrs t → NoPtrInArray t

/-- there are no arrays of functions -/
def NoFuncArray (t : CType) : Prop := ∀ n b q, t = .arr n (.base b q) → b.kind ≠ .func

end Rtti.Spec
