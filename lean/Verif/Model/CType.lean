import Verif.Model.World
/-
C++ types as far as the library looks at them, the type traits of
/repo/include/rtti/misc_traits.h, and the description `meta_type<T>` registers,
/repo/include/rtti/metatype.h:455-517.
-/
namespace Rtti

structure CV where
  c : Bool
  v : Bool
deriving DecidableEq, Repr

/-- kind of a type that is neither pointer, array nor reference -/
inductive Kind | void | integral | floating | enum | func | union | cls | memberPtr | other
deriving DecidableEq, Repr

/-- the `std::is_...` answers for such a type that only go into the flags -/
structure Traits where
  standardLayout : Bool
  trivial : Bool
  abstract : Bool
  polymorphic : Bool
  defaultC : Bool
  copyC : Bool
  copyA : Bool
  moveC : Bool
  moveA : Bool
  destructible : Bool
  eq : Bool
deriving DecidableEq, Repr

/-- a named type: identity, kind, `sizeof`, traits -/
structure Base where
  id : Nat
  kind : Kind
  size : Nat
  traits : Traits
deriving DecidableEq, Repr

/-- object types; an array has no qualifier of its own ([basic.type.qualifier]: cv of an array is cv of
    its elements). Arrays of unknown bound are left out. -/
inductive CType
  | base (b : Base) (q : CV)
  | ptr (q : CV) (t : CType)
  | arr (n : Nat) (t : CType)
deriving DecidableEq, Repr

inductive Ref | none | lref | rref
deriving DecidableEq, Repr

/-- a type with its reference -/
structure RType where
  ref : Ref
  t : CType
deriving DecidableEq, Repr

namespace CType

/-- `std::is_const` -/
def isConst : CType → Bool
  | .base _ q => q.c
  | .ptr q _ => q.c
  | .arr _ t => t.isConst

/-- `std::is_volatile` -/
def isVolatile : CType → Bool
  | .base _ q => q.v
  | .ptr q _ => q.v
  | .arr _ t => t.isVolatile

/-- `std::remove_cv_t` -/
def removeCv : CType → CType
  | .base b _ => .base b ⟨false, false⟩
  | .ptr _ t => .ptr ⟨false, false⟩ t
  | .arr n t => .arr n t.removeCv

/-- `std::is_pointer_v` -/
def isPointer : CType → Bool
  | .ptr _ _ => true
  | _ => false

/-- `std::is_array_v` -/
def isArray : CType → Bool
  | .arr _ _ => true
  | _ => false

/-- `std::remove_pointer_t` -/
def removePointer : CType → CType
  | .ptr _ t => t
  | t => t

/-- `sizeof` (64-bit pointers) -/
def sizeOf : CType → Nat
  | .base b _ => b.size
  | .ptr _ _ => 8
  | .arr n t => n * t.sizeOf

/-- `std::decay_t` of a non-reference: array to pointer, function to pointer, otherwise remove_cv -/
def decay : CType → CType
  | .arr _ t => .ptr ⟨false, false⟩ t
  | .base b q => if b.kind = .func then .ptr ⟨false, false⟩ (.base b q) else .base b ⟨false, false⟩
  | .ptr _ t => .ptr ⟨false, false⟩ t

/-- `pointer_arity`, /repo/include/rtti/misc_traits.h:63-77 -/
def pointerArity : CType → Nat
  | .ptr _ t => t.pointerArity + 1
  | _ => 0

/-- `remove_all_cv`, /repo/include/rtti/misc_traits.h:111-146 (the reference case is not used by
    `full_decay_t` and by `meta_type`) -/
def removeAllCv : CType → CType
  | .base b _ => .base b ⟨false, false⟩
  | .ptr _ t => .ptr ⟨false, false⟩ t.removeAllCv
  | .arr n t => .arr n t.removeAllCv

/-- `full_decay_t`, /repo/include/rtti/misc_traits.h:150-151 -/
def fullDecay (t : CType) : CType := t.decay.removeAllCv

/-- `base_type`, /repo/include/rtti/misc_traits.h:155-180 -/
def baseType : CType → Base
  | .base b _ => b
  | .ptr _ t => t.baseType
  | .arr _ t => t.baseType

/-- `const_bitset_helper<T, I>`, /repo/include/rtti/misc_traits.h:184-212. `1 << I` is computed in `int`;
    for `I ≥ 31` the code does not compile. -/
def constBitsetHelper : CType → Nat → Nat
  | .ptr q t, i =>
    if q.c then 1 <<< i + t.constBitsetHelper (i - 1)
    else t.constBitsetHelper (i - 1)
  | .base _ q, i => if q.c then 1 <<< i else 0
  | .arr n t, i => if (CType.arr n t).isConst then 1 <<< i else 0

/-- `const_bitset`, /repo/include/rtti/misc_traits.h:214-215 -/
def constBitset (t : CType) : Nat := t.constBitsetHelper t.pointerArity

/-- `has_eq_v<T, T>`: pointers and (decaying) arrays always compare -/
def hasEq : CType → Bool
  | .base b _ => b.traits.eq
  | _ => true

end CType

/-! ### type flags, /repo/include/rtti/metatype.h:39-69 -/
namespace Flag
def Const : Nat := 1 <<< 0
def Pointer : Nat := 1 <<< 1
def MemberPointer : Nat := 1 <<< 2
def LvalueReference : Nat := 1 <<< 3
def RvalueReference : Nat := 1 <<< 4
def Array : Nat := 1 <<< 5
def Void : Nat := 1 <<< 6
def Integral : Nat := 1 <<< 7
def FloatPoint : Nat := 1 <<< 8
def Enum : Nat := 1 <<< 9
def Function : Nat := 1 <<< 10
def Union : Nat := 1 <<< 11
def Class : Nat := 1 <<< 12
def StandardLayout : Nat := 1 <<< 13
def Trivial : Nat := 1 <<< 14
def Abstract : Nat := 1 <<< 15
def Polymorphic : Nat := 1 <<< 16
def DefaultConstructible : Nat := 1 <<< 17
def CopyConstructible : Nat := 1 <<< 18
def CopyAssignable : Nat := 1 <<< 19
def MoveConstructible : Nat := 1 <<< 20
def MoveAssignable : Nat := 1 <<< 21
def Destructible : Nat := 1 <<< 22
def EQ_Comparable : Nat := 1 <<< 23
end Flag

/-- `cond ? flag : None` -/
def flagIf (b : Bool) (f : Nat) : Nat := if b then f else 0

/-- `type_flags<T>`, /repo/include/rtti/metatype.h:454-487 -/
def typeFlags (T : RType) : Nat :=
  let noRef := T.t
  let noPtr := noRef.removePointer
  let base := noRef.baseType
  flagIf noRef.isConst Flag.Const
  ||| flagIf noRef.isPointer Flag.Pointer
  ||| flagIf (match noRef with | .base b _ => b.kind = .memberPtr | _ => false) Flag.MemberPointer
  ||| flagIf (T.ref = .lref) Flag.LvalueReference
  ||| flagIf (T.ref = .rref) Flag.RvalueReference
  ||| flagIf noPtr.isArray Flag.Array
  ||| flagIf (base.kind = .void) Flag.Void
  ||| flagIf (base.kind = .integral) Flag.Integral
  ||| flagIf (base.kind = .floating) Flag.FloatPoint
  ||| flagIf (base.kind = .enum) Flag.Enum
  ||| flagIf (base.kind = .func) Flag.Function
  ||| flagIf (base.kind = .union) Flag.Union
  ||| flagIf (base.kind = .cls) Flag.Class
  ||| flagIf base.traits.standardLayout Flag.StandardLayout
  ||| flagIf base.traits.trivial Flag.Trivial
  ||| flagIf base.traits.abstract Flag.Abstract
  ||| flagIf base.traits.polymorphic Flag.Polymorphic
  ||| flagIf base.traits.defaultC Flag.DefaultConstructible
  ||| flagIf base.traits.copyC Flag.CopyConstructible
  ||| flagIf base.traits.copyA Flag.CopyAssignable
  ||| flagIf base.traits.moveC Flag.MoveConstructible
  ||| flagIf base.traits.moveA Flag.MoveAssignable
  ||| flagIf base.traits.destructible Flag.Destructible
  ||| flagIf noRef.hasEq Flag.EQ_Comparable

/-- what is recorded about a type (`TypeInfo` without name, decay and manager),
    /repo/src/private/metatype_p.h:12-39 -/
structure Desc where
  size : Nat
  arity : Nat
  constMask : Nat
  flags : Nat
deriving DecidableEq, Repr

/-- the arguments `meta_type<T>` passes to `registerMetaType`, /repo/include/rtti/metatype.h:503-511;
    arity and mask are truncated to `std::uint16_t` -/
def describe (T : RType) : Desc :=
  ⟨T.t.sizeOf, T.t.pointerArity % 65536, T.t.constBitset % 65536, typeFlags T⟩

namespace Desc

/-- `(flags & F) == F` -/
def has (d : Desc) (f : Nat) : Bool := d.flags &&& f == f
/-- `(flags & F) == None` -/
def hasNot (d : Desc) (f : Nat) : Bool := d.flags &&& f == 0

/-! /repo/include/rtti/metatype.h:545-605 -/
def isConst (d : Desc) : Bool := d.has Flag.Const
def isLvalueReference (d : Desc) : Bool := d.has Flag.LvalueReference
def isRvalueReference (d : Desc) : Bool := d.has Flag.RvalueReference
def isReference (d : Desc) : Bool := d.isLvalueReference || d.isRvalueReference
def isClass (d : Desc) : Bool := d.has Flag.Class && d.hasNot Flag.Pointer
def isPointer (d : Desc) : Bool := d.has Flag.Pointer
def isVoidPtr (d : Desc) : Bool := d.has Flag.Void && d.has Flag.Pointer
def isClassPtr (d : Desc) : Bool := d.arity == 1 && d.has Flag.Class && d.has Flag.Pointer
def isFunctionPtr (d : Desc) : Bool := d.arity == 1 && d.has Flag.Function && d.has Flag.Pointer
def isArray (d : Desc) : Bool := d.has Flag.Array && d.hasNot Flag.Pointer

end Desc

/-! ### `MetaType::compatible`, /repo/src/metatype.cpp:162-220, for two valid types -/

/-- `std::bitset<16>::test`; `none`: `std::out_of_range`, which leaves the `noexcept` function, i.e.
    `std::terminate` -/
def bitTest (m i : Nat) : Option Bool := if i < 16 then some (m.testBit i) else none

/-- the inner loop `for (j = i + 1; j <= arity1; ++j) if (!to.test(j)) return false;`
    (`n` iterations left); `some true`: the loop ran to its end -/
def innerLoop (to : Nat) : Nat → Nat → Option Bool
  | _, 0 => some true
  | j, n + 1 =>
    match bitTest to j with
    | none => none
    | some false => some false
    | some true => innerLoop to (j + 1) n

/-- the outer loop from index `i` with `n` iterations left (indices `i .. i + n - 1`) and `return true` -/
def outerLoop (from' to : Nat) : Nat → Nat → Option Bool
  | _, 0 => some true
  | i, n + 1 =>
    match bitTest from' i, bitTest to i with
    | some f, some t =>
      if f && !t then some false
      else if !f && t then innerLoop to (i + 1) n
      else outerLoop from' to (i + 1) n
    | _, _ => none

/-- the part of `compatible` after the arity test (lines 185-219), `arity1` = arity of the source,
    adjusted -/
def compatibleMasks (from' to : Desc) (arity1 : Nat) : Option Bool :=
  if !to.isReference && arity1 == 0 then some true
  else
    let arity1 := if to.isReference then arity1 else arity1 - 1
    let setTop := from'.isArray && !to.isArray && to.isReference
    -- `bitset::set(pos)` throws for `pos ≥ 16`
    if setTop && decide (16 ≤ arity1) then none
    else
      let f := if setTop then from'.constMask ||| (1 <<< arity1) else from'.constMask
      if f == to.constMask then some true
      else outerLoop f to.constMask 0 (arity1 + 1)

/-- `MetaType::compatible`; `none` is `std::terminate` -/
def compatible (from' to : Desc) : Option Bool :=
  if !from'.isLvalueReference && to.isLvalueReference && !to.isConst then some false
  else if from'.isLvalueReference && to.isRvalueReference then some false
  else if from'.isArray && to.isArray && decide (from'.size < to.size) then some false
  else
    let arity1 := if from'.isArray && to.isPointer then from'.arity + 1 else from'.arity
    if arity1 != to.arity then some false
    else compatibleMasks from' to arity1

end Rtti
