import Verif.Model.CType
/-
The names of the type flags: enumerators of `TypeFlags`, /repo/include/rtti/metatype.h:39-69.
-/
set_option autoImplicit false
namespace Rtti.Spec

/-- name of the flag `1 << k` -/
def flagNames : List (Nat × String) :=
  [(0, "Const"), (1, "Pointer"), (2, "MemberPointer"), (3, "LvalueReference"), (4, "RvalueReference"), (5, "Array"),
   (6, "Void"), (7, "Integral"), (8, "FloatPoint"), (9, "Enum"), (10, "Function"), (11, "Union"), (12, "Class"),
   (13, "StandardLayout"), (14, "Trivial"), (15, "Abstract"), (16, "Polymorphic"), (17, "DefaultConstructible"),
   (18, "CopyConstructible"), (19, "CopyAssignable"), (20, "MoveConstructible"), (21, "MoveAssignable"),
   (22, "Destructible"), (23, "EQ_Comparable")]

/-- names with "|" between them -/
def bars : List String → String
  | [] => ""
  | [a] => a
  | a :: l => a ++ "|" ++ bars l

/-- `text` is the names of exactly the flags in `value` (in any order) separated by "|", or "None" for the
    empty set -/
def PrintsFlags (value : Nat) (text : String) : Prop :=
  if value = 0 then text = "None"
  else ∃ out : List String, out.Perm ((flagNames.filter fun p => value.testBit p.1).map Prod.snd) ∧
    text = bars out

/-- as every C++ type: pointers to members and `std::nullptr_t` are scalar types, and these have standard layout
    ([basic.types.general]/9) -/
def ScalarLayout (T : RType) : Prop :=
  T.t.baseType.kind = .memberPtr ∨ T.t.baseType.kind = .other → T.t.baseType.traits.standardLayout = true

end Rtti.Spec
