import Verif.Model.Value
/-
What a variant says of itself: `typeId()`, `empty()`, `operator bool`; `metaClass()` is in `Model/Value.lean`.
-/
set_option autoImplicit false
namespace Rtti.Val

/-- `variant::typeId`, /repo/include/rtti/variant.h:122-123, 344-345: the type the id is the id of; `none`: the invalid id, what the table of `void` answers,
    /repo/include/rtti/detail/variant_impl.h:399-414. Types have the same id only if they are the same, C01. -/
def typeId (v : Vnt) : Option RType :=
  match v.held with
  | none => none
  | some h => some (h.type .none)

/-- `variant::empty`, /repo/src/variant.cpp:86-89; `operator bool` is its negation, /repo/include/rtti/variant.h:98-99 -/
def isEmpty (v : Vnt) : Bool := v.held.isNone

end Rtti.Val
