import Verif.Spec.Registry
import Verif.Model.RegFaults
/-
Programs in which calls fail for lack of memory. A call that threw does not count, except that a converter it constructed
stays constructed.
-/
set_option autoImplicit false
namespace Rtti.Spec

/-- the calls that returned -/
def done (ev : List (RegOp × FOut RegOut)) : List RegOp :=
  ev.filterMap fun
    | (op, .ok _) => some op
    | _ => none

/-- the calls that returned, or threw after constructing a converter -/
def made (ev : List (RegOp × FOut RegOut)) : List RegOp :=
  ev.filterMap fun
    | (op, .ok _) => some op
    | (op, .threw true) => some op
    | _ => none

/-- the number of calls that did not return -/
def failures (ev : List (RegOp × FOut RegOut)) : Nat :=
  (ev.filter fun
    | (_, .ok _) => false
    | _ => true).length

end Rtti.Spec
