import Verif.Model.CType
/-
The type traits of /repo/include/rtti/misc_traits.h that `Model/CType` leaves out: those of types with references, and
those that add and remove pointers. Left out: `has_move_constructor` and `is_template_type`, which nothing in the library uses.
-/
set_option autoImplicit false
namespace Rtti

/-- `std::add_pointer_t`: of a reference, a pointer to the type it refers to -/
def RType.addPointer (T : RType) : RType := ⟨.none, .ptr ⟨false, false⟩ T.t⟩

/-- `add_pointers`, misc_traits.h:49-59 -/
def RType.addPointers (T : RType) : Nat → RType
  | 0 => T
  | n + 1 => T.addPointer.addPointers n

/-- `remove_all_pointers`, misc_traits.h:81-93, of a type that is no reference -/
def CType.removeAllPointers : CType → CType
  | .ptr _ t => t.removeAllPointers
  | t => t.removeCv

/-- the same: a reference is no pointer, and has no qualifiers of its own -/
def RType.removeAllPointers (T : RType) : RType :=
  match T.ref with
  | .none => ⟨.none, T.t.removeAllPointers⟩
  | _ => T

/-- `array_length`, misc_traits.h:98-107: of a reference, 1 -/
def RType.arrayLength (T : RType) : Nat :=
  match T.ref with
  | .none => go T.t
  | _ => 1
where
  go : CType → Nat
    | .arr n t => n * go t
    | _ => 1

/-- `remove_all_cv`, misc_traits.h:111-146, with the reference case -/
def RType.removeAllCv (T : RType) : RType :=
  match T.ref with
  | .none => ⟨.none, T.t.removeAllCv⟩
  | .lref => ⟨.lref, T.t.removeAllCv⟩
  | .rref => ⟨.rref, T.t.removeAllCv⟩

/-- `std::remove_all_extents_t` -/
def CType.removeAllExtents : CType → CType
  | .arr _ t => t.removeAllExtents
  | t => t

/-- no array inside `removeAllExtents`: for the recursion of `base_type` -/
theorem CType.removeAllExtents_size (t : CType) : SizeOf.sizeOf t.removeAllExtents ≤ SizeOf.sizeOf t := by
  induction t with
  | base => exact Nat.le_refl _
  | ptr => exact Nat.le_refl _
  | arr n t ih => simp only [removeAllExtents, CType.arr.sizeOf_spec]; omega

/-- `base_type`, misc_traits.h:155-180, with all its cases -/
def CType.baseOf : CType → CType
  | .base b _ => .base b ⟨false, false⟩
  | .ptr _ t => t.baseOf
  | .arr _ t => t.removeAllExtents.baseOf
termination_by t => SizeOf.sizeOf t
decreasing_by
  · simp only [CType.ptr.sizeOf_spec]; omega
  · have := CType.removeAllExtents_size t
    simp only [CType.arr.sizeOf_spec]; omega

def RType.baseOf (T : RType) : CType := T.t.baseOf

/-- `is_lvalue_const_reference`, misc_traits.h:235-239 -/
def RType.isLvalueConstReference (T : RType) : Bool := decide (T.ref = .lref) && T.t.isConst

/-- `std::is_class_v` -/
def CType.isClassType : CType → Bool
  | .base b _ => decide (b.kind = .cls)
  | _ => false

/-- `is_class_ptr`, misc_traits.h:249-255 -/
def RType.isClassPtr (T : RType) : Bool := T.t.isPointer && T.t.removePointer.isClassType

end Rtti
