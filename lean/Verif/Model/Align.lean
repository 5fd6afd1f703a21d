import Verif.Model.Reading
/-
Alignment of what variants store. /repo/include/rtti/variant.h:19-26 (`STORAGE_ALIGN` is `sizeof(void*)`),
/repo/include/rtti/detail/variant_impl.h:8-15 (`is_inplace` looks at the size only), /repo/include/rtti/metatype.h:226-229, 318-321
(`::operator new(size)`, without an alignment). 64 bits; `__STDCPP_DEFAULT_NEW_ALIGNMENT__` is 16.
Simplified: every block is aligned to 16 (blocks smaller than that need not be, but then nothing in them needs it).
-/
set_option autoImplicit false
namespace Rtti.Align
open VMem Reading

/-- `alignof(T)`; `al` for types with a name -/
def alignOf (al : Base → Nat) : CType → Nat
  | .base b _ => al b
  | .ptr _ _ => 8
  | .arr _ t => alignOf al t

/-- where the compiler may put variants and `operator new` may put blocks -/
structure Aligned (L : Layout) : Prop where
  var : ∀ x, 8 ∣ L.var x
  heap : ∀ b, 16 ∣ L.heap b

end Rtti.Align
