import Verif.Model.Invoke
/-
The exception classes of /repo/include/rtti/metaerror.h and the handlers that catch them.

The text of an exception is not modelled. Exceptions of the user's code (copy constructors, converters, callbacks) can be
of any type.
-/
set_option autoImplicit false
namespace Rtti

/-- classes of exceptions: those of metaerror.h and their bases in the standard library -/
inductive ExcClass
  | exception | stdRuntimeError | stdLogicError | stdOutOfRange
  | runtimeError | definitionError | unregisteredMetaclass | duplicateMetaclass | invalidMetatypeId
  | invokeError | badCast | badArgumentCast | badVariantCast | badVariantConvert | badMetaCast
deriving DecidableEq, Repr

/-- the (only) direct base, metaerror.h:10-75 -/
def ExcClass.base : ExcClass → Option ExcClass
  | .exception => none
  | .stdRuntimeError => some .exception
  | .stdLogicError => some .exception
  | .stdOutOfRange => some .stdLogicError
  | .runtimeError => some .stdRuntimeError
  | .definitionError => some .runtimeError
  | .unregisteredMetaclass => some .definitionError
  | .duplicateMetaclass => some .definitionError
  | .invalidMetatypeId => some .runtimeError
  | .invokeError => some .runtimeError
  | .badCast => some .runtimeError
  | .badArgumentCast => some .badCast
  | .badVariantCast => some .badCast
  | .badVariantConvert => some .badVariantCast
  | .badMetaCast => some .badCast

/-- `catch (h const &)` catches an exception of class `c`: [except.handle], all bases are public -/
inductive Catches (h : ExcClass) : ExcClass → Prop
  | same : Catches h h
  | derived {c b : ExcClass} : c.base = some b → Catches h b → Catches h c

/-- what the class registry throws; `none`: the user's -/
def Err.class : Err → Option ExcClass
  | .invalidTypeId => some .invalidMetatypeId
  | .duplicateClass => some .duplicateMetaclass
  | .unregisteredClass => some .unregisteredMetaclass
  | .outOfRange => some .stdOutOfRange
  | .definitionError => some .definitionError
  | .userError => none

/-- what looking into variants and calls throw -/
def Val.Exc.class : Val.Exc → Option ExcClass
  | .badVariantCast => some .badVariantCast
  | .badVariantConvert => some .badVariantConvert
  | .badArgumentCast => some .badArgumentCast
  | .invokeError => some .invokeError
  | .runtimeError => some .runtimeError
  | .badMetaCast => some .badMetaCast
  | .library e => e.class
  | .user => none

end Rtti
