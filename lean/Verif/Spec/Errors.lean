import Verif.Model.Errors
/-
What the errors mean, in terms of what can be asked of the library before the call.
-/
set_option autoImplicit false
namespace Rtti.Spec
open Rtti World

/-- a defining call has to be refused -/
inductive DefRefused (w : World) : World.Op → Err → Prop
  /-- there is no such type -/
  | classOfNoType {o : Ptr} {n : Str} {t : TypeId} : w.getItem o .cls n = .val none → w.valid t = false →
      DefRefused w (.createClass o n t) .invalidTypeId
  /-- the type has a class already -/
  | classTwice {o : Ptr} {n : Str} {t : TypeId} {c : Ptr} : w.getItem o .cls n = .val none → w.find t = some c →
      DefRefused w (.createClass o n t) .duplicateClass
  | baseOfNoType {d : Ptr} {t : TypeId} {f : Caster} : w.kind d = some .cls → w.valid t = false →
      DefRefused w (.addBase d t f) .invalidTypeId
  /-- the type has no class yet -/
  | baseNotDefined {d : Ptr} {t : TypeId} {f : Caster} : w.kind d = some .cls → w.valid t = true → w.find t = none →
      DefRefused w (.addBase d t f) .unregisteredClass

/-- an exception is the user's, or `catch (h const &)` catches it -/
def Handled (h : ExcClass) : Option ExcClass → Prop
  | none => True
  | some c => Catches h c

end Rtti.Spec
