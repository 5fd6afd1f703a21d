import Verif.Model.Lazy
/-
Which base classes a program with deferred definitions declares.
-/
set_option autoImplicit false
namespace Rtti.Spec

mutual
/-- every base class the command declares, itself or in a deferred definition it installs, satisfies `P` (the class, the type of the base) -/
def Declares (P : Ptr → TypeId → Prop) : Cmd → Prop
  | .op (.addBase this t _) => P this t
  | .install _ b => DeclaresAll P b
  | .attempt b => DeclaresAll P b
  | _ => True
/-- the same for a program -/
def DeclaresAll (P : Ptr → TypeId → Prop) : List Cmd → Prop
  | [] => True
  | c :: cs => Declares P c ∧ DeclaresAll P cs
end

/-- The base classes declared are base classes in C++, where inheritance has no cycles: see `Legal`. The types of classes are those they have in `w`. -/
def ProperBases (rank : TypeId → Nat) (w : World) (cs : List Cmd) : Prop :=
  DeclaresAll (fun this t => w.kind this = some .cls → rank t < rank (w.cls this).typeId) cs

mutual
/-- the call occurs in the command, or in a deferred definition it installs -/
def Invokes (x : World.Op) : Cmd → Prop
  | .op o => o = x
  | .install _ b => InvokesAny x b
  | .attempt b => InvokesAny x b
  | _ => False
/-- the same for a program -/
def InvokesAny (x : World.Op) : List Cmd → Prop
  | [] => False
  | c :: cs => Invokes x c ∨ InvokesAny x cs
end

/-- what a call is to make: in which container, of what kind, with what name -/
def makes : World.Op → Option (Ptr × Cat × Str)
  | .createNamespace o n => some (o, .nmspace, n)
  | .createClass o n _ => some (o, .cls, n)
  | .createEnum o n => some (o, .enum, n)
  | .createMethod o n true => some (o, .method, n)
  | .createProperty o n true => some (o, .property, n)
  | .createConstructor o n true => some (o, .constructor, n)
  | _ => none

end Rtti.Spec
