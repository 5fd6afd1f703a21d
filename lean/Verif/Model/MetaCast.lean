import Verif.Model.Value
/-
`meta_cast`: /repo/include/rtti/metaclass.h:70-172.

An object is seen through a pointer of static type `From`. What its virtual function `classInfo()` returns is decided
by the most derived class that has `DECLARE_CLASSINFO` in its body (the final overrider), which is a parameter: the
class and where its subobject is in the complete object. `static_cast` from `void const*` keeps the address. The check
for lazy definitions that `cast` makes is not here (with nothing pending it does nothing, C61_hierarchy).
Not modelled: `To` or `From` that are not classes (they do not compile), qualified `To`.
-/
set_option autoImplicit false
namespace Rtti.MetaCast
open Rtti.Val

/-- an object as the program sees it through a pointer -/
structure Obj where
  /-- the value of the pointer -/
  self : Addr
  /-- the class of the complete object -/
  dyn : TypeId
  /-- the address of the complete object -/
  whole : Addr
deriving DecidableEq, Repr

/-- for a class of a complete object: the class whose `classInfo()` a virtual call reaches, and where its subobject is -/
abbrev Overrider := TypeId → TypeId × (Addr → Addr)

/-- the virtual call `from->classInfo()`, lines 80-89; `metaTypeId` registers the type -/
def classInfo (ov : Overrider) (w : World) (o : Obj) : World × (TypeId × Addr) :=
  ((w.step (.registerType (ov o.dyn).1)).1, ((ov o.dyn).1, (ov o.dyn).2 o.whole))

/-- `internal::meta_cast(From const*, std::true_type)`, lines 93-111 -/
def constInfo (ov : Overrider) (to : TypeId) (w : World) : Option Obj → World × Res Addr
  | none => (w, .val 0)
  | some o =>
    let (w, info) := classInfo ov w o
    let fromClass := w.find info.1
    let w := (w.step (.registerType to)).1
    let toClass := w.find to
    match fromClass, toClass with
    | some f, some t => (w, w.cast f (some t) info.2)
    | _, _ => (w, .val 0)

/-- `internal::meta_cast(From*, std::true_type)`, lines 113-117 -/
def mutInfo (ov : Overrider) (to : TypeId) (w : World) (p : Option Obj) : World × Res Addr := constInfo ov to w p

/-- the pointer itself -/
def ptrOf : Option Obj → Addr
  | none => 0
  | some o => o.self

/-- `internal::meta_cast(From const*, std::false_type)`, lines 119-126 -/
def constPlain (to from_ : TypeId) (p : Option Obj) : Addr := if to = from_ then ptrOf p else 0

/-- `internal::meta_cast(From*, std::false_type)`, lines 128-135 -/
def mutPlain (to from_ : TypeId) (p : Option Obj) : Addr := if to = from_ then ptrOf p else 0

/-- `meta_cast<To>(From const*)`, lines 149-154; `hasInfo`: `From` has a member `classInfo()` -/
def constPtr (ov : Overrider) (hasInfo : Bool) (to from_ : TypeId) (w : World) (p : Option Obj) : World × Res Addr :=
  if hasInfo then constInfo ov to w p else (w, .val (constPlain to from_ p))

/-- `meta_cast<To>(From*)`, lines 142-147 -/
def mutPtr (ov : Overrider) (hasInfo : Bool) (to from_ : TypeId) (w : World) (p : Option Obj) : World × Res Addr :=
  if hasInfo then mutInfo ov to w p else (w, .val (mutPlain to from_ p))

/-- the test of the pointer in both reference forms -/
def deref (r : Res Addr) : Ret Addr :=
  (Ret.lift r).bind fun a => if a = 0 then .throw .badMetaCast else .ok a

/-- `meta_cast<To>(From const&)`, lines 165-172 -/
def constRef (ov : Overrider) (hasInfo : Bool) (to from_ : TypeId) (w : World) (o : Obj) : World × Ret Addr :=
  ((constPtr ov hasInfo to from_ w (some o)).1, deref (constPtr ov hasInfo to from_ w (some o)).2)

/-- `meta_cast<To>(From&)`, lines 156-163 -/
def mutRef (ov : Overrider) (hasInfo : Bool) (to from_ : TypeId) (w : World) (o : Obj) : World × Ret Addr :=
  ((mutPtr ov hasInfo to from_ w (some o)).1, deref (mutPtr ov hasInfo to from_ w (some o)).2)

end Rtti.MetaCast
