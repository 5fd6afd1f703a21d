import Verif.Model.Registry
import Verif.Model.World
/-
Types and classes together: classes are defined for types that `metaTypeId<T>()` registers under their
text, and `MetaClass::find(std::string_view)` finds a class by the text of its type
(/repo/src/metaclass.cpp:50-54, /repo/src/metatype.cpp:63-73, 114-119, 234-238,
/repo/include/rtti/metadefine.h:866-881, 900-915, 1012-1022).

Joins `Model/Registry.lean` and `Model/World.lean`. Simplifications: single thread, before the end of the
program; ids come from `metaTypeId<T>()` only; `World.valid` is set for the ids asked for (that of the
decayed type, registered on the way, is not used to define classes).
-/
set_option autoImplicit false
namespace Rtti.ClassFind

structure Prog where
  reg : Reg
  world : World

def init : Prog := ⟨.init, .init⟩

/-- `metaTypeId<T>()`, /repo/include/rtti/metatype.h:520-529 -/
def Prog.use (nm : RType → Str) (s : Prog) (T : RType) : Prog × TypeId :=
  let p := s.reg.metaTypeId nm T
  (⟨p.1, (s.world.step (.registerType p.2)).1⟩, p.2)

inductive Call
  /-- `metaTypeId<T>()`, by the program or by whatever uses the type -/
  | idOf (T : RType)
  /-- `_class<T>(name)` -/
  | cls (owner : Ptr) (name : Str) (T : RType)
  /-- `_base<T>()` -/
  | base (d : Ptr) (T : RType) (caster : Caster)
  /-- `MetaType::registerConverter<S, T>(func)`, `unregisterConverter<S, T>()` -/
  | conv (S T : RType) (functor fn : Nat)
  | unconv (S T : RType)
  /-- other definitions -/
  | other (op : World.Op)

/-- the types a call names -/
def Call.types : Call → List RType
  | .idOf T | .cls _ _ T | .base _ T _ => [T]
  | .conv S T _ _ => [⟨.none, S.t.fullDecay⟩, ⟨.none, T.t.fullDecay⟩]
  | .unconv S T => [S, T]
  | .other _ => []

/-- `_class`, metadefine.h:866-881; `_base`, 900-915, 1012-1022 with `MetaClass::addBaseClass`,
    /repo/src/metaclass.cpp:92-106; converters, see `Model/Registry.lean` -/
def Prog.step (nm : RType → Str) (s : Prog) : Call → Prog × Res (Option Ptr)
  | .idOf T => ((s.use nm T).1, .val none)
  | .cls o n T =>
    let u := s.use nm T
    let r := u.1.world.step (.createClass o n u.2)
    (⟨u.1.reg, r.1⟩, r.2)
  | .base d T c =>
    let u := s.use nm T
    let r := u.1.world.step (.addBase d u.2 c)
    (⟨u.1.reg, r.1⟩, r.2)
  | .conv S T f fn =>
    match s.reg.registerConverterT nm S T f fn with
    | .val p => (⟨p.1, s.world⟩, .val none)
    | _ => (s, .ub)
  | .unconv S T =>
    match s.reg.unregisterConverterT nm S T with
    | .val p => (⟨p.1, s.world⟩, .val none)
    | _ => (s, .ub)
  | .other op =>
    match op with
    | .registerType _ | .createClass .. | .addBase .. => (s, .val none)
    | op => (⟨s.reg, (s.world.step op).1⟩, (s.world.step op).2)

def Prog.run (nm : RType → Str) (s : Prog) : List Call → Prog
  | [] => s
  | c :: cs => ((s.step nm c).1).run nm cs

/-- `MetaType::metaClass`, /repo/src/metatype.cpp:234-238, of a handle -/
def Prog.metaClassOf (s : Prog) (h : Nat) : Option Ptr := if h = 0 then none else s.world.metaClass h

/-- `MetaClass::find(std::string_view)`, /repo/src/metaclass.cpp:50-54 -/
def Prog.findName (s : Prog) (n : Str) : Option Ptr := s.metaClassOf (s.reg.ofName n).2

/-- `MetaClass::find(MetaType_ID)`, /repo/src/metaclass.cpp:44-48 -/
def Prog.findId (s : Prog) (id : TypeId) : Option Ptr := s.metaClassOf (s.reg.ofId id).2

/-- the id `metaTypeId<T>()` gives now -/
def Prog.idNow (nm : RType → Str) (s : Prog) (T : RType) : TypeId := (s.reg.metaTypeId nm T).2

/-- the test of `variant::is`, `ref` and `to` for "holds this type", /repo/include/rtti/variant.h:365-366, 432-434, 523-525:
    `compatible(from, to) && from.decayId() == to.decayId()`; inner `none`: `std::terminate`. `to` then copies with the functions
    recorded for `to`. -/
def Prog.holds (s : Prog) (from_ to : TypeId) : Res (Option Bool) :=
  let a := (s.reg.ofId from_).2
  let b := (s.reg.ofId to).2
  (s.reg.compatibleH a b).bind fun c =>
    match c with
    | none => .val none
    | some false => .val (some false)
    | some true => (s.reg.observe a).bind fun o => (s.reg.observe b).bind fun o' => .val (some (o.decay == o'.decay))

end Rtti.ClassFind
