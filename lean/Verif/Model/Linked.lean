import Verif.Model.Invoke
import Verif.Model.Builder
/-
Which function a method object runs and which property a property object accesses: the invoker given to `_method` and
`_property` is moved into the object that is created, /repo/include/rtti/metadefine.h:945-989, /repo/src/metamethod.cpp:17-40,
/repo/src/metaproperty.cpp:10-32, and stays there (`m_invoker` is never assigned again). When no object is created the
invoker is destroyed. Constructors are registered the same way, /repo/include/rtti/metadefine.h:935-942,
/repo/src/metaconstructor.cpp:10-28; one that can be called with a single argument of another type, implicitly, is also
registered as a converter, metadefine.h:1043-1050. Converters may be registered by the program as well; the first one for a
pair of types stays (C11; unregistering is not in these programs).
The text of a type, `type_name<T>()`, is a parameter.
-/
set_option autoImplicit false
namespace Rtti.Val
open Rtti

/-- the arguments of `uniform_signature`, /repo/include/rtti/function_traits.h:35, 54, 88: a member function has the class,
    by reference, as its first parameter -/
def Fn.uniform (f : Fn) : List RType :=
  match f.cls with
  | none => f.params
  | some b => ⟨.lref, .base b ⟨f.const, false⟩⟩ :: f.params

/-- `invoker->signature(name)`, /repo/include/rtti/metadefine.h:118-119, 178-179, 236-237, 340-341, with `f_signature`,
    /repo/include/rtti/signature.h:71-77 -/
def Fn.signature (S : RType → Str) (name : Str) (f : Fn) : Str := signatureText name (f.uniform.map S)

/-- `_constructor<Args...>(name)` for a class: `implicit` is `is_convertible_v<Arg, C>` for constructors of one parameter, `fn` and
    `throws` stand for `default_convert<Arg, C>`: its number as a converter, and for which objects the constructor throws.
    (A converting constructor whose parameter is a non-const lvalue reference or an rvalue reference does not compile:
    metatype.h:674 passes a const lvalue.) -/
structure CtorDef where
  cls : Base
  name : Str
  params : List RType
  implicit : Bool
  fn : Nat
  throws : Addr → Bool

/-- as `Model/Builder.lean` sees it -/
def CtorDef.ctor (S : RType → Str) (c : CtorDef) : Ctor :=
  ⟨c.name, c.params.map fun p => ⟨S p, decide (p.t.decay = .base c.cls ⟨false, false⟩), decide (p.ref = .rref)⟩⟩

/-- `ConstructorInvoker<C, Args...>`, metadefine.h:506-595: a function with these parameters that returns a `C` -/
def CtorDef.asFn (c : CtorDef) : Fn := ⟨none, false, c.params, some ⟨.none, .base c.cls ⟨false, false⟩⟩⟩

/-- `is_converting_constructor`, /repo/include/rtti/misc_traits.h:219-227: the type it converts from -/
def CtorDef.converts (c : CtorDef) : Option CType :=
  match c.params with
  | [p] => if c.implicit && decide (p.t.fullDecay ≠ .base c.cls ⟨false, false⟩) then some p.t.fullDecay else none
  | _ => none

/-- `ConvertFunctor` around `default_convert<Arg, C>` -/
def CtorDef.conv (c : CtorDef) : Conv := ⟨c.fn, .functor, fun a => .returns false (c.throws a)⟩

/-- a step of a program that defines things -/
inductive Def
  | registerType (t : TypeId)
  | nmspace (o : Ptr) (n : Str)
  | cls (o : Ptr) (n : Str) (t : TypeId)
  | enum (o : Ptr) (n : Str)
  | base (this : Ptr) (t : TypeId) (c : Caster)
  /-- `_method(n, f)` -/
  | method (o : Ptr) (n : Str) (f : Fn)
  /-- `_property(n, p)`, `_property(n, get, set)` -/
  | property (o : Ptr) (n : Str) (p : Property)
  /-- `_constructor<Args...>(name)` -/
  | ctor (o : Ptr) (c : CtorDef)
  /-- `MetaType::registerConverter`, for the types `S` and `T`; `t` is the id of a type this registers -/
  | converter (t : TypeId) (S T : CType) (c : Conv)

/-- what the library does -/
def Def.op (S : RType → Str) : Def → World.Op
  | .registerType t => .registerType t
  | .nmspace o n => .createNamespace o n
  | .cls o n t => .createClass o n t
  | .enum o n => .createEnum o n
  | .base this t c => .addBase this t c
  | .method o n f => .createMethod o (f.signature S n) true
  | .property o n _ => .createProperty o n true
  | .ctor o c => .createConstructor o (ctorSignature (c.ctor S)) true
  | .converter t _ _ _ => .registerType t

/-- the converter a step registers, and its key -/
def Def.conv : Def → Option (CType × CType × Conv)
  | .ctor _ c => c.converts.map fun s => (s, .base c.cls ⟨false, false⟩, c.conv)
  | .converter _ s t c => some (s.fullDecay, t.fullDecay, c)
  | _ => none

/-- `MetaTypeFunctionList::add`, /repo/src/metatype.cpp:339-350 -/
def addConv (m : CType → CType → Option Conv) (k : CType × CType × Conv) : CType → CType → Option Conv :=
  match m k.1 k.2.1 with
  | some _ => m
  | none => fun s t => if s = k.1 ∧ t = k.2.1 then some k.2.2 else m s t

/-- the objects, the `m_invoker` of each, and the converters -/
structure Linked where
  w : World
  fn : Ptr → Option Fn
  pr : Ptr → Option Property
  conv : CType → CType → Option Conv

def Linked.init : Linked := ⟨World.init, fun _ => none, fun _ => none, fun _ _ => none⟩

/-- `m` if the call created it: `create` returns either an object that was there before or the one just allocated -/
def created (w : World) : Res (Option Ptr) → Option Ptr
  | .val (some p) => if p = w.next then some p else none
  | _ => none

/-- the converters after a step; a constructor that cannot be created throws before its converter is registered -/
def Linked.convs (l : Linked) (d : Def) : Res (Option Ptr) → CType → CType → Option Conv
  | .val _ => match d.conv with
    | some k => addConv l.conv k
    | none => l.conv
  | _ => l.conv

/-- one step: the invoker goes into the new object -/
def Linked.step (S : RType → Str) (l : Linked) (d : Def) : Linked × Res (Option Ptr) :=
  let r := l.w.step (d.op S)
  match d, created l.w r.2 with
  | .method _ _ f, some p => (⟨r.1, upd l.fn p (some f), l.pr, l.convs d r.2⟩, r.2)
  | .ctor _ c, some p => (⟨r.1, upd l.fn p (some c.asFn), l.pr, l.convs d r.2⟩, r.2)
  | .property _ _ q, some p => (⟨r.1, l.fn, upd l.pr p (some q), l.convs d r.2⟩, r.2)
  | _, _ => (⟨r.1, l.fn, l.pr, l.convs d r.2⟩, r.2)

/-- the functions the method objects run, as a total map -/
def Linked.fnOf (l : Linked) (junk : Fn) (m : Ptr) : Fn := (l.fn m).getD junk

def Linked.prOf (l : Linked) (junk : Property) (m : Ptr) : Property := (l.pr m).getD junk

end Rtti.Val
