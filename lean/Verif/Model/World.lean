import Verif.Model.ItemList
/-
The meta-object world: containers, classes, inheritance, the get-or-create functions.
  /repo/src/metaclass.cpp, /repo/src/private/metaclass_p.h, /repo/src/metanamespace.cpp,
  /repo/src/metaenum.cpp:10-23, /repo/src/metamethod.cpp:22-40, /repo/src/metaproperty.cpp:15-32,
  /repo/src/metaconstructor.cpp:10-28, /repo/src/metacontainer.cpp:203-391.
Simplifications: no pending lazy definitions here (`checkDeferredDefine` is a no-op; lazy definitions
are in `Model/Lazy*.lean`); single thread (interleavings are in `Model/Race.lean`); a type is known
only by its id, whether it is registered, and the class attached to it (`Model/Registry.lean` has the
rest). Recursion deeper than the number of objects ever created can only mean a cyclic hierarchy, on
which the C++ recursion never returns: that is the outcome `diverge`.
-/
namespace Rtti

/- `MetaType_ID`; `0` is the invalid id. -/
macro "TypeId" : term => `(Nat)
/- address of a C++ object, `0` is `nullptr` -/
macro "Addr" : term => `(Nat)
/-- `MetaClass::cast_func_t`, /repo/include/rtti/metaclass.h -/
abbrev Caster := Addr → Addr

/-- exceptions of /repo/include/rtti/metaerror.h used here -/
inductive Err | invalidTypeId | duplicateClass | unregisteredClass | outOfRange | definitionError | userError
deriving DecidableEq, Repr

/-- outcome of a call: a value, a C++ exception, undefined behaviour, unbounded recursion -/
inductive Res (A : Type) where
  | val (a : A)
  | throw (e : Err)
  | ub
  | diverge
deriving DecidableEq, Repr

/-- the data of `MetaClassPrivate`, /repo/src/private/metaclass_p.h:109-123 -/
structure ClassData where
  typeId : TypeId
  bases : List (TypeId × Caster)
  derived : List TypeId

structure World where
  /-- next address `new` returns -/
  next : Ptr
  /-- category of a live object; `none`: not allocated (or deleted) -/
  kind : Ptr → Option Cat
  name : Ptr → Str
  owner : Ptr → Option Ptr
  cont : Ptr → Container
  cls : Ptr → ClassData
  /-- ids with a `TypeInfo` -/
  valid : TypeId → Bool
  /-- `TypeInfo::metaClass`, /repo/src/private/metatype_p.h -/
  metaClass : TypeId → Option Ptr

def upd {A B : Type} [DecidableEq A] (f : A → B) (a : A) (b : B) : A → B :=
  fun x => if x = a then b else f x

namespace World

/-- the global namespace, /repo/src/metanamespace.cpp:9-17, is object 1 -/
def globalNs : Ptr := 1

def init : World where
  next := 2
  kind := fun p => if p = 1 then some .nmspace else none
  name := fun p => if p = 1 then "global".toList else []
  owner := fun _ => none
  cont := fun _ => Container.empty
  cls := fun _ => ⟨0, [], []⟩
  valid := fun _ => false
  metaClass := fun _ => none

def isContainer (w : World) (p : Ptr) : Bool :=
  w.kind p == some .nmspace || w.kind p == some .cls

/-- bound on the recursion depth of an acyclic hierarchy -/
def depth (w : World) : Nat := w.next + 1

/-- `MetaClass::find(MetaType_ID)`, /repo/src/metaclass.cpp:44-48 and
    `MetaType::metaClass`, /repo/src/metatype.cpp -/
def find (w : World) (t : TypeId) : Option Ptr :=
  if w.valid t then w.metaClass t else none

/-! ### inheritance queries -/

/-- loop of /repo/src/metaclass.cpp:133-143 -/
def anyBase (w : World) (f : Ptr → Res Bool) : List (TypeId × Caster) → Res Bool
  | [] => .val false
  | item :: rest =>
    match w.find item.1 with
    | none => .ub                       -- null `directBase`
    | some directBase =>
      match f directBase with
      | .val true => .val true
      | .val false => anyBase w f rest
      | r => r

/-- `MetaClass::inheritedFrom`, /repo/src/metaclass.cpp:123-145 -/
def inheritedFromF (w : World) : Nat → Ptr → Option Ptr → Res Bool
  | 0, _, _ => .diverge
  | fuel + 1, this, base =>
    match base with
    | none => .val false
    | some b =>
      if b = this then .val true
      else anyBase w (fun p => inheritedFromF w fuel p (some b)) (w.cls this).bases

def inheritedFrom (w : World) (this : Ptr) (base : Option Ptr) : Res Bool :=
  w.inheritedFromF w.depth this base

/-- loop of /repo/src/metaclass.cpp:159-171; the inner `none` is "not found" -/
def castBase (w : World) (inh : Ptr → Res Bool) (cast : Ptr → Addr → Res Addr) (instance_ : Addr) :
    List (TypeId × Caster) → Res (Option Addr)
  | [] => .val none
  | item :: rest =>
    match w.find item.1 with
    | none => .ub
    | some directBase =>
      match inh directBase with
      | .val true =>
        match cast directBase (item.2 instance_) with
        | .val a => .val (some a)
        | .throw e => .throw e
        | .ub => .ub
        | .diverge => .diverge
      | .val false => castBase w inh cast instance_ rest
      | .throw e => .throw e
      | .ub => .ub
      | .diverge => .diverge

/-- `MetaClass::cast`, /repo/src/metaclass.cpp:147-174 -/
def castF (w : World) : Nat → Ptr → Option Ptr → Addr → Res Addr
  | 0, _, _, _ => .diverge
  | fuel + 1, this, base, instance_ =>
    match base with
    | none => .val 0
    | some b =>
      if b = this then .val instance_
      else
        match castBase w (fun p => inheritedFromF w fuel p (some b))
            (fun p a => castF w fuel p (some b) a) instance_ (w.cls this).bases with
        | .val (some a) => .val a
        | .val none => .val 0
        | .throw e => .throw e
        | .ub => .ub
        | .diverge => .diverge

def cast (w : World) (this : Ptr) (base : Option Ptr) (instance_ : Addr) : Res Addr :=
  w.castF w.depth this base instance_

/-! ### look-up -/

/-- loop of /repo/src/metaclass.cpp:194-205 and 222-233 -/
def firstBase (w : World) (f : Ptr → Res (Option Ptr)) : List (TypeId × Caster) → Res (Option Ptr)
  | [] => .val none
  | item :: rest =>
    match w.find item.1 with
    | none => .ub
    | some directBase =>
      match f directBase with
      | .val (some p) => .val (some p)
      | .val none => firstBase w f rest
      | r => r

/-- `MetaContainer::getMethodInternal`, /repo/src/metacontainer.cpp:315-319 -/
def ownMethod (w : World) (c : Ptr) (name : Str) : Res (Option Ptr) :=
  match findMethod name (w.cont c .method).items with
  | none => .throw .outOfRange
  | some none => .val none
  | some (some it) => .val (some it.ptr)

/-- `MetaClass::getMethodInternal`, /repo/src/metaclass.cpp:181-207 -/
def classMethodF (w : World) : Nat → Ptr → Str → Res (Option Ptr)
  | 0, _, _ => .diverge
  | fuel + 1, this, name =>
    if name = [] then .val none
    else match w.ownMethod this name with
      | .val (some p) => .val (some p)
      | .val none => firstBase w (fun p => classMethodF w fuel p name) (w.cls this).bases
      | r => r

/-- `MetaContainer::getPropertyInternal`, /repo/src/metacontainer.cpp:355-358 -/
def ownProperty (w : World) (c : Ptr) (name : Str) : Option Ptr :=
  ((w.cont c .property).get name).map (·.ptr)

/-- `MetaClass::getPropertyInternal`, /repo/src/metaclass.cpp:209-235 -/
def classPropertyF (w : World) : Nat → Ptr → Str → Res (Option Ptr)
  | 0, _, _ => .diverge
  | fuel + 1, this, name =>
    if name = [] then .val none
    else match w.ownProperty this name with
      | some p => .val (some p)
      | none => firstBase w (fun p => classPropertyF w fuel p name) (w.cls this).bases

/-- `MetaContainer::getMethod(name)`, /repo/src/metacontainer.cpp:321-326 with the virtual
    `getMethodInternal` dispatched on the kind of container -/
def getMethod (w : World) (c : Ptr) (name : Str) : Res (Option Ptr) :=
  if name = [] then .val none
  else match w.kind c with
    | some .cls => w.classMethodF w.depth c name
    | some .nmspace => w.ownMethod c name
    | _ => .ub

/-- `MetaContainer::getProperty(name)`, /repo/src/metacontainer.cpp:360-363 -/
def getProperty (w : World) (c : Ptr) (name : Str) : Res (Option Ptr) :=
  match w.kind c with
  | some .cls => w.classPropertyF w.depth c name
  | some .nmspace => .val (w.ownProperty c name)
  | _ => .ub

/-- `MetaContainer::getConstructor(name)`, /repo/src/metacontainer.cpp:279-283 -/
def getConstructor (w : World) (c : Ptr) (name : Str) : Res (Option Ptr) :=
  if w.isContainer c then
    match findMethod name (w.cont c .constructor).items with
    | none => .throw .outOfRange
    | some none => .val none
    | some (some it) => .val (some it.ptr)
  else .ub

/-- `getNamespace`, `getClass`, `getEnum` by name, /repo/src/metacontainer.cpp:210-215, 228-231,
    247-250, 379-382 -/
def getItem (w : World) (c : Ptr) (k : Cat) (name : Str) : Res (Option Ptr) :=
  if w.isContainer c then .val (((w.cont c k).get name).map (·.ptr)) else .ub

/-! ### get-or-create -/

/-- `new MetaXxx{name, owner, ...}` -/
def alloc (w : World) (k : Cat) (name : Str) (owner : Ptr) (t : TypeId) : World :=
  { w with
    next := w.next + 1
    kind := upd w.kind w.next (some k)
    name := upd w.name w.next name
    owner := upd w.owner w.next (some owner)
    cont := upd w.cont w.next Container.empty
    cls := upd w.cls w.next ⟨t, [], []⟩ }

/-- `delete result` -/
def free (w : World) (p : Ptr) : World := { w with kind := upd w.kind p none }

/-- `MetaContainer::addItem`, /repo/src/metacontainer.cpp:197-201 -/
def addItem (w : World) (owner : Ptr) (k : Cat) (it : Item) : World × Bool :=
  let r := (w.cont owner).addItem (some (k, it))
  ({ w with cont := upd w.cont owner r.1 }, r.2)

/-- The common shape of the create functions: look up; if absent allocate and add; if the addition is
    refused delete and look up again. `stored` runs after a successful addition. -/
def getOrCreate (w : World) (owner : Ptr) (k : Cat) (name : Str) (t : TypeId)
    (look : World → Res (Option Ptr)) (stored : World → Ptr → World) : World × Res (Option Ptr) :=
  match look w with
  | .val none =>
    let p := w.next
    let w1 := w.alloc k name owner t
    let r := w1.addItem owner k ⟨p, name⟩
    if r.2 then (stored r.1 p, .val (some p))
    else
      let w2 := r.1.free p
      (w2, look w2)
  | r => (w, r)

/-- /repo/src/metanamespace.cpp:25-38 -/
def createNamespace (w : World) (owner : Ptr) (name : Str) : World × Res (Option Ptr) :=
  w.getOrCreate owner .nmspace name 0 (fun w => w.getItem owner .nmspace name) (fun w _ => w)

/-- /repo/src/metaenum.cpp:10-23 -/
def createEnum (w : World) (owner : Ptr) (name : Str) : World × Res (Option Ptr) :=
  w.getOrCreate owner .enum name 0 (fun w => w.getItem owner .enum name) (fun w _ => w)

/-- /repo/src/metamethod.cpp:22-40; `sig` is `invoker->signature(name)`, `hasInvoker = false` is a null
    invoker -/
def createMethod (w : World) (owner : Ptr) (sig : Str) (hasInvoker : Bool) : World × Res (Option Ptr) :=
  if !hasInvoker then (w, .val none)
  else w.getOrCreate owner .method sig 0 (fun w => w.getMethod owner sig) (fun w _ => w)

/-- /repo/src/metaproperty.cpp:15-32 -/
def createProperty (w : World) (owner : Ptr) (name : Str) (hasInvoker : Bool) :
    World × Res (Option Ptr) :=
  if name = [] ∨ !hasInvoker then (w, .val none)
  else w.getOrCreate owner .property name 0 (fun w => w.getProperty owner name) (fun w _ => w)

/-- /repo/src/metaconstructor.cpp:10-28; `sig` is `constructor->signature(name or "constructor")` -/
def createConstructor (w : World) (owner : Ptr) (sig : Str) (hasInvoker : Bool) :
    World × Res (Option Ptr) :=
  if !hasInvoker then (w, .val none)
  else w.getOrCreate owner .constructor sig 0 (fun w => w.getConstructor owner sig) (fun w _ => w)

/-- /repo/src/metaclass.cpp:17-42 -/
def createClass (w : World) (owner : Ptr) (name : Str) (t : TypeId) : World × Res (Option Ptr) :=
  match w.getItem owner .cls name with
  | .val none =>
    if !w.valid t then (w, .throw .invalidTypeId)
    else if (w.metaClass t).isSome then (w, .throw .duplicateClass)
    else w.getOrCreate owner .cls name t (fun w => w.getItem owner .cls name)
      (fun w p => { w with metaClass := upd w.metaClass t (some p) })
  | r => (w, r)

/-! ### base classes -/

/-- `BaseClassList::add`, /repo/src/private/metaclass_p.h:55-60, 86-91 -/
def basesAdd (l : List (TypeId × Caster)) (t : TypeId) (c : Caster) : List (TypeId × Caster) :=
  if l.any (fun it => t == it.1) then l else l ++ [(t, c)]

/-- `DerivedClassList::add`, /repo/src/private/metaclass_p.h:15-21 -/
def derivedAdd (l : List TypeId) (t : TypeId) : List TypeId :=
  if l.contains t then l else l ++ [t]

/-- `MetaClass::addDerivedClass`, /repo/src/metaclass.cpp:108-121 -/
def addDerivedClass (w : World) (this : Ptr) (t : TypeId) : World × Res Unit :=
  if !w.valid t then (w, .throw .invalidTypeId)
  else match w.metaClass t with
    | none => (w, .throw .unregisteredClass)
    | some _ =>
      let d : ClassData := { w.cls this with derived := derivedAdd (w.cls this).derived t }
      ({ w with cls := upd w.cls this d }, .val ())

/-- `MetaClass::addBaseClass`, /repo/src/metaclass.cpp:92-106 -/
def addBaseClass (w : World) (this : Ptr) (t : TypeId) (caster : Caster) : World × Res Unit :=
  if !w.valid t then (w, .throw .invalidTypeId)
  else match w.metaClass t with
    | none => (w, .throw .unregisteredClass)
    | some base =>
      let d : ClassData := { w.cls this with bases := basesAdd (w.cls this).bases t caster }
      let w1 : World := { w with cls := upd w.cls this d }
      w1.addDerivedClass base (w1.cls this).typeId

/-- `baseClassCount`, `baseClass`, `derivedClassCount`, `derivedClass`,
    /repo/src/metaclass.cpp:62-90, /repo/src/private/metaclass_p.h:29-35, 68-74
    (`MetaType_ID{}` for an index out of range) -/
def baseClassCount (w : World) (c : Ptr) : Nat := (w.cls c).bases.length
def baseClass (w : World) (c : Ptr) (i : Nat) : Option Ptr :=
  w.find (if h : i < (w.cls c).bases.length then ((w.cls c).bases[i]'h).1 else 0)
def derivedClassCount (w : World) (c : Ptr) : Nat := (w.cls c).derived.length
def derivedClass (w : World) (c : Ptr) (i : Nat) : Option Ptr :=
  w.find (if h : i < (w.cls c).derived.length then (w.cls c).derived[i]'h else 0)

/-! ### histories -/

inductive Op where
  | registerType (t : TypeId)
  | createNamespace (owner : Ptr) (name : Str)
  | createClass (owner : Ptr) (name : Str) (t : TypeId)
  | createEnum (owner : Ptr) (name : Str)
  | createMethod (owner : Ptr) (sig : Str) (hasInvoker : Bool)
  | createProperty (owner : Ptr) (name : Str) (hasInvoker : Bool)
  | createConstructor (owner : Ptr) (sig : Str) (hasInvoker : Bool)
  | addBase (this : Ptr) (t : TypeId) (caster : Caster)

/-- an API call; calls on something that is not a live container / class are UB -/
def step (w : World) : Op → World × Res (Option Ptr)
  | .registerType t =>
    if t = 0 then (w, .val none) else ({ w with valid := upd w.valid t true }, .val none)
  | .createNamespace o n => w.createNamespace o n
  | .createClass o n t => w.createClass o n t
  | .createEnum o n => w.createEnum o n
  | .createMethod o s i => if w.isContainer o then w.createMethod o s i else (w, .ub)
  | .createProperty o n i => if w.isContainer o then w.createProperty o n i else (w, .ub)
  | .createConstructor o s i => if w.isContainer o then w.createConstructor o s i else (w, .ub)
  | .addBase this t c =>
    if w.kind this = some .cls then
      match w.addBaseClass this t c with
      | (w', .val ()) => (w', .val none)
      | (w', .throw e) => (w', .throw e)
      | (w', .ub) => (w', .ub)
      | (w', .diverge) => (w', .diverge)
    else (w, .ub)

end World
end Rtti
