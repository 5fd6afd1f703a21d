import Verif.Model.CType
/-
The type registry and the converter registry with their static storage:
/repo/src/metatype.cpp:17-160, 222-238, 318-455, /repo/src/private/metatype_p.h:12-39,
/repo/include/rtti/metatype.h:489-540 (`meta_type`, `metaTypeId`), 619-855 (converters).

Simplifications: single thread (every function of the two registries holds the registry's mutex for its
whole look-up or update; `metaTypeId` and the function-local statics are initialised once by the C++
runtime); the `manager` table and the attached class of a `TypeInfo` are left out (the class is in
`Model/World.lean`); a converter object is known by the function it stores; `std::bad_alloc` does not
happen. Function-local statics are destroyed in reverse order of construction (`destroyNext`).
-/
namespace Rtti

/-- `TypeInfo` without `manager` and `metaClass`, /repo/src/private/metatype_p.h:12-39 -/
structure Info where
  name : Str
  desc : Desc
  decay : TypeId
deriving DecidableEq, Repr

/-- life of a function-local static object -/
inductive Phase | notYet | alive | destroyed
deriving DecidableEq, Repr

/-- one `static ConvertFunctor<From, To, F> converter`, /repo/include/rtti/metatype.h:776-793:
    there is one object for every (decayed) source, target and functor *type* -/
structure Slot where
  src : CType
  dst : CType
  functor : Nat
deriving DecidableEq, Repr

/-- its state; `fn` is the function it was constructed with -/
inductive SlotObj | none | live (fn : Nat) | dead
deriving DecidableEq, Repr

/-- the static objects with a destructor that does something -/
inductive Static | types | convs | slot (s : Slot)
deriving DecidableEq, Repr

structure Reg where
  /-- next address a `TypeInfo` gets -/
  next : Nat
  /-- live `TypeInfo` objects (`CustomTypes::m_items`) by address -/
  info : Nat → Option Info
  /-- `CustomTypes::m_names` -/
  names : Str → Option Nat
  types : Phase
  /-- `meta_type<T>::meta_id` of the static `holder`, if it has been initialised -/
  holders : RType → Option Nat
  /-- `MetaTypeFunctionList::m_items` -/
  items : Nat × Nat → Option Slot
  convs : Phase
  slots : Slot → SlotObj
  /-- constructed statics, most recent first -/
  order : List Static

/-- outcome of a sequence of two calls -/
def Res.bind {A B : Type} (x : Res A) (f : A → Res B) : Res B :=
  match x with
  | .val a => f a
  | .throw e => .throw e
  | .ub => .ub
  | .diverge => .diverge

namespace Reg

/-- program start -/
def init : Reg where
  next := 1
  info := fun _ => none
  names := fun _ => none
  types := .notYet
  holders := fun _ => none
  items := fun _ => none
  convs := .notYet
  slots := fun _ => .none
  order := []

/-- `customTypes()`, /repo/src/metatype.cpp:93-100; `none` is `nullptr` -/
def customTypes (r : Reg) : Option Reg :=
  match r.types with
  | .destroyed => none
  | .alive => some r
  | .notYet => some { r with types := .alive, order := .types :: r.order }

/-- `CustomTypes::getTypeInfo(std::string_view)`, metatype.cpp:63-73 -/
def getTypeInfo (r : Reg) (n : Str) : Nat :=
  if n = [] then 0
  else match r.names n with
    | some k => k
    | none => 0

/-- `CustomTypes::addTypeInfo`, metatype.cpp:75-91 and the constructor of `TypeInfo` (an invalid decay id
    is replaced by the own address) -/
def addTypeInfo (r : Reg) (n : Str) (d : Desc) (decay : TypeId) : Reg × Nat :=
  if n = [] then (r, 0)
  else match r.names n with
    | some k => (r, k)
    | none =>
      ({ r with next := r.next + 1,
                info := upd r.info r.next (some ⟨n, d, if decay = 0 then r.next else decay⟩),
                names := upd r.names n (some r.next) }, r.next)

/-- `MetaType::registerMetaType`, metatype.cpp:222-232 -/
def registerMetaType (r : Reg) (n : Str) (d : Desc) (decay : TypeId) : Reg × Nat :=
  match r.customTypes with
  | none => (r, 0)
  | some r => r.addTypeInfo n d decay

/-- `MetaType::MetaType(MetaType_ID)`, metatype.cpp:108-112: the handle, an address or null. Any number
    is taken as an address. -/
def ofId (r : Reg) (id : TypeId) : Reg × Nat :=
  match r.customTypes with
  | none => (r, 0)
  | some r => (r, id)

/-- `MetaType::MetaType(std::string_view)`, metatype.cpp:114-119 -/
def ofName (r : Reg) (n : Str) : Reg × Nat :=
  match r.customTypes with
  | none => (r, 0)
  | some r => (r, r.getTypeInfo n)

/-- `MetaType::typeId`, metatype.cpp:121-127 -/
def typeId (r : Reg) (h : Nat) : Reg × TypeId :=
  match r.customTypes with
  | none => (r, 0)
  | some r => (r, h)

/-- access through `m_typeInfo->`: undefined when the object is not (any more) there -/
def deref (r : Reg) (h : Nat) : Res Info :=
  match r.info h with
  | some i => .val i
  | none => .ub

/-- answers of the observers `valid`, `typeName`, `typeSize`, `pointerArity`, `typeFlags`, `decayId` -/
structure Obs where
  valid : Bool
  name : Str
  desc : Desc
  decay : TypeId
deriving DecidableEq, Repr

/-- metatype.cpp:129-160; `const_mask` has no observer of its own, it is only used by `compatible` -/
def observe (r : Reg) (h : Nat) : Res Obs :=
  if h = 0 then .val ⟨false, ['v', 'o', 'i', 'd'], ⟨0, 0, 0, Flag.Void⟩, 0⟩
  else (r.deref h).bind fun i => .val ⟨true, i.name, i.desc, i.decay⟩

/-- `MetaType::compatible` on handles, metatype.cpp:162-220; inner `none`: `std::terminate` -/
def compatibleH (r : Reg) (a b : Nat) : Res (Option Bool) :=
  if a = 0 ∨ b = 0 then .val (some false)
  else (r.deref a).bind fun i => (r.deref b).bind fun j => .val (compatible i.desc j.desc)

/-- `std::is_same_v<T, void>`: `metaTypeId<void>` is specialised, metatype.h:527-529 -/
def isVoid (T : RType) : Bool :=
  match T with
  | ⟨.none, .base b ⟨false, false⟩⟩ => b.kind = .void
  | _ => false

/-- `static meta_type<T> holder{}`, metatype.h:496-515, 520-525, once the id of the decayed type is known -/
def initHolder (nm : RType → Str) (r : Reg) (T : RType) (decay : TypeId) : Reg × TypeId :=
  let p := r.registerMetaType (nm T) (describe T) decay
  ({ p.1 with holders := upd p.1.holders T (some p.2) }, p.2)

/-- `metaTypeId<T>()` for a `T` that is its own decay -/
def metaTypeIdDecayed (nm : RType → Str) (r : Reg) (T : RType) : Reg × TypeId :=
  if isVoid T then (r, 0)
  else match r.holders T with
    | some id => (r, id)
    | none => r.initHolder nm T 0

/-- `metaTypeId<T>()`, metatype.h:520-529 with 496-515. `nm` is `type_name<T>()`. The recursive call
    for the decayed type does not recurse again (`C03_decay_fixed_point`), so it is unfolded once. -/
def metaTypeId (nm : RType → Str) (r : Reg) (T : RType) : Reg × TypeId :=
  if isVoid T then (r, 0)
  else match r.holders T with
    | some id => (r, id)
    | none =>
      let D : RType := ⟨.none, T.t.fullDecay⟩
      if T = D then r.initHolder nm T 0
      else
        let p := r.metaTypeIdDecayed nm D
        p.1.initHolder nm T p.2

/-! ### converters -/

/-- `customConverters()`, metatype.cpp:388-395 -/
def customConverters (r : Reg) : Option Reg :=
  match r.convs with
  | .destroyed => none
  | .alive => some r
  | .notYet => some { r with convs := .alive, order := .convs :: r.order }

/-- the key `{fromType.m_typeInfo->decay, toType.m_typeInfo->decay}` -/
def key (r : Reg) (a b : Nat) : Res (Nat × Nat) :=
  (r.deref a).bind fun i => (r.deref b).bind fun j => .val (i.decay, j.decay)

/-- common part of the functions below: `if (from.valid() && to.valid()) if (auto list = ...)` -/
def withList {A : Type} (r : Reg) (a b : Nat) (dflt : A) (f : Reg → Nat × Nat → Res (Reg × A)) : Res (Reg × A) :=
  if a = 0 ∨ b = 0 then .val (r, dflt)
  else match r.customConverters with
    | none => .val (r, dflt)
    | some r => (r.key a b).bind (f r)

/-- `MetaType::hasConverter(MetaType, MetaType)`, metatype.cpp:399-405 -/
def hasConverterH (r : Reg) (a b : Nat) : Res (Reg × Bool) :=
  r.withList a b false fun r k => .val (r, (r.items k).isSome)

/-- `MetaType::hasConverter(MetaType_ID, MetaType_ID)`, metatype.cpp:407-413 -/
def hasConverter (r : Reg) (a b : TypeId) : Res (Reg × Bool) :=
  let p := r.ofId a
  let q := p.1.ofId b
  q.1.hasConverterH p.2 q.2

/-- `MetaType::registerConverter(MetaType_ID, MetaType_ID, ConvertFunctionBase const&)`,
    metatype.cpp:415-425 with `add`, 343-354 -/
def registerConverter (r : Reg) (a b : TypeId) (s : Slot) : Res (Reg × Bool) :=
  let p := r.ofId a
  let q := p.1.ofId b
  q.1.withList p.2 q.2 false fun r k =>
    if (r.items k).isSome then .val (r, false)
    else .val ({ r with items := upd r.items k (some s) }, true)

/-- `MetaType::unregisterConverter(MetaType_ID, MetaType_ID)`, metatype.cpp:447-455 -/
def unregisterConverter (r : Reg) (a b : TypeId) : Res (Reg × Unit) :=
  let p := r.ofId a
  let q := p.1.ofId b
  q.1.withList p.2 q.2 () fun r k => .val ({ r with items := upd r.items k none }, ())

/-- `MetaType::convert`, metatype.cpp:427-445: the function that is run, if any. (What happens when it
    runs is in `Model/Convert.lean`.) -/
def convertH (r : Reg) (a b : Nat) : Res (Reg × Option Nat) :=
  r.withList a b none fun r k =>
    match r.items k with
    | none => .val (r, none)
    | some s =>
      match r.slots s with
      | .live fn => .val (r, some fn)
      | _ => .ub

def convert (r : Reg) (a b : TypeId) : Res (Reg × Option Nat) :=
  let p := r.ofId a
  let q := p.1.ofId b
  q.1.convertH p.2 q.2

/-- the local static of `registerConverter_imp`, metatype.h:776-793, 824-830, 841-847: constructed by the
    first call, left alone by later ones -/
def useSlot (r : Reg) (s : Slot) (fn : Nat) : Reg :=
  match r.slots s with
  | .none => { r with slots := upd r.slots s (.live fn), order := .slot s :: r.order }
  | _ => r

/-- the slot of `registerConverter<From, To>(func)`, metatype.h:795-801 -/
def slotOf (S T : RType) (functor : Nat) : Slot := ⟨S.t.fullDecay, T.t.fullDecay, functor⟩

/-- `registerConverter<From, To>(func)`, metatype.h:776-855 (arguments evaluated left to right) -/
def registerConverterT (nm : RType → Str) (r : Reg) (S T : RType) (functor fn : Nat) : Res (Reg × Bool) :=
  let s := slotOf S T functor
  let r := r.useSlot s fn
  let p := r.metaTypeId nm ⟨.none, S.t.fullDecay⟩
  let q := p.1.metaTypeId nm ⟨.none, T.t.fullDecay⟩
  q.1.registerConverter p.2 q.2 s

/-- `unregisterConverter<From, To>()`, metatype.h:857-861 -/
def unregisterConverterT (nm : RType → Str) (r : Reg) (S T : RType) : Res (Reg × Unit) :=
  let p := r.metaTypeId nm S
  let q := p.1.metaTypeId nm T
  q.1.unregisterConverter p.2 q.2

/-- `hasConverter<From, To>()`, metatype.h:766-770 -/
def hasConverterT (nm : RType → Str) (r : Reg) (S T : RType) : Res (Reg × Bool) :=
  let p := r.metaTypeId nm S
  let q := p.1.metaTypeId nm T
  q.1.hasConverter p.2 q.2

/-- a conversion between values of static types `From` and `To`, as in variant.h:309-324 -/
def convertT (nm : RType → Str) (r : Reg) (S T : RType) : Res (Reg × Option Nat) :=
  let p := r.metaTypeId nm S
  let q := p.1.metaTypeId nm T
  q.1.convert p.2 q.2

/-! ### shutdown -/

/-- runs the destructor of the most recently constructed static that is still alive:
    `~CustomTypes` metatype.cpp:46-52, `~MetaTypeFunctionList` 328-333, `~ConvertFunctor` metatype.h:663-666 -/
def destroyNext (nm : RType → Str) (r : Reg) : Res Reg :=
  match r.order with
  | [] => .val r
  | .types :: rest =>
    .val { r with info := fun _ => none, names := fun _ => none, types := .destroyed, order := rest }
  | .convs :: rest => .val { r with items := fun _ => none, convs := .destroyed, order := rest }
  | .slot s :: rest =>
    (unregisterConverterT nm { r with order := rest } ⟨.none, s.src⟩ ⟨.none, s.dst⟩).bind fun p =>
      .val { p.1 with slots := upd p.1.slots s .dead }

end Reg

/-! ### programs -/

inductive RegOp
  /-- `registerMetaType` with any arguments -/
  | reg (n : Str) (d : Desc) (decay : TypeId)
  /-- `MetaType{name}.typeId()` -/
  | lookup (n : Str)
  /-- a fresh `MetaType{id}`, then all observers -/
  | observe (id : TypeId)
  /-- the observers of a `MetaType` made earlier -/
  | observeOld (h : Nat)
  /-- `metaTypeId<T>()` -/
  | idOf (T : RType)
  | compatible (a b : TypeId)
  | has (a b : TypeId)
  | convert (a b : TypeId)
  | unreg (a b : TypeId)
  | hasT (S T : RType)
  | convertT (S T : RType)
  | regT (S T : RType) (functor fn : Nat)
  | unregT (S T : RType)
  /-- one more static object is destroyed -/
  | destroy
deriving DecidableEq, Repr

inductive RegOut
  | id (n : TypeId)
  | obs (o : Reg.Obs)
  | bool (b : Bool)
  | compat (b : Option Bool)
  | ran (fn : Option Nat)
  | unit
deriving DecidableEq, Repr

namespace Reg

def step (nm : RType → Str) (r : Reg) : RegOp → Res (Reg × RegOut)
  | .reg n d decay => let p := r.registerMetaType n d decay; .val (p.1, .id p.2)
  | .lookup n => let p := r.ofName n; let q := p.1.typeId p.2; .val (q.1, .id q.2)
  | .observe id => let p := r.ofId id; (p.1.observe p.2).bind fun o => .val (p.1, .obs o)
  | .observeOld h => (r.observe h).bind fun o => .val (r, .obs o)
  | .idOf T => let p := r.metaTypeId nm T; .val (p.1, .id p.2)
  | .compatible a b =>
    let p := r.ofId a
    let q := p.1.ofId b
    (q.1.compatibleH p.2 q.2).bind fun o => .val (q.1, .compat o)
  | .has a b => (r.hasConverter a b).bind fun p => .val (p.1, .bool p.2)
  | .convert a b => (r.convert a b).bind fun p => .val (p.1, .ran p.2)
  | .unreg a b => (r.unregisterConverter a b).bind fun p => .val (p.1, .unit)
  | .hasT S T => (r.hasConverterT nm S T).bind fun p => .val (p.1, .bool p.2)
  | .convertT S T => (r.convertT nm S T).bind fun p => .val (p.1, .ran p.2)
  | .regT S T f fn => (r.registerConverterT nm S T f fn).bind fun p => .val (p.1, .bool p.2)
  | .unregT S T => (r.unregisterConverterT nm S T).bind fun p => .val (p.1, .unit)
  | .destroy => (r.destroyNext nm).bind fun r => .val (r, .unit)

/-- a program run from `r`: final state and the answers of all calls -/
def run (nm : RType → Str) : Reg → List RegOp → Res (Reg × List RegOut)
  | r, [] => .val (r, [])
  | r, op :: ops => (r.step nm op).bind fun p => (run nm p.1 ops).bind fun q => .val (q.1, p.2 :: q.2)

end Reg

end Rtti
