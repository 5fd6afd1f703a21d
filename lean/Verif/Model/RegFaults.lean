import Verif.Model.Registry
import Verif.Model.World
/-
Registering types and converters, and adding base classes, when memory runs out: where each allocation of
`CustomTypes::addTypeInfo` (/repo/src/metatype.cpp:75-91), of the converter statics (/repo/include/rtti/metatype.h:776-848), of
`MetaTypeFunctionList::add` (/repo/src/metatype.cpp:343-354) and of `MetaClass::addBaseClass` (/repo/src/metaclass.cpp:92-121) can
fail, and what is left behind. `forward_list::emplace_front`, `unordered_map::emplace`, `vector::push_back` and
`vector::emplace_back` have the strong guarantee; each counts as one allocation here. A static whose constructor throws is
not constructed; the next call tries again.
-/
set_option autoImplicit false
namespace Rtti

/-- how a call ended. `threw made`: with `std::bad_alloc`; `made` tells whether the converter static of the call exists
    afterwards. `terminated`: the exception met a `noexcept` function. -/
inductive FOut (A : Type)
  | ok (a : A)
  | threw (made : Bool)
  | terminated
  | ub
deriving DecidableEq, Repr

def FOut.map {A B : Type} (f : A → B) : FOut A → FOut B
  | .ok a => .ok (f a)
  | .threw m => .threw m
  | .terminated => .terminated
  | .ub => .ub

/-- the registry; the `TypeInfo` objects in `m_items` whose name never got into `m_names` (nobody has their addresses:
    they are not in `reg.info`); the number of allocations so far -/
structure FReg where
  reg : Reg
  lost : List Info
  n : Nat

namespace FReg

def init : FReg := ⟨.init, [], 0⟩

/-- `CustomTypes::addTypeInfo`, metatype.cpp:75-91. Line 84 allocates the list node with the `TypeInfo`, line 85 the node of the
    map; if that fails the `TypeInfo` stays in the list. -/
def addTypeInfo (oom : Nat → Bool) (s : FReg) (nm : Str) (d : Desc) (decay : TypeId) : FReg × Option Nat :=
  if nm = [] then (s, some 0)
  else match s.reg.names nm with
    | some k => (s, some k)
    | none =>
      if oom s.n then ({ s with n := s.n + 1 }, none)
      else if oom (s.n + 1) then
        (⟨{ s.reg with next := s.reg.next + 1 }, ⟨nm, d, if decay = 0 then s.reg.next else decay⟩ :: s.lost, s.n + 2⟩, none)
      else
        let p := s.reg.addTypeInfo nm d decay
        (⟨p.1, s.lost, s.n + 2⟩, some p.2)

/-- `MetaType::registerMetaType`, metatype.cpp:222-232 -/
def registerMetaType (oom : Nat → Bool) (s : FReg) (nm : Str) (d : Desc) (decay : TypeId) : FReg × Option Nat :=
  match s.reg.customTypes with
  | none => (s, some 0)
  | some r => { s with reg := r }.addTypeInfo oom nm d decay

/-- `static meta_type<T> holder{}`, metatype.h:496-515, 520-525, once the id of the decayed type is known -/
def initHolder (oom : Nat → Bool) (nm : RType → Str) (s : FReg) (T : RType) (decay : TypeId) : FReg × Option TypeId :=
  match s.registerMetaType oom (nm T) (describe T) decay with
  | (s, none) => (s, none)
  | (s, some id) => ({ s with reg := { s.reg with holders := upd s.reg.holders T (some id) } }, some id)

/-- `metaTypeId<T>()` for a `T` that is its own decay -/
def metaTypeIdDecayed (oom : Nat → Bool) (nm : RType → Str) (s : FReg) (T : RType) : FReg × Option TypeId :=
  if Reg.isVoid T then (s, some 0)
  else match s.reg.holders T with
    | some id => (s, some id)
    | none => s.initHolder oom nm T 0

/-- `metaTypeId<T>()`, metatype.h:520-529 with 496-515 -/
def metaTypeId (oom : Nat → Bool) (nm : RType → Str) (s : FReg) (T : RType) : FReg × Option TypeId :=
  if Reg.isVoid T then (s, some 0)
  else match s.reg.holders T with
    | some id => (s, some id)
    | none =>
      let D : RType := ⟨.none, T.t.fullDecay⟩
      if T = D then s.initHolder oom nm T 0
      else match s.metaTypeIdDecayed oom nm D with
        | (s, none) => (s, none)
        | (s, some d) => s.initHolder oom nm T d

/-- the two ids that the arguments of a typed call are evaluated to (left to right) -/
def twoIds (oom : Nat → Bool) (nm : RType → Str) (s : FReg) (S T : RType) : FReg × Option (TypeId × TypeId) :=
  match s.metaTypeId oom nm S with
  | (s, none) => (s, none)
  | (s, some a) =>
    match s.metaTypeId oom nm T with
    | (s, none) => (s, none)
    | (s, some b) => (s, some (a, b))

/-- a function that allocates nothing -/
def quiet {A : Type} (s : FReg) (x : Res (Reg × A)) : FReg × FOut A :=
  match x with
  | .val p => ({ s with reg := p.1 }, .ok p.2)
  | _ => (s, .ub)

/-- the local static of `registerConverter_imp`, metatype.h:776-793, 824-830, 841-847; copying the functor may need memory -/
def useSlot (oom : Nat → Bool) (s : FReg) (c : Slot) (fn : Nat) : FReg × Bool :=
  match s.reg.slots c with
  | .none => if oom s.n then ({ s with n := s.n + 1 }, false) else ({ s with reg := s.reg.useSlot c fn, n := s.n + 1 }, true)
  | _ => (s, true)

/-- `MetaType::registerConverter(MetaType_ID, MetaType_ID, ConvertFunctionBase const&)`, metatype.cpp:415-425; line 352
    allocates -/
def registerConverter (oom : Nat → Bool) (s : FReg) (a b : TypeId) (c : Slot) : FReg × FOut Bool :=
  let p := s.reg.ofId a
  let q := p.1.ofId b
  if p.2 = 0 ∨ q.2 = 0 then ({ s with reg := q.1 }, .ok false)
  else match q.1.customConverters with
    | none => ({ s with reg := q.1 }, .ok false)
    | some r =>
      match r.key p.2 q.2 with
      | .val k =>
        if (r.items k).isSome then ({ s with reg := r }, .ok false)
        else if oom s.n then ({ s with reg := r, n := s.n + 1 }, .threw true)
        else ({ s with reg := { r with items := upd r.items k (some c) }, n := s.n + 1 }, .ok true)
      | _ => (s, .ub)

/-- `registerConverter<From, To>(func)`, metatype.h:776-848 -/
def registerConverterT (oom : Nat → Bool) (nm : RType → Str) (s : FReg) (S T : RType) (functor fn : Nat) : FReg × FOut Bool :=
  let c := Reg.slotOf S T functor
  match s.useSlot oom c fn with
  | (s, false) => (s, .threw false)
  | (s, true) =>
    match s.twoIds oom nm ⟨.none, S.t.fullDecay⟩ ⟨.none, T.t.fullDecay⟩ with
    | (s, none) => (s, .threw true)
    | (s, some ab) => s.registerConverter oom ab.1 ab.2 c

/-- `unregisterConverter<From, To>()`, metatype.h:851-855 -/
def unregisterConverterT (oom : Nat → Bool) (nm : RType → Str) (s : FReg) (S T : RType) : FReg × FOut Unit :=
  match s.twoIds oom nm S T with
  | (s, none) => (s, .threw false)
  | (s, some ab) => s.quiet (s.reg.unregisterConverter ab.1 ab.2)

/-- `hasConverter<From, To>()`, metatype.h:770-774: `noexcept` -/
def hasConverterT (oom : Nat → Bool) (nm : RType → Str) (s : FReg) (S T : RType) : FReg × FOut Bool :=
  match s.twoIds oom nm S T with
  | (s, none) => (s, .terminated)
  | (s, some ab) => s.quiet (s.reg.hasConverter ab.1 ab.2)

/-- a conversion between values of static types `From` and `To`, as in variant.h:309-324 -/
def convertT (oom : Nat → Bool) (nm : RType → Str) (s : FReg) (S T : RType) : FReg × FOut (Option Nat) :=
  match s.twoIds oom nm S T with
  | (s, none) => (s, .threw false)
  | (s, some ab) => s.quiet (s.reg.convert ab.1 ab.2)

/-- the destructor of the next static; a destructor is `noexcept`. `~CustomTypes` (metatype.cpp:46-52) frees the lost
    objects with the others. -/
def destroyNext (oom : Nat → Bool) (nm : RType → Str) (s : FReg) : FReg × FOut Unit :=
  match s.reg.order with
  | [] => (s, .ok ())
  | .types :: rest =>
    (⟨{ s.reg with info := fun _ => none, names := fun _ => none, types := .destroyed, order := rest }, [], s.n⟩, .ok ())
  | .convs :: rest =>
    ({ s with reg := { s.reg with items := fun _ => none, convs := .destroyed, order := rest } }, .ok ())
  | .slot c :: rest =>
    match { s with reg := { s.reg with order := rest } }.unregisterConverterT oom nm ⟨.none, c.src⟩ ⟨.none, c.dst⟩ with
    | (s, .ok ()) => ({ s with reg := { s.reg with slots := upd s.reg.slots c .dead } }, .ok ())
    | (s, .threw _) => (s, .terminated)
    | (s, .terminated) => (s, .terminated)
    | (s, .ub) => (s, .ub)

/-- an optional answer; `none`: the exception leaves the call -/
def ids (x : FReg × Option TypeId) : FReg × FOut RegOut :=
  match x with
  | (s, none) => (s, .threw false)
  | (s, some id) => (s, .ok (.id id))

/-- one call; see `Reg.step`. The calls that are not listed allocate nothing. -/
def step (oom : Nat → Bool) (nm : RType → Str) (s : FReg) : RegOp → FReg × FOut RegOut
  | .reg n d decay => ids (s.registerMetaType oom n d decay)
  | .idOf T => ids (s.metaTypeId oom nm T)
  | .hasT S T => let x := s.hasConverterT oom nm S T; (x.1, x.2.map .bool)
  | .convertT S T => let x := s.convertT oom nm S T; (x.1, x.2.map .ran)
  | .regT S T f fn => let x := s.registerConverterT oom nm S T f fn; (x.1, x.2.map .bool)
  | .unregT S T => let x := s.unregisterConverterT oom nm S T; (x.1, x.2.map fun _ => .unit)
  | .destroy => let x := s.destroyNext oom nm; (x.1, x.2.map fun _ => .unit)
  | op => s.quiet (s.reg.step nm op)

/-- a program: the calls made and how each ended; nothing comes after `terminated` or undefined behaviour -/
def run (oom : Nat → Bool) (nm : RType → Str) : FReg → List RegOp → FReg × List (RegOp × FOut RegOut)
  | s, [] => (s, [])
  | s, op :: ops =>
    match s.step oom nm op with
    | (s, .terminated) => (s, [(op, .terminated)])
    | (s, .ub) => (s, [(op, .ub)])
    | (s, o) => let x := s.run oom nm ops; (x.1, (op, o) :: x.2)

end FReg

/-! ### base classes -/

/-- the allocation of `addBaseClass` that fails, if the call gets to it: the growth of the list of bases, or of the list of
    derived classes -/
inductive BaseFault | none | bases | derived
deriving DecidableEq, Repr

namespace World

/-- `MetaClass::addBaseClass`, /repo/src/metaclass.cpp:92-106, with `addDerivedClass`, 108-121, and the two `add`,
    /repo/src/private/metaclass_p.h:14-20, 57-62: an entry that is there needs no memory. `none`: `std::bad_alloc`. -/
def addBaseClassF (f : BaseFault) (w : World) (this : Ptr) (t : TypeId) (caster : Caster) : World × Option (Res Unit) :=
  if !w.valid t then (w, some (.throw .invalidTypeId))
  else match w.metaClass t with
    | none => (w, some (.throw .unregisteredClass))
    | some base =>
      if f = .bases ∧ (w.cls this).bases.all (fun x => x.1 != t) then (w, none)
      else
        let d : ClassData := { w.cls this with bases := basesAdd (w.cls this).bases t caster }
        let w1 : World := { w with cls := upd w.cls this d }
        let t' := (w1.cls this).typeId
        if f = .derived ∧ w1.valid t' = true ∧ (w1.metaClass t').isSome ∧ (w1.cls base).derived.contains t' = false then (w1, none)
        else let x := w1.addDerivedClass base t'; (x.1, some x.2)

end World
end Rtti
