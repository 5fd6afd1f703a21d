import Verif.Model.ClassFind
import Verif.Model.Value
/-
Looking into a variant as the code does it, through ids: `is`, `ref`, `to`, `canConvert` with `MetaType{id}`,
`MetaType::compatible` and `decayId()` on what is registered, `MetaClass::find(id)` and `MetaType::convert`
(/repo/include/rtti/variant.h:284-314, 353-597). `Model/Value.lean` takes a type id to be the type itself.

Simplifications: the ids are asked for before the look instead of on the way (asking registers the type and nothing
else); a single thread; not during shutdown; `MetaType::copy_construct` copies a `T` (the functions recorded for the
id of `T` are those of the type whose description is recorded for it, /repo/include/rtti/metatype.h:496-515).
-/
set_option autoImplicit false
namespace Rtti.ClassFind
open Rtti.Val (Vnt Ret Conv Made Env Tag Held Access Attr tag)

/-- what the program outside the library does -/
structure Outside where
  /-- as in `Env` -/
  info : Base → Bool
  dyn : Base → Addr → TypeId × Addr
  load : Addr → Addr
  copyThrows : CType → Addr → Bool
  /-- the converter functions -/
  fns : Nat → Conv

/-- `metaTypeId<C>()` of a class -/
def clsType (b : Base) : RType := ⟨.none, .base b ⟨false, false⟩⟩

/-- what `Model/Value.lean` looks at, taken from the registries as they are: the classes, the ids of classes, and the
    converter found for a pair of decayed types -/
def Prog.env (nm : RType → Str) (U : Outside) (s : Prog) : Env where
  w := s.world
  tid := fun b => s.idNow nm (clsType b)
  info := U.info
  dyn := U.dyn
  load := U.load
  copyThrows := U.copyThrows
  conv := fun A B =>
    match s.reg.convertT nm ⟨.none, A⟩ ⟨.none, B⟩ with
    | .val (_, some fn) => some (U.fns fn)
    | _ => none

/-- `MetaClass::find(MetaType_ID)`, /repo/src/metaclass.cpp:44-48, with /repo/src/metatype.cpp:108-112, 234-238: an id that
    is no address of a registered type is read through all the same -/
def Prog.lookup (s : Prog) (id : TypeId) : Res (Option Ptr) :=
  let h := (s.reg.ofId id).2
  if h = 0 then .val none else (s.reg.deref h).bind fun _ => .val (s.world.metaClass h)

/-- `metafunc_is<T>::cast_imp`, variant.h:403-415; `C` as in 372 -/
def Prog.isImp (nm : RType → Str) (U : Outside) (s : Prog) (v : Vnt) (C : RType) : Ret Bool :=
  (Val.classInfo (s.env nm U) v).bind fun i =>
    if (s.reg.ofId i.1).2 = 0 then .ok false
    else .lift ((s.lookup i.1).bind fun f => (s.lookup (s.idNow nm C)).bind fun t =>
      match f, t with
      | some f, some t => s.world.inheritedFrom f (some t)
      | _, _ => .val false)

/-- `metafunc_cast<T>::cast_imp`, `metafunc_to<T>::cast_imp`, variant.h:488-502, 583-597 -/
def Prog.castImp (nm : RType → Str) (U : Outside) (s : Prog) (v : Vnt) (C : RType) : Ret Addr :=
  (Val.classInfo (s.env nm U) v).bind fun i =>
    if (s.reg.ofId i.1).2 = 0 then .ok 0
    else .lift ((s.lookup i.1).bind fun f => (s.lookup (s.idNow nm C)).bind fun t =>
      match f, t with
      | some f, some t => s.world.cast f (some t) i.2
      | _, _ => .val 0)

/-- `MetaType::compatible(MetaType{a}, MetaType{b})`, /repo/src/metatype.cpp:162-220 -/
def Prog.compat (s : Prog) (a b : TypeId) : Ret Bool :=
  (Ret.lift (s.reg.compatibleH (s.reg.ofId a).2 (s.reg.ofId b).2)).bind fun c =>
    match c with
    | none => .terminate
    | some c => .ok c

/-- `MetaType{id}.decayId()`, `.isClass()`, `.isClassPtr()` -/
def Prog.seen (s : Prog) (id : TypeId) : Ret Reg.Obs := .lift (s.reg.observe (s.reg.ofId id).2)

/-- `C` of the three templates, variant.h:372, 449, 543: `std::remove_pointer_t<full_decay_t<T>>` -/
def classOf (t : CType) : RType := ⟨.none, t.fullDecay.removePointer⟩

/-- `metafunc_is<T>::invoke`, variant.h:353-401 -/
def Prog.metafuncIs (nm : RType → Str) (U : Outside) (s : Prog) (v : Vnt) (from_ : TypeId) (T : RType) : Ret Bool :=
  if v.held = none then .ok false
  else (s.compat from_ (s.idNow nm T)).bind fun c =>
    if !c then .ok false
    else (s.seen from_).bind fun a => (s.seen (s.idNow nm T)).bind fun b =>
      if a.decay = b.decay then .ok true
      else match tag T.t with
        | .nope => .ok false
        | .cls _ => if a.desc.isClass then s.isImp nm U v (classOf T.t) else .ok false
        | .clsPtr _ => if a.desc.isClassPtr then s.isImp nm U v (classOf T.t) else .ok false

/-- `metafunc_cast<T>::invoke`, variant.h:417-486 -/
def Prog.metafuncCast (nm : RType → Str) (U : Outside) (s : Prog) (v : Vnt) (from_ : TypeId) (T : RType) : Ret Addr :=
  if v.held = none then .throw .badVariantCast
  else (s.compat from_ (s.idNow nm T)).bind fun c =>
    (if !c then .ok 0
     else (s.seen from_).bind fun a => (s.seen (s.idNow nm T)).bind fun b =>
      if a.decay = b.decay then .ok v.access
      else match tag T.t with
        | .nope => .ok 0
        | .cls _ => if a.desc.isClass then s.castImp nm U v (classOf T.t) else .ok 0
        | .clsPtr _ =>
          if a.desc.isClassPtr then
            (s.castImp nm U v (classOf T.t)).bind fun p =>
              if p = 0 then .ok 0 else if p = v.ptr then .ok v.self else .throw .badVariantCast
          else .ok 0).bind fun result =>
      if result = 0 then .throw .badVariantCast
      else if T.t.isArray then .ok (U.load result)
      else .ok result

/-- `MetaType::convert`, /repo/src/metatype.cpp:427-445, with the ids, of the object at `a` -/
def Prog.convert (U : Outside) (s : Prog) (a : Addr) (from_ to : TypeId) : Ret (Option Made) :=
  (Ret.lift (s.reg.convert from_ to)).bind fun r =>
    match r.2 with
    | none => .ok none
    | some fn =>
      match (runConverter (U.fns fn).kind ((U.fns fn).call a)).1 with
      | .returned true => .ok (some (.converted (U.fns fn).fn a))
      | .returned false => .ok none
      | .exception => .throw .user

/-- `metafunc_to<T>::invoke`, variant.h:504-581 -/
def Prog.metafuncTo (nm : RType → Str) (U : Outside) (s : Prog) (v : Vnt) (from_ : TypeId) (t : CType) : Ret Made :=
  let to := s.idNow nm ⟨.none, t⟩
  if v.held = none then .throw .badVariantConvert
  else (s.compat from_ to).bind fun c =>
    (if !c then .ok none
     else (s.seen from_).bind fun a => (s.seen to).bind fun b =>
      if a.decay = b.decay then (Val.copyConstruct (s.env nm U) t v.access).bind fun m => .ok (some m)
      else match tag t with
        | .nope => .ok none
        | .cls _ =>
          if a.desc.isClass then (s.castImp nm U v (classOf t)).bind fun p =>
            if p = 0 then .ok none else (Val.copyConstruct (s.env nm U) t p).bind fun m => .ok (some m)
          else .ok none
        | .clsPtr _ =>
          if a.desc.isClassPtr then (s.castImp nm U v (classOf t)).bind fun p =>
            if p = 0 then .ok none else .ok (some (.pointer p))
          else .ok none).bind fun r =>
      match r with
      | some m => .ok m
      | none => (s.convert U v.access from_ to).bind fun r =>
        match r with
        | some m => .ok m
        | none => .throw .badVariantConvert

/-- `internalTypeId(attr)`, variant.h:342-343, with the tables of `Model/Value.lean`; of an empty variant the invalid id -/
def Prog.heldId (nm : RType → Str) (s : Prog) (v : Vnt) (a : Attr) : TypeId :=
  match v.held with
  | none => 0
  | some h => s.idNow nm (h.type a)

/-- `is<T>()`, `is<T>() const`, variant.h:133-145 -/
def Prog.is (nm : RType → Str) (U : Outside) (s : Prog) (v : Vnt) (const : Bool) (T : RType) : Ret Bool :=
  s.metafuncIs nm U v (s.heldId nm v (if const then .lrefConst else .lref)) T

/-- `ref`, `cref`, `rref`, variant.h:147-218 -/
def Prog.reference (nm : RType → Str) (U : Outside) (s : Prog) (v : Vnt) (a : Access) (t : CType) : Ret Addr :=
  s.metafuncCast nm U v (s.heldId nm v a.attr) (a.target t)

/-- `to<T>()`, `to<T>() const`, variant.h:256-282 -/
def Prog.to (nm : RType → Str) (U : Outside) (s : Prog) (v : Vnt) (const : Bool) (t : CType) : Ret Made :=
  s.metafuncTo nm U v (s.heldId nm v (if const then .lrefConst else .lref)) t

/-- `canConvert<T>()`, `canConvert<T>() const`, variant.h:284-314 -/
def Prog.canConvert (nm : RType → Str) (U : Outside) (s : Prog) (v : Vnt) (const : Bool) (t : CType) : Ret Bool :=
  (s.is nm U v const ⟨.none, t⟩).bind fun b =>
    if b then .ok true
    else (Ret.lift (s.reg.hasConverter (s.heldId nm v (if const then .lrefConst else .lref)) (s.idNow nm ⟨.none, t⟩))).bind fun r => .ok r.2

/-- the types whose ids are asked for when a variant is looked into: the type shown, the type asked for, the class of the
    object held, the class asked for -/
def asked (v : Vnt) (a : Attr) (T : RType) : List RType :=
  (match v.held with
    | none => []
    | some h => h.type a :: (match tag h.t with | .nope => [] | .cls b | .clsPtr b => [clsType b])) ++
  T :: (match tag T.t with | .nope => [] | .cls _ | .clsPtr _ => [classOf T.t])

end Rtti.ClassFind
