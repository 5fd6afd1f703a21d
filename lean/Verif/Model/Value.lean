import Verif.Model.CType
import Verif.Model.Convert
/-
Looking into a variant: `is`, `ref`, `cref`, `rref`, `data`, `to`, `canConvert`, `tryConvert`, `classInfo`.
/repo/include/rtti/variant.h:134-507, /repo/include/rtti/detail/variant_impl.h:46-381.

What a variant owns and how it is copied and moved is in `Model/VariantMem.lean`; here a variant is what its function
table and its storage tell a reader. Types the compiler knows are `RType`s. A type id stands for the type itself; that
`decayId()`s are equal exactly when the decayed types are is `C03_ids`; that the converter registry is a map on pairs
of decayed types is `C11_answers_partial`; that the code, which works with ids (`Model/VariantIds.lean`), answers the
same is `C94`.
Not modelled: variants of functions, `void`, arrays of unknown bound; a move constructor that throws when `to`
returns its result.
-/
set_option autoImplicit false
namespace Rtti.Val

/-- the exceptions, /repo/include/rtti/metaerror.h, and those of the user's functions -/
inductive Exc
  | badVariantCast | badVariantConvert | badArgumentCast | invokeError | runtimeError | badMetaCast
  | library (e : Err)
  | user
deriving DecidableEq, Repr

/-- outcome of a call -/
inductive Ret (A : Type) where
  | ok (a : A)
  | throw (e : Exc)
  /-- an exception leaves a `noexcept` function -/
  | terminate
  | ub
  | diverge
deriving DecidableEq, Repr

def Ret.bind {A B : Type} (x : Ret A) (f : A → Ret B) : Ret B :=
  match x with
  | .ok a => f a
  | .throw e => .throw e
  | .terminate => .terminate
  | .ub => .ub
  | .diverge => .diverge

/-- a call into the class registry -/
def Ret.lift {A : Type} : Res A → Ret A
  | .val a => .ok a
  | .throw e => .throw (.library e)
  | .ub => .ub
  | .diverge => .diverge

/-- a registered converter: its kind, and what the user's function does with the object at an address -/
structure Conv where
  fn : Nat
  kind : ConvKind
  call : Addr → UserCall

/-- everything outside the variant that is looked at -/
structure Env where
  /-- the classes -/
  w : World
  /-- `metaTypeId<C>()` of a class -/
  tid : Base → TypeId
  /-- the class has a member `classInfo()` (`has_method_classInfo`) -/
  info : Base → Bool
  /-- what `classInfo()`, called on the object of that class at that address, returns -/
  dyn : Base → Addr → TypeId × Addr
  /-- the pointer stored at an address -/
  load : Addr → Addr
  /-- the converter registry -/
  conv : CType → CType → Option Conv
  /-- the copy constructor of the type throws for the object at that address -/
  copyThrows : CType → Addr → Bool

/-- the type a variant was made with: by value, or a `std::reference_wrapper` -/
structure Held where
  wrapped : Bool
  t : CType
deriving DecidableEq, Repr

/-- `manager` (`none`: the table of `void`), the address of `storage`, and `storage.ptr` -/
structure Vnt where
  held : Option Held
  self : Addr
  ptr : Addr
deriving DecidableEq, Repr

/-- `std::add_const_t` -/
def addConst : CType → CType
  | .base b q => .base b ⟨true, q.v⟩
  | .ptr q t => .ptr ⟨true, q.v⟩ t
  | .arr n t => .arr n (addConst t)

/-- `type_attribute`, variant.h:28-34 -/
inductive Attr | none | lref | rref | lrefConst
deriving DecidableEq, Repr

/-- `U` of the tables of values, variant_impl.h:113, 252, 323: `remove_cv_t<T>`, for arrays `remove_all_cv_t<T[N]>` -/
def kept : CType → CType
  | .arr n e => .arr n e.removeAllCv
  | t => t.removeCv

/-- `U` of the function tables: the same, and for a `std::reference_wrapper` the type as it is, variant_impl.h:179 -/
def Held.u (h : Held) : CType := if h.wrapped then h.t else kept h.t

/-- `f_type`, variant_impl.h:56-70, 120-134, 187-201, 258-272 -/
def Held.type (h : Held) : Attr → RType
  | .none => ⟨.none, h.u⟩
  | .lref => ⟨.lref, h.u⟩
  | .rref => ⟨.rref, h.u⟩
  | .lrefConst => ⟨.lref, addConst h.u⟩

/-- the value is kept in `storage.buffer`: `is_inplace`, variant_impl.h:8-9, and no array, 330-335 -/
def Held.inPlace (h : Held) : Bool := !h.wrapped && !h.t.isArray && decide (h.t.sizeOf ≤ 16)

/-- `f_access`, variant_impl.h:72-75, 136-142, 203-206, 274-277, 403: for arrays the address of the pointer to the
    first element -/
def Vnt.access (v : Vnt) : Addr :=
  match v.held with
  | none => 0
  | some h => if h.t.isArray || h.inPlace then v.self else v.ptr

/-- `is_class_v<full_decay_t<T>>` (1), `is_class_ptr_v<full_decay_t<T>>` (2), with the class; variant.h:372-379 -/
inductive Tag | nope | cls (b : Base) | clsPtr (b : Base)
deriving DecidableEq, Repr

def tag (t : CType) : Tag :=
  match t.fullDecay with
  | .base b _ => if b.kind = .cls then .cls b else .nope
  | .ptr _ (.base b _) => if b.kind = .cls then .clsPtr b else .nope
  | _ => .nope

/-- the answer of a class about the object at `a`: `classInfo()` if it has that member; calling it through a null
    pointer is undefined -/
def objectInfo (E : Env) (b : Base) (a : Addr) : Ret (TypeId × Addr) :=
  if E.info b then (if a = 0 then .ub else .ok (E.dyn b a)) else .ok (E.tid b, a)

/-- `class_info_get<T>::info`, variant_impl.h:337-381 -/
def classInfo (E : Env) (v : Vnt) : Ret (TypeId × Addr) :=
  match v.held with
  | none => .ok (0, 0)
  | some h =>
    if h.t.isArray then .ok (0, 0)
    else match tag h.t with
      | .nope => .ok (0, 0)
      | .cls b => objectInfo E b v.access
      | .clsPtr b => objectInfo E b (E.load v.access)

/-- `variant::metaClass`, variant.h:127-131 -/
def metaClass (E : Env) (v : Vnt) : Ret (Option Ptr) := (classInfo E v).bind fun i => .ok (E.w.find i.1)

/-- `metafunc_is::cast_imp`, variant.h:403-415 -/
def isImp (E : Env) (v : Vnt) (c : Base) : Ret Bool :=
  (classInfo E v).bind fun i =>
    if !E.w.valid i.1 then .ok false
    else match E.w.find i.1, E.w.find (E.tid c) with
      | some f, some t => .lift (E.w.inheritedFrom f (some t))
      | _, _ => .ok false

/-- `metafunc_cast::cast_imp` and `metafunc_to::cast_imp`, variant.h:488-502, 583-597 -/
def castImp (E : Env) (v : Vnt) (c : Base) : Ret Addr :=
  (classInfo E v).bind fun i =>
    if !E.w.valid i.1 then .ok 0
    else match E.w.find i.1, E.w.find (E.tid c) with
      | some f, some t => .lift (E.w.cast f (some t) i.2)
      | _, _ => .ok 0

/-- `MetaType::compatible(from, to)` for two valid types -/
def compat (S T : RType) : Ret Bool :=
  match compatible (describe S) (describe T) with
  | none => .terminate
  | some b => .ok b

/-- `metafunc_is<T>::invoke`, variant.h:355-401 -/
def metafuncIs (E : Env) (v : Vnt) (S T : RType) : Ret Bool :=
  if v.held = none then .ok false
  else (compat S T).bind fun c =>
    if !c then .ok false
    else if S.t.fullDecay = T.t.fullDecay then .ok true
    else match tag T.t with
      | .nope => .ok false
      | .cls b => if (describe S).isClass then isImp E v b else .ok false
      | .clsPtr b => if (describe S).isClassPtr then isImp E v b else .ok false

/-- `metafunc_cast<T>::cast`, variant.h:454-486; `0` is `nullptr` -/
def castTo (E : Env) (v : Vnt) (S T : RType) : Ret Addr :=
  match tag T.t with
  | .nope => .ok 0
  | .cls b => if (describe S).isClass then castImp E v b else .ok 0
  | .clsPtr b =>
    if (describe S).isClassPtr then
      (castImp E v b).bind fun p =>
        if p = 0 then .ok 0
        else if p = v.ptr then .ok v.self
        else .throw .badVariantCast
    else .ok 0

/-- `metafunc_cast<T>::invoke`, variant.h:419-444 -/
def metafuncCast (E : Env) (v : Vnt) (S T : RType) : Ret Addr :=
  if v.held = none then .throw .badVariantCast
  else (compat S T).bind fun c =>
    (if !c then .ok 0
     else if S.t.fullDecay = T.t.fullDecay then .ok v.access
     else castTo E v S T).bind fun result =>
      if result = 0 then .throw .badVariantCast
      else if T.t.isArray then .ok (E.load result)
      else .ok result

/-- the ways to look into a variant, variant.h:133-256: the type the variant shows and the type asked for -/
inductive Access | ref | refConst | refMoved | rref | cref | crefConst
deriving DecidableEq, Repr

def Access.attr : Access → Attr
  | .ref => .lref
  | .refConst => .lrefConst
  | .refMoved => .none
  | .rref => .rref
  | .cref => .lref
  | .crefConst => .lrefConst

def Access.target (a : Access) (t : CType) : RType :=
  match a with
  | .ref => ⟨.lref, t⟩
  | .rref => ⟨.rref, t⟩
  | _ => ⟨.lref, addConst t⟩

/-- the type shown by a variant; an empty variant shows the invalid id, for which all functions return before it is
    used: any type stands for it -/
def Vnt.type (v : Vnt) (a : Attr) : RType :=
  match v.held with
  | some h => h.type a
  | none => ⟨.none, .ptr ⟨false, false⟩ (.base ⟨0, .void, 0, ⟨true, true, true, true, true, true, true, true, true, true, true⟩⟩ ⟨false, false⟩)⟩

/-- `ref() &` (`.ref`), `ref() const&` (`.refConst`), `ref() &&` (`.refMoved`), `rref() &&`, `cref()`, `cref() const`,
    variant.h:147-218: the address referred to -/
def reference (E : Env) (v : Vnt) (a : Access) (t : CType) : Ret Addr :=
  metafuncCast E v (v.type a.attr) (a.target t)

/-- `data()` and `data() const`, variant.h:220-254: `catch (...) { return nullptr; }` -/
def data (E : Env) (v : Vnt) (const : Bool) (t : CType) : Ret Addr :=
  match reference E v (if const then .refConst else .ref) t with
  | .throw _ => .ok 0
  | r => r

/-- `is<T>()` and `is<T>() const`, variant.h:133-145 -/
def is (E : Env) (v : Vnt) (const : Bool) (T : RType) : Ret Bool :=
  metafuncIs E v (v.type (if const then .lrefConst else .lref)) T

/-- the object `to<T>()` returns: copied from the `T` at an address, a pointer, or what a converter made of the object
    at an address -/
inductive Made
  | copyOf (a : Addr)
  | pointer (p : Addr)
  | converted (fn : Nat) (a : Addr)
deriving DecidableEq, Repr

/-- the type (its elements, for arrays) is copy constructible; pointers are -/
def copyable (t : CType) : Bool :=
  match t.fullDecay with
  | .base b _ => b.traits.copyC
  | _ => true

/-- `MetaType::copy_construct` of a `T` from the `T` at `a`, metatype.h:245-257 -/
def copyConstruct (E : Env) (t : CType) (a : Addr) : Ret Made :=
  if copyable t then (if E.copyThrows t.fullDecay a then .throw .user else .ok (.copyOf a)) else .throw .runtimeError

/-- `MetaType::convert`, metatype.cpp:427-445, with the converter run on the object at `a`: `none` when there is no
    converter or it returns false -/
def convert (E : Env) (a : Addr) (S T : CType) : Ret (Option Made) :=
  match E.conv S.fullDecay T.fullDecay with
  | none => .ok none
  | some c =>
    match (runConverter c.kind (c.call a)).1 with
    | .returned true => .ok (some (.converted c.fn a))
    | .returned false => .ok none
    | .exception => .throw .user

/-- `metafunc_to<T>::cast`, variant.h:548-581 -/
def toCast (E : Env) (v : Vnt) (S : RType) (t : CType) : Ret (Option Made) :=
  match tag t with
  | .nope => .ok none
  | .cls b =>
    if (describe S).isClass then
      (castImp E v b).bind fun p => if p = 0 then .ok none else (copyConstruct E t p).bind fun m => .ok (some m)
    else .ok none
  | .clsPtr b =>
    if (describe S).isClassPtr then
      (castImp E v b).bind fun p => if p = 0 then .ok none else .ok (some (.pointer p))
    else .ok none

/-- `metafunc_to<T>::invoke`, variant.h:509-538 -/
def metafuncTo (E : Env) (v : Vnt) (S : RType) (t : CType) : Ret Made :=
  if v.held = none then .throw .badVariantConvert
  else (compat S ⟨.none, t⟩).bind fun c =>
    if c && decide (S.t.fullDecay = t.fullDecay) then copyConstruct E t v.access
    else (if c then toCast E v S t else .ok none).bind fun r =>
      match r with
      | some m => .ok m
      | none => (convert E v.access S.t t).bind fun r =>
        match r with
        | some m => .ok m
        | none => .throw .badVariantConvert

/-- `to<T>()` and `to<T>() const`, variant.h:256-282 (`T` is not an array) -/
def to (E : Env) (v : Vnt) (const : Bool) (t : CType) : Ret Made :=
  metafuncTo E v (v.type (if const then .lrefConst else .lref)) t

/-- `canConvert<T>()` and `canConvert<T>() const`, variant.h:284-314; `hasConverter` is false for the invalid id -/
def canConvert (E : Env) (v : Vnt) (const : Bool) (t : CType) : Ret Bool :=
  (is E v const ⟨.none, t⟩).bind fun b =>
    if b then .ok true
    else if v.held = none then .ok false
    else .ok (E.conv (v.type (if const then .lrefConst else .lref)).t.fullDecay t.fullDecay).isSome

/-- `tryConvert<T>()`, variant.h:320-332: whether it succeeded, and what the variant holds afterwards: `none` is what
    it held before. `built` is false when making the new variant in `operator=(T&&)`, variant_impl.h:450-456, throws: it is
    swapped in only when complete (`C39`). -/
def tryConvert (E : Env) (v : Vnt) (t : CType) (built : Bool) : Ret (Bool × Option Made) :=
  match to E v false t with
  | .ok m => if built then .ok (true, some m) else .ok (false, none)
  | .throw _ => .ok (false, none)
  | .terminate => .terminate
  | .ub => .ub
  | .diverge => .diverge

end Rtti.Val
