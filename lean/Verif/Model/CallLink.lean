import Verif.Model.CallMem
import Verif.Model.CallVal
import Verif.Model.Invoke
/-
What `Arg.get` (`Model/Invoke.lean`, argument_impl.h:12-113) decides for an argument, as a parameter of `Model/CallMem.lean`: a call through the
reflection interface with the objects it makes. /repo/include/rtti/metadefine.h:104-220.

Types and values are numbers there; which ones is given. Simplified as in both models: arguments are evaluated from left to right.
-/
set_option autoImplicit false
namespace Rtti.CallMem
open Val

/-- the numbers of types and values -/
structure Codes where
  code : CType → Nat
  /-- the value of the object of that type at an address -/
  val : CType → Addr → Nat
  /-- the value of a pointer -/
  ptr : Addr → Nat
  /-- what a converter makes of the object at an address -/
  conv : Nat → Addr → Nat

/-- the value `to<T>()` returns -/
def Codes.made (V : Codes) (t : CType) : Made → Nat
  | .copyOf a => V.val t a
  | .pointer p => V.ptr p
  | .converted fn a => V.conv fn a

/-- how it got into the buffer, variant.h:513-538 -/
def Codes.src (V : Codes) (t : CType) : Made → Src
  | .copyOf a => .copy (V.val t a)
  | .pointer p => .made (V.ptr p) true
  | .converted fn a => .made (V.conv fn a) true

/-- a conversion that was refused, variant.h:533-537: the converter may have constructed an object all the same, metatype.h:703-710 -/
def refused (E : Env) (V : Codes) (v : Vnt) (const : Bool) (t : CType) : Src :=
  match E.conv (v.type (if const then .lrefConst else .lref)).t.fullDecay t.fullDecay with
  | none => .fails
  | some c => if runConverter c.kind (c.call v.access) = (.returned false, true) then .made (V.conv c.fn v.access) false else .fails

/-- what becomes of one argument -/
def paramOf (E : Env) (N : Nest) (V : Codes) (a : Arg) (p : RType) : Param :=
  let t := p.t.decay
  match a.get E N p with
  | .ok (.object _) => .direct
  | .ok (.dummy m) => .dummy (V.code t) (V.src t m)
  | .ok (.value m) => .value (V.code t) (V.src t m)
  | .throw .badVariantConvert =>
    match a.resolve E N (decide (p.ref = .rref)) with
    | .ok v => .value (V.code t) (refused E V v (decide (p.ref ≠ .rref)) t)
    | _ => .value (V.code t) .fails
  | _ => .value (V.code t) .fails

/-- what becomes of the arguments -/
def paramsOf (E : Env) (N : Nest) (V : Codes) : List RType → List Arg → List Param
  | [], _ => []
  | _ :: _, [] => []
  | p :: ps, a :: as => paramOf E N V a p :: paramsOf E N V ps as

/-- `method_invoker<F, ..._static_func>::invoke`, metadefine.h:104-220, with the objects: refused before any argument is looked at if their number is
    wrong -/
def invoke (P : VMem.Prog) (E : Env) (N : Nest) (V : Codes) (throws : List Nat → Bool) (f : Fn) (args : List Arg) (x : Nat) : VMem.Step :=
  match pack f.params.length args with
  | .ok as => call P throws x (paramsOf E N V f.params as)
  | _ => fun s => (.threw, s)

/-- the type `class_ptr_t` the instance of a member function is converted to if it is a pointer, metadefine.h:283, 387 -/
def instancePtr (b : Base) (method : Bool) : CType := .ptr ⟨false, false⟩ (.base b ⟨method, false⟩)

/-- `method_invoker<F, ..._member_func>::invoke`, metadefine.h:222-436, with the objects. An instance that is a class is used in place; of a pointer,
    `instance.to<class_ptr_t>()` makes one that lives until the function has returned. The object expression comes before the arguments.
    Simplified: that pointer is given an `m_dummy` like an argument's, which stays empty. `throws`: by object and values of the parameters. -/
def invokeMember (P : VMem.Prog) (E : Env) (N : Nest) (V : Codes) (throws : Obj → List Nat → Bool) (f : Fn) (b : Base) (isConst : Bool) (v : Vnt)
    (args : List Arg) (x : Nat) : VMem.Step :=
  match pack f.params.length args with
  | .ok as =>
    if v.held = none then fun s => (.ok (), s)
    else if (describe (v.type .none)).isClass then
      if isConst && !f.const then fun s => (.threw, s)
      else
        match reference E v (if isConst then .refConst else .ref) (.base b ⟨f.const, false⟩) with
        | .ok a => call P (throws (.at a)) x (paramsOf E N V f.params as)
        | .throw _ => fun s => (.threw, s)
        | _ => fun s => (.ub, s)
    else if (describe (v.type .none)).isClassPtr then
      let t := instancePtr b f.const
      match Val.to E v isConst t with
      | .ok m =>
        if pointee E m = .at 0 then fun s => (.ub, s)
        else call P (fun vs => throws (pointee E m) vs.tail) x (.value (V.code t) (V.src t m) :: paramsOf E N V f.params as)
      | .throw .badVariantConvert => call P (fun _ => false) x [.value (V.code t) (refused E V v isConst t)]
      | .throw _ => fun s => (.threw, s)
      | _ => fun s => (.ub, s)
    else fun s => (.ok (), s)
  | _ => fun s => (.threw, s)

/-- `method_invoker<F, ..._static_func>::invoke` for a function that returns a value of type `t`, metadefine.h:104-220, and `ConstructorInvoker::invoke`,
    507-595: the variant `y` is the result. `ret`: what is returned, by the values of the parameters; `none`: an exception. -/
def invokeVal (P : VMem.Prog) (E : Env) (N : Nest) (V : Codes) (y : Nat) (t : CType) (ret : List Nat → Option Nat) (f : Fn) (args : List Arg) (x : Nat) :
    VMem.Step :=
  match pack f.params.length args with
  | .ok as => callVal P y (V.code t) ret x (paramsOf E N V f.params as)
  | _ => fun s => (.threw, s)

/-- `invokeMember` for a function that returns a value, metadefine.h:330-436; where nothing is called the result is a copy of `empty_variant` -/
def invokeMemberVal (P : VMem.Prog) (E : Env) (N : Nest) (V : Codes) (y : Nat) (t : CType) (ret : Obj → List Nat → Option Nat) (f : Fn) (b : Base)
    (isConst : Bool) (v : Vnt) (args : List Arg) (x : Nat) : VMem.Step :=
  match pack f.params.length args with
  | .ok as =>
    if v.held = none then VMem.newEmpty (some y)
    else if (describe (v.type .none)).isClass then
      if isConst && !f.const then fun s => (.threw, s)
      else
        match reference E v (if isConst then .refConst else .ref) (.base b ⟨f.const, false⟩) with
        | .ok a => callVal P y (V.code t) (ret (.at a)) x (paramsOf E N V f.params as)
        | .throw _ => fun s => (.threw, s)
        | _ => fun s => (.ub, s)
    else if (describe (v.type .none)).isClassPtr then
      let u := instancePtr b f.const
      match Val.to E v isConst u with
      | .ok m =>
        if pointee E m = .at 0 then fun s => (.ub, s)
        else callVal P y (V.code t) (fun vs => ret (pointee E m) vs.tail) x (.value (V.code u) (V.src u m) :: paramsOf E N V f.params as)
      | .throw .badVariantConvert => callVal P y (V.code t) (fun _ => none) x [.value (V.code u) (refused E V v isConst u)]
      | .throw _ => fun s => (.threw, s)
      | _ => fun s => (.ub, s)
    else VMem.newEmpty (some y)
  | _ => fun s => (.threw, s)

end Rtti.CallMem
