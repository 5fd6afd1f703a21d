import Verif.Model.Value
/-
Calling functions, constructors and properties through the reflection interface: `argument`, `pack_arguments`, the
method, constructor and property invokers, `MetaMethod::invoke`, `MetaProperty::get`/`set`, and `variant::invoke`,
`get_property`, `set_property`.
/repo/include/rtti/variant.h:630-834, /repo/include/rtti/detail/argument_impl.h, /repo/include/rtti/detail/metamethod_impl.h,
/repo/include/rtti/metadefine.h:80-834, /repo/include/rtti/detail/variant_impl.h:501-560, /repo/src/variant.cpp:116-133.

A call ends in the outcome `called`: on which object the user's function runs and what its parameters are bound to. What
the function itself does is not modelled.
Simplified: arguments are evaluated from left to right (the compiler may choose another order; which exception leaves when
several arguments throw is therefore not fixed by the code); storing a converted argument in `m_dummy` does not fail
(allocation failure in variants is `Model/VariantMem.lean`).
-/
set_option autoImplicit false
namespace Rtti.Val

/-- what is known about objects of class `rtti::variant` itself: the class, and the variant at an address -/
structure Nest where
  vt : Base
  inner : Addr → Vnt

/-- `class argument`, variant.h:632-674: `m_rvalue`, `m_value`. A default constructed (missing) argument has an empty
    `m_value` and an uninitialised `m_rvalue`. -/
structure Arg where
  rvalue : Bool
  value : Vnt

/-- an expression passed as an argument -/
inductive Expr
  /-- `argument{}`, or nothing -/
  | missing (junk : Bool)
  /-- an object of the type at the address; its value category -/
  | obj (lvalue : Bool) (t : CType) (x : Addr)
  /-- a `std::reference_wrapper` to such an object; the value category of the wrapper -/
  | wrapper (lvalue : Bool) (t : CType) (x : Addr)

/-- `argument(T &&value)`, argument_impl.h:6-10: `std::ref` of a wrapper is that wrapper. `self` is where `m_value`
    keeps its storage. -/
def makeArg (self : Addr) : Expr → Arg
  | .missing j => ⟨j, ⟨none, self, 0⟩⟩
  | .obj l t x => ⟨!l, ⟨some ⟨true, t⟩, self, x⟩⟩
  | .wrapper l t x => ⟨!l, ⟨some ⟨true, t⟩, self, x⟩⟩

/-- `argument::empty`, variant.h:646-647 -/
def Arg.empty (a : Arg) : Bool := a.value.held = none

/-- `argument::isVariant`, variant.h:652-653 -/
def Arg.isVariant (N : Nest) (a : Arg) : Bool :=
  match a.value.held with
  | none => false
  | some h => (h.type .none).t.fullDecay = .base N.vt ⟨false, false⟩

/-- `value = &m_value; if (isVariant()) value = &m_value.ref<variant>();` (`cref` if not `writable`) -/
def Arg.resolve (E : Env) (N : Nest) (a : Arg) (writable : Bool) : Ret Vnt :=
  if a.isVariant N then
    (reference E a.value (if writable then .ref else .cref) (.base N.vt ⟨false, false⟩)).bind fun x => .ok (N.inner x)
  else .ok a.value

/-- what a parameter is bound to: an object, the converted value in `m_dummy`, or (parameters by value) a new value -/
inductive Bound
  | object (a : Addr)
  | dummy (m : Made)
  | value (m : Made)
deriving DecidableEq, Repr

/-- `argument::value<T>()`, argument_impl.h:12-113. References to arrays and functions as parameters do not compile. -/
def Arg.get (E : Env) (N : Nest) (a : Arg) (p : RType) : Ret Bound :=
  let d := p.t.decay
  if a.empty then .throw .badArgumentCast
  else match p.ref with
    | .rref =>
      if !a.rvalue then .throw .badVariantCast
      else (a.resolve E N true).bind fun v =>
        (data E v false d).bind fun x =>
          if x ≠ 0 then .ok (.object x) else (to E v false d).bind fun m => .ok (.dummy m)
    | .lref =>
      if p.t.isConst then
        (a.resolve E N false).bind fun v =>
          (data E v true d).bind fun x =>
            if x ≠ 0 then .ok (.object x) else (to E v true d).bind fun m => .ok (.dummy m)
      else if a.rvalue then .throw .badVariantCast
      else (a.resolve E N true).bind fun v => (reference E v .ref d).bind fun x => .ok (.object x)
    | .none => (a.resolve E N false).bind fun v => (to E v true d).bind fun m => .ok (.value m)

/-- the loop of `pack_arguments`, metadefine.h:91-96; `std::size_t` has 64 bits -/
def countDown : List Arg → Nat → Nat
  | [], c => c
  | a :: l, c => if a.empty then c else countDown l ((c + (2 ^ 64 - 1)) % 2 ^ 64)

/-- the ten parameters of `invoke_static` and `invoke_method`: those not given are `argument{}` -/
def pad (args : List Arg) : List Arg := (args ++ List.replicate 10 (⟨false, ⟨none, 0, 0⟩⟩ : Arg)).take 10

/-- `pack_arguments`, metadefine.h:80-102 -/
def pack (count : Nat) (args : List Arg) : Ret (List Arg) :=
  if countDown (pad args) count ≠ 0 then .throw .invokeError else .ok (pad args)

/-- `args[I]->value<argument_get_t<I>>()...` -/
def getAll (E : Env) (N : Nest) : List RType → List Arg → Ret (List Bound)
  | [], _ => .ok []
  | _ :: _, [] => .ub
  | p :: ps, a :: as => (a.get E N p).bind fun b => (getAll E N ps as).bind fun bs => .ok (b :: bs)

/-- a function as the invokers see it: class and constness if it is a member function, parameters -/
structure Fn where
  cls : Option Base
  const : Bool
  params : List RType
  /-- `none`: `void`; rvalue references do not compile; a `std::reference_wrapper` counts as the reference -/
  result : Option RType
deriving DecidableEq, Repr

/-- the object a member function runs on; `made`: a converter to the class pointer was run on what is at the address, and
    the function runs on the object that pointer points to -/
inductive Obj
  | at (a : Addr)
  | made (fn : Nat) (a : Addr)
deriving DecidableEq, Repr

/-- the variant a call returns: an empty one, one made with a type, or the variant the function itself returned -/
inductive Returned
  | empty
  | holds (h : Held)
  | result
deriving DecidableEq, Repr

/-- metadefine.h:152-157, 212-219, 395-402: `return variant::empty_variant;`, `return std::ref(...);`, `return func(...);`, where the
    last moves a variant instead of putting it into another one -/
def Fn.returns (N : Nest) (f : Fn) : Returned :=
  match f.result with
  | none => .empty
  | some ⟨.none, t⟩ => if t.removeCv = .base N.vt ⟨false, false⟩ then .result else .holds ⟨false, t⟩
  | some ⟨_, t⟩ => .holds ⟨true, t⟩

inductive Did
  | nothing
  | called (o : Option Obj) (args : List Bound)
deriving DecidableEq, Repr

/-- `method_invoker<F, ..._static_func>::invoke`, metadefine.h:104-220, and `ConstructorInvoker::invoke_static`, 540-550, 588-594 -/
def staticInvoke (E : Env) (N : Nest) (f : Fn) (args : List Arg) : Ret Did :=
  (pack f.params.length args).bind fun as => (getAll E N f.params as).bind fun bs => .ok (.called none bs)

/-- the object a class pointer made by `to<C*>()` points to -/
def pointee (E : Env) : Made → Obj
  | .copyOf a => .at (E.load a)
  | .pointer p => .at p
  | .converted fn a => .made fn a

/-- the object expression of `invoke_imp`: `instance.ref<class_t>()` or `*instance.to<class_ptr_t>()`, metadefine.h:291-322,
    404-435; `isConst` is whether the instance is `variant const &`; `none`: neither class nor class pointer. -/
def object (E : Env) (b : Base) (method : Bool) (isConst : Bool) (v : Vnt) : Ret (Option Obj) :=
  if v.held = none then .ok none
  else if (describe (v.type .none)).isClass then
    if isConst && !method then .throw .badVariantCast
    else (reference E v (if isConst then .refConst else .ref) (.base b ⟨method, false⟩)).bind fun a => .ok (some (.at a))
  else if (describe (v.type .none)).isClassPtr then
    (to E v isConst (.ptr ⟨false, false⟩ (.base b ⟨method, false⟩))).bind fun m =>
      if pointee E m = .at 0 then .ub else .ok (some (pointee E m))
  else .ok none

/-- `method_invoker<F, ..._member_func>::invoke`, metadefine.h:222-436 -/
def memberInvoke (E : Env) (N : Nest) (f : Fn) (b : Base) (isConst : Bool) (v : Vnt) (args : List Arg) : Ret Did :=
  (pack f.params.length args).bind fun as =>
    (object E b f.const isConst v).bind fun o =>
      match o with
      | none => .ok .nothing
      | some o => (getAll E N f.params as).bind fun bs => .ok (.called (some o) bs)

/-- the instance of a call: a variant, reached as const (`variant const &`, a temporary variant, the temporary copy made of
    an object that is no variant) or not, and the `argument` made from it when the function is static -/
structure Inst where
  isConst : Bool
  v : Vnt
  arg : Arg

/-- `MetaMethod::invoke(instance, args...)`, metamethod_impl.h:6-16: a static function gets the instance as its first
    argument -/
def methodInvoke (E : Env) (N : Nest) (f : Fn) (i : Inst) (args : List Arg) : Ret Did :=
  match f.cls with
  | none => staticInvoke E N f (i.arg :: args)
  | some b => memberInvoke E N f b i.isConst i.v args

/-! ### properties -/

/-- pointer to an object; pointer to a member, at an offset in its class; getter and setter (member functions: for others
    `PropertyInvokerEx` does not compile) -/
inductive Property
  | static (t : CType) (x : Addr)
  | field (b : Base) (t : CType) (off : Nat)
  | accessor (b : Base) (get set : Fn)

/-- `isStatic`, metadefine.h:640-641, 679-680, 783-784 -/
def Property.isStatic : Property → Bool
  | .static _ _ => true
  | _ => false

/-- `readOnly`, metadefine.h:646-647, 685-686, 789-790 -/
def Property.readOnly : Property → Bool
  | .static t _ => t.isConst
  | .field _ t _ => t.isConst
  | .accessor _ _ _ => false

/-- the member at `off` of the object -/
structure Spot where
  o : Obj
  off : Nat
deriving DecidableEq, Repr

/-- what `get` returns: an empty variant, a reference to an object of the type, the result of the getter -/
inductive Got
  | empty
  | ref (t : CType) (s : Spot)
  | result (d : Did)
deriving DecidableEq, Repr

/-- what `set` does -/
inductive Wrote
  | nothing
  | assigned (s : Spot) (m : Made)
  | called (d : Did)
deriving DecidableEq, Repr

/-- `MetaProperty::get`, variant.h:763-804, with `get_static`, `get_field`, metadefine.h:649-650, 694-702, 792-799 -/
def Property.get (E : Env) (N : Nest) (p : Property) (i : Option Vnt) : Ret Got :=
  match i with
  | none =>
    match p with
    | .static t x => .ok (.ref (addConst t) ⟨.at x, 0⟩)
    | _ => .throw .invokeError
  | some v =>
    match p with
    | .static _ _ => .throw .invokeError
    | .field b t off => (object E b true true v).bind fun o =>
      match o with
      | none => .ok .empty
      | some o => .ok (.ref (addConst t) ⟨o, off⟩)
    | .accessor b g _ => (memberInvoke E N g b true v []).bind fun d => .ok (.result d)

/-- the new value: `arg.value<T>()` -/
def newValue (E : Env) (N : Nest) (t : CType) (a : Arg) : Ret Made :=
  (a.get E N ⟨.none, t⟩).bind fun b => match b with | .value m => .ok m | _ => .ub

/-- `MetaProperty::set`, variant.h:770-775, 806-834, with `set_static`, `set_field`, metadefine.h:652-658, 704-733, 795-805. In
    `object.*property = arg.value<T>()` the right operand is evaluated first ([expr.ass]). -/
def Property.set (E : Env) (N : Nest) (p : Property) (i : Option (Bool × Vnt)) (a : Arg) : Ret Wrote :=
  match i with
  | none =>
    match p with
    | .static t x =>
      if t.isConst then .throw .invokeError
      else (newValue E N t a).bind fun m => .ok (.assigned ⟨.at x, 0⟩ m)
    | _ => .throw .invokeError
  | some (isConst, v) =>
    match p with
    | .static _ _ => .throw .invokeError
    | .field b t off =>
      if t.isConst then .throw .invokeError
      else if v.held = none then .ok .nothing
      else if (describe (v.type .none)).isClass then
        if isConst then .throw .badVariantCast
        else (newValue E N t a).bind fun m => (object E b false isConst v).bind fun o =>
          match o with
          | none => .ok .nothing
          | some o => .ok (.assigned ⟨o, off⟩ m)
      else if (describe (v.type .none)).isClassPtr then
        (newValue E N t a).bind fun m => (object E b false isConst v).bind fun o =>
          match o with
          | none => .ok .nothing
          | some o => .ok (.assigned ⟨o, off⟩ m)
      else .ok .nothing
    | .accessor b _ s => (memberInvoke E N s b isConst v [a]).bind fun d => .ok (.called d)

/-! ### members by name -/

/-- the common part of `variant::invoke`, `get_property`, `set_property`: the class to search -/
def memberClass (E : Env) (v : Vnt) : Ret Ptr :=
  if v.held = none then .throw .runtimeError
  else if (describe (v.type .none)).isClass || (describe (v.type .none)).isClassPtr then
    (metaClass E v).bind fun c =>
      match c with
      | some c => .ok c
      | none => .throw .runtimeError
  else .throw .runtimeError

/-- `variant::invoke(name, args...)`, variant_impl.h:501-541; `fn` tells what the method objects invoke -/
def invokeNamed (E : Env) (N : Nest) (fn : Ptr → Fn) (i : Inst) (name : Str) (args : List Arg) : Ret Did :=
  (memberClass E i.v).bind fun c => (Ret.lift (E.w.getMethod c name)).bind fun m =>
    match m with
    | some m => methodInvoke E N (fn m) i args
    | none => .throw .runtimeError

/-- `variant::get_property(name)`, variant.cpp:116-133 -/
def getNamed (E : Env) (N : Nest) (pr : Ptr → Property) (v : Vnt) (name : Str) : Ret Got :=
  (memberClass E v).bind fun c => (Ret.lift (E.w.getProperty c name)).bind fun m =>
    match m with
    | some m => (pr m).get E N (some v)
    | none => .throw .runtimeError

/-- `variant::set_property(name, value)`, variant_impl.h:543-560: not const -/
def setNamed (E : Env) (N : Nest) (pr : Ptr → Property) (v : Vnt) (name : Str) (a : Arg) : Ret Wrote :=
  (memberClass E v).bind fun c => (Ret.lift (E.w.getProperty c name)).bind fun m =>
    match m with
    | some m => (pr m).set E N (some (false, v)) a
    | none => .throw .runtimeError

end Rtti.Val
