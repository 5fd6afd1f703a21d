import Verif.Model.VariantIds
import Verif.Model.Invoke
/-
Calls, constructors, properties and members by name with type ids, as the code does them: what `Model/Invoke.lean` does, on top of
`Model/VariantIds.lean` instead of `Model/Value.lean`. Where the code asks a `MetaType{id}` (`argument::isVariant`, the invokers,
`variant::invoke`, `get_property`, `set_property`), the registry is asked.
/repo/include/rtti/variant.h:646-674, /repo/include/rtti/detail/argument_impl.h, /repo/include/rtti/metadefine.h:80-834,
/repo/include/rtti/detail/variant_impl.h:501-560, /repo/src/variant.cpp:116-133. Simplifications as in those two files.
-/
set_option autoImplicit false
namespace Rtti.ClassFind
open Rtti.Val (Vnt Ret Made Arg Nest Bound Fn Obj Did Inst Property Spot Got Wrote)

variable (nm : RType → Str) (U : Outside)

/-- `data()`, `data() const`, variant.h:220-254 -/
def Prog.data (s : Prog) (v : Vnt) (const : Bool) (t : CType) : Ret Addr :=
  match s.reference nm U v (if const then .refConst else .ref) t with
  | .throw _ => .ok 0
  | r => r

/-- `argument::isVariant`, variant.h:652-653 -/
def Prog.isVariant (N : Nest) (s : Prog) (a : Arg) : Ret Bool :=
  (s.seen (s.heldId nm a.value .none)).bind fun o => .ok (o.decay = s.idNow nm (clsType N.vt))

/-- as `Arg.resolve` -/
def Prog.resolve (N : Nest) (s : Prog) (a : Arg) (writable : Bool) : Ret Vnt :=
  (s.isVariant nm N a).bind fun b =>
    if b then (s.reference nm U a.value (if writable then .ref else .cref) (.base N.vt ⟨false, false⟩)).bind fun x => .ok (N.inner x)
    else .ok a.value

/-- `argument::value<T>()`, argument_impl.h:12-113 -/
def Prog.argGet (N : Nest) (s : Prog) (a : Arg) (p : RType) : Ret Bound :=
  let d := p.t.decay
  if a.empty then .throw .badArgumentCast
  else match p.ref with
    | .rref =>
      if !a.rvalue then .throw .badVariantCast
      else (s.resolve nm U N a true).bind fun v =>
        (s.data nm U v false d).bind fun x =>
          if x ≠ 0 then .ok (.object x) else (s.to nm U v false d).bind fun m => .ok (.dummy m)
    | .lref =>
      if p.t.isConst then
        (s.resolve nm U N a false).bind fun v =>
          (s.data nm U v true d).bind fun x =>
            if x ≠ 0 then .ok (.object x) else (s.to nm U v true d).bind fun m => .ok (.dummy m)
      else if a.rvalue then .throw .badVariantCast
      else (s.resolve nm U N a true).bind fun v => (s.reference nm U v .ref d).bind fun x => .ok (.object x)
    | .none => (s.resolve nm U N a false).bind fun v => (s.to nm U v true d).bind fun m => .ok (.value m)

/-- `args[I]->value<argument_get_t<I>>()...` -/
def Prog.getAll (N : Nest) (s : Prog) : List RType → List Arg → Ret (List Bound)
  | [], _ => .ok []
  | _ :: _, [] => .ub
  | p :: ps, a :: as => (s.argGet nm U N a p).bind fun b => (Prog.getAll N s ps as).bind fun bs => .ok (b :: bs)

/-- static functions and constructors, metadefine.h:104-220, 540-550, 588-594 -/
def Prog.staticInvoke (N : Nest) (s : Prog) (f : Fn) (args : List Arg) : Ret Did :=
  (Val.pack f.params.length args).bind fun as => (s.getAll nm U N f.params as).bind fun bs => .ok (.called none bs)

/-- the object expression of `invoke_imp`, metadefine.h:291-322, 404-435: `MetaType{instance.typeId()}`; of an empty variant it is
    invalid and neither class nor class pointer -/
def Prog.object (s : Prog) (b : Base) (method : Bool) (isConst : Bool) (v : Vnt) : Ret (Option Obj) :=
  (s.seen (s.heldId nm v .none)).bind fun o =>
    if o.desc.isClass then
      if isConst && !method then .throw .badVariantCast
      else (s.reference nm U v (if isConst then .refConst else .ref) (.base b ⟨method, false⟩)).bind fun a => .ok (some (.at a))
    else if o.desc.isClassPtr then
      (s.to nm U v isConst (.ptr ⟨false, false⟩ (.base b ⟨method, false⟩))).bind fun m =>
        let q := Val.pointee (s.env nm U) m
        if q = .at 0 then .ub else .ok (some q)
    else .ok none

/-- member functions, metadefine.h:222-436 -/
def Prog.memberInvoke (N : Nest) (s : Prog) (f : Fn) (b : Base) (isConst : Bool) (v : Vnt) (args : List Arg) : Ret Did :=
  (Val.pack f.params.length args).bind fun as =>
    (s.object nm U b f.const isConst v).bind fun o =>
      match o with
      | none => .ok .nothing
      | some o => (s.getAll nm U N f.params as).bind fun bs => .ok (.called (some o) bs)

/-- `MetaMethod::invoke(instance, args...)`, metamethod_impl.h:6-16 -/
def Prog.methodInvoke (N : Nest) (s : Prog) (f : Fn) (i : Inst) (args : List Arg) : Ret Did :=
  match f.cls with
  | none => s.staticInvoke nm U N f (i.arg :: args)
  | some b => s.memberInvoke nm U N f b i.isConst i.v args

/-- `get_static`, `get_field`, metadefine.h:649-650, 694-702, 792-799 -/
def Prog.getProperty (N : Nest) (s : Prog) (p : Property) (i : Option Vnt) : Ret Got :=
  match i with
  | none =>
    match p with
    | .static t x => .ok (.ref (Val.addConst t) ⟨.at x, 0⟩)
    | _ => .throw .invokeError
  | some v =>
    match p with
    | .static _ _ => .throw .invokeError
    | .field b t off => (s.object nm U b true true v).bind fun o =>
      match o with
      | none => .ok .empty
      | some o => .ok (.ref (Val.addConst t) ⟨o, off⟩)
    | .accessor b g _ => (s.memberInvoke nm U N g b true v []).bind fun d => .ok (.result d)

/-- `arg.value<T>()` -/
def Prog.newValue (N : Nest) (s : Prog) (t : CType) (a : Arg) : Ret Made :=
  (s.argGet nm U N a ⟨.none, t⟩).bind fun b => match b with | .value m => .ok m | _ => .ub

/-- `set_static`, `set_field`, metadefine.h:652-658, 704-733, 795-805 -/
def Prog.setProperty (N : Nest) (s : Prog) (p : Property) (i : Option (Bool × Vnt)) (a : Arg) : Ret Wrote :=
  match i with
  | none =>
    match p with
    | .static t x =>
      if t.isConst then .throw .invokeError
      else (s.newValue nm U N t a).bind fun m => .ok (.assigned ⟨.at x, 0⟩ m)
    | _ => .throw .invokeError
  | some (isConst, v) =>
    match p with
    | .static _ _ => .throw .invokeError
    | .field b t off =>
      if t.isConst then .throw .invokeError
      else (s.seen (s.heldId nm v .none)).bind fun o =>
        if o.desc.isClass then
          if isConst then .throw .badVariantCast
          else (s.newValue nm U N t a).bind fun m => (s.object nm U b false isConst v).bind fun o =>
            match o with
            | none => .ok .nothing
            | some o => .ok (.assigned ⟨o, off⟩ m)
        else if o.desc.isClassPtr then
          (s.newValue nm U N t a).bind fun m => (s.object nm U b false isConst v).bind fun o =>
            match o with
            | none => .ok .nothing
            | some o => .ok (.assigned ⟨o, off⟩ m)
        else .ok .nothing
    | .accessor b _ st => (s.memberInvoke nm U N st b isConst v [a]).bind fun d => .ok (.called d)

/-- the class to search, variant_impl.h:506-512, 548-554, variant.cpp:120-124, with `variant::metaClass`, variant.h:127-131 -/
def Prog.memberClass (s : Prog) (v : Vnt) : Ret Ptr :=
  (s.seen (s.heldId nm v .none)).bind fun o =>
    if o.desc.isClass || o.desc.isClassPtr then
      (Val.classInfo (s.env nm U) v).bind fun i => (Ret.lift (s.lookup i.1)).bind fun c =>
        match c with
        | some c => .ok c
        | none => .throw .runtimeError
    else .throw .runtimeError

/-- `variant::invoke(name, args...)`, variant_impl.h:501-541 -/
def Prog.invokeNamed (N : Nest) (s : Prog) (fn : Ptr → Fn) (i : Inst) (name : Str) (args : List Arg) : Ret Did :=
  (s.memberClass nm U i.v).bind fun c => (Ret.lift (s.world.getMethod c name)).bind fun m =>
    match m with
    | some m => s.methodInvoke nm U N (fn m) i args
    | none => .throw .runtimeError

/-- `variant::get_property(name)`, variant.cpp:116-133 -/
def Prog.getNamed (N : Nest) (s : Prog) (pr : Ptr → Property) (v : Vnt) (name : Str) : Ret Got :=
  (s.memberClass nm U v).bind fun c => (Ret.lift (s.world.getProperty c name)).bind fun m =>
    match m with
    | some m => s.getProperty nm U N (pr m) (some v)
    | none => .throw .runtimeError

/-- `variant::set_property(name, value)`, variant_impl.h:543-560 -/
def Prog.setNamed (N : Nest) (s : Prog) (pr : Ptr → Property) (v : Vnt) (name : Str) (a : Arg) : Ret Wrote :=
  (s.memberClass nm U v).bind fun c => (Ret.lift (s.world.getProperty c name)).bind fun m =>
    match m with
    | some m => s.setProperty nm U N (pr m) (some (false, v)) a
    | none => .throw .runtimeError

end Rtti.ClassFind
