import Verif.Model.Lazy
import Verif.Model.Signature
/-
The definition builder `meta_define`, /repo/include/rtti/metadefine.h:836-1069, and the signatures of
constructors, /repo/include/rtti/metadefine.h:563-590, /repo/src/metaconstructor.cpp:10-28.

A builder object holds the current item, the current container and a pointer to the stack of containers.
All builder objects of one chain share one stack (`meta_global` owns it, lines 1055-1067); it is part of the
state here. Every member function changes the object it is called on (`*this`) and returns an object;
`call` gives both.

Assertions are compiled out (release build): where the code goes on after a failed assertion the model does
the same. Using a null container is `ub`. What the type parameters forbid at compile time (a namespace in a
class, `_base` in a namespace, `_end` at the outermost level) is not checked here. Values of attributes and
of enum elements are numbers. The registration of a converter by a converting constructor (line 940) is
part of `Model/Convert.lean`.
-/
set_option autoImplicit false
namespace Rtti

/-- a parameter of a constructor of `C`: `type_name<Arg>()`, `is_same_v<decay_t<Arg>, C>`,
    `is_rvalue_reference_v<Arg>` -/
structure CtorArg where
  text : Str
  self : Bool
  rvalue : Bool
deriving DecidableEq, Repr

/-- `_constructor<Args...>(name)` -/
structure Ctor where
  name : Str
  args : List CtorArg
deriving DecidableEq, Repr

/-- `DEFAULT_CONSTRUCTOR_SIG` and others, /repo/include/rtti/metacontainer.h:13-16 -/
def defaultSig : Str := "d_constructor".toList
def copySig : Str := "c_constructor".toList
def moveSig : Str := "m_constructor".toList
def ctorSig : Str := "constructor".toList

/-- the name given to the invoker by `MetaConstructor::create`, /repo/src/metaconstructor.cpp:14-16 -/
def ctorName (name : Str) : Str := if name = [] then ctorSig else name

/-- `ConstructorInvoker::signature`, /repo/include/rtti/metadefine.h:563-590 -/
def ctorSignature (c : Ctor) : Str :=
  match c.args with
  | [] => defaultSig
  | [a] =>
    if a.self then (if a.rvalue then moveSig else copySig)
    else signatureText (ctorName c.name) [a.text]
  | as => signatureText (ctorName c.name) (as.map (·.text))

/-- what a class can do, with the spelling of `C const&` and `C&&` -/
structure Caps where
  dflt : Bool
  copy : Bool
  move : Bool
  constRef : Str
  rvalRef : Str
deriving DecidableEq, Repr

/-- the constructors `_class` defines by itself, /repo/include/rtti/metadefine.h:1024-1040 -/
def Caps.ctors (k : Caps) : List Ctor :=
  (if k.dflt then [⟨[], []⟩] else []) ++
  (if k.copy then [⟨[], [⟨k.constRef, true, false⟩]⟩] else []) ++
  (if k.move then [⟨[], [⟨k.rvalRef, true, true⟩]⟩] else [])

namespace World

/-- `MetaConstructor::create`, /repo/src/metaconstructor.cpp:10-28 -/
def defineConstructor (w : World) (o : Ptr) (c : Ctor) : World × Res (Option Ptr) :=
  w.createConstructor o (ctorSignature c) true

/-- several of them; the first exception ends it -/
def defineConstructors (w : World) (o : Ptr) : List Ctor → World × Res Unit
  | [] => (w, .val ())
  | c :: cs =>
    match w.defineConstructor o c with
    | (w', .val _) => w'.defineConstructors o cs
    | (w', .throw e) => (w', .throw e)
    | (w', .ub) => (w', .ub)
    | (w', .diverge) => (w', .diverge)

/-- `_class<C>(name)`, /repo/include/rtti/metadefine.h:862-881, when no callback is pending -/
def defineClass (w : World) (o : Ptr) (name : Str) (t : TypeId) (k : Caps) : World × Res (Option Ptr) :=
  let w := (w.step (.registerType t)).1
  match w.createClass o name t with
  | (w', .val (some p)) =>
    match w'.defineConstructors p k.ctors with
    | (w'', .val _) => (w'', .val (some p))
    | (w'', .throw e) => (w'', .throw e)
    | (w'', .ub) => (w'', .ub)
    | (w'', .diverge) => (w'', .diverge)
  | r => r

/-- /repo/src/metacontainer.cpp:295-309 -/
def defaultConstructor (w : World) (c : Ptr) : Res (Option Ptr) := w.getConstructor c defaultSig
def copyConstructor (w : World) (c : Ptr) : Res (Option Ptr) := w.getConstructor c copySig
def moveConstructor (w : World) (c : Ptr) : Res (Option Ptr) := w.getConstructor c moveSig

/-- `getConstructor<Args...>(name)`, /repo/include/rtti/metacontainer.h:56-58; the default name is
    "constructor" -/
def getConstructorOf (w : World) (c : Ptr) (name : Str) (args : List CtorArg) : Res (Option Ptr) :=
  w.getConstructor c (signatureText name (args.map (·.text)))

end World

/-- one call in a chain -/
inductive BCmd
  | nmspace (n : Str)
  | cls (n : Str) (t : TypeId) (k : Caps)
  | lazy (body : List Cmd)
  | base (bs : List (TypeId × Caster))
  | enum (n : Str)
  | element (n : Str) (v : Nat)
  | ctor (c : Ctor)
  | method (n : Str) (f : Func)
  | property (n : Str)
  | attribute (n : Str) (v : Nat)
  | «end»

/-- /repo/include/rtti/metadefine.h:999-1001 without the stack -/
structure Bld where
  item : Option Ptr
  cont : Option Ptr
deriving DecidableEq, Repr

/-- the library's state and the enum elements -/
structure BW where
  l : LW
  elems : Ptr → NamedList Nat

/-- the state with the stack of containers (top first) -/
structure BS where
  b : BW
  stack : List (Option Ptr)

namespace Builder

/-- continue with a call of the library -/
def lib {A B : Type} (m : LM A) (s : BS) (k : A → BS → BS × Res B) : BS × Res B :=
  let r := m s.b.l
  let s' : BS := { s with b := { s.b with l := r.1 } }
  match r.2 with
  | .val a => k a s'
  | .throw e => (s', .throw e)
  | .ub => (s', .ub)
  | .diverge => (s', .diverge)

section
variable (chk : Ptr → LM Unit) (fuel : Nat)

/-- `define_default_constructor` and others, each a `_constructor` call on the container,
    /repo/include/rtti/metadefine.h:877-879, 934-942 -/
def makeCtors (o : Ptr) : List Ctor → LM Unit
  | [] => LM.pure ()
  | c :: cs => (Lazy.op chk fuel (.createConstructor o (ctorSignature c) true)).bind fun _ => makeCtors o cs

/-- `addBaseTypeList`, /repo/include/rtti/metadefine.h:1012-1022 -/
def addBases (o : Ptr) : List (TypeId × Caster) → LM Unit
  | [] => LM.pure ()
  | (t, c) :: bs =>
    (Lazy.op chk fuel (.registerType t)).bind fun _ =>
    (Lazy.op chk fuel (.addBase o t c)).bind fun _ => addBases o bs

/-- a member function of the builder: the new value of `*this` and the object returned -/
def call (b : Bld) (c : BCmd) (s : BS) : BS × Res (Bld × Bld) :=
  match c with
  | .attribute n v =>
    -- lines 842-849
    match b.item with
    | none => (s, .val (b, b))
    | some i => lib (Lazy.setAttr i n v) s fun _ s => (s, .val (b, b))
  | .nmspace n =>
    -- lines 851-860
    match b.cont with
    | none => (s, .ub)
    | some o =>
      lib (Lazy.op chk fuel (.createNamespace o n)) { s with stack := b.cont :: s.stack } fun r s =>
        (s, .val (⟨r, r⟩, ⟨r, r⟩))
  | .cls n t k =>
    -- lines 862-881
    match b.cont with
    | none => (s, .ub)
    | some o =>
      lib (Lazy.op chk fuel (.registerType t)) { s with stack := b.cont :: s.stack } fun _ s =>
      lib (Lazy.op chk fuel (.createClass o n t)) s fun r s =>
      match r with
      | none => if k.ctors = [] then (s, .val (⟨r, r⟩, ⟨r, r⟩)) else (s, .ub)
      | some p => lib (makeCtors chk fuel p k.ctors) s fun _ s => (s, .val (⟨r, r⟩, ⟨r, r⟩))
  | .lazy body =>
    -- lines 889-898
    match b.cont with
    | none => (s, .ub)
    | some o => lib (Lazy.install o body) s fun _ s => (s, .val (b, b))
  | .base bs =>
    -- lines 900-910
    match b.cont with
    | none => if bs = [] then (s, .val (b, b)) else (s, .ub)
    | some o => lib (addBases chk fuel o bs) s fun _ s => (s, .val (b, b))
  | .enum n =>
    -- lines 912-918
    match b.cont with
    | none => (s, .ub)
    | some o =>
      lib (Lazy.op chk fuel (.createEnum o n)) s fun r s => (s, .val (⟨r, b.cont⟩, ⟨r, b.cont⟩))
  | .element n v =>
    -- lines 920-932
    match b.item with
    | none => (s, .ub)
    | some i =>
      if s.b.l.w.kind i = some .enum then
        match (s.b.elems i).set n v with
        | some l => ({ s with b := { s.b with elems := upd s.b.elems i l } }, .val (b, b))
        | none => (s, .throw .outOfRange)
      else (s, .val (b, b))
  | .ctor c =>
    -- lines 934-942
    match b.cont with
    | none => (s, .ub)
    | some o =>
      lib (Lazy.op chk fuel (.createConstructor o (ctorSignature c) true)) s fun _ s => (s, .val (b, b))
  | .method n f =>
    -- lines 944-952
    match b.cont with
    | none => (s, .ub)
    | some o =>
      lib (Lazy.op chk fuel (.createMethod o (funcSignature n f) true)) s fun _ s => (s, .val (b, b))
  | .property n =>
    -- lines 954-977
    match b.cont with
    | none => (s, .ub)
    | some o => lib (Lazy.op chk fuel (.createProperty o n true)) s fun _ s => (s, .val (b, b))
  | .end =>
    -- lines 979-988
    match s.stack with
    | [] => (s, .ub)
    | c :: st => ({ s with stack := st }, .val (⟨c, c⟩, ⟨c, c⟩))

/-- a fluent chain: each call is made on the object the previous call returned -/
def chain (b : Bld) : List BCmd → BS → BS × Res Bld
  | [], s => (s, .val b)
  | c :: cs, s =>
    match call chk fuel b c s with
    | (s', .val r) => chain r.2 cs s'
    | (s', .throw e) => (s', .throw e)
    | (s', .ub) => (s', .ub)
    | (s', .diverge) => (s', .diverge)

/-- statements that start chains on one named builder object: what the object is afterwards. An exception
    ends it. -/
def statements (b : Bld) : List (List BCmd) → BS → BS × Res Bld
  | [], s => (s, .val b)
  | [] :: rest, s => statements b rest s
  | (c :: cs) :: rest, s =>
    match call chk fuel b c s with
    | (s', .val r) =>
      match chain chk fuel r.2 cs s' with
      | (s'', .val _) => statements r.1 rest s''
      | (s'', .throw e) => (s'', .throw e)
      | (s'', .ub) => (s'', .ub)
      | (s'', .diverge) => (s'', .diverge)
    | (s', .throw e) => (s', .throw e)
    | (s', .ub) => (s', .ub)
    | (s', .diverge) => (s', .diverge)

end

/-- `global_define()`, /repo/src/metadefine.cpp:5-9 and /repo/include/rtti/metadefine.h:1055-1067; also the object a
    lazy callback gets (lines 45-49) -/
def start (o : Ptr) : Bld := ⟨some o, some o⟩

def init : BS := ⟨⟨Lazy.init, fun _ => NamedList.empty⟩, []⟩

end Builder
end Rtti
