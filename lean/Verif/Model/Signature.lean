import Verif.Model.World
/-
Signature text: /repo/include/rtti/signature.h:12-65 and the signatures of the method invokers,
/repo/include/rtti/function_traits.h:26-165, /repo/include/rtti/metadefine.h:118-119, 178-179, 236-237,
340-341. A type is given by its name text (`type_name<T>()`).
-/
namespace Rtti

/-- `prefix_ostream_iterator::operator=` applied to each name in turn,
    /repo/include/rtti/signature.h:38-49 (the fold in line 60 is a left fold): the first name is written
    as is, the others after the prefix ", ". The state is (text written, first). -/
def writeNames : Str × Bool → List Str → Str × Bool
  | st, [] => st
  | (os, first), n :: ns =>
    if first then writeNames (os ++ n, false) ns
    else writeNames (os ++ [',', ' '] ++ n, first) ns

/-- `signature<Args...>::get(name)`, /repo/include/rtti/signature.h:53-65 -/
def signatureText (name : Str) (args : List Str) : Str :=
  (writeNames (name ++ ['('], true) args).1 ++ [')']

/-- a function registered by `_method` -/
inductive Func
  /-- free or static member function -/
  | static (args : List Str)
  /-- member function of class `cls`, const or not (other qualifiers left out) -/
  | member (cls : Str) (isConst : Bool) (args : List Str)

/-- `f_signature<F>::get(name)`, /repo/include/rtti/signature.h:71-77: the arguments of the uniform
    signature (/repo/include/rtti/function_traits.h:35, 54, 88), whose first is the class reference for
    member functions. The spelling of the reference types is the compiler's: `C&`, `const C&`. -/
def funcSignature (name : Str) : Func → Str
  | .static args => signatureText name args
  | .member cls c args =>
    signatureText name (((if c then ['c','o','n','s','t',' '] else []) ++ cls ++ ['&']) :: args)

/-- `_method(name, func)`: /repo/include/rtti/metadefine.h:945-975 and `MetaMethod::create` -/
def World.defineMethod (w : World) (o : Ptr) (name : Str) (f : Func) : World × Res (Option Ptr) :=
  w.createMethod o (funcSignature name f) true

end Rtti
