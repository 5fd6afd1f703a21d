import Verif.Model.Builder
/-
What a chain of builder calls means: a tree of scopes. The meaning of a tree is given by lexical scoping, with
no stack: every node is defined in the container of the scope it is written in.
-/
set_option autoImplicit false
namespace Rtti.Spec
open Rtti

/-- scopes with a body, and everything else -/
inductive Node
  | nmspace (n : Str) (body : List Node)
  | cls (n : Str) (t : TypeId) (k : Caps) (body : List Node)
  | lazy (body : List Cmd)
  | base (bs : List (TypeId × Caster))
  | enum (n : Str)
  | element (n : Str) (v : Nat)
  | ctor (c : Ctor)
  | method (n : Str) (f : Func)
  | property (n : Str)
  | attribute (n : Str) (v : Nat)

mutual
/-- how the tree is written as a chain: a scope is closed by `_end` -/
def Node.text : Node → List BCmd
  | .nmspace n body => .nmspace n :: texts body ++ [.end]
  | .cls n t k body => .cls n t k :: texts body ++ [.end]
  | .lazy body => [.lazy body]
  | .base bs => [.base bs]
  | .enum n => [.enum n]
  | .element n v => [.element n v]
  | .ctor c => [.ctor c]
  | .method n f => [.method n f]
  | .property n => [.property n]
  | .attribute n v => [.attribute n v]
def texts : List Node → List BCmd
  | [] => []
  | x :: xs => x.text ++ texts xs
end

/-- +1 for a call that opens a scope, -1 for `_end` -/
def level : BCmd → Int
  | .nmspace _ => 1
  | .cls _ _ _ => 1
  | .end => -1
  | _ => 0

/-- number of scopes left open -/
def levels : List BCmd → Int
  | [] => 0
  | c :: cs => level c + levels cs

/-- no `_end` without an open scope (the type parameter `MB` of `meta_define` makes the compiler check this) -/
def NoExtraEnd (cs : List BCmd) : Prop := ∀ pre post, cs = pre ++ post → 0 ≤ levels pre

/-- every scope opened is closed -/
def WellNested (cs : List BCmd) : Prop := NoExtraEnd cs ∧ levels cs = 0

/-- a computation on the library's state, without a stack of containers -/
abbrev BM (A : Type) := BW → BW × Res A

namespace BM
def pure {A : Type} (a : A) : BM A := fun s => (s, .val a)
def bind {A B : Type} (m : BM A) (f : A → BM B) : BM B := fun s =>
  match m s with
  | (s', .val a) => f a s'
  | (s', .throw e) => (s', .throw e)
  | (s', .ub) => (s', .ub)
  | (s', .diverge) => (s', .diverge)
/-- a call of the library -/
def lib {A : Type} (m : LM A) : BM A := fun s => ({ s with l := (m s.l).1 }, (m s.l).2)
/-- a call that needs a container (or an item): a null one is undefined behaviour -/
def on {A : Type} (o : Option Ptr) (m : Ptr → BM A) : BM A :=
  match o with
  | none => fun s => (s, .ub)
  | some c => m c
end BM

/-- one library call after another -/
def seqLib {A : Type} : List (LM A) → BM Unit
  | [] => BM.pure ()
  | m :: ms => (BM.lib m).bind fun _ => seqLib ms

section
variable (chk : Ptr → LM Unit) (fuel : Nat)

mutual
/-- define the node in the container `o`; `cur` is the item attributes and elements are for. The result is the
    item they are for after the node. -/
def Node.define (o cur : Option Ptr) : Node → BM (Option Ptr)
  | .nmspace n body =>
    (BM.on o fun c => BM.lib (Lazy.op chk fuel (.createNamespace c n))).bind fun r =>
    (defines r r body).bind fun _ => BM.pure o
  | .cls n t k body =>
    (BM.on o fun c =>
      (BM.lib (Lazy.op chk fuel (.registerType t))).bind fun _ =>
      (BM.lib (Lazy.op chk fuel (.createClass c n t))).bind fun r =>
      (if k.ctors.isEmpty then BM.pure ()
       else BM.on r fun p =>
          seqLib (k.ctors.map fun c => Lazy.op chk fuel (.createConstructor p (ctorSignature c) true))).bind fun _ =>
      BM.pure r).bind fun r =>
    (defines r r body).bind fun _ => BM.pure o
  | .lazy body => (BM.on o fun c => BM.lib (Lazy.install c body)).bind fun _ => BM.pure cur
  | .base bs =>
    (if bs.isEmpty then BM.pure ()
     else BM.on o fun c =>
        seqLib (bs.flatMap fun (b : TypeId × Caster) => [Lazy.op chk fuel (.registerType b.1), Lazy.op chk fuel (.addBase c b.1 b.2)])).bind
      fun _ => BM.pure cur
  | .enum n => BM.on o fun c => BM.lib (Lazy.op chk fuel (.createEnum c n))
  | .element n v => BM.on cur fun i => fun s =>
    if s.l.w.kind i = some .enum then
      match (s.elems i).set n v with
      | some l => ({ s with elems := upd s.elems i l }, .val cur)
      | none => (s, .throw .outOfRange)
    else (s, .val cur)
  | .ctor c =>
    (BM.on o fun p => BM.lib (Lazy.op chk fuel (.createConstructor p (ctorSignature c) true))).bind fun _ => BM.pure cur
  | .method n f =>
    (BM.on o fun p => BM.lib (Lazy.op chk fuel (.createMethod p (funcSignature n f) true))).bind fun _ => BM.pure cur
  | .property n =>
    (BM.on o fun p => BM.lib (Lazy.op chk fuel (.createProperty p n true))).bind fun _ => BM.pure cur
  | .attribute n v =>
    match cur with
    | none => BM.pure cur
    | some i => (BM.lib (Lazy.setAttr i n v)).bind fun _ => BM.pure cur
def defines (o cur : Option Ptr) : List Node → BM (Option Ptr)
  | [] => BM.pure cur
  | x :: xs => (Node.define o cur x).bind fun cur => defines o cur xs
end

end

/-- a chain ended as the tree did: the same state, the same exception; and if it ended normally the stack and
    the container are what they were and attributes are for the item the tree says -/
def SameEnd (o : Option Ptr) (stack : List (Option Ptr)) : BS × Res Bld → BW × Res (Option Ptr) → Prop
  | (s, .val b), (s', .val cur) => s = ⟨s', stack⟩ ∧ b = ⟨cur, o⟩
  | (s, .throw e), (s', .throw e') => s.b = s' ∧ e = e'
  | (s, .ub), (s', .ub) => s.b = s'
  | (s, .diverge), (s', .diverge) => s.b = s'
  | _, _ => False

end Rtti.Spec
