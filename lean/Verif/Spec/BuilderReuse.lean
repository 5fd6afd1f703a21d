import Verif.Spec.Builder
/-
What statements on one named builder object mean, with no stack and no builder object.
-/
set_option autoImplicit false
namespace Rtti.Spec
open Rtti

section
variable (chk : Ptr → LM Unit) (fuel : Nat)

/-- a class with its special constructors -/
def enterClass (n : Str) (t : TypeId) (k : Caps) (c : Ptr) : BM (Option Ptr) :=
  (BM.lib (Lazy.op chk fuel (.registerType t))).bind fun _ =>
  (BM.lib (Lazy.op chk fuel (.createClass c n t))).bind fun r =>
  (if k.ctors.isEmpty then BM.pure ()
   else BM.on r fun p => seqLib (k.ctors.map fun c => Lazy.op chk fuel (.createConstructor p (ctorSignature c) true))).bind fun _ =>
  BM.pure r

/-- Statements, each a tree of scopes, on one builder object that is at the container `o` and the item `cur`. Within a statement scopes are lexical. The
    next statement starts where the first call of this one led: if that opened a scope, in this scope, though it was closed. -/
def definesEach (o cur : Option Ptr) : List (List Node) → BM (Option Ptr × Option Ptr)
  | [] => BM.pure (cur, o)
  | [] :: rest => definesEach o cur rest
  | (.nmspace n body :: xs) :: rest =>
    (BM.on o fun c => BM.lib (Lazy.op chk fuel (.createNamespace c n))).bind fun r =>
    (defines chk fuel r r body).bind fun _ => (defines chk fuel o o xs).bind fun _ => definesEach r r rest
  | (.cls n t k body :: xs) :: rest =>
    (BM.on o (enterClass chk fuel n t k)).bind fun r =>
    (defines chk fuel r r body).bind fun _ => (defines chk fuel o o xs).bind fun _ => definesEach r r rest
  | (x :: xs) :: rest =>
    (x.define chk fuel o cur).bind fun cur' => (defines chk fuel o cur' xs).bind fun _ => definesEach o cur' rest

end

/-- `SameEnd` for statements: the container the object is left at is part of the answer -/
def SameEnds (stack : List (Option Ptr)) : BS × Res Bld → BW × Res (Option Ptr × Option Ptr) → Prop
  | (s, .val b), (s', .val r) => s = ⟨s', stack⟩ ∧ b = ⟨r.1, r.2⟩
  | (s, .throw e), (s', .throw e') => s.b = s' ∧ e = e'
  | (s, .ub), (s', .ub) => s.b = s'
  | (s, .diverge), (s', .diverge) => s.b = s'
  | _, _ => False

end Rtti.Spec
