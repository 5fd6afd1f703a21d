import Verif.Model.Invoke
import Verif.Spec.Value
/-
What passing arguments and calling members should do.
-/
set_option autoImplicit false
namespace Rtti.Val
open Rtti Spec

/-- a parameter type that compiles: no (reference to an) array or function -/
def ParamOk (p : RType) : Prop := (∀ n e, p.t ≠ .arr n e) ∧ (∀ b q, p.t = .base b q → b.kind ≠ .func)

/-- the parameter can refer to what the variant stands for: the type fits, and there is the object at `a` -/
def RefersTo (E : Env) (v : Vnt) (at' : Attr) (T : RType) (a : Addr) : Prop := Fits (v.type at') T ∧ Refers E v T.t a

/-- outcomes of binding a parameter to (the object a variant stands for), passed as lvalue or rvalue -/
inductive Takes (E : Env) (v : Vnt) (rvalue : Bool) (p : RType) : Ret Bound → Prop
  /-- rvalue reference: not to an lvalue -/
  | rrefLvalue : p.ref = .rref → rvalue = false → Takes E v rvalue p (.throw .badVariantCast)
  /-- the object itself -/
  | rref (a : Addr) : p.ref = .rref → rvalue = true → RefersTo E v .lref ⟨.lref, p.t.removeCv⟩ a → Takes E v rvalue p (.ok (.object a))
  /-- else a converted temporary -/
  | rrefTo (R : Ret Made) : p.ref = .rref → rvalue = true → (∀ a, ¬RefersTo E v .lref ⟨.lref, p.t.removeCv⟩ a) →
      Gives E v (v.type .lref) p.t.removeCv R → Takes E v rvalue p (R.bind fun m => .ok (.dummy m))
  /-- reference to const -/
  | cref (a : Addr) : p.ref = .lref → IsConst p.t → RefersTo E v .lrefConst ⟨.lref, addConst p.t.removeCv⟩ a →
      Takes E v rvalue p (.ok (.object a))
  | crefTo (R : Ret Made) : p.ref = .lref → IsConst p.t → (∀ a, ¬RefersTo E v .lrefConst ⟨.lref, addConst p.t.removeCv⟩ a) →
      Gives E v (v.type .lrefConst) p.t.removeCv R → Takes E v rvalue p (R.bind fun m => .ok (.dummy m))
  /-- reference: not to an rvalue, and never to a converted value -/
  | lrefRvalue : p.ref = .lref → ¬IsConst p.t → rvalue = true → Takes E v rvalue p (.throw .badVariantCast)
  | lref (a : Addr) : p.ref = .lref → ¬IsConst p.t → rvalue = false → RefersTo E v .lref ⟨.lref, p.t.removeCv⟩ a →
      Takes E v rvalue p (.ok (.object a))
  | lrefNot : p.ref = .lref → ¬IsConst p.t → rvalue = false → (∀ a, ¬RefersTo E v .lref ⟨.lref, p.t.removeCv⟩ a) →
      Takes E v rvalue p (.throw .badVariantCast)
  /-- value -/
  | value (R : Ret Made) : p.ref = .none → Gives E v (v.type .lrefConst) p.t.removeCv R →
      Takes E v rvalue p (R.bind fun m => .ok (.value m))

/-- the variant can be looked into without undefined behaviour or `std::terminate` -/
structure Fine (E : Env) (v : Vnt) : Prop where
  sound : Sound E v
  stands : ∃ u a, Stands v u a ∧ Shallow u
  null : ¬NullObject E v

/-- exactly `n` arguments, then none -/
def Supplied (args : List Arg) (n : Nat) : Prop :=
  ∃ given rest, args = given ++ rest ∧ given.length = n ∧ (∀ a ∈ given, a.empty = false) ∧ (∀ a ∈ rest, a.empty = true)

/-- no argument after a missing one -/
def NoGaps (args : List Arg) : Prop := ∃ n, Supplied args n

/-- The instance gives access to the object at `a` of class `b`: stored or referred to, or pointed to, adjusted to the
    class; `writable`: nothing on the way is const. -/
inductive Runs (E : Env) (b : Base) (isConst writable : Bool) (v : Vnt) (a : Addr) : Prop
  | object (c : Base) (q : CV) (x : Addr) : c.kind = .cls → Stands v (.base c q) x →
      (writable = true → q.c = false ∧ isConst = false) → ((c = b ∧ a = x) ∨ (c ≠ b ∧ Subobject E v b a)) → Runs E b isConst writable v a
  | pointer (c : Base) (q q' : CV) (x : Addr) : c.kind = .cls → Stands v (.ptr q (.base c q')) x →
      (writable = true → q'.c = false) → ((c = b ∧ a = E.load x) ∨ (c ≠ b ∧ Subobject E v b a)) → Runs E b isConst writable v a

/-- the type is made of pointers to and arrays of `b` -/
inductive Over : CType → Base → Prop
  | base (b : Base) (q : CV) : Over (.base b q) b
  | ptr (q : CV) {t : CType} {b : Base} : Over t b → Over (.ptr q t) b
  | arr (n : Nat) {t : CType} {b : Base} : Over t b → Over (.arr n t) b

/-- neither a class object nor a pointer to one (nor an array of such) -/
def NoObject (v : Vnt) : Prop := ∀ u x, Stands v u x → (∃ b, Over u b ∧ b.kind ≠ .cls) ∨ ∃ d, Depth u (d + 2)

/-- the registered class of the complete object the variant stands for or points to -/
def ClassOf (E : Env) (v : Vnt) (d : Ptr) : Prop :=
  ∃ b x t i, Designates E v b x ∧ Complete E b x t i ∧ E.w.find t = some d

/-- `E'` is `E` after assigning to a member: other values are stored somewhere, but not where the variant keeps its
    pointers, and objects keep their classes -/
structure After (E E' : Env) (v : Vnt) : Prop where
  w : E'.w = E.w
  tid : E'.tid = E.tid
  info : E'.info = E.info
  dyn : E'.dyn = E.dyn
  self : E'.load v.self = E.load v.self
  ptr : E'.load v.ptr = E.load v.ptr

end Rtti.Val
