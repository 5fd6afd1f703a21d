import Verif.Model.Linked
import Verif.Spec.Invoke
import Verif.Spec.Create
/-
What a program has defined, read off the program.
-/
set_option autoImplicit false
namespace Rtti.Val
open Rtti Spec

/-- `l` is the state after the program `h` -/
inductive Program (rank : TypeId → Nat) (S : RType → Str) : List Def → Linked → Prop
  | nil : Program rank S [] Linked.init
  | snoc (h : List Def) (l : Linked) (d : Def) : Program rank S h l → Legal rank l.w (d.op S) → (l.step S d).2 ≠ .ub →
      (l.step S d).2 ≠ .diverge → Program rank S (h ++ [d]) (l.step S d).1

/-- `_method(n, f)` was run for the container `o`, and at that moment the container had (or inherited) no method of this
    signature -/
def DefinedMethod (rank : TypeId → Nat) (S : RType → Str) (h : List Def) (o : Ptr) (n : Str) (f : Fn) : Prop :=
  ∃ pre post l, h = pre ++ .method o n f :: post ∧ Program rank S pre l ∧ l.w.getMethod o (f.signature S n) = .val none

/-- the same for properties -/
def DefinedProperty (rank : TypeId → Nat) (S : RType → Str) (h : List Def) (o : Ptr) (n : Str) (p : Property) : Prop :=
  ∃ pre post l, h = pre ++ .property o n p :: post ∧ Program rank S pre l ∧ l.w.getProperty o n = .val none

/-- the same for constructors -/
def DefinedCtor (rank : TypeId → Nat) (S : RType → Str) (h : List Def) (o : Ptr) (c : CtorDef) : Prop :=
  ∃ pre post l, h = pre ++ .ctor o c :: post ∧ Program rank S pre l ∧ l.w.getConstructor o (ctorSignature (c.ctor S)) = .val none

/-- the step registers `k` as a converter of objects of type `s` (up to cv and decay) to type `t`: it asks for that, or it
    defines a constructor that can be called implicitly with one such object -/
inductive Offers : Def → CType → CType → Conv → Prop
  | asked (i : TypeId) (s' t' s t : CType) (k : Conv) : SameDecay s' s → SameDecay t' t → Offers (.converter i s' t' k) s t k
  | ctor (o : Ptr) (c : CtorDef) (p : RType) (q : CV) (s : CType) : c.params = [p] → c.implicit = true → ¬SameDecay p.t (.base c.cls q) →
      SameDecay p.t s → Offers (.ctor o c) s (.base c.cls q) ⟨c.fn, .functor, fun a => .returns false (c.throws a)⟩

end Rtti.Val
