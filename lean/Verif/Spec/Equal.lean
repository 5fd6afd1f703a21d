import Verif.Model.Equal
import Verif.Spec.Value
/-
What comparing two variants should mean.
-/
set_option autoImplicit false
namespace Rtti.Val
open Rtti Spec

/-- the type is made of `n` objects of type `e` that are not arrays -/
inductive Flat : CType → Nat → CType → Prop
  | base (b : Base) (q : CV) : Flat (.base b q) 1 (.base b q)
  | ptr (q : CV) (t : CType) : Flat (.ptr q t) 1 (.ptr q t)
  | arr (n : Nat) {m : Nat} {t e : CType} : Flat t m e → Flat (.arr n t) (n * m) e

/-- what `==` says about two objects of type `e`; `none`: it throws -/
def says (E : Env) (C : Cmp) (e : CType) (a b : Addr) : Option Bool :=
  match e with
  | .base x _ => C.eq x a b
  | .ptr _ _ => some (E.load a == E.load b)
  | .arr _ _ => none

/-- there is an `==` -/
def Comparable (e : CType) : Prop := ∀ b q, e = .base b q → b.traits.eq = true

/-- outcome of comparing `n` objects, `size` bytes apart, in order -/
inductive Compared (E : Env) (C : Cmp) (e : CType) (size n : Nat) (a b : Addr) : Ret Bool → Prop
  | equal : (∀ i, i < n → says E C e (a + i * size) (b + i * size) = some true) → Compared E C e size n a b (.ok true)
  | differ (k : Nat) : k < n → (∀ i, i < k → says E C e (a + i * size) (b + i * size) = some true) →
      says E C e (a + k * size) (b + k * size) = some false → Compared E C e size n a b (.ok false)
  | throws (k : Nat) : k < n → (∀ i, i < k → says E C e (a + i * size) (b + i * size) = some true) →
      says E C e (a + k * size) (b + k * size) = none → Compared E C e size n a b (.throw .user)

/-- what leaves a comparison whose left operand is of type `u`: anything, but no exception if `u` is an array -/
inductive Leaves : CType → Ret Bool → Ret Bool → Prop
  | array (n : Nat) (t : CType) (e : Exc) : Leaves (.arr n t) (.throw e) .terminate
  | other {u : CType} (e : Exc) : (∀ n t, u ≠ .arr n t) → Leaves u (.throw e) (.throw e)
  | ok (u : CType) (b : Bool) : Leaves u (.ok b) (.ok b)

/-- the same type apart from the outermost const and volatile (of arrays: of the elements) -/
inductive SameTop : CType → CType → Prop
  | base (b : Base) (q q' : CV) : SameTop (.base b q) (.base b q')
  | ptr (q q' : CV) (t : CType) : SameTop (.ptr q t) (.ptr q' t)
  | arr (n : Nat) {t t' : CType} : SameTop t t' → SameTop (.arr n t) (.arr n t')

/-- one direction of `eq`: convert the object at `a` from `S` to `T` and compare the `T` at `x` with the result; `ok none`:
    no value to compare with -/
inductive Turn (E : Env) (C : Cmp) (S T : CType) (a x : Addr) : Ret (Option Bool) → Prop
  | absent : E.conv S.fullDecay T.fullDecay = none → Turn E C S T a x (.ok none)
  | failed (c : Conv) : E.conv S.fullDecay T.fullDecay = some c → Converts c a (.throw .badVariantConvert) → Turn E C S T a x (.ok none)
  | threw (c : Conv) : E.conv S.fullDecay T.fullDecay = some c → Converts c a (.throw .user) → Turn E C S T a x (.throw .user)
  | compared (c : Conv) (r : Bool) : E.conv S.fullDecay T.fullDecay = some c → Converts c a (.ok (.converted c.fn a)) →
      Comparable T → C.eqTmp T.fullDecay x c.fn a = some r → Turn E C S T a x (.ok (some r))
  | comparisonThrew (c : Conv) : E.conv S.fullDecay T.fullDecay = some c → Converts c a (.ok (.converted c.fn a)) →
      Comparable T → C.eqTmp T.fullDecay x c.fn a = none → Turn E C S T a x (.throw .user)
  | incomparable (c : Conv) : E.conv S.fullDecay T.fullDecay = some c → Converts c a (.ok (.converted c.fn a)) →
      ¬Comparable T → Turn E C S T a x (.throw .runtimeError)

/-- the variant is empty, or stands for an object at a non-null address that is no function, of a type with fewer than 16 pointers -/
structure Regular (v : Vnt) : Prop where
  object : ∀ t a, Stands v t a → a ≠ 0
  nofunc : ∀ b q a, Stands v (.base b q) a → b.kind ≠ .func
  shallow : ∀ t a, Stands v t a → Shallow t

/-- the right operand may be taken for the left one's type: it is of the same type as a value, and binds to a const reference -/
def Alike (u u' : CType) : Prop := Fits ⟨.lref, addConst u'⟩ ⟨.lref, addConst u⟩ ∧ SameDecay u u'

/-- outcomes of `v == w` -/
inductive Equals (E : Env) (C : Cmp) (v w : Vnt) : Ret Bool → Prop
  | empty : v.held = none → w.held = none → Equals E C v w (.ok true)
  | oneEmpty : (v.held = none ↔ w.held ≠ none) → Equals E C v w (.ok false)
  | unlike (u u' : CType) (a a' : Addr) : Stands v u a → Stands w u' a' → ¬Alike u u' → Equals E C v w (.ok false)
  | incomparable (u u' : CType) (a a' : Addr) (n : Nat) (e : CType) (R : Ret Bool) : Stands v u a → Stands w u' a' → Alike u u' →
      Flat u n e → ¬Comparable e → Leaves u (.throw .runtimeError) R → Equals E C v w R
  | sameObject (u u' : CType) (a : Addr) (n : Nat) (e : CType) : Stands v u a → Stands w u' a → Alike u u' →
      Flat u n e → Comparable e → Equals E C v w (.ok true)
  /-- as many elements as the left one has -/
  | compared (u u' : CType) (a a' : Addr) (n : Nat) (e : CType) (R R' : Ret Bool) : Stands v u a → Stands w u' a' → Alike u u' →
      ((∃ m t, u = .arr m t) ↔ (∃ m t, u' = .arr m t)) → Flat u n e → Comparable e → a ≠ a' →
      Compared E C e e.sizeOf n a a' R → Leaves u R R' → Equals E C v w R'
  /-- the elements of an array are read as a pointer -/
  | misread (q : CV) (p : CType) (n : Nat) (e : CType) (a a' : Addr) : Stands v (.ptr q p) a → Stands w (.arr n e) a' →
      Alike (.ptr q p) (.arr n e) → a ≠ a' → Equals E C v w .ub

/-- one direction of `eq` for any type -/
inductive Tried (E : Env) (C : Cmp) (S T : CType) (a x : Addr) : Ret (Option Bool) → Prop
  | value (R : Ret (Option Bool)) : (∀ n e, T ≠ .arr n e) → Turn E C S T a x R → Tried E C S T a x R
  | absent : E.conv S.fullDecay T.fullDecay = none → Tried E C S T a x (.ok none)
  /-- the user's function, or the copy of its result, throws: nothing is written -/
  | failed (c : Conv) : E.conv S.fullDecay T.fullDecay = some c → (c.call a = .throws ∨ ∃ f, c.call a = .returns f true) →
      c.kind = .functor → Tried E C S T a x (.ok none)
  | threw (c : Conv) : E.conv S.fullDecay T.fullDecay = some c → (c.call a = .throws ∨ ∃ f, c.call a = .returns f true) →
      c.kind = .functorOk → Tried E C S T a x (.throw .user)
  /-- the pointer a converter makes instead of an array is written to a buffer for the elements -/
  | overrun (c : Conv) (f : Bool) (n : Nat) (e : CType) : T = .arr n e → E.conv S.fullDecay T.fullDecay = some c →
      c.call a = .returns f false → Tried E C S T a x .ub

/-- the answer of one direction, if it is one -/
def answer : Ret (Option Bool) → Option (Ret Bool)
  | .ok none => none
  | .ok (some b) => some (.ok b)
  | .throw e => some (.throw e)
  | .terminate => some .terminate
  | .ub => some .ub
  | .diverge => some .diverge

/-- outcomes of `v.eq(value)`, the value of type `t` at `x`: without conversion; else the variant's object converted to `t`; else
    the value converted to the variant's type; else false -/
inductive EqualsValue (E : Env) (C : Cmp) (v : Vnt) (t : CType) (x : Addr) (w : Vnt) : Ret Bool → Prop
  | direct (R : Ret Bool) : Equals E C v w R → R ≠ .ok false → EqualsValue E C v t x w R
  | empty : v.held = none → EqualsValue E C v t x w (.ok false)
  | forth (u : CType) (a p : Addr) (r : Ret (Option Bool)) (R : Ret Bool) : Equals E C v w (.ok false) → Stands v u a → Place v p →
      Tried E C u t p x r → answer r = some R → EqualsValue E C v t x w R
  | back (u : CType) (a p : Addr) (r : Ret (Option Bool)) (R : Ret Bool) : Equals E C v w (.ok false) → Stands v u a → Place v p →
      Tried E C u t p x (.ok none) → Tried E C t u x a r → answer r = some R → EqualsValue E C v t x w R
  | no (u : CType) (a p : Addr) : Equals E C v w (.ok false) → Stands v u a → Place v p →
      Tried E C u t p x (.ok none) → Tried E C t u x a (.ok none) → EqualsValue E C v t x w (.ok false)

/-- a converter, run on the object at `a`, does not say "no" after making a value -/
def Honest (E : Env) (S T : CType) (a : Addr) : Prop :=
  ∀ c, E.conv S.fullDecay T.fullDecay = some c → c.kind = .functorOk → c.call a ≠ .returns false false

/-- every object constructed is destroyed, once and later; the heap buffer is allocated around its use, and freed.
    Arguments: the heap buffer exists; it holds an object; the stack buffer holds an object. -/
inductive Clean : Bool → Bool → Bool → List Tmp → Prop
  | done : Clean false false false []
  | alloc {s : Bool} {l : List Tmp} : Clean true false s l → Clean false false s (.alloc :: l)
  | free {s : Bool} {l : List Tmp} : Clean false false s l → Clean true false s (.free :: l)
  | heap {s : Bool} {l : List Tmp} : Clean true true s l → Clean true false s (.construct .heap :: l)
  | unheap {s : Bool} {l : List Tmp} : Clean true false s l → Clean true true s (.destroy .heap :: l)
  | stack {m h : Bool} {l : List Tmp} : Clean m h true l → Clean m h false (.construct .stack :: l)
  | unstack {m h : Bool} {l : List Tmp} : Clean m h false l → Clean m h true (.destroy .stack :: l)

end Rtti.Val
