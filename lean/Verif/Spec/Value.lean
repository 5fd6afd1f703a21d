import Verif.Model.Value
import Verif.Spec.CType
import Verif.Spec.Hierarchy
/-
What looking into a variant should give: the object a variant stands for, its dynamic class, the subobject of a base.
-/
set_option autoImplicit false
namespace Rtti.Val
open Rtti Spec

/-- the object the variant stands for: its own, or the one it refers to; type as seen without const variants. Of the
    elements of an array of its own all qualifiers are forgotten, also those behind pointers -/
inductive Stands (v : Vnt) : CType → Addr → Prop
  | inPlace (t : CType) : v.held = some ⟨false, t⟩ → (∀ n e, t ≠ .arr n e) → t.sizeOf ≤ 16 → Stands v t.removeCv v.self
  | heap (t : CType) : v.held = some ⟨false, t⟩ → (∀ n e, t ≠ .arr n e) → 16 < t.sizeOf → Stands v t.removeCv v.ptr
  | array (n : Nat) (e : CType) : v.held = some ⟨false, .arr n e⟩ → Stands v (.arr n e.removeAllCv) v.ptr
  | ref (t : CType) : v.held = some ⟨true, t⟩ → Stands v t v.ptr

/-- The storage is at an address, its first word is `storage.ptr`, neither the variant's own block nor the object
    referred to is at the null address, and it is not a function. -/
structure Sound (E : Env) (v : Vnt) : Prop where
  self : v.self ≠ 0
  word : E.load v.self = v.ptr
  object : ∀ t a, Stands v t a → a ≠ 0
  nofunc : ∀ b q a, Stands v (.base b q) a → b.kind ≠ .func

/-- the object of class type the variant stands for or points to: its static class and address -/
inductive Designates (E : Env) (v : Vnt) : Base → Addr → Prop
  | object (b : Base) (q : CV) (a : Addr) : b.kind = .cls → Stands v (.base b q) a → Designates E v b a
  | pointer (b : Base) (q q' : CV) (a : Addr) : b.kind = .cls → Stands v (.ptr q (.base b q')) a →
      Designates E v b (E.load a)

/-- class and address of the complete object the object of static class `b` at `a` belongs to, as far as the class
    tells: without `classInfo()` it is taken to be a complete object -/
def Complete (E : Env) (b : Base) (a : Addr) (t : TypeId) (i : Addr) : Prop :=
  if E.info b then (t, i) = E.dyn b a else (t, i) = (E.tid b, a)

/-- the registered classes of the complete object and of `c` -/
def Classes (E : Env) (v : Vnt) (c : Base) (d e : Ptr) (i : Addr) : Prop :=
  ∃ b x t, Designates E v b x ∧ Complete E b x t i ∧ E.w.find t = some d ∧ E.w.find (E.tid c) = some e

/-- `c` is the class of the complete object or one of its bases -/
def Derives (E : Env) (v : Vnt) (c : Base) : Prop := ∃ d e i, Classes E v c d e i ∧ Reaches E.w d e

/-- the (leftmost) subobject of class `c` of the complete object is at `a` -/
def Subobject (E : Env) (v : Vnt) (c : Base) (a : Addr) : Prop :=
  ∃ d e i fs, Classes E v c d e i ∧ LeftPath E.w d e fs ∧ a = applyCasts fs i

/-- a null pointer to a class with `classInfo()` -/
def NullObject (E : Env) (v : Vnt) : Prop := ∃ b, Designates E v b 0 ∧ E.info b = true

/-- C++ would let an expression of type `S` bind to `T` as far as value category, constness and pointer depth go -/
def Fits (S T : RType) : Prop := compatible (describe S) (describe T) = some true

/-- What `Fits` is without arrays: as many pointers on both sides; a non-const lvalue reference binds to an lvalue, an
    rvalue reference to something else; at each level (the outermost is copied when `T` is a value) const is kept, and
    added only if everything above it is const. [dcl.init.ref], [conv.qual] -/
structure Binds (S T : RType) : Prop where
  depth : ∃ d, Depth S.t d ∧ Depth T.t d
  lref : T.ref = .lref → S.ref = .lref ∨ IsConst T.t
  rref : T.ref = .rref → S.ref ≠ .lref
  keep : ∀ k s t, Reach S.t k s → Reach T.t k t → (k = 0 → T.ref ≠ .none) → IsConst s → IsConst t
  add : ∀ k s t, Reach S.t k s → Reach T.t k t → (k = 0 → T.ref ≠ .none) → IsConst t → ¬IsConst s →
    ∀ j t', j < k → (j = 0 → T.ref ≠ .none) → Reach T.t j t' → IsConst t'

/-- fewer than 16 levels of pointers -/
def Shallow (t : CType) : Prop := t.pointerArity < 16

/-- where `ref<T>` and `data<T>` point -/
inductive Refers (E : Env) (v : Vnt) (t : CType) : Addr → Prop
  /-- the object itself; for an array its first element -/
  | same (u : CType) (a : Addr) : Stands v u a → SameDecay u t → (∀ n e, u ≠ .arr n e) ∨ (∃ n e, t = .arr n e) → Refers E v t a
  /-- an array asked for as a pointer: the variant's own pointer to the first element -/
  | decayed (n : Nat) (e : CType) (a : Addr) : Stands v (.arr n e) a → SameDecay (.arr n e) t → (∀ n e, t ≠ .arr n e) →
      Refers E v t v.self
  /-- a class object asked for as another class -/
  | sub (b c : Base) (q r : CV) (x a : Addr) : Stands v (.base b q) x → b.kind = .cls → c.kind = .cls → b ≠ c →
      t = .base c r → Subobject E v c a → a ≠ 0 → Refers E v t a
  /-- a pointer to a class object asked for as a pointer to another class: the variant's own pointer, if the subobject
      is where it points -/
  | subPtr (b c : Base) (q q' r r' : CV) (x a : Addr) : Stands v (.ptr q (.base b q')) x → b.kind = .cls → c.kind = .cls →
      b ≠ c → t = .ptr r (.base c r') → Subobject E v c a → a ≠ 0 → a = v.ptr → Refers E v t v.self

/-- a class object, or a pointer to one, asked for as (a pointer to) another class that its class derives from -/
def UpIs (E : Env) (v : Vnt) (t : CType) : Prop :=
  ∃ b c x, b.kind = .cls ∧ c.kind = .cls ∧ b ≠ c ∧ Derives E v c ∧
    ((∃ q r, Stands v (.base b q) x ∧ t = .base c r) ∨ (∃ q q' r r', Stands v (.ptr q (.base b q')) x ∧ t = .ptr r (.base c r')))

/-! ### `to<T>` -/

/-- the place `to<T>` reads: the object; for an array the variant's own pointer to the first element -/
inductive Place (v : Vnt) : Addr → Prop
  | object (u : CType) (a : Addr) : Stands v u a → (∀ n e, u ≠ .arr n e) → Place v a
  | array (n : Nat) (e : CType) (a : Addr) : Stands v (.arr n e) a → Place v v.self

/-- a value of the type can be copied; pointers can -/
def CopyOk (t : CType) : Prop := ∀ b q, t = .base b q → b.traits.copyC = true

/-- outcomes of copying the object at `a` -/
inductive Copies (E : Env) (t : CType) (a : Addr) : Ret Made → Prop
  | done : CopyOk t → E.copyThrows t.fullDecay a = false → Copies E t a (.ok (.copyOf a))
  | throws : CopyOk t → E.copyThrows t.fullDecay a = true → Copies E t a (.throw .user)
  | refused : ¬CopyOk t → Copies E t a (.throw .runtimeError)

/-- a class object asked for as another class, whose subobject is at `a` -/
def UpClass (E : Env) (v : Vnt) (t : CType) (a : Addr) : Prop :=
  ∃ b c q r x, Stands v (.base b q) x ∧ b.kind = .cls ∧ c.kind = .cls ∧ b ≠ c ∧ t = .base c r ∧ Subobject E v c a ∧ a ≠ 0

/-- a class pointer asked for as a pointer to another class, whose subobject is at `a` -/
def UpPtr (E : Env) (v : Vnt) (t : CType) (a : Addr) : Prop :=
  ∃ b c q q' r r' x, Stands v (.ptr q (.base b q')) x ∧ b.kind = .cls ∧ c.kind = .cls ∧ b ≠ c ∧
    t = .ptr r (.base c r') ∧ Subobject E v c a ∧ a ≠ 0

/-- outcomes of a registered converter: without the flag parameter all failures are "no conversion", with it an
    exception goes through -/
inductive Converts (c : Conv) (a : Addr) : Ret Made → Prop
  | done (f : Bool) : c.call a = .returns f false → (c.kind = .functorOk → f = true) → Converts c a (.ok (.converted c.fn a))
  | declined : c.call a = .returns false false → c.kind = .functorOk → Converts c a (.throw .badVariantConvert)
  | swallowed : c.call a = .throws ∨ (∃ f, c.call a = .returns f true) → c.kind = .functor →
      Converts c a (.throw .badVariantConvert)
  | threw : c.call a = .throws ∨ (∃ f, c.call a = .returns f true) → c.kind = .functorOk → Converts c a (.throw .user)

/-- no converter is needed -/
def Direct (E : Env) (v : Vnt) (S : RType) (t : CType) : Prop :=
  Fits S ⟨.none, t⟩ ∧ (SameDecay S.t t ∨ ∃ a, UpClass E v t a ∨ UpPtr E v t a)

/-- outcomes of `to<T>` on a variant showing the type `S`: same type, then base class, then converter -/
inductive Gives (E : Env) (v : Vnt) (S : RType) (t : CType) : Ret Made → Prop
  | same (a : Addr) (R : Ret Made) : Fits S ⟨.none, t⟩ → SameDecay S.t t → Place v a → Copies E t a R → Gives E v S t R
  | up (a : Addr) (R : Ret Made) : Fits S ⟨.none, t⟩ → ¬SameDecay S.t t → UpClass E v t a → Copies E t a R → Gives E v S t R
  | upPtr (a : Addr) : Fits S ⟨.none, t⟩ → ¬SameDecay S.t t → UpPtr E v t a → Gives E v S t (.ok (.pointer a))
  | conv (a : Addr) (c : Conv) (R : Ret Made) : ¬Direct E v S t → Place v a → E.conv S.t.fullDecay t.fullDecay = some c →
      Converts c a R → Gives E v S t R
  | none (a : Addr) : ¬Direct E v S t → Place v a → E.conv S.t.fullDecay t.fullDecay = .none →
      Gives E v S t (.throw .badVariantConvert)

end Rtti.Val
