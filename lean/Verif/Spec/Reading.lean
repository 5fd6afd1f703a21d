import Verif.Model.Reading
import Verif.Spec.VariantExact
import Verif.Spec.Value
/-
What a layout has to be like, what an environment has to show of the memory, and which objects variants own.
-/
set_option autoImplicit false
namespace Rtti.Reading
open VMem Val

/-- The layout is one of this program: the tables agree with the types about size and copying, nothing is at the null
    address, and variants and blocks are at different addresses. -/
structure Layout.Of (L : Layout) (P : Prog) : Prop where
  small : ∀ t, (P.ty t).place = .small ↔ (∀ n e, L.ty t ≠ .arr n e) ∧ (L.ty t).sizeOf ≤ 16
  array : ∀ t, (P.ty t).place = .array ↔ ∃ n e, L.ty t = .arr n e
  copyable : ∀ t, (P.ty t).copyable = Val.copyable (L.ty t)
  nofunc : ∀ t b q, L.ty t = .base b q → b.kind ≠ .func
  var : ∀ x, L.var x ≠ 0
  heap : ∀ b, L.heap b ≠ 0
  varInj : ∀ x y, L.var x = L.var y → x = y
  heapInj : ∀ x y, L.heap x = L.heap y → x = y
  apart : ∀ x b, L.var x ≠ L.heap b

/-- variant `x` owns the object `id`, at address `a` -/
inductive Owns (L : Layout) (s : State) : Nat → Addr → Nat → Prop
  | inside {x t id : Nat} : s.env (some x) = some ⟨.own t, .obj id⟩ → Owns L s x (L.var x) id
  | onHeap {x t b id : Nat} : s.env (some x) = some ⟨.own t, .block b⟩ → s.mem.blocks b = some (some id) → Owns L s x (L.heap b) id

/-- there is an object of a variant's at address `a`, of type `t`, with value `v` -/
def Holds (L : Layout) (s : State) (a : Addr) (t v : Nat) : Prop := ∃ x id, Owns L s x a id ∧ s.mem.objs id = some ⟨t, v⟩

/-- the environment shows the memory: what is read at the address of a variant is the first word of its storage, and the
    copy constructor of a type throws for an object if it throws for its value -/
structure Shows (P : Prog) (L : Layout) (s : State) (E : Env) : Prop where
  word : ∀ x v, s.env (some x) = some v → E.load (L.var x) = Reading.word L s.mem v.cell
  copies : ∀ a t v, Holds L s a t v → E.copyThrows (L.ty t).fullDecay a = ((P.ty t).copy v).isNone

/-- `x.ref<T>() = v` for the type `T` the variant was made with: the object at the address that `ref` gives, if it is a
    variant's, gets the value. (Objects of the program are not in the model.) -/
inductive Wrote (P : Prog) (L : Layout) (s : State) (x v : Nat) : State → Prop
  | mk {E : Env} {u : Var} {y id t v₀ : Nat} {T : CType} {a : Addr} : Shows P L s E → s.env (some x) = some u →
      (u.mgr = .own t ∧ T = kept (L.ty t) ∨ u.mgr = .ref t ∧ T = L.ty t) → reference E (seen L s.mem x u) .ref T = .ok a →
      Owns L s y a id → s.mem.objs id = some ⟨t, v₀⟩ →
      Wrote P L s x v (overwrite s id t v)

/-- the states programs get to; exceptions are caught -/
inductive Reach (P : Prog) (L : Layout) : State → Prop
  | init : Reach P L VMem.init
  | done {s : State} (c : Cmd) : Reach P L s → (exec P c s).1 = .ok () → Reach P L (exec P c s).2
  | threw {s : State} (c : Cmd) : Reach P L s → (exec P c s).1 = .threw → Reach P L (exec P c s).2
  | wrote {s s' : State} {x v : Nat} : Reach P L s → Wrote P L s x v s' → Reach P L s'

end Rtti.Reading
