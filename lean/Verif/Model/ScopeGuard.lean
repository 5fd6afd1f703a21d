/-
`scope_guard` and `FINALLY` (/repo/include/rtti/finally.h:11-60), used at /repo/src/metacontainer.cpp:161,
/repo/include/rtti/variant.h:259, 272 and /repo/include/rtti/detail/variant_impl.h:472, 480, 490. A block is a list of statements; leaving it, normally or by an exception, destroys
its guards, the youngest first. A guard is known by the name of its variable; the function it is made with gets that name
too. Simplified: one block; a guard's function is `noexcept` (the macro makes it so), its effect is the event that it ran,
and moving it leaves it as it was (the macro makes it a lambda that captures references only).
-/
set_option autoImplicit false
namespace Rtti.Guard

inductive Stmt
  /-- any statement that does not throw -/
  | act (n : Nat)
  /-- any statement that throws -/
  | throw
  /-- `FINALLY_EX(f) { ... };`, lines 55-56 -/
  | guard (f : Nat)
  /-- `f.dismiss();`, lines 33-34 -/
  | dismiss (f : Nat)
  /-- `auto g = std::move(f);`, line 18 -/
  | move (f g : Nat)
deriving DecidableEq, Repr

inductive Ev
  | act (n : Nat)
  | ran (f : Nat)
deriving DecidableEq, Repr

/-- a guard: the name of the variable, `m_function`, `m_dismiss` (lines 36-37) -/
structure G where
  name : Nat
  fn : Nat
  dismissed : Bool
deriving DecidableEq, Repr

/-- `dismiss`, lines 33-34 -/
def dismiss (f : Nat) (g : G) : G := if g.name = f then { g with dismissed := true } else g

/-- `~scope_guard`, lines 28-32 -/
def destroy (g : G) : List Ev := if g.dismissed then [] else [.ran g.fn]

/-- the statements of the block; `gs` are its guards, the youngest first. The defaulted move constructor (line 18) copies
    `m_dismiss` and moves `m_function`; it leaves the old guard as it was. -/
def block : List Stmt → List G → List Ev
  | [], gs => gs.flatMap destroy
  | .throw :: _, gs => gs.flatMap destroy
  | .act n :: ss, gs => .act n :: block ss gs
  | .guard f :: ss, gs => block ss (⟨f, f, false⟩ :: gs)
  | .dismiss f :: ss, gs => block ss (gs.map (dismiss f))
  | .move f g :: ss, gs => block ss (((gs.find? (fun x => x.name = f)).map fun x => { x with name := g }).toList ++ gs)

end Rtti.Guard
