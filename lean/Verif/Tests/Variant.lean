import Verif.Tests.Inheritance
import Verif.Model.VariantMem
/-
The library's own tests, transcribed: /repo/tests/test_variant.cpp, which counts how often an object is constructed and
destroyed, so its counts also check the bookkeeping of the model. Each `example` is one test case run on the
model with the answer the test demands. They are evidence that the model does what the library does; no property rests
on them.

The counts of the tests include objects the invokers make outside any variant (the object a constructor call makes
before it is stored, the result of `to`); the comments say how many.
-/
set_option autoImplicit false
namespace Rtti.Tests.Variant
open Rtti

/-- `TestQPointer` (type 1): two words, kept in place; its move constructor swaps with an empty object -/
def prog : VMem.Prog where
  ty _ := ⟨.small, true, true, false, true, false, some, fun v => some (v, 0)⟩
  oom _ := false

def ctors (l : List VMem.Ev) : Nat := l.countP fun e => match e with | .ctor _ _ => true | _ => false
def dtors (l : List VMem.Ev) : Nat := l.countP fun e => match e with | .dtor _ _ => true | _ => false

/-- objects constructed and destroyed by `cs` after `before` -/
def counts (before cs : List VMem.Cmd) : Nat × Nat :=
  let s := (VMem.run prog before VMem.init).2
  let s' := (VMem.run prog cs s).2
  (ctors s'.mem.log - ctors s.mem.log, dtors s'.mem.log - dtors s.mem.log)

/-- the value of the object in variant `x` -/
def value (cs : List VMem.Cmd) (x : Nat) : Option Nat :=
  let s := (VMem.run prog cs VMem.init).2
  match s.env (some x) with
  | some ⟨_, .obj i⟩ => (s.mem.objs i).map (·.val)
  | _ => none

/- "Copy": `variant v = qp;` one copy. "Move": `variant v = std::move(qp);` one move. "Reference": nothing -/
example : counts [] [.value 0 1 7 false] = (1, 0) ∧ counts [] [.value 0 1 7 true] = (1, 0) ∧ counts [] [.ref 0 1 500] = (0, 0) := by
  decide +kernel

/- "Constructors": `auto v1 = def_constructor->invoke()` constructs, moves and destroys one: the variant is made from the
   new object, which is destroyed: 1 move here -/
example : counts [] [.value 1 1 7 true] = (1, 0) := by decide +kernel

/- `v3 = move_constructor->invoke(std::move(v2))`: 4 moves, 1 destroyed. Outside the variants: 1 move, 1 destroyed. The
   variant `9` is the result of the call. `v3` has the value afterwards. -/
example : counts [.value 2 1 7 true, .empty 3] [.value 9 1 7 true, .assignMove 3 9, .destroy 9] = (3, 0) ∧
    value [.value 2 1 7 true, .empty 3, .value 9 1 7 true, .assignMove 3 9, .destroy 9] 3 = some 7 := by decide +kernel

/- `v1 = v3;` 1 copy, 3 moves, 1 destroyed: the three objects moved from inside the variants are not destroyed, which is
   `C37_moved_from_false`. -/
example : counts [.value 1 1 5 true, .value 3 1 7 true] [.assign 1 3] = (4, 1) ∧
    value [.value 1 1 5 true, .value 3 1 7 true, .assign 1 3] 1 = some 7 := by decide +kernel

/- "Const reference": `auto mv = move_constructor->invoke(std::move(v));` 1 copy, 5 moves, 4 destroyed. Outside the
   variants: 1 copy and 1 move by `to`, which destroys 1, its result is destroyed, and the new object is made by 1 move and
   destroyed. The variant 0 is `m_dummy` of the argument, 9 the result. -/
example : counts [] [.empty 0, .assignValue 0 1 7 true, .value 9 1 7 true, .destroy 0] = (6 - 3, 4 - 3) := by decide +kernel

/-! Member calls of the tests. The class `TestQPointer` has type 1; it has no `classInfo()`. -/
open Val Spec World

def world : World := World.init.run [.registerType 1, .createNamespace 1 ['t'], .createClass 2 ['Q'] 1,
  .createMethod 3 ['v', 'a', 'l', 'u', 'e', '(', ')'] true, .createMethod 3 ['c', 'o', 'n', 's', 't', '_', 'v', 'a', 'l', 'u', 'e', '(', ')'] true,
  .createProperty 3 ['p'] true]

def env : Env where
  w := world
  tid b := b.id
  info _ := false
  dyn _ _ := (0, 0)
  load _ := 0
  conv s t := if s = .base ⟨10, .integral, 4, traits⟩ ⟨false, false⟩ ∧ t = .base ⟨14, .integral, 8, traits⟩ ⟨false, false⟩ then
    some ⟨5, .functor, fun _ => .returns false false⟩ else none
  copyThrows _ _ := false

def Q : Base := ⟨1, .cls, 16, traits⟩
def q : CType := .base Q ⟨false, false⟩
def cq : CType := .base Q ⟨true, false⟩
def vt : Base := ⟨99, .cls, 24, traits⟩
def int : CType := .base ⟨10, .integral, 4, traits⟩ ⟨false, false⟩
def long : CType := .base ⟨14, .integral, 8, traits⟩ ⟨false, false⟩

def noVariants : Nest := ⟨vt, fun _ => ⟨none, 0, 0⟩⟩
/-- the methods `value` (4) and `const_value` (5), both results references to a string -/
def fn (m : Nat) : Fn := if m = 4 then ⟨some Q, false, [], none⟩ else ⟨some Q, true, [], none⟩
/-- the property `priority` -/
def priority (_ : Nat) : Property := .accessor Q ⟨some Q, true, [], some ⟨.none, long⟩⟩ ⟨some Q, false, [⟨.none, long⟩], none⟩
/-- a variant called as an lvalue -/
def inst (v : Vnt) : Inst := ⟨false, v, makeArg 700 (.missing false)⟩

/-- the variants of "Copy" (in place), "Reference", "Const reference" with `qp` at 5000 -/
def byValue : Vnt := ⟨some ⟨false, q⟩, 100, 0⟩
def byRef : Vnt := ⟨some ⟨true, q⟩, 100, 5000⟩
def byCref : Vnt := ⟨some ⟨true, cq⟩, 100, 5000⟩

def methodValue : Str := ['v', 'a', 'l', 'u', 'e']
def methodConstValue : Str := ['c', 'o', 'n', 's', 't', '_', 'v', 'a', 'l', 'u', 'e']

/- SUBCASE("Metaclass") -/
example : metaClass env byValue = .ok (some 3) ∧ world.getItem 2 .cls ['Q'] = .val (some 3) := by decide +kernel
/- `v.invoke("const_value")`, `v.invoke("value")`, `v.set_property("priority", 100)`, `v.get_property("priority")` -/
example : invokeNamed env noVariants fn (inst byValue) methodConstValue [] = .ok (.called (some (.at 100)) []) ∧
    invokeNamed env noVariants fn (inst byValue) methodValue [] = .ok (.called (some (.at 100)) []) ∧
    setNamed env noVariants priority byValue ['p'] (makeArg 700 (.obj false int 800)) =
      .ok (.called (.called (some (.at 100)) [.value (.converted 5 800)])) ∧
    getNamed env noVariants priority byValue ['p'] = .ok (.result (.called (some (.at 100)) [])) := by decide +kernel
/- SUBCASE("Reference"): the object itself -/
example : invokeNamed env noVariants fn (inst byRef) methodConstValue [] = .ok (.called (some (.at 5000)) []) ∧
    invokeNamed env noVariants fn (inst byRef) methodValue [] = .ok (.called (some (.at 5000)) []) ∧
    setNamed env noVariants priority byRef ['p'] (makeArg 700 (.obj false int 800)) =
      .ok (.called (.called (some (.at 5000)) [.value (.converted 5 800)])) := by decide +kernel
/- SUBCASE("Const reference") -/
example : invokeNamed env noVariants fn (inst byCref) methodConstValue [] = .ok (.called (some (.at 5000)) []) ∧
    throwsCast (invokeNamed env noVariants fn (inst byCref) methodValue []) ∧
    throwsCast (setNamed env noVariants priority byCref ['p'] (makeArg 700 (.obj false int 800))) ∧
    getNamed env noVariants priority byCref ['p'] = .ok (.result (.called (some (.at 5000)) [])) := by decide +kernel

/- The copy constructor takes the object in the variant `v1`; the move constructor refuses the lvalue `v2`, takes the
   object out of `std::move(v2)` and of a reference, and moves from a copy for a const reference. -/
example : let call := fun (p : RType) (v : Vnt) (e : Expr) => staticInvoke env ⟨vt, fun _ => v⟩ ⟨none, false, [p], none⟩ [makeArg 700 e]
    call ⟨.lref, cq⟩ byValue (.obj true (.base vt ⟨false, false⟩) 90) = .ok (.called none [.object 100]) ∧
    throwsCast (call ⟨.rref, q⟩ byValue (.obj true (.base vt ⟨false, false⟩) 90)) ∧
    call ⟨.rref, q⟩ byValue (.obj false (.base vt ⟨false, false⟩) 90) = .ok (.called none [.object 100]) ∧
    call ⟨.rref, q⟩ byRef (.obj false (.base vt ⟨false, false⟩) 90) = .ok (.called none [.object 5000]) ∧
    call ⟨.rref, q⟩ byCref (.obj false (.base vt ⟨false, false⟩) 90) = .ok (.called none [.dummy (.copyOf 5000)]) := by decide +kernel

end Rtti.Tests.Variant
