import Verif.Tests.GlobalNs
/-
The library's example program, transcribed: /repo/examples/tutorial_01.cpp. Each `example` is a step of `main` run on the
model with the answer the program's comments promise. They are evidence that the model does what the library does; no
property rests on them.
-/
set_option autoImplicit false
namespace Rtti.Tests.Tutorial
open Rtti Val Spec World Global

/-- `Point2D`, type 1, two `int`s -/
def Point2D : Base := basic 1 8 .cls

/-- tutorial_01.cpp:49-64; signatures stand for themselves up to the opening bracket -/
def world : World := World.init.run
  [.createNamespace 1 ['t', 'e', 's', 't'],
   .createMethod 2 ['g', 'r', 'e', 'e', 't', 'i', 'n', 'g', '(', 'c', ')'] true,
   .registerType 1, .createClass 2 ['P', 'o', 'i', 'n', 't', '2', 'D'] 1,
   .createConstructor 4 ['d', 'e', 'f', 'a', 'u', 'l', 't'] true, .createConstructor 4 ['c', 'o', 'p', 'y'] true,
   .createConstructor 4 ['m', 'o', 'v', 'e'] true, .createConstructor 4 ['i', 'i'] true,
   .createMethod 4 ['e', 'x', 't', 'e', 'n', 'd', '(', 'i', ')'] true,
   .createMethod 4 ['g', 'e', 't', 'A', 'r', 'e', 'a', '(', ')'] true,
   .createProperty 4 ['X'] true,
   .createMethod 4 ['r', 'e', 'f', '_', 'Y', '(', ')'] true,
   .createMethod 4 ['c', 'o', 'n', 's', 't', '_', 'r', 'e', 'f', '_', 'Y', '(', ')'] true]

/-- the invokers of the methods -/
def fn (p : Ptr) : Fn :=
  if p = 3 then ⟨none, false, [⟨.none, Global.ptr cchar⟩], none⟩
  else if p = 8 then ⟨none, false, [⟨.none, int⟩, ⟨.none, int⟩], some ⟨.none, obj Point2D⟩⟩
  else if p = 9 then ⟨some Point2D, false, [⟨.none, int⟩], none⟩
  else if p = 10 then ⟨some Point2D, true, [], some ⟨.none, int⟩⟩
  else if p = 12 then ⟨some Point2D, false, [], some ⟨.lref, int⟩⟩
  else if p = 13 then ⟨some Point2D, true, [], some ⟨.lref, cobj (basic 10 4 .integral)⟩⟩
  else ⟨none, false, [], some ⟨.none, obj Point2D⟩⟩

/-- `getX`, `setX` -/
def x : Property := .accessor Point2D ⟨some Point2D, true, [], some ⟨.none, int⟩⟩ ⟨some Point2D, false, [⟨.none, int⟩], none⟩
def prop (_ : Ptr) : Property := x

/-- `test::Point2D point(5, 8)` at 2000; the pointer to it in the storage at 100. No class information is declared, no
    converter registered. -/
def env : Env := { Global.env with w := world, conv := fun _ _ => none }

/- 69-75: `getNamespace("test")->getMethod("greeting")`; `invoke("World!")` gives the function the address of the literal -/
example : world.getItem 1 .nmspace ['t', 'e', 's', 't'] = .val (some 2) ∧
    world.getMethod 2 ['g', 'r', 'e', 'e', 't', 'i', 'n', 'g'] = .val (some 3) ∧
    staticInvoke { env with load := fun a => if a = 700 then 800 else 0 } noVariants (fn 3) [makeArg 700 (lv (.arr 7 cchar) 800)] =
      .ok (.called none [.value (.copyOf 700)]) := by decide +kernel

/- 78: `getClass("Point2D")` -/
example : world.getItem 2 .cls ['P', 'o', 'i', 'n', 't', '2', 'D'] = .val (some 4) ∧
    world.getProperty 4 ['X'] = .val (some 11) ∧
    world.getMethod 4 ['e', 'x', 't', 'e', 'n', 'd'] = .val (some 9) ∧
    world.getMethod 4 ['g', 'e', 't', 'A', 'r', 'e', 'a'] = .val (some 10) ∧
    world.getMethod 4 ['c', 'o', 'n', 's', 't', '_', 'r', 'e', 'f', '_', 'Y'] = .val (some 13) := by decide +kernel

/-- the variant made of `&point`, its storage at 100 -/
def point : Vnt := ⟨some ⟨false, Global.ptr (obj Point2D)⟩, 100, 2000⟩
/-- `invoke(&point, ...)`: a temporary -/
def inst : Inst := ⟨true, point, makeArg 700 (rv (Global.ptr (obj Point2D)) 100)⟩

/- 85-88: the getter runs on the point -/
example : x.get env noVariants (some point) = .ok (.result (.called (some (.at 2000)) [])) := by decide +kernel
/- 94-100: `const_ref_Y` runs on the point, the variant refers to what it returned -/
example : methodInvoke env noVariants (fn 13) inst [] = .ok (.called (some (.at 2000)) []) ∧
    (fn 13).returns noVariants = .holds ⟨true, cobj (basic 10 4 .integral)⟩ ∧
    to env ⟨some ⟨true, cobj (basic 10 4 .integral)⟩, 300, 2004⟩ false int = .ok (.copyOf 2004) := by decide +kernel
/- 103-106: `extend` with 2 -/
example : methodInvoke env noVariants (fn 9) inst [makeArg 700 (rv int 400)] =
    .ok (.called (some (.at 2000)) [.value (.copyOf 400)]) ∧ (fn 9).returns noVariants = .empty := by decide +kernel
/- 109-122: the area -/
example : methodInvoke env noVariants (fn 10) inst [] = .ok (.called (some (.at 2000)) []) ∧
    (fn 10).returns noVariants = .holds ⟨false, int⟩ ∧
    to env ⟨some ⟨false, int⟩, 300, 0⟩ false int = .ok (.copyOf 300) := by decide +kernel

/-- 127, 148: the variant a constructor returns; two `int`s fit into its storage at 2000 -/
def made : Vnt := ⟨some ⟨false, obj Point2D⟩, 2000, 0⟩
def vInst : Inst := ⟨false, made, makeArg 700 (lv v 2000)⟩

/- 127, 148: the default constructor, `getConstructor<int, int>()` with 3 and 8 -/
example : world.getItem 4 .constructor ['d', 'e', 'f', 'a', 'u', 'l', 't'] = .val (some 5) ∧
    staticInvoke env noVariants (fn 5) [] = .ok (.called none []) ∧
    world.getItem 4 .constructor ['i', 'i'] = .val (some 8) ∧
    staticInvoke env noVariants (fn 8) [makeArg 700 (rv int 400), makeArg 710 (rv int 404)] =
      .ok (.called none [.value (.copyOf 400), .value (.copyOf 404)]) ∧
    (fn 8).returns noVariants = .holds ⟨false, obj Point2D⟩ := by decide +kernel
/- 130, 150: `ref<Point2D>()` is the object in the variant -/
example : reference env made .ref (obj Point2D) = .ok 2000 := by decide +kernel
/- 135-140, 153-171: by name; every access is to that same object -/
example : getNamed env noVariants prop made ['X'] = .ok (.result (.called (some (.at 2000)) [])) ∧
    invokeNamed env noVariants fn vInst ['c', 'o', 'n', 's', 't', '_', 'r', 'e', 'f', '_', 'Y'] [] = .ok (.called (some (.at 2000)) []) ∧
    invokeNamed env noVariants fn vInst ['g', 'e', 't', 'A', 'r', 'e', 'a'] [] = .ok (.called (some (.at 2000)) []) ∧
    invokeNamed env noVariants fn vInst ['e', 'x', 't', 'e', 'n', 'd'] [makeArg 700 (rv int 400)] =
      .ok (.called (some (.at 2000)) [.value (.copyOf 400)]) := by decide +kernel
/- not in the tutorial: `extend` through a const variant is refused, and so is a name the class does not have -/
example : invokeNamed env noVariants fn { vInst with isConst := true } ['e', 'x', 't', 'e', 'n', 'd'] [makeArg 700 (rv int 400)] =
      .throw .badVariantCast ∧
    invokeNamed env noVariants fn vInst ['s', 'h', 'r', 'i', 'n', 'k'] [] = .throw .runtimeError := by decide +kernel

end Rtti.Tests.Tutorial
