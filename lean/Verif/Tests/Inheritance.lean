import Verif.Model.Invoke
import Verif.Model.MetaCast
import Verif.Lemmas.Define
/-
The library's own tests, transcribed: /repo/tests/test_single_inheritance.cpp, test_multiple_inheritance.cpp,
test_virtual_inheritance.cpp. Each `example` is one test case run on the model with the answer the test demands. They
are evidence that the model does what the library does; no property rests on them.
-/
set_option autoImplicit false
namespace Rtti.Tests
open Rtti Val Spec World

def traits : Traits := ⟨true, true, true, true, true, true, true, true, true, true, true⟩

/-- `REQUIRE_THROWS_AS(..., rtti::bad_variant_cast)`: `bad_variant_convert` is derived from it (metaerror.h:59-69) -/
def throwsCast {A : Type} : Ret A → Bool
  | .throw .badVariantCast => true
  | .throw .badVariantConvert => true
  | _ => false

namespace Single

/-- the types 1 to 7: BaseA, SingleA1, SingleA2, SingleA22, SingleA3, SingleA33, SingleA4 -/
def world : World := World.init.run
  [.registerType 1, .registerType 2, .registerType 3, .registerType 4, .registerType 5, .registerType 6, .registerType 7,
   .createNamespace 1 ['t', 'e', 's', 't'],
   .createClass 2 ['B', 'a', 's', 'e', 'A'] 1, .createClass 2 ['S', 'i', 'n', 'g', 'l', 'e', 'A', '1'] 2, .addBase 4 1 id,
   .createClass 2 ['S', 'i', 'n', 'g', 'l', 'e', 'A', '2'] 3, .addBase 5 2 id, .createClass 2 ['S', 'i', 'n', 'g', 'l', 'e', 'A', '2', '2'] 4, .addBase 6 2 id,
   .createClass 2 ['S', 'i', 'n', 'g', 'l', 'e', 'A', '3'] 5, .addBase 7 3 id, .createClass 2 ['S', 'i', 'n', 'g', 'l', 'e', 'A', '3', '3'] 6, .addBase 8 3 id,
   .createClass 2 ['S', 'i', 'n', 'g', 'l', 'e', 'A', '4'] 7, .addBase 9 5 id]

def cls (id size : Nat) : Base := ⟨id, .cls, size, traits⟩
def BaseA := cls 1 16
def SingleA1 := cls 2 16
def SingleA2 := cls 3 24
def SingleA22 := cls 4 24
def SingleA3 := cls 5 56
def SingleA33 := cls 6 56
def SingleA4 := cls 7 64

/-- every class declares its class information -/
def ov : MetaCast.Overrider := fun t => (t, id)

/-- `SingleA3 derived` at 1000 -/
def derived : MetaCast.Obj := ⟨1000, 5, 1000⟩

/- SUBCASE("Up-Casting"), through `SingleA3 *` -/
example : [1, 2, 3, 5, 4, 6].map (fun t => (MetaCast.mutPtr ov true t 5 world (some derived)).2) =
    [.val 1000, .val 1000, .val 1000, .val 1000, .val 0, .val 0] := by decide +kernel
example : [1, 2, 3, 5, 4, 6].map (fun t => (MetaCast.mutRef ov true t 5 world derived).2) =
    [.ok 1000, .ok 1000, .ok 1000, .ok 1000, .throw .badMetaCast, .throw .badMetaCast] := by decide +kernel
/- SUBCASE("Down-Casting"), through `BaseA *` -/
example : [1, 2, 3, 5, 4, 6, 7].map (fun t => (MetaCast.mutPtr ov true t 1 world (some derived)).2) =
    [.val 1000, .val 1000, .val 1000, .val 1000, .val 0, .val 0, .val 0] := by decide +kernel
example : [1, 2, 3, 5, 4, 6, 7].map (fun t => (MetaCast.mutRef ov true t 1 world derived).2) =
    [.ok 1000, .ok 1000, .ok 1000, .ok 1000, .throw .badMetaCast, .throw .badMetaCast, .throw .badMetaCast] := by decide +kernel

/-- `derived` at 1000, `SingleA22 temp` at 2000; the pointers `ptr2base` at 1100, `const_ptr2base` at 1108, and temporary
    pointers `&derived` at 1200, `&temp` at 1208 -/
def env : Env where
  w := world
  tid b := b.id
  info _ := true
  dyn _ a := if a = 2000 then (4, a) else (5, a)
  load a := if a = 1208 then 2000 else 1000
  conv _ _ := none
  copyThrows _ _ := false

def obj (b : Base) : CType := .base b ⟨false, false⟩
def cobj (b : Base) : CType := .base b ⟨true, false⟩
def ptr (t : CType) : CType := .ptr ⟨false, false⟩ t

/-- `SUBCASE("Variant transformation")`: the object made by the default constructor, on the heap at 1000 -/
def inst : Vnt := ⟨some ⟨false, obj SingleA3⟩, 500, 1000⟩
example : (world.getItem 1 .nmspace ['t', 'e', 's', 't'] = .val (some 2) ∧ world.getItem 2 .cls ['S', 'i', 'n', 'g', 'l', 'e', 'A', '3'] = .val (some 7)) ∧
    [BaseA, SingleA1, SingleA2, SingleA3, SingleA22, SingleA33, SingleA4].map (fun b => is env inst false ⟨.none, obj b⟩) =
    [.ok true, .ok true, .ok true, .ok true, .ok false, .ok false, .ok false] := by decide +kernel

/-! SUBCASE("Param transformation"). The variants of the tests are at 3000 (v1), 3100 (v11), 3200 (v2), 3300 (v22); their
storage is at the same address. -/

def vt : Base := ⟨99, .cls, 24, traits⟩

/-- the variants holding pointers: `const_ptr2base`, `std::ref(const_ptr2base)`, `ptr2base`, `std::ref(ptr2base)` and the
    temporary `variant(&derived)` at 3400 -/
def ptrs : Nest := ⟨vt, fun a =>
  if a = 3000 then ⟨some ⟨false, ptr (cobj BaseA)⟩, 3000, 1000⟩
  else if a = 3100 then ⟨some ⟨true, ptr (cobj BaseA)⟩, 3100, 1108⟩
  else if a = 3200 then ⟨some ⟨false, ptr (obj BaseA)⟩, 3200, 1000⟩
  else if a = 3300 then ⟨some ⟨true, ptr (obj BaseA)⟩, 3300, 1100⟩
  else ⟨some ⟨false, ptr (obj SingleA3)⟩, 3400, 1000⟩⟩

/-- the variants holding references: `std::ref(derived)`, `std::ref(const_derived)`, `std::ref(ref2base)`,
    `std::ref(const_ref2base)` and the temporary `variant(derived)`, its object at 4000 -/
def refs : Nest := ⟨vt, fun a =>
  if a = 3000 then ⟨some ⟨true, obj SingleA3⟩, 3000, 1000⟩
  else if a = 3100 then ⟨some ⟨true, cobj SingleA3⟩, 3100, 1000⟩
  else if a = 3200 then ⟨some ⟨true, obj BaseA⟩, 3200, 1000⟩
  else if a = 3300 then ⟨some ⟨true, cobj BaseA⟩, 3300, 1000⟩
  else ⟨some ⟨false, obj SingleA3⟩, 3400, 4000⟩⟩

/-- `method->invoke(e)` for a function with one parameter -/
def call (N : Nest) (p : RType) (e : Expr) : Ret Did := staticInvoke env N ⟨none, false, [p], none⟩ [makeArg 700 e]

def lv (t : CType) (x : Addr) : Expr := .obj true t x
def rv (t : CType) (x : Addr) : Expr := .obj false t x
def toPtr (p : Addr) : Ret Did := .ok (.called none [.value (.pointer p)])
def toRef (a : Addr) : Ret Did := .ok (.called none [.object a])

/- "Pass as pointer to const base": `SingleA2 const *` -/
example : let f := call ptrs ⟨.none, ptr (cobj SingleA2)⟩
    [f (rv (ptr (obj SingleA3)) 1200), f (rv (obj vt) 3400), f (rv (ptr (cobj SingleA3)) 1200), f (lv (ptr (obj BaseA)) 1100),
      f (lv (ptr (cobj BaseA)) 1108), f (rv (ptr (obj BaseA)) 1200), f (rv (ptr (cobj BaseA)) 1200),
      f (lv (obj vt) 3000), f (lv (obj vt) 3100), f (lv (obj vt) 3200), f (lv (obj vt) 3300)] =
        List.replicate 11 (toPtr 1000) ∧
    throwsCast (f (lv (obj SingleA3) 1000)) ∧ throwsCast (f (rv (ptr (obj SingleA22)) 1208)) := by decide +kernel

/- "Pass as pointer to base": `SingleA2 *` -/
example : let f := call ptrs ⟨.none, ptr (obj SingleA2)⟩
    [f (rv (ptr (obj SingleA3)) 1200), f (rv (obj vt) 3400), f (lv (ptr (obj BaseA)) 1100), f (rv (ptr (obj BaseA)) 1200),
      f (lv (obj vt) 3200), f (lv (obj vt) 3300)] = List.replicate 6 (toPtr 1000) ∧
    throwsCast (f (rv (ptr (cobj SingleA3)) 1200)) ∧ throwsCast (f (lv (ptr (cobj BaseA)) 1108)) ∧
    throwsCast (f (rv (ptr (cobj BaseA)) 1200)) ∧ throwsCast (f (lv (obj vt) 3000)) ∧
    throwsCast (f (lv (obj vt) 3100)) := by decide +kernel

/- "Pass as reference to const base": `SingleA2 const &` -/
example : let f := call refs ⟨.lref, cobj SingleA2⟩
    [f (lv (obj SingleA3) 1000), f (lv (cobj SingleA3) 1000), f (lv (obj BaseA) 1000), f (lv (cobj BaseA) 1000),
      f (lv (obj vt) 3000), f (lv (obj vt) 3100), f (lv (obj vt) 3200), f (lv (obj vt) 3300)] =
        List.replicate 8 (toRef 1000) ∧
    f (rv (obj vt) 3400) = toRef 4000 ∧
    throwsCast (f (lv (ptr (obj BaseA)) 1100)) ∧ throwsCast (f (lv (ptr (cobj BaseA)) 1108)) := by decide +kernel

/- "Pass as reference to base": `SingleA2 &` -/
example : let f := call refs ⟨.lref, obj SingleA2⟩
    [f (lv (obj SingleA3) 1000), f (lv (obj BaseA) 1000), f (lv (obj vt) 3200)] = List.replicate 3 (toRef 1000) ∧
    throwsCast (f (rv (obj vt) 3400)) ∧ throwsCast (f (lv (cobj SingleA3) 1000)) ∧ throwsCast (f (lv (cobj BaseA) 1000)) ∧
    throwsCast (f (lv (obj vt) 3100)) ∧ throwsCast (f (lv (obj vt) 3300)) := by decide +kernel

end Single

namespace Multiple

/-- the types 1 to 9: BaseZ, BaseY, BaseX, DerivedZ1, DerivedY1, DerivedX1, DerivedZY2, DerivedZY2BX3, DerivedZY2X3 -/
def world : World := World.init.run
  [.registerType 1, .registerType 2, .registerType 3, .registerType 4, .registerType 5, .registerType 6, .registerType 7,
   .registerType 8, .registerType 9, .createNamespace 1 ['t', 'e', 's', 't'],
   .createClass 2 ['B', 'a', 's', 'e', 'Z'] 1, .createClass 2 ['B', 'a', 's', 'e', 'Y'] 2, .createClass 2 ['B', 'a', 's', 'e', 'X'] 3,
   .createClass 2 ['D', 'e', 'r', 'i', 'v', 'e', 'd', 'Z', '1'] 4, .addBase 6 1 id, .createClass 2 ['D', 'e', 'r', 'i', 'v', 'e', 'd', 'Y', '1'] 5, .addBase 7 2 id,
   .createClass 2 ['D', 'e', 'r', 'i', 'v', 'e', 'd', 'X', '1'] 6, .addBase 8 3 id,
   .createClass 2 ['D', 'e', 'r', 'i', 'v', 'e', 'd', 'Z', 'Y', '2'] 7, .addBase 9 4 id, .addBase 9 5 (· + 24),
   .createClass 2 ['D', 'e', 'r', 'i', 'v', 'e', 'd', 'Z', 'Y', '2', 'B', 'X', '3'] 8, .addBase 10 7 id, .addBase 10 3 (· + 80),
   .createClass 2 ['D', 'e', 'r', 'i', 'v', 'e', 'd', 'Z', 'Y', '2', 'X', '3'] 9, .addBase 11 7 id, .addBase 11 6 (· + 80)]

/-- `classInfo` is ambiguous in `DerivedZY2BX3`, so that class has no such member -/
def env : Env where
  w := world
  tid b := b.id
  info b := decide (b.id < 8)
  dyn b a := (b.id, a)
  load _ := 0
  conv _ _ := none
  copyThrows _ _ := false

def obj (id : Nat) : CType := .base ⟨id, .cls, 32, traits⟩ ⟨false, false⟩

/- SUBCASE("Variant transformation") -/
example : let v : Vnt := ⟨some ⟨false, .base ⟨8, .cls, 104, traits⟩ ⟨false, false⟩⟩, 500, 1000⟩
    world.getItem 2 .cls ['D', 'e', 'r', 'i', 'v', 'e', 'd', 'Z', 'Y', '2', 'B', 'X', '3'] = .val (some 10) ∧
    [3, 2, 1, 4, 5, 7, 6].map (fun i => is env v false ⟨.none, obj i⟩) =
      [.ok true, .ok true, .ok true, .ok true, .ok true, .ok true, .ok false] ∧
    [7, 4, 5, 2, 3].map (fun i => reference env v .ref (obj i)) =
      [.ok 1000, .ok 1000, .ok 1024, .ok 1024, .ok 1080] := by decide +kernel

end Multiple

namespace Virtual

/-- the types 1 to 4: DiamondTop, DiamondLeft, DiamondRight, DiamondBottom; the virtual base is behind the others -/
def world : World := World.init.run
  [.registerType 1, .registerType 2, .registerType 3, .registerType 4, .createNamespace 1 ['t', 'e', 's', 't'],
   .createClass 2 ['D', 'i', 'a', 'm', 'o', 'n', 'd', 'T', 'o', 'p'] 1, .createClass 2 ['D', 'i', 'a', 'm', 'o', 'n', 'd', 'L', 'e', 'f', 't'] 2, .addBase 4 1 (· + 80),
   .createClass 2 ['D', 'i', 'a', 'm', 'o', 'n', 'd', 'R', 'i', 'g', 'h', 't'] 3, .addBase 5 1 (· + 64),
   .createClass 2 ['D', 'i', 'a', 'm', 'o', 'n', 'd', 'B', 'o', 't', 't', 'o', 'm'] 4, .addBase 6 2 id, .addBase 6 3 (· + 16)]

def ov : MetaCast.Overrider := fun t => (t, id)

/- SUBCASE("Up-Casting") -/
example : [2, 3, 1].map (fun t => (MetaCast.mutPtr ov true t 4 world (some ⟨1000, 4, 1000⟩)).2) = [.val 1000, .val 1016, .val 1080] ∧
    [2, 3, 1].map (fun t => (MetaCast.mutRef ov true t 4 world ⟨1000, 4, 1000⟩).2) = [.ok 1000, .ok 1016, .ok 1080] := by decide +kernel
/- SUBCASE("Down-Casting"), through the virtual base at 1080 -/
example : [2, 3, 4].map (fun t => (MetaCast.mutPtr ov true t 1 world (some ⟨1080, 4, 1000⟩)).2) = [.val 1000, .val 1016, .val 1000] ∧
    [2, 3, 4].map (fun t => (MetaCast.mutRef ov true t 1 world ⟨1080, 4, 1000⟩).2) = [.ok 1000, .ok 1016, .ok 1000] := by decide +kernel

/- SUBCASE("Variant transformation") -/
example : let E : Env := ⟨world, Base.id, fun _ => true, fun b a => (b.id, a), fun _ => 0, fun _ _ => none, fun _ _ => false⟩
    [4, 2, 3, 1].map (fun i => is E ⟨some ⟨false, .base ⟨4, .cls, 96, traits⟩ ⟨false, false⟩⟩, 500, 1000⟩ false
      ⟨.none, .base ⟨i, .cls, 32, traits⟩ ⟨false, false⟩⟩) = List.replicate 4 (.ok true) := by decide +kernel

end Virtual
end Rtti.Tests
