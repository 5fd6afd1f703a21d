import Verif.Tests.Inheritance
import Verif.Model.Equal
import Verif.Model.NamedList
/-
The library's own tests, transcribed: /repo/tests/test_global_ns.cpp with /repo/tests/register_global_rtti.cpp. Each
`example` is one test case run on the model with the answer the test demands. They are evidence that the model does what
the library does; no property rests on them.
-/
set_option autoImplicit false
namespace Rtti.Tests.Global
open Rtti Val Spec World

def basic (id size : Nat) (k : Kind) : Base := ⟨id, k, size, traits⟩
def obj (b : Base) : CType := .base b ⟨false, false⟩
def cobj (b : Base) : CType := .base b ⟨true, false⟩
def int := obj (basic 10 4 .integral)
def bool := obj (basic 11 1 .integral)
def char := obj (basic 12 1 .integral)
def cchar := cobj (basic 12 1 .integral)
def double := obj (basic 13 8 .floating)
def long := obj (basic 14 8 .integral)
def string := obj (basic 15 32 .cls)
def cstring := cobj (basic 15 32 .cls)
def view := obj (basic 16 16 .cls)
def vt : Base := basic 99 24 .cls
def ptr (t : CType) : CType := .ptr ⟨false, false⟩ t

/-- the classes of register_std_rtti.cpp the tests meet -/
def world : World := World.init.run
  [.registerType 15, .createNamespace 1 ['s', 't', 'd'], .createClass 2 ['s', 't', 'r', 'i', 'n', 'g'] 15]

/-- the converters of register_global_rtti.cpp: `char*` to `std::string` (1), to `std::string_view` (2), `int` to
    `std::string` (3) and back (4, with the flag; it fails for the strings at 901 and 5000), `int` to `long` (5), `double`
    to `std::string` (6) -/
def conv (s t : CType) : Option Conv :=
  if s = ptr char ∧ t = string then some ⟨1, .functor, fun _ => .returns false false⟩
  else if s = ptr char ∧ t = view then some ⟨2, .functor, fun _ => .returns false false⟩
  else if s = int ∧ t = string then some ⟨3, .functor, fun _ => .returns false false⟩
  else if s = string ∧ t = int then some ⟨4, .functorOk, fun a => .returns (decide (a ≠ 901)) false⟩
  else if s = int ∧ t = long then some ⟨5, .functor, fun _ => .returns false false⟩
  else if s = double ∧ t = string then some ⟨6, .functor, fun _ => .returns false false⟩
  else none

def env : Env where
  w := world
  tid b := b.id
  info _ := false
  dyn _ _ := (0, 0)
  load a := if a = 100 then 2000 else 0
  conv := conv
  copyThrows _ _ := false

/-! SUBCASE("Test attributes"): `attribute()` gives a `variant const &` -/

/-- `attributeCount() == 6`, `attributeName(0)`, ... -/
def attrs : NamedList Nat :=
  [['D'], ['s'], ['b'], ['d'], ['i'], ['e']].foldl (fun l n => (l.set n l.items.length).getD l) NamedList.empty

example : attrs.size = 6 ∧ (List.range 6).map attrs.nameAt = [['D'], ['s'], ['b'], ['d'], ['i'], ['e']] ∧
    attrs.get 99 ['i'] = 4 := by decide +kernel

/-- two texts are equal when they are at the same place in a block of 1000; 256 is at 900, "256" at 902, "ABC" at 901 -/
def cmp : Cmp where
  eq b a c := if b.kind = .cls then some (decide (a = c)) else some (decide (a % 1000 = c % 1000))
  eqTmp _ x _ _ := some (decide (x = 902))
  byte a := a % 1000

/-- `_attribute("Description", "Global namespace")`: the array is on the heap at 2000 -/
def desc : Vnt := ⟨some ⟨false, .arr 17 cchar⟩, 100, 2000⟩
/- SUBCASE("C-string attribute"). The comparison is with another variant of the same text. -/
example : to env desc true string = .ok (.converted 1 100) ∧ to env desc true view = .ok (.converted 2 100) ∧
    equal env cmp desc ⟨some ⟨false, .arr 17 cchar⟩, 150, 3000⟩ = .ok true ∧
    throwsCast (reference env desc .refConst string) ∧
    reference env desc .refConst (ptr cchar) = .ok 100 ∧ env.load 100 = 2000 := by decide +kernel

/- SUBCASE("std::string attribute") -/
example : reference env ⟨some ⟨false, string⟩, 100, 2000⟩ .refConst string = .ok 2000 ∧
    equal env { cmp with eq := fun _ _ _ => some true } ⟨some ⟨false, string⟩, 100, 2000⟩ ⟨some ⟨false, string⟩, 150, 3000⟩ = .ok true := by
  decide +kernel
/- SUBCASE("Boolean attribute"), SUBCASE("Double attribute"): kept in place -/
example : reference env ⟨some ⟨false, bool⟩, 100, 0⟩ .refConst bool = .ok 100 ∧
    reference env ⟨some ⟨false, double⟩, 100, 0⟩ .refConst double = .ok 100 ∧
    equal env cmp ⟨some ⟨false, bool⟩, 1100, 0⟩ ⟨some ⟨false, bool⟩, 2100, 0⟩ = .ok true ∧
    equal env cmp ⟨some ⟨false, double⟩, 1100, 0⟩ ⟨some ⟨false, double⟩, 2100, 0⟩ = .ok true := by decide +kernel

/- SUBCASE("Integer attribute"), `v` with 256 at 900 -/
example : let v : Vnt := ⟨some ⟨false, int⟩, 900, 0⟩
    reference env v .refConst int = .ok 900 ∧ throwsCast (reference env v .refConst long) ∧
    to env v true long = .ok (.converted 5 900) ∧
    equal env cmp v ⟨some ⟨false, int⟩, 1900, 0⟩ = .ok true ∧
    equal env cmp v ⟨some ⟨false, string⟩, 1900, 902⟩ = .ok false ∧
    (eq env cmp v string 902).1 = .ok true ∧ (eq env cmp v string 901).1 = .ok false := by decide +kernel

/-! The properties; `g_string` at 600, `gro_string` at 640. -/

def noVariants : Nest := ⟨vt, fun _ => ⟨none, 0, 0⟩⟩
def gString : Property := .static string 600
def groString : Property := .static cstring 640

/-- the variant `get()` returns, with its storage at 50 -/
def gotVnt (r : Ret Got) : Option Vnt :=
  match r with
  | .ok (.ref t ⟨.at a, off⟩) => some ⟨some ⟨true, t⟩, 50, a + off⟩
  | _ => none

/- SUBCASE("Test global string property"): the accessors are called on a temporary variant -/
example : ∃ v, gotVnt (gString.get env noVariants none) = some v ∧ throwsCast (reference env v .rref string) ∧
    reference env v .refMoved string = .ok 600 ∧ reference env v .refMoved cstring = .ok 600 ∧
    reference env v .crefConst string = .ok 600 := ⟨⟨some ⟨true, cstring⟩, 50, 600⟩, by decide +kernel⟩
/- `property->set("Asdfg"); property->set("Qwerty"s);` -/
example : gString.set env noVariants none (makeArg 700 (.obj true (.arr 6 cchar) 800)) = .ok (.assigned ⟨.at 600, 0⟩ (.converted 1 700)) ∧
    gString.set env noVariants none (makeArg 700 (.obj false string 800)) = .ok (.assigned ⟨.at 600, 0⟩ (.copyOf 800)) := by decide +kernel

/- SUBCASE("Test global readonly string property") -/
example : ∃ v, gotVnt (groString.get env noVariants none) = some v ∧ reference env v .refMoved string = .ok 640 ∧
    throwsCast (reference env v .ref string) ∧ reference env v .cref string = .ok 640 ∧
    groString.set env noVariants none (makeArg 700 (.obj false string 800)) = .throw .invokeError := ⟨⟨some ⟨true, cstring⟩, 50, 640⟩, by decide +kernel⟩

/-! The functions. Arguments: numbers at 400, `bool ok` at 410, `bool const ok` at 420, strings at 430, arrays at 440, the
first argument's own storage is at 700, the second's at 710. Variants at 1000 and 1100. -/

/-- the variant `v` at 1000, the variant `w` at 1100 -/
def nest (v w : Vnt) : Nest := ⟨vt, fun a => if a = 1000 then v else w⟩

def invoke2 (p q : RType) (N : Nest) (e f : Expr) : Ret Did :=
  staticInvoke env N ⟨none, false, [p, q], none⟩ [makeArg 700 e, makeArg 710 f]
/-- `std::string intToStr(int, bool &)` -/
def intToStr := invoke2 ⟨.none, int⟩ ⟨.lref, bool⟩
/-- `int strToInt(std::string const &, bool &)` -/
def strToInt := invoke2 ⟨.lref, cstring⟩ ⟨.lref, bool⟩
def lv (t : CType) (x : Addr) : Expr := .obj true t x
def rv (t : CType) (x : Addr) : Expr := .obj false t x
def cv : CType := cobj vt
def v : CType := obj vt

/- [intToStr] "Test invoke 1", "Test invoke 3" -/
example : intToStr noVariants (rv int 400) (lv bool 410) = .ok (.called none [.value (.copyOf 400), .object 410]) := by decide +kernel
/- [intToStr] "Test invoke 2": variants of 123 and of `false`, both in place; `std::ref(i)`; `std::cref(i)` -/
example :
    intToStr (nest ⟨some ⟨false, int⟩, 1000, 0⟩ ⟨some ⟨false, bool⟩, 1100, 0⟩) (lv v 1000) (lv v 1100) =
      .ok (.called none [.value (.copyOf 1000), .object 1100]) ∧
    intToStr (nest ⟨some ⟨true, int⟩, 1000, 400⟩ ⟨some ⟨false, bool⟩, 1100, 0⟩) (lv v 1000) (lv v 1100) =
      .ok (.called none [.value (.copyOf 400), .object 1100]) ∧
    intToStr (nest ⟨some ⟨true, cobj (basic 10 4 .integral)⟩, 1000, 400⟩ ⟨some ⟨false, bool⟩, 1100, 0⟩) (lv v 1000) (lv v 1100) =
      .ok (.called none [.value (.copyOf 400), .object 1100]) := by decide +kernel
/- [intToStr] "Test invoke 4": `false`, `bool const`, `std::ref` of it, a const variant, `std::cref`; then texts and
   floating numbers for the `int` -/
example : let bool' := cobj (basic 11 1 .integral)
    throwsCast (intToStr noVariants (rv int 400) (rv bool 410)) ∧
    throwsCast (intToStr noVariants (rv int 400) (lv bool' 420)) ∧
    throwsCast (intToStr (nest ⟨some ⟨true, bool'⟩, 1000, 420⟩ ⟨none, 0, 0⟩) (rv int 400) (lv v 1000)) ∧
    throwsCast (intToStr (nest ⟨some ⟨false, bool⟩, 1000, 0⟩ ⟨none, 0, 0⟩) (rv int 400) (lv cv 1000)) ∧
    throwsCast (intToStr (nest ⟨some ⟨true, bool'⟩, 1000, 410⟩ ⟨none, 0, 0⟩) (rv int 400) (lv v 1000)) ∧
    throwsCast (intToStr noVariants (lv (.arr 4 cchar) 440) (lv bool 410)) ∧
    throwsCast (intToStr noVariants (rv double 400) (lv bool 410)) ∧
    throwsCast (intToStr (nest ⟨some ⟨false, double⟩, 1000, 0⟩ ⟨none, 0, 0⟩) (lv v 1000) (lv bool 410)) := by decide +kernel

/-- the string is converted from the `char *` in the storage at `a` -/
def converted (a : Addr) : Ret Did := .ok (.called none [.dummy (.converted 1 a), .object 410])
def direct (a : Addr) : Ret Did := .ok (.called none [.object a, .object 410])

/- [strToInt] 1 and 12: a literal; 2: a string; 6: `char const *`; 7: `char[5]`; 13: an `int` -/
example : let f := fun e => strToInt noVariants e (lv bool 410)
    f (lv (.arr 4 cchar) 440) = converted 700 ∧ f (rv string 430) = direct 430 ∧ f (lv (ptr cchar) 450) = converted 450 ∧
    f (lv (.arr 5 char) 440) = converted 700 ∧
    f (rv int 400) = .ok (.called none [.dummy (.converted 3 400), .object 410]) := by decide +kernel
/- [strToInt] 3: a variant of a literal; 4: of a string, on the heap at 2000; 5: a const variant of a literal; 8:
   `std::ref(str)`; 9: `std::cref(str)`; 10 and 11: temporary variants -/
example : let f := fun x e => strToInt (nest x ⟨none, 0, 0⟩) e (lv bool 410)
    f ⟨some ⟨false, .arr 5 cchar⟩, 1000, 2000⟩ (lv v 1000) = converted 1000 ∧
    f ⟨some ⟨false, string⟩, 1000, 2000⟩ (lv v 1000) = direct 2000 ∧
    f ⟨some ⟨false, .arr 5 cchar⟩, 1000, 2000⟩ (lv cv 1000) = converted 1000 ∧
    f ⟨some ⟨true, .arr 5 char⟩, 1000, 440⟩ (lv v 1000) = converted 1000 ∧
    f ⟨some ⟨true, .arr 5 cchar⟩, 1000, 440⟩ (lv v 1000) = converted 1000 ∧
    f ⟨some ⟨false, .arr 5 cchar⟩, 1000, 2000⟩ (rv v 1000) = converted 1000 ∧
    f ⟨some ⟨false, string⟩, 1000, 2000⟩ (rv v 1000) = direct 2000 := by decide +kernel

end Rtti.Tests.Global
