import Verif.Model.Lazy
/-
The library's own tests, transcribed: /repo/tests/test_std_ns.cpp with /repo/tests/register_std_rtti.cpp: a class whose
members are defined by `_lazy`. They are evidence that the model does what the library does; no property rests on them.
-/
set_option autoImplicit false
namespace Rtti.Tests.StdNs
open Rtti Lazy

def vectorInt : Str := ['v', 'e', 'c', 't', 'o', 'r', '<', 'i', 'n', 't', '>']
def initList : Str := ['i', 'n', 'i', 't', '_', 'l', 'i', 's', 't']

/-- the namespace (2), the class (3, its type is 1) and the definition of its members: two constructors and a method -/
def register : List Cmd :=
  [.op (.registerType 1), .op (.createNamespace 1 ['s', 't', 'd']), .op (.createClass 2 vectorInt 1),
   .install 3 [.op (.createConstructor 3 ['s', 'i', 'z', 'e'] true), .op (.createConstructor 3 initList true),
     .op (.createMethod 3 ['s', 'i', 'z', 'e', '(', ')'] true)]]

/- `getNamespace("std")->getClass("vector<int>")->getConstructor("init_list")`: nothing was defined before the last query -/
example : (run 9 (register ++ [.query (.item 1 .nmspace ['s', 't', 'd']), .query (.item 2 .cls vectorInt),
      .query (.constructor 3 initList)]) init).2 =
    .val [.ptr none, .ptr (some 2), .ptr (some 3), .unit, .ptr (some 2), .ptr (some 3), .ptr (some 5)] ∧
    (run 9 (register ++ [.query (.item 2 .cls vectorInt)]) init).1.w.next = 4 := by decide +kernel

end Rtti.Tests.StdNs
