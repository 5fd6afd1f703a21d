import Verif.Tests.Inheritance
import Verif.Model.Registry
/-
The library's own tests, transcribed: /repo/tests/test_meta_type.cpp. Each `example` is one test case run on the model
with the answer the test demands. They are evidence that the model does what the library does; no property rests on them.
-/
set_option autoImplicit false
namespace Rtti.Tests.MetaType
open Rtti

def basic (id size : Nat) (k : Kind) : CType := .base ⟨id, k, size, traits⟩ ⟨false, false⟩
def ptr (t : CType) : CType := .ptr ⟨false, false⟩ t
def longDouble : RType := ⟨.none, basic 1 16 .floating⟩
def chars : RType := ⟨.none, .arr 256 (.base ⟨2, .integral, 1, traits⟩ ⟨true, false⟩)⟩
def string : RType := ⟨.none, basic 3 32 .cls⟩
def void : CType := basic 4 0 .void
def deep : RType := ⟨.lref, ptr (ptr (ptr (ptr (ptr void))))⟩

/-- some naming that tells these types (and what they decay to) apart -/
def name (T : RType) : Str :=
  if T = longDouble then ['d'] else if T = chars then ['c', 'a'] else if T = string then ['s']
  else if T = deep then ['v', '&'] else if T = ⟨.none, deep.t⟩ then ['v'] else ['c']

/-- the ids of the four types and the registry after each registration -/
def step1 := Reg.init.metaTypeId name longDouble
def step2 := step1.1.metaTypeId name chars
def step3 := step2.1.metaTypeId name string
def step4 := step3.1.metaTypeId name deep

/- TEST_CASE("Find metatype by type name"): `MetaType{type_name<T>()}.typeId() == metaTypeId<T>()`; a type is not found
   until it is registered -/
example : (step1.1.ofName (name longDouble)).2 = step1.2 ∧ (step2.1.ofName (name chars)).2 = step2.2 ∧
    (step3.1.ofName (name string)).2 = step3.2 ∧
    (step3.1.ofName (name deep)).2 = 0 ∧ (step3.1.observe 0).bind (fun o => .val o.valid) = .val false ∧
    (step4.1.ofName (name deep)).2 = step4.2 ∧ (step4.1.observe step4.2).bind (fun o => .val o.valid) = .val true := by
  decide +kernel

/-- `metaType<T>().typeSize()` -/
def size (T : RType) : Res Nat :=
  let p := Reg.init.metaTypeId (fun _ => ['t']) T
  (p.1.observe p.2).bind fun o => .val o.desc.size

/- TEST_CASE("Test type size") -/
example : [⟨.none, void⟩, ⟨.none, basic 5 1 .integral⟩, ⟨.none, basic 6 2 .integral⟩, ⟨.none, basic 7 4 .integral⟩,
      ⟨.none, basic 8 8 .integral⟩, ⟨.none, ptr (basic 9 0 .func)⟩, ⟨.none, ptr void⟩].map size =
    [.val 0, .val 1, .val 2, .val 4, .val 8, .val 8, .val 8] := by decide +kernel

end Rtti.Tests.MetaType
