import Verif.Model.Registry
/-
Printing type flags: `flag_name`, `check_flag`, `operator<<(std::ostream&, TypeFlags)`,
/repo/src/metatype.cpp:457-557.
-/
set_option autoImplicit false
namespace Rtti.FlagNames

/-- `flag_names`, metatype.cpp:457-486 -/
def table : List String :=
  ["None", "Const", "Pointer", "MemberPointer", "LvalueReference", "RvalueReference", "Array", "Void", "Integral",
   "FloatPoint", "Enum", "Function", "Union", "Class", "StandardLayout", "Trivial", "Abstract", "Polymorphic",
   "DefaultConstructible", "CopyConstructible", "MoveConstructible", "MoveAssignable", "Destructible", "EQ_Comparable"]

/-- `flag_name`, metatype.cpp:488-491: the table is indexed by the *value* of the flag -/
def flagName (value : Nat) : Res String :=
  match table[value]? with
  | some s => .val s
  | none => .ub

/-- `check_flag`, metatype.cpp:493-496 -/
def checkFlag (value bit : Nat) : Bool := value &&& bit == bit

/-- the flags in the order of the `if`s, metatype.cpp:507-555 -/
def order : List Nat :=
  [Flag.LvalueReference, Flag.RvalueReference, Flag.Pointer, Flag.MemberPointer, Flag.Const, Flag.Array,
   Flag.Void, Flag.Integral, Flag.FloatPoint, Flag.Enum, Flag.Function, Flag.Union, Flag.Class,
   Flag.StandardLayout, Flag.Trivial, Flag.Abstract, Flag.Polymorphic,
   Flag.DefaultConstructible, Flag.CopyConstructible, Flag.MoveConstructible, Flag.MoveAssignable, Flag.Destructible,
   Flag.EQ_Comparable]

/-- the `if`s; the state is what was sent to the `prefix_ostream_iterator` so far -/
def pieces (value : Nat) : List Nat → List String → Res (List String)
  | [], out => .val out
  | f :: fs, out =>
    if checkFlag value f then (flagName f).bind fun s => pieces value fs (out ++ [s])
    else pieces value fs out

/-- `prefix_ostream_iterator` with prefix "|", /repo/include/rtti/signature.h:39-50; the state is
    (text written, first) -/
def write : String × Bool → List String → String × Bool
  | st, [] => st
  | (os, first), n :: ns => if first then write (os ++ n, false) ns else write (os ++ "|" ++ n, first) ns

/-- the names `operator<<` sends to the iterator, metatype.cpp:498-557 -/
def names (value : Nat) : Res (List String) :=
  if value = 0 then (flagName 0).bind fun s => .val [s]
  else pieces value order []

/-- `operator<<`, metatype.cpp:498-557: the text written -/
def print (value : Nat) : Res String := (names value).bind fun out => .val (write ("", true) out).1

/-- `operator<<(std::ostream&, MetaType)`, metatype.cpp:559-564, of the type behind a handle; the parts are written from left to
    right, and what was written before an undefined read is left out. The id is written in decimal (a fresh stream). -/
def printType (r : Reg) (h : Nat) : Reg × Res String :=
  let p := r.typeId h
  (p.1, (p.1.observe h).bind fun o => (print o.desc.flags).bind fun f =>
    .val ("ID: [" ++ toString p.2 ++ "], Name: [" ++ String.ofList o.name ++ "], Flags: [" ++ f ++ "]"))

end Rtti.FlagNames
