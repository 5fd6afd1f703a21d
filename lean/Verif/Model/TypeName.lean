import Verif.Model.World
/-
`internal::TypeName<T>`, /repo/include/rtti/typename.h:11-31: the name of a type cut out of
`__PRETTY_FUNCTION__`; and the two shapes of that text.
-/
set_option autoImplicit false
namespace Rtti.TypeName

/-- `std::strstr`: the rest of `s` from the first occurrence of `pat` (which is not empty) -/
def strstr (pat : Str) : Str → Option Str
  | [] => none
  | c :: s => if pat.isPrefixOf (c :: s) then some (c :: s) else strstr pat s

/-- `std::strrchr`, as the number of characters before the last occurrence of `c` -/
def strrchr (c : Char) : Str → Option Nat
  | [] => none
  | a :: s =>
    match strrchr c s with
    | some n => some (n + 1)
    | none => if a = c then some 0 else none

def pat : Str := ['T', ' ', '=']

/-- the constructor, typename.h:15-24: `m_signature` is empty if a search fails. `begin += sizeof("T =")`
    skips 4 characters; if fewer follow before the terminator, `strrchr` reads outside the text. -/
def signature (pretty : Str) : Res Str :=
  match strstr pat pretty with
  | none => .val []
  | some b =>
    if b.length < 4 then .ub
    else
      match strrchr ']' (b.drop 4) with
      | none => .val []
      | some n => .val ((b.drop 4).take n)

/-- the text GCC gives for the type spelled `s` -/
def gcc (s : Str) : Str := "rtti::internal::TypeName<T>::TypeName() [with T = ".toList ++ s ++ [']']

/-- the text Clang gives for the type spelled `s` -/
def clang (s : Str) : Str :=
  "rtti::internal::TypeName<".toList ++ s ++ (">::TypeName() [T = ".toList ++ s ++ [']'])

end Rtti.TypeName
