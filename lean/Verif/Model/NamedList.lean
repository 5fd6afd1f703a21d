import Verif.Model.Basic
/-
`internal::NamedVariantList`: the store behind attributes and enum elements.
  /repo/src/private/metaitem_p.h:13-81, /repo/src/metaitem.cpp:13-39,
  /repo/src/metaitem.cpp:98-149 (attributes), /repo/src/metaenum.cpp:25-70 (enum elements).
The vector of `unique_ptr<named_variant>` is a list of pairs; the `unordered_map` from names to
positions is a partial function (hash-table internals are not modelled). Locks are not modelled:
every member function is one critical section.
-/
namespace Rtti

/-- /repo/src/private/metaitem_p.h:28-50. `V` stands for `variant`. -/
structure NamedList (V : Type) where
  items : List (Str × V)
  names : Str → Option Nat

namespace NamedList
variable {V : Type}

/-- default construction -/
def empty : NamedList V := ⟨[], fun _ => none⟩

/-- /repo/src/private/metaitem_p.h:53-70. `none` models `std::out_of_range` thrown by
    `m_items.at(index)` (line 67). -/
def set (l : NamedList V) (name : Str) (value : V) : Option (NamedList V) :=
  if name = [] then some l
  else match l.names name with
    | none =>
      let items := l.items ++ [(name, value)]
      some ⟨items, fun n => if n = name then some (items.length - 1) else l.names n⟩
    | some index =>
      match l.items[index]? with
      | none => none
      | some item => some { l with items := l.items.set index (item.1, value) }

/-- /repo/src/private/metaitem_p.h:37-41 -/
def size (l : NamedList V) : Nat := l.items.length

/-- /repo/src/metaitem.cpp:13-19; `emptyV` is `variant::empty_variant`. -/
def getAt (emptyV : V) (l : NamedList V) (index : Nat) : V :=
  if h : index < l.items.length then (l.items[index]'h).2 else emptyV

/-- /repo/src/metaitem.cpp:21-31 -/
def get (emptyV : V) (l : NamedList V) (name : Str) : V :=
  if name = [] then emptyV
  else match l.names name with
    | none => emptyV
    | some index => if h : index < l.items.length then (l.items[index]'h).2 else emptyV

/-- /repo/src/metaitem.cpp:33-39 -/
def nameAt (l : NamedList V) (index : Nat) : Str :=
  if h : index < l.items.length then (l.items[index]'h).1 else []

/-- `for_each_attribute` / `for_each_element` (/repo/src/metaitem.cpp:126-137,
    /repo/src/metaenum.cpp:60-70): an empty `std::function` visits nothing. -/
def forEachItem {S : Type} (l : NamedList V) (func : Option (Callback S (Str × V))) (s : S) : S :=
  match func with
  | none => s
  | some f => forEach f s l.items

/-- a history of `setAttribute` / `addElement` calls -/
def run (l : NamedList V) : List (Str × V) → Option (NamedList V)
  | [] => some l
  | (n, v) :: h => match l.set n v with
    | none => none
    | some l' => l'.run h

end NamedList
end Rtti
