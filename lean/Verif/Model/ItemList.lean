import Verif.Model.Basic
/-
`internal::MetaItemList` and `MetaContainerPrivate`: the members of a namespace or class.
  /repo/src/private/metacontainer_p.h:12-80, /repo/src/metacontainer.cpp:21-126.
The vector of owning pointers is a list of (identity, name) pairs (a `MetaItem`'s name is immutable:
`m_name` is only set in the constructors, /repo/src/private/metaitem_p.h:95-102); the
`unordered_map` is a partial function; each member function is one critical section.
-/
namespace Rtti

/-- what `MetaItemList` observes of a `MetaItem` -/
structure Item where
  ptr : Ptr
  name : Str
deriving DecidableEq, Repr

/-- /repo/src/private/metacontainer_p.h:12-34 -/
structure ItemList where
  items : List Item
  names : Str → Option Nat

namespace ItemList

def empty : ItemList := ⟨[], fun _ => none⟩

/-- /repo/src/metacontainer.cpp:21-44; `none` for the argument is `nullptr`; the Boolean is the
    returned flag. -/
def add (l : ItemList) (value : Option Item) : ItemList × Bool :=
  match value with
  | none => (l, false)
  | some v =>
    let itemFound := l.items.any (fun it => v.ptr == it.ptr)
    let nameFound := (l.names v.name).isSome
    if !itemFound && !nameFound then
      let index := l.items.length
      (⟨l.items ++ [v], fun n => if n = v.name then some index else l.names n⟩, true)
    else (l, false)

/-- /repo/src/metacontainer.cpp:46-52 -/
def getAt (l : ItemList) (index : Nat) : Option Item :=
  if h : index < l.items.length then some (l.items[index]'h) else none

/-- /repo/src/metacontainer.cpp:54-65 -/
def get (l : ItemList) (name : Str) : Option Item :=
  if name = [] then none
  else match l.names name with
    | none => none
    | some index => if h : index < l.items.length then some (l.items[index]'h) else none

/-- /repo/src/metacontainer.cpp:67-71 -/
def size (l : ItemList) : Nat := l.items.length

/-- `for_each_class`, `for_each_method` (/repo/src/metacontainer.cpp:262-273, 338-349) -/
def forEachItem {S : Type} (l : ItemList) (func : Option (Callback S Item)) (s : S) : S :=
  match func with
  | none => s
  | some f => forEach f s l.items

/-- a history of additions, with the answers -/
def run (l : ItemList) : List (Option Item) → ItemList × List Bool
  | [] => (l, [])
  | v :: h =>
    let r := l.add v
    let r' := r.1.run h
    (r'.1, r.2 :: r'.2)

end ItemList

/-- `std::string::find('(')`, /repo/src/metacontainer.cpp:95 -/
def findParen : Str → Option Nat
  | [] => none
  | c :: cs => if c = '(' then some 0 else (findParen cs).map (· + 1)

/-- `s.compare(p1, l1, t, p2, l2) == 0` with `s : std::string`, `t : std::string_view`;
    `none` is `std::out_of_range` (position past the end). -/
def compareEq (s : Str) (p1 l1 : Nat) (t : Str) (p2 l2 : Nat) : Option Bool :=
  if p1 > s.length ∨ p2 > t.length then none
  else some (decide ((s.drop p1).take l1 = (t.drop p2).take l2))

/-- body of the lambda in `MetaContainerPrivate::findMethod`, /repo/src/metacontainer.cpp:93-123:
    `some true` = this is the item, `some false` = continue, `none` = an exception escapes. -/
def methodMatches (methodName name : Str) : Option Bool :=
  match findParen methodName with
  | some pos =>
    let length := min pos name.length
    match compareEq methodName 0 pos name 0 length with
    | none => none
    | some false => some false
    | some true =>
      if pos = name.length then some true
      else compareEq methodName pos (methodName.length - pos) name pos (name.length - pos)
  | none => some (decide (methodName = name))

/-- /repo/src/metacontainer.cpp:88-126 (the `for_each` loop with the lambda above); outer `none` is an
    escaping exception, inner `none` is `nullptr`. -/
def findMethod (name : Str) : List Item → Option (Option Item)
  | [] => some none
  | it :: its =>
    match methodMatches it.name name with
    | none => none
    | some true => some (some it)
    | some false => findMethod name its

/-- `MetaCategory`, /repo/include/rtti/metaitem.h (order of the `m_lists` array,
    /repo/src/private/metacontainer_p.h:71-74) -/
inductive Cat | nmspace | cls | property | method | enum | constructor
deriving DecidableEq, Repr

/-- the six lists of `MetaContainerPrivate`, /repo/src/private/metacontainer_p.h:65-74 -/
abbrev Container := Cat → ItemList

namespace Container

def empty : Container := fun _ => ItemList.empty

/-- /repo/src/metacontainer.cpp:79-86 -/
def addItem (c : Container) (value : Option (Cat × Item)) : Container × Bool :=
  match value with
  | none => (c, false)
  | some (k, it) =>
    let r := (c k).add (some it)
    (fun k' => if k' = k then r.1 else c k', r.2)

/-- a history of additions and its answers -/
def run (c : Container) : List (Option (Cat × Item)) → Container × List Bool
  | [] => (c, [])
  | v :: h =>
    let r := c.addItem v
    let r' := r.1.run h
    (r'.1, r.2 :: r'.2)

end Container
end Rtti
