import Verif.Model.NamedList
import Verif.Model.ItemList
/-
A client's loop over members or attributes by index,
  `for (std::size_t i = 0; i < c.methodCount(); ++i) { auto *m = c.method(i); ... }`
  `for (std::size_t i = 0; i < c.attributeCount(); ++i) { auto &n = c.attributeName(i); auto &v = c.attribute(i); ... }`
while other threads add items or set attributes. Every call is one critical section
(/repo/src/metacontainer.cpp:46-52, 67-71, /repo/src/metaitem.cpp:13-19, 33-39,
/repo/src/private/metaitem_p.h:37-41), so between any two calls of the loop there may be any calls of
the others. The value of an attribute is copied at the moment of the call (what happens when the
reference is read later is C65). Lazy definitions are not modelled: the container is defined already.
-/
set_option autoImplicit false
namespace Rtti.IndexLoop

/-- where the loop over members stands: about to ask for the size, about to ask for item `i`, after the loop -/
inductive Pc | test (i : Nat) | fetch (i : Nat) | done
deriving DecidableEq, Repr

structure Walk where
  list : ItemList
  pc : Pc
  seen : List (Option Item)

/-- one critical section: of another thread, adding an item, or of the loop -/
inductive Ev | add (v : Option Item) | me
deriving DecidableEq, Repr

/-- `MetaItemList::add` /repo/src/metacontainer.cpp:21-44; `size` 67-71; `get(index)` 46-52 -/
def Walk.step (s : Walk) : Ev → Walk
  | .add v => { s with list := (s.list.add v).1 }
  | .me => match s.pc with
    | .test i => { s with pc := if i < s.list.size then .fetch i else .done }
    | .fetch i => { s with pc := .test (i + 1), seen := s.seen ++ [s.list.getAt i] }
    | .done => s

def Walk.run (s : Walk) : List Ev → Walk
  | [] => s
  | e :: es => (s.step e).run es

/-- the loop starts on the list `l` -/
def walk (l : ItemList) : Walk := ⟨l, .test 0, []⟩

/-- the loop over attributes asks for the name and for the value separately -/
inductive APc | test (i : Nat) | name (i : Nat) | value (i : Nat) (name : Str) | done
deriving DecidableEq, Repr

structure AWalk (V : Type) where
  list : NamedList V
  pc : APc
  seen : List (Str × V)

inductive AEv (V : Type) | set (name : Str) (value : V) | me
deriving DecidableEq, Repr

/-- `NamedVariantList::set` /repo/src/private/metaitem_p.h:53-70 (`none` is an exception: here the list
    stays); `size` 37-41; `name` /repo/src/metaitem.cpp:33-39; `get(index)` 13-19 -/
def AWalk.step {V : Type} (emptyV : V) (s : AWalk V) : AEv V → AWalk V
  | .set n v => { s with list := (s.list.set n v).getD s.list }
  | .me => match s.pc with
    | .test i => { s with pc := if i < s.list.size then .name i else .done }
    | .name i => { s with pc := .value i (s.list.nameAt i) }
    | .value i n => { s with pc := .test (i + 1), seen := s.seen ++ [(n, s.list.getAt emptyV i)] }
    | .done => s

def AWalk.run {V : Type} (emptyV : V) (s : AWalk V) : List (AEv V) → AWalk V
  | [] => s
  | e :: es => (s.step emptyV e).run emptyV es

def awalk {V : Type} (l : NamedList V) : AWalk V := ⟨l, .test 0, []⟩

end Rtti.IndexLoop
