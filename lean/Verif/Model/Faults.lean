import Verif.Model.NamedList
import Verif.Model.World
/-
Defining attributes and members when memory runs out (or a variant's copy throws): where each allocation of
`NamedVariantList::set` (/repo/src/private/metaitem_p.h:53-70), `MetaItemList::add` (/repo/src/metacontainer.cpp:21-44) and the
`create` functions can fail, and what is left behind. `vector::emplace_back` and `unordered_map::emplace` have the
strong guarantee. The copies made by look-ups (`std::string{name}`, /repo/src/metaitem.cpp:26) are not made to fail.
-/
set_option autoImplicit false
namespace Rtti

/-- the allocation that fails, if the call gets to it -/
inductive Fault
  /-- none -/
  | none
  /-- the new object itself: its memory, its name, its value -/
  | object
  /-- the growth of `m_items` -/
  | grow
  /-- the node of `m_names` -/
  | index
  /-- assigning a copy to a value that is there -/
  | assign
deriving DecidableEq, Repr

/-- how a call ended: returned, or threw having lost track of so many objects -/
inductive Ended | ok | threw (leaked : Nat)
deriving DecidableEq, Repr

namespace NamedList
variable {V : Type}

/-- /repo/src/private/metaitem_p.h:53-70. Line 61: if the vector cannot grow, the object made for it belongs to nobody. Line
    62: by now the item is in `m_items`. Line 68: a failed assignment leaves the value as it was (`variant::operator=`
    copies first). -/
def setF (f : Fault) (l : NamedList V) (name : Str) (value : V) : NamedList V × Ended :=
  if name = [] then (l, .ok)
  else match l.names name with
    | none =>
      match f with
      | .object => (l, .threw 0)
      | .grow => (l, .threw 1)
      | .index => ({ l with items := l.items ++ [(name, value)] }, .threw 0)
      | _ =>
        let items := l.items ++ [(name, value)]
        (⟨items, fun n => if n = name then some (items.length - 1) else l.names n⟩, .ok)
    | some index =>
      match l.items[index]? with
      | none => (l, .threw 0)
      | some item =>
        if f = .assign then (l, .threw 0)
        else ({ l with items := l.items.set index (item.1, value) }, .ok)

/-- a history of calls; also the calls that returned, and the number of objects lost -/
def runF (l : NamedList V) : List (Fault × Str × V) → NamedList V × List (Str × V) × Nat
  | [] => (l, [], 0)
  | (f, n, v) :: h =>
    match l.setF f n v with
    | (l', .ok) => let r := l'.runF h; (r.1, (n, v) :: r.2.1, r.2.2)
    | (l', .threw k) => let r := l'.runF h; (r.1, r.2.1, k + r.2.2)

end NamedList

namespace ItemList

/-- /repo/src/metacontainer.cpp:21-44. Line 39: if the vector cannot grow nothing has been stored, and the caller's
    pointer is not deleted. Line 40: the item is in `m_items` already. The Boolean is the returned flag. -/
def addF (f : Fault) (l : ItemList) (v : Item) : ItemList × Bool × Ended :=
  let itemFound := l.items.any (fun it => v.ptr == it.ptr)
  let nameFound := (l.names v.name).isSome
  if !itemFound && !nameFound then
    match f with
    | .grow => (l, false, .threw 1)
    | .index => ({ l with items := l.items ++ [v] }, false, .threw 0)
    | _ =>
      let index := l.items.length
      (⟨l.items ++ [v], fun n => if n = v.name then some index else l.names n⟩, true, .ok)
  else (l, false, .ok)

/-- a history of additions; also the items accepted by calls that returned -/
def runF (l : ItemList) : List (Fault × Item) → ItemList × List Item
  | [] => (l, [])
  | (f, v) :: h =>
    let r := l.addF f v
    let r' := r.1.runF h
    (r'.1, if r.2.1 then v :: r'.2 else r'.2)

end ItemList

namespace World

/-- `getOrCreate` (`Model/World.lean`) with a failing allocation: `new` (line 30 of /repo/src/metanamespace.cpp and its
    likes) or one of `add`'s. The exception passes through: `result` is not deleted, nothing is stored. -/
def getOrCreateF (f : Fault) (w : World) (owner : Ptr) (k : Cat) (name : Str) (t : TypeId)
    (look : World → Res (Option Ptr)) (stored : World → Ptr → World) : World × Option (Res (Option Ptr)) :=
  match look w with
  | .val none =>
    if f = .object then (w, none)
    else
      let p := w.next
      let w1 := w.alloc k name owner t
      let r := (w1.cont owner k).addF f ⟨p, name⟩
      let w2 := { w1 with cont := upd w1.cont owner (fun k' => if k' = k then r.1 else w1.cont owner k') }
      match r.2.2 with
      | .threw _ => (w2, none)
      | .ok =>
        if r.2.1 then (stored w2 p, some (.val (some p)))
        else
          let w3 := w2.free p
          (w3, some (look w3))
  | r => (w, some r)

/-- /repo/src/metanamespace.cpp:25-38; `none`: `bad_alloc` -/
def createNamespaceF (f : Fault) (w : World) (owner : Ptr) (name : Str) : World × Option (Res (Option Ptr)) :=
  w.getOrCreateF f owner .nmspace name 0 (fun w => w.getItem owner .nmspace name) (fun w _ => w)

/-- /repo/src/metaclass.cpp:17-42 -/
def createClassF (f : Fault) (w : World) (owner : Ptr) (name : Str) (t : TypeId) : World × Option (Res (Option Ptr)) :=
  match w.getItem owner .cls name with
  | .val none =>
    if !w.valid t then (w, some (.throw .invalidTypeId))
    else if (w.metaClass t).isSome then (w, some (.throw .duplicateClass))
    else w.getOrCreateF f owner .cls name t (fun w => w.getItem owner .cls name)
      (fun w p => { w with metaClass := upd w.metaClass t (some p) })
  | r => (w, some r)

end World
end Rtti
