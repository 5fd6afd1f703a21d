import Verif.Model.World
/-
The end of the program: destruction of the meta-objects and of the type registry.
  /repo/src/metanamespace.cpp:13-17 (function-local static), /repo/src/metatype.cpp:44-52, 95-102 (the other one),
  /repo/src/private/metacontainer_p.h:12-34, 65-79, /repo/src/metaitem.cpp:75-76.
Both statics are destroyed in the reverse of the order in which their constructors finished
([basic.start.term]); destructors of user statics run before, between and after them.
Simplifications: the elements of a vector are destroyed from first to last (libstdc++ and MSVC; the order is unspecified);
invokers, attributes and pending callbacks, which an item owns through `unique_ptr`s, are not shown.
-/
set_option autoImplicit false
namespace Rtti.Shutdown
open Rtti

/-- the members of `MetaContainerPrivate` are destroyed in reverse order of declaration,
    /repo/src/private/metacontainer_p.h:65-70 -/
def order : List Cat := [.constructor, .enum, .method, .property, .cls, .nmspace]

/-- `~vector<unique_ptr<MetaItem>>` -/
def destroyItems (d : World → Ptr → World × List Ptr × Res Unit) : World → List Item → World × List Ptr × Res Unit
  | w, [] => (w, [], .val ())
  | w, it :: its =>
    match d w it.ptr with
    | (w, l, .val ()) =>
      match destroyItems d w its with
      | (w, l', r) => (w, l ++ l', r)
    | r => r

/-- the lists of a container, one after the other -/
def destroyLists (d : World → Ptr → World × List Ptr × Res Unit) (p : Ptr) : World → List Cat → World × List Ptr × Res Unit
  | w, [] => (w, [], .val ())
  | w, k :: ks =>
    match destroyItems d w (w.cont p k).items with
    | (w, l, .val ()) =>
      match destroyLists d p w ks with
      | (w, l', r) => (w, l ++ l', r)
    | r => r

/-- `delete item` (`MetaItemDeleter`) and the end of the static namespace: the destructor of the item, then of what its
    `d_ptr` owns. Also lists the objects destroyed, in order. Destroying an object that does not live is undefined. -/
def destroyF : Nat → World → Ptr → World × List Ptr × Res Unit
  | 0, w, _ => (w, [], .diverge)
  | fuel + 1, w, p =>
    match w.kind p with
    | none => (w, [], .ub)
    | some k =>
      let w1 := w.free p
      if k = .nmspace ∨ k = .cls then
        match destroyLists (destroyF fuel) p w1 order with
        | (w, l, r) => (w, p :: l, r)
      else (w1, [p], .val ())

/-- end of the static `globalNamespace`, /repo/src/metanamespace.cpp:15 -/
def destroyGlobal (w : World) : World × List Ptr × Res Unit := destroyF w.depth w World.globalNs

/-- end of the static `CustomTypes`, /repo/src/metatype.cpp:46-52, 95-102: from now on `customTypes()` is null and
    `MetaType{id}` invalid for every id (/repo/src/metatype.cpp:110-114) -/
def destroyTypes (w : World) : World := { w with valid := fun _ => false }

/-- which static was made first: the other one goes first -/
inductive Made | namespaceFirst | typesFirst
deriving DecidableEq, Repr

/-- the world as destructors of user statics see it that run between the two library statics -/
def between (m : Made) (w : World) : World × Res Unit :=
  match m with
  | .namespaceFirst => (destroyTypes w, .val ())
  | .typesFirst => let r := destroyGlobal w; (r.1, r.2.2)

end Rtti.Shutdown
