import Verif.Model.World
/-
Qualified names with their cache: /repo/src/metaitem.cpp:47-58, /repo/src/private/metaitem_p.h:85-125.
Single thread (the cache `m_qualifiedName` is written without a lock).
-/
namespace Rtti.QName
open Rtti

/-- `MetaItemPrivate::qualifiedName` / `makeQualifiedName`, /repo/src/metaitem.cpp:47-58.
    `cache p` is `m_qualifiedName` of `p`. -/
def qualifiedNameF (w : World) : Nat → (Ptr → Str) → Ptr → (Ptr → Str) × Res Str
  | 0, cache, _ => (cache, .diverge)
  | fuel + 1, cache, p =>
    if cache p = [] then
      match w.owner p with
      | none => (upd cache p [], .val [])
      | some o =>
        match qualifiedNameF w fuel cache o with
        | (cache', .val result) =>
          let q := result ++ [':', ':'] ++ w.name p
          (upd cache' p q, .val q)
        | r => r
    else (cache, .val (cache p))

structure State where
  world : World
  cache : Ptr → Str

def init : State := ⟨World.init, fun _ => []⟩

/-- `MetaItem::qualifiedName()` -/
def query (s : State) (p : Ptr) : State × Res Str :=
  let r := qualifiedNameF s.world s.world.depth s.cache p
  ({ s with cache := r.1 }, r.2)

inductive Op
  | api (op : World.Op)
  | query (p : Ptr)

def step (s : State) : Op → State
  | .api op => { s with world := (s.world.step op).1 }
  | .query p => (query s p).1

/-- `MetaNamespace::isGlobal`, /repo/src/metanamespace.cpp:19-23 -/
def isGlobal (w : World) (p : Ptr) : Bool := w.owner p == none

end Rtti.QName
