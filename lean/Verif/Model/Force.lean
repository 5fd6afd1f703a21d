import Verif.Model.Lazy
/-
`MetaContainer::forceDeferredDefine` (/repo/src/metacontainer.cpp:169-192) and the enumerations that call user
code while they hold the lock of a list (`MetaContainer::for_each_class`, `for_each_method`,
/repo/src/metacontainer.cpp:262-273, 338-349, over `MetaItemList::for_each`, /repo/src/private/metacontainer_p.h:33-42),
on top of `Model/Lazy.lean`.

`for_each` holds the list's `shared_mutex` in shared mode. `MetaItemList::add` (/repo/src/metacontainer.cpp:21-44)
wants it in exclusive mode, so an addition to that list made by the same thread meanwhile never returns. `add`
is the only function that changes the list, and it only lets it grow: the model runs the visits, then compares
the lengths, and answers `diverge` if the list has grown.

Simplifications: an addition that would be refused (possible only for the empty name) is not noticed; taking the
lock in shared mode twice in the same thread is allowed (the standard makes it undefined, implementations accept
it unless a writer waits); `forceDeferredDefine` and the enumerations are not commands of callbacks.
-/
set_option autoImplicit false
namespace Rtti.Lazy
open LM

/-- the loop of `MetaItemList::for_each`, /repo/src/private/metacontainer_p.h:36-40 -/
def visit (f : Ptr → LM Bool) : List Item → LM Unit
  | [] => pure ()
  | it :: rest => (f it.ptr).bind fun more => if more then visit f rest else pure ()

/-- `MetaItemList::for_each`, /repo/src/private/metacontainer_p.h:33-42 -/
def forEach (p : Ptr) (k : Cat) (f : Ptr → LM Bool) : LM Unit := fun s =>
  let r := visit f (s.w.cont p k).items s
  if (r.1.w.cont p k).items.length = (s.w.cont p k).items.length then r else (r.1, .diverge)

/-- `forceDeferredDefine(ForceDeferred::Recursive)`, /repo/src/metacontainer.cpp:173-191; `n` is for the callbacks,
    the second number bounds the depth of the recursion -/
def force (n : Nat) : Nat → Ptr → LM Unit
  | 0, _ => diverge
  | d + 1, p =>
    (check n p).bind fun _ =>
    (forEach p .cls fun q => (force n d q).bind fun _ => pure true).bind fun _ =>
    forEach p .nmspace fun q => (force n d q).bind fun _ => pure true

/-- `forceDeferredDefine(ForceDeferred::SelfOnly)`, /repo/src/metacontainer.cpp:171-172 -/
def forceSelf (n : Nat) (p : Ptr) : LM Unit := check n p

/-- `for_each_class` (`k = .cls`) and `for_each_method` (`k = .method`), /repo/src/metacontainer.cpp:262-273, 338-349;
    the user's function runs a program for each item and says whether to go on -/
def enumerate (n : Nat) (p : Ptr) (k : Cat) (func : Ptr → List Cmd × Bool) : LM Unit :=
  (check n p).bind fun _ =>
  forEach p k fun q => (execs (check n) n (func q).1).bind fun _ => pure (func q).2

end Rtti.Lazy
