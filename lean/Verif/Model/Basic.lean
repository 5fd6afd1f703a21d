/-
Shared vocabulary of the model.
-/
namespace Rtti

/-- `std::string` / `std::string_view`: a finite sequence of characters. -/
abbrev Str := List Char

/- Object identity (`MetaItem *`, heap addresses, ...). Address `0` is never handed out
    by the allocators of the model, it plays `nullptr` where a raw pointer value matters. -/
macro "Ptr" : term => `(Nat)

/-- A stateful user callback returning `bool`, as passed to the `for_each` functions. -/
abbrev Callback (S A : Type) := S → A → S × Bool

/-- `for (auto const &item : items) if (!func(item)) break;`
    /repo/src/private/metaitem_p.h:76-80, /repo/src/private/metacontainer_p.h:40-44,
    /repo/src/private/metaclass_p.h:101-105 (the three loops are the same). -/
def forEach {S A : Type} (f : Callback S A) : S → List A → S
  | s, [] => s
  | s, a :: as =>
    match f s a with
    | (s', true) => forEach f s' as
    | (s', false) => s'

end Rtti
