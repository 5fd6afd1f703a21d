import Verif.Spec.Hierarchy
/-
What a get-or-create call must do, in terms of the state before and after.
-/
namespace Rtti.Spec
open Rtti

/-- `p` is a new object of kind `k`, name `n`, without members, appended to the list `k` of `o`; nothing else changed -/
structure CreatedObject (w w' : World) (o : Ptr) (k : Cat) (n : Str) (p : Ptr) : Prop where
  fresh : w.kind p = none
  kind : w'.kind p = some k
  name : w'.name p = n
  owner : w'.owner p = some o
  items : (w'.cont o k).items = (w.cont o k).items ++ [⟨p, n⟩]
  noMembers : ∀ k', (w'.cont p k').items = []
  otherLists : ∀ c k', w.isContainer c = true → (c ≠ o ∨ k' ≠ k) →
    (w'.cont c k').items = (w.cont c k').items
  otherObjects : ∀ q, q ≠ p → w'.kind q = w.kind q ∧ w'.name q = w.name q ∧ w'.owner q = w.owner q
    ∧ w'.cls q = w.cls q

/-- `look` is the public look-up the create function is paired with -/
def DefinesOnce (w w' : World) (res : Res (Option Ptr)) (look : World → Res (Option Ptr))
    (o : Ptr) (k : Cat) (n : Str) : Prop :=
  (∃ p, look w = .val (some p) ∧ res = .val (some p) ∧ w' = w) ∨
  (look w = .val none ∧ ∃ p, res = .val (some p) ∧ CreatedObject w w' o k n p ∧ look w' = .val (some p))

/-- all declared routes from `d` to `b` give the same address (one `b` subobject) -/
def Coherent (w : World) (d b : Ptr) (a : Addr) : Prop :=
  ∀ fs gs, Path w d b fs → Path w d b gs → applyCasts fs a = applyCasts gs a

end Rtti.Spec

namespace Rtti.Spec
open Rtti
/-- `w'` is reached from `w` by more API calls -/
inductive Later (rank : TypeId → Nat) (w : World) : World → Prop
  | refl : Later rank w w
  | step {w' : World} (op : World.Op) : Later rank w w' → Legal rank w' op →
      (w'.step op).2 ≠ .ub → (w'.step op).2 ≠ .diverge → Later rank w (w'.step op).1
  | missed {w' : World} (o : Ptr) (k : Cat) (n : Str) : Later rank w w' → w'.isContainer o = true → k = .method ∨ k = .property →
      Later rank w (missed w' o k n)
end Rtti.Spec
