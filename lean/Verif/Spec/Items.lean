import Verif.Model.ItemList
/-
Specifications about member lists and method look-up, in terms of plain lists and strings.
(Only the record type `Item` and the names of the categories are taken from the model.)
-/
namespace Rtti.Spec

/-- The members after a history of additions: an addition is accepted iff neither the object nor its
    name is there already. -/
inductive Accepted : List (Option Item) → List Item → List Bool → Prop
  | nil : Accepted [] [] []
  | null {h its bs} : Accepted h its bs → Accepted (h ++ [none]) its (bs ++ [false])
  | accept {h its bs} (v : Item) : Accepted h its bs →
      (∀ x ∈ its, x.ptr ≠ v.ptr) → (∀ x ∈ its, x.name ≠ v.name) →
      Accepted (h ++ [some v]) (its ++ [v]) (bs ++ [true])
  | refuse {h its bs} (v : Item) : Accepted h its bs →
      ((∃ x ∈ its, x.ptr = v.ptr) ∨ (∃ x ∈ its, x.name = v.name)) →
      Accepted (h ++ [some v]) its (bs ++ [false])

/-- the additions of a category -/
def ofCat (k : Cat) (h : List (Option (Cat × Item))) : List (Option Item) :=
  (h.filterMap id).filterMap fun p => if p.1 = k then some (some p.2) else none

/-- the answers to the additions of a category -/
def answersOf (k : Cat) (h : List (Option (Cat × Item))) (bs : List Bool) : List Bool :=
  ((h.zip bs).filter fun p => p.1.map (·.1) = some k).map (·.2)

/-- A query denotes a method: it is the full signature, or the part before the first parenthesis. -/
def Denotes (query signature : Str) : Prop :=
  signature = query ∨ ∃ rest, signature = query ++ '(' :: rest ∧ '(' ∉ query

/-- `x` is the first element satisfying `P` -/
def IsFirst {A : Type} (P : A → Prop) (as : List A) (x : A) : Prop :=
  ∃ pre post, as = pre ++ x :: post ∧ P x ∧ ∀ y ∈ pre, ¬ P y

end Rtti.Spec
