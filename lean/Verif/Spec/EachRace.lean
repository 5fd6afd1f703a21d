import Verif.Model.EachRace
/-! Programs that take locks in order, and programs whose enumerations only read. -/
set_option autoImplicit false
namespace Rtti.EachRace

/-- All lists the program uses have at least rank `r`, and a function given to `for_each` uses lists of greater rank than the one
    enumerated only. `owns l x`: `x` is an item that may be in list `l`. -/
inductive Ordered (rank : Lst → Nat) (owns : Lst → Item → Prop) : Nat → Prog → Prop
  | ret {r : Nat} (b : Bool) : Ordered rank owns r (.ret b)
  | read {r : Nat} {l : Lst} {k : ItemList → Prog} : r ≤ rank l → (∀ L : ItemList, (∀ x ∈ L.items, owns l x) → Ordered rank owns r (k L)) →
      Ordered rank owns r (.read l k)
  | add {r : Nat} {l : Lst} {x : Item} {k : Bool → Prog} : r ≤ rank l → owns l x → (∀ b, Ordered rank owns r (k b)) →
      Ordered rank owns r (.add l x k)
  | each {r : Nat} {l : Lst} {f : Item → Prog} {k : Prog} : r ≤ rank l → (∀ x, owns l x → Ordered rank owns (rank l + 1) (f x)) →
      Ordered rank owns r k → Ordered rank owns r (.each l f k)

/-- nothing is added -/
inductive ReadOnly : Prog → Prop
  | ret (b : Bool) : ReadOnly (.ret b)
  | read {l : Lst} {k : ItemList → Prog} : (∀ L, ReadOnly (k L)) → ReadOnly (.read l k)
  | each {l : Lst} {f : Item → Prog} {k : Prog} : (∀ x, ReadOnly (f x)) → ReadOnly k → ReadOnly (.each l f k)

/-- nothing is added by the functions given to `for_each` -/
inductive ReadingEach : Prog → Prop
  | ret (b : Bool) : ReadingEach (.ret b)
  | read {l : Lst} {k : ItemList → Prog} : (∀ L, ReadingEach (k L)) → ReadingEach (.read l k)
  | add {l : Lst} {x : Item} {k : Bool → Prog} : (∀ b, ReadingEach (k b)) → ReadingEach (.add l x k)
  | each {l : Lst} {f : Item → Prog} {k : Prog} : (∀ x, ReadOnly (f x)) → ReadingEach k → ReadingEach (.each l f k)

end Rtti.EachRace
